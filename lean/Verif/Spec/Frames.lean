import Verif.Model.Frames
import Verif.Spec.Total
import Verif.Spec.Levels
/-
Vocabulary for the statements about nested calls.
-/

set_option autoImplicit false

namespace Yaserde

/-- The type definition mentions the type `q`: a field or the payload of a one-field variant is a `q`, an `Option<q>` or a `Vec<q>`. -/
def TypeDef.Mentions (t : TypeDef) (q : Path) : Prop :=
  match t with
  | .struct d => ∃ f ∈ d.fields, f.ty.core = .struct q
  | .enum d => ∃ v ∈ d.variants, ∃ t, v.shape = .newtype t ∧ t.core = .struct q
  | .prim _ => False

/-- The types of the program do not contain themselves: they can be ranked. -/
def Acyclic (env : Env) (rank : Path → Nat) : Prop :=
  ∀ p t, env p = some t → ∀ q, t.Mentions q → rank q < rank p

/-- `k` nested calls are enough for the text: `from_str` does what it does on a stack without bounds. -/
def FramesSuffice (L : Lib) (env : Env) (k : Nat) (p : Path) (s : Str) : Prop :=
  ∀ r, r ≠ .diverge → ((∃ fuel, fromStrF L env k fuel p s = r) ↔ ∃ n, deFromStr L env n p s = r)

/-- From some budget on, the stack of `k` frames overflows. -/
def Overflows (L : Lib) (env : Env) (k : Nat) (p : Path) (s : Str) : Prop :=
  ∃ N, ∀ fuel, N ≤ fuel → fromStrF L env k fuel p s = .panic c!"stack overflow"

/-- A chain of values inside each other, the first of type `p`, has at most `k` members. -/
def Nests (env : Env) : Nat → Path → Val → Prop
  | 0, _, _ => False
  | k + 1, p, v => ∀ t q x, env p = some t → Below t v q x → Nests env k q x

/-- The type definition contains the type `q`: a field or the payload of a variant is a `q`, in any number of `Option` and `Vec`. -/
def TypeDef.Contains (t : TypeDef) (q : Path) : Prop :=
  match t with
  | .struct d => ∃ f ∈ d.fields, f.ty.Leads q
  | .enum d => ∃ v ∈ d.variants, (∃ t, v.shape = .newtype t ∧ t.Leads q) ∨ ∃ fds, v.shape = .named fds ∧ ∃ f ∈ fds, f.ty.Leads q
  | .prim _ => False

end Yaserde
