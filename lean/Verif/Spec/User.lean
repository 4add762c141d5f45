import Verif.Model.User
import Verif.Spec.Decode
import Verif.Proofs.Reader
/-
What the generated code expects of an implementation of `YaDeserialize`, hand-written or derived.
(`At depth es fin rd`: the reader `rd` stands in front of the events `es`, with `depth` elements open.)
-/

set_option autoImplicit false

namespace Yaserde

/-- The run has the outcome `r`; if that is a success, the reader is left as `Q` says. -/
def EndsWith (run : Res Val × Rd) (r : Res Val) (Q : Rd → Prop) : Prop :=
  match r with
  | .ok v => ∃ rd', run = (.ok v, rd') ∧ Q rd'
  | .err e => run.1 = .err e
  | .panic e => run.1 = .panic e
  | .diverge => False

/-- The contract.  Called in front of the start tag of the element, inside a document, the implementation has the outcome `r`,
whatever stands around; when it succeeds it leaves the reader in front of the end tag of the element, or in front of a text
before that. -/
def Obeys (F : Nat → D Val) (x : Node) (r : Res Val) : Prop :=
  ∃ left : List REv, (left = [] ∨ ∃ t, left = [.chars t]) ∧
  ∃ N, ∀ n, N ≤ n → ∀ (dep : Nat) (rest : List REv) (fin : Option Str) (rd : Rd), 1 ≤ dep →
    At dep (x.events ++ rest) fin rd →
    EndsWith (F n rd) r fun rd' => At (dep + 1) (left ++ .endE x.name :: rest) fin rd'

/-- As a document: with large budgets the implementation has the outcome `r` on the text. -/
def ReadsDoc (L : Lib) (F : Nat → D Val) (s : Str) (r : Res Val) : Prop :=
  r ≠ .diverge ∧ ∃ N, ∀ n, N ≤ n → (F n (Rd.new (L.parse s))).1 = r

/-- The children of a struct's element are of the kind its fields expect: an element of a scalar field contains text only.  (What
the elements of other fields contain is the business of the implementations of their types.) -/
def StructDef.KidOk (d : StructDef) : Node → Prop
  | .text s => s ≠ []
  | .elem n _ _ ks => n.ns ≠ some [] ∧
    ∀ i f t, d.fieldFor n = some i → d.fields[i]? = some f → f.ty.core = .simple t → textOnly ks

/-- The element belongs to a field of this (not scalar) type. -/
def StructDef.FieldOfType (d : StructDef) (x : Node) (q : Path) : Prop :=
  ∃ i f, d.fieldFor x.name = some i ∧ d.fields[i]? = some f ∧ f.ty.core = .struct q

/-- What attributes of types that are not scalar are read as, given the outcomes `u` for their texts. -/
def attrsBy (u : Path → Str → Res Val) : Node → Path → Res Val
  | .text s, q => u q s
  | .elem .., _ => .err []

end Yaserde
