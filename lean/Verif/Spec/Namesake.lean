import Verif.Spec.RoundTrip
import Verif.Spec.Open
/-
Programs in which a struct is written under the name of one of its own fields, as in recursive types
(`struct Node { node: Vec<Node> }`), and survives nevertheless.
-/

set_option autoImplicit false

namespace Yaserde

/-- The struct with another `rename`: its own element is called differently, and nothing else. -/
def StructDef.ownedBy (d : StructDef) (r : Option Str) : StructDef := { d with attrs := { d.attrs with rename := r } }

/-- The program with other names for the structs' own elements, where `own` gives one. -/
def Env.owned (env : Env) (own : Path → Option Str) : Env := fun p =>
  match env p with
  | some (.struct d) => some (.struct (d.ownedBy ((own p).or d.attrs.rename)))
  | t => t

/-- Variants have no payload or a scalar one. -/
def LeafEnums (env : Env) : Prop :=
  ∀ p d, env p = some (.enum d) → ∀ v ∈ d.variants, v.shape = .unit ∨ ∃ t, v.shape = .newtype (.simple t)

/-- If elements of this name belong to a field of the struct then that field holds structs, and of all fields that are
written as elements it is the only one; or it comes first and is always written. -/
def StructDef.Headed (env : Env) (d : StructDef) (name : Str) : Prop :=
  ∀ i f, d.fieldFor ⟨name, none, none⟩ = some i → d.fields[i]? = some f →
    ∃ q e, f.ty.core = .struct q ∧ env q = some (.struct e) ∧
      ∀ (j : Nat) (g : FieldDef), d.fields[j]? = some g → g.isElem = true → g.attrs.text = false →
        j = i ∨ (i < j ∧ f.ty = .struct q ∧ f.attrs.text = false ∧ f.dflt = none ∧ f.skipIf = none ∧ f.attrs.skipSer = false)

end Yaserde
