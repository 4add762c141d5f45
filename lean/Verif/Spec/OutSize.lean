import Verif.Spec.Size
import Verif.Spec.Encode
/-
What the text of a program itself says about the length of what is written.
-/

set_option autoImplicit false

namespace Yaserde

/-- The characters of namespace declarations. -/
def declsSize (m : NsMap) : Nat := (m.map fun d => 10 + d.1.length + d.2.length).sum

/-- `c` bounds the names of elements and attributes and the namespace declarations of each type, what the `Display` of the
user's newtypes makes of a value, and the texts of floating-point numbers. -/
structure Terse (L : Lib) (env : Env) (c : Nat) : Prop where
  structs : ∀ p d, env p = some (.struct d) → (d.attrs.written d.name).length ≤ c ∧ declsSize d.attrs.decls ≤ c ∧
    ∀ f ∈ d.fields, (f.written d.attrs).length ≤ c
  enums : ∀ p d, env p = some (.enum d) → (d.attrs.written d.name).length ≤ c ∧ declsSize d.attrs.decls ≤ c ∧
    (∀ t, d.attrs.tag = some t → t.length ≤ c) ∧
    ∀ v ∈ d.variants, (v.written d.attrs).length ≤ c ∧ (v.attrs.rename.getD v.ident).length ≤ c ∧
      ∀ fds, v.shape = .named fds → ∀ f ∈ fds, (f.written d.attrs).length ≤ c
  prims : ∀ p d, env p = some (.prim d) → d.name.length ≤ c ∧ ∀ v, d.dom v = true → (d.toStr v).length ≤ c * v.size
  f32 : ∀ b, (L.showF32 b).length ≤ c
  f64 : ∀ b, (L.showF64 b).length ≤ c

/-- Used as the type of an attribute. -/
def AttrOf (env : Env) (p : Path) : Prop :=
  ∃ q d f, env q = some (.struct d) ∧ f ∈ d.fields ∧ f.attrs.isAttr = true ∧ f.ty.core = .struct p

/-- No attribute has a derived type. -/
def NoAttrOf (env : Env) : Prop := ∀ p, ¬ AttrOf env p

end Yaserde
