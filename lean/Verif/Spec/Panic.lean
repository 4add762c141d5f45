import Verif.Spec.Total
import Verif.Spec.Decode
/-
Vocabulary for the statements about which programs panic.
-/

set_option autoImplicit false

namespace Yaserde

/-- The type `p` has a field or a one-field variant whose element type is `q`. -/
inductive Refers (env : Env) : Path → Path → Prop
  | field {p q : Path} {d : StructDef} {f : FieldDef} : env p = some (.struct d) → f ∈ d.fields → f.ty.core = .struct q → Refers env p q
  | variant {p q : Path} {d : EnumDef} {v : VariantDef} {t : FTy} : env p = some (.enum d) → v ∈ d.variants → v.shape = .newtype t →
      t.core = .struct q → Refers env p q

/-- The types a value of type `p` can contain. -/
inductive Reaches (env : Env) (p : Path) : Path → Prop
  | refl : Reaches env p p
  | step {q r : Path} : Reaches env p q → Refers env q r → Reaches env p r

/-- What the Rust compiler and the macro check of one type: it is declared, the types of its fields and variants are scalars
or paths, and flattened fields have a type the macro accepts. -/
structure Checked (env : Env) (p : Path) : Prop where
  declared : env p ≠ none
  fields : ∀ d, env p = some (.struct d) → ∀ f ∈ d.fields, (∃ s, f.ty.core = .simple s) ∨ ∃ q, f.ty.core = .struct q
  flats : ∀ d, env p = some (.struct d) → ∀ f ∈ d.fields, f.attrs.isAttr = false → f.attrs.flatten = true →
    (∃ q, f.ty = .struct q) ∨ ∃ q, f.ty = .opt (.struct q)
  variants : ∀ d, env p = some (.enum d) → ∀ v ∈ d.variants, ∀ t, v.shape = .newtype t →
    (∃ s, t.core = .simple s) ∨ ∃ q, t.core = .struct q

/-- The enum `p` has a one-field variant with a scalar that not every text is the text of. -/
def Unwraps (L : Lib) (env : Env) (p : Path) : Prop :=
  ∃ d v t s x e, env p = some (.enum d) ∧ v ∈ d.variants ∧ v.shape = .newtype t ∧ t.core = .simple s ∧ parseS L s x = .error e

end Yaserde
