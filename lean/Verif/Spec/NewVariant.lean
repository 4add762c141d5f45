import Verif.Model.DeEnum
/-
Programs to whose enums variants are added.
-/

set_option autoImplicit false

namespace Yaserde

/-- None of the names `K` is the name of the element, an attribute value, or the whole text. -/
def REv.Free (K : Str → Prop) : REv → Prop
  | .start n as _ => ¬ K n.loc ∧ ∀ a ∈ as, ¬ K a.value
  | .chars s => ¬ K s
  | _ => True

/-- A variant that can be read: not one with named fields. -/
def VariantDef.Legible (v : VariantDef) : Prop := ∀ fs, v.shape ≠ .named fs

/-- A variant after the variants `vs` that is never read: it has named fields, or a variant before it has its name. -/
def VariantDef.Hidden (vs : List VariantDef) (w : VariantDef) : Prop :=
  ¬ w.Legible ∨ ∃ v ∈ vs, v.Legible ∧ v.attrs.rename.getD v.ident = w.attrs.rename.getD w.ident

/-- The second definition is the first one, or the same enum with more variants at its end, which are hidden or have names in `K`. -/
inductive TypeDef.Gains (K : Str → Prop) : TypeDef → TypeDef → Prop
  | same (b : TypeDef) : Gains K b b
  | enum (d : EnumDef) (ws : List VariantDef) (h : ∀ w ∈ ws, w.Hidden d.variants ∨ K (w.attrs.rename.getD w.ident)) :
      Gains K (.enum d) (.enum { d with variants := d.variants ++ ws })

/-- The same for every type of a program. -/
def Env.Gains (K : Str → Prop) (env env' : Env) : Prop :=
  ∀ p, (env p = none ∧ env' p = none) ∨ ∃ b b', env p = some b ∧ env' p = some b' ∧ b.Gains K b'

/-- No attribute is of a derived type. -/
def ScalarAttrs (env : Env) : Prop :=
  ∀ p d, env p = some (.struct d) → ∀ f ∈ d.fields, f.attrs.isAttr = true → ∀ q, f.ty.core ≠ .struct q

end Yaserde
