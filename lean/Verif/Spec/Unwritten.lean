import Verif.Spec.Blocks
/-
What the output does not depend on.
-/

set_option autoImplicit false

namespace Yaserde

/-- A field of which neither of two values of the struct shows anything by itself: an attribute that `skip_serializing_if` or `default`
suppresses in both, or of a `Vec` type; an element with `skip_serializing`, or suppressed in both.  With `head` only attributes count. -/
def FieldDef.Unwritten (head : Prop) (self self' : Val) (f : FieldDef) (a b : Val) : Prop :=
  if f.attrs.isAttr = true then (∃ t, f.ty = .vec t) ∨ ¬ f.selected self a ∧ ¬ f.selected self' b
  else head ∨ f.attrs.text = false ∧ (f.attrs.skipSer = true ∨ ¬ f.selected self a ∧ ¬ f.selected self' b)

/-- Two values that differ in fields only that are not written (`O` says which in a struct), at any depth.  If such a field is a
flattened struct its attributes are written even so: of these it has to have the same (`head`). -/
inductive SameOut (env : Env) : Prop → FTy → Val → Val → Prop
  | refl (head : Prop) (t : FTy) (a : Val) : SameOut env head t a a
  | some (t : FTy) (a b : Val) (h : SameOut env False t a b) : SameOut env False (.opt t) (.some a) (.some b)
  | vec (t : FTy) (as bs : List Val) (hlen : as.length = bs.length)
      (h : ∀ (i : Nat) (a b : Val), as[i]? = Option.some a → bs[i]? = Option.some b → SameOut env False t a b) :
      SameOut env False (.vec t) (.vec as) (.vec bs)
  | struct (head : Prop) (p : Path) (d : StructDef) (as bs : List Val) (hp : env p = Option.some (.struct d)) (hlen : as.length = bs.length)
      (O : Nat → Prop)
      (hO : ∀ (i : Nat) (f : FieldDef) (a b : Val), d.fields[i]? = Option.some f → as[i]? = Option.some a → bs[i]? = Option.some b →
        O i → f.Unwritten head (.struct as) (.struct bs) a b)
      (hflat : ∀ (i : Nat) (f : FieldDef) (a b : Val), d.fields[i]? = Option.some f → as[i]? = Option.some a → bs[i]? = Option.some b →
        O i → f.attrs.isAttr = false → f.attrs.flatten = true → ∀ q, f.ty = .struct q → SameOut env True (.struct q) a b)
      (hsel : ∀ (i : Nat) (f : FieldDef) (a b : Val), d.fields[i]? = Option.some f → as[i]? = Option.some a → bs[i]? = Option.some b →
        ¬ O i → (f.selected (.struct as) a ↔ f.selected (.struct bs) b))
      (h : ∀ (i : Nat) (f : FieldDef) (a b : Val), d.fields[i]? = Option.some f → as[i]? = Option.some a → bs[i]? = Option.some b →
        ¬ O i → SameOut env False f.ty a b) :
      SameOut env head (.struct p) (.struct as) (.struct bs)
  | newtype (p : Path) (d : EnumDef) (i : Nat) (vd : VariantDef) (t : FTy) (a b : Val) (hp : env p = Option.some (.enum d))
      (hv : d.variants[i]? = Option.some vd) (hs : vd.shape = .newtype t) (h : SameOut env False t a b) :
      SameOut env False (.struct p) (.enum i [a]) (.enum i [b])
  /-- `Option` fields of a variant are never written. -/
  | named (p : Path) (d : EnumDef) (i : Nat) (vd : VariantDef) (fds : List FieldDef) (as bs : List Val) (hp : env p = Option.some (.enum d))
      (hv : d.variants[i]? = Option.some vd) (hs : vd.shape = .named fds) (hlen : as.length = bs.length)
      (h : ∀ (j : Nat) (f : FieldDef) (a b : Val), fds[j]? = Option.some f → as[j]? = Option.some a → bs[j]? = Option.some b →
        (∀ t, f.ty ≠ .opt t) → SameOut env False f.ty a b) : SameOut env False (.struct p) (.enum i as) (.enum i bs)
  /-- The only attribute of an enum is its tag. -/
  | variant (p : Path) (d : EnumDef) (i : Nat) (as bs : List Val) (hp : env p = Option.some (.enum d)) :
      SameOut env True (.struct p) (.enum i as) (.enum i bs)
  | untagged (p : Path) (d : EnumDef) (i j : Nat) (as bs : List Val) (hp : env p = Option.some (.enum d)) (ht : d.attrs.tag = none) :
      SameOut env True (.struct p) (.enum i as) (.enum j bs)

end Yaserde
