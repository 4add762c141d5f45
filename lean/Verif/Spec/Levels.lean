import Verif.Model.Schema
/-
How deep a value is.
-/

set_option autoImplicit false

namespace Yaserde

mutual
  /-- The number of values inside each other; options and vectors are not counted themselves. -/
  def Val.levels : Val → Nat
    | .none => 0
    | .some x => x.levels
    | .vec xs => Val.levelsL xs
    | .struct fs => 1 + Val.levelsL fs
    | .enum _ fs => 1 + Val.levelsL fs
    | .str _ | .bool _ | .int _ | .f32 _ | .f64 _ => 1
  def Val.levelsL : List Val → Nat
    | [] => 0
    | x :: xs => max x.levels (Val.levelsL xs)
end

/-- The type is `q` in any number of `Option` and `Vec`. -/
inductive FTy.Leads : FTy → Path → Prop
  | here {q : Path} : FTy.Leads (.struct q) q
  | opt {t : FTy} {q : Path} (h : t.Leads q) : FTy.Leads (.opt t) q
  | vec {t : FTy} {q : Path} (h : t.Leads q) : FTy.Leads (.vec t) q

/-- A field of type `t` with value `v` leads to the value `x` of type `q`: itself, in an `Option`, in a `Vec`. -/
inductive Reach : FTy → Val → Path → Val → Prop
  | here {q : Path} {x : Val} : Reach (.struct q) x q x
  | some {t : FTy} {v : Val} {q : Path} {x : Val} (h : Reach t v q x) : Reach (.opt t) (.some v) q x
  | vec {t : FTy} {vs : List Val} {v : Val} {q : Path} {x : Val} (hm : v ∈ vs) (h : Reach t v q x) : Reach (.vec t) (.vec vs) q x

/-- A value of the type leads to the value `x` of type `q`: by a field, or by the payload of its variant. -/
inductive Below : TypeDef → Val → Path → Val → Prop
  | field {d : StructDef} {fs : List Val} {i : Nat} {f : FieldDef} {v : Val} {q : Path} {x : Val} (hf : d.fields[i]? = some f)
      (hv : fs[i]? = some v) (h : Reach f.ty v q x) : Below (.struct d) (.struct fs) q x
  | payload {d : EnumDef} {i : Nat} {vd : VariantDef} {t : FTy} {fs : List Val} {v : Val} {q : Path} {x : Val} (hd : d.variants[i]? = some vd)
      (hs : vd.shape = .newtype t) (hv : fs.head? = some v) (h : Reach t v q x) : Below (.enum d) (.enum i fs) q x
  | named {d : EnumDef} {i : Nat} {vd : VariantDef} {fds : List FieldDef} {fs : List Val} {j : Nat} {f : FieldDef} {v : Val} {q : Path}
      {x : Val} (hd : d.variants[i]? = some vd) (hs : vd.shape = .named fds) (hf : fds[j]? = some f) (hv : fs[j]? = some v)
      (h : Reach f.ty v q x) : Below (.enum d) (.enum i fs) q x

end Yaserde
