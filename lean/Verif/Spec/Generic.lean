import Verif.Model.Generic
import Verif.Spec.Levels
import Verif.Spec.Frames
/-
Definitions that differ in the names of the types of their fields, and programs that differ in the names of their types.
-/

set_option autoImplicit false

namespace Yaserde

def FTy.mapPaths (ρ : Path → Path) : FTy → FTy
  | .simple t => .simple t
  | .opt t => .opt (t.mapPaths ρ)
  | .vec t => .vec (t.mapPaths ρ)
  | .struct p => .struct (ρ p)

def FieldDef.mapPaths (ρ : Path → Path) (f : FieldDef) : FieldDef := { f with ty := f.ty.mapPaths ρ }

def VShape.mapPaths (ρ : Path → Path) : VShape → VShape
  | .unit => .unit
  | .newtype t => .newtype (t.mapPaths ρ)
  | .named fs => .named (fs.map (FieldDef.mapPaths ρ))

def VariantDef.mapPaths (ρ : Path → Path) (v : VariantDef) : VariantDef := { v with shape := v.shape.mapPaths ρ }

/-- The definition with other paths in place of the types of fields. -/
def TypeDef.mapPaths (ρ : Path → Path) : TypeDef → TypeDef
  | .struct d => .struct { d with fields := d.fields.map (FieldDef.mapPaths ρ) }
  | .enum d => .enum { d with variants := d.variants.map (VariantDef.mapPaths ρ) }
  | .prim d => .prim d

/-- The path is the type of an attribute of a struct, or of the values of one in `Option` or `Vec`. -/
def TypeDef.AttrType (t : TypeDef) (q : Path) : Prop :=
  match t with
  | .struct d => ∃ f ∈ d.fields, f.attrs.isAttr = true ∧ f.ty.core = .struct q
  | _ => False

mutual
  /-- The second type is the first one with the arguments `as` in place of the parameters `ps`. -/
  inductive GTy.Put (ps : List Str) (as : List GTy) : GTy → GTy → Prop
    | param {i : Nat} {x : Str} {t : GTy} (hx : ps[i]? = some x) (hfirst : ∀ j, j < i → ps[j]? ≠ some x) (ht : as[i]? = some t) :
        GTy.Put ps as (.app [x] []) t
    | other {x : Str} (hx : x ∉ ps) : GTy.Put ps as (.app [x] []) (.app [x] [])
    | app {segs : Path} {ts us : List GTy} (hs : segs.length ≠ 1 ∨ ts ≠ []) (h : GTy.PutL ps as ts us) :
        GTy.Put ps as (.app segs ts) (.app segs us)
  inductive GTy.PutL (ps : List Str) (as : List GTy) : List GTy → List GTy → Prop
    | nil : GTy.PutL ps as [] []
    | cons {t u : GTy} {ts us : List GTy} (h : GTy.Put ps as t u) (hs : GTy.PutL ps as ts us) : GTy.PutL ps as (t :: ts) (u :: us)
end

/-- The definition `b` has the types `arg q` in the place of the types `q` of the generic definition `g` with arguments `as`; the paths
in `b` are the names `ρ` of these. -/
def GDef.WrittenAs (g : GDef) (as : List GTy) (b : TypeDef) (arg : Path → GTy) (ρ : Path → GTy → Path) : Prop :=
  g.params.length = as.length ∧ (∀ q, (g.body as).Contains q → GTy.Put g.params as (g.written q) (arg q)) ∧
  b = (g.body as).mapPaths fun q => ρ q (arg q)

/-- The types `U` of the program, which use no others, are written out: `ρ t` is the name of a type without parameters, with the definition
of `t` and the types that were written out for the types in it. -/
def WrittenOut (P : GProg) (U : GTy → Prop) (env : Env) (ρ : GTy → Path) : Prop :=
  ∀ segs as, U (.app segs as) → ∃ g b arg, P segs = some g ∧ env (ρ (.app segs as)) = some b ∧ g.WrittenAs as b arg (fun _ => ρ) ∧
    ∀ q, (g.body as).Contains q → U (arg q)

/-- Attributes of derived types keep the names of their types (or at least the letters of the name). -/
def KeepsAttrs (P : GProg) (ρ : GTy → Path) : Prop :=
  ∀ segs g args q, P segs = some g → (g.body args).AttrType q → structId (ρ (g.written q)) = structId q

/-- The types `U` of the program, which use no others, go by other names in another program. -/
def Renamed (U : Path → Prop) (env env' : Env) (ρ : Path → Path) : Prop :=
  ∀ p, U p → ∃ b, env p = some b ∧ env' (ρ p) = some (b.mapPaths ρ) ∧ ∀ q, b.Contains q → U q

end Yaserde
