import Verif.Model.DeEnum
import Verif.Spec.NewVariant
/-
Programs to whose structs fields are added.
-/

set_option autoImplicit false

namespace Yaserde

/-- The same outcome, with related values. -/
inductive Res.Rel {α β : Type} (R : α → β → Prop) : Res α → Res β → Prop
  | ok {a : α} {b : β} (h : R a b) : Rel R (.ok a) (.ok b)
  | err (m : Str) : Rel R (.err m) (.err m)
  | panic (m : Str) : Rel R (.panic m) (.panic m)
  | diverge : Rel R .diverge .diverge

/-- None of the names `K` is the name of the element or of one of its attributes. -/
def REv.Unnamed (K : Str → Prop) : REv → Prop
  | .start n as _ => ¬ K n.loc ∧ ∀ a ∈ as, ¬ K a.name.loc
  | _ => True

/-- A field under a name in `K`, neither flattened nor text, that may be missing: an `Option`, a `Vec`, or with a default. -/
structure FieldDef.Extra (K : Str → Prop) (w : FieldDef) : Prop where
  name : K (w.attrs.rename.getD w.ident)
  flatten : w.attrs.isAttr = false → w.attrs.flatten = false
  text : w.attrs.text = false
  optional : (∃ t, w.ty = .opt t) ∨ (∃ t, w.ty = .vec t) ∨ w.dflt ≠ none

/-- What a field is that is missing. -/
def FieldDef.unfilled (w : FieldDef) : Val :=
  match w.ty, w.dflt with
  | .opt _, _ => .none
  | .vec _, _ => .vec []
  | _, some d => d.val
  | _, none => .none

mutual
  /-- The second value, of the program `env'`, is the first one, of the program `env`, with the added fields missing, at every depth. -/
  inductive Widens (env env' : Env) : FTy → Val → Val → Prop
    | simple (t : STy) (v : Val) : Widens env env' (.simple t) v v
    | none (t : FTy) : Widens env env' (.opt t) .none .none
    | some (t : FTy) (v v' : Val) (h : Widens env env' t v v') : Widens env env' (.opt t) (.some v) (.some v')
    | vec (t : FTy) (vs vs' : List Val) (h : WidensEach env env' t vs vs') : Widens env env' (.vec t) (.vec vs) (.vec vs')
    | struct (p : Path) (d : StructDef) (ws : List FieldDef) (vs vs' : List Val) (hp : env p = some (.struct d))
        (hp' : env' p = some (.struct { d with fields := d.fields ++ ws })) (h : WidensAll env env' (d.fields.map FieldDef.ty) vs vs') :
        Widens env env' (.struct p) (.struct vs) (.struct (vs' ++ ws.map FieldDef.unfilled))
    | unit (p : Path) (d : EnumDef) (i : Nat) (hp : env p = some (.enum d)) : Widens env env' (.struct p) (.enum i []) (.enum i [])
    | newtype (p : Path) (d : EnumDef) (i : Nat) (vd : VariantDef) (t : FTy) (x x' : Val) (hp : env p = some (.enum d))
        (hv : d.variants[i]? = some vd) (hs : vd.shape = .newtype t) (h : Widens env env' t x x') :
        Widens env env' (.struct p) (.enum i [x]) (.enum i [x'])
    | prim (p : Path) (d : PrimDef) (v : Val) (hp : env p = some (.prim d)) : Widens env env' (.struct p) v v
  inductive WidensEach (env env' : Env) : FTy → List Val → List Val → Prop
    | nil (t : FTy) : WidensEach env env' t [] []
    | cons (t : FTy) (v v' : Val) (vs vs' : List Val) (h : Widens env env' t v v') (hs : WidensEach env env' t vs vs') :
        WidensEach env env' t (v :: vs) (v' :: vs')
  inductive WidensAll (env env' : Env) : List FTy → List Val → List Val → Prop
    | nil : WidensAll env env' [] [] []
    | cons (t : FTy) (ts : List FTy) (v v' : Val) (vs vs' : List Val) (h : Widens env env' t v v') (hs : WidensAll env env' ts vs vs') :
        WidensAll env env' (t :: ts) (v :: vs) (v' :: vs')
end

/-- The structs of the newer program have more fields at their end, under names in `K`, which may be missing; default values written
in the program are values of both programs. -/
structure Env.Widened (K : Str → Prop) (env env' : Env) : Prop where
  types : ∀ p, (env p = none ∧ env' p = none) ∨
    (∃ d ws, env p = some (.struct d) ∧ env' p = some (.struct { d with fields := d.fields ++ ws }) ∧ ∀ w ∈ ws, w.Extra K) ∨
    (∃ d, env p = some (.enum d) ∧ env' p = some (.enum d)) ∨ ∃ d, env p = some (.prim d) ∧ env' p = some (.prim d)
  dflt : ∀ p d, env p = some (.struct d) → ∀ f ∈ d.fields, ∀ dv, f.dflt = some dv → Widens env env' f.ty dv.val dv.val
  enumDflt : ∀ p d, env p = some (.enum d) → Widens env env' (.struct p) d.dflt d.dflt

end Yaserde
