import Verif.Spec.Rename
import Verif.Spec.Encode
import Verif.Spec.Decode
/-
Two versions of a program: the newer one has the same types with more fields, in any order.
-/

set_option autoImplicit false

namespace Yaserde

/-- The types of what a variant holds. -/
def VShape.tys : VShape → List FTy
  | .unit => []
  | .newtype t => [t]
  | .named fs => fs.map FieldDef.ty

/-- `Cut env env' t v v'`: the value `v` of type `t` in the program `env` is the value `v'` of the type of the same
name in the program `env'`, without the fields `env` does not have.  Fields are matched by their Rust names. -/
inductive Cut (env env' : Env) : FTy → Val → Val → Prop
  | simple (t : STy) (v : Val) : Cut env env' (.simple t) v v
  | none (t : FTy) : Cut env env' (.opt t) .none .none
  | some (t : FTy) (v v' : Val) (h : Cut env env' t v v') : Cut env env' (.opt t) (.some v) (.some v')
  | vec (t : FTy) (vs vs' : List Val) (hlen : vs.length = vs'.length)
      (h : ∀ (i : Nat) (v v' : Val), vs[i]? = .some v → vs'[i]? = .some v' → Cut env env' t v v') :
      Cut env env' (.vec t) (.vec vs) (.vec vs')
  | struct (p : Path) (d d' : StructDef) (vs vs' : List Val) (hp : env p = .some (.struct d))
      (hp' : env' p = .some (.struct d')) (hlen : vs.length = d.fields.length) (hlen' : vs'.length = d'.fields.length)
      (h : ∀ (i j : Nat) (f f' : FieldDef) (v v' : Val), d.fields[i]? = .some f → d'.fields[j]? = .some f' →
        f.ident = f'.ident → vs[i]? = .some v → vs'[j]? = .some v' → Cut env env' f.ty v v') :
      Cut env env' (.struct p) (.struct vs) (.struct vs')
  | enum (p : Path) (d : EnumDef) (i : Nat) (vd : VariantDef) (ps ps' : List Val) (hp : env p = .some (.enum d))
      (hv : d.variants[i]? = .some vd) (hlen : ps.length = ps'.length)
      (hrest : ∀ j : Nat, vd.shape.tys[j]? = Option.none → ps[j]? = ps'[j]?)
      (h : ∀ (j : Nat) (t : FTy) (v v' : Val), vd.shape.tys[j]? = .some t → ps[j]? = .some v → ps'[j]? = .some v' →
        Cut env env' t v v') :
      Cut env env' (.struct p) (.enum i ps) (.enum i ps')
  | prim (p : Path) (d : PrimDef) (v : Val) (hp : env p = .some (.prim d)) : Cut env env' (.struct p) v v

/-- The two defaults of a field. -/
def DfltCut (env env' : Env) (t : FTy) : Option Dflt → Option Dflt → Prop
  | none, none => True
  | some a, some b => Cut env env' t a.val b.val
  | _, _ => False

/-- The field in the other program: its name, type and attributes are the same. -/
structure KeptField (env env' : Env) (f f' : FieldDef) : Prop where
  ident : f'.ident = f.ident
  ty : f'.ty = f.ty
  attrs : f'.attrs = f.attrs
  dflt : DfltCut env env' f.ty f.dflt f'.dflt

/-- The newer version `d'` of a struct has all the fields of the older one, `d`, and maybe others.  The names of the
fields differ from each other, as Rust demands, and so do the names of their elements. -/
structure GrowStruct (env env' : Env) (d d' : StructDef) : Prop where
  name : d'.name = d.name
  attrs : d'.attrs = d.attrs
  plain : d'.Plain
  idents : ∀ (i j : Nat) (f g : FieldDef), d.fields[i]? = some f → d.fields[j]? = some g → f.ident = g.ident → i = j
  idents' : ∀ (i j : Nat) (f g : FieldDef), d'.fields[i]? = some f → d'.fields[j]? = some g → f.ident = g.ident → i = j
  elems : ∀ (i j : Nat) (f g : FieldDef) (n : Name), d'.fields[i]? = some f → d'.fields[j]? = some g →
    f.claims d'.attrs n → g.claims d'.attrs n → i = j
  kept : ∀ f ∈ d.fields, ∃ f' ∈ d'.fields, KeptField env env' f f'

/-- `env'` is a newer version of the program `env`: structs have more fields; other types are as they were (types
of `env` refer to types of `env`). -/
structure Grow (env env' : Env) : Prop where
  structs : ∀ p d, env p = some (.struct d) → ∃ d', env' p = some (.struct d') ∧ GrowStruct env env' d d'
  enums : ∀ p d, env p = some (.enum d) → ∃ v, env' p = some (.enum { d with dflt := v }) ∧
    Cut env env' (.struct p) d.dflt v
  prims : ∀ p d, env p = some (.prim d) → env' p = some (.prim d)
  fieldTys : ∀ p d, env p = some (.struct d) → ∀ f ∈ d.fields, ∀ q, f.ty.core = .struct q → env q ≠ none
  payloadTys : ∀ p d, env p = some (.enum d) → ∀ v ∈ d.variants, ∀ t, v.shape = .newtype t →
    ∀ q, t.core = .struct q → env q ≠ none

/-- A field the older version does not have. -/
def AddedField (env env' : Env) (f' : FieldDef) : Prop :=
  ∃ p d d', env p = some (.struct d) ∧ env' p = some (.struct d') ∧ f' ∈ d'.fields ∧ ∀ f ∈ d.fields, f.ident ≠ f'.ident

/-- The field can be left out of a document, and does not take text. -/
def FieldDef.Optional (f : FieldDef) : Prop :=
  f.attrs.text = false ∧ ((∃ t, f.ty = .opt t) ∨ (∃ t, f.ty = .vec t) ∨ ∃ v, f.dflt = some v)

mutual
  /-- No element and no attribute is named so. -/
  def Node.silent (P : Str → Prop) : Node → Prop
    | .text _ => True
    | .elem n as _ ks => ¬ P n.loc ∧ (∀ a ∈ as, ¬ P a.name.loc) ∧ Node.silentL P ks
  def Node.silentL (P : Str → Prop) : List Node → Prop
    | [] => True
    | k :: ks => k.silent P ∧ Node.silentL P ks
end

/-- The names of added fields in documents. -/
def AddedName (env env' : Env) (l : Str) : Prop :=
  ∃ f', AddedField env env' f' ∧ f'.label = l

end Yaserde
