import Mathlib.Data.List.Forall2
import Verif.Model.DeEnum
import Verif.Model.UserSer
/-
Which parts of a definition reading depends on, and which parts writing depends on.
-/

set_option autoImplicit false

namespace Yaserde

/-- `Option` and `Vec` fields, which are never missing. -/
def FTy.neverMissing : FTy → Bool
  | .opt _ => true
  | .vec _ => true
  | _ => false

/-- Two fields that are read alike.  What is not mentioned does not matter: `skip_serializing`, `skip_serializing_if`, `cdata`, the
test that goes with `default`; the prefix and `flatten` of an attribute; the name of a flattened field; the default of an `Option` or `Vec`. -/
structure FieldDef.ReadAlike (f g : FieldDef) : Prop where
  ty : f.ty = g.ty
  isAttr : f.attrs.isAttr = g.attrs.isAttr
  text : f.attrs.text = g.attrs.text
  flatten : f.attrs.isAttr = false → f.attrs.flatten = g.attrs.flatten
  label : f.attrs.isAttr = true ∨ f.attrs.flatten = false → f.attrs.rename.getD f.ident = g.attrs.rename.getD g.ident
  pfx : f.attrs.isAttr = false → f.attrs.flatten = false → f.attrs.pfx = g.attrs.pfx
  absent : f.ty.neverMissing = false → f.dflt.map Dflt.val = g.dflt.map Dflt.val ∧ (f.dflt = none → f.ident = g.ident)

/-- Shapes of variants; variants with named fields are not read at all. -/
inductive VShape.ReadAlike : VShape → VShape → Prop
  | unit : ReadAlike .unit .unit
  | newtype {t : FTy} : ReadAlike (.newtype t) (.newtype t)
  | named {fs gs : List FieldDef} : ReadAlike (.named fs) (.named gs)

structure VariantDef.ReadAlike (v w : VariantDef) : Prop where
  label : v.attrs.rename.getD v.ident = w.attrs.rename.getD w.ident
  shape : v.shape.ReadAlike w.shape

/-- Attributes of the type itself; `default_namespace` does not matter. -/
structure Attrs.ReadAlike (a b : Attrs) : Prop where
  namespaces : a.namespaces = b.namespaces
  pfx : a.pfx = b.pfx
  flatten : a.flatten = b.flatten

inductive TypeDef.ReadAlike : TypeDef → TypeDef → Prop
  | struct {d d' : StructDef} (attrs : d.attrs.ReadAlike d'.attrs) (name : d.name = d'.name) (rename : d.attrs.rename = d'.attrs.rename)
      (fields : List.Forall₂ FieldDef.ReadAlike d.fields d'.fields) : ReadAlike (.struct d) (.struct d')
  | enum {d d' : EnumDef} (attrs : d.attrs.ReadAlike d'.attrs) (tag : d.attrs.tag = d'.attrs.tag)
      (name : d.attrs.rename.getD d.name = d'.attrs.rename.getD d'.name) (dflt : d.dflt = d'.dflt)
      (variants : List.Forall₂ VariantDef.ReadAlike d.variants d'.variants) : ReadAlike (.enum d) (.enum d')
  | prim {d d' : PrimDef} (fromStr : d.fromStr = d'.fromStr) : ReadAlike (.prim d) (.prim d')

/-- Two programs with the same types, each read alike. -/
def Env.ReadAlike (env env' : Env) : Prop :=
  ∀ p, (env p = none ∧ env' p = none) ∨ ∃ b b', env p = some b ∧ env' p = some b' ∧ b.ReadAlike b'

/-- Two fields, of structs with the attributes `root` and `root'`, that are written alike.  What is not mentioned does not matter:
the value that a missing field gets; `skip_serializing`, `cdata`, `text` and `flatten` of an attribute; the name, the prefix, `default`,
`skip_serializing`, `skip_serializing_if` and `cdata` of a text field; the name, the prefix, `default`, `skip_serializing_if` and `cdata`
of an element with `skip_serializing`. -/
structure FieldDef.WriteAlike (root root' : Attrs) (f g : FieldDef) : Prop where
  ty : f.ty = g.ty
  isAttr : f.attrs.isAttr = g.attrs.isAttr
  flatten : f.attrs.isAttr = false → f.attrs.flatten = g.attrs.flatten
  text : f.attrs.isAttr = false → f.attrs.text = g.attrs.text
  skipSer : f.attrs.isAttr = false → f.attrs.text = false → f.attrs.skipSer = g.attrs.skipSer
  cdata : f.attrs.isAttr = false → f.attrs.text = false → f.attrs.skipSer = false → f.attrs.cdata = g.attrs.cdata
  skipIf : f.attrs.isAttr = true ∨ f.attrs.text = false ∧ f.attrs.skipSer = false → f.skipIf = g.skipIf
  dflt : f.attrs.isAttr = true ∨ f.attrs.text = false ∧ f.attrs.skipSer = false → f.dflt.map Dflt.ne = g.dflt.map Dflt.ne
  label : f.attrs.isAttr = true ∨ f.attrs.text = false ∧ f.attrs.skipSer = false → f.renamedLabel root = g.renamedLabel root'

/-- Shapes of variants; of the attributes of named fields only the name and the prefix matter. -/
inductive VShape.WriteAlike (root root' : Attrs) : VShape → VShape → Prop
  | unit : WriteAlike root root' .unit .unit
  | newtype {t : FTy} : WriteAlike root root' (.newtype t) (.newtype t)
  | named {fs gs : List FieldDef} (h : List.Forall₂ (fun f g => f.ty = g.ty ∧ f.renamedLabel root = g.renamedLabel root') fs gs) :
      WriteAlike root root' (.named fs) (.named gs)

structure VariantDef.WriteAlike (root root' : Attrs) (v w : VariantDef) : Prop where
  label : buildLabelName v.ident v.attrs root.defaultNs = buildLabelName w.ident w.attrs root'.defaultNs
  tagged : root.tag ≠ none → v.attrs.rename.getD v.ident = w.attrs.rename.getD w.ident
  flatten : v.attrs.flatten = w.attrs.flatten
  shape : v.shape.WriteAlike root root' w.shape

/-- Attributes of the type itself. -/
structure Attrs.WriteAlike (a b : Attrs) : Prop where
  namespaces : a.namespaces = b.namespaces
  defaultNs : a.defaultNs = b.defaultNs
  flatten : a.flatten = b.flatten

inductive TypeDef.WriteAlike : TypeDef → TypeDef → Prop
  | struct {d d' : StructDef} (attrs : d.attrs.WriteAlike d'.attrs) (name : serRootName d.attrs d.name = serRootName d'.attrs d'.name)
      (fields : List.Forall₂ (FieldDef.WriteAlike d.attrs d'.attrs) d.fields d'.fields) : WriteAlike (.struct d) (.struct d')
  | enum {d d' : EnumDef} (attrs : d.attrs.WriteAlike d'.attrs) (name : serRootName d.attrs d.name = serRootName d'.attrs d'.name)
      (tag : d.attrs.tag = d'.attrs.tag)
      (variants : List.Forall₂ (VariantDef.WriteAlike d.attrs d'.attrs) d.variants d'.variants) : WriteAlike (.enum d) (.enum d')
  | prim {d d' : PrimDef} (name : d.name = d'.name) (toStr : d.toStr = d'.toStr) (bare : d.bare = d'.bare) :
      WriteAlike (.prim d) (.prim d')

/-- Two programs with the same types, each written alike. -/
def Env.WriteAlike (env env' : Env) : Prop :=
  ∀ p, (env p = none ∧ env' p = none) ∨ ∃ b b', env p = some b ∧ env' p = some b' ∧ b.WriteAlike b'

/-- The program with `g f` in place of every field `f` of a struct. -/
def TypeDef.mapFields (g : FieldDef → FieldDef) : TypeDef → TypeDef
  | .struct d => .struct { d with fields := d.fields.map g }
  | b => b

def Env.mapFields (g : FieldDef → FieldDef) (env : Env) : Env := fun p => (env p).map (TypeDef.mapFields g)

/-- The field with other `skip_serializing`, `cdata` and `skip_serializing_if`. -/
def FieldDef.mark (skip cdata : FieldDef → Bool) (skipIf : FieldDef → Option (Val → Val → Bool)) (f : FieldDef) : FieldDef :=
  { f with attrs := { f.attrs with skipSer := skip f, cdata := cdata f }, skipIf := skipIf f }

/-- The field with another default value, but the same test of whether it is written. -/
def FieldDef.fallback (val : FieldDef → Val) (f : FieldDef) : FieldDef :=
  { f with dflt := f.dflt.map fun d => { d with val := val f } }

/-- The field with another `default`, or none, if it is an `Option` or a `Vec`. -/
def FieldDef.refill (dflt : FieldDef → Option Dflt) (f : FieldDef) : FieldDef :=
  if f.ty.neverMissing then { f with dflt := dflt f } else f

end Yaserde
