import Verif.Spec.User
import Verif.Spec.UserSer
import Verif.Spec.RoundTrip
import Verif.Spec.Frames
/-
Round trips in programs with hand-written implementations of both traits: which values of a derived struct survive, given
that those of the types of its fields do.
-/

set_option autoImplicit false

namespace Yaserde

/-- As the content of an element named `l`, the value is written without loss, and the element is read back as the value wherever it
stands. -/
def ReadsBack (L : Lib) (env : Env) (de : Impls) (W : Encoding) (q : Path) (v : Val) (l : Str) : Prop :=
  ∃ as ks, W.tree ⟨some l, false⟩ q v = [.elem l as [] ks] ∧ (WNode.elem l as [] ks).Ok [] ∧
    ∀ y : Node, y.Like ((WNode.elem l as [] ks).back []) → Obeys (fun b => deserU L env de b q) y (.ok v)

/-- The same as an attribute. -/
def ReadsBackAttr (L : Lib) (env : Env) (de : Impls) (W : Encoding) (q : Path) (v : Val) : Prop :=
  isAttrText (L.emit { decl := false } (WNode.eventsL (W.tree .inner q v))) = true ∧
    ReadsDoc L (fun b => deserU L env de b q) (attrDoc q (L.emit { decl := false } (WNode.eventsL (W.tree .inner q v)))) (.ok v)

/-- A single item of an element field. -/
def ItemKept (L : Lib) (env : Env) (de : Impls) (W : Encoding) (l : Str) : FTy → Val → Prop
  | .simple t, v => ScalarOk L t v
  | .struct q, v => ReadsBack L env de W q v l
  | _, _ => False

/-- All items of an element field. -/
inductive ItemsKept (L : Lib) (env : Env) (de : Impls) (W : Encoding) (l : Str) : FTy → Val → Prop
  | one (t : FTy) (v : Val) (h : ItemKept L env de W l t v) : ItemsKept L env de W l t v
  | none (t : FTy) : ItemsKept L env de W l (.opt t) .none
  | some (t : FTy) (v : Val) (h : ItemKept L env de W l t v) : ItemsKept L env de W l (.opt t) (.some v)
  | vec (t : FTy) (vs : List Val) (h : ∀ v ∈ vs, ItemKept L env de W l t v) : ItemsKept L env de W l (.vec t) (.vec vs)

/-- Attribute fields. -/
inductive AttrKept (L : Lib) (env : Env) (de : Impls) (W : Encoding) (f : FieldDef) (sv : Val) : Val → Prop
  | plain (t : STy) (v : Val) (hty : f.ty = .simple t) (hs : f.selected sv v) (h : AttrScalarOk L t v) :
      AttrKept L env de W f sv v
  | some (t : STy) (x : Val) (hty : f.ty = .opt (.simple t)) (hs : f.selected sv (.some x)) (h : AttrScalarOk L t x) :
      AttrKept L env de W f sv (.some x)
  | user (q : Path) (v : Val) (hty : f.ty = .struct q) (hs : f.selected sv v) (h : ReadsBackAttr L env de W q v) :
      AttrKept L env de W f sv v
  | userSome (q : Path) (x : Val) (hty : f.ty = .opt (.struct q)) (hs : f.selected sv (.some x))
      (h : ReadsBackAttr L env de W q x) : AttrKept L env de W f sv (.some x)
  /-- Not written: suppressed, or nothing to write. -/
  | absent (v : Val)
      (hn : ¬ f.selected sv v ∨ (∃ t, f.ty = .opt t ∧ v = .none) ∨ ∃ t, f.ty = .vec t) (h : f.absent = .some v) :
      AttrKept L env de W f sv v

/-- The value of one field survives. -/
structure FieldKept (L : Lib) (env : Env) (de : Impls) (W : Encoding) (sv : Val) (f : FieldDef) (v : Val) : Prop where
  attr : f.attrs.isAttr = true → AttrKept L env de W f sv v
  text : f.attrs.isAttr = false → f.attrs.text = true → TextCanon f v
  /-- A field that is left out has the value it gets when it is missing. -/
  left : f.attrs.isAttr = false → f.attrs.text = false → f.omitted sv v → f.absent = some v
  cdata : f.attrs.isAttr = false → f.attrs.text = false → ¬ f.omitted sv v → f.attrs.cdata = true →
    f.ty = .simple .string ∧ ∃ s, v = .str s ∧ CleanText s ∧ isCdata s
  items : f.attrs.isAttr = false → f.attrs.text = false → ¬ f.omitted sv v → f.attrs.cdata = false →
    ItemsKept L env de W f.label f.ty v

/-- The values of all fields survive. -/
def FieldsKept (L : Lib) (env : Env) (de : Impls) (W : Encoding) (d : StructDef) (fs : List Val) : Prop :=
  fs.length = d.fields.length ∧ ∀ (i : Nat) (f : FieldDef) (v : Val), d.fields[i]? = some f → fs[i]? = some v →
    FieldKept L env de W (.struct fs) f v

/-- A struct without namespaces and flattened fields, no two fields of which take the same attribute, child or text. -/
structure PlainStruct (d : StructDef) : Prop where
  noNs : d.attrs.namespaces = [] ∧ d.attrs.pfx = none ∧ d.attrs.flatten = false
  types : d.Plain
  fields : ∀ f ∈ d.fields, f.attrs.pfx = none ∧ f.attrs.flatten = false ∧ isNCName f.label = true
  attr : ∀ f ∈ d.fields, f.attrs.isAttr = true → f.attrs.text = false ∧ f.label ≠ c!"xmlns"
  distinct : ∀ (i j : Nat) (f g : FieldDef), d.fields[i]? = some f → d.fields[j]? = some g →
    (f.attrs.isAttr = g.attrs.isAttr ∧ f.label = g.label) ∨ (f.attrs.text = true ∧ g.attrs.text = true) → i = j

/-- The struct can be read from an element of this name. -/
def StructDef.NamedFor (d : StructDef) (l : Str) : Prop :=
  isNCName l = true ∧ (l = d.attrs.rename.getD d.name ∨ ∀ f ∈ d.fields, f.attrs.isAttr = false → f.label ≠ l)

/-- `part` is a part of the program: its types are derived, and contain only types of the part. -/
structure PartOf (part env : Env) (ser : SerImpls) (de : Impls) : Prop where
  same : ∀ p t, part p = some t → env p = some t
  ser : ∀ p t, part p = some t → ser p = none
  de : ∀ p t, part p = some t → de p = none
  closed : ∀ p t, part p = some t → ∀ q, t.Contains q → part q ≠ none

end Yaserde
