import Verif.Spec.XmlLaw
import Verif.Spec.Blocks
/-
Which programs and which of their values survive a round trip: `from_str(&to_string(&v)) == Ok(v)`.
-/

set_option autoImplicit false

namespace Yaserde

/-! ### Values -/

/-- Element content that is read back unchanged. -/
structure CleanText (s : Str) : Prop where
  chars : isText s = true
  trimmed : trimSpace s = s
  nonempty : s ≠ []

/-- A scalar as element content. -/
structure ScalarOk (L : Lib) (t : STy) (v : Val) : Prop where
  clean : CleanText (showS L v)
  parses : visitS L t (showS L v) = .ok v

/-- A scalar as attribute value. -/
structure AttrScalarOk (L : Lib) (t : STy) (v : Val) : Prop where
  chars : isAttrText (showS L v) = true
  parses : visitS L t (showS L v) = .ok v

/-- A scalar as payload of a variant: white space around it is lost, but it may be empty. -/
structure PayloadOk (L : Lib) (t : STy) (v : Val) : Prop where
  chars : isText (showS L v) = true
  parses : parseS L t (trimSpace (showS L v)) = .ok v

/-- The value a field has if nothing in the document belongs to it. -/
def FieldDef.absent (f : FieldDef) : Option Val :=
  match f.ty with
  | .opt _ => some .none
  | .vec _ => some (.vec [])
  | _ => f.dflt.map Dflt.val

/-- A value of a derived type as attribute value: only the content of its element is written, without XML attributes and
namespace declarations of its own. -/
structure AttrUserOk (L : Lib) (env : Env) (q : Path) (v : Val) : Prop where
  bare : encTyAttrs L env q v = []
  decls : encTyDecls env q v = []
  chars : isAttrText (L.emit { decl := false } (WNode.eventsL (encTy L env .inner q v))) = true

/-- Attribute fields. -/
inductive AttrCanon (L : Lib) (env : Env) (f : FieldDef) (self : Val) : Val → Prop
  | plain (t : STy) (v : Val) (hty : f.ty = .simple t) (hs : f.selected self v) (h : AttrScalarOk L t v) :
      AttrCanon L env f self v
  | some (t : STy) (x : Val) (hty : f.ty = .opt (.simple t)) (hs : f.selected self (.some x)) (h : AttrScalarOk L t x) :
      AttrCanon L env f self (.some x)
  | user (q : Path) (v : Val) (hty : f.ty = .struct q) (hs : f.selected self v) (h : AttrUserOk L env q v) :
      AttrCanon L env f self v
  | userSome (q : Path) (x : Val) (hty : f.ty = .opt (.struct q)) (hs : f.selected self (.some x))
      (h : AttrUserOk L env q x) : AttrCanon L env f self (.some x)
  /-- Not written: suppressed, or nothing to write. -/
  | absent (v : Val)
      (hn : ¬ f.selected self v ∨ (∃ t, f.ty = .opt t ∧ v = .none) ∨ ∃ t, f.ty = .vec t) (h : f.absent = .some v) :
      AttrCanon L env f self v

/-- Text fields. -/
inductive TextCanon (f : FieldDef) : Val → Prop
  | str (s : Str) (hty : f.ty = .simple .string) (h : CleanText s) : TextCanon f (.str s)
  | some (s : Str) (hty : f.ty = .opt (.simple .string)) (h : CleanText s) : TextCanon f (.some (.str s))
  | absent (v : Val) (he : fieldText v = []) (h : f.absent = .some v) : TextCanon f v

/-- The values that survive. -/
inductive Canon (L : Lib) (env : Env) : FTy → Val → Prop
  | scalar (t : STy) (v : Val) (h : ScalarOk L t v) : Canon L env (.simple t) v
  | none (t : FTy) : Canon L env (.opt t) .none
  | some (t : FTy) (v : Val) (h : Canon L env t v) : Canon L env (.opt t) (.some v)
  | vec (t : FTy) (vs : List Val) (h : ∀ v ∈ vs, Canon L env t v) : Canon L env (.vec t) (.vec vs)
  | struct (p : Path) (d : StructDef) (fs : List Val) (hp : env p = some (.struct d))
      (hlen : fs.length = d.fields.length)
      (hattr : ∀ (i : Nat) (f : FieldDef) (v : Val), d.fields[i]? = .some f → fs[i]? = .some v →
        f.attrs.isAttr = true → AttrCanon L env f (.struct fs) v)
      (hattrs : ∀ (i : Nat) (f : FieldDef) (v : Val) (q : Path) (x : Val), d.fields[i]? = .some f → fs[i]? = .some v →
        f.attrs.isAttr = true → (f.ty = .struct q ∧ v = x) ∨ (f.ty = .opt (.struct q) ∧ v = .some x) →
        f.selected (.struct fs) v → Canon L env (.struct q) x)
      (htext : ∀ (i : Nat) (f : FieldDef) (v : Val), d.fields[i]? = .some f → fs[i]? = .some v →
        f.attrs.isAttr = false → f.attrs.text = true → TextCanon f v)
      -- a field that is left out has the value it gets when it is missing
      (homit : ∀ (i : Nat) (f : FieldDef) (v : Val), d.fields[i]? = .some f → fs[i]? = .some v →
        f.attrs.isAttr = false → f.attrs.text = false → f.omitted (.struct fs) v →
        f.attrs.flatten = false ∧ f.absent = .some v)
      (hcdata : ∀ (i : Nat) (f : FieldDef) (v : Val), d.fields[i]? = .some f → fs[i]? = .some v →
        f.attrs.isAttr = false → f.attrs.text = false → ¬ f.omitted (.struct fs) v → f.attrs.cdata = true →
        f.ty = .simple .string ∧ ∃ s, v = .str s ∧ CleanText s ∧ isCdata s)
      (h : ∀ (i : Nat) (f : FieldDef) (v : Val), d.fields[i]? = .some f → fs[i]? = .some v →
        f.attrs.isAttr = false → f.attrs.text = false → ¬ f.omitted (.struct fs) v → f.attrs.cdata = false →
        Canon L env f.ty v) :
      Canon L env (.struct p) (.struct fs)
  | unit (p : Path) (d : EnumDef) (i : Nat) (vd : VariantDef) (hp : env p = .some (.enum d))
      (hv : d.variants[i]? = .some vd) (hs : vd.shape = .unit) : Canon L env (.struct p) (.enum i [])
  -- payloads are written in an element of their own, where a tagged enum does not look for them
  | payload (p : Path) (d : EnumDef) (i : Nat) (vd : VariantDef) (t : STy) (x : Val) (hp : env p = .some (.enum d)) (htag : d.attrs.tag = .none)
      (hv : d.variants[i]? = .some vd) (hs : vd.shape = .newtype (.simple t)) (h : PayloadOk L t x) :
      Canon L env (.struct p) (.enum i [x])
  | payloadSome (p : Path) (d : EnumDef) (i : Nat) (vd : VariantDef) (t : STy) (x : Val) (hp : env p = .some (.enum d)) (htag : d.attrs.tag = .none)
      (hv : d.variants[i]? = .some vd) (hs : vd.shape = .newtype (.opt (.simple t))) (h : PayloadOk L t x) :
      Canon L env (.struct p) (.enum i [.some x])
  | payloadItems (p : Path) (d : EnumDef) (i : Nat) (vd : VariantDef) (t : STy) (xs : List Val)
      (hp : env p = .some (.enum d)) (htag : d.attrs.tag = .none) (hv : d.variants[i]? = .some vd) (hs : vd.shape = .newtype (.vec (.simple t)))
      (hne : xs ≠ []) (h : ∀ x ∈ xs, PayloadOk L t x) : Canon L env (.struct p) (.enum i [.vec xs])
  -- the payload's own attributes and namespace declarations are not written
  | payloadStruct (p : Path) (d : EnumDef) (i : Nat) (vd : VariantDef) (q : Path) (x : Val) (hp : env p = .some (.enum d)) (htag : d.attrs.tag = .none)
      (hv : d.variants[i]? = .some vd) (hs : vd.shape = .newtype (.struct q)) (h : Canon L env (.struct q) x)
      (hbare : encTyAttrs L env q x = []) (hns : ∀ e ∈ encTyDecls env q x, e ∈ d.attrs.decls) :
      Canon L env (.struct p) (.enum i [x])
  | payloadSomeStruct (p : Path) (d : EnumDef) (i : Nat) (vd : VariantDef) (q : Path) (x : Val)
      (hp : env p = .some (.enum d)) (htag : d.attrs.tag = .none) (hv : d.variants[i]? = .some vd) (hs : vd.shape = .newtype (.opt (.struct q)))
      (h : Canon L env (.struct q) x) (hbare : encTyAttrs L env q x = [])
      (hns : ∀ e ∈ encTyDecls env q x, e ∈ d.attrs.decls) : Canon L env (.struct p) (.enum i [.some x])
  | payloadStructs (p : Path) (d : EnumDef) (i : Nat) (vd : VariantDef) (q : Path) (xs : List Val)
      (hp : env p = .some (.enum d)) (htag : d.attrs.tag = .none) (hv : d.variants[i]? = .some vd) (hs : vd.shape = .newtype (.vec (.struct q)))
      (hne : xs ≠ []) (h : ∀ x ∈ xs, Canon L env (.struct q) x) (hbare : ∀ x ∈ xs, encTyAttrs L env q x = [])
      (hns : ∀ x ∈ xs, ∀ e ∈ encTyDecls env q x, e ∈ d.attrs.decls) : Canon L env (.struct p) (.enum i [.vec xs])
  -- nothing is written: the enum's default is read
  | payloadNone (p : Path) (d : EnumDef) (i : Nat) (vd : VariantDef) (t : FTy) (hp : env p = .some (.enum d)) (htag : d.attrs.tag = .none)
      (hv : d.variants[i]? = .some vd) (hs : vd.shape = .newtype (.opt t)) (ht : (∃ s, t = .simple s) ∨ ∃ q, t = .struct q)
      (hd : d.dflt = .enum i [.none]) :
      Canon L env (.struct p) (.enum i [.none])
  | payloadEmpty (p : Path) (d : EnumDef) (i : Nat) (vd : VariantDef) (t : FTy) (hp : env p = .some (.enum d)) (htag : d.attrs.tag = .none)
      (hv : d.variants[i]? = .some vd) (hs : vd.shape = .newtype (.vec t)) (ht : (∃ s, t = .simple s) ∨ ∃ q, t = .struct q)
      (hd : d.dflt = .enum i [.vec []]) :
      Canon L env (.struct p) (.enum i [.vec []])
  | prim (p : Path) (d : PrimDef) (v : Val) (hp : env p = .some (.prim d)) (hb : d.bare = false) (hc : isText (d.toStr v) = true)
      (h : d.fromStr (trimSpace (d.toStr v)) = .ok v) : Canon L env (.struct p) v

/-! ### Programs -/

/-- Names and namespaces of the whole program: every prefix (the empty one: the default namespace) has one meaning. -/
structure NsTable (G : NsMap) : Prop where
  pfx : ∀ d ∈ G, d.1 = [] ∨ (isNCName d.1 = true ∧ d.1 ≠ c!"xml" ∧ d.1 ≠ c!"xmlns")
  uri : ∀ d ∈ G, isUri d.2 = true
  agree : ∀ d ∈ G, ∀ e ∈ G, d.1 = e.1 → d.2 = e.2

/-- The prefix of an element is declared by the type itself; elements without prefix require that there is no default
namespace around. -/
def PfxOk (G : NsMap) (root : Attrs) : Option Str → Prop
  | none => ∀ e ∈ G, e.1 ≠ []
  | some p => p ≠ [] ∧ ∃ u, (p, u) ∈ root.namespaces

/-- The name under which something with this prefix and label is read. -/
def IsNameOf (root : Attrs) (pfx : Option Str) (label : Str) (n : Name) : Prop :=
  n.loc = label ∧ n.ns = root.namespaces.find pfx

/-- What a field can take from an element: an attribute, the text, a child. -/
inductive Item where
  | attr (label : Str)
  | text
  | elem (n : Name)

/-- A field that is read from what is left of its struct's element. -/
def FieldDef.isFlat (f : FieldDef) : Prop := f.attrs.isAttr = false ∧ f.attrs.flatten = true

/-- The field itself takes the item. -/
def FieldDef.takesOwn (root : Attrs) (f : FieldDef) : Item → Prop
  | .attr l => f.attrs.isAttr = true ∧ f.label = l
  | .text => f.attrs.text = true
  | .elem n => f.claims root n

/-- A field of the struct, or of a struct flattened into it, takes the item. -/
inductive Takes (env : Env) : Path → Item → Prop
  | own (p : Path) (d : StructDef) (f : FieldDef) (it : Item) (hp : env p = some (.struct d)) (hf : f ∈ d.fields)
      (h : f.takesOwn d.attrs it) : Takes env p it
  | flat (p : Path) (d : StructDef) (f : FieldDef) (q : Path) (it : Item) (hp : env p = some (.struct d))
      (hf : f ∈ d.fields) (hfl : f.isFlat) (hty : f.ty = .struct q) (h : Takes env q it) : Takes env p it

def FieldTakes (env : Env) (d : StructDef) (f : FieldDef) (it : Item) : Prop :=
  f.takesOwn d.attrs it ∨ (f.isFlat ∧ ∃ q, f.ty = .struct q ∧ Takes env q it)

/-- An element with this name can be read as a value of the type: the name is not, by accident, that of a field
(or variant), and the namespace is right where it is checked. -/
inductive Fits (env : Env) : Path → Name → Prop
  | struct (p : Path) (d : StructDef) (n : Name) (hp : env p = some (.struct d))
      (hn : (n.loc = d.attrs.rename.getD d.name ∧
          n.ns.getD [] = (d.attrs.namespaces.find d.attrs.pfx).getD []) ∨ d.fieldFor n = none)
      (hns : ∀ f ∈ d.fields, f.isFlat → ∀ q d', f.ty = .struct q → env q = some (.struct d') → nsOk d'.attrs n)
      (h : ∀ f ∈ d.fields, f.isFlat → ∀ q, f.ty = .struct q → Fits env q n) : Fits env p n
  | enum (p : Path) (d : EnumDef) (n : Name) (hp : env p = some (.enum d)) (hns : nsOk d.attrs n)
      (hn : d.attrs.tag = none → d.variantFor n.loc = none) : Fits env p n
  | prim (p : Path) (d : PrimDef) (n : Name) (hp : env p = some (.prim d)) : Fits env p n

/-- Conditions on a struct definition. -/
structure StructRt (env : Env) (G : NsMap) (d : StructDef) : Prop where
  plain : d.Plain
  own : d.attrs.flatten = false
  decls : ∀ e ∈ d.attrs.decls, e ∈ G
  label : ∀ f ∈ d.fields, isNCName f.label = true ∧ (f.attrs.isAttr = true → f.label ≠ c!"xmlns")
  attrPfx : ∀ f ∈ d.fields, f.attrs.isAttr = true → ∀ p, f.attrs.pfx = some p → p ≠ [] ∧ ∃ u, (p, u) ∈ d.attrs.namespaces
  /-- Attributes of derived type are read in an element named after the type. -/
  attrFits : ∀ f ∈ d.fields, f.attrs.isAttr = true → ∀ q, f.ty.core = .struct q →
    isNCName q.flatten = true ∧ Fits env q ⟨q.flatten, none, none⟩
  elemPfx : ∀ f ∈ d.fields, f.isElem = true → PfxOk G d.attrs f.attrs.pfx
  text : ∀ f ∈ d.fields, f.attrs.text = true → f.attrs.isAttr = false ∧ f.attrs.flatten = false
  flat : ∀ f ∈ d.fields, f.isFlat → ∃ q d', f.ty = .struct q ∧ env q = some (.struct d')
  /-- No two fields take the same attribute, child or text. -/
  disjoint : ∀ (i j : Nat) (f g : FieldDef) (it : Item), d.fields[i]? = some f → d.fields[j]? = some g →
    FieldTakes env d f it → FieldTakes env d g it → i = j
  fits : ∀ f ∈ d.fields, f.isElem = true → ∀ q, f.ty.core = .struct q →
    ∀ n, IsNameOf d.attrs f.attrs.pfx f.label n → Fits env q n
  /-- Next to flattened fields: no children that are read by their text alone. -/
  byText : d.HasFlat → ∀ f ∈ d.fields, f.isElem = true → ∀ q, f.ty.core = .struct q →
    (∀ e, env q ≠ some (.prim e)) ∧ ∀ e, env q = some (.enum e) → ∀ v ∈ e.variants, v.shape ≠ .unit

/-- Conditions on an enum definition. -/
structure EnumRt (env : Env) (G : NsMap) (d : EnumDef) : Prop where
  own : d.attrs.flatten = false
  tag : ∀ t, d.attrs.tag = some t → isNCName t = true ∧ t ≠ c!"xmlns"
  decls : ∀ e ∈ d.attrs.decls, e ∈ G
  key : ∀ v ∈ d.variants, isNCName (v.attrs.rename.getD v.ident) = true
  distinct : ∀ (i : Nat) (v : VariantDef), d.variants[i]? = some v → (∀ fs, v.shape ≠ .named fs) →
    d.variantFor (v.attrs.rename.getD v.ident) = some i
  unit : ∀ v ∈ d.variants, v.shape = .unit → v.attrs.pfx = none ∨ v.attrs.pfx = d.attrs.defaultNs
  pfx : ∀ v ∈ d.variants, v.shape ≠ .unit → PfxOk G d.attrs v.attrs.pfx
  flat : ∀ v ∈ d.variants, v.attrs.flatten = false
  fits : ∀ v ∈ d.variants, ∀ t q, v.shape = .newtype t → t.core = .struct q →
    ∀ n, IsNameOf d.attrs v.attrs.pfx (v.attrs.rename.getD v.ident) n → Fits env q n

/-- The programs considered. -/
structure RtOk (env : Env) (G : NsMap) : Prop where
  table : NsTable G
  struct : ∀ p d, env p = some (.struct d) → StructRt env G d
  enum : ∀ p d, env p = some (.enum d) → EnumRt env G d

/-- The type can be the document element. -/
def RootOk (env : Env) (G : NsMap) (p : Path) : Prop :=
  match env p with
  | some (.struct d) =>
    isNCName (d.attrs.rename.getD d.name) = true ∧ PfxOk G d.attrs d.attrs.pfx ∧
      ∀ n, IsNameOf d.attrs d.attrs.pfx (d.attrs.rename.getD d.name) n → Fits env p n
  | some (.enum d) =>
    isNCName (d.attrs.rename.getD d.name) = true ∧ PfxOk G d.attrs d.attrs.pfx ∧
      ∀ n, IsNameOf d.attrs d.attrs.pfx (d.attrs.rename.getD d.name) n → Fits env p n
  | some (.prim d) => isNCName d.name = true
  | none => False

/-! ### A simple class of programs -/

/-- An element with this name is not mistaken, on entry, for a field or variant of the type: it is not named like a field
of the struct (unless that is the struct's own element name), or like a variant of the enum. -/
def NameFits (env : Env) (q : Path) (name : Str) : Prop :=
  (∀ e, env q = some (.struct e) →
    name = e.attrs.rename.getD e.name ∨ ∀ g ∈ e.fields, g.attrs.isAttr = false → g.label ≠ name) ∧
  ∀ e, env q = some (.enum e) → ∀ v ∈ e.variants, v.attrs.rename.getD v.ident ≠ name

/-- A struct without namespaces and flattened fields. -/
structure SimpleStruct (env : Env) (d : StructDef) : Prop where
  noNs : d.attrs.namespaces = [] ∧ d.attrs.pfx = none ∧ d.attrs.flatten = false
  types : d.Plain
  defined : ∀ f ∈ d.fields, ∀ q, f.ty.core = .struct q → ∃ td, env q = some td
  fields : ∀ f ∈ d.fields, f.attrs.pfx = none ∧ f.attrs.flatten = false ∧ isNCName f.label = true
  attr : ∀ f ∈ d.fields, f.attrs.isAttr = true → f.attrs.text = false ∧ f.label ≠ c!"xmlns"
  /-- Different labels; at most one text field. -/
  distinct : ∀ (i j : Nat) (f g : FieldDef), d.fields[i]? = some f → d.fields[j]? = some g →
    (f.attrs.isAttr = g.attrs.isAttr ∧ f.label = g.label) ∨ (f.attrs.text = true ∧ g.attrs.text = true) → i = j
  names : ∀ f ∈ d.fields, f.attrs.isAttr = false → ∀ q, f.ty.core = .struct q → NameFits env q f.label
  /-- XML attributes of derived type: enums without payloads, none of whose variants is named like the type, and types
  with `Display` and `FromStr`. -/
  attrTypes : ∀ f ∈ d.fields, f.attrs.isAttr = true → ∀ q, f.ty.core = .struct q →
    isNCName q.flatten = true ∧ NameFits env q q.flatten ∧
      ((∃ e, env q = some (.enum e) ∧ ∀ v ∈ e.variants, v.shape = .unit) ∨
        ∃ e, env q = some (.prim e) ∧ ∀ v, e.dom v → isAttrText (e.toStr v) = true)

/-- The value's type writes no attributes on its own element. -/
def BareType (env : Env) (q : Path) : Prop :=
  ∀ e, env q = some (.struct e) → ∀ f ∈ e.fields, f.attrs.isAttr = false

/-- An enum without namespaces and tag; its variants have no payload, or one that is a scalar or of a type without
attributes. -/
structure SimpleEnum (env : Env) (d : EnumDef) : Prop where
  noNs : d.attrs.namespaces = [] ∧ d.attrs.pfx = none ∧ d.attrs.flatten = false ∧ d.attrs.tag = none
  variants : ∀ v ∈ d.variants, v.attrs.pfx = none ∧ v.attrs.flatten = false ∧
    isNCName (v.attrs.rename.getD v.ident) = true
  shapes : ∀ v ∈ d.variants, v.shape = .unit ∨ (∃ t, v.shape = .newtype (.simple t)) ∨
    ∃ q td, v.shape = .newtype (.struct q) ∧ env q = some td ∧ BareType env q ∧
      NameFits env q (v.attrs.rename.getD v.ident)
  /-- Different names. -/
  distinct : ∀ (i j : Nat) (v w : VariantDef), d.variants[i]? = some v → d.variants[j]? = some w →
    v.attrs.rename.getD v.ident = w.attrs.rename.getD w.ident → i = j

/-- Structs and enums of this kind, and types with `Display` and `FromStr`. -/
def SimpleProgram (env : Env) : Prop :=
  ∀ p td, env p = some td →
    (∃ d, td = .struct d ∧ SimpleStruct env d) ∨ (∃ d, td = .enum d ∧ SimpleEnum env d) ∨ ∃ d, td = .prim d

/-- The name of the element a value of the type is written to at top level. -/
def TypeDef.elementName : TypeDef → Str
  | .struct d => d.attrs.rename.getD d.name
  | .enum d => d.attrs.rename.getD d.name
  | .prim d => d.name

/-- The type of the document element: its name is a name. -/
def SimpleRoot (env : Env) (p : Path) : Prop :=
  ∃ td, env p = some td ∧ isNCName td.elementName = true ∧ NameFits env p td.elementName

/-- `FromStr` inverts `Display` for all values of the type, whose texts consist of characters that can occur in a
document; white space around them may be lost.  (The type has an element of its own; others have no `YaDeserialize`.) -/
def Inverts (d : PrimDef) : Prop :=
  d.bare = false ∧ ∀ v, d.dom v = true → isText (d.toStr v) = true ∧ d.fromStr (trimSpace (d.toStr v)) = .ok v

/-- No attribute of the fields that leaves something out: no `default`, `skip_serializing`, `skip_serializing_if`, no CDATA,
and no `Vec` as XML attribute (it would not be written). -/
def WritesAll (env : Env) : Prop :=
  ∀ p d, env p = some (.struct d) → ∀ f ∈ d.fields, f.dflt = none ∧ f.skipIf = none ∧ f.attrs.skipSer = false ∧
    f.attrs.cdata = false ∧ (f.attrs.isAttr = true → ∀ t, f.ty ≠ .vec t)

/-- What is left out on output is what is filled in on input: whenever a `default`, `skip_serializing` or
`skip_serializing_if` suppresses a field, the field has the value that it gets when it is missing from the document.
No CDATA, and no `Vec` as XML attribute (it would not be written). -/
def Restores (env : Env) : Prop :=
  ∀ p d, env p = some (.struct d) → ∀ f ∈ d.fields,
    (f.attrs.text = false → ∀ self v, HasTy env f.ty v → f.omitted self v → f.absent = some v) ∧
    f.attrs.cdata = false ∧ (f.attrs.isAttr = true → ∀ t, f.ty ≠ .vec t)

/-! ### A larger class of programs -/

/-- A type whose values are carried by an attribute: an enum without payloads, tag and namespaces, or a type with
`Display` and `FromStr`. -/
def AttrType (env : Env) (q : Path) : Prop :=
  (∃ e, env q = some (.enum e) ∧ e.attrs.namespaces = [] ∧ e.attrs.tag = none ∧ ∀ v ∈ e.variants, v.shape = .unit) ∨
    ∃ e, env q = some (.prim e) ∧ ∀ v, e.dom v → isAttrText (e.toStr v) = true

/-- Nothing is lost when a value of the type is written without its start tag, within these declarations. -/
def BareIn (env : Env) (decls : NsMap) (q : Path) : Prop :=
  (∀ e, env q = some (.struct e) →
    (∀ f ∈ e.fields, f.attrs.isAttr = false ∧ f.attrs.flatten = false) ∧ ∀ x ∈ e.attrs.decls, x ∈ decls) ∧
  ∀ e, env q = some (.enum e) → e.attrs.tag = none ∧ ∀ x ∈ e.attrs.decls, x ∈ decls

/-- Attributes and payloads carry their values, whatever they are: no attribute is of a type that needs more than a text,
no payload of a type that has attributes or declarations of its own; flattened fields are never left out. -/
structure Carries (env : Env) : Prop where
  attr : ∀ p d, env p = some (.struct d) → ∀ f ∈ d.fields, f.attrs.isAttr = true → ∀ q, f.ty.core = .struct q → AttrType env q
  flat : ∀ p d, env p = some (.struct d) → ∀ f ∈ d.fields, f.attrs.isAttr = false → f.attrs.flatten = true →
    f.dflt = none ∧ f.skipIf = none ∧ f.attrs.skipSer = false
  payload : ∀ p d, env p = some (.enum d) → ∀ v ∈ d.variants, ∀ t, v.shape = .newtype t →
    d.attrs.tag = none ∧ ((∃ s, t.core = .simple s) ∨ ∃ q, t.core = .struct q ∧ BareIn env d.attrs.decls q)

/-- The variants of enums have no payload or one that is always there. -/
def PlainPayloads (env : Env) : Prop :=
  ∀ p d, env p = some (.enum d) → ∀ v ∈ d.variants,
    v.shape = .unit ∨ (∃ s, v.shape = .newtype (.simple s)) ∨ ∃ q, v.shape = .newtype (.struct q)

mutual
  /-- All strings in the value are non-empty, without white space at the ends, and consist of characters that can occur in a
  document (no carriage returns, tabs or control characters); the text of all floating-point numbers is of this kind
  and parses back. -/
  def Val.Tame (L : Lib) : Val → Prop
    | .str s => CleanText s ∧ isAttrText s = true
    | .f32 b => CleanText (L.showF32 b) ∧ isAttrText (L.showF32 b) = true ∧ L.parseF32 (L.showF32 b) = .ok b
    | .f64 b => CleanText (L.showF64 b) ∧ isAttrText (L.showF64 b) = true ∧ L.parseF64 (L.showF64 b) = .ok b
    | .some v => v.Tame L
    | .vec vs => TameL L vs
    | .struct fs => TameL L fs
    | .enum _ ps => TameL L ps
    | _ => True
  def TameL (L : Lib) : List Val → Prop
    | [] => True
    | v :: vs => v.Tame L ∧ TameL L vs
end

/-- `from_str(&to_string(&v))` returns, and what it returns is `Ok(v)`. -/
def RoundTrips (L : Lib) (env : Env) (p : Path) (v : Val) : Prop :=
  ∃ s, toString L env p v = .ok s ∧ ∀ r, Returns L env p s r ↔ r = .ok v

end Yaserde
