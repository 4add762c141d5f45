import Verif.Spec.RoundTrip
/-
Programs whose output is well-formed XML: conditions on the names alone.
-/

set_option autoImplicit false

namespace Yaserde

mutual
  /-- All texts and attribute values consist of characters that can occur in a document. -/
  def WNode.Chars : WNode → Prop
    | .elem _ as _ ks => (∀ a ∈ as, isAttrText a.value = true) ∧ WNode.CharsL ks
    | .text s => isText s = true
    | .cdata s => isCdata s
  def WNode.CharsL : List WNode → Prop
    | [] => True
    | k :: ks => k.Chars ∧ WNode.CharsL ks
end

/-- The prefix, if there is one, is that of the default namespace or declared by the type. -/
def PfxIn (root : Attrs) (pfx : Option Str) : Prop :=
  ∀ p, pfx = some p → root.defaultNs = some p ∨ (p ≠ [] ∧ ∃ u, (p, u) ∈ root.namespaces)

/-- The declaration is made by the type, or by a struct flattened into it. -/
inductive Declares (env : Env) : Path → Str × Str → Prop
  | struct (p : Path) (d : StructDef) (e : Str × Str) (hp : env p = some (.struct d)) (h : e ∈ d.attrs.decls) : Declares env p e
  | enum (p : Path) (d : EnumDef) (e : Str × Str) (hp : env p = some (.enum d)) (h : e ∈ d.attrs.decls) : Declares env p e
  | flat (p : Path) (d : StructDef) (f : FieldDef) (q : Path) (e : Str × Str) (hp : env p = some (.struct d))
      (hf : f ∈ d.fields) (hfl : f.isFlat) (hty : f.ty = .struct q) (h : Declares env q e) : Declares env p e

/-- The attribute is written by a field of the type, or of a struct flattened into it, or it is an enum's tag. -/
inductive WritesAttr (env : Env) : Path → Str → Prop
  | own (p : Path) (d : StructDef) (f : FieldDef) (hp : env p = some (.struct d)) (hf : f ∈ d.fields)
      (ha : f.attrs.isAttr = true) : WritesAttr env p (f.written d.attrs)
  | flat (p : Path) (d : StructDef) (f : FieldDef) (q : Path) (a : Str) (hp : env p = some (.struct d)) (hf : f ∈ d.fields)
      (hfl : f.isFlat) (hty : f.ty = .struct q) (h : WritesAttr env q a) : WritesAttr env p a
  | tag (p : Path) (d : EnumDef) (t : Str) (hp : env p = some (.enum d)) (ht : d.attrs.tag = some t) : WritesAttr env p t

/-- … by this field. -/
def FieldWritesAttr (env : Env) (d : StructDef) (f : FieldDef) (a : Str) : Prop :=
  (f.attrs.isAttr = true ∧ a = f.written d.attrs) ∨ (f.isFlat ∧ ∃ q, f.ty = .struct q ∧ WritesAttr env q a)

structure StructNames (env : Env) (G : NsMap) (d : StructDef) : Prop where
  own : d.attrs.flatten = false
  decls : ∀ e ∈ d.attrs.decls, e ∈ G
  name : isNCName (d.attrs.rename.getD d.name) = true ∧ PfxIn d.attrs d.attrs.pfx
  label : ∀ f ∈ d.fields, isNCName f.label = true ∧ PfxIn d.attrs f.attrs.pfx ∧ (f.attrs.isAttr = true → f.label ≠ c!"xmlns")
  /-- No attribute is written twice. -/
  distinct : ∀ (i j : Nat) (f g : FieldDef) (a : Str), d.fields[i]? = some f → d.fields[j]? = some g →
    FieldWritesAttr env d f a → FieldWritesAttr env d g a → i = j
  /-- The namespace declarations of flattened `Option`s and `Vec`s are not written. -/
  bare : ∀ f ∈ d.fields, f.isFlat → ∀ q, f.ty ≠ .struct q → f.ty.core = .struct q →
    ∀ e, Declares env q e → e ∈ d.attrs.decls

structure EnumNames (env : Env) (G : NsMap) (d : EnumDef) : Prop where
  own : d.attrs.flatten = false
  decls : ∀ e ∈ d.attrs.decls, e ∈ G
  name : isNCName (d.attrs.rename.getD d.name) = true ∧ PfxIn d.attrs d.attrs.pfx
  tag : ∀ t, d.attrs.tag = some t → isNCName t = true ∧ t ≠ c!"xmlns"
  variant : ∀ v ∈ d.variants, isNCName (v.attrs.rename.getD v.ident) = true ∧ PfxIn d.attrs v.attrs.pfx
  named : ∀ v ∈ d.variants, ∀ fds, v.shape = .named fds → ∀ f ∈ fds, isNCName f.label = true ∧ PfxIn d.attrs f.attrs.pfx
  /-- The namespace declarations of a variant's payload are not written. -/
  bare : ∀ v ∈ d.variants, ∀ t q, v.shape = .newtype t → t.core = .struct q → ∀ e, Declares env q e → e ∈ d.attrs.decls

/-- All names are XML names; prefixes are declared by the type that uses them, with one meaning in the whole program. -/
structure NamesOk (env : Env) (G : NsMap) : Prop where
  table : NsTable G
  struct : ∀ p d, env p = some (.struct d) → StructNames env G d
  enum : ∀ p d, env p = some (.enum d) → EnumNames env G d
  prim : ∀ p d, env p = some (.prim d) → isNCName d.name = true

/-- The type writes an element when it is written by itself: it is not one of those whose `YaSerialize` is that of a scalar. -/
def HasElement (env : Env) (p : Path) : Prop := ∀ d, env p = some (.prim d) → d.bare = false

/-! ### Legal values -/

/-- The value of an attribute consists of characters that can occur in an attribute. -/
def AttrLegal (L : Lib) (env : Env) : FTy → Val → Prop
  | .simple _, v => isAttrText (showS L v) = true
  | .opt (.simple _), .some x => isAttrText (showS L x) = true
  | .opt (.struct p), .some x => isAttrText (L.emit { decl := false } (WNode.eventsL (encTy L env .inner p x))) = true
  | .struct p, x => isAttrText (L.emit { decl := false } (WNode.eventsL (encTy L env .inner p x))) = true
  | _, _ => True

/-- All scalars of the value are written with characters that can occur in a document: in an attribute, in a CDATA
section, or in an element, depending on the field. -/
inductive Legal (L : Lib) (env : Env) : FTy → Val → Prop
  | simple (t : STy) (v : Val) (h : isText (showS L v) = true) : Legal L env (.simple t) v
  | none (t : FTy) : Legal L env (.opt t) .none
  | some (t : FTy) (v : Val) (h : Legal L env t v) : Legal L env (.opt t) (.some v)
  | vec (t : FTy) (vs : List Val) (h : ∀ v ∈ vs, Legal L env t v) : Legal L env (.vec t) (.vec vs)
  | struct (p : Path) (d : StructDef) (fs : List Val) (hp : env p = some (.struct d))
      (h : ∀ (i : Nat) (f : FieldDef) (v : Val), d.fields[i]? = some f → fs[i]? = some v → Legal L env f.ty v)
      (attr : ∀ (i : Nat) (f : FieldDef) (v : Val), d.fields[i]? = some f → fs[i]? = some v → f.attrs.isAttr = true →
        AttrLegal L env f.ty v)
      (cdata : ∀ (i : Nat) (f : FieldDef) (s : Str), d.fields[i]? = some f → fs[i]? = some (.str s) → f.attrs.cdata = true →
        isCdata s)
      (text : ∀ (i : Nat) (f : FieldDef) (v : Val), d.fields[i]? = some f → fs[i]? = some v → f.attrs.text = true →
        isText (fieldText v) = true) : Legal L env (.struct p) (.struct fs)
  | enum (p : Path) (d : EnumDef) (i : Nat) (pay : List Val) (vd : VariantDef) (hp : env p = some (.enum d))
      (hv : d.variants[i]? = some vd) (new : ∀ t, vd.shape = .newtype t → ∀ x ∈ pay, Legal L env t x)
      (named : ∀ fds, vd.shape = .named fds → ∀ (j : Nat) (f : FieldDef) (v : Val), fds[j]? = some f → pay[j]? = some v →
        Legal L env f.ty v) : Legal L env (.struct p) (.enum i pay)
  | prim (p : Path) (d : PrimDef) (v : Val) (hp : env p = some (.prim d)) (h : isText (d.toStr v) = true) :
      Legal L env (.struct p) v

/-! ### Trees of names -/

/-- Elements with their attributes, without texts and attribute values. -/
inductive NameTree where
  | node (name : Str) (attrs : List Str) (kids : List NameTree)

mutual
  /-- … of a tree that is written -/
  def WNode.names : WNode → List NameTree
    | .elem n as _ ks => [.node n (as.map fun a => a.name.raw) (WNode.namesL ks)]
    | .text _ => []
    | .cdata _ => []
  def WNode.namesL : List WNode → List NameTree
    | [] => []
    | k :: ks => k.names ++ WNode.namesL ks
end

mutual
  /-- … of a tree that is read. -/
  def Node.names : Node → List NameTree
    | .elem n as _ ks => [.node n.raw (as.map fun a => a.name.raw) (Node.namesL ks)]
    | .text _ => []
  def Node.namesL : List Node → List NameTree
    | [] => []
    | k :: ks => k.names ++ Node.namesL ks
end

end Yaserde
