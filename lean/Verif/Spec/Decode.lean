import Verif.Spec.Stream
/-
The declarative reading of an XML element as a value of a derived type.

For a struct: every attribute and every child *contributes* values to fields; a field's value
is determined by the list of values contributed to it.  Nothing here refers to events, loops,
look-ahead or depth counters.
-/

set_option autoImplicit false

namespace Yaserde

/-- First failure, or all values. -/
def Res.collect {α : Type} : List (Res α) → Res (List α)
  | [] => .ok []
  | r :: rs => r.bind fun a => (Res.collect rs).bind fun as => .ok (a :: as)

/-- An element field: neither attribute nor flattened. -/
def FieldDef.isElem (f : FieldDef) : Bool := !f.attrs.isAttr && !f.attrs.flatten

/-- The element belongs to the field: same local name, and the namespace bound to the field's
prefix (the empty one if there is none). -/
def FieldDef.claims (root : Attrs) (f : FieldDef) (n : Name) : Prop :=
  f.isElem = true ∧ (root.namespaces.find f.attrs.pfx).getD [] = n.ns.getD [] ∧
    f.attrs.rename.getD f.ident = n.loc

instance (root : Attrs) (f : FieldDef) (n : Name) : Decidable (f.claims root n) :=
  inferInstanceAs (Decidable (_ ∧ _ ∧ _))

/-- Index of the field a child element belongs to. -/
def StructDef.fieldFor (d : StructDef) (n : Name) : Option Nat :=
  d.fields.findIdx? fun f => decide (f.claims d.attrs n)

/-- A value contributed to field number `i`. -/
abbrev Contrib := Nat × Val

/-- Scalar element content: the value, if there is exactly one piece of text and it parses. -/
def scalarContent (L : Lib) (t : STy) : List Node → Option Val
  | [.text s] =>
    match visitS L t s with
    | .ok v => some v
    | .error _ => none
  | _ => none

/-- Text directly inside the struct's element goes to its text fields. -/
def textContrib (d : StructDef) (s : Str) : List Contrib :=
  (d.fields.zipIdx.filter fun p => p.1.attrs.text).map fun p => (p.2, .str s)

/-- What one child contributes (`dec` reads the child as a value of a given type). -/
def kidContrib (L : Lib) (d : StructDef) (dec : Path → Res Val) : Node → Res (List Contrib)
  | .text s => .ok (textContrib d s)
  | .elem n _ _ ks =>
    match d.fieldFor n with
    | none => .ok []
    | some i =>
      match d.fields[i]? with
      | none => .ok []
      | some f =>
        match f.ty.core with
        | .simple t => .ok ((scalarContent L t ks).toList.map fun v => (i, v))
        | .struct q => (dec q).bind fun v => .ok [(i, v)]
        | _ => .ok []

/-- All children, in document order. -/
def kidContribs (L : Lib) (d : StructDef) (kids : List Node) (decs : List (Path → Res Val)) :
    Res (List Contrib) :=
  (Res.collect ((kids.zip decs).map fun k => kidContrib L d k.2 k.1)).bind fun cs => .ok cs.flatten

/-- The values one attribute gives for an attribute field of type `ty` (`user` reads a text as a value of a derived
type). -/
def attrValues (L : Lib) (user : Path → Str → Res Val) (ty : FTy) (value : Str) : Res (List Val) :=
  match ty with
  | .vec (.simple t) => Res.collect ((splitWhitespace value).map fun w =>
      match visitS L t w with | .ok v => .ok v | .error m => .err m)
  | .opt (.simple t) => (match visitS L t value with | .ok v => .ok [v] | .error m => .err m)
  | .simple t => (match visitS L t value with | .ok v => .ok [v] | .error m => .err m)
  | .vec (.struct q) => Res.collect ((splitWhitespace value).map (user q))
  | .opt (.struct q) => (user q value).bind fun v => .ok [v]
  | .struct q => (user q value).bind fun v => .ok [v]
  | _ => .ok []

/-- What the attributes of the start tag contribute to field number `i`. -/
def attrContrib (L : Lib) (user : Path → Str → Res Val) (i : Nat) (f : FieldDef) (attrs : List Attr) : Res (List Contrib) :=
  if f.attrs.isAttr then
    (Res.collect ((attrs.filter fun a => a.name.loc = f.label).map fun a =>
      attrValues L user f.ty a.value)).bind fun vs => .ok (vs.flatten.map fun v => (i, v))
  else .ok []

/-- All attribute fields, in declaration order. -/
def attrContribs (L : Lib) (user : Path → Str → Res Val) (d : StructDef) (attrs : List Attr) : Res (List Contrib) :=
  (Res.collect (d.fields.zipIdx.map fun p => attrContrib L user p.2 p.1 attrs)).bind fun cs =>
    .ok cs.flatten

/-- A field's value, from the values contributed to it. -/
def fieldValue (structName : Str) (f : FieldDef) (vs : List Val) : Res Val :=
  match f.ty with
  | .vec _ => .ok (.vec vs)
  | .opt _ => .ok (match vs.getLast? with | some v => .some v | none => .none)
  | _ =>
    match vs.getLast?, f.dflt with
    | some v, _ => .ok v
    | none, some dv => .ok dv.val
    | none, none => .err (f.ident ++ c!" is a required field of " ++ structName)

/-- The values contributed to field number `i`. -/
def valuesOf (cs : List Contrib) (i : Nat) : List Val := (cs.filter fun c => c.1 = i).map Prod.snd

/-- The struct's value, from all contributions. -/
def assemble (d : StructDef) (cs : List Contrib) : Res Val :=
  (Res.collect (d.fields.zipIdx.map fun p => fieldValue d.name p.1 (valuesOf cs p.2))).bind fun vs =>
    .ok (.struct vs)

/-- No field of the struct claims the node. -/
def StructDef.unclaimed (d : StructDef) : Node → Bool
  | .text _ => true
  | .elem n _ _ _ => (d.fieldFor n).isNone

/-- What flattened fields are read from: the element without the children claimed by fields. -/
def StructDef.residue (d : StructDef) (n : Name) (attrs : List Attr) (nss : NsMap)
    (kids : List Node) : Node :=
  .elem n attrs nss (kids.filter d.unclaimed)

/-- A flattened field, read from the residue by `flat`. -/
def flatContrib (flat : Path → Res Val) (i : Nat) (f : FieldDef) : Res (List Contrib) :=
  if !f.attrs.isAttr && f.attrs.flatten then
    match f.ty with
    | .struct q => (flat q).bind fun v => .ok [(i, v)]
    | .opt (.struct q) =>
      match flat q with
      | .ok v => .ok [(i, v)]
      | .err _ => .ok []
      | .panic m => .panic m
      | .diverge => .diverge
    | _ => .ok []
  else .ok []

/-- All flattened fields, in declaration order. -/
def flatContribs (flat : Path → Res Val) (d : StructDef) : Res (List Contrib) :=
  (Res.collect (d.fields.zipIdx.map fun p => flatContrib flat p.2 p.1)).bind fun cs =>
    .ok cs.flatten

/-- How attributes of a derived type are read: the value of the attribute, as a text node, by `flat`. -/
def userAttr (flat : Node → Path → Res Val) (q : Path) (s : Str) : Res Val := flat (.text s) q

/-- A struct's element.  `flat` reads what is embedded in the element as a document of its own: what is left of the
element for flattened fields, and (given as text nodes) attributes of derived types. -/
def decodeStruct (L : Lib) (flat : Node → Path → Res Val) (d : StructDef) (n : Name)
    (attrs : List Attr) (nss : NsMap) (kids : List Node) (decs : List (Path → Res Val)) : Res Val :=
  (attrContribs L (userAttr flat) d attrs).bind fun as =>
    (kidContribs L d kids decs).bind fun ks =>
      (flatContribs (flat (d.residue n attrs nss kids)) d).bind fun fs => assemble d (as ++ ks ++ fs)

/-- Text content of an element whose content is text only. -/
def textContent : List Node → Str
  | [.text s] => s
  | _ => []

/-! #### Enums -/

/-- A variant has a name under which it is read, unless it has named fields. -/
def VariantDef.named (v : VariantDef) (key : Str) : Prop :=
  (∀ fs, v.shape ≠ .named fs) ∧ v.attrs.rename.getD v.ident = key

instance (v : VariantDef) (key : Str) : Decidable (v.named key) :=
  match h : v.shape with
  | .named fs => .isFalse fun hn => hn.1 fs h
  | .unit => decidable_of_iff (v.attrs.rename.getD v.ident = key) (by simp [VariantDef.named, h])
  | .newtype _ => decidable_of_iff (v.attrs.rename.getD v.ident = key) (by simp [VariantDef.named, h])

/-- Index of the variant with this name. -/
def EnumDef.variantFor (d : EnumDef) (key : Str) : Option Nat :=
  d.variants.findIdx? fun v => decide (v.named key)

/-- One child element: the value of the variant it names. -/
def variantKid (L : Lib) (d : EnumDef) (dec : Path → Res Val) : Node → Res (Option (Nat × FTy × Val))
  | .text _ => .ok none
  | .elem n _ _ ks =>
    match d.variantFor n.loc with
    | none => .ok none
    | some i =>
      match d.variants[i]? with
      | some ⟨_, _, .newtype t⟩ =>
        match t.core with
        | .simple s =>
          match parseS L s (textContent ks) with
          | .ok v => .ok (some (i, t, v))
          | .error _ => .panic c!"called `Result::unwrap()` on an `Err` value"
        | .struct q => (dec q).bind fun v => .ok (some (i, t, v))
        | _ => .ok none
      | _ => .ok none

/-- The variant named by a child replaces the current one; items of a `Vec` variant are
collected, and may not be mixed with another variant. -/
def variantAdd (cur : Option Val) : Option (Nat × FTy × Val) → Res (Option Val)
  | none => .ok cur
  | some (i, .opt _, v) => .ok (some (.enum i [.some v]))
  | some (i, .vec _, v) =>
    match cur with
    | none => .ok (some (.enum i [.vec [v]]))
    | some (.enum j [.vec vs]) =>
      if j = i then .ok (some (.enum i [.vec (vs ++ [v])])) else .err c!"Got sequence of different types"
    | some _ => .err c!"Got sequence of different types"
  | some (i, _, v) => .ok (some (.enum i [v]))

/-- All children, in document order. -/
def variantKids (L : Lib) (d : EnumDef) : List (Node × (Path → Res Val)) → Option Val → Res (Option Val)
  | [], cur => .ok cur
  | k :: ks, cur =>
    (variantKid L d k.2 k.1).bind fun c => (variantAdd cur c).bind fun cur' => variantKids L d ks cur'

/-- The unit variant named by the element's text. -/
def unitByText (d : EnumDef) : List Node → Option Nat
  | [.text s] => d.variantFor s
  | _ => none

/-- What names the variant on the enum's own start tag: the value of the tag attribute (the first one with that local
name) or, without tag, the name of the element. -/
def EnumDef.keyOf (d : EnumDef) (n : Name) (attrs : List Attr) : Option Str :=
  match d.attrs.tag with
  | some t => (attrs.find? fun a => a.name.loc = t).map Attr.value
  | none => some n.loc

/-- The variant named by the enum's own start tag. -/
def EnumDef.variantOf (d : EnumDef) (n : Name) (attrs : List Attr) : Option Nat := (d.keyOf n attrs).bind d.variantFor

/-- An enum's element: its start tag names a unit variant, or its text does, or its children name one-field variants;
otherwise the default. -/
def decodeEnum (L : Lib) (d : EnumDef) (n : Name) (attrs : List Attr) (kids : List Node)
    (decs : List (Path → Res Val)) : Res Val :=
  match d.variantOf n attrs, unitByText d kids with
  | some i, _ => .ok (.enum i [])
  | none, some i => .ok (.enum i [])
  | none, none => (variantKids L d (kids.zip decs) none).bind fun r => .ok (r.getD d.dflt)

mutual
  /-- The value of type `p` an element stands for; `flat` reads flattened fields from what is
  left of an element, and attributes of derived types. -/
  def decodeWith (L : Lib) (env : Env) (flat : Node → Path → Res Val) : Node → Path → Res Val
    | .text _, _ => .err []
    | .elem n attrs nss kids, p =>
      match env p with
      | some (.struct d) => decodeStruct L flat d n attrs nss kids (decodeL L env flat kids)
      | some (.enum d) => decodeEnum L d n attrs kids (decodeL L env flat kids)
      | some (.prim d) =>
        (match d.fromStr (textContent kids) with | .ok v => .ok v | .error m => .err m)
      | none => .err []
  def decodeL (L : Lib) (env : Env) (flat : Node → Path → Res Val) : List Node → List (Path → Res Val)
    | [] => []
    | k :: ks => decodeWith L env flat k :: decodeL L env flat ks
end

/-- An element in a namespace must be in one declared for the type's prefix. -/
def nsOk (a : Attrs) (n : Name) : Prop :=
  ∀ u, n.ns = some u → ∃ e ∈ a.namespaces, a.pfx = some e.1 ∧ e.2 = u

instance (a : Attrs) (n : Name) : Decidable (nsOk a n) :=
  match h : n.ns with
  | none => .isTrue (by simp [nsOk, h])
  | some u => decidable_of_iff (∃ e ∈ a.namespaces, a.pfx = some e.1 ∧ e.2 = u) (by simp [nsOk, h])

def Node.name : Node → Name
  | .elem n _ _ _ => n
  | .text _ => ⟨[], none, none⟩

/-- The attributes on the start tag of an element. -/
def Node.attrs : Node → List Attr
  | .elem _ as _ _ => as
  | .text _ => []

/-- The content of an element. -/
def Node.content : Node → List Node
  | .elem _ _ _ ks => ks
  | .text _ => []

/-- Reading a whole document: the namespace of the document element of a struct is checked. -/
def decodeDocWith (env : Env) (dec : Node → Path → Res Val) (x : Node) (p : Path) : Res Val :=
  match env p with
  | some (.struct d) =>
    if nsOk d.attrs x.name then dec x p
    else .err (c!"bad namespace for " ++ x.name.loc ++ c!", found " ++ x.name.ns.getD [])
  | _ => dec x p

mutual
  /-- A node as it comes back when written as text and read again: adjacent texts have become
  one; namespace declarations, which have no bearing on the values read, are left out. -/
  def Node.canon : Node → Node
    | .text s => .text s
    | .elem n as _ ks => .elem n as [] (Node.canonL ks)
  def Node.canonL : List Node → List Node
    | [] => []
    | k :: ks =>
      match k.canon, Node.canonL ks with
      | .text a, .text b :: r => .text (a ++ b) :: r
      | k', r => k' :: r
end

mutual
  /-- Without namespace declarations. -/
  def Node.strip : Node → Node
    | .text s => .text s
    | .elem n as _ ks => .elem n as [] (Node.stripL ks)
  def Node.stripL : List Node → List Node
    | [] => []
    | k :: ks => k.strip :: Node.stripL ks
end

mutual
  /-- The node as writer events. -/
  def Node.wevents : Node → List WEv
    | .elem n as m ks => .start n as m :: (Node.weventsL ks ++ [.endE (some n)])
    | .text s => [.chars s]
  def Node.weventsL : List Node → List WEv
    | [] => []
    | k :: ks => k.wevents ++ Node.weventsL ks
end

/-- Writing `x` as a document and parsing it gives `y`, which is the same node up to merged
texts and namespace declarations. -/
def Reparse (L : Lib) (x y : Node) : Prop :=
  y.strip = x.canon ∧
    ∃ pre, content pre = [] ∧ L.parse (L.emit {} x.wevents) = ⟨pre ++ y.events, none⟩

/-- The whole text is a document with root element `x` (whatever follows it). -/
def IsDoc (src : Src) (x : Node) : Prop := ∃ post, content src.evs = x.events ++ post

/-- Elements that have been opened: their tags, and their children so far, last first. -/
abbrev Open := List (Name × List Attr × NsMap × List Node)

/-- The first element of a list of events, given the elements around. -/
def firstElem : List REv → Open → Option Node
  | .start n as m :: es, st => firstElem es ((n, as, m, []) :: st)
  | .endE _ :: _, [(n, as, m, ks)] => some (.elem n as m ks.reverse)
  | .endE _ :: es, (n, as, m, ks) :: (n', as', m', ks') :: st =>
    firstElem es ((n', as', m', .elem n as m ks.reverse :: ks') :: st)
  | .chars s :: es, (n, as, m, ks) :: st => firstElem es ((n, as, m, .text s :: ks) :: st)
  | _, _ => none

/-- The document in which an attribute of a derived type is read: the value, as it is, in an element named after the
type. -/
def attrDoc (q : Path) (value : Str) : Str := c!"<" ++ q.flatten ++ c!">" ++ value ++ c!"</" ++ q.flatten ++ c!">"

/-- Reading with up to `k` levels of embedding (flattened fields, and attributes of derived types). -/
def decodeN (L : Lib) (env : Env) : Nat → Node → Path → Res Val
  | 0 => decodeWith L env fun _ _ => .err []
  | k + 1 => decodeWith L env fun x q =>
    match x with
    | .text s =>
      match firstElem (content (L.parse (attrDoc q s)).evs) [] with
      | some y => decodeDocWith env (decodeN L env k) y q
      | none => .err []
    | .elem .. => decodeDocWith env (decodeN L env k) x.canon q

/-- Reading without flattened fields and attributes of derived types. -/
def decode (L : Lib) (env : Env) : Node → Path → Res Val := decodeN L env 0

/-! ### The documents the reading applies to -/

/-- Fields have types the derive macros accept (text fields of string type, flattened fields of struct type). -/
structure StructDef.Plain (d : StructDef) : Prop where
  elemTy : ∀ f ∈ d.fields, (∃ t, f.ty.core = .simple t) ∨ (∃ q, f.ty.core = .struct q)
  textTy : ∀ f ∈ d.fields, f.attrs.text = true → f.ty = .simple .string ∨ f.ty = .opt (.simple .string)
  flatTy : ∀ f ∈ d.fields, f.attrs.isAttr = false → f.attrs.flatten = true →
    (∃ q, f.ty = .struct q) ∨ ∃ q, f.ty = .opt (.struct q)

/-- The struct has a flattened field. -/
def StructDef.HasFlat (d : StructDef) : Prop :=
  ∃ f ∈ d.fields, f.attrs.isAttr = false ∧ f.attrs.flatten = true

/-- The texts in an attribute that are read separately. -/
def FTy.attrTexts (ty : FTy) (value : Str) : List Str :=
  match ty with
  | .vec _ => splitWhitespace value
  | _ => [value]

/-- Content that is empty or a single text. -/
def textOnly : List Node → Prop
  | [] => True
  | [.text _] => True
  | _ => False

mutual
  /-- Nothing in it is named like a variant. -/
  def Node.foreign (d : EnumDef) : Node → Prop
    | .text s => d.variantFor s = none
    | .elem n _ _ ks => d.variantFor n.loc = none ∧ Node.foreignL d ks
  def Node.foreignL (d : EnumDef) : List Node → Prop
    | [] => True
    | k :: ks => k.foreign d ∧ Node.foreignL d ks
end

/-- Something stands in for the element: a primitive's text, or the name of a unit variant in the text or on the start
tag. -/
def byText (env : Env) (x : Node) (p : Path) : Prop :=
  match env p with
  | some (.prim _) => x.content ≠ []
  | some (.enum d) => unitByText d x.content ≠ none ∨ d.variantOf x.name x.attrs ≠ none
  | _ => False

mutual
  /-- The element conforms to the type: scalar children contain text only, and the name of an
  element read as a struct is not, by accident, the name of one of that struct's fields
  (nor that of an enum's element with content the name of a variant). -/
  def ConfWith (L : Lib) (env : Env) (flatConf : Node → Path → Prop) : Node → Path → Prop
    | .text _, _ => False
    | .elem n as m kids, p =>
      match env p with
      | some (.struct d) =>
        d.Plain ∧
        ((n.loc = d.attrs.rename.getD d.name ∧
            n.ns.getD [] = (d.attrs.namespaces.find d.attrs.pfx).getD []) ∨ d.fieldFor n = none) ∧
        ConfKids L env flatConf d kids ∧
        (∀ f ∈ d.fields, f.attrs.isAttr = false → f.attrs.flatten = true →
          ∀ q, f.ty.core = .struct q → flatConf (d.residue n as m kids) q) ∧
        (∀ f ∈ d.fields, f.attrs.isAttr = true → ∀ q, f.ty.core = .struct q →
          ∀ a ∈ as, a.name.loc = f.label → ∀ s ∈ f.ty.attrTexts a.value, flatConf (.text s) q)
      | some (.enum d) =>
        nsOk d.attrs n ∧
        ((d.attrs.tag = none ∧ d.variantFor n.loc = none ∧
            ((∃ i v, unitByText d kids = some i ∧ d.variants[i]? = some v ∧ v.shape = .unit) ∨
              ConfVariants L env flatConf d kids)) ∨
          -- an empty element whose start tag names a unit variant, or none
          (kids = [] ∧ ∃ key, d.keyOf n as = some key ∧
            ∀ i v, d.variantFor key = some i → d.variants[i]? = some v → v.shape = .unit))
      | some (.prim _) => textOnly kids
      | none => False
  def ConfKids (L : Lib) (env : Env) (flatConf : Node → Path → Prop) : StructDef → List Node → Prop
    | _, [] => True
    | d, k :: ks => ConfKid L env flatConf d k ∧ ConfKids L env flatConf d ks
  def ConfKid (L : Lib) (env : Env) (flatConf : Node → Path → Prop) : StructDef → Node → Prop
    | _, .text s => s ≠ []
    | d, .elem n as m kids =>
      n.ns ≠ some [] ∧
      ∀ i f, d.fieldFor n = some i → d.fields[i]? = some f →
        (∀ t, f.ty.core = .simple t → textOnly kids ∧
          -- with flattened fields around: well formed
          (d.HasFlat → (scalarContent L t kids).isSome = true)) ∧
        (∀ q, f.ty.core = .struct q → ConfWith L env flatConf (.elem n as m kids) q ∧
          (d.HasFlat → ¬ byText env (.elem n as m kids) q))
  def ConfVariants (L : Lib) (env : Env) (flatConf : Node → Path → Prop) : EnumDef → List Node → Prop
    | _, [] => True
    | d, k :: ks => ConfVariant L env flatConf d k ∧ ConfVariants L env flatConf d ks
  def ConfVariant (L : Lib) (env : Env) (flatConf : Node → Path → Prop) : EnumDef → Node → Prop
    | d, .text s => d.variantFor s = none
    | d, .elem n as m kids =>
      (Node.elem n as m kids).foreign d ∨
      ∃ i v t, d.variantFor n.loc = some i ∧ d.variants[i]? = some v ∧ v.shape = .newtype t ∧
        ((∃ s, t.core = .simple s ∧ textOnly kids) ∨
         (∃ q, t.core = .struct q ∧ ConfWith L env flatConf (.elem n as m kids) q))
end

/-- Conformance with up to `k` levels of embedding. -/
def ConfN (L : Lib) (env : Env) : Nat → Node → Path → Prop
  | 0 => ConfWith L env fun _ _ => False
  | k + 1 => ConfWith L env fun x q =>
    match x with
    | .text s => ∃ y, IsDoc (L.parse (attrDoc q s)) y ∧ y.events.length ≤ k + 3 ∧ ConfN L env k y q
    | .elem .. => ∃ y, Reparse L x y ∧ ConfN L env k y q

/-- Conformance to types without flattened fields; attributes of derived types with up to `k` levels. -/
def Conf (L : Lib) (env : Env) : Nat → Node → Path → Prop
  | 0 => ConfWith L env fun _ _ => False
  | k + 1 => ConfWith L env fun x q =>
    match x with
    | .text s => ∃ y, IsDoc (L.parse (attrDoc q s)) y ∧ y.events.length ≤ k + 3 ∧ ConfN L env k y q
    | .elem .. => False

end Yaserde
