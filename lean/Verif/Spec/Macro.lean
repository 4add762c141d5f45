import Verif.Model.Macro
/-
What the derive macros should make of an item, stated without reference to the functions of the macros.
-/

set_option autoImplicit false

namespace Yaserde

/-! ### Types -/

/-- The scalar types and their names. -/
def scalarTable : List (Str × STy) :=
  [(c!"String", .string), (c!"bool", .bool), (c!"i8", .int .i8), (c!"u8", .int .u8), (c!"i16", .int .i16),
   (c!"u16", .int .u16), (c!"i32", .int .i32), (c!"u32", .int .u32), (c!"i64", .int .i64), (c!"u64", .int .u64),
   (c!"f32", .f32), (c!"f64", .f64)]

/-- `Denotes t f`: the last segment of the path decides; the argument of `Option` and `Vec` is the first one.  An
invisible group around a type does not count, but two of them around an argument are too many. -/
inductive Denotes : SynTy → FTy → Prop
  | scalar (init : List Str) (x : Str) (args : SynArgs) (t : STy) (h : (x, t) ∈ scalarTable) :
      Denotes (.path init x args) (.simple t)
  | opt (init : List Str) (i : List Str) (x : Str) (a : SynArgs) (rest : List Str) (f : FTy) (h : Denotes (.path i x a) f) :
      Denotes (.path init c!"Option" (.angleTy (.path i x a) rest)) (.opt f)
  | optGroup (init : List Str) (i : List Str) (x : Str) (a : SynArgs) (rest : List Str) (f : FTy)
      (h : Denotes (.path i x a) f) : Denotes (.path init c!"Option" (.angleTy (.group (.path i x a)) rest)) (.opt f)
  | vec (init : List Str) (i : List Str) (x : Str) (a : SynArgs) (rest : List Str) (f : FTy) (h : Denotes (.path i x a) f) :
      Denotes (.path init c!"Vec" (.angleTy (.path i x a) rest)) (.vec f)
  | vecGroup (init : List Str) (i : List Str) (x : Str) (a : SynArgs) (rest : List Str) (f : FTy)
      (h : Denotes (.path i x a) f) : Denotes (.path init c!"Vec" (.angleTy (.group (.path i x a)) rest)) (.vec f)
  | user (init : List Str) (x : Str) (args : SynArgs) (h : ∀ t, (x, t) ∉ scalarTable) (ho : x ≠ c!"Option")
      (hv : x ≠ c!"Vec") : Denotes (.path init x args) (.struct (init ++ [x]))
  | group (t : SynTy) (f : FTy) (h : Denotes t f) : Denotes (.group t) f

/-! ### Attributes -/

/-- The value given to a key. -/
def given (items : List (Str × AVal)) (k : Str) : Option AVal := (items.find? fun e => e.1 == k).map Prod.snd

/-- A key that takes `true` or `false`, and is `false` when absent. -/
def FlagOf (items : List (Str × AVal)) (k : Str) (b : Bool) : Prop :=
  given items k = some (.bool b) ∨ given items k = none ∧ b = false

/-- A key that takes a string. -/
def Text (items : List (Str × AVal)) (k : Str) (s : Option Str) : Prop :=
  (∃ x, s = some x ∧ given items k = some (.str x)) ∨ given items k = none ∧ s = none

/-- Keys strictly increasing. -/
def Sorted : NsMap → Prop
  | [] => True
  | [_] => True
  | a :: b :: m => strLt a.1 b.1 = true ∧ Sorted (b :: m)

/-- `m` has the entries of `es`, later ones overriding earlier ones, in the order of the keys. -/
def MapOf (es : List (Str × Str)) (m : NsMap) : Prop :=
  Sorted m ∧ ∀ k v, (k, v) ∈ m ↔ (es.reverse.find? fun e => e.1 == k).map Prod.snd = some v

/-- The contents of `#[yaserde(…)]` and their meaning. -/
structure Means (items : List (Str × AVal)) (y : YAttr) : Prop where
  once : ∀ k ∈ attrKeys, (items.filter fun e => e.1 == k).length ≤ 1
  isAttr : FlagOf items c!"attribute" y.attrs.isAttr
  dflt : Text items c!"default" y.dflt
  defaultNs : Text items c!"default_namespace" y.attrs.defaultNs
  flatten : FlagOf items c!"flatten" y.attrs.flatten
  namespaces : (∃ es, given items c!"namespaces" = some (.map es) ∧ MapOf es y.attrs.namespaces) ∨
    given items c!"namespaces" = none ∧ y.attrs.namespaces = []
  pfx : Text items c!"prefix" y.attrs.pfx
  rename : Text items c!"rename" y.attrs.rename
  tag : Text items c!"tag" y.attrs.tag
  skipSer : FlagOf items c!"skip_serializing" y.attrs.skipSer
  skipIf : Text items c!"skip_serializing_if" y.skipIf
  text : FlagOf items c!"text" y.attrs.text
  cdata : FlagOf items c!"cdata" y.attrs.cdata

/-- The attribute is one of yaserde's. -/
def SynAttr.Ours (a : SynAttr) : Prop := a.path = [c!"yaserde"]

/-- The options of an item: those of the first of its attributes that is one of yaserde's. -/
def Options (as : List SynAttr) (y : YAttr) : Prop :=
  ((∀ a ∈ as, ¬ a.Ours) ∧ y = {}) ∨
  ∃ pre a post items, as = pre ++ a :: post ∧ (∀ b ∈ pre, ¬ b.Ours) ∧ a.Ours ∧ a.content = .list (some items) ∧
    Means items y

/-! ### Acceptance -/

/-- A scalar or user type, possibly in one `Option` or `Vec`. -/
inductive OneLevel : FTy → Prop
  | simple (t : STy) : OneLevel (.simple t)
  | struct (p : Path) : OneLevel (.struct p)
  | optSimple (t : STy) : OneLevel (.opt (.simple t))
  | optStruct (p : Path) : OneLevel (.opt (.struct p))
  | vecSimple (t : STy) : OneLevel (.vec (.simple t))
  | vecStruct (p : Path) : OneLevel (.vec (.struct p))

/-- An identifier, as far as ASCII goes. -/
def IsIdent (s : Str) : Prop :=
  s ≠ [] ∧ (∀ c ∈ s, c.isAlpha = true ∨ c.isDigit = true ∨ c = '_' ∨ 127 < c.toNat) ∧ ∀ c, s.head? = some c → c.isDigit = false

/-- A function named in an attribute has a name that is an identifier (not a path). -/
def FnOk (s : Option Str) : Prop := ∀ x, s = some x → IsIdent x

/-- Fields of a struct deriving `YaDeserialize`. -/
def DeField (f : SynField) : Prop :=
  ∃ y t x, Options f.attrs y ∧ Denotes f.ty t ∧ f.ident = some x ∧ OneLevel t ∧
    (y.attrs.isAttr = false → y.attrs.flatten = true → (∃ q, t = .struct q) ∨ ∃ q, t = .opt (.struct q)) ∧
    (y.attrs.text = true → ∀ s, t = .simple s → s = .string) ∧
    ((∃ s, t = .simple s) ∨ (∃ q, t = .struct q) → FnOk y.dflt)

/-- The types of fields with `YaSerialize`. -/
inductive SerShape (a : Attrs) : FTy → Prop
  | attr (t : FTy) (h : a.isAttr = true) (ht : OneLevel t) : SerShape a t
  | attrVec (t : FTy) (h : a.isAttr = true) : SerShape a (.vec t)
  | text (h : a.isAttr = false) (ht : a.text = true) : SerShape a (.simple .string)
  | textOpt (h : a.isAttr = false) (ht : a.text = true) : SerShape a (.opt (.simple .string))
  | cdata (h : a.isAttr = false) (ht : a.text = false) (hc : a.cdata = true) : SerShape a (.simple .string)
  | elem (t : FTy) (h : a.isAttr = false) (ht : a.text = false) (hc : a.cdata = false) (hs : OneLevel t) : SerShape a t
  | optVec (t : STy) (h : a.isAttr = false) (ht : a.text = false) (hc : a.cdata = false) : SerShape a (.opt (.vec (.simple t)))
  | vecOpt (t : STy) (h : a.isAttr = false) (ht : a.text = false) (hc : a.cdata = false) (hs : t ≠ .string) :
      SerShape a (.vec (.opt (.simple t)))
  | vecOptStruct (q : Path) (h : a.isAttr = false) (ht : a.text = false) (hc : a.cdata = false) :
      SerShape a (.vec (.opt (.struct q)))

/-- Fields of a struct deriving `YaSerialize`. -/
def SerField (f : SynField) : Prop :=
  ∃ y t x, Options f.attrs y ∧ Denotes f.ty t ∧ f.ident = some x ∧ SerShape y.attrs t ∧
    (y.attrs.isAttr = true ∧ (∀ u, t ≠ .vec u) ∨ y.attrs.isAttr = false ∧ y.attrs.text = false → FnOk y.dflt ∧ FnOk y.skipIf)

/-- Variants of an enum deriving `YaDeserialize`. -/
def DeVariantOk (v : SynVariant) : Prop :=
  (∃ y, Options v.attrs y) ∧
  ∀ fs, v.fields = .unnamed fs → fs = [] ∨ ∃ f y t, fs = [f] ∧ Options f.attrs y ∧ Denotes f.ty t ∧ OneLevel t

/-- The items for which `YaDeserialize` can be derived. -/
def Deserializable (i : DeriveInput) : Prop :=
  (∃ y, Options i.attrs y) ∧
  match i.data with
  | .struct fs => ∀ f ∈ fs.list, DeField f
  | .enum vs => ∀ v ∈ vs, DeVariantOk v
  | .union => False

/-- A named field of a variant with `YaSerialize`. -/
def SerNamed (root : Attrs) (f : SynField) : Prop :=
  ∃ y t, Options f.attrs y ∧ Denotes f.ty t ∧ y.attrs.isAttr = false ∧ y.attrs.text = false ∧
    (y.attrs.rename ≠ none ∨ f.ident ≠ none) ∧
    ((∃ s, t = .simple s) ∨ (∃ q, t = .struct q) ∨ (∃ q, t = .vec (.struct q)) ∨ (∃ s, s ≠ .string ∧ t = .vec (.simple s)) ∨
      ∃ u, t = .opt u) ∧
    (y.attrs.flatten = true → ∀ q, t = .struct q → root.flatten = false ∧ (f.ident = none → f.ty.ungroup.oneIdent = true))

/-- The payload of a tuple variant with `YaSerialize`. -/
def SerUnnamed (root : Attrs) (f : SynField) : Prop :=
  ∃ y t, Options f.attrs y ∧ Denotes f.ty t ∧ y.attrs.isAttr = false ∧ OneLevel t ∧
    (y.attrs.flatten = true → ∀ q, t = .struct q → root.flatten = false ∧ (f.ident = none → f.ty.ungroup.oneIdent = true))

/-- Variants of an enum deriving `YaSerialize`. -/
def SerVariantOk (root : Attrs) (v : SynVariant) : Prop :=
  (∃ y, Options v.attrs y) ∧
  match v.fields with
  | .unit => True
  | .named fs => ∀ f ∈ fs, SerNamed root f
  | .unnamed fs => fs = [] ∨ ∃ f, fs = [f] ∧ SerUnnamed root f

/-- The items for which `YaSerialize` can be derived. -/
def Serializable (i : DeriveInput) : Prop :=
  ∃ y, Options i.attrs y ∧
  match i.data with
  | .struct fs => ∀ f ∈ fs.list, SerField f
  | .enum vs => ∀ v ∈ vs, SerVariantOk y.attrs v
  | .union => False

end Yaserde
