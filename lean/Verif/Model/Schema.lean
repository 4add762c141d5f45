import Verif.Model.Xml
import Verif.Model.Prim
/-
What the derive macros see: the user's type definitions together with their
`#[yaserde(...)]` attributes, and the Rust values of those types.
-/

set_option autoImplicit false

namespace Yaserde

/-- A Rust type path (`syn::Path`), as its segments. -/
abbrev Path := List Str

/-- `enum Field` — `/repo/yaserde_derive/src/common/field.rs:211-227`. -/
inductive FTy where
  | simple (t : STy)
  | opt (t : FTy)
  | vec (t : FTy)
  | struct (p : Path)
  deriving Repr, DecidableEq

/-- Rust values.  `struct` lists the field values in declaration order; `enum i ps` is
variant number `i` with its payload fields; floats are opaque bit patterns. -/
inductive Val where
  | str (s : Str)
  | bool (b : Bool)
  | int (i : Int)
  | f32 (bits : Nat)
  | f64 (bits : Nat)
  | none
  | some (v : Val)
  | vec (vs : List Val)
  | struct (fs : List Val)
  | enum (idx : Nat) (payload : List Val)
  deriving Repr

/-- `struct YaSerdeAttribute` — `/repo/yaserde_derive/src/common/attribute.rs:10-46`,
without `default` and `skip_serializing_if` (function names; their meaning is kept in
`FieldDef`).  `namespaces` is a `BTreeMap`, i.e. has unique keys. -/
structure Attrs where
  isAttr : Bool := false
  defaultNs : Option Str := none
  flatten : Bool := false
  namespaces : NsMap := []
  pfx : Option Str := none
  rename : Option Str := none
  tag : Option Str := none
  skipSer : Bool := false
  text : Bool := false
  cdata : Bool := false

/-- The meaning of `default = "f"`: the value `f()` and the test `field != f()`
(the field type's own `PartialEq`). -/
structure Dflt where
  val : Val
  ne : Val → Bool

/-- One named field (`YaSerdeField`, `/repo/yaserde_derive/src/common/field.rs:12-15`).
`skipIf self field` is the user's `skip_serializing_if` method. -/
structure FieldDef where
  ident : Str
  ty : FTy
  attrs : Attrs := {}
  dflt : Option Dflt := none
  skipIf : Option (Val → Val → Bool) := none

structure StructDef where
  name : Str
  attrs : Attrs := {}
  fields : List FieldDef

/-- Shape of an enum variant (`syn::Fields`).  Tuple variants with more than one field are
rejected by the macro (`/repo/yaserde_derive/src/de/expand_enum.rs:133-135`). -/
inductive VShape where
  | unit
  | newtype (t : FTy)
  | named (fields : List FieldDef)

structure VariantDef where
  ident : Str
  attrs : Attrs := {}
  shape : VShape

/-- `dflt` is the type's own `Default::default()`
(`/repo/yaserde_derive/src/de/expand_enum.rs:108`). -/
structure EnumDef where
  name : Str
  attrs : Attrs := {}
  variants : List VariantDef
  dflt : Val

/-- A type deriving `PrimitiveYaSerde`, `HexBinaryYaSerde` or `DefaultYaSerde`
(`/repo/yaserde_derive/src/lib.rs:37-68`): its `Display` and `FromStr`; `dom` says which `Val`s represent
its values (used only in specifications).  `bare`: a type whose `YaSerialize` is that of `serialize_type!`
(`/repo/yaserde/src/lib.rs:173-221`) — `usize`, `isize`, `char`, and aliases of scalar types (`type Id = u32`), which the macros take
for types of the user's.  These have no `YaDeserialize`. -/
structure PrimDef where
  name : Str
  toStr : Val → Str
  fromStr : Str → Except Str Val
  dom : Val → Bool := fun _ => true
  bare : Bool := false

inductive TypeDef where
  | struct (d : StructDef)
  | enum (d : EnumDef)
  | prim (d : PrimDef)

/-- The user's program: which definition a type path refers to. -/
abbrev Env := Path → Option TypeDef

/-- `xml_element_name` — `/repo/yaserde_derive/src/common/attribute.rs:90-92`. -/
def Attrs.xmlElementName (a : Attrs) (ident : Str) : Str := a.rename.getD ident

/-- `prefix_namespace` — `/repo/yaserde_derive/src/common/attribute.rs:94-103`. -/
def Attrs.prefixNamespace (a : Attrs) : Str :=
  if a.defaultNs = a.pfx then [] else (a.pfx.map (· ++ c!":")).getD []

/-- URI of a prefix in a `namespaces(...)` map. -/
def NsMap.find (m : NsMap) (p : Option Str) : Option Str :=
  (List.find? (fun e => p == some e.1) m).map Prod.snd

/-- `get_namespace_matching` — `/repo/yaserde_derive/src/common/attribute.rs:105-142`:
an element *with* a namespace must have one declared under the configured prefix. -/
def nsMatching (namespaces : NsMap) (configured : Option Str)
    (elemNs : Option Str) (elemName : Str) : Except Str Unit :=
  match elemNs with
  | none => .ok ()
  | some ns =>
    if namespaces.any (fun e => configured == some e.1 && e.2 == ns) then .ok ()
    else .error (c!"bad namespace for " ++ elemName ++ c!", found " ++ ns)

/-- `renamed_label_without_namespace` — `/repo/yaserde_derive/src/common/field.rs:59-65`. -/
def FieldDef.label (f : FieldDef) : Str := f.attrs.rename.getD f.ident

/-- `renamed_label` — `/repo/yaserde_derive/src/common/field.rs:67-81`. -/
def FieldDef.renamedLabel (f : FieldDef) (root : Attrs) : Str :=
  (if root.defaultNs = f.attrs.pfx then [] else (f.attrs.pfx.map (· ++ c!":")).getD [])
    ++ f.label

/-- `YaSerdeField::prefix_namespace` — `/repo/yaserde_derive/src/common/field.rs:145-157`. -/
def FieldDef.prefixNs (f : FieldDef) (root : Attrs) : Str :=
  (root.namespaces.find f.attrs.pfx).getD []

/-- `build_label_name` — `/repo/yaserde_derive/src/ser/label.rs:4-24`. -/
def buildLabelName (ident : Str) (a : Attrs) (defaultNs : Option Str) : Str :=
  (if defaultNs = a.pfx then [] else (a.pfx.map (· ++ c!":")).getD []) ++ a.rename.getD ident

/-- `root_namespace` — `/repo/yaserde_derive/src/de/mod.rs:18-28`. -/
def Attrs.rootNamespace (a : Attrs) : Str := (a.namespaces.find a.pfx).getD []

/-- `struct_id`: the concatenated path segments —
`/repo/yaserde_derive/src/de/expand_struct.rs:67-71`. -/
def structId (p : Path) : Str := p.flatten

/-- `xml::writer::EmitterConfig` as set up by `/repo/yaserde/src/ser/mod.rs:72-89`:
`indent = some s` when indentation is performed with string `s`. -/
structure EmitCfg where
  indent : Option Str := none
  decl : Bool := true

/-- External functions the generated code calls: the XML parser and emitter of xml-rs,
the standard library's float formatting and parsing, and `Debug` formatting of events. -/
structure Lib where
  parse : Str → Src
  emit : EmitCfg → List WEv → Str
  showF32 : Nat → Str
  showF64 : Nat → Str
  parseF32 : Str → Except Str Nat
  parseF64 : Str → Except Str Nat
  dbgEv : REv → Str
  dbgStr : Str → Str

/-- `Display` of a simple value. -/
def showS (L : Lib) : Val → Str
  | .str s => s
  | .bool b => showBool b
  | .int i => showInt i
  | .f32 b => L.showF32 b
  | .f64 b => L.showF64 b
  | _ => []

/-- `T::from_str` of a simple type. -/
def parseS (L : Lib) (t : STy) (s : Str) : Except Str Val :=
  match t with
  | .string => .ok (.str s)
  | .bool => (parseBool s).map .bool
  | .int t => (parseInt t s).map .int
  | .f32 => (L.parseF32 s).map .f32
  | .f64 => (L.parseF64 s).map .f64

/-- The generated simple-type visitor of a *struct* field —
`/repo/yaserde_derive/src/de/expand_struct.rs:95-124`. -/
def visitS (L : Lib) (t : STy) (s : Str) : Except Str Val :=
  parseS L t (if t = .bool then mapIfBool s else s)

end Yaserde
