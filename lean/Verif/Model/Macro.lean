import Verif.Model.Schema
/-
The front end of the derive macros: from the syntax of an item, as parsed by `syn`, to the type definitions of
`Model/Schema.lean`, with every way in which a derive fails.

Simplifications.  Only what the macros look at is kept of `syn`'s trees.  An identifier is its `to_string()`, so a
raw identifier begins with `r#`.  A type path is its last segment and the identifiers of the segments before; the
`<T as Trait>` part of a qualified path is ignored by the macros (`/repo/yaserde_derive/src/common/field.rs:277`) and
therefore absent here.  The contents of `#[yaserde(…)]` are a list of keys with values: `serde_tokenstream` parses
the tokens, the derived `Deserialize` of `YaSerdeAttribute` reads them (unknown keys are ignored; a repeated key and
a value of the wrong type are errors).  Of the errors found by `rustc` in the generated code, those are included that
depend on the shape of a field; names that do not resolve, missing trait implementations of user types, and
clashes between generated helper types are not.
-/

set_option autoImplicit false

namespace Yaserde

/-- Why a derive yields no implementation: the macro panics, or the code it prints does not compile. -/
inductive Reject where
  | panic
  | rustc
  deriving Repr, DecidableEq

abbrev Mac (α : Type) := Except Reject α

/-! ### Syntax -/

mutual
  /-- `syn::Type`: a path, an invisible group (made by `macro_rules!`), or anything else. -/
  inductive SynTy where
    | path (init : List Str) (last : Str) (args : SynArgs)
    | group (t : SynTy)
    | other
  /-- `syn::PathArguments` of the last segment: none, `(A) -> B`, or `<first, rest…>`. -/
  inductive SynArgs where
    | none
    | paren
    | angleNil
    | angleTy (t : SynTy) (rest : List Str)
    | angleOther (rest : List Str)
end

/-- A value in the contents of an attribute. -/
inductive AVal where
  | str (s : Str)
  | bool (b : Bool)
  | map (m : List (Str × Str))
  | other

/-- `syn::Meta`; `list none` stands for contents that are not a list of keys with values. -/
inductive SynMeta where
  | path
  | list (items : Option (List (Str × AVal)))
  | nameValue

/-- `syn::Attribute`. -/
structure SynAttr where
  path : List Str
  content : SynMeta

/-- `syn::Field`. -/
structure SynField where
  ident : Option Str := none
  ty : SynTy
  attrs : List SynAttr := []

/-- `syn::Fields`. -/
inductive SynFields where
  | unit
  | unnamed (fs : List SynField)
  | named (fs : List SynField)

def SynFields.list : SynFields → List SynField
  | .unit => []
  | .unnamed fs => fs
  | .named fs => fs

/-- `syn::Variant`. -/
structure SynVariant where
  ident : Str
  attrs : List SynAttr := []
  fields : SynFields

/-- `syn::Data`. -/
inductive SynData where
  | struct (fs : SynFields)
  | enum (vs : List SynVariant)
  | union

/-- `syn::DeriveInput`. -/
structure DeriveInput where
  ident : Str
  attrs : List SynAttr := []
  data : SynData

/-! ### Attributes -/

/-- `YaSerdeAttribute` — `/repo/yaserde_derive/src/common/attribute.rs:10-46` — with the function names. -/
structure YAttr where
  attrs : Attrs := {}
  dflt : Option Str := none
  skipIf : Option Str := none

/-- `BTreeMap::insert`. -/
def btInsert (k v : Str) : NsMap → NsMap
  | [] => [(k, v)]
  | e :: m => if k = e.1 then (k, v) :: m else if strLt k e.1 then (k, v) :: e :: m else e :: btInsert k v m

/-- A `BTreeMap` made from the entries in order. -/
def btOf (m : List (Str × Str)) : NsMap := m.foldl (fun acc e => btInsert e.1 e.2 acc) []

def boolVal : AVal → Option Bool
  | .bool b => some b
  | _ => none

def strVal : AVal → Option Str
  | .str s => some s
  | _ => none

def mapVal : AVal → Option NsMap
  | .map m => some (btOf m)
  | _ => none

/-- The keys of `YaSerdeAttribute`. -/
def attrKeys : List Str :=
  [c!"attribute", c!"default", c!"default_namespace", c!"flatten", c!"namespaces", c!"prefix", c!"rename", c!"tag",
   c!"skip_serializing", c!"skip_serializing_if", c!"text", c!"cdata"]

/-- Reading one key (the derived `Deserialize` of `YaSerdeAttribute`). -/
def setKey (y : YAttr) (k : Str) (v : AVal) : Option YAttr :=
  if k = c!"attribute" then (boolVal v).map fun b => { y with attrs := { y.attrs with isAttr := b } }
  else if k = c!"default" then (strVal v).map fun s => { y with dflt := some s }
  else if k = c!"default_namespace" then (strVal v).map fun s => { y with attrs := { y.attrs with defaultNs := some s } }
  else if k = c!"flatten" then (boolVal v).map fun b => { y with attrs := { y.attrs with flatten := b } }
  else if k = c!"namespaces" then (mapVal v).map fun m => { y with attrs := { y.attrs with namespaces := m } }
  else if k = c!"prefix" then (strVal v).map fun s => { y with attrs := { y.attrs with pfx := some s } }
  else if k = c!"rename" then (strVal v).map fun s => { y with attrs := { y.attrs with rename := some s } }
  else if k = c!"tag" then (strVal v).map fun s => { y with attrs := { y.attrs with tag := some s } }
  else if k = c!"skip_serializing" then (boolVal v).map fun b => { y with attrs := { y.attrs with skipSer := b } }
  else if k = c!"skip_serializing_if" then (strVal v).map fun s => { y with skipIf := some s }
  else if k = c!"text" then (boolVal v).map fun b => { y with attrs := { y.attrs with text := b } }
  else if k = c!"cdata" then (boolVal v).map fun b => { y with attrs := { y.attrs with cdata := b } }
  else some y

def setKeys : YAttr → List (Str × AVal) → Option YAttr
  | y, [] => some y
  | y, e :: es =>
    match setKey y e.1 e.2 with
    | none => none
    | some y => setKeys y es

/-- `from_tokenstream::<YaSerdeAttribute>`. -/
def fromTokens (items : List (Str × AVal)) : Option YAttr :=
  if ((items.filter fun e => attrKeys.contains e.1).map Prod.fst).Nodup then setKeys {} items else none

/-- `TryFrom<&Attribute>` — `/repo/yaserde_derive/src/common/attribute.rs:48-78`; `none` for other attributes. -/
def attrTryFrom (a : SynAttr) : Mac (Option YAttr) :=
  if a.path = [c!"yaserde"] then
    match a.content with
    | .path | .nameValue => .error .panic
    | .list none => .error .panic
    | .list (some items) =>
      match fromTokens items with
      | some y => .ok (some y)
      | none => .error .panic
  else .ok none

/-- `From<&Vec<Attribute>>` (a `find_map`) — `/repo/yaserde_derive/src/common/attribute.rs:80-87`. -/
def attrFrom : List SynAttr → Mac YAttr
  | [] => .ok {}
  | a :: as =>
    match attrTryFrom a with
    | .error e => .error e
    | .ok (some y) => .ok y
    | .ok none => attrFrom as

/-! ### Types of fields -/

/-- The scalar names of `From<&syn::Path>` — `/repo/yaserde_derive/src/common/field.rs:239-250`. -/
def scalarNamed (s : Str) : Option STy :=
  if s = c!"String" then some .string
  else if s = c!"bool" then some .bool
  else if s = c!"i8" then some (.int .i8)
  else if s = c!"u8" then some (.int .u8)
  else if s = c!"i16" then some (.int .i16)
  else if s = c!"u16" then some (.int .u16)
  else if s = c!"i32" then some (.int .i32)
  else if s = c!"u32" then some (.int .u32)
  else if s = c!"i64" then some (.int .i64)
  else if s = c!"u64" then some (.int .u64)
  else if s = c!"f32" then some .f32
  else if s = c!"f64" then some .f64
  else none

mutual
  /-- `From<&syn::Path>` — `/repo/yaserde_derive/src/common/field.rs:235-268` — on types that are paths. -/
  def fieldFromTy : SynTy → Mac FTy
    | .path init last args =>
      match scalarNamed last with
      | some t => .ok (.simple t)
      | none =>
        if last = c!"Option" then (fieldFromSegment args).map .opt
        else if last = c!"Vec" then (fieldFromSegment args).map .vec
        else .ok (.struct (init ++ [last]))
    | .group _ => .error .panic
    | .other => .error .panic
  /-- `From<&syn::PathSegment>` — `/repo/yaserde_derive/src/common/field.rs:283-300`: the first argument, inside of
  at most one group. -/
  def fieldFromSegment : SynArgs → Mac FTy
    | .angleTy (.path init last args) _ => fieldFromTy (.path init last args)
    | .angleTy (.group (.path init last args)) _ => fieldFromTy (.path init last args)
    | _ => .error .panic
end

/-- The loop of `From<&syn::Field>` — `/repo/yaserde_derive/src/common/field.rs:272-275`. -/
def SynTy.ungroup : SynTy → SynTy
  | .group t => t.ungroup
  | t => t

/-- `From<&syn::Field>` — `/repo/yaserde_derive/src/common/field.rs:270-281`. -/
def fieldFromField (t : SynTy) : Mac FTy := fieldFromTy t.ungroup

/-! ### Fields -/

/-- `YaSerdeField` — `/repo/yaserde_derive/src/common/field.rs:12-27`. -/
structure YField where
  ident : Option Str
  ty : SynTy
  y : YAttr

/-- `YaSerdeField::new` — `/repo/yaserde_derive/src/common/field.rs:18-25`. -/
def SynField.new (f : SynField) : Mac YField :=
  match attrFrom f.attrs with
  | .error e => .error e
  | .ok y => .ok ⟨f.ident, f.ty, y⟩

/-- `get_type` — `/repo/yaserde_derive/src/common/field.rs:120-122`. -/
def YField.getType (f : YField) : Mac FTy := fieldFromField f.ty

/-- `renamed_label_without_namespace` — `/repo/yaserde_derive/src/common/field.rs:59-65`: `unwrap` of the label. -/
def YField.labelled (f : YField) : Mac Unit :=
  if f.y.attrs.rename = none ∧ f.ident = none then .error .panic else .ok ()

/-- `Ident::new` panics unless its argument is an identifier.  (Characters outside of ASCII are taken to be letters.) -/
def identOk : Str → Bool
  | [] => false
  | c :: cs => identStart c && cs.all fun c => identStart c || c.isDigit
where
  identStart (c : Char) : Bool := c.isAlpha || c == '_' || 127 < c.toNat

/-- `get_default_function` — `/repo/yaserde_derive/src/common/field.rs:128-134`. -/
def YField.defaultFn (f : YField) : Mac Unit :=
  match f.y.dflt with
  | some s => if identOk s then .ok () else .error .panic
  | none => .ok ()

/-- `get_skip_serializing_if_function` — `/repo/yaserde_derive/src/common/field.rs:136-142`. -/
def YField.skipIfFn (f : YField) : Mac Unit :=
  match f.y.skipIf with
  | some s => if identOk s then .ok () else .error .panic
  | none => .ok ()

/-- `Option` or `Vec`. -/
def FTy.isNested : FTy → Bool
  | .opt _ | .vec _ => true
  | _ => false

/-! ### `YaDeserialize` -/

/-- `variables` — `/repo/yaserde_derive/src/de/expand_struct.rs:22-49`. -/
def deVariables (f : YField) : Mac Unit := do
  match ← f.getType with
  | .vec t => if t.isNested then .error .panic else .ok ()
  | _ => .ok ()

/-- `field_visitors` — `/repo/yaserde_derive/src/de/expand_struct.rs:51-142`: a visitor is named after the label. -/
def deFieldVisitors (f : YField) : Mac Unit := do
  let t ← f.getType
  match t with
  | .struct _ | .opt (.struct _) | .vec (.struct _) => if f.y.attrs.isAttr then f.labelled else .ok ()
  | .opt (.opt _) | .opt (.vec _) | .vec (.opt _) | .vec (.vec _) => .ok ()
  | _ => f.labelled

/-- `call_visitors` — `/repo/yaserde_derive/src/de/expand_struct.rs:144-203`. -/
def deCallVisitors (f : YField) : Mac Unit := do
  if f.y.attrs.isAttr || f.y.attrs.flatten then .ok () else
  f.labelled
  match ← f.getType with
  | .opt t | .vec t => if t.isNested then .error .panic else .ok ()
  | _ => .ok ()

/-- `call_flatten_visitors` — `/repo/yaserde_derive/src/de/expand_struct.rs:205-227`. -/
def deFlatten (f : YField) : Mac Unit := do
  if f.y.attrs.isAttr || !f.y.attrs.flatten then .ok () else
  match ← f.getType with
  | .struct _ | .opt (.struct _) => .ok ()
  | _ => .error .panic

/-- `attributes_loading` — `/repo/yaserde_derive/src/de/expand_struct.rs:229-317`. -/
def deAttributes (f : YField) : Mac Unit := do
  if !f.y.attrs.isAttr then .ok () else
  f.labelled
  match ← f.getType with
  | .opt t | .vec t => if t.isNested then .error .panic else .ok ()
  | _ => .ok ()

/-- `struct_builder` — `/repo/yaserde_derive/src/de/expand_struct.rs:350-381`. -/
def deBuilder (f : YField) : Mac Unit := do
  match ← f.getType with
  | .opt _ | .vec _ => .ok ()
  | _ => f.defaultFn

/-- `set_text` on a scalar that is not a string assigns `T::from_str(…).unwrap()` to an `Option<T>` —
`/repo/yaserde_derive/src/de/expand_struct.rs:341-344`; without a label there is no variable to declare (`:11`). -/
def deTypes (f : YField) : Mac Unit := do
  if f.ident = none then .error .rustc else
  match ← f.getType with
  | .simple t => if f.y.attrs.text ∧ t ≠ .string then .error .rustc else .ok ()
  | _ => .ok ()

/-- The first failure in a list. -/
def checkAll {α : Type} (g : α → Mac Unit) : List α → Mac Unit
  | [] => .ok ()
  | a :: as =>
    match g a with
    | .error e => .error e
    | .ok () => checkAll g as

/-- Applying a function to a list, up to the first failure. -/
def mapAll {α β : Type} (g : α → Mac β) : List α → Mac (List β)
  | [] => .ok []
  | a :: as =>
    match g a with
    | .error e => .error e
    | .ok b => (mapAll g as).map (b :: ·)

/-- `parse` — `/repo/yaserde_derive/src/de/expand_struct.rs:7-480` — and compiling the result. -/
def deStruct (fs : List SynField) : Mac Unit := do
  let fs ← mapAll SynField.new fs
  checkAll deVariables fs
  checkAll deFieldVisitors fs
  checkAll deCallVisitors fs
  checkAll deFlatten fs
  checkAll deAttributes fs
  checkAll deBuilder fs
  checkAll deTypes fs

/-- `build_unnamed_field_visitors` and `build_unnamed_visitor_calls` —
`/repo/yaserde_derive/src/de/expand_enum.rs:153-317`: the visitor of anything but a path is named after a scalar. -/
def deUnnamed (f : SynField) : Mac Unit := do
  let f ← f.new
  match ← f.getType with
  | .opt t | .vec t => if t.isNested then .error .panic else .ok ()
  | _ => .ok ()

/-- `parse_variant` — `/repo/yaserde_derive/src/de/expand_enum.rs:113-151`: named fields are not looked at. -/
def deVariant (v : SynVariant) : Mac Unit := do
  let _ ← attrFrom v.attrs
  match v.fields with
  | .unit | .named _ => .ok ()
  | .unnamed fs =>
    checkAll deUnnamed fs
    if 1 < fs.length then .error .panic else .ok ()

/-- `expand_derive_deserialize` — `/repo/yaserde_derive/src/de/mod.rs:9-54`. -/
def deAccepts (i : DeriveInput) : Mac Unit := do
  let _ ← attrFrom i.attrs
  match i.data with
  | .struct fs => deStruct fs.list
  | .enum vs => checkAll deVariant vs
  | .union => .error .panic

/-! ### `YaSerialize` -/

/-- `append_attributes` — `/repo/yaserde_derive/src/ser/expand_struct.rs:16-131`. -/
def serAttributes (f : YField) : Mac Unit := do
  if f.y.attrs.isAttr then
    f.labelled
    match ← f.getType with
    | .opt (.opt _) => .error .panic
    | .vec _ => .ok ()
    | _ =>
      f.skipIfFn
      f.defaultFn
  else if f.y.attrs.flatten then do
    let _ ← f.getType
  else .ok ()

/-- `struct_inspector` — `/repo/yaserde_derive/src/ser/expand_struct.rs:133-355` — with `condition_generator`
(`/repo/yaserde_derive/src/ser/element.rs:45-66`). -/
def serInspector (f : YField) : Mac Unit := do
  if f.y.attrs.isAttr then .ok () else
  if f.y.attrs.text then do let _ ← f.getType else
  f.labelled
  f.defaultFn
  f.skipIfFn
  if f.y.attrs.cdata then .ok () else
  match ← f.getType with
  | .opt (.opt _) | .vec (.vec _) => .error .panic
  | _ => .ok ()

/-- The types for which the printed code compiles: `XmlEvent::characters` and `cdata` take strings, `format!("{}", …)` a
type with `Display`, and `YaSerialize` is implemented for scalars other than `String` (`/repo/yaserde/src/lib.rs:201-217`).
`self.label` needs a label. -/
def serTypes (f : YField) : Mac Unit := do
  if f.ident = none then .error .rustc else
  if f.y.attrs.isAttr then
    match ← f.getType with
    | .opt (.vec _) => .error .rustc
    | _ => .ok ()
  else if f.y.attrs.text then
    match ← f.getType with
    | .simple .string | .opt (.simple .string) => .ok ()
    | _ => .error .rustc
  else if f.y.attrs.cdata then
    match ← f.getType with
    | .simple .string => .ok ()
    | _ => .error .rustc
  else
    match ← f.getType with
    | .opt (.vec (.simple _)) => .ok ()
    | .opt (.vec _) => .error .rustc
    | .vec (.opt (.simple t)) => if t = .string then .error .rustc else .ok ()
    | .vec (.opt (.struct _)) => .ok ()
    | .vec (.opt _) => .error .rustc
    | _ => .ok ()

/-- `serialize` — `/repo/yaserde_derive/src/ser/expand_struct.rs:9-366` — and compiling the result. -/
def serStruct (fs : List SynField) : Mac Unit := do
  let fs ← mapAll SynField.new fs
  checkAll serAttributes fs
  checkAll serInspector fs
  checkAll serTypes fs

/-- A path that prints as one identifier. -/
def SynTy.oneIdent : SynTy → Bool
  | .path [] _ .none => true
  | _ => false

/-- `variant_matches` — `/repo/yaserde_derive/src/ser/expand_enum.rs:18-106`: the variable bound to an unnamed attribute or
flattened field is named after its type. -/
def serVariantMatches (f : YField) : Mac Unit := do
  if f.y.attrs.isAttr then
    if f.ident = none then
      match ← f.getType with
      | .opt _ | .vec _ => .error .panic
      | .simple _ => .ok ()
      | .struct _ => if f.ty.ungroup.oneIdent then .ok () else .error .panic
    else .ok ()
  else if f.y.attrs.flatten then
    match ← f.getType with
    | .struct _ => if f.ident = none ∧ f.ty.ungroup.oneIdent = false then .error .panic else .ok ()
    | _ => .ok ()
  else .ok ()

/-- `inner_enum_inspector` — `/repo/yaserde_derive/src/ser/expand_enum.rs:124-323`. -/
def serInnerNamed (f : YField) : Mac Unit := do
  if f.y.attrs.isAttr || f.y.attrs.text then .ok () else
  f.labelled
  let _ ← f.getType

def serInnerUnnamed (f : YField) : Mac Unit := do
  if f.y.attrs.isAttr then .ok () else
  let _ ← f.getType

/-- What compiles: an attribute field prints a match arm outside of a `match` (`:69`, `:89`), a flattened struct in a flattened
enum moves `child_attributes` before using it (`:76-82`). -/
def serVariantTypes (root : Attrs) (f : YField) : Mac Unit := do
  if f.y.attrs.isAttr then .error .rustc else
  if root.flatten && f.y.attrs.flatten then
    match ← f.getType with
    | .struct _ => .error .rustc
    | _ => .ok ()
  else .ok ()

/-- `&self.label` is not a field of an enum; `YaSerialize` of the items of a `Vec`. -/
def serNamedTypes (f : YField) : Mac Unit := do
  if f.y.attrs.text then .error .rustc else
  match ← f.getType with
  | .vec (.struct _) => .ok ()
  | .vec (.simple t) => if t = .string then .error .rustc else .ok ()
  | .vec _ => .error .rustc
  | _ => .ok ()

/-- `YaSerialize` of the payload of an `Option` or a `Vec`. -/
def serUnnamedTypes (f : YField) : Mac Unit := do
  match ← f.getType with
  | .opt t | .vec t => if t.isNested then .error .rustc else .ok ()
  | _ => .ok ()

/-- The two passes over the variants — `/repo/yaserde_derive/src/ser/expand_enum.rs:9-122` — and compiling the result. -/
def serVariantOk (root : Attrs) (v : SynVariant) : Mac Unit := do
  let _ ← attrFrom v.attrs
  let fs ← mapAll SynField.new v.fields.list
  checkAll serVariantMatches fs
  match v.fields with
  | .unit => .ok ()
  | .named _ =>
    checkAll serInnerNamed fs
    checkAll (serVariantTypes root) fs
    checkAll serNamedTypes fs
  | .unnamed _ =>
    checkAll serInnerUnnamed fs
    checkAll (serVariantTypes root) fs
    checkAll serUnnamedTypes fs
    if 1 < fs.length then .error .rustc else .ok ()

/-- `expand_derive_serialize` — `/repo/yaserde_derive/src/ser/mod.rs:11-44`.  (A panic in a later variant counts as
`rustc` when an earlier one does not compile.) -/
def serAccepts (i : DeriveInput) : Mac Unit := do
  let y ← attrFrom i.attrs
  match i.data with
  | .struct fs => serStruct fs.list
  | .enum vs => checkAll (serVariantOk y.attrs) vs
  | .union => .error .panic

/-- `extract_full_path` — `/repo/yaserde_derive/src/primitives.rs:108-119`, used by `PrimitiveYaSerde` (`:84-106`): the
first field of a tuple struct must have a path as its type. -/
def primitiveAccepts (i : DeriveInput) : Mac SynTy :=
  match i.data with
  | .struct (.unnamed (f :: _)) =>
    match f.ty with
    | .path init last args => .ok (.path init last args)
    | _ => .error .panic
  | _ => .error .panic

/-! ### The definitions -/

/-- What the names in attributes stand for, and the type's `Default`. -/
structure UserFns where
  dflt : Str → Dflt
  skipIf : Str → Val → Val → Bool
  enumDflt : Val

def YField.toDef (fn : UserFns) (f : YField) : Mac FieldDef := do
  match f.ident with
  | none => .error .rustc
  | some x =>
    let t ← f.getType
    .ok { ident := x, ty := t, attrs := f.y.attrs, dflt := f.y.dflt.map fn.dflt, skipIf := f.y.skipIf.map fn.skipIf }

def SynField.toDef (fn : UserFns) (f : SynField) : Mac FieldDef :=
  match f.new with
  | .error e => .error e
  | .ok f => f.toDef fn

/-- `flatten` on the field of a tuple variant acts like `flatten` on the variant
(`/repo/yaserde_derive/src/ser/expand_enum.rs:305`); a tuple variant without fields is never read and written without
content, as a variant with no named fields is. -/
def SynVariant.toDef (fn : UserFns) (v : SynVariant) : Mac VariantDef := do
  let y ← attrFrom v.attrs
  match v.fields with
  | .unit => .ok { ident := v.ident, attrs := y.attrs, shape := .unit }
  | .named fs =>
    let fds ← mapAll (SynField.toDef fn) fs
    .ok { ident := v.ident, attrs := y.attrs, shape := .named fds }
  | .unnamed [] => .ok { ident := v.ident, attrs := y.attrs, shape := .named [] }
  | .unnamed [f] =>
    let f ← f.new
    let t ← f.getType
    .ok { ident := v.ident, attrs := { y.attrs with flatten := y.attrs.flatten || f.y.attrs.flatten }, shape := .newtype t }
  | .unnamed _ => .error .panic

/-- The definition the generated code implements. -/
def DeriveInput.toDef (fn : UserFns) (i : DeriveInput) : Mac TypeDef := do
  let y ← attrFrom i.attrs
  match i.data with
  | .struct fs =>
    let fds ← mapAll (SynField.toDef fn) fs.list
    .ok (.struct { name := i.ident, attrs := y.attrs, fields := fds })
  | .enum vs =>
    let vds ← mapAll (SynVariant.toDef fn) vs
    .ok (.enum { name := i.ident, attrs := y.attrs, variants := vds, dflt := fn.enumDflt })
  | .union => .error .panic

end Yaserde
