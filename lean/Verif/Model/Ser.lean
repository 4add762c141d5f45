import Verif.Model.Schema
/-
Serialization: `/repo/yaserde/src/ser/mod.rs`, `/repo/yaserde/src/primitives.rs`,
`/repo/yaserde/src/lib.rs:174-217` and the generated `YaSerialize` implementations
(`/repo/yaserde_derive/src/ser/`).
-/

set_option autoImplicit false

namespace Yaserde

/-- `struct Serializer<W>` — `/repo/yaserde/src/ser/mod.rs:57-61`. -/
structure Sr where
  writer : EW
  skip : Bool
  startName : Option Str

/-- Functions taking `&mut Serializer<W>`. -/
abbrev S (α : Type) := M Sr α

/-- `Serializer::new` — `/repo/yaserde/src/ser/mod.rs:64-70`. -/
def Sr.new (w : EW) : Sr := { writer := w, skip := false, startName := none }

/-- `Serializer::write` — `/repo/yaserde/src/ser/mod.rs:111-116`. -/
def swrite (e : WEv) : S Unit := fun s =>
  match EW.write e s.writer with
  | (r, w) => (r, { s with writer := w })

/-- `set_start_event_name` followed by `set_skip_start_end` —
`/repo/yaserde/src/ser/mod.rs:99-101, 107-109`. -/
def setFlags (name : Option Str) (skip : Bool) : S Unit :=
  M.modify fun s => { s with startName := name, skip := skip }

/-- `enclose_xml_event` — `/repo/yaserde_derive/src/ser/element.rs:17-29`. -/
def encloseChars (label : Str) (text : Str) : S Unit :=
  swrite (.start (Name.ofStr label) [] []) >>= fun _ =>
  swrite (.chars text) >>= fun _ =>
  swrite (.endE none)

/-- The `cdata` field template — `/repo/yaserde_derive/src/ser/expand_struct.rs:164-175`. -/
def encloseCdata (label : Str) (text : Str) : S Unit :=
  swrite (.start (Name.ofStr label) [] []) >>= fun _ =>
  swrite (.cdata text) >>= fun _ =>
  swrite (.endE none)

/-- Replace the error message of a failed write (`.map_err(|_e| …)`). -/
def mapErr (m : Str) (x : S Unit) : S Unit := fun s =>
  match x s with
  | (.err _, s') => (.err m, s')
  | r => r

/-- `serialize_primitives` — `/repo/yaserde/src/primitives.rs:5-34`; `serialize_type!` — `/repo/yaserde/src/lib.rs:174-182`, which
drops the error of the write. -/
def serPrim (L : Lib) (d : PrimDef) (v : Val) : S Unit :=
  if d.bare then M.attempt (swrite (.chars (d.toStr v))) >>= fun _ => M.pure () else
  M.get >>= fun s =>
  let name := s.startName.getD d.name
  (if s.skip then M.pure () else
    mapErr (c!"Start element " ++ L.dbgStr name ++ c!" write failed")
      (swrite (.start (Name.ofStr name) [] []))) >>= fun _ =>
  mapErr (c!"Element value " ++ L.dbgStr name ++ c!" write failed")
    (swrite (.chars (d.toStr v))) >>= fun _ =>
  (if s.skip then M.pure () else
    mapErr (c!"End element " ++ L.dbgStr name ++ c!" write failed") (swrite (.endE none)))

/-- `serialize_type!` — `/repo/yaserde/src/lib.rs:174-182`: the write error is dropped. -/
def serBuiltin (L : Lib) (v : Val) : S Unit :=
  M.attempt (swrite (.chars (showS L v))) >>= fun _ => M.pure ()

/-- `condition_generator` — `/repo/yaserde_derive/src/ser/element.rs:45-66`. -/
def serCondition (f : FieldDef) (self v : Val) : Bool :=
  !f.attrs.skipSer
    && !(match f.skipIf with | some g => g self v | none => false)
    && (match f.dflt with | some d => d.ne v | none => true)

/-- The condition of `ser_wrap_default_attribute` —
`/repo/yaserde_derive/src/common/field.rs:173-206` (`skip_serializing` plays no part). -/
def attrCondition (f : FieldDef) (self v : Val) : Bool :=
  !(match f.skipIf with | some g => g self v | none => false)
    && (match f.dflt with | some d => d.ne v | none => true)

/-- `generate_namespaces_definition` — `/repo/yaserde_derive/src/ser/namespace.rs:5-21`. -/
def namespacesDef (a : Attrs) : NsMap :=
  a.namespaces.foldl
    (fun m e => if a.defaultNs = some e.1 then m.put [] e.2 else m.put e.1 e.2) []

/-- Attributes and namespaces contributed by `#append_attributes`:
own attributes, `child_attributes`, `child_attributes_namespace`. -/
structure AttrAcc where
  own : List Attr := []
  child : List Attr := []
  childNs : NsMap := []

/-- `implement_serializer` — `/repo/yaserde_derive/src/ser/implement_serializer.rs:21-73`. -/
def implSerializer (a : Attrs) (rootName : Str) (acc : Res AttrAcc) (inner : S Unit) : S Unit :=
  M.get >>= fun s =>
  (if !a.flatten && !s.skip then
    M.lift acc >>= fun acc =>
    swrite (.start (Name.ofStr (s.startName.getD rootName)) (acc.own ++ acc.child)
      ((namespacesDef a).extend acc.childNs))
  else M.pure ()) >>= fun _ =>
  inner >>= fun _ =>
  if !a.flatten && !s.skip then swrite (.endE none) else M.pure ()

/-- `serialize_attributes` — `/repo/yaserde_derive/src/ser/implement_serializer.rs:75-106`
for empty `source_attributes` and `source_namespace` (the only arguments the generated
code passes, `/repo/yaserde_derive/src/ser/expand_struct.rs:127-130`). -/
def serializeAttributes (a : Attrs) (acc : Res AttrAcc) : Res (List Attr × NsMap) :=
  acc.bind fun acc =>
    .ok (acc.own ++ acc.child,
      NsMap.extend (NsMap.extend [] (namespacesDef a)) acc.childNs)

/-- `root_name` of a derived type — `/repo/yaserde_derive/src/ser/mod.rs:20-24`. -/
def serRootName (a : Attrs) (ident : Str) : Str := a.prefixNamespace ++ a.xmlElementName ident

/-- `child_attributes` of an enum value — the `tag` attribute,
`/repo/yaserde_derive/src/ser/expand_enum.rs:24-101`. -/
def enumAttrs (d : EnumDef) (v : VariantDef) : AttrAcc :=
  match d.attrs.tag with
  | some tag => { child := [{ name := { loc := tag }, value := v.attrs.xmlElementName v.ident }] }
  | none => {}

/-- `to_string_content` — `/repo/yaserde/src/ser/mod.rs:38-55, 85-89`, given the
`serialize` of the value. -/
def contentOf (L : Lib) (ser : S Unit) : Res Str :=
  match ser { writer := {}, skip := true, startName := none } with
  | (.ok (), s) => .ok (L.emit { decl := false } s.writer.out)
  | (.err m, _) => .err m
  | (.panic m, _) => .panic m
  | (.diverge, _) => .diverge

/-- Extend an `AttrAcc` with one own attribute if the field's condition holds. -/
def addOwn (root : Attrs) (f : FieldDef) (cond : Bool) (value : Str) (rest : AttrAcc) : AttrAcc :=
  if cond then { rest with own := ⟨Name.ofStr (f.renamedLabel root), value⟩ :: rest.own } else rest

/-- A `text` field — `/repo/yaserde_derive/src/ser/expand_struct.rs:148-160`. -/
def serText : Val → S Unit
  | .none => swrite (.chars [])
  | .some (.str s) => swrite (.chars s)
  | .str s => swrite (.chars s)
  | _ => M.panic c!"ill-typed"

mutual

/-- `<p as YaSerialize>::serialize` — the generated code of
`/repo/yaserde_derive/src/ser/expand_struct.rs`, `…/ser/expand_enum.rs` inside
`implement_serializer`, or `serialize_primitives`. -/
def serTy (L : Lib) (env : Env) (p : Path) (v : Val) : S Unit :=
  match env p, v with
  | some (.struct d), .struct fs =>
    implSerializer d.attrs (serRootName d.attrs d.name)
      (structAttrs L env d.attrs (.struct fs) d.fields fs)
      (serFields L env d.attrs (.struct fs) d.fields fs)
  | some (.enum d), .enum i pl =>
    match d.variants[i]? with
    | some vd =>
      implSerializer d.attrs (serRootName d.attrs d.name) (.ok (enumAttrs d vd))
        (match vd.shape with
          | .named fds => serNamed L env d.attrs fds pl
          | _ => serVariant L env d.attrs vd pl)
    | none => M.panic c!"ill-typed"
  | some (.prim d), v => serPrim L d v
  | _, _ => M.panic c!"ill-typed"

/-- `append_attributes` — `/repo/yaserde_derive/src/ser/expand_struct.rs:16-139`.
The textual value (`yaserde_inner`) is computed before the field's condition is tested. -/
def structAttrs (L : Lib) (env : Env) (root : Attrs) (self : Val) :
    List FieldDef → List Val → Res AttrAcc
  | f :: fs, v :: vs =>
    if f.attrs.isAttr then
      match f.ty, v with
      | .simple _, v =>
        (structAttrs L env root self fs vs).bind fun rest =>
          .ok (addOwn root f (attrCondition f self v) (showS L v) rest)
      | .opt (.simple _), .some x =>
        (structAttrs L env root self fs vs).bind fun rest =>
          .ok (addOwn root f (attrCondition f self (.some x)) (showS L x) rest)
      | .opt (.struct p), .some x =>
        (contentOf L (serTy L env p x)).bind fun inner =>
        (structAttrs L env root self fs vs).bind fun rest =>
          .ok (addOwn root f (attrCondition f self (.some x)) inner rest)
      | .opt _, .none => structAttrs L env root self fs vs
      | .struct p, x =>
        (contentOf L (serTy L env p x)).bind fun inner =>
        (structAttrs L env root self fs vs).bind fun rest =>
          .ok (addOwn root f (attrCondition f self x) inner rest)
      -- `Vec` attributes: "TODO" in the code, nothing is emitted (lines 118-121)
      | .vec _, _ => structAttrs L env root self fs vs
      | _, _ => .panic c!"ill-typed"
    else if f.attrs.flatten then
      match f.ty, v with
      | .struct p, x =>
        (attrsOf L env p x).bind fun (as, ns) =>
        (structAttrs L env root self fs vs).bind fun rest =>
          .ok { rest with child := as ++ rest.child, childNs := NsMap.extend (NsMap.extend [] ns) rest.childNs }
      | _, _ => structAttrs L env root self fs vs
    else structAttrs L env root self fs vs
  | _, _ => .ok {}

/-- `<p as YaSerialize>::serialize_attributes` with empty arguments. -/
def attrsOf (L : Lib) (env : Env) (p : Path) (v : Val) : Res (List Attr × NsMap) :=
  match env p, v with
  | some (.struct d), .struct fs =>
    serializeAttributes d.attrs (structAttrs L env d.attrs (.struct fs) d.fields fs)
  | some (.enum d), .enum i _ =>
    match d.variants[i]? with
    | some vd => serializeAttributes d.attrs (.ok (enumAttrs d vd))
    | none => .panic c!"ill-typed"
  | some (.prim _), _ => .ok ([], [])
  | _, _ => .panic c!"ill-typed"

/-- `struct_inspector` — `/repo/yaserde_derive/src/ser/expand_struct.rs:141-356`. -/
def serFields (L : Lib) (env : Env) (root : Attrs) (self : Val) :
    List FieldDef → List Val → S Unit
  | f :: fs, v :: vs =>
    (if f.attrs.isAttr then M.pure ()
     else if f.attrs.text then
       -- no condition is tested
       serText v
     else if !serCondition f self v then M.pure ()
     else if f.attrs.cdata then
       match v with
       | .str s => encloseCdata (f.renamedLabel root) s
       | _ => M.panic c!"ill-typed"
     else
       match f.ty, v with
       | .simple _, v => encloseChars (f.renamedLabel root) (showS L v)
       | .opt (.simple _), .some x => encloseChars (f.renamedLabel root) (showS L x)
       | .opt (.vec (.simple _)), .some (.vec xs) =>
         xs.foldr (fun x k => encloseChars (f.renamedLabel root) (showS L x) >>= fun _ => k) (M.pure ())
       | .opt (.struct p), .some x =>
         setFlags (if f.attrs.flatten then none else some (f.renamedLabel root)) f.attrs.flatten
           >>= fun _ => serTy L env p x
       | .opt _, .none => M.pure ()
       | .struct p, x =>
         setFlags (if f.attrs.flatten then none else some (f.renamedLabel root)) f.attrs.flatten
           >>= fun _ => serTy L env p x
       | .vec (.simple _), .vec xs =>
         xs.foldr (fun x k => encloseChars (f.renamedLabel root) (showS L x) >>= fun _ => k) (M.pure ())
       | .vec (.opt t), .vec xs => serOptItems L env t xs
       | .vec (.struct p), .vec xs =>
         serItems L env p
           (setFlags (if f.attrs.flatten then none else some (f.renamedLabel root)) f.attrs.flatten) xs
       | _, _ => M.panic c!"ill-typed") >>= fun _ =>
    serFields L env root self fs vs
  | _, _ => M.pure ()

/-- `for item in … { <flags>; YaSerialize::serialize(item, writer)?; }`. -/
def serItems (L : Lib) (env : Env) (p : Path) (flags : S Unit) : List Val → S Unit
  | [] => M.pure ()
  | x :: xs => flags >>= fun _ => serTy L env p x >>= fun _ => serItems L env p flags xs

/-- The `Vec<Option<T>>` template — `/repo/yaserde_derive/src/ser/expand_struct.rs:305-315`. -/
def serOptItems (L : Lib) (env : Env) (t : FTy) : List Val → S Unit
  | [] => M.pure ()
  | .some x :: xs =>
    setFlags none false >>= fun _ =>
    (match t with
      | .struct p => serTy L env p x
      | _ => serBuiltin L x) >>= fun _ =>
    serOptItems L env t xs
  | _ :: xs => serOptItems L env t xs

/-- `inner_enum_inspector` for one value — `/repo/yaserde_derive/src/ser/expand_enum.rs:115-323`. -/
def serVariant (L : Lib) (env : Env) (root : Attrs) (vd : VariantDef)
    (pl : List Val) : S Unit :=
    match vd.shape, pl with
    | .unit, _ =>
      if root.tag.isSome then M.pure ()
      else swrite (.chars (buildLabelName vd.ident vd.attrs root.defaultNs))
    | .newtype (.simple _), x :: _ =>
      encloseChars (buildLabelName vd.ident vd.attrs root.defaultNs) (showS L x)
    | .newtype (.opt (.simple .string)), .some x :: _ =>
      encloseChars (buildLabelName vd.ident vd.attrs root.defaultNs) (showS L x)
    | .newtype (.opt (.struct p)), .some x :: _ =>
      swrite (.start (Name.ofStr (buildLabelName vd.ident vd.attrs root.defaultNs)) [] []) >>= fun _ =>
      setFlags none true >>= fun _ =>
      serTy L env p x >>= fun _ =>
      swrite (.endE none)
    | .newtype (.opt (.simple _)), .some x :: _ =>
      swrite (.start (Name.ofStr (buildLabelName vd.ident vd.attrs root.defaultNs)) [] []) >>= fun _ =>
      setFlags none true >>= fun _ =>
      serBuiltin L x >>= fun _ =>
      swrite (.endE none)
    | .newtype (.opt _), .none :: _ => M.pure ()
    | .newtype (.vec t), .vec xs :: _ =>
      serVariantItems L env (buildLabelName vd.ident vd.attrs root.defaultNs) t xs
    | .newtype (.struct p), x :: _ =>
      if vd.attrs.flatten then serTy L env p x
      else
        swrite (.start (Name.ofStr (buildLabelName vd.ident vd.attrs root.defaultNs)) [] []) >>= fun _ =>
        setFlags none true >>= fun _ =>
        serTy L env p x >>= fun _ =>
        swrite (.endE none)
    | _, _ => M.panic c!"ill-typed"

/-- The items of a `Vec` payload — `/repo/yaserde_derive/src/ser/expand_enum.rs:292-300`. -/
def serVariantItems (L : Lib) (env : Env) (label : Str) (t : FTy) : List Val → S Unit
  | [] => M.pure ()
  | x :: xs =>
    swrite (.start (Name.ofStr label) [] []) >>= fun _ =>
    (match t with
      | .simple .string => swrite (.chars (showS L x))
      | .struct p => setFlags none true >>= fun _ => serTy L env p x
      | _ => setFlags none true >>= fun _ => serBuiltin L x) >>= fun _ =>
    swrite (.endE none) >>= fun _ =>
    serVariantItems L env label t xs

/-- The fields of a named-field variant — `/repo/yaserde_derive/src/ser/expand_enum.rs:142-227`:
`Option` fields are dropped (line 217), no condition is tested. -/
def serNamed (L : Lib) (env : Env) (root : Attrs) : List FieldDef → List Val → S Unit
  | f :: fs, v :: vs =>
    (match f.ty, v with
      | .simple _, v => encloseChars (f.renamedLabel root) (showS L v)
      | .struct p, x => setFlags (some (f.renamedLabel root)) false >>= fun _ => serTy L env p x
      | .vec (.struct p), .vec xs =>
        serItems L env p (setFlags (some (f.renamedLabel root)) false) xs
      | .vec _, .vec xs =>
        xs.foldr (fun x k => setFlags (some (f.renamedLabel root)) false >>= fun _ =>
          serBuiltin L x >>= fun _ => k) (M.pure ())
      | .opt _, _ => M.pure ()
      | _, _ => M.panic c!"ill-typed") >>= fun _ =>
    serNamed L env root fs vs
  | _, _ => M.pure ()

end

/-- `struct Config` — `/repo/yaserde/src/ser/mod.rs:119-133`. -/
structure Config where
  performIndent : Bool := false
  writeDecl : Bool := true
  indentString : Option Str := none

/-- `Serializer::new_from_writer` — `/repo/yaserde/src/ser/mod.rs:72-83`
(the emitter's default indent string is two spaces). -/
def Config.emitCfg (c : Config) : EmitCfg :=
  { indent := if c.performIndent then some (c.indentString.getD c!"  ") else none
    decl := c.writeDecl }

/-- `serialize_with_writer` — `/repo/yaserde/src/ser/mod.rs:26-36`: the events written to
the given writer.  `io` describes which writes fail. -/
def serializeWithWriter (L : Lib) (env : Env) (p : Path) (v : Val)
    (io : Nat → Option Str := fun _ => none) : Res Unit × List WEv :=
  match serTy L env p v (Sr.new { io := io }) with
  | (r, s) => (r, s.writer.out)

/-- `to_string_with_config` — `/repo/yaserde/src/ser/mod.rs:19-24`. -/
def toStringWithConfig (L : Lib) (env : Env) (c : Config) (p : Path) (v : Val) : Res Str :=
  match serializeWithWriter L env p v with
  | (.ok (), evs) => .ok (L.emit c.emitCfg evs)
  | (.err m, _) => .err m
  | (.panic m, _) => .panic m
  | (.diverge, _) => .diverge

/-- `to_string` — `/repo/yaserde/src/ser/mod.rs:11-16`. -/
def toString (L : Lib) (env : Env) (p : Path) (v : Val) : Res Str :=
  toStringWithConfig L env {} p v

/-- `to_string_content` — `/repo/yaserde/src/ser/mod.rs:38-43`. -/
def toStringContent (L : Lib) (env : Env) (p : Path) (v : Val) : Res Str :=
  contentOf L (serTy L env p v)

end Yaserde
