import Verif.Model.GenDe
import Verif.Model.Ser
/-
The `serialize` and `serialize_attributes` functions that `#[derive(YaSerialize)]` prints
(`/repo/yaserde_derive/src/ser/implement_serializer.rs`, `…/ser/expand_struct.rs`, `…/ser/expand_enum.rs`), as programs of the
fragment of Rust of `Model/Rust.lean`: template by template, with the names that the templates use.

Fields of structs and payloads of variants are given by number (`self.x` is `.field i`).  A template that rustc rejects whatever
the rest of the program is like is printed as `stuckE`.
-/

set_option autoImplicit false

namespace Yaserde.Rs

/-- Does not compile, or the macro panics (`unimplemented!()`). -/
def stuckE : Ex := .app .unwrap .nil

/-- The identifiers of the templates among which the named fields of a variant are bound
(`/repo/yaserde_derive/src/ser/expand_enum.rs:172-216`, `ref #field_label`): these are not hygienic, so that a field with one of
these names is that variable. -/
def templateVars : List (Str × Var) :=
  [(c!"writer", .writer), (c!"struct_start_event", .struct_start_event), (c!"string_value", .string_value),
    (c!"data_event", .data_event), (c!"struct_end_event", .struct_end_event), (c!"item", .item), (c!"skip", .skip)]

/-- The variable that a user's identifier stands for. -/
def userVar (x : Str) : Var := ((templateVars.find? fun e => e.1 == unraw x).map Prod.snd).getD (.user (unraw x))

/-- `writer.write(e).map_err(|e| e.to_string())?` -/
def writeE (e : Ex) : Ex := .try_ (meth .write [.var .writer, e])

/-- `writer.set_start_event_name(n); writer.set_skip_start_end(b);` -/
def flagsE (n : Option Str) (b : Bool) : List Ex :=
  [meth .setStartEventName [.var .writer, match n with | some s => fn .some [strE s] | none => .lit .none],
    meth .setSkipStartEnd [.var .writer, .lit (.bool b)]]

/-- `::yaserde::YaSerialize::serialize(e, writer)?` with `e` of type `t`. -/
def serializeE (t : FTy) (e : Ex) : Ex :=
  match t with
  | .struct p => .try_ (meth (.serialize p) [e, .var .writer])
  | .simple .string => stuckE
  | .simple _ => .try_ (meth .serializeScalar [e, .var .writer])
  | _ => stuckE

/-- `self.#label` -/
def selfE (i : Nat) : Ex := fn (.field i) [.var .self]

/-! ### `implement_serializer` -/

/-- `#namespaces_definition` — `/repo/yaserde_derive/src/ser/namespace.rs:5-21`, called on `e`. -/
def genNsDefs (a : Attrs) (e : Ex) : Ex :=
  a.namespaces.foldl
    (fun e n => if a.defaultNs = some n.1 then fn .defaultNs [e, strE n.2] else fn .ns [e, strE n.1, strE n.2]) e

/-- `!#flatten && !skip` -/
def genUnskipped (a : Attrs) : Ex := andE (fn .not [.lit (.bool a.flatten)]) (fn .not [.var .skip])

/-- `serialize` — `/repo/yaserde_derive/src/ser/implement_serializer.rs:24-73`. -/
def genSerialize (a : Attrs) (root : Str) (append inner : List Ex) : Ex :=
  blk (.letE .skip (meth .skipStartEnd [.var .writer])
    :: .ite (genUnskipped a)
        (blk (.letE .child_attributes (.lit (.vec []))
          :: .letE .child_attributes_namespace (.lit (.nss []))
          :: .letE .yaserde_label (.unwrapOrElse (meth .startEventName [.var .writer]) (strE root))
          :: .letE .struct_start_event (genNsDefs a (fn .startElement [.var .yaserde_label]))
          :: (append ++
            [.letE .event (.var .struct_start_event),
              ifLet (.wstart (.bind .name) (.bind .attributes) (.bind .namespace)) (.var .event)
                (blk [.letE .attributes (.var .attributes),
                  .mutate .attributes [] .extend (.var .child_attributes),
                  .letE .all_attributes (.var .attributes),
                  .letE .all_namespaces (.var .namespace),
                  .mutate .all_namespaces [] .extend (.var .child_attributes_namespace),
                  writeE (fn .mkStart [.var .name, .var .all_attributes, .var .all_namespaces])])
                stuckE])))
        skipE
    :: (inner ++
      [.ite (genUnskipped a)
        (blk [.letE .struct_end_event (fn .endElement []), writeE (.var .struct_end_event)])
        skipE,
      fn .ok [skipE]]))

/-- `serialize_attributes` — `/repo/yaserde_derive/src/ser/implement_serializer.rs:75-106`. -/
def genSerializeAttributes (a : Attrs) (append : List Ex) : Ex :=
  blk (.letE .child_attributes (.lit (.vec []))
    :: .letE .child_attributes_namespace (.lit (.nss []))
    :: .letE .struct_start_event (genNsDefs a (fn .startElement [strE c!"temporary_element_to_generate_attributes"]))
    :: (append ++
      [.letE .event (.var .struct_start_event),
        ifLet (.wstart .wild (.bind .attributes) (.bind .namespace)) (.var .event)
          (blk [.mutate .source_namespace [] .extend (.var .namespace),
            .mutate .source_namespace [] .extend (.var .child_attributes_namespace),
            .letE .a (.var .attributes),
            .mutate .source_attributes [] .extend (.var .a),
            .mutate .source_attributes [] .extend (.var .child_attributes),
            fn .ok [fn .pair [.var .source_attributes, .var .source_namespace]]])
          stuckE]))

/-! ### Structs -/

/-- `enclose_xml_event` — `/repo/yaserde_derive/src/ser/element.rs:17-29`. -/
def genEnclose (label : Str) (format : Ex) : List Ex :=
  [.letE .start_event (fn .startElement [strE label]),
    writeE (.var .start_event),
    .letE .yaserde_value format,
    .letE .data_event (fn .characters [.var .yaserde_value]),
    writeE (.var .data_event),
    .letE .end_event (fn .endElement []),
    writeE (.var .end_event)]

/-- `self.#label != #default_function()`, if there is a default. -/
def genNeDefault (f : FieldDef) (i : Nat) : Option Ex := f.dflt.map fun d => fn (.neDefault d) [selfE i]

/-- `!self.#skip_if_function(&self.#label)`, if there is such a function. -/
def genNotSkipped (f : FieldDef) (i : Nat) : Option Ex := f.skipIf.map fun g => fn .not [fn (.skipIf g) [.var .self, selfE i]]

/-- `condition_generator` — `/repo/yaserde_derive/src/ser/element.rs:45-66`. -/
def genCondition (f : FieldDef) (i : Nat) : Ex :=
  match genNotSkipped f i with
  | some c =>
    match genNeDefault f i with
    | some d => andE (andE (fn .not [.lit (.bool f.attrs.skipSer)]) c) d
    | none => andE (fn .not [.lit (.bool f.attrs.skipSer)]) c
  | none =>
    match genNeDefault f i with
    | some d => andE (fn .not [.lit (.bool f.attrs.skipSer)]) d
    | none => fn .not [.lit (.bool f.attrs.skipSer)]

/-- `ser_wrap_default_attribute` — `/repo/yaserde_derive/src/common/field.rs:173-206`. -/
def genWrapDefault (f : FieldDef) (i : Nat) (builder : Option Ex) (setter : Ex) : List Ex :=
  (builder.map fun b => Ex.letE .yaserde_inner b).toList ++
  [.letE .struct_start_event
    (.ite
      (match genNeDefault f i with
        | some d => andE ((genNotSkipped f i).getD (.lit (.bool true))) d
        | none => (genNotSkipped f i).getD (.lit (.bool true)))
      setter (.var .struct_start_event))]

/-- `struct_start_event.attr(#label_name, e)` -/
def attrE (label : Str) (e : Ex) : Ex := fn .attr [.var .struct_start_event, strE label, e]

/-- `#append_attributes` for one field — `/repo/yaserde_derive/src/ser/expand_struct.rs:16-139`. -/
def genAppendField (root : Attrs) (i : Nat) (f : FieldDef) : List Ex :=
  if f.attrs.isAttr then
    match f.ty with
    | .simple _ =>
      genWrapDefault f i (some (fn .display [selfE i])) (blk [attrE (f.renamedLabel root) (.var .yaserde_inner)])
    | .opt (.simple .string) =>
      genWrapDefault f i none
        (blk [ifLet (.some (.bind .value_)) (selfE i) (attrE (f.renamedLabel root) (.var .value_)) (.var .struct_start_event)])
    | .opt (.simple _) =>
      genWrapDefault f i (some (mtch (selfE i) [(.none, strE []), (.some (.bind .v), fn .display [.var .v])]))
        (blk [ifLet (.some (.bind .value_)) (selfE i) (attrE (f.renamedLabel root) (.var .yaserde_inner)) (.var .struct_start_event)])
    | .opt (.struct p) =>
      genWrapDefault f i
        (some (.try_ (mtch (selfE i) [(.none, fn .ok [strE []]), (.some (.bind .v), meth (.toStringContent p) [.var .v])])))
        (blk [ifLet (.some (.bind .yaserde_struct)) (selfE i)
          (attrE (f.renamedLabel root) (.var .yaserde_inner)) (.var .struct_start_event)])
    | .struct p =>
      genWrapDefault f i (some (.try_ (meth (.toStringContent p) [selfE i])))
        (blk [attrE (f.renamedLabel root) (.var .yaserde_inner)])
    | .vec _ => []
    | .opt _ => [stuckE]
  else if f.attrs.flatten then
    match f.ty with
    | .struct p =>
      [.letPair .attributes .namespace (.try_ (meth (.serializeAttributes p) [selfE i, .lit (.vec []), .lit (.nss [])])),
        .mutate .child_attributes_namespace [] .extend (.var .namespace),
        .mutate .child_attributes [] .extend (.var .attributes)]
    | _ => []
  else []

/-- `#append_attributes`; `i` is the number of the first field. -/
def genAppendFrom (root : Attrs) : Nat → List FieldDef → List Ex
  | _, [] => []
  | i, f :: fs => genAppendField root i f ++ genAppendFrom root (i + 1) fs

/-- A field that is not text or CDATA — `/repo/yaserde_derive/src/ser/expand_struct.rs:177-354`: what stands between the braces. -/
def genElement (root : Attrs) (i : Nat) (f : FieldDef) : List Ex :=
  match f.ty with
  | .simple _ => genEnclose (f.renamedLabel root) (fn .display [selfE i])
  | .opt (.simple _) =>
    [ifLet (.some (.bind .yaserde_item)) (selfE i) (blk (genEnclose (f.renamedLabel root) (fn .display [.var .yaserde_item]))) skipE]
  | .opt (.vec _) =>
    [ifLet (.some (.bind .yaserde_items)) (selfE i)
      (blk [.forE .yaserde_item (.var .yaserde_items)
        (blk (genEnclose (f.renamedLabel root) (fn .display [.var .yaserde_item])))]) skipE]
  | .opt (.struct p) =>
    [ifLet (.some (.bind .item)) (selfE i)
      (blk (flagsE (if f.attrs.flatten then none else some (f.renamedLabel root)) f.attrs.flatten
        ++ [serializeE (.struct p) (.var .item)])) skipE]
  | .opt _ => [stuckE]
  | .struct p =>
    flagsE (if f.attrs.flatten then none else some (f.renamedLabel root)) f.attrs.flatten
      ++ [serializeE (.struct p) (selfE i)]
  | .vec (.simple _) =>
    [.forE .yaserde_item (selfE i) (blk (genEnclose (f.renamedLabel root) (fn .display [.var .yaserde_item])))]
  | .vec (.opt t) =>
    [.forE .item (selfE i) (blk [ifLet (.some (.bind .value_)) (.var .item)
      (blk (flagsE none false ++ [serializeE t (.var .value_)])) skipE])]
  | .vec (.struct p) =>
    [.forE .item (selfE i)
      (blk (flagsE (if f.attrs.flatten then none else some (f.renamedLabel root)) f.attrs.flatten
        ++ [serializeE (.struct p) (.var .item)]))]
  | .vec (.vec _) => [stuckE]

/-- `#struct_inspector` for one field — `/repo/yaserde_derive/src/ser/expand_struct.rs:141-356`. -/
def genInspectField (root : Attrs) (i : Nat) (f : FieldDef) : List Ex :=
  if f.attrs.isAttr then []
  else if f.attrs.text then
    match f.ty with
    | .opt _ =>
      [.letE .s (mtch (selfE i) [(.some (.bind .v), .var .v), (.none, strE [])]),
        .letE .data_event (fn .characters [.var .s]),
        writeE (.var .data_event)]
    | _ =>
      [.letE .data_event (fn .characters [selfE i]),
        writeE (.var .data_event)]
  else if f.attrs.cdata then
    [.ite (genCondition f i)
      (blk [.letE .start_event (fn .startElement [strE (f.renamedLabel root)]),
        writeE (.var .start_event),
        .letE .data (fn .cdata [selfE i]),
        writeE (.var .data),
        .letE .end_event (fn .endElement []),
        writeE (.var .end_event)])
      skipE]
  else [.ite (genCondition f i) (blk (genElement root i f)) skipE]

def genInspectFrom (root : Attrs) : Nat → List FieldDef → List Ex
  | _, [] => []
  | i, f :: fs => genInspectField root i f ++ genInspectFrom root (i + 1) fs

/-- `serialize` of a struct — `/repo/yaserde_derive/src/ser/expand_struct.rs:9-366`. -/
def genSerStruct (d : StructDef) : Ex :=
  genSerialize d.attrs (serRootName d.attrs d.name) (genAppendFrom d.attrs 0 d.fields) (genInspectFrom d.attrs 0 d.fields)

def genAttrsStruct (d : StructDef) : Ex := genSerializeAttributes d.attrs (genAppendFrom d.attrs 0 d.fields)

/-! ### Enums -/

/-- `#add_attributes` for a field of a variant with named fields — `/repo/yaserde_derive/src/ser/expand_enum.rs:57-97`.  (For
tuple variants it prints nothing that compiles: `Model/Macro.lean`, `serVariantTypes`.) -/
def genAddAttributes (root : Attrs) (f : FieldDef) : List Ex :=
  if f.attrs.isAttr then [stuckE]
  else if f.attrs.flatten then
    match f.ty with
    | .struct _ => if root.flatten then [stuckE] else []
    | _ => []
  else []

/-- `#variant_matches` for one variant — `/repo/yaserde_derive/src/ser/expand_enum.rs:24-101`. -/
def genVariantMatch (root : Attrs) (i : Nat) (v : VariantDef) : List Ex :=
  (match v.shape with | .named fds => fds.flatMap (genAddAttributes root) | _ => []) ++
  (match root.tag with
    | some tag =>
      [mtch (.var .self) [
        (.variant i, blk [
          .letE .tag (fn .localName [strE tag]),
          .mutate .child_attributes [] .push (fn .newAttr [.var .tag, strE (v.attrs.xmlElementName v.ident)])]),
        (.wild, skipE)]]
    | none => [])

def genVariantMatches (root : Attrs) : Nat → List VariantDef → List Ex
  | _, [] => []
  | i, v :: vs => genVariantMatch root i v ++ genVariantMatches root (i + 1) vs

/-- A named field — `/repo/yaserde_derive/src/ser/expand_enum.rs:143-220`; `i` is the number of the variant, `k` that of the field. -/
def genNamedField (root : Attrs) (i k : Nat) (f : FieldDef) : List Ex :=
  if f.attrs.isAttr then []
  else if f.attrs.text then [stuckE]
  else
    match f.ty with
    | .simple _ =>
      [ifLet (.payload i k (.bind (userVar f.ident))) (.var .self)
        (blk [.letE .struct_start_event (fn .startElement [strE (f.renamedLabel root)]),
          writeE (.var .struct_start_event),
          .letE .string_value (fn .display [.var (userVar f.ident)]),
          .letE .data_event (fn .characters [.var .string_value]),
          writeE (.var .data_event),
          .letE .struct_end_event (fn .endElement []),
          writeE (.var .struct_end_event)]) skipE]
    | .struct p =>
      [ifLet (.payload i k (.bind (userVar f.ident))) (.var .self)
        (blk (flagsE (some (f.renamedLabel root)) false ++ [serializeE (.struct p) (.var (userVar f.ident))])) skipE]
    | .vec t =>
      [ifLet (.payload i k (.bind (userVar f.ident))) (.var .self)
        (blk [.forE .item (.var (userVar f.ident))
          (blk (flagsE (some (f.renamedLabel root)) false ++ [serializeE t (.var .item)]))]) skipE]
    | .opt _ => []

def genNamedFrom (root : Attrs) (i : Nat) : Nat → List FieldDef → List Ex
  | _, [] => []
  | k, f :: fs => genNamedField root i k f ++ genNamedFrom root i (k + 1) fs

/-- `write_element` — `/repo/yaserde_derive/src/ser/expand_enum.rs:235-245`. -/
def genWriteElement (label : Str) (action : List Ex) : List Ex :=
  .letE .struct_start_event (fn .startElement [strE label])
    :: writeE (.var .struct_start_event)
    :: (action ++
      [.letE .struct_end_event (fn .endElement []),
        writeE (.var .struct_end_event)])

/-- `write_string_chars` — `/repo/yaserde_derive/src/ser/expand_enum.rs:247-250`. -/
def genStringChars : List Ex := [.letE .data_event (fn .characters [.var .item]), writeE (.var .data_event)]

/-- `write_simple_type` — `/repo/yaserde_derive/src/ser/expand_enum.rs:252-256`. -/
def genSimpleType (label : Str) : List Ex :=
  genWriteElement label
    [.letE .s (fn .display [.var .item]), .letE .data_event (fn .characters [.var .s]), writeE (.var .data_event)]

/-- `write_sub_type` — `/repo/yaserde_derive/src/ser/expand_enum.rs:258-269`. -/
def genSubType (label : Str) (t : FTy) : List Ex :=
  genWriteElement label
    (match t with | .simple .string => genStringChars | _ => flagsE none true ++ [serializeE t (.var .item)])

/-- `match_field` — `/repo/yaserde_derive/src/ser/expand_enum.rs:271-280`. -/
def genMatchField (i : Nat) (write : List Ex) : Ex := ifLet (.payload i 0 (.bind .item)) (.var .self) (blk write) skipE

/-- A tuple variant's field — `/repo/yaserde_derive/src/ser/expand_enum.rs:282-310`. -/
def genTupleField (label : Str) (i : Nat) (flatten : Bool) (t : FTy) : List Ex :=
  match t with
  | .opt t => [genMatchField i [ifLet (.some (.bind .item)) (.var .item) (blk (genSubType label t)) skipE]]
  | .vec t => [genMatchField i [.forE .item (.var .item) (blk (genSubType label t))]]
  | .struct p =>
    if flatten then [genMatchField i [serializeE (.struct p) (.var .item)]]
    else genWriteElement label [genMatchField i (flagsE none true ++ [serializeE (.struct p) (.var .item)])]
  | .simple .string => [genMatchField i (genWriteElement label genStringChars)]
  | .simple _ => [genMatchField i (genSimpleType label)]

/-- `inner_enum_inspector` for one variant — `/repo/yaserde_derive/src/ser/expand_enum.rs:115-323`. -/
def genInner (root : Attrs) (i : Nat) (v : VariantDef) : Pat × Ex :=
  (.variant i,
    match v.shape with
    | .unit =>
      if root.tag.isSome then blk []
      else blk [.letE .data_event (fn .characters [strE (buildLabelName v.ident v.attrs root.defaultNs)]),
        writeE (.var .data_event)]
    | .named fds => blk (genNamedFrom root i 0 fds)
    | .newtype t => blk (genTupleField (buildLabelName v.ident v.attrs root.defaultNs) i v.attrs.flatten t))

def genInnerFrom (root : Attrs) : Nat → List VariantDef → List (Pat × Ex)
  | _, [] => []
  | i, v :: vs => genInner root i v :: genInnerFrom root (i + 1) vs

/-- `serialize` of an enum — `/repo/yaserde_derive/src/ser/expand_enum.rs:9-113`. -/
def genSerEnum (d : EnumDef) : Ex :=
  genSerialize d.attrs (serRootName d.attrs d.name) (genVariantMatches d.attrs 0 d.variants)
    [mtch (.var .self) (genInnerFrom d.attrs 0 d.variants)]

def genAttrsEnum (d : EnumDef) : Ex := genSerializeAttributes d.attrs (genVariantMatches d.attrs 0 d.variants)

/-! ### Running -/

/-- No variables. -/
def Store.empty : Store := fun _ => .unit

/-- A method that returns `Result<(), String>`. -/
def liftS (m : S Unit) (t : Sr) : Out × Sr :=
  match m t with
  | (r, t') => (.ofRes (match r with | .ok () => .ok .unit | .err e => .err e | .panic e => .panic e | .diverge => .diverge), t')

/-- The functions called that do not take the writer; `ser` and `attrs` are the implementations of `YaSerialize`. -/
def callOps (L : Lib) (ser : Path → Val → S Unit) (attrs : Path → Val → List Attr → NsMap → Res (List Attr × NsMap)) :
    Op → List RV → Out
  | .toStringContent p, [.val v] => .ofRes ((contentOf L (ser p v)).bind fun s => .ok (.str s))
  | .serializeAttributes p, [.val v, .vec l, .nss m] =>
    match l.mapM RV.toAttr with
    | some as => .ofRes ((attrs p v as m).bind fun r => .ok (.pair (.vec (r.1.map .attr)) (.nss r.2)))
    | none => .stuck
  | _, _ => .stuck

/-- … and the methods of the writer. -/
def serOps (L : Lib) (ser : Path → Val → S Unit) (attrs : Path → Val → List Attr → NsMap → Res (List Attr × NsMap)) :
    Op → List RV → Sr → Out × Sr
  | .write, [.ser, .wev e], t => liftS (swrite e) t
  | .skipStartEnd, [.ser], t => (.val (.bool t.skip), t)
  | .startEventName, [.ser], t => (.val (match t.startName with | some s => .some (.str s) | none => .none), t)
  | .setStartEventName, [.ser, .none], t => (.val .unit, { t with startName := none })
  | .setStartEventName, [.ser, .some (.str s)], t => (.val .unit, { t with startName := some s })
  | .setSkipStartEnd, [.ser, .bool b], t => (.val .unit, { t with skip := b })
  | .serialize p, [.val v, .ser], t => liftS (ser p v) t
  | .serializeScalar, [.val v, .ser], t => liftS (serBuiltin L v) t
  | o, l, t => (callOps L ser attrs o l, t)

/-- Run the body of a `serialize` function. -/
def runSer (L : Lib) (ser : Path → Val → S Unit) (attrs : Path → Val → List Attr → NsMap → Res (List Attr × NsMap))
    (b : Ex) (v : Val) : S Unit := fun t =>
  match eval L (serOps L ser attrs) 0 b (t, (Store.empty.set .self (.val v)).set .writer .ser) with
  | (o, s) =>
    (match o.result with
      | .ok .unit => .ok ()
      | .ok _ => .panic c!"stuck"
      | .err m => .err m
      | .panic m => .panic m
      | .diverge => .diverge, s.1)

/-- Run the body of a `serialize_attributes` function. -/
def runAttrs (L : Lib) (ser : Path → Val → S Unit) (attrs : Path → Val → List Attr → NsMap → Res (List Attr × NsMap))
    (b : Ex) (v : Val) (as : List Attr) (m : NsMap) : Res (List Attr × NsMap) :=
  match eval (σ := Unit) L (fun o l t => (callOps L ser attrs o l, t)) 0 b
    ((), ((Store.empty.set .self (.val v)).set .source_attributes (.vec (as.map .attr))).set .source_namespace (.nss m)) with
  | (o, _) =>
    match o.result with
    | .ok (.pair (.vec l) (.nss m)) =>
      match l.mapM RV.toAttr with
      | some as => .ok (as, m)
      | none => .panic c!"stuck"
    | .ok _ => .panic c!"stuck"
    | .err m => .err m
    | .panic m => .panic m
    | .diverge => .diverge

mutual

/-- `<p as YaSerialize>::serialize`, where the derived implementations are the printed programs.  `fuel` bounds the nesting of
calls. -/
def serGen (L : Lib) (env : Env) : Nat → Path → Val → S Unit
  | 0, _, _ => M.diverge
  | n + 1, p, v =>
    match env p with
    | some (.struct d) => runSer L (serGen L env n) (attrsGen L env n) (genSerStruct d) v
    | some (.enum d) => runSer L (serGen L env n) (attrsGen L env n) (genSerEnum d) v
    | some (.prim d) => serPrim L d v
    | none => M.panic c!"no such type"

/-- `<p as YaSerialize>::serialize_attributes`. -/
def attrsGen (L : Lib) (env : Env) : Nat → Path → Val → List Attr → NsMap → Res (List Attr × NsMap)
  | 0, _, _, _, _ => .diverge
  | n + 1, p, v, as, m =>
    match env p with
    | some (.struct d) => runAttrs L (serGen L env n) (attrsGen L env n) (genAttrsStruct d) v as m
    | some (.enum d) => runAttrs L (serGen L env n) (attrsGen L env n) (genAttrsEnum d) v as m
    | some (.prim _) => .ok (as, m)
    | none => .panic c!"no such type"

end

end Yaserde.Rs
