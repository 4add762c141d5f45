import Verif.Model.Runtime
/-
The functions that a program calls first, and the constructors of `Serializer` and `Deserializer` (`/repo/yaserde/src/ser/mod.rs`,
`/repo/yaserde/src/de/mod.rs`), as programs of the fragment of Rust of `Model/Rust.lean` over the types of xml-rs.

A function is the body of a call; the arguments are the variables that have the names of the parameters.  Buffers hold text instead of
bytes, so that `str::from_utf8` does not fail.
-/

set_option autoImplicit false

namespace Yaserde.Rs

def boolE (b : Bool) : Ex := .lit (.val (.bool b))
def noneE : Ex := .lit .none

/-- Call the body `b` with the arguments `as`. -/
def callE (as : List (Var × Ex)) (b : Ex) : Ex := blk (as.map (fun a => .letE a.1 a.2) ++ [.call b])

/-! ### Writing -/

/-- `Serializer::new` — `/repo/yaserde/src/ser/mod.rs:64-70`. -/
def serializerNewE : Ex := meth .mkSerializer [.var .writer, .lit (.bool false), noneE]

/-- `Serializer::new_from_writer` — `/repo/yaserde/src/ser/mod.rs:72-83`. -/
def newFromWriterE : Ex :=
  blk [.letE .rt_emitter_config
      (fn .emitterDecl [fn .emitterIndent [fn .emitterCdata [fn .emitterNew [], boolE false], fn (.field 0) [.var .rt_config]],
        fn (.field 1) [.var .rt_config]]),
    ifLet (.some (.bind .rt_indent_string_value)) (fn (.field 2) [.var .rt_config])
      (blk [.assign .rt_emitter_config (fn .emitterIndentString [.var .rt_emitter_config, .var .rt_indent_string_value])]) skipE,
    callE [(.writer, fn .newEventWriter [.var .writer, .var .rt_emitter_config])] serializerNewE]

/-- `Serializer::new_for_inner` — `/repo/yaserde/src/ser/mod.rs:85-89`. -/
def newForInnerE : Ex :=
  blk [.letE .rt_config (fn .emitterDecl [fn .emitterNew [], boolE false]),
    callE [(.writer, fn .newEventWriter [.var .writer, .var .rt_config])] serializerNewE]

/-- `match YaSerialize::serialize(model, &mut serializer) { Ok(()) => Ok(serializer.into_inner()), Err(msg) => Err(msg) }` -/
def serializeAndFinishE (p : Path) : Ex :=
  mtch (meth (.serialize p) [.var .rt_model, .var .rt_serializer]) [
    (.ok .wild, fn .ok [meth .intoInner [.var .rt_serializer]]),
    (.err (.bind .msg), fn .err [.var .msg])]

/-- `serialize_with_writer` — `/repo/yaserde/src/ser/mod.rs:26-36`. -/
def serializeWithWriterE (p : Path) : Ex := blk [.letE .rt_serializer (.call newFromWriterE), serializeAndFinishE p]

/-- `serialize_with_writer_content` — `/repo/yaserde/src/ser/mod.rs:45-55`. -/
def serializeWithWriterContentE (p : Path) : Ex :=
  blk [.letE .rt_serializer (.call newForInnerE), meth .setSkipStartEnd [.var .rt_serializer, .lit (.bool true)], serializeAndFinishE p]

/-- `let data = str::from_utf8(cursor.get_ref()).expect("Found invalid UTF-8"); Ok(data.into())` -/
def cursorTextE : List Ex := [.letE .rt_data (fn .unwrap [fn .fromUtf8 [.var .rt_cursor]]), fn .ok [.var .rt_data]]

/-- `to_string_with_config` — `/repo/yaserde/src/ser/mod.rs:19-24`. -/
def toStringWithConfigE (p : Path) : Ex :=
  blk ([.letE .rt_buf (fn .newCursor []), .letE .rt_cursor (.try_ (callE [(.writer, .var .rt_buf)] (serializeWithWriterE p)))] ++ cursorTextE)

/-- `Config::default` — `/repo/yaserde/src/ser/mod.rs:125-133`. -/
def configDefaultE : Ex := fn .structV [boolE false, boolE true, noneE]

/-- `to_string` — `/repo/yaserde/src/ser/mod.rs:11-16`. -/
def toStringE (p : Path) : Ex :=
  blk ([.letE .rt_buf (fn .newCursor []),
    .letE .rt_cursor (.try_ (callE [(.writer, .var .rt_buf), (.rt_config, configDefaultE)] (serializeWithWriterE p)))] ++ cursorTextE)

/-- `to_string_content` — `/repo/yaserde/src/ser/mod.rs:38-43`. -/
def toStringContentE (p : Path) : Ex :=
  blk ([.letE .rt_buf (fn .newCursor []), .letE .rt_cursor (.try_ (callE [(.writer, .var .rt_buf)] (serializeWithWriterContentE p)))] ++
    cursorTextE)

/-- What the emitter writes with these settings. -/
def EmitterCfg.text (L : Lib) (c : EmitterCfg) (evs : List WEv) : Str :=
  L.emit { indent := if c.performIndent then some c.indentString else none, decl := c.decl }
    (if c.cdataToChars then evs.map fun e => match e with | .cdata s => .chars s | e => e else evs)

/-- The local `Serializer`, once there is one: the settings of its `EventWriter`, what that writes to, and the rest. -/
abbrev SerVar := Option (EmitterCfg × Sink × Sr)

def serEntryOps (L : Lib) (ser : Path → Val → S Unit) : Op → List RV → SerVar → Out × SerVar
  | .mkSerializer, [.eventWriter c k w, .bool b, .none], _ => (.val .ser, some (c, k, ⟨w, b, none⟩))
  | .setSkipStartEnd, [.ser, .bool b], some (c, k, t) => (.val .unit, some (c, k, { t with skip := b }))
  | .serialize p, [.val v, .ser], some (c, k, t) =>
    match liftS (ser p v) t with
    | (o, t') => (o, some (c, k, t'))
  | .intoInner, [.ser], some (c, k, t) =>
    (.val (.sink { text := k.text ++ c.text L t.writer.out, io := fun n => k.io (t.writer.calls + n) }), none)
  | _, _, t => (.stuck, t)

/-- Call one of these functions. -/
def callSer (L : Lib) (ser : Path → Val → S Unit) (b : Ex) (as : List (Var × RV)) : Res RV :=
  (eval L (serEntryOps L ser) 0 (.call b) (none, Store.empty.setAll as)).1.result

/-- `Config`, as the value of a struct. -/
def configVal (c : Config) : Val :=
  .struct [.bool c.performIndent, .bool c.writeDecl, match c.indentString with | some s => .some (.str s) | none => .none]

/-- A function that returns a `String`. -/
def textOf : Res RV → Res Str
  | .ok (.str s) => .ok s
  | .ok _ => .panic c!"stuck"
  | .err m => .err m
  | .panic m => .panic m
  | .diverge => .diverge

/-! ### Reading -/

/-- `Deserializer::new` — `/repo/yaserde/src/de/mod.rs:24-30`. -/
def deserializerNewE : Ex := meth .mkDeserializer [intE 0, .var .rt_reader, noneE]

/-- `Deserializer::new_from_reader` — `/repo/yaserde/src/de/mod.rs:32-41`. -/
def newFromReaderE : Ex :=
  blk [.letE .rt_config
      (fn .parserCoalesce [fn .parserComments [fn .parserCdata [fn .parserWhitespace [fn .parserTrim [meth .parserNew, boolE true],
        boolE true], boolE true], boolE true], boolE true]),
    callE [(.rt_reader, meth .newEventReader [.var .rt_reader, .var .rt_config])] deserializerNewE]

/-- `from_reader` — `/repo/yaserde/src/de/mod.rs:13-15`. -/
def fromReaderE (p : Path) : Ex := meth (.deserialize p) [.call newFromReaderE]

/-- `from_str` — `/repo/yaserde/src/de/mod.rs:9-11`. -/
def fromStrE (p : Path) : Ex := callE [(.rt_reader, .var .rt_s)] (fromReaderE p)

/-- The local `Deserializer`, once there is one.  `P` is the parser of xml-rs, and `P0` its default settings. -/
def deEntryOps (P0 : ParserCfg) (P : ParserCfg → Str → Src) (rec : Path → D Val) : Op → List RV → Option Rd → Out × Option Rd
  | .parserNew, [], t => (.val (.parserCfg P0), t)
  | .newEventReader, [.str s, .parserCfg c], t => (.val (.eventReader (P c s)), t)
  | .mkDeserializer, [.int z, .eventReader r, .none], _ => (.val .de, some ⟨z.toNat, r, none⟩)
  | .deserialize p, [.de], some rd =>
    match liftD (rec p) .val rd with
    | (o, rd') => (o, some rd')
  | _, _, t => (.stuck, t)

/-- Call one of these functions. -/
def callDe (L : Lib) (P0 : ParserCfg) (P : ParserCfg → Str → Src) (rec : Path → D Val) (b : Ex) (as : List (Var × RV)) : Res RV :=
  (eval L (deEntryOps P0 P rec) 0 (.call b) (none, Store.empty.setAll as)).1.result

/-- A function that returns a value of the user's types. -/
def valOf : Res RV → Res Val
  | .ok (.val v) => .ok v
  | .ok _ => .panic c!"stuck"
  | .err m => .err m
  | .panic m => .panic m
  | .diverge => .diverge

/-! ### Everything together -/

/-- `deOpsRt`, where `from_str` is the program above. -/
def deOpsAll (L : Lib) (P0 : ParserCfg) (P : ParserCfg → Str → Src) (rec : Path → D Val) : Op → List RV → Rd → Out × Rd
  | .fromStr p, [.str s], rd => (.ofRes (callDe L P0 P rec (fromStrE p) [(.rt_s, .str s)]), rd)
  | o, l, rd => deOpsRt L rec o l rd

/-- `runDeRt`, with this. -/
def runDeAll (L : Lib) (P0 : ParserCfg) (P : ParserCfg → Str → Src) (rec : Path → D Val) (fuel : Nat) (b : Ex) : D Val := fun rd =>
  match eval L (deOpsAll L P0 P rec) fuel b (rd, fun _ => .unit) with
  | (o, s) => (valOf o.result, s.1)

/-- `deserRt`, with this. -/
def deserAll (L : Lib) (P0 : ParserCfg) (P : ParserCfg → Str → Src) (env : Env) : Nat → Path → D Val
  | 0, _ => M.diverge
  | n + 1, p =>
    match env p with
    | some (.struct d) => runDeAll L P0 P (deserAll L P0 P env n) n (genStruct d)
    | some (.enum d) => runDeAll L P0 P (deserAll L P0 P env n) n (genEnum d)
    | some (.prim d) => runDeAll L P0 P (deserAll L P0 P env n) n (deserializePrimitivesE d)
    | none => M.panic c!"no such type"

/-- `callOps`, where `to_string_content` is the program above. -/
def callOpsAll (L : Lib) (ser : Path → Val → S Unit) (attrs : Path → Val → List Attr → NsMap → Res (List Attr × NsMap)) :
    Op → List RV → Out
  | .toStringContent p, [.val v] => .ofRes (callSer L ser (toStringContentE p) [(.rt_model, .val v)])
  | o, l => callOps L ser attrs o l

/-- `serOps`, with this. -/
def serOpsAll (L : Lib) (ser : Path → Val → S Unit) (attrs : Path → Val → List Attr → NsMap → Res (List Attr × NsMap)) :
    Op → List RV → Sr → Out × Sr
  | .toStringContent p, l, t => (callOpsAll L ser attrs (.toStringContent p) l, t)
  | o, l, t => serOps L ser attrs o l t

/-- `runSer`, with this. -/
def runSerAll (L : Lib) (ser : Path → Val → S Unit) (attrs : Path → Val → List Attr → NsMap → Res (List Attr × NsMap))
    (b : Ex) (v : Val) : S Unit := fun t =>
  match eval L (serOpsAll L ser attrs) 0 b (t, (Store.empty.set .self (.val v)).set .writer .ser) with
  | (o, s) =>
    (match o.result with
      | .ok .unit => .ok ()
      | .ok _ => .panic c!"stuck"
      | .err m => .err m
      | .panic m => .panic m
      | .diverge => .diverge, s.1)

/-- `runAttrs`, with this. -/
def runAttrsAll (L : Lib) (ser : Path → Val → S Unit) (attrs : Path → Val → List Attr → NsMap → Res (List Attr × NsMap))
    (b : Ex) (v : Val) (as : List Attr) (m : NsMap) : Res (List Attr × NsMap) :=
  match eval (σ := Unit) L (fun o l t => (callOpsAll L ser attrs o l, t)) 0 b
    ((), ((Store.empty.set .self (.val v)).set .source_attributes (.vec (as.map .attr))).set .source_namespace (.nss m)) with
  | (o, _) =>
    match o.result with
    | .ok (.pair (.vec l) (.nss m)) =>
      match l.mapM RV.toAttr with
      | some as => .ok (as, m)
      | none => .panic c!"stuck"
    | .ok _ => .panic c!"stuck"
    | .err m => .err m
    | .panic m => .panic m
    | .diverge => .diverge

mutual

/-- `serRt`, with these. -/
def serAll (L : Lib) (env : Env) : Nat → Path → Val → S Unit
  | 0, _, _ => M.diverge
  | n + 1, p, v =>
    match env p with
    | some (.struct d) => runSerAll L (serAll L env n) (attrsAll L env n) (genSerStruct d) v
    | some (.enum d) => runSerAll L (serAll L env n) (attrsAll L env n) (genSerEnum d) v
    | some (.prim d) => runSerAll L (serAll L env n) (attrsAll L env n) (serializePrimE d) v
    | none => M.panic c!"no such type"

/-- `attrsRt`, with these. -/
def attrsAll (L : Lib) (env : Env) : Nat → Path → Val → List Attr → NsMap → Res (List Attr × NsMap)
  | 0, _, _, _, _ => .diverge
  | n + 1, p, v, as, m =>
    match env p with
    | some (.struct d) => runAttrsAll L (serAll L env n) (attrsAll L env n) (genAttrsStruct d) v as m
    | some (.enum d) => runAttrsAll L (serAll L env n) (attrsAll L env n) (genAttrsEnum d) v as m
    | some (.prim _) => runAttrsAll L (serAll L env n) (attrsAll L env n) serializeAttributesE v as m
    | none => .panic c!"no such type"

end

end Yaserde.Rs
