import Verif.Model.GenDe
import Verif.Model.GenSer
/-
The methods of `Deserializer` that the printed programs call (`/repo/yaserde/src/de/mod.rs`), as programs of the fragment of Rust of
`Model/Rust.lean` over the `EventReader` of xml-rs (those that are called with a closure are in `Model/GenDe.lean`); and the
implementations of types that are read and written by `FromStr` and `Display` (`/repo/yaserde/src/primitives.rs`, `serialize_type!`).
-/

set_option autoImplicit false

namespace Yaserde.Rs

/-- `Deserializer::inner_next` — `/repo/yaserde/src/de/mod.rs:55-71`. -/
def innerNextE : Ex :=
  .loop (mtch (meth .readerNext) [
    (.ok (.bind .rt_next), blk [mtch (.var .rt_next) [
      (.alt .startDocument (.alt .processingInstruction .comment), blk []),
      (.bind .rt_other, .ret (fn .ok [.var .rt_other]))]]),
    (.err (.bind .rt_msg), blk [.ret (fn .err [.var .rt_msg])])])

/-- `Deserializer::peek` — `/repo/yaserde/src/de/mod.rs:43-53`. -/
def peekE : Ex :=
  blk [.ite (fn .isNone [meth .peeked]) (blk [meth .setPeeked [fn .some [.try_ (.call innerNextE)]]]) skipE,
    ifLet (.some (.bind .rt_next)) (meth .peeked) (fn .ok [.var .rt_next]) (fn .err [strE c!"unable to peek next item"])]

/-- `Deserializer::next_event` — `/repo/yaserde/src/de/mod.rs:73-90` (without the logging). -/
def nextEventE : Ex :=
  blk [.letE .rt_next_event (ifLet (.some (.bind .rt_peeked)) (meth .takePeeked) (.var .rt_peeked) (.try_ (.call innerNextE))),
    mtch (.var .rt_next_event) [
      (.start .wild .wild, blk [meth .setDepth [fn .add [meth .depth, intE 1]]]),
      (.endE .wild, blk [meth .setDepth [fn .subUsize [meth .depth, intE 1]]]),
      (.wild, blk [])],
    fn .ok [.var .rt_next_event]]

/-- `EventReader::next` of xml-rs: the next event, or the error at which parsing stops; after the end of the document, and after an
error, always the same. -/
def Src.next (s : Src) : Except Str REv × Src :=
  match s.evs, s.fin with
  | e :: es, fin => (.ok e, ⟨es, fin⟩)
  | [], none => (.ok .endDocument, s)
  | [], some m => (.error m, s)

/-- The fields of `Deserializer`.  (`depth + 1` is not bounded.) -/
def rtOps : Op → List RV → Rd → Out × Rd
  | .readerNext, [], rd =>
    match Src.next rd.reader with
    | (.ok e, r) => (.val (.ok (.ev e)), { rd with reader := r })
    | (.error m, r) => (.val (.err (.str m)), { rd with reader := r })
  | .peeked, [], rd => (.val (match rd.peeked with | some e => .some (.ev e) | none => .none), rd)
  | .takePeeked, [], rd => (.val (match rd.peeked with | some e => .some (.ev e) | none => .none), { rd with peeked := none })
  | .setPeeked, [.some (.ev e)], rd => (.val .unit, { rd with peeked := some e })
  | .depth, [], rd => (.val (.int rd.depth), rd)
  | .setDepth, [.int z], rd => (.val .unit, { rd with depth := z.toNat })
  | _, _, rd => (.stuck, rd)

/-- Call a method; `fuel` bounds the iterations of its loop. -/
def callRt (L : Lib) (fuel : Nat) (b : Ex) (rd : Rd) : Out × Rd :=
  match eval L rtOps fuel (.call b) (rd, fun _ => .unit) with
  | (o, s) => (o, s.1)

/-! ### Types with `FromStr` and `Display` -/

/-- `deserialize_primitives` — `/repo/yaserde/src/primitives.rs:36-51`, with the closure of `/repo/yaserde_derive/src/primitives.rs:47-50`. -/
def deserializePrimitivesE (d : PrimDef) : Ex :=
  blk [ifLet (.ok (.start .wild .wild)) (meth .peek) (blk [.try_ (meth .next)]) (blk [.ret (fn .err [strE c!"Start element not found"])]),
    ifLet (.ok (.chars (.bind .text_content))) (meth .peek) (fn (.primFromStr d) [.var .text_content]) (fn (.primFromStr d) [strE []])]

/-- `writer.write(e).map_err(|_e| m)?` -/
def writeElseE (e m : Ex) : Ex :=
  .try_ (mtch (meth .write [.var .writer, e]) [(.ok (.bind .v), fn .ok [.var .v]), (.err .wild, fn .err [m])])

/-- `serialize_primitives` — `/repo/yaserde/src/primitives.rs:5-34`, called as in `/repo/yaserde_derive/src/primitives.rs:21-25`. -/
def serializePrimitivesE (d : PrimDef) : Ex :=
  blk [.letE .name (.unwrapOrElse (meth .startEventName [.var .writer]) (strE d.name)),
    .ite (fn .not [meth .skipStartEnd [.var .writer]])
      (blk [writeElseE (fn .startElement [.var .name]) (fn .cat [strE c!"Start element ", fn .debugStr [.var .name], strE c!" write failed"])]) skipE,
    writeElseE (fn .characters [fn (.primToStr d) [.var .self]])
      (fn .cat [strE c!"Element value ", fn .debugStr [.var .name], strE c!" write failed"]),
    .ite (fn .not [meth .skipStartEnd [.var .writer]])
      (blk [writeElseE (fn .endElement []) (fn .cat [strE c!"End element ", fn .debugStr [.var .name], strE c!" write failed"])]) skipE,
    fn .ok [skipE]]

/-- `serialize` of `serialize_type!` — `/repo/yaserde/src/lib.rs:177-182`; `toStr` is `format!("{}", _)`. -/
def serializeTypeE (toStr : Fn) : Ex :=
  blk [.letE .content (fn toStr [.var .self]),
    .letE .event (fn .characters [.var .content]),
    .letE .result (meth .write [.var .writer, .var .event]),
    fn .ok [skipE]]

/-- `serialize_attributes` of both — `/repo/yaserde/src/lib.rs:184-196`, `/repo/yaserde_derive/src/primitives.rs:28-40`. -/
def serializeAttributesE : Ex := fn .ok [fn .pair [.var .source_attributes, .var .source_namespace]]

/-! ### Everything together -/

/-- The methods of the reader, as the programs above: their loop comes to an end (C85), so that it needs no budget of its own. -/
def deOpsRt (L : Lib) (rec : Path → D Val) : Op → List RV → Rd → Out × Rd
  | .peek, [], rd => callRt L (rd.reader.evs.length + 1) peekE rd
  | .next, [], rd => callRt L (rd.reader.evs.length + 1) nextEventE rd
  | .depth, [], rd => (.val (.int rd.depth), rd)
  | .deserialize p, [], rd => liftD (rec p) .val rd
  | .fromStr p, [.str s], rd => ((liftD (rec p) .val (Rd.new (L.parse s))).1, rd)
  | _, _, rd => (.stuck, rd)

/-- `runDe`, with these. -/
def runDeRt (L : Lib) (rec : Path → D Val) (fuel : Nat) (b : Ex) : D Val := fun rd =>
  match eval L (deOpsRt L rec) fuel b (rd, fun _ => .unit) with
  | (o, s) =>
    (match o.result with
      | .ok (.val v) => .ok v
      | .ok _ => .panic c!"stuck"
      | .err m => .err m
      | .panic m => .panic m
      | .diverge => .diverge, s.1)

/-- `deserGen`, with these. -/
def deserRt (L : Lib) (env : Env) : Nat → Path → D Val
  | 0, _ => M.diverge
  | n + 1, p =>
    match env p with
    | some (.struct d) => runDeRt L (deserRt L env n) n (genStruct d)
    | some (.enum d) => runDeRt L (deserRt L env n) n (genEnum d)
    | some (.prim d) => runDeRt L (deserRt L env n) n (deserializePrimitivesE d)
    | none => M.panic c!"no such type"

/-- The `serialize` of a type with `FromStr` and `Display`: `serialize_type!` for the types of the standard library, and
`serialize_primitives` for the others. -/
def serializePrimE (d : PrimDef) : Ex := if d.bare then serializeTypeE (.primToStr d) else serializePrimitivesE d

mutual

/-- `serGen`, with these. -/
def serRt (L : Lib) (env : Env) : Nat → Path → Val → S Unit
  | 0, _, _ => M.diverge
  | n + 1, p, v =>
    match env p with
    | some (.struct d) => runSer L (serRt L env n) (attrsRt L env n) (genSerStruct d) v
    | some (.enum d) => runSer L (serRt L env n) (attrsRt L env n) (genSerEnum d) v
    | some (.prim d) => runSer L (serRt L env n) (attrsRt L env n) (serializePrimE d) v
    | none => M.panic c!"no such type"

/-- `attrsGen`, with these. -/
def attrsRt (L : Lib) (env : Env) : Nat → Path → Val → List Attr → NsMap → Res (List Attr × NsMap)
  | 0, _, _, _, _ => .diverge
  | n + 1, p, v, as, m =>
    match env p with
    | some (.struct d) => runAttrs L (serRt L env n) (attrsRt L env n) (genAttrsStruct d) v as m
    | some (.enum d) => runAttrs L (serRt L env n) (attrsRt L env n) (genAttrsEnum d) v as m
    | some (.prim _) => runAttrs L (serRt L env n) (attrsRt L env n) serializeAttributesE v as m
    | none => .panic c!"no such type"

end

end Yaserde.Rs
