import Verif.Model.Entry
import Verif.Proofs.RuntimeGen
/-
Running the programs of `Model/Entry.lean`.
-/

set_option autoImplicit false
set_option linter.unusedSimpArgs false

namespace Yaserde.Rs

/-- What a function that writes returns, given the run of `serialize`. -/
def written (r : Res Unit × Sr) (k : Sr → RV) : Res RV :=
  match r with
  | (.ok (), t) => .ok (k t)
  | (.err m, _) => .err m
  | (.panic m, _) => .panic m
  | (.diverge, _) => .diverge

/-- `serialize` of the model, on the serializer that `serialize_with_writer` makes. -/
theorem callSer_with_writer (L : Lib) (ser : Path → Val → S Unit) (p : Path) (v : Val) (k : Sink) (c : Config) :
    callSer L ser (serializeWithWriterE p) [(.rt_model, .val v), (.writer, .sink k), (.rt_config, .val (configVal c))] =
    written (ser p v (Sr.new { io := k.io })) fun t =>
      .sink { text := k.text ++ L.emit c.emitCfg t.writer.out, io := fun n => k.io (t.writer.calls + n) } := by
  rcases c with ⟨pi, wd, is⟩
  rcases h : ser p v ⟨{ io := k.io }, false, none⟩ with ⟨r, t⟩
  rcases r with _ | m | m | _ <;> cases is <;>
  simp [callSer, toStringE, toStringWithConfigE, toStringContentE, cursorTextE, configDefaultE, serializeWithWriterContentE, newForInnerE,
    serializeWithWriterE, newFromWriterE, serializeAndFinishE, serializerNewE, callE, configVal, boolE, noneE, ifLet, mtch, meth, blk, fn,
    skipE, Arms.ofList, Exs.ofList, eval, evalArgs, evalArms, evalSeq, runOp, serEntryOps, Exec.bind, Exec.out, Exec.val, Exec.inScope,
    Exs.decls, Exec.setVar, Exec.called, Fn.apply, RV.flag, RV.text, RV.toVal, RV.scalar, RV.unwrap, Out.ofOption, Pat.matches, Pat.vars, Store.setAll,
    Store.leave, Store.set, liftS, Out.ofRes, Out.result, written, textOf, Sr.new, h, EmitterCfg.text, Config.emitCfg, contentOf]

theorem callSer_with_writer_content (L : Lib) (ser : Path → Val → S Unit) (p : Path) (v : Val) (k : Sink) :
    callSer L ser (serializeWithWriterContentE p) [(.rt_model, .val v), (.writer, .sink k)] =
    written (ser p v ⟨{ io := k.io }, true, none⟩) fun t =>
      .sink { text := k.text ++ L.emit { decl := false } t.writer.out, io := fun n => k.io (t.writer.calls + n) } := by
  rcases h : ser p v ⟨{ io := k.io }, true, none⟩ with ⟨r, t⟩
  rcases r with _ | m | m | _ <;>
  simp [callSer, toStringE, toStringWithConfigE, toStringContentE, cursorTextE, configDefaultE, serializeWithWriterContentE, newForInnerE,
    serializeWithWriterE, newFromWriterE, serializeAndFinishE, serializerNewE, callE, configVal, boolE, noneE, ifLet, mtch, meth, blk, fn,
    skipE, Arms.ofList, Exs.ofList, eval, evalArgs, evalArms, evalSeq, runOp, serEntryOps, Exec.bind, Exec.out, Exec.val, Exec.inScope,
    Exs.decls, Exec.setVar, Exec.called, Fn.apply, RV.flag, RV.text, RV.toVal, RV.scalar, RV.unwrap, Out.ofOption, Pat.matches, Pat.vars, Store.setAll,
    Store.leave, Store.set, liftS, Out.ofRes, Out.result, written, textOf, Sr.new, h, EmitterCfg.text, Config.emitCfg, contentOf]

theorem callSer_to_string_with_config (L : Lib) (ser : Path → Val → S Unit) (p : Path) (v : Val) (c : Config) :
    callSer L ser (toStringWithConfigE p) [(.rt_model, .val v), (.rt_config, .val (configVal c))] =
    written (ser p v (Sr.new {})) fun t => .str (L.emit c.emitCfg t.writer.out) := by
  rcases c with ⟨pi, wd, is⟩
  rcases h : ser p v ⟨{}, false, none⟩ with ⟨r, t⟩
  rcases r with _ | m | m | _ <;> cases is <;>
  simp [callSer, toStringE, toStringWithConfigE, toStringContentE, cursorTextE, configDefaultE, serializeWithWriterContentE, newForInnerE,
    serializeWithWriterE, newFromWriterE, serializeAndFinishE, serializerNewE, callE, configVal, boolE, noneE, ifLet, mtch, meth, blk, fn,
    skipE, Arms.ofList, Exs.ofList, eval, evalArgs, evalArms, evalSeq, runOp, serEntryOps, Exec.bind, Exec.out, Exec.val, Exec.inScope,
    Exs.decls, Exec.setVar, Exec.called, Fn.apply, RV.flag, RV.text, RV.toVal, RV.scalar, RV.unwrap, Out.ofOption, Pat.matches, Pat.vars, Store.setAll,
    Store.leave, Store.set, liftS, Out.ofRes, Out.result, written, textOf, Sr.new, h, EmitterCfg.text, Config.emitCfg, contentOf]

theorem callSer_to_string (L : Lib) (ser : Path → Val → S Unit) (p : Path) (v : Val) :
    callSer L ser (toStringE p) [(.rt_model, .val v)] = written (ser p v (Sr.new {})) fun t => .str (L.emit {} t.writer.out) := by
  rcases h : ser p v ⟨{}, false, none⟩ with ⟨r, t⟩
  rcases r with _ | m | m | _ <;>
  simp [callSer, toStringE, toStringWithConfigE, toStringContentE, cursorTextE, configDefaultE, serializeWithWriterContentE, newForInnerE,
    serializeWithWriterE, newFromWriterE, serializeAndFinishE, serializerNewE, callE, configVal, boolE, noneE, ifLet, mtch, meth, blk, fn,
    skipE, Arms.ofList, Exs.ofList, eval, evalArgs, evalArms, evalSeq, runOp, serEntryOps, Exec.bind, Exec.out, Exec.val, Exec.inScope,
    Exs.decls, Exec.setVar, Exec.called, Fn.apply, RV.flag, RV.text, RV.toVal, RV.scalar, RV.unwrap, Out.ofOption, Pat.matches, Pat.vars, Store.setAll,
    Store.leave, Store.set, liftS, Out.ofRes, Out.result, written, textOf, Sr.new, h, EmitterCfg.text, Config.emitCfg, contentOf]

theorem callSer_content (L : Lib) (ser : Path → Val → S Unit) (p : Path) (v : Val) :
    callSer L ser (toStringContentE p) [(.rt_model, .val v)] = (contentOf L (ser p v)).bind fun s => .ok (.str s) := by
  rcases h : ser p v ⟨{}, true, none⟩ with ⟨r, t⟩
  rcases r with _ | m | m | _ <;>
  simp [callSer, toStringE, toStringWithConfigE, toStringContentE, cursorTextE, configDefaultE, serializeWithWriterContentE, newForInnerE,
    serializeWithWriterE, newFromWriterE, serializeAndFinishE, serializerNewE, callE, configVal, boolE, noneE, ifLet, mtch, meth, blk, fn,
    skipE, Arms.ofList, Exs.ofList, eval, evalArgs, evalArms, evalSeq, runOp, serEntryOps, Exec.bind, Exec.out, Exec.val, Exec.inScope,
    Exs.decls, Exec.setVar, Exec.called, Fn.apply, RV.flag, RV.text, RV.toVal, RV.scalar, RV.unwrap, Out.ofOption, Pat.matches, Pat.vars, Store.setAll,
    Store.leave, Store.set, liftS, Out.ofRes, Out.result, written, textOf, Sr.new, h, EmitterCfg.text, Config.emitCfg, contentOf, Res.bind]

/-- The settings of `Deserializer::new_from_reader`. -/
def yaserdeParser : ParserCfg := ⟨true, true, true, true, true⟩

theorem callDe_from_str (L : Lib) (P0 : ParserCfg) (P : ParserCfg → Str → Src) (rec : Path → D Val) (p : Path) (s : Str) :
    callDe L P0 P rec (fromStrE p) [(.rt_s, .str s)] = (rec p (Rd.new (P yaserdeParser s))).1.bind fun v => .ok (.val v) := by
  rcases h : rec p ⟨0, P ⟨true, true, true, true, true⟩ s, none⟩ with ⟨r, t⟩
  rcases r with _ | m | m | _ <;>
  simp [callDe, fromStrE, fromReaderE, newFromReaderE, deserializerNewE, callE, boolE, noneE, intE, meth, blk, fn, Exs.ofList, eval, evalArgs,
    evalSeq, runOp, deEntryOps, Exec.bind, Exec.out, Exec.val, Exec.inScope, Exs.decls, Exec.setVar, Exec.called, Fn.apply, RV.flag,
    Out.ofOption, Store.setAll, Store.leave, Store.set, liftD, Out.result, Res.bind, Rd.new, yaserdeParser, h]

theorem callDe_from_reader (L : Lib) (P0 : ParserCfg) (P : ParserCfg → Str → Src) (rec : Path → D Val) (p : Path) (s : Str) :
    callDe L P0 P rec (fromReaderE p) [(.rt_reader, .str s)] = (rec p (Rd.new (P yaserdeParser s))).1.bind fun v => .ok (.val v) := by
  rcases h : rec p ⟨0, P ⟨true, true, true, true, true⟩ s, none⟩ with ⟨r, t⟩
  rcases r with _ | m | m | _ <;>
  simp [callDe, fromReaderE, newFromReaderE, deserializerNewE, callE, boolE, noneE, intE, meth, blk, fn, Exs.ofList, eval, evalArgs,
    evalSeq, runOp, deEntryOps, Exec.bind, Exec.out, Exec.val, Exec.inScope, Exs.decls, Exec.setVar, Exec.called, Fn.apply, RV.flag,
    Out.ofOption, Store.setAll, Store.leave, Store.set, liftD, Out.result, Res.bind, Rd.new, yaserdeParser, h]

/-! ### Everything together -/

theorem deOpsAll_eq (L : Lib) (P0 : ParserCfg) (P : ParserCfg → Str → Src) (hP : P yaserdeParser = L.parse) (rec : Path → D Val) :
    deOpsAll L P0 P rec = deOpsRt L rec := by
  funext o l rd
  unfold deOpsAll
  split
  · rename_i p s
    rw [callDe_from_str, hP]
    simp only [deOpsRt, liftD, Rd.new]
    rcases rec p ⟨0, L.parse s, none⟩ with ⟨_ | m | m | _, t⟩ <;> rfl
  · rfl

theorem runDeAll_eq (L : Lib) (P0 : ParserCfg) (P : ParserCfg → Str → Src) (hP : P yaserdeParser = L.parse) (rec : Path → D Val) (fuel : Nat)
    (b : Ex) : runDeAll L P0 P rec fuel b = runDeRt L rec fuel b := by
  unfold runDeAll runDeRt
  rw [deOpsAll_eq L P0 P hP]
  rfl

theorem deserAll_eq (L : Lib) (P0 : ParserCfg) (P : ParserCfg → Str → Src) (hP : P yaserdeParser = L.parse) (env : Env) (n : Nat) :
    deserAll L P0 P env n = deserRt L env n := by
  induction n with
  | zero => rfl
  | succ n ih =>
    funext p
    unfold deserAll deserRt
    simp only [runDeAll_eq L P0 P hP, ih]
    rcases env p with _ | (d | d | d) <;> rfl

theorem callOpsAll_eq (L : Lib) (ser : Path → Val → S Unit) (attrs : Path → Val → List Attr → NsMap → Res (List Attr × NsMap)) :
    callOpsAll L ser attrs = callOps L ser attrs := by
  funext o l
  unfold callOpsAll
  split
  · rw [callSer_content]; rfl
  · rfl

theorem serOpsAll_eq (L : Lib) (ser : Path → Val → S Unit) (attrs : Path → Val → List Attr → NsMap → Res (List Attr × NsMap)) :
    serOpsAll L ser attrs = serOps L ser attrs := by
  funext o l t
  unfold serOpsAll
  split
  · rw [callOpsAll_eq]
    unfold serOps
    rfl
  · rfl

theorem serAll_eq (L : Lib) (env : Env) (n : Nat) :
    (∀ p v, serAll L env n p v = serRt L env n p v) ∧ ∀ p v as m, attrsAll L env n p v as m = attrsRt L env n p v as m := by
  have hs : ∀ ser attrs, runSerAll L ser attrs = runSer L ser attrs := by
    intro ser attrs
    funext b v t
    unfold runSerAll runSer
    rw [serOpsAll_eq]
    rfl
  have ha : ∀ ser attrs, runAttrsAll L ser attrs = runAttrs L ser attrs := by
    intro ser attrs
    funext b v as m
    unfold runAttrsAll runAttrs
    rw [callOpsAll_eq]
    rfl
  induction n with
  | zero =>
    constructor
    · intro p v; rw [serAll, serRt]
    · intro p v as m; rw [attrsAll, attrsRt]
  | succ n ih =>
    have h1 : serAll L env n = serRt L env n := funext fun p => funext fun v => ih.1 p v
    have h2 : attrsAll L env n = attrsRt L env n := funext fun p => funext fun v => funext fun as => funext fun m => ih.2 p v as m
    constructor
    · intro p v
      rw [serAll, serRt, h1, h2, hs]
      rcases env p with _ | (d | d | d) <;> rfl
    · intro p v as m
      rw [attrsAll, attrsRt, h1, h2, ha]
      rcases env p with _ | (d | d | d) <;> rfl

end Yaserde.Rs
