import Verif.Model.Runtime
import Verif.Proofs.GenDe
/-
Running the programs of `Model/Runtime.lean`.
-/

set_option autoImplicit false
set_option linter.unusedSimpArgs false

namespace Yaserde.Rs

/-- The body of the loop of `inner_next`. -/
def innerBody : Ex :=
  mtch (meth .readerNext) [
    (.ok (.bind .rt_next), blk [mtch (.var .rt_next) [
      (.alt .startDocument (.alt .processingInstruction .comment), blk []),
      (.bind .rt_other, .ret (fn .ok [.var .rt_other]))]]),
    (.err (.bind .rt_msg), blk [.ret (fn .err [.var .rt_msg])])]

theorem innerBody_step (L : Lib) (fuel : Nat) (rd : Rd) (s : Store) : eval L rtOps fuel innerBody (rd, s) =
    match Src.next rd.reader with
    | (.ok e, r) => if e.skipped then (.val .unit, ({ rd with reader := r }, s)) else (.ret (.ok (.ev e)), ({ rd with reader := r }, s))
    | (.error m, r) => (.ret (.err (.str m)), ({ rd with reader := r }, s)) := by
  rcases hn : Src.next rd.reader with ⟨x, r⟩
  cases x with
  | error m =>
    simp [innerBody, mtch, meth, blk, fn, Arms.ofList, Exs.ofList, eval, evalArgs, evalArms, evalSeq, runOp, rtOps, hn, Exec.bind,
      Exec.out, Pat.matches, Pat.vars, Exec.inScope, Exs.decls, Store.setAll, Fn.apply]
    funext y; simp; intro h1 h2; exact absurd h2 h1
  | ok e =>
    cases e <;>
    simp [innerBody, mtch, meth, blk, fn, Arms.ofList, Exs.ofList, eval, evalArgs, evalArms, evalSeq, runOp, rtOps, hn, Exec.bind,
      Exec.out, Exec.val, Pat.matches, Pat.vars, Exec.inScope, Exs.decls, Store.setAll, Fn.apply, REv.skipped] <;>
    (funext y; simp; grind)

/-- The loop of `inner_next` comes to an end. -/
theorem innerNext_loop (L : Lib) (fuel n : Nat) : ∀ (rd : Rd) (s : Store), rd.reader.evs.length < n →
    Exec.loopN (eval L rtOps fuel innerBody) n (rd, s) =
    (match innerNext rd with
      | (.ok e, rd') => (.ret (.ok (.ev e)), (rd', s))
      | (.err m, rd') => (.ret (.err (.str m)), (rd', s))
      | (_, rd') => (.diverge, (rd', s))) := by
  induction n with
  | zero => intro rd s h; omega
  | succ n ih =>
    intro rd s h
    rcases rd with ⟨D, ⟨evs, fin⟩, pk⟩
    rw [Exec.loopN]
    dsimp only
    rw [innerBody_step]
    cases evs with
    | nil => cases fin <;> rfl
    | cons e evs =>
      have ih := ih ⟨D, ⟨evs, fin⟩, pk⟩ s (by simp at h ⊢; omega)
      by_cases he : e.skipped
      · simp only [Src.next, he, if_true]
        rw [ih]
        simp only [innerNext, innerNextL, he, if_true]
      · simp only [Src.next, he, innerNext, innerNextL]
        rfl

theorem innerNext_ends (rd : Rd) : (∃ e rd', innerNext rd = (.ok e, rd')) ∨ ∃ m rd', innerNext rd = (.err m, rd') := by
  unfold innerNext
  dsimp only
  generalize rd.reader.evs = evs
  generalize rd.reader.fin = fin
  induction evs with
  | nil => cases fin <;> simp [innerNextL]
  | cons e evs ih =>
    rw [innerNextL]
    split
    · exact ih
    · exact .inl ⟨_, _, rfl⟩

theorem eval_innerNext (L : Lib) (fuel : Nat) (rd : Rd) (s : Store) (h : rd.reader.evs.length < fuel) :
    eval L rtOps fuel innerNextE (rd, s) =
    (match innerNext rd with
      | (.ok e, rd') => (.ret (.ok (.ev e)), (rd', s))
      | (.err m, rd') => (.ret (.err (.str m)), (rd', s))
      | (_, rd') => (.diverge, (rd', s))) :=
  innerNext_loop L fuel fuel rd s h

theorem call_innerNext (L : Lib) (fuel : Nat) (rd : Rd) (s : Store) (h : rd.reader.evs.length < fuel) :
    eval L rtOps fuel (.call innerNextE) (rd, s) = ((liftD innerNext .ev rd).1, ((liftD innerNext .ev rd).2, s)) := by
  rw [eval]
  unfold Exec.called liftD
  rw [eval_innerNext L fuel rd s h]
  rcases innerNext_ends rd with ⟨e, rd', hi⟩ | ⟨m, rd', hi⟩ <;> rw [hi]

theorem call_peek (L : Lib) (fuel : Nat) (rd : Rd) (s : Store) (h : rd.reader.evs.length < fuel) :
    eval L rtOps fuel (.call peekE) (rd, s) = ((liftD peek .ev rd).1, ((liftD peek .ev rd).2, s)) := by
  have hc := fun s => eval_innerNext L fuel rd s h
  rcases rd with ⟨D, r, pk⟩
  cases pk with
  | some e =>
    simp [peekE, ifLet, mtch, meth, blk, fn, skipE, Arms.ofList, Exs.ofList, eval, evalArgs, evalArms, evalSeq, runOp, rtOps, Exec.bind,
      Exec.out, Exec.val, Exec.called, Pat.matches, Pat.vars, Exec.inScope, Exs.decls, Store.setAll, Fn.apply, liftD, peek]
    funext y; simp; grind
  | none =>
    rcases innerNext_ends ⟨D, r, none⟩ with ⟨e, rd', hi⟩ | ⟨m, rd', hi⟩ <;>
    simp only [hi] at hc <;>
    simp [peekE, ifLet, mtch, meth, blk, fn, skipE, Arms.ofList, Exs.ofList, eval, evalArgs, evalArms, evalSeq, runOp, rtOps, Exec.bind,
      Exec.out, Exec.val, Exec.called, Pat.matches, Pat.vars, Exec.inScope, Exs.decls, Store.setAll, Fn.apply, liftD, peek, hi, hc]
    funext y; simp; grind

theorem call_nextEvent (L : Lib) (fuel : Nat) (rd : Rd) (s : Store) (h : rd.reader.evs.length < fuel) :
    eval L rtOps fuel (.call nextEventE) (rd, s) = ((liftD nextEvent .ev rd).1, ((liftD nextEvent .ev rd).2, s)) := by
  have ip : ∀ n : Nat, (1 : Int) ≤ (n : Int) + 1 := fun n => by omega
  have hc := fun s => eval_innerNext L fuel rd s h
  rcases rd with ⟨D, r, pk⟩
  cases pk with
  | some e =>
    cases e <;> cases D <;>
    simp [nextEventE, ifLet, mtch, meth, blk, fn, skipE, intE, Arms.ofList, Exs.ofList, eval, evalArgs, evalArms, evalSeq, runOp, rtOps, Exec.bind,
      Exec.out, Exec.val, Exec.called, Pat.matches, Pat.vars, Exec.inScope, Exs.decls, Store.setAll, Fn.apply, liftD, nextEvent, Exec.setVar,
      trackDepth, ip] <;>
    first
    | done
    | (funext y; simp; grind)
    | (refine ⟨?_, ?_⟩ <;> first | omega | (funext y; simp; grind))
  | none =>
    rcases innerNext_ends ⟨D, r, none⟩ with ⟨e, rd', hi⟩ | ⟨m, rd', hi⟩
    · simp only [hi] at hc
      rcases rd' with ⟨D', r', pk'⟩
      cases e <;> cases D' <;>
      simp [nextEventE, ifLet, mtch, meth, blk, fn, skipE, intE, Arms.ofList, Exs.ofList, eval, evalArgs, evalArms, evalSeq, runOp, rtOps, Exec.bind,
        Exec.out, Exec.val, Exec.called, Pat.matches, Pat.vars, Exec.inScope, Exs.decls, Store.setAll, Fn.apply, liftD, nextEvent, Exec.setVar,
        trackDepth, Bind.bind, M.bind, ip, hi, hc] <;>
      first
      | done
      | (funext y; simp; grind)
      | (refine ⟨?_, ?_⟩ <;> first | omega | (funext y; simp; grind))
    · simp only [hi] at hc
      simp [nextEventE, ifLet, mtch, meth, blk, fn, skipE, intE, Arms.ofList, Exs.ofList, eval, evalArgs, evalArms, evalSeq, runOp, rtOps, Exec.bind,
        Exec.out, Exec.val, Exec.called, Pat.matches, Pat.vars, Exec.inScope, Exs.decls, Store.setAll, Fn.apply, liftD, nextEvent, Exec.setVar,
        Bind.bind, M.bind, hi, hc]

theorem callRt_peek (L : Lib) (fuel : Nat) (rd : Rd) (h : rd.reader.evs.length < fuel) : callRt L fuel peekE rd = liftD peek .ev rd := by
  unfold callRt
  rw [call_peek L fuel rd _ h]

theorem callRt_nextEvent (L : Lib) (fuel : Nat) (rd : Rd) (h : rd.reader.evs.length < fuel) :
    callRt L fuel nextEventE rd = liftD nextEvent .ev rd := by
  unfold callRt
  rw [call_nextEvent L fuel rd _ h]

theorem deOpsRt_eq (L : Lib) (rec : Path → D Val) : deOpsRt L rec = deOps L rec := by
  funext o l rd
  unfold deOpsRt deOps
  split
  · exact callRt_peek L _ rd (Nat.lt_succ_self _)
  · exact callRt_nextEvent L _ rd (Nat.lt_succ_self _)
  · rfl
  · rfl
  · rfl
  · simp_all

theorem runDeRt_eq (L : Lib) (rec : Path → D Val) (fuel : Nat) (b : Ex) : runDeRt L rec fuel b = runDe L rec fuel b := by
  unfold runDeRt runDe
  rw [deOpsRt_eq]
  rfl

theorem result_ofExcept (r : Except Str Val) :
    (match Out.result (.val (match r with | .ok v => .ok (.val v) | .error m => .err (.str m))) with
      | .ok (.val v) => .ok v
      | .ok _ => .panic c!"stuck"
      | .err m => .err m
      | .panic m => .panic m
      | .diverge => .diverge) = (match r with | .ok v => .ok v | .error m => .err m : Res Val) := by
  cases r <;> rfl

theorem runDe_primitives (L : Lib) (rec : Path → D Val) (fuel : Nat) (d : PrimDef) :
    runDe L rec fuel (deserializePrimitivesE d) = primDeser d := by
  funext rd
  rcases hp : peek rd with ⟨r, rd1⟩
  rcases hn : nextEvent rd1 with ⟨rn, rd2⟩
  rcases hq : peek rd2 with ⟨rq, rd3⟩
  have e1 : ∀ t, M.ofExcept (σ := Rd) (d.fromStr t) rd3 = (match d.fromStr t with | .ok v => .ok v | .error m => .err m, rd3) := by
    intro t; cases d.fromStr t <;> rfl
  have e2 := fun t => result_ofExcept (d.fromStr t)
  unfold runDe primDeser
  rcases r with e | m | m | _
  · cases e
    case start n a m =>
      rcases rn with e' | m | m | _
      · rcases rq with e'' | m | m | _
        · cases e'' <;>
          simp [deserializePrimitivesE, ifLet, mtch, meth, blk, fn, strE, Arms.ofList, Exs.ofList, eval, evalArgs, evalArms, evalSeq,
            runOp, deOps, Exec.bind, Exec.out, Exec.val, Pat.matches, Pat.vars, Exec.inScope, Exs.decls, Store.setAll, Fn.apply, liftD,
            hp, hn, hq, bind_def, M.bind, M.attempt, e1] <;>
          exact e2 _
        all_goals
          simp [deserializePrimitivesE, ifLet, mtch, meth, blk, fn, strE, Arms.ofList, Exs.ofList, eval, evalArgs, evalArms, evalSeq,
            runOp, deOps, Exec.bind, Exec.out, Exec.val, Pat.matches, Pat.vars, Exec.inScope, Exs.decls, Store.setAll, Fn.apply, liftD,
            hp, hn, hq, bind_def, M.bind, M.attempt, e1] <;>
          first | done | rfl | exact e2 _
      all_goals
        simp [deserializePrimitivesE, ifLet, mtch, meth, blk, fn, strE, Arms.ofList, Exs.ofList, eval, evalArgs, evalArms, evalSeq,
          runOp, deOps, Exec.bind, Exec.out, Exec.val, Pat.matches, Pat.vars, Exec.inScope, Exs.decls, Store.setAll, Fn.apply, liftD,
          hp, hn, hq, bind_def, M.bind, M.attempt, e1, Out.result]
    all_goals
      simp [deserializePrimitivesE, ifLet, mtch, meth, blk, fn, strE, Arms.ofList, Exs.ofList, eval, evalArgs, evalArms, evalSeq,
        runOp, deOps, Exec.bind, Exec.out, Exec.val, Pat.matches, Pat.vars, Exec.inScope, Exs.decls, Store.setAll, Fn.apply, liftD,
        hp, hn, hq, bind_def, M.bind, M.attempt, e1, Out.result, M.throw]
  all_goals
    simp [deserializePrimitivesE, ifLet, mtch, meth, blk, fn, strE, Arms.ofList, Exs.ofList, eval, evalArgs, evalArms, evalSeq,
      runOp, deOps, Exec.bind, Exec.out, Exec.val, Pat.matches, Pat.vars, Exec.inScope, Exs.decls, Store.setAll, Fn.apply, liftD,
      hp, hn, hq, bind_def, M.bind, M.attempt, e1, Out.result, M.throw]

theorem deserRt_eq (L : Lib) (env : Env) (n : Nat) : deserRt L env n = deserGen L env n := by
  induction n with
  | zero => rfl
  | succ n ih =>
    funext p
    unfold deserRt deserGen
    rcases env p with _ | (d | d | d)
    · rfl
    · simp only [runDeRt_eq, ih]
    · simp only [runDeRt_eq, ih]
    · simp only [runDeRt_eq, runDe_primitives]

/-- What `?` after a write does. -/
def afterWrite (r : Res Unit × Sr) (s : Store) : Out × (Sr × Store) :=
  match r with
  | (.ok (), t) => (.val .unit, (t, s))
  | (.err m, t) => (.ret (.err (.str m)), (t, s))
  | (.panic m, t) => (.panic m, (t, s))
  | (.diverge, t) => (.diverge, (t, s))

theorem eval_writeElse (L : Lib) (ser : Path → Val → S Unit) (attrs : Path → Val → List Attr → NsMap → Res (List Attr × NsMap))
    (e m : Ex) (ev : WEv) (msg : Str) (s : Store) (hw : s .writer = .ser)
    (he : ∀ t, eval L (serOps L ser attrs) 0 e (t, s) = (.val (.wev ev), (t, s)))
    (hm : ∀ t, eval L (serOps L ser attrs) 0 m (t, s) = (.val (.str msg), (t, s))) (t : Sr) :
    eval L (serOps L ser attrs) 0 (writeElseE e m) (t, s) = afterWrite (mapErr msg (swrite ev) t) s := by
  rcases h : swrite ev t with ⟨r, t'⟩
  have hl : (s.set .v .unit).leave s [.v] = s := by funext y; simp; grind
  rcases r with _ | m1 | m1 | _ <;>
  simp [writeElseE, mtch, meth, fn, Arms.ofList, Exs.ofList, eval, evalArgs, evalArms, runOp, serOps, Exec.bind, Exec.out, Exec.val,
    Exec.inScope, Fn.apply, liftS, Out.ofRes, Pat.matches, Pat.vars, Store.setAll, afterWrite, mapErr, he, hm, hw, h, hl]

theorem eval_msg {σ : Type} (L : Lib) (ops : Op → List RV → σ → Out × σ) (a c nm : Str) (s : Store) (h : s .name = .str nm) (t : σ) :
    eval L ops 0 (fn .cat [strE a, fn .debugStr [.var .name], strE c]) (t, s) = (.val (.str (a ++ L.dbgStr nm ++ c)), (t, s)) := by
  have : catAll [.str a, .str (L.dbgStr nm), .str c] = some (a ++ L.dbgStr nm ++ c) := by simp [catAll, RV.text]
  simp [fn, strE, Exs.ofList, eval, evalArgs, Exec.bind, Exec.val, Exec.out, Fn.apply, h, this, Out.ofOption]

/-- `serialize_primitives`, with the three writes in it. -/
theorem run_primitives (L : Lib) (ser : Path → Val → S Unit) (attrs : Path → Val → List Attr → NsMap → Res (List Attr × NsMap))
    (dn nm : Str) (v : Val) (W1 W2 W3 : Ex) (A1 A2 A3 : S Unit) (t : Sr) (hn : t.startName.getD dn = nm)
    (h1 : ∀ t, eval L (serOps L ser attrs) 0 (.try_ W1) (t, ((Store.empty.set .self (.val v)).set .writer .ser).set .name (.str nm)) =
      afterWrite (A1 t) (((Store.empty.set .self (.val v)).set .writer .ser).set .name (.str nm)))
    (h2 : ∀ t, eval L (serOps L ser attrs) 0 (.try_ W2) (t, ((Store.empty.set .self (.val v)).set .writer .ser).set .name (.str nm)) =
      afterWrite (A2 t) (((Store.empty.set .self (.val v)).set .writer .ser).set .name (.str nm)))
    (h3 : ∀ t, eval L (serOps L ser attrs) 0 (.try_ W3) (t, ((Store.empty.set .self (.val v)).set .writer .ser).set .name (.str nm)) =
      afterWrite (A3 t) (((Store.empty.set .self (.val v)).set .writer .ser).set .name (.str nm)))
    (k1 : ∀ t, (A1 t).2.skip = t.skip) (k2 : ∀ t, (A2 t).2.skip = t.skip) :
    runSer L ser attrs (blk [
      .letE .name (.unwrapOrElse (meth .startEventName [.var .writer]) (strE dn)),
      .ite (fn .not [meth .skipStartEnd [.var .writer]]) (blk [.try_ W1]) skipE, .try_ W2,
      .ite (fn .not [meth .skipStartEnd [.var .writer]]) (blk [.try_ W3]) skipE, fn .ok [skipE]]) v t =
    (((if t.skip then M.pure () else A1) >>= fun _ => A2 >>= fun _ => (if t.skip then M.pure () else A3)) t) := by
  generalize hS : ((Store.empty.set .self (.val v)).set .writer .ser).set .name (.str nm) = st at h1 h2 h3
  have hS1 : st .writer = .ser := by rw [← hS]; simp
  have hd : ∀ x, Exs.decls (.cons (.try_ x) .nil) = [] := fun _ => rfl
  have e0 : eval L (serOps L ser attrs) 0 (.letE .name (.unwrapOrElse (meth .startEventName [.var .writer]) (strE dn)))
      (t, (Store.empty.set .self (.val v)).set .writer .ser) = (.val .unit, (t, st)) := by
    rcases t with ⟨w, sk, sn⟩
    cases sn <;>
    simp [meth, strE, Exs.ofList, eval, evalArgs, runOp, serOps, Exec.bind, Exec.out, Exec.val, Exec.setVar] at hn ⊢ <;>
    rw [hn, hS]
  have e1 : ∀ (X : Ex) (A : S Unit) (t : Sr), (∀ t, eval L (serOps L ser attrs) 0 (.try_ X) (t, st) = afterWrite (A t) st) →
      eval L (serOps L ser attrs) 0 (.ite (fn .not [meth .skipStartEnd [.var .writer]]) (blk [.try_ X]) skipE) (t, st) =
      afterWrite ((if t.skip then M.pure () else A) t) st := by
    intro X A t h
    have hb : eval L (serOps L ser attrs) 0 (blk [.try_ X]) (t, st) = afterWrite (A t) st := by
      rw [blk, Exs.ofList, Exs.ofList, eval, hd, Exec.inScope]
      rw [evalSeq]
      unfold Exec.bind
      rw [h]
      unfold afterWrite
      rcases A t with ⟨_ | m | m | _, t'⟩ <;> simp [evalSeq, Exec.val, Exec.out]
    have hc : eval L (serOps L ser attrs) 0 (fn .not [meth .skipStartEnd [.var .writer]]) (t, st) = (.val (.bool (!t.skip)), (t, st)) := by
      simp [fn, meth, Exs.ofList, eval, evalArgs, runOp, serOps, Exec.bind, Exec.out, hS1, Fn.apply]
    rw [eval]
    unfold Exec.bind
    rw [hc]
    cases t.skip
    · exact hb
    · simp [skipE, eval, Exec.val, Exec.out, afterWrite, M.pure]
  have e4 : ∀ t, eval L (serOps L ser attrs) 0 (fn .ok [skipE]) (t, st) = (.val (.ok .unit), (t, st)) := by
    intro t; simp [fn, skipE, Exs.ofList, eval, evalArgs, Exec.bind, Exec.val, Exec.out, Fn.apply]
  have f1 := e1 W1 A1 t h1
  have f3 := fun t => e1 W3 A3 t h3
  generalize hX0 : (.letE .name (.unwrapOrElse (meth .startEventName [.var .writer]) (strE dn)) : Ex) = X0 at e0 ⊢
  generalize (.ite (fn .not [meth .skipStartEnd [.var .writer]]) (blk [.try_ W1]) skipE : Ex) = X1 at f1 ⊢
  generalize (.ite (fn .not [meth .skipStartEnd [.var .writer]]) (blk [.try_ W3]) skipE : Ex) = X3 at f3 ⊢
  generalize (.try_ W2 : Ex) = X2 at h2 ⊢
  generalize (fn .ok [skipE] : Ex) = X4 at e4 ⊢
  have g1 : ((if t.skip then M.pure () else A1) t).2.skip = t.skip := by split; rfl; exact k1 t
  generalize (if t.skip then M.pure () else A1) = B1 at f1 g1 ⊢
  rw [runSer, blk, eval, Exec.inScope]
  simp only [Exs.ofList, evalSeq, Exec.bind, e0, f1, bind_def, M.bind]
  rcases hB : B1 t with ⟨_ | m | m | _, t1⟩
  · rw [hB] at g1
    have g2 := k2 t1
    simp only [afterWrite, h2]
    rcases hA : A2 t1 with ⟨_ | m | m | _, t2⟩
    · rw [hA] at g2
      have g3 : t2.skip = t.skip := g2.trans g1
      simp only [f3, g3]
      generalize (if t.skip then M.pure () else A3) = B3
      rcases hC : B3 t2 with ⟨_ | m | m | _, t3⟩ <;> simp [afterWrite, e4, Exec.val, Exec.out, Out.result]
    all_goals simp [Out.result]
  all_goals simp [afterWrite, Out.result]


theorem runSer_prim (L : Lib) (ser : Path → Val → S Unit) (attrs : Path → Val → List Attr → NsMap → Res (List Attr × NsMap))
    (d : PrimDef) (v : Val) : runSer L ser attrs (serializePrimE d) v = serPrim L d v := by
  funext t
  unfold serializePrimE serPrim runSer
  by_cases hb : d.bare
  · simp only [hb, if_true]
    rcases hw : swrite (.chars (d.toStr v)) t with ⟨r, t'⟩
    rcases r with _ | m | m | _ <;>
    simp [serializeTypeE, mtch, meth, blk, fn, skipE, Arms.ofList, Exs.ofList, eval, evalArgs, evalArms, evalSeq, runOp, serOps, Exec.bind,
      Exec.out, Exec.val, Exec.inScope, Exs.decls, Exec.setVar, Fn.apply, liftS, hw, bind_def, M.bind, M.attempt, M.pure, Out.result,
      Out.ofRes, Out.ofOption, RV.text]
  · have k : ∀ msg ev t, (mapErr msg (swrite ev) t).2.skip = t.skip := by
      intro msg ev t
      unfold mapErr swrite
      rcases EW.write ev t.writer with ⟨_ | m1 | m1 | _, w'⟩ <;> rfl
    have hr := run_primitives L ser attrs d.name (t.startName.getD d.name) v _ _ _ _ _ _ t rfl
      (eval_writeElse L ser attrs (fn .startElement [.var .name])
        (fn .cat [strE c!"Start element ", fn .debugStr [.var .name], strE c!" write failed"]) (.start (Name.ofStr (t.startName.getD d.name)) [] []) _
        _ (by simp)
        (by intro t; simp [fn, Exs.ofList, eval, evalArgs, Exec.bind, Exec.val, Exec.out, Fn.apply, RV.text, Out.ofOption])
        (eval_msg L _ _ _ (t.startName.getD d.name) _ (by simp)))
      (eval_writeElse L ser attrs (fn .characters [fn (.primToStr d) [.var .self]])
        (fn .cat [strE c!"Element value ", fn .debugStr [.var .name], strE c!" write failed"]) (.chars (d.toStr v)) _
        _ (by simp)
        (by intro t; simp [fn, Exs.ofList, eval, evalArgs, Exec.bind, Exec.val, Exec.out, Fn.apply, RV.text, Out.ofOption])
        (eval_msg L _ _ _ (t.startName.getD d.name) _ (by simp)))
      (eval_writeElse L ser attrs (fn .endElement [])
        (fn .cat [strE c!"End element ", fn .debugStr [.var .name], strE c!" write failed"]) (.endE none) _
        _ (by simp)
        (by intro t; simp [fn, Exs.ofList, eval, evalArgs, Exec.bind, Exec.val, Exec.out, Fn.apply, RV.text, Out.ofOption])
        (eval_msg L _ _ _ (t.startName.getD d.name) _ (by simp)))
      (k _ _) (k _ _)
    rw [if_neg hb, if_neg hb]
    exact hr

theorem runSer_scalar (L : Lib) (ser : Path → Val → S Unit) (attrs : Path → Val → List Attr → NsMap → Res (List Attr × NsMap))
    (v : Val) (hv : (display L v).isSome) : runSer L ser attrs (serializeTypeE .display) v = serBuiltin L v := by
  funext t
  obtain ⟨x, hx⟩ := Option.isSome_iff_exists.mp hv
  have hs : showS L v = x := by
    cases v <;> simp [display] at hx ⊢ <;> exact hx
  unfold serBuiltin runSer
  rw [hs]
  rcases hw : swrite (.chars x) t with ⟨r, t'⟩
  rcases r with _ | m | m | _ <;>
  simp [serializeTypeE, mtch, meth, blk, fn, skipE, Arms.ofList, Exs.ofList, eval, evalArgs, evalArms, evalSeq, runOp, serOps, Exec.bind,
    Exec.out, Exec.val, Exec.inScope, Exs.decls, Exec.setVar, Fn.apply, liftS, hw, hx, bind_def, M.bind, M.attempt, M.pure, Out.result,
    Out.ofRes, Out.ofOption, RV.text]

theorem runAttrs_prim (L : Lib) (ser : Path → Val → S Unit) (attrs : Path → Val → List Attr → NsMap → Res (List Attr × NsMap))
    (v : Val) (as : List Attr) (m : NsMap) : runAttrs L ser attrs serializeAttributesE v as m = .ok (as, m) := by
  have h : (as.map RV.attr).mapM RV.toAttr = some as := by
    induction as with
    | nil => rfl
    | cons a as ih => simp [List.mapM_cons, RV.toAttr, ih]
  simp only [serializeAttributesE, runAttrs, fn, Exs.ofList, eval, evalArgs, Exec.bind, Exec.out, Fn.apply, Store.set_apply, List.nil_append,
    List.cons_append, Out.result]
  simp [h]

theorem serRt_eq (L : Lib) (env : Env) (n : Nat) :
    (∀ p v, serRt L env n p v = serGen L env n p v) ∧ ∀ p v as m, attrsRt L env n p v as m = attrsGen L env n p v as m := by
  induction n with
  | zero =>
    constructor
    · intro p v; rw [serRt, serGen]
    · intro p v as m; rw [attrsRt, attrsGen]
  | succ n ih =>
    have h1 : serRt L env n = serGen L env n := funext fun p => funext fun v => ih.1 p v
    have h2 : attrsRt L env n = attrsGen L env n := funext fun p => funext fun v => funext fun as => funext fun m => ih.2 p v as m
    constructor
    · intro p v
      rw [serRt, serGen, h1, h2]
      rcases env p with _ | (d | d | d)
      · rfl
      · rfl
      · rfl
      · exact runSer_prim L _ _ d v
    · intro p v as m
      rw [attrsRt, attrsGen, h1, h2]
      rcases env p with _ | (d | d | d)
      · rfl
      · rfl
      · rfl
      · exact runAttrs_prim L _ _ v as m

end Yaserde.Rs
