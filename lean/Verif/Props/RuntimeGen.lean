import Verif.Proofs.RuntimeGen
import Verif.Props.Generated
import Verif.Props.GeneratedSer
/-
C85: the methods of the run-time library, as the programs of `/repo/yaserde/src`, do what the model says they do.
-/

set_option autoImplicit false
set_option maxRecDepth 100000

namespace Yaserde

/-- **C85.** `peek`, run: the loop in `inner_next` takes at most one iteration more than there are events left. -/
theorem C85_peek (L : Lib) (rd : Rd) {fuel : Nat} (h : rd.reader.evs.length < fuel) : Rs.callRt L fuel Rs.peekE rd = Rs.liftD peek .ev rd :=
  Rs.callRt_peek L fuel rd h

/-- **C85.** `next_event`, run. -/
theorem C85_next (L : Lib) (rd : Rd) {fuel : Nat} (h : rd.reader.evs.length < fuel) :
    Rs.callRt L fuel Rs.nextEventE rd = Rs.liftD nextEvent .ev rd :=
  Rs.callRt_nextEvent L fuel rd h

/-- The bound cannot be lowered: after `k` comments, `k` iterations have not found the end of the document. -/
theorem C85_loop (L : Lib) (k : Nat) :
    (Rs.callRt L k Rs.peekE (Rd.new ⟨List.replicate k (.comment []), none⟩)).1 = .diverge := by
  have : ∀ n k d pk s, n ≤ k → (Rs.Exec.loopN (Rs.eval L Rs.rtOps k Rs.innerBody) n (⟨d, ⟨List.replicate n (.comment []), none⟩, pk⟩, s)).1 = .diverge := by
    intro n
    induction n with
    | zero => intro k d pk s _; rfl
    | succ n ih =>
      intro k d pk s hk
      rw [Rs.Exec.loopN]
      dsimp only
      rw [Rs.innerBody_step]
      simp only [List.replicate_succ, Rs.Src.next, REv.skipped, if_true]
      exact ih k d pk s (by omega)
  have h := this k k 0 none (fun _ => .unit) (Nat.le_refl _)
  have h' : (Rs.eval L Rs.rtOps k Rs.innerNextE (Rd.new ⟨List.replicate k (.comment []), none⟩, fun _ => .unit)).1 = .diverge := h
  rcases hx : Rs.eval L Rs.rtOps k Rs.innerNextE (Rd.new ⟨List.replicate k (.comment []), none⟩, fun _ => .unit) with ⟨o, s⟩
  rw [hx] at h'
  subst h'
  have hp : (Rd.new ⟨List.replicate k (.comment []), none⟩).peeked = none := rfl
  simp [Rs.callRt, Rs.peekE, Rs.ifLet, Rs.mtch, Rs.meth, Rs.blk, Rs.fn, Rs.skipE, Rs.Arms.ofList, Rs.Exs.ofList, Rs.eval, Rs.evalArgs,
    Rs.evalArms, Rs.evalSeq, Rs.runOp, Rs.rtOps, Rs.Exec.bind, Rs.Exec.out, Rs.Exec.val, Rs.Exec.called, Rs.Exec.inScope, Rs.Exs.decls,
    Rs.Fn.apply, hp, hx]

/-- `yaserde::de::from_str::<p>`, where also the run-time library is a program. -/
def rtFromStr (L : Lib) (env : Env) (fuel : Nat) (p : Path) (s : Str) : Res Val := fromStr L (Rs.deserRt L env fuel) p s

/-- … returns `r`. -/
def RtReturns (L : Lib) (env : Env) (p : Path) (s : Str) (r : Res Val) : Prop := r ≠ .diverge ∧ ∃ n, rtFromStr L env n p s = r

/-- **C85.** `deserialize_primitives`, from every state of the reader. -/
theorem C85_prim_de (L : Lib) (rec : Path → D Val) (fuel : Nat) (d : PrimDef) (rd : Rd) :
    Rs.runDeRt L rec fuel (Rs.deserializePrimitivesE d) rd = primDeser d rd := by
  rw [Rs.runDeRt_eq, Rs.runDe_primitives]

/-- **C85.** All programs together read what the model reads. -/
theorem C85_same (L : Lib) (hL : ∀ s, WellFormed (L.parse s)) {env : Env} (h : DerivedDe env) (n : Nat) (p : Path) (s : Str) :
    rtFromStr L env n p s = deFromStr L env n p s := by
  rw [← C76_same L hL h]
  unfold rtFromStr genFromStr
  rw [Rs.deserRt_eq]

/-- **C85.** What `from_str` returns, when the printed code and the run-time library are both run as programs, is what it returns in the
model, and nothing else. -/
theorem C85_returns (L : Lib) (hL : ∀ s, WellFormed (L.parse s)) {env : Env} (h : DerivedDe env) (p : Path) (s : Str) (r : Res Val) :
    RtReturns L env p s r ↔ Returns L env p s r := by
  unfold RtReturns Returns
  simp only [C85_same L hL h]

/-- **C85.** `serialize_primitives`, and `serialize_type!` for a type of the standard library; from every state of the writer and
whichever writes fail. -/
theorem C85_prim_ser (L : Lib) (ser : Path → Val → S Unit) (attrs : Path → Val → List Attr → NsMap → Res (List Attr × NsMap))
    (d : PrimDef) (v : Val) (s : Sr) : Rs.runSer L ser attrs (Rs.serializePrimE d) v s = serPrim L d v s := by
  rw [Rs.runSer_prim]

/-- **C85.** `serialize_type!` for the scalar types of fields. -/
theorem C85_scalar (L : Lib) (ser : Path → Val → S Unit) (attrs : Path → Val → List Attr → NsMap → Res (List Attr × NsMap)) {env : Env}
    {t : STy} {v : Val} (hv : HasTy env (.simple t) v) (s : Sr) :
    Rs.runSer L ser attrs (Rs.serializeTypeE .display) v s = serBuiltin L v s := by
  rw [Rs.runSer_scalar]
  cases hv <;> rfl

/-- **C85.** All programs together write what the model writes. -/
theorem C85_writes (L : Lib) {env : Env} (h : DerivedSer env) {p : Path} {v : Val} (hv : HasTy env (.struct p) v) {n : Nat}
    (hn : sizeOf v < n) (s : Sr) : Rs.serRt L env n p v s = serTy L env p v s := by
  rw [(Rs.serRt_eq L env n).1]
  exact C77_same L h hv hn s

namespace MacroSample
open Tests

/-- Three events are skipped before the one that is there. -/
example : Rs.callRt lib 5 Rs.peekE ⟨0, ⟨[.startDocument, .comment c!"a", .pi c!"b" none, .endE ⟨c!"x", none, none⟩], none⟩, none⟩ =
    Rs.liftD peek .ev ⟨0, ⟨[.startDocument, .comment c!"a", .pi c!"b" none, .endE ⟨c!"x", none, none⟩], none⟩, none⟩ :=
  C85_peek lib _ (by decide)

/-- Taking an end tag outside of every element. -/
example : (Rs.callRt lib 2 Rs.nextEventE ⟨0, ⟨[.endE ⟨c!"x", none, none⟩], none⟩, none⟩).1 = .panic c!"attempt to subtract with overflow" := by
  rw [C85_next lib _ (by decide)]
  rfl

/-- A book, read by the programs. -/
example : RtReturns lib (envOf prog) [c!"Book"] bookText (.ok (.struct [.int 3, .vec [.str c!"x", .str c!"y"], .some (.int 7)])) :=
  (C85_returns lib wf derivedDe _ _ _).mpr book_reads

/-- The programs themselves, run. -/
example : (match rtFromStr lib (envOf prog) 60 [c!"Book"] bookText with
    | .ok v => v.beq (.struct [.int 3, .vec [.str c!"x", .str c!"y"], .some (.int 7)])
    | _ => false) = true := by decide +kernel

example (s : Sr) : Rs.serRt lib (envOf prog) 10000 [c!"Kind"] (.enum 1 [bookVal]) s = serTy lib (envOf prog) [c!"Kind"] (.enum 1 [bookVal]) s :=
  C85_writes lib derivedSer (hasTy_of_check _ _ _ rfl) (by decide) s

end MacroSample

end Yaserde
