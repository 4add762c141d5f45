import Verif.Proofs.Term
/-
How long reading can take: with a step budget that is large enough for the number of events, a run either comes to its end, or it
never does.
-/

set_option autoImplicit false

namespace Yaserde

/-- The number of events still to be read, not counting the end of the document. -/
def Rd.mu (rd : Rd) : Nat := rd.visible.countP (fun e => decide (e ≠ .endDocument))

/-- The end of the document is reported after everything else. -/
def EndLast (rd : Rd) : Prop :=
  REv.endDocument ∉ rd.visible ∨ (rd.visible = [.endDocument] ∧ rd.reader.fin = none)

theorem EndLast.mu_nil {rd : Rd} (h : rd.visible = []) : rd.mu = 0 := by simp [Rd.mu, h]

theorem EndLast.mu_end {rd : Rd} (h : rd.visible = [.endDocument]) : rd.mu = 0 := by simp [Rd.mu, h]

theorem EndLast.mu_cons {rd : Rd} (e : REv) (es : List REv) (h : rd.visible = e :: es) (he : e ≠ .endDocument) :
    rd.mu = es.countP (fun e => decide (e ≠ .endDocument)) + 1 := by
  simp [Rd.mu, h, he]

theorem EndLast.mu_pos {rd : Rd} {e : REv} {es : List REv} (h : rd.visible = e :: es) (he : e ≠ .endDocument) : 1 ≤ rd.mu := by
  rw [EndLast.mu_cons e es h he]
  omega

/-- How a run that comes to an end leaves the reader. -/
def Ends {α : Type} (rd : Rd) (Q : α → Rd → Prop) : Res α → Rd → Prop
  | .ok a, rd' => (EndLast rd' ∧ rd'.mu ≤ rd.mu) ∧ Q a rd'
  | .err _, rd' => EndLast rd' ∧ rd'.mu ≤ rd.mu
  | .panic _, _ => True
  | .diverge, _ => False

/-- The family `x` of computations (indexed by the budget) either ends in the same way for all budgets from `B` on, or diverges
for all of them. `Q` holds of an `Ok` result. -/
def TB {α : Type} (B : Nat) (x : Nat → D α) (rd : Rd) (Q : α → Rd → Prop) : Prop :=
  (∃ r rd', (∀ n, B ≤ n → x n rd = (r, rd')) ∧ Ends rd Q r rd') ∨
  ∀ n, B ≤ n → (x n rd).1 = .diverge

section
variable {α β : Type} {B : Nat}

theorem TB.mono {x : Nat → D α} {rd : Rd} {Q R : α → Rd → Prop} (h : TB B x rd Q)
    (hq : ∀ a rd', rd'.mu ≤ rd.mu → Q a rd' → R a rd') : TB B x rd R := by
  rcases h with ⟨r, rd', h1, h2⟩ | h
  · refine .inl ⟨r, rd', h1, ?_⟩
    cases r with
    | ok a => exact ⟨h2.1, hq _ _ h2.1.2 h2.2⟩
    | err m => exact h2
    | panic m => trivial
    | diverge => exact h2
  · exact .inr h

theorem TB.bind {x : Nat → D α} {f : Nat → α → D β} {rd : Rd} {Q : α → Rd → Prop} {R : β → Rd → Prop}
    (hx : TB B x rd Q) (hf : ∀ a rd', EndLast rd' → rd'.mu ≤ rd.mu → Q a rd' → TB B (fun n => f n a) rd' R) :
    TB B (fun n => x n >>= f n) rd R := by
  rcases hx with ⟨r, rd', h1, h2⟩ | h
  · cases r with
    | ok a =>
      rcases hf a rd' h2.1.1 h2.1.2 h2.2 with ⟨r2, rd2, h3, h4⟩ | h
      · refine .inl ⟨r2, rd2, fun n hn => ?_, ?_⟩
        · exact (bind_ok (h1 n hn)).trans (h3 n hn)
        · have hle := h2.1.2
          cases r2 with
          | ok b => exact ⟨⟨h4.1.1, Nat.le_trans h4.1.2 hle⟩, h4.2⟩
          | err m => exact ⟨h4.1, Nat.le_trans h4.2 hle⟩
          | panic m => trivial
          | diverge => exact h4
      · refine .inr fun n hn => ?_
        exact (congrArg Prod.fst (bind_ok (h1 n hn))).trans (h n hn)
    | err m => exact .inl ⟨.err m, rd', fun n hn => bind_err (h1 n hn), h2⟩
    | panic m => exact .inl ⟨.panic m, rd', fun n hn => bind_panic (h1 n hn), trivial⟩
    | diverge => exact h2.elim
  · refine .inr fun n hn => ?_
    have := h n hn
    cases hx : x n rd with
    | mk r rd' =>
      rw [hx] at this
      simp only at this
      subst this
      exact congrArg Prod.fst (bind_diverge hx)

theorem TB.attempt {x : Nat → D α} {rd : Rd} {Q : α → Rd → Prop} (hx : TB B x rd Q) :
    TB B (fun n => M.attempt (x n)) rd fun r rd' => ∀ a, r = .ok a → Q a rd' := by
  rcases hx with ⟨r, rd', h1, h2⟩ | h
  · cases r with
    | ok a => exact .inl ⟨.ok (.ok a), rd', fun n hn => attempt_ok (h1 n hn), h2.1, fun b hb => by cases hb; exact h2.2⟩
    | err m => exact .inl ⟨.ok (.error m), rd', fun n hn => attempt_err (h1 n hn), h2, fun b hb => by cases hb⟩
    | panic m => exact .inl ⟨.panic m, rd', fun n hn => by simp [M.attempt, h1 n hn], trivial⟩
    | diverge => exact h2.elim
  · refine .inr fun n hn => ?_
    have := h n hn
    cases hx : x n rd with
    | mk r rd' =>
      rw [hx] at this
      simp only at this
      subst this
      simp [M.attempt, hx]

/-- A computation without budget. -/
theorem TB.of {x : D α} {rd rd' : Rd} {r : Res α} {Q : α → Rd → Prop} (h : x rd = (r, rd'))
    (hr : Ends rd Q r rd') : TB B (fun _ => x) rd Q :=
  .inl ⟨r, rd', fun _ _ => h, hr⟩

theorem TB.cases {x : D α} {rd : Rd} {Q : α → Rd → Prop} (h : TB B (fun _ => x) rd Q) :
    (∃ r rd', x rd = (r, rd') ∧ Ends rd Q r rd') ∨ ∃ rd', x rd = (.diverge, rd') := by
  rcases h with ⟨r, rd', h1, h2⟩ | h
  · exact .inl ⟨r, rd', h1 B (Nat.le_refl _), h2⟩
  · have h := h B (Nat.le_refl _)
    cases hx : x rd with
    | mk r rd' =>
      dsimp only at h
      rw [hx] at h
      simp only at h
      exact .inr ⟨rd', by rw [h]⟩

theorem TB.div {x : D α} {rd rd' : Rd} {Q : α → Rd → Prop} (h : x rd = (.diverge, rd')) : TB B (fun _ => x) rd Q :=
  .inr fun _ _ => by dsimp only; rw [h]

theorem TB.congr {x y : Nat → D α} {rd : Rd} {Q : α → Rd → Prop} (hxy : ∀ n, B ≤ n → x n rd = y n rd) (h : TB B y rd Q) :
    TB B x rd Q := by
  rcases h with ⟨r, rd', h1, h2⟩ | h
  · exact .inl ⟨r, rd', fun n hn => (hxy n hn).trans (h1 n hn), h2⟩
  · exact .inr fun n hn => (congrArg Prod.fst (hxy n hn)).trans (h n hn)

theorem TB.ret {a : α} {rd : Rd} {Q : α → Rd → Prop} (hg : EndLast rd) (hq : Q a rd) : TB B (fun _ => M.pure a) rd Q :=
  .of rfl ⟨⟨hg, Nat.le_refl _⟩, hq⟩

theorem TB.throw {m : Str} {rd : Rd} {Q : α → Rd → Prop} (hg : EndLast rd) : TB B (fun _ => M.throw m) rd Q :=
  .of rfl ⟨hg, Nat.le_refl _⟩

theorem TB.panic {m : Str} {rd : Rd} {Q : α → Rd → Prop} : TB B (fun _ => M.panic m) rd Q := .of rfl trivial

theorem TB.ofExcept {r : Except Str α} {rd : Rd} {Q : α → Rd → Prop} (hg : EndLast rd)
    (hq : ∀ a, r = .ok a → Q a rd) : TB B (fun _ => M.ofExcept r) rd Q := by
  cases r with
  | ok a => exact .of rfl ⟨⟨hg, Nat.le_refl _⟩, hq a rfl⟩
  | error m => exact .of rfl ⟨hg, Nat.le_refl _⟩

theorem TB.lift {r : Res α} {rd : Rd} {Q : α → Rd → Prop} (hg : EndLast rd) (hr : r ≠ .diverge)
    (hq : ∀ a, r = .ok a → Q a rd) : TB B (fun _ => M.lift r) rd Q := by
  cases r with
  | ok a => exact .of rfl ⟨⟨hg, Nat.le_refl _⟩, hq a rfl⟩
  | err m => exact .of rfl ⟨hg, Nat.le_refl _⟩
  | panic m => exact .of rfl trivial
  | diverge => exact (hr rfl).elim

theorem TB.get {f : Nat → Rd → D β} {rd : Rd} {R : β → Rd → Prop} (h : TB B (fun n => f n rd) rd R) :
    TB B (fun n => M.get >>= f n) rd R := h

theorem EndLast.tail {e : REv} {es : List REv} {rd rd' : Rd} (h : EndLast rd) (hv : rd.visible = e :: es)
    (hv' : rd'.visible = es) : REv.endDocument ∉ rd'.visible := by
  rw [hv']
  rcases h with h | ⟨h, -⟩
  · rw [hv] at h
    exact fun hc => h (List.mem_cons_of_mem _ hc)
  · rw [hv] at h
    cases h
    simp

theorem TB.peek {rd : Rd} (hg : EndLast rd) :
    TB B (fun _ => peek) rd fun e rd' => rd'.mu = rd.mu ∧
      ((e = .endDocument ∧ rd'.visible = [.endDocument] ∧ rd'.reader.fin = none) ∨
       (e ≠ .endDocument ∧ rd'.visible = rd.visible ∧ ∃ es, rd.visible = e :: es)) := by
  have h := at_self rd
  cases hv : rd.visible with
  | cons e es =>
    rw [hv] at h
    obtain ⟨rd', h1, h2⟩ := peek_at h
    have hm : rd'.mu = rd.mu := by simp [Rd.mu, h2.vis, hv]
    refine .of h1 ⟨⟨?_, Nat.le_of_eq hm⟩, hm, ?_⟩
    · rcases hg with hg | ⟨hg, hf⟩
      · exact .inl (by rw [h2.vis, ← hv]; exact hg)
      · exact .inr ⟨by rw [h2.vis, ← hv]; exact hg, by rw [h2.fin_eq]; exact hf⟩
    · rcases hg with hg | ⟨hg, hf⟩
      · exact .inr ⟨fun hc => hg (by rw [hv, hc]; exact List.mem_cons_self ..), h2.vis, es, rfl⟩
      · rw [hv] at hg
        cases hg
        exact .inl ⟨rfl, h2.vis, by rw [h2.fin_eq]; exact hf⟩
  | nil =>
    rw [hv] at h
    rcases peek_at_nil h with ⟨h0, rd', h1, h2⟩ | ⟨m, rd', h0, h1, h2⟩
    · have hm : rd'.mu = rd.mu := by simp [Rd.mu, h2.vis, hv]
      exact .of h1 ⟨⟨.inr ⟨h2.vis, h2.fin_eq⟩, Nat.le_of_eq hm⟩, hm, .inl ⟨rfl, h2.vis, h2.fin_eq⟩⟩
    · have hm : rd'.mu = rd.mu := by simp [Rd.mu, h2.vis, hv]
      exact .of h1 ⟨.inl (by rw [h2.vis]; simp), Nat.le_of_eq hm⟩

theorem TB.next {rd : Rd} (hg : EndLast rd) :
    TB B (fun _ => nextEvent) rd fun _ rd' => rd'.mu ≤ rd.mu - 1 := by
  have h := at_self rd
  cases hv : rd.visible with
  | cons e es =>
    rw [hv] at h
    obtain ⟨rd', h1, h2⟩ := nextEvent_at h
    have hn : REv.endDocument ∉ rd'.visible := hg.tail hv h2.vis
    have hm : rd'.mu ≤ rd.mu - 1 := by
      by_cases he : e = .endDocument
      · subst he
        rcases hg with hg | ⟨hg, -⟩
        · exact (hg (by rw [hv]; exact List.mem_cons_self ..)).elim
        · rw [hv] at hg
          cases hg
          simp [Rd.mu, h2.vis]
      · rw [EndLast.mu_cons e es hv he]
        simp [Rd.mu, h2.vis]
    have hb : ∀ k, EndLast { rd' with depth := k } := fun k => .inl hn
    have hm' : ∀ k, Rd.mu { rd' with depth := k } ≤ rd.mu - 1 := fun k => hm
    cases e with
    | start n as m => exact .of h1 ⟨⟨hb _, Nat.le_trans (hm' _) (by omega)⟩, hm' _⟩
    | endE n =>
      by_cases h0 : rd'.depth = 0
      · have h1' : nextEvent rd = (.panic c!"attempt to subtract with overflow", rd') := by
          rw [h1]; unfold trackDepth; dsimp only; rw [if_pos h0]
        exact .of h1' trivial
      · have h1' : nextEvent rd = (.ok (.endE n), { rd' with depth := rd'.depth - 1 }) := by
          rw [h1]; unfold trackDepth; dsimp only; rw [if_neg h0]
        exact .of h1' ⟨⟨hb _, Nat.le_trans (hm' _) (by omega)⟩, hm' _⟩
    | _ => exact .of h1 ⟨⟨.inl hn, Nat.le_trans hm (by omega)⟩, hm⟩
  | nil =>
    rw [hv] at h
    obtain ⟨rd', h1, h2⟩ := next_at_nil h
    have hm : rd'.mu = 0 := by simp [Rd.mu, h2.vis]
    refine .of h1 ?_
    cases rd.reader.fin with
    | none => exact ⟨⟨.inl (by rw [h2.vis]; simp), by omega⟩, by omega⟩
    | some m => exact ⟨.inl (by rw [h2.vis]; simp), by omega⟩

theorem TB.tpeek {rd : Rd} (hg : EndLast rd) : TB B (fun _ => Yaserde.peek) rd fun _ _ => True :=
  (TB.peek hg).mono fun _ _ _ _ => trivial

theorem TB.tnext {rd : Rd} (hg : EndLast rd) : TB B (fun _ => nextEvent) rd fun _ _ => True :=
  (TB.next hg).mono fun _ _ _ _ => trivial

theorem TB.apeek {rd : Rd} (hg : EndLast rd) : TB B (fun _ => M.attempt Yaserde.peek) rd fun _ _ => True :=
  (TB.attempt (.tpeek hg)).mono fun _ _ _ _ => trivial

/-- An attempt at the next event. -/
theorem TB.anext {rd : Rd} (hg : EndLast rd) :
    TB B (fun _ => M.attempt nextEvent) rd fun _ rd' => rd'.mu ≤ rd.mu - 1 := by
  rcases (TB.next (B := B) hg).cases with ⟨r, rd', hx, h2⟩ | ⟨rd', hx⟩
  · cases r with
    | ok a => exact .of (attempt_ok hx) h2
    | err m =>
      refine .of (attempt_err hx) ⟨h2, ?_⟩
      have h' := at_self rd
      cases hv : rd.visible with
      | nil => have := h2.2; rw [EndLast.mu_nil hv] at this ⊢; omega
      | cons e es =>
        rw [hv] at h'
        obtain ⟨rd2, h3, h4⟩ := nextEvent_at h'
        rw [hx] at h3
        cases e <;> simp [trackDepth] at h3
        split at h3 <;> simp at h3
    | panic m => exact .of (r := .panic m) (rd' := rd') (by simp [M.attempt, hx]) trivial
    | diverge => exact h2.elim
  · exact .div (rd' := rd') (by simp [M.attempt, hx])

theorem skipLoop_stuck (D depth n : Nat) (hD : depth ≤ D) : ∀ (acc : List REv) (rd : Rd),
    (At D [] none rd ∨ At D [.endDocument] none rd) → (skipLoop n depth acc rd).1 = .diverge := by
  induction n with
  | zero => intro acc rd _; rfl
  | succ n ih =>
    intro acc rd h
    have hp : ∃ rd', nextEvent rd = (.ok .endDocument, rd') ∧ At D [] none rd' := by
      rcases h with h | h
      · obtain ⟨rd', h1, h2⟩ := next_at_nil h
        exact ⟨rd', h1, h2⟩
      · obtain ⟨rd', h1, h2⟩ := nextEvent_at h
        exact ⟨rd', by rw [h1]; rfl, h2⟩
    obtain ⟨rd', h1, h2⟩ := hp
    have hd : rd.depth = D := by rcases h with h | h <;> exact h.depth
    show (if rd.depth ≥ depth then (nextEvent >>= fun e => skipLoop n depth (acc ++ [e])) rd else (.ok acc, rd)).1 = _
    rw [if_pos (by omega), bind_ok h1]
    exact ih _ _ (.inl h2)

theorem TB.skipLoop (depth : Nat) (m : Nat) : ∀ (k : Nat) (acc : List REv) (rd : Rd), EndLast rd → rd.mu ≤ m → rd.mu + k < B →
    TB B (fun n => skipLoop (n - k) depth acc) rd fun _ _ => True := by
  induction m with
  | zero =>
    intro k acc rd hg hm hk
    have hstep : ∀ n, B ≤ n → n - k = (n - k - 1) + 1 := fun n hn => by omega
    by_cases hd : rd.depth ≥ depth
    · -- nothing but the end is left
      have hv : rd.visible = [] ∨ rd.visible = [.endDocument] := by
        cases hv : rd.visible with
        | nil => exact .inl rfl
        | cons e es =>
          right
          rcases hg with hg | ⟨hg, -⟩
          · have := EndLast.mu_pos hv (fun hc => hg (by rw [hv, hc]; exact List.mem_cons_self ..))
            omega
          · rw [← hv, hg]
      cases hf : rd.reader.fin with
      | none =>
        refine .inr fun n hn => ?_
        have hat := at_self rd
        rw [hf] at hat
        refine skipLoop_stuck rd.depth depth (n - k) hd acc rd ?_
        rcases hv with h | h <;> rw [h] at hat
        · exact .inl hat
        · exact .inr hat
      | some e =>
        have hat := at_self rd
        rw [hf] at hat
        have hv' : rd.visible = [] := by
          rcases hv with h | h
          · exact h
          · rcases hg with hg | ⟨-, hg⟩
            · exact (hg (by rw [h]; exact List.mem_cons_self ..)).elim
            · rw [hf] at hg; cases hg
        rw [hv'] at hat
        obtain ⟨rd', h1, h2⟩ := next_at_nil hat
        refine .inl ⟨.err e, rd', fun n hn => ?_, .inl (by rw [h2.vis]; simp), by simp [Rd.mu, h2.vis]⟩
        dsimp only
        rw [hstep n hn]
        show (if rd.depth ≥ depth then (nextEvent >>= fun e => _) rd else (.ok acc, rd)) = _
        rw [if_pos hd, bind_err h1]
    · refine .inl ⟨.ok acc, rd, fun n hn => ?_, ⟨hg, Nat.le_refl _⟩, trivial⟩
      dsimp only
      rw [hstep n hn]
      show (if rd.depth ≥ depth then _ else _) = _
      rw [if_neg hd]
  | succ m ih =>
    intro k acc rd hg hm hk
    rcases Nat.lt_or_ge m rd.mu with hlt | hge
    · have hstep : ∀ n, B ≤ n → n - k = (n - (k + 1)) + 1 := fun n hn => by omega
      by_cases hd : rd.depth ≥ depth
      · have key : TB B (fun n => nextEvent >>= fun e => Yaserde.skipLoop (n - (k + 1)) depth (acc ++ [e])) rd fun _ _ => True :=
          .bind (.next hg) fun e rd' hg' _ hl => ih (k + 1) _ _ hg' (by omega) (by omega)
        have heq : ∀ n, B ≤ n → Yaserde.skipLoop (n - k) depth acc rd =
            (nextEvent >>= fun e => Yaserde.skipLoop (n - (k + 1)) depth (acc ++ [e])) rd := by
          intro n hn
          rw [hstep n hn]
          show (if rd.depth ≥ depth then _ else _) = _
          rw [if_pos hd]
        exact .congr heq key
      · refine .inl ⟨.ok acc, rd, fun n hn => ?_, ⟨hg, Nat.le_refl _⟩, trivial⟩
        dsimp only
        rw [hstep n hn]
        show (if rd.depth ≥ depth then _ else _) = _
        rw [if_neg hd]
    · exact ih k acc rd hg hge hk

/-- `read_inner_value` consumes something even when it fails. -/
theorem TB.attemptInner {f : D α} (hf : ∀ rd, EndLast rd → TB B (fun _ => f) rd fun _ _ => True) {rd : Rd} (hg : EndLast rd) :
    TB B (fun _ => M.attempt (Yaserde.readInnerValue f)) rd fun _ rd' => rd'.mu ≤ rd.mu - 1 := by
  have key : ∀ (r : Except Str REv) (rd1 : Rd), EndLast rd1 → TB B (fun _ => match r with
      | Except.ok (.start name _ _) => f >>= fun result => expectEndElement name >>= fun _ => M.pure result
      | _ => M.throw c!"Internal error: Bad Event") rd1 fun _ _ => True := by
    intro r rd1 hg1
    split
    · refine .bind (hf _ hg1) fun v rd2 hg2 _ _ => .bind (Q := fun _ _ => True) ?_ fun _ rd3 hg3 _ _ => .ret hg3 trivial
      refine .bind (.tnext hg2) fun e rd3 hg3 _ _ => ?_
      split
      · split
        · exact .ret hg3 trivial
        · exact .throw hg3
      · exact .throw hg3
    · exact .throw hg1
  rcases (TB.anext (B := B) hg).cases with ⟨r, rd1, hx, h2⟩ | ⟨rd1, hx⟩
  · cases r with
    | ok a =>
      have heq : readInnerValue f rd = _ := bind_ok hx
      rcases (key a rd1 h2.1.1).cases with ⟨r2, rd2, h3, h4⟩ | ⟨rd2, h3⟩
      · replace heq := heq.trans h3
        have hle := h2.2
        cases r2 with
        | ok b => exact .of (attempt_ok heq) ⟨⟨h4.1.1, by have := h4.1.2; omega⟩, by have := h4.1.2; omega⟩
        | err m => exact .of (attempt_err heq) ⟨⟨h4.1, by have := h4.2; omega⟩, by have := h4.2; omega⟩
        | panic m => exact .of (r := .panic m) (rd' := rd2) (by simp [M.attempt, heq]) trivial
        | diverge => exact h4.elim
      · replace heq := heq.trans h3
        exact .div (rd' := rd2) (by simp [M.attempt, heq])
    | err m =>
      unfold M.attempt at hx
      split at hx <;> cases hx
    | panic m =>
      have heq : readInnerValue f rd = (.panic m, rd1) := bind_panic hx
      exact .of (r := .panic m) (rd' := rd1) (by simp [M.attempt, heq]) trivial
    | diverge => exact h2.elim
  · have heq : readInnerValue f rd = (.diverge, rd1) := bind_diverge hx
    exact .div (rd' := rd1) (by simp [M.attempt, heq])

end

theorem loadAttrs_simple {L : Lib} {rec rec' : Path → D Val} (fs : List FieldDef)
    (hfs : ∀ f ∈ fs, f.attrs.isAttr = true → ∃ t, f.ty.core = .simple t) (as : List Attr) : ∀ ss : List Slot,
    loadAttrs L rec fs as ss = loadAttrs L rec' fs as ss := by
  induction fs with
  | nil => intro ss; rfl
  | cons f fs ih =>
    intro ss
    cases ss with
    | nil => rfl
    | cons s ss =>
      unfold loadAttrs
      rw [ih (fun g hg => hfs g (List.mem_cons_of_mem _ hg))]
      by_cases ha : f.attrs.isAttr = true
      · obtain ⟨t, ht⟩ := hfs f (List.mem_cons_self ..) ha
        have : ∀ v, visitAttr L rec f.ty.core v = visitAttr L rec' f.ty.core v := by
          intro v
          rw [ht]
          rfl
        have hone : loadAttrField L rec f as s = loadAttrField L rec' f as s := by
          unfold loadAttrField
          congr 1
          funext sl a
          split
          · cases hty : f.ty with
            | vec t' =>
              have hcore : f.ty.core = t' := by rw [hty]; rfl
              rw [hcore] at this
              dsimp only
              congr 1
              funext sl w
              rw [this]
            | simple t => rw [hty] at this; dsimp only; rw [this]
            | opt t => rw [hty] at this; dsimp only; rw [this]
            | struct q => rw [hty] at this; dsimp only; rw [this]
          · rfl
        rw [hone]
      · rw [if_neg ha, if_neg ha]

section
variable {L : Lib} {B : Nat} {rec : Nat → Path → D Val}

theorem TB.callSimple (root : Attrs) (f : FieldDef) (i : Nat) (t : STy) (name : Name) (st : LoopSt)
    {rd : Rd} (hg : EndLast rd) :
    TB B (fun _ => Yaserde.callSimple L root f i t name st) rd fun _ rd' => rd'.mu ≤ rd.mu - 1 := by
  refine .bind (.ofExcept (Q := fun _ rd' => rd' = rd) hg fun _ _ => rfl) fun _ rd1 hg1 _ h1 => ?_
  subst h1
  refine .bind (.attemptInner ?_ hg1) fun r rd2 hg2 _ h2 => ?_
  · intro rd hg
    refine .bind (.apeek hg) fun r rd1 hg1 _ _ => ?_
    split
    · refine .bind (.tnext hg1) fun _ rd2 hg2 _ _ => ?_
      split
      · exact .ret hg2 trivial
      · exact .throw hg2
    · exact .throw hg1
  · split
    · exact .ret hg2 h2
    · exact .ret hg2 h2

theorem TB.callStruct (V : Nat) (hrec : ∀ p rd, EndLast rd → rd.mu < V → TB B (fun n => rec n p) rd fun _ _ => True)
    (i : Nat) (p : Path) (st : LoopSt) {rd : Rd} (hg : EndLast rd) (h1 : 1 ≤ rd.mu)
    (hV : (st.depth = 0 ∧ rd.mu ≤ V) ∨ rd.mu < V) (h0 : ∃ n as m es, rd.visible = .start n as m :: es) :
    TB B (fun n => Yaserde.callStruct (rec n) i p st) rd fun _ rd' => rd'.mu < rd.mu := by
  refine .bind (Q := fun _ rd' => rd'.mu < V ∧ (rd'.mu < rd.mu ∨ rd'.visible = rd.visible)) ?_
    fun _ rd1 hg1 hle hq => ?_
  · split
    · refine .bind (.anext hg) fun _ rd1 hg1 _ hl => .ret hg1 ?_
      exact ⟨by rcases hV with h | h <;> omega, .inl (by omega)⟩
    · rename_i hd
      refine .ret hg ⟨?_, .inr rfl⟩
      rcases hV with h | h
      · exact (hd h.1).elim
      · exact h
  · refine .bind (x := fun _ => M.attempt Yaserde.peek)
      (Q := fun r rd2 => rd2.mu ≤ rd1.mu ∧ ((∃ n as m, r = .ok (.start n as m)) ∨ rd2.mu < rd.mu)) ?_ fun r rd2 hg2 hle2 hq2 => ?_
    · rcases hq.2 with h | h
      · exact (TB.apeek hg1).mono fun _ rd2 hl _ => ⟨hl, .inr (by omega)⟩
      · obtain ⟨n, as, m, es, he⟩ := h0
        have hat := at_self rd1
        rw [h, he] at hat
        obtain ⟨rd', hp, hat'⟩ := peek_at hat
        have hl : rd'.mu ≤ rd1.mu := by simp [Rd.mu, hat'.vis, h, he]
        refine .of (attempt_ok hp) ⟨⟨?_, hl⟩, hl, .inl ⟨n, as, m, rfl⟩⟩
        rcases hg1 with hg1 | ⟨hg1, -⟩
        · exact .inl (by rw [hat'.vis, ← he, ← h]; exact hg1)
        · rw [h, he] at hg1; cases hg1
    · split
      · refine .bind (hrec p _ hg2 (by omega)) fun v rd3 hg3 hl3 _ => .bind (.next hg3) fun _ rd4 hg4 _ hl4 =>
          .ret hg4 (by omega)
      · rename_i hne
        refine .ret hg2 ?_
        rcases hq2.2 with ⟨n, as, m, rfl⟩ | h
        · exact (hne n as m rfl).elim
        · exact h

theorem TB.structStart (V : Nat) (hrec : ∀ p rd, EndLast rd → rd.mu < V → TB B (fun n => rec n p) rd fun _ _ => True)
    (d : StructDef) (hat : ∀ f ∈ d.fields, f.attrs.isAttr = true → ∃ t, f.ty.core = .simple t)
    (st : LoopSt) (name : Name) (attrs : List Attr) {rd : Rd} (hg : EndLast rd) (h1 : 1 ≤ rd.mu) (hfuel : rd.mu < B)
    (hV : (st.depth = 0 ∧ rd.mu ≤ V) ∨ rd.mu < V) (h0 : ∃ n as m es, rd.visible = .start n as m :: es) :
    TB B (fun n => Yaserde.structStart L (rec n) n d st name attrs) rd fun _ rd' => rd'.mu < rd.mu := by
  refine .bind (Q := fun _ rd' => rd'.mu < rd.mu) ?_ fun st' rd' hg' _ hl =>
    .bind (Q := fun _ rd' => rd'.mu < rd.mu) ?_ fun st'' rd'' hg'' _ hl' => .ret hg'' hl'
  · split
    · refine .bind (.next hg) fun e rd1 hg1 _ hl => ?_
      exact .bind (.lift (Q := fun _ rd' => rd'.mu < rd.mu) hg1 (writeUnused_nd _ _ _)
        fun _ _ => by omega) fun w rd2 hg2 _ hl => .ret hg2 hl
    · split
      · rename_i i hi
        split
        · unfold Yaserde.callVisitor
          split
          · exact .callStruct V hrec _ _ _ hg h1 hV h0
          · exact (TB.callSimple _ _ _ _ _ _ hg).mono fun _ _ _ h => by omega
          · exact .panic
        · rename_i hn
          have := findArm_lt hi
          rw [List.getElem?_eq_none_iff] at hn
          omega
      · refine .bind (.next hg) fun e rd1 hg1 _ hl => ?_
        refine .bind (.lift (Q := fun _ rd' => rd'.mu < rd.mu) hg1 (writeUnused_nd _ _ _)
          fun _ _ => by omega) fun w rd2 hg2 _ hl => ?_
        split
        · refine .bind (x := fun n => Yaserde.skipElement n) (Q := fun _ _ => True) ?_ fun evs rd3 hg3 hl3 _ => ?_
          · exact TB.skipLoop rd2.depth _ 0 [] rd2 hg2 (Nat.le_refl _) (by omega)
          · exact .bind (.lift (Q := fun _ rd' => rd'.mu < rd.mu) hg3 (writeUnusedAll_nd _ _ _)
              fun _ _ => by omega) fun w rd4 hg4 _ hl => .ret hg4 hl
        · exact .ret hg2 hl
  · split
    · refine .bind (x := fun n => M.lift (loadAttrs L (rec n) d.fields attrs st'.slots)) (Q := fun _ rd' => rd'.mu < rd.mu) ?_
        fun ss rd2 hg2 _ hl => .ret hg2 hl
      refine .congr (y := fun _ => M.lift (loadAttrs L (rec 0) d.fields attrs st'.slots)) ?_
        (.lift hg' (loadAttrs_nd _ hat _ _) fun _ _ => hl)
      intro n _
      rw [loadAttrs_simple (rec := rec n) (rec' := rec 0) d.fields hat]
    · exact .ret hg' hl

theorem TB.structStep (V : Nat) (hrec : ∀ p rd, EndLast rd → rd.mu < V → TB B (fun n => rec n p) rd fun _ _ => True)
    (d : StructDef) (hat : ∀ f ∈ d.fields, f.attrs.isAttr = true → ∃ t, f.ty.core = .simple t)
    (named : Str) (startDepth : Nat) (st : LoopSt) {rd : Rd} (hg : EndLast rd) (hfuel : rd.mu < B)
    (hV : (st.depth = 0 ∧ rd.mu ≤ V) ∨ rd.mu < V) (hne : ∃ e es, rd.visible = e :: es ∧ e ≠ .endDocument) :
    TB B (fun n => Yaserde.structStep L (rec n) n d named startDepth st) rd fun r rd' => r.2 = true → rd'.mu < rd.mu := by
  refine .bind (.peek hg) fun e rd1 hg1 _ hp => ?_
  obtain ⟨hl, hp⟩ := hp
  obtain ⟨e0, es0, hv0, hne0⟩ := hne
  rcases hp with ⟨-, hp, -⟩ | ⟨hp2, hp1, es, hp3⟩
  · rw [EndLast.mu_end hp, EndLast.mu_cons _ _ hv0 hne0] at hl
    omega
  have hpos : 1 ≤ rd1.mu := by rw [hl]; exact EndLast.mu_pos hp3 hp2
  cases e with
  | start name attrs m =>
    refine .bind (.structStart V hrec d hat st name attrs hg1 hpos (by omega) (by rw [hl]; exact hV)
      ⟨_, _, _, _, hp1.trans hp3⟩) fun st' rd2 hg2 _ hl2 => .ret hg2 fun _ => by omega
  | endE name =>
    refine .get ?_
    split
    · exact .bind (.lift (Q := fun _ _ => True) hg1 (writeUnused_nd _ _ _) fun _ _ => trivial)
        fun w rd2 hg2 _ _ => .ret hg2 fun h => by cases h
    · refine .bind (.next hg1) fun e' rd2 hg2 _ hl2 => ?_
      exact .bind (.lift (Q := fun _ rd' => rd'.mu < rd.mu) hg2 (writeUnused_nd _ _ _) fun _ _ => by omega)
        fun w rd3 hg3 _ h3 => .ret hg3 fun _ => h3
  | endDocument => exact (hp2 rfl).elim
  | chars t =>
    refine .bind (.next hg1) fun e' rd2 hg2 _ hl2 => ?_
    exact .bind (.lift (Q := fun _ rd' => rd'.mu < rd.mu) hg2 (writeUnused_nd _ _ _) fun _ _ => by omega)
      fun w rd3 hg3 _ h3 => .ret hg3 fun _ => h3
  | _ => exact .throw hg1

/-- The loop when nothing but the end of the document is left. -/
theorem TB.structLoop_end (d : StructDef) (named : Str) (startDepth k : Nat) (hk : k < B) (st : LoopSt) {rd : Rd}
    (hg : EndLast rd) (hv : rd.visible = [] ∨ rd.visible = [.endDocument]) :
    TB B (fun n => Yaserde.structLoop L (rec n) n d named startDepth (n - k) st) rd fun _ _ => True := by
  have hat := at_self rd
  have hstep : ∀ n, B ≤ n → n - k = (n - k - 1) + 1 := fun n hn => by omega
  cases hf : rd.reader.fin with
  | none =>
    rw [hf] at hat
    have hat' : At rd.depth [] none rd ∨ At rd.depth [.endDocument] none rd := by
      rcases hv with h | h <;> rw [h] at hat
      · exact .inl hat
      · exact .inr hat
    by_cases hd : d.attrs.flatten = true
    · have hp : ∃ rd', Yaserde.peek rd = (.ok .endDocument, rd') ∧ At rd.depth [.endDocument] none rd' := by
        rcases hat' with h | h
        · rcases peek_at_nil h with ⟨-, h'⟩ | ⟨m, rd', h0, -⟩
          · exact h'
          · cases h0
        · exact peek_at h
      obtain ⟨rd', h1, h2⟩ := hp
      refine .inl ⟨.ok st, rd', fun n hn => ?_, ⟨.inr ⟨h2.vis, h2.fin_eq⟩, by simp [Rd.mu, h2.vis]⟩, trivial⟩
      have h3 : Yaserde.structStep L (rec n) n d named startDepth st rd = (.ok (st, false), rd') := by
        unfold Yaserde.structStep
        rw [bind_ok h1]
        simp [hd]
      dsimp only
      rw [hstep n hn]
      unfold Yaserde.structLoop
      rw [bind_ok h3]
      rfl
    · exact .inr fun n hn => structLoop_stuck L _ _ d (by simpa using hd) _ _ _ rd.depth _ _ hat'
  | some e =>
    have hv' : rd.visible = [] := by
      rcases hv with h | h
      · exact h
      · rcases hg with hg | ⟨-, hg⟩
        · exact (hg (by rw [h]; exact List.mem_cons_self ..)).elim
        · rw [hf] at hg; cases hg
    rw [hf, hv'] at hat
    rcases peek_at_nil hat with ⟨h0, -⟩ | ⟨m, rd', h0, h1, h2⟩
    · cases h0
    · refine .inl ⟨.err m, rd', fun n hn => ?_, .inl (by rw [h2.vis]; simp), by simp [Rd.mu, h2.vis]⟩
      dsimp only
      rw [hstep n hn]
      unfold Yaserde.structLoop Yaserde.structStep
      rw [bind_err (bind_err h1)]

theorem EndLast.cases {rd : Rd} (hg : EndLast rd) :
    (rd.visible = [] ∨ rd.visible = [.endDocument]) ∨ ∃ e es, rd.visible = e :: es ∧ e ≠ .endDocument := by
  cases hv : rd.visible with
  | nil => exact .inl (.inl rfl)
  | cons e es =>
    rcases hg with hg | ⟨hg, -⟩
    · exact .inr ⟨e, es, rfl, fun hc => hg (by rw [hv, hc]; exact List.mem_cons_self ..)⟩
    · exact .inl (.inr (by rw [← hv, hg]))

theorem TB.structLoop (V : Nat) (hrec : ∀ p rd, EndLast rd → rd.mu < V → TB B (fun n => rec n p) rd fun _ _ => True)
    (d : StructDef) (hat : ∀ f ∈ d.fields, f.attrs.isAttr = true → ∃ t, f.ty.core = .simple t)
    (named : Str) (startDepth : Nat) (hfuel : V < B) (m : Nat) : ∀ (k : Nat) (st : LoopSt) (rd : Rd), EndLast rd → rd.mu ≤ m →
    rd.mu + k < B → ((st.depth = 0 ∧ rd.mu ≤ V) ∨ rd.mu < V) →
    TB B (fun n => Yaserde.structLoop L (rec n) n d named startDepth (n - k) st) rd fun _ _ => True := by
  induction m with
  | zero =>
    intro k st rd hg hm hk hV
    refine .structLoop_end d named startDepth k (by omega) st hg ?_
    rcases hg.cases with h | ⟨e, es, h1, h2⟩
    · exact h
    · have := EndLast.mu_pos h1 h2
      omega
  | succ m ih =>
    intro k st rd hg hm hk hV
    rcases hg.cases with h | hne
    · exact .structLoop_end d named startDepth k (by omega) st hg h
    refine .congr (y := fun n => Yaserde.structStep L (rec n) n d named startDepth st >>= fun r =>
      if r.2 then Yaserde.structLoop L (rec n) n d named startDepth (n - (k + 1)) r.1 else M.pure r.1) ?_ ?_
    · intro n hn
      rw [show n - k = (n - (k + 1)) + 1 by omega]
      rfl
    · refine .bind (.structStep V hrec d hat named startDepth st hg (by rcases hV with h | h <;> omega) hV hne)
        fun r rd1 hg1 hl hq => ?_
      cases hr : r.2
      · simp only [Bool.false_eq_true, if_false]
        exact .ret hg1 trivial
      · simp only [if_true]
        have := hq hr
        exact ih _ _ _ hg1 (by omega) (by omega) (.inr (by rcases hV with h | h <;> omega))

theorem TB.structDeser (V : Nat) (hrec : ∀ p rd, EndLast rd → rd.mu < V → TB B (fun n => rec n p) rd fun _ _ => True)
    (d : StructDef) (hat : ∀ f ∈ d.fields, f.attrs.isAttr = true → ∃ t, f.ty.core = .simple t)
    (hnf : d.hasFlat = false) (hfuel : V < B) {rd : Rd} (hg : EndLast rd) (hV : rd.mu ≤ V) :
    TB B (fun n => Yaserde.structDeser L (rec n) n d) rd fun _ _ => True := by
  refine .bind (.tpeek hg) fun e rd1 hg1 hl1 _ => .get ?_
  refine .bind (Q := fun _ _ => True) ?_ fun _ rd2 hg2 hl2 _ =>
    .bind (.structLoop V hrec d hat _ _ hfuel _ 0 _ _ hg2 (Nat.le_refl _) (by omega) (.inl ⟨rfl, by omega⟩)) fun st rd3 hg3 _ _ =>
    .bind (Q := fun _ _ => True) ?_ fun slots rd4 hg4 _ _ =>
    .bind (.lift (Q := fun _ _ => True) hg4 (buildFields_nd _ _ _) fun _ _ => trivial) fun vs rd5 hg5 _ _ =>
    .ret hg5 trivial
  · split
    · exact .ofExcept hg1 fun _ _ => trivial
    · exact .ret hg1 trivial
  · rw [hnf]
    exact .ret hg3 trivial

theorem TB.variantArm (V : Nat) (i : Nat) (v : VariantDef) (cur : Option Val)
    (hrec : ∀ t p, v.shape = .newtype t → t.core = .struct p → ∀ rd, EndLast rd → rd.mu ≤ V → TB B (fun n => rec n p) rd fun _ _ => True)
    (hnn : ∀ fs, v.shape ≠ .named fs)
    {rd : Rd} (hg : EndLast rd) (hV : rd.mu ≤ V) :
    TB B (fun n => Yaserde.variantArm L (rec n) i v cur) rd fun r rd' => r.2 = true → rd'.mu ≤ rd.mu - 1 := by
  unfold Yaserde.variantArm
  split
  · exact .ret hg fun h => by cases h
  · rename_i fs hs; exact (hnn fs hs).elim
  · rename_i t ht
    split
    · rename_i p hp
      refine .bind (hrec t p ht hp _ hg hV) fun x rd1 hg1 hl1 _ =>
        .bind (.ofExcept (Q := fun _ rd2 => rd2.mu ≤ rd1.mu) hg1 fun _ _ => Nat.le_refl _) fun _ rd2 hg2 _ hl2 =>
        .bind (.anext hg2) fun _ rd3 hg3 _ hl3 => .ret hg3 fun _ => by omega
    · refine .bind (.attemptInner ?_ hg) fun r rd1 hg1 _ hl1 => ?_
      · intro rd hg
        refine .bind (.tpeek hg) fun e rd1 hg1 _ _ => ?_
        have hv : ∀ t s (rd : Rd), EndLast rd → TB B (fun _ => visitUnwrap L t s) rd fun _ _ => True := by
          intro t s rd hg
          unfold visitUnwrap
          split
          · exact .ret hg trivial
          · exact .panic
        split
        · exact hv _ _ _ hg1
        · refine .bind (.anext hg1) fun r rd2 hg2 _ _ => ?_
          split
          · exact hv _ _ _ hg2
          · exact .throw hg2
      · split
        · exact .bind (.ofExcept (Q := fun _ rd2 => rd2.mu ≤ rd.mu - 1) hg1 fun _ _ => hl1)
            fun _ rd2 hg2 _ h => .ret hg2 fun _ => h
        · exact .ret hg1 fun _ => hl1
    · exact .panic

theorem TB.enumMatch (V : Nat) (d : EnumDef)
    (hrec : ∀ v ∈ d.variants, ∀ t p, v.shape = .newtype t → t.core = .struct p →
      ∀ rd, EndLast rd → rd.mu ≤ V → TB B (fun n => rec n p) rd fun _ _ => True)
    (key : Str) (cur : Option Val) {dflt : D (Option Val × Bool)} {Q : Option Val × Bool → Rd → Prop}
    {rd : Rd} (hg : EndLast rd) (hV : rd.mu ≤ V)
    (hd : TB B (fun _ => dflt) rd Q) (hQ : ∀ r rd', (r.2 = true → rd'.mu ≤ rd.mu - 1) → Q r rd') :
    TB B (fun n => Yaserde.enumMatch L (rec n) d key cur dflt) rd Q := by
  unfold Yaserde.enumMatch
  split
  · rename_i i hi
    split
    · rename_i v hv
      refine (TB.variantArm V _ _ _ (hrec v (List.mem_of_getElem? hv)) ?_ hg hV).mono fun r rd' _ h => hQ r rd' h
      unfold findVariant at hi
      obtain ⟨hlt, h1, -⟩ := List.findIdx?_eq_some_iff_getElem.mp hi
      rw [List.getElem?_eq_getElem hlt] at hv
      cases hv
      intro fs hs
      rw [hs] at h1
      simp at h1
    · exact hd
  · exact hd

theorem TB.enumLoop (V : Nat) (d : EnumDef)
    (hrec : ∀ v ∈ d.variants, ∀ t p, v.shape = .newtype t → t.core = .struct p →
      ∀ rd, EndLast rd → rd.mu ≤ V → TB B (fun n => rec n p) rd fun _ _ => True)
    (named : Str) (startDepth : Nat) (m : Nat) : ∀ (k : Nat) (cur : Option Val) (rd : Rd), EndLast rd → rd.mu ≤ m → rd.mu + k < B →
    rd.mu ≤ V →
    TB B (fun n => Yaserde.enumLoop L (rec n) d named startDepth (n - k) cur) rd fun _ _ => True := by
  have step : ∀ (cur : Option Val) (rd : Rd), EndLast rd → rd.mu ≤ V →
      TB B (fun n => Yaserde.enumStep L (rec n) d named startDepth cur) rd fun r rd' => r.2 = true → rd'.mu < rd.mu := by
    intro cur rd hg hV
    refine .bind (.peek hg) fun e rd1 hg1 hl1 hp => ?_
    obtain ⟨hle, hp⟩ := hp
    rcases hp with ⟨rfl, -, -⟩ | ⟨hp2, hp1, es, hp3⟩
    · dsimp only
      split
      · exact .ret hg1 fun h => by cases h
      · exact .throw hg1
    have hpos : 1 ≤ rd.mu := EndLast.mu_pos hp3 hp2
    cases e with
    | start name attrs m =>
      refine .bind (.ofExcept (Q := fun _ rd' => rd'.mu = rd.mu) hg1 fun _ _ => hle) fun key rd2 hg2 _ hl2 =>
        .bind (.enumMatch V d hrec key cur hg2 (by omega)
          (Q := fun r rd' => r.2 = true → rd'.mu < rd.mu)
          (.bind (.anext hg2) fun _ rd3 hg3 _ hl3 => .ret hg3 fun _ => by omega)
          (fun r rd' h hr => by have := h hr; omega))
          fun r rd3 hg3 hl3 hq3 => ?_
      cases hr : r.2
      · obtain ⟨r1, r2⟩ := r
        cases hr
        exact .ret hg3 fun h => by cases h
      · have := hq3 hr
        obtain ⟨r1, r2⟩ := r
        cases hr
        refine .bind (.peek hg3) fun e' rd4 hg4 hl4 _ => ?_
        split
        · refine .enumMatch V d hrec _ _ hg4 (by omega) (.ret hg4 fun _ => by omega) fun r rd' h hr => ?_
          have := h hr
          omega
        · exact .ret hg4 fun _ => by omega
    | endE name =>
      refine .get ?_
      split
      · exact .ret hg1 fun h => by cases h
      · exact .bind (.anext hg1) fun _ rd2 hg2 _ hl2 => .ret hg2 fun _ => by omega
    | chars t => exact .bind (.anext hg1) fun _ rd2 hg2 _ hl2 => .ret hg2 fun _ => by omega
    | endDocument => exact (hp2 rfl).elim
    | _ => exact .throw hg1
  have unf : ∀ (k : Nat), k < B → ∀ (cur : Option Val) (rd : Rd),
      TB B (fun n => Yaserde.enumStep L (rec n) d named startDepth cur >>= fun r =>
        if r.2 then Yaserde.enumLoop L (rec n) d named startDepth (n - (k + 1)) r.1 else M.pure r.1) rd (fun _ _ => True) →
      TB B (fun n => Yaserde.enumLoop L (rec n) d named startDepth (n - k) cur) rd fun _ _ => True := by
    intro k hk cur rd h
    refine .congr ?_ h
    intro n hn
    rw [show n - k = (n - (k + 1)) + 1 by omega]
    rfl
  induction m with
  | zero =>
    intro k cur rd hg hm hk hV
    refine unf k (by omega) cur rd (.bind (step cur rd hg hV) fun r rd1 hg1 hl hq => ?_)
    cases hr : r.2
    · simp only [Bool.false_eq_true, if_false]
      exact .ret hg1 trivial
    · have := hq hr
      omega
  | succ m ih =>
    intro k cur rd hg hm hk hV
    refine unf k (by omega) cur rd (.bind (step cur rd hg hV) fun r rd1 hg1 hl hq => ?_)
    cases hr : r.2
    · simp only [Bool.false_eq_true, if_false]
      exact .ret hg1 trivial
    · simp only [if_true]
      have := hq hr
      exact ih _ _ _ hg1 (by omega) (by omega) (by omega)

theorem TB.enumDeser (V : Nat) (d : EnumDef)
    (hrec : ∀ v ∈ d.variants, ∀ t p, v.shape = .newtype t → t.core = .struct p →
      ∀ rd, EndLast rd → rd.mu ≤ V → TB B (fun n => rec n p) rd fun _ _ => True)
    (hfuel : V < B) {rd : Rd} (hg : EndLast rd) (hV : rd.mu ≤ V) :
    TB B (fun n => Yaserde.enumDeser L (rec n) n d) rd fun _ _ => True := by
  refine .bind (.tpeek hg) fun e rd1 hg1 hl1 _ => .get ?_
  exact .bind (.ofExcept (Q := fun _ rd2 => rd2.mu ≤ V) hg1 fun _ _ => by omega) fun _ rd2 hg2 _ hl2 =>
    .bind (.enumLoop V d hrec _ _ _ 0 _ _ hg2 (Nat.le_refl _) (by omega) hl2) fun _ rd3 hg3 _ _ => .ret hg3 trivial

theorem TB.primDeser (d : PrimDef) {rd : Rd} (hg : EndLast rd) : TB B (fun _ => Yaserde.primDeser d) rd fun _ _ => True := by
  refine .bind (.apeek hg) fun r rd1 hg1 _ _ => ?_
  split
  · refine .bind (.tnext hg1) fun _ rd2 hg2 _ _ => .bind (.apeek hg2) fun r rd3 hg3 _ _ => ?_
    split <;> exact .ofExcept hg3 fun _ _ => trivial
  · exact .throw hg1

end

theorem TB.deser (L : Lib) (env : Env) (rank : Path → Nat) (R : Nat) (he : Ranked env rank R) (B : Nat) :
    ∀ (V : Nat) (p : Path), (V + 1) * (R + 3) + rank p ≤ B → ∀ rd, EndLast rd → rd.mu ≤ V →
      TB B (fun n => Yaserde.deser L env n p) rd fun _ _ => True := by
  induction B with
  | zero =>
    intro V p h
    rw [Nat.add_mul] at h
    omega
  | succ B ih =>
    intro V p hn rd hg hV
    have h1 : (V + 1) * (R + 3) = V * (R + 3) + (R + 3) := by rw [Nat.add_mul, Nat.one_mul]
    have h2 : V * 3 ≤ V * (R + 3) := Nat.mul_le_mul_left V (by omega)
    have shift : TB B (fun n => Yaserde.deser L env (n + 1) p) rd (fun _ _ => True) → TB (B + 1) (fun n => Yaserde.deser L env n p) rd fun _ _ => True := by
      rintro (⟨r, rd', h1, h2⟩ | h)
      · refine .inl ⟨r, rd', fun n hn => ?_, h2⟩
        obtain ⟨n, rfl⟩ : ∃ k, n = k + 1 := ⟨n - 1, by omega⟩
        exact h1 n (by omega)
      · refine .inr fun n hn => ?_
        obtain ⟨n, rfl⟩ : ∃ k, n = k + 1 := ⟨n - 1, by omega⟩
        exact h n (by omega)
    refine shift ?_
    unfold Yaserde.deser
    split
    · rename_i d hd
      refine .structDeser (rec := fun n => Yaserde.deser L env n) V ?_ d (he.attrs p d hd) ?_ (by omega) hg hV
      · intro q rd' hg' hl'
        obtain ⟨V', rfl⟩ : ∃ V', V = V' + 1 := ⟨V - 1, by omega⟩
        have := he.bounded q
        exact ih V' q (by omega) rd' hg' (by omega)
      · have := he.noFlat p d hd
        simp only [StructDef.hasFlat, List.any_eq_false]
        intro f hf h
        simp only [Bool.and_eq_true, Bool.not_eq_true'] at h
        exact this ⟨f, hf, h⟩
    · rename_i d hd
      refine .enumDeser (rec := fun n => Yaserde.deser L env n) V d ?_ (by omega) hg hV
      intro v hv t q ht hq rd' hg' hl'
      have := he.payload p d hd v hv t q ht hq
      exact ih V q (by omega) rd' hg' hl'
    · exact .primDeser _ hg
    · exact .panic

end Yaserde
