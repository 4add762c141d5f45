import Verif.Proofs.Reader
import Verif.Proofs.NoPanic
/-
Termination on documents that end in a parse error.
-/

set_option autoImplicit false

namespace Yaserde

/-- The number of events still to be read. -/
def Rd.len (rd : Rd) : Nat := rd.visible.length

/-- The document ends in a parse error. -/
structure Broken (rd : Rd) : Prop where
  fin : rd.reader.fin ≠ none
  noEnd : REv.endDocument ∉ rd.visible

/-- The computation does not diverge; it keeps the reader broken; `Q` holds of an `Ok` result. -/
def TM {α : Type} (x : D α) (rd : Rd) (Q : α → Rd → Prop) : Prop :=
  match x rd with
  | (.ok a, rd') => (Broken rd' ∧ rd'.len ≤ rd.len) ∧ Q a rd'
  | (.err _, rd') => Broken rd' ∧ rd'.len ≤ rd.len
  | (.panic _, _) => True
  | (.diverge, _) => False

section
variable {α β : Type}

theorem TM.mono {x : D α} {rd : Rd} {Q R : α → Rd → Prop} (h : TM x rd Q)
    (hq : ∀ a rd', rd'.len ≤ rd.len → Q a rd' → R a rd') : TM x rd R := by
  unfold TM at *
  split <;> rename_i heq <;> rw [heq] at h
  · exact ⟨h.1, hq _ _ h.1.2 h.2⟩
  · exact h
  · trivial
  · exact h

theorem TM.bind {x : D α} {f : α → D β} {rd : Rd} {Q : α → Rd → Prop} {R : β → Rd → Prop}
    (hx : TM x rd Q) (hf : ∀ a rd', Broken rd' → rd'.len ≤ rd.len → Q a rd' → TM (f a) rd' R) :
    TM (x >>= f) rd R := by
  unfold TM at hx
  cases h : x rd with
  | mk r rd' =>
    rw [h] at hx
    cases r with
    | ok a =>
      have := hf a rd' hx.1.1 hx.1.2 hx.2
      have hle := hx.1.2
      unfold TM at this ⊢
      rw [bind_ok h]
      split <;> rename_i heq <;> rw [heq] at this
      · exact ⟨⟨this.1.1, Nat.le_trans this.1.2 hle⟩, this.2⟩
      · exact ⟨this.1, Nat.le_trans this.2 hle⟩
      · trivial
      · exact this
    | err m => unfold TM; rw [bind_err h]; exact hx
    | panic m => unfold TM; rw [bind_panic h]; trivial
    | diverge => exact hx.elim

theorem TM.attempt {x : D α} {rd : Rd} {Q : α → Rd → Prop} (hx : TM x rd Q) :
    TM (M.attempt x) rd fun r rd' => ∀ a, r = .ok a → Q a rd' := by
  unfold TM M.attempt at *
  cases h : x rd with
  | mk r rd' =>
    rw [h] at hx
    cases r with
    | ok a => exact ⟨hx.1, fun b hb => by cases hb; exact hx.2⟩
    | err m => exact ⟨hx, fun b hb => by cases hb⟩
    | panic m => trivial
    | diverge => exact hx.elim

theorem TM.pure {a : α} {rd : Rd} {Q : α → Rd → Prop} (hg : Broken rd) (hq : Q a rd) : TM (M.pure a) rd Q :=
  ⟨⟨hg, Nat.le_refl _⟩, hq⟩

theorem TM.throw {m : Str} {rd : Rd} {Q : α → Rd → Prop} (hg : Broken rd) : TM (M.throw m) rd Q :=
  ⟨hg, Nat.le_refl _⟩

theorem TM.panic {m : Str} {rd : Rd} {Q : α → Rd → Prop} : TM (M.panic m) rd Q := trivial

theorem TM.ofExcept {r : Except Str α} {rd : Rd} {Q : α → Rd → Prop} (hg : Broken rd)
    (hq : ∀ a, r = .ok a → Q a rd) : TM (M.ofExcept r) rd Q := by
  cases r with
  | ok a => exact ⟨⟨hg, Nat.le_refl _⟩, hq a rfl⟩
  | error m => exact ⟨hg, Nat.le_refl _⟩

theorem TM.lift {r : Res α} {rd : Rd} {Q : α → Rd → Prop} (hg : Broken rd) (hr : r ≠ .diverge)
    (hq : ∀ a, r = .ok a → Q a rd) : TM (M.lift r) rd Q := by
  cases r with
  | ok a => exact ⟨⟨hg, Nat.le_refl _⟩, hq a rfl⟩
  | err m => exact ⟨hg, Nat.le_refl _⟩
  | panic m => trivial
  | diverge => exact hr rfl

theorem TM.get {f : Rd → D β} {rd : Rd} {R : β → Rd → Prop} (h : TM (f rd) rd R) : TM (M.get >>= f) rd R := by
  unfold TM at *
  rw [bind_get]
  exact h

theorem TM.peek {rd : Rd} (hg : Broken rd) :
    TM peek rd fun e rd' => rd'.visible = rd.visible ∧ e ≠ .endDocument ∧ ∃ es, rd.visible = e :: es := by
  have h := at_self rd
  cases hv : rd.visible with
  | cons e es =>
    rw [hv] at h
    obtain ⟨rd', h1, h2⟩ := peek_at h
    unfold TM
    rw [h1]
    have hb : Broken rd' := ⟨by rw [h2.fin_eq]; exact hg.fin, by rw [h2.vis, ← hv]; exact hg.noEnd⟩
    refine ⟨⟨hb, by simp [Rd.len, h2.vis, hv]⟩, h2.vis, ?_, es, rfl⟩
    rintro rfl
    exact hg.noEnd (by rw [hv]; simp)
  | nil =>
    rw [hv] at h
    rcases peek_at_nil h with ⟨h0, -⟩ | ⟨m, rd', h0, h1, h2⟩
    · exact (hg.fin h0).elim
    · unfold TM
      rw [h1]
      exact ⟨⟨by rw [h2.fin_eq]; exact hg.fin, by rw [h2.vis]; simp⟩, by simp [Rd.len, h2.vis]⟩

theorem TM.next {rd : Rd} (hg : Broken rd) :
    TM nextEvent rd fun _ rd' => rd'.len < rd.len := by
  have h := at_self rd
  cases hv : rd.visible with
  | cons e es =>
    rw [hv] at h
    obtain ⟨rd', h1, h2⟩ := nextEvent_at h
    have hn : REv.endDocument ∉ es := by
      have := hg.noEnd
      rw [hv] at this
      simp only [List.mem_cons, not_or] at this
      exact this.2
    have hb : ∀ k, Broken { rd' with depth := k } :=
      fun k => ⟨by show rd'.reader.fin ≠ none; rw [h2.fin_eq]; exact hg.fin, by show _ ∉ rd'.visible; rw [h2.vis]; exact hn⟩
    have hl : rd'.len < rd.len := by simp [Rd.len, h2.vis, hv]
    have hb' : Broken rd' := hb rd'.depth
    unfold TM
    rw [h1]
    cases e with
    | start n as m => exact ⟨⟨hb _, Nat.le_of_lt hl⟩, hl⟩
    | endE n =>
      unfold trackDepth
      dsimp only
      by_cases h0 : rd'.depth = 0
      · simp [h0]
      · simp only [h0, if_false]; exact ⟨⟨hb _, Nat.le_of_lt hl⟩, hl⟩
    | _ => exact ⟨⟨hb', Nat.le_of_lt hl⟩, hl⟩
  | nil =>
    rw [hv] at h
    obtain ⟨rd', h1, h2⟩ := next_at_nil h
    have hb : Broken rd' := ⟨by rw [h2.fin_eq]; exact hg.fin, by rw [h2.vis]; simp⟩
    unfold TM
    rw [h1]
    cases hf : rd.reader.fin with
    | none => exact (hg.fin hf).elim
    | some m => exact ⟨hb, by simp [Rd.len, h2.vis]⟩

theorem TM.tnext {rd : Rd} (hg : Broken rd) : TM nextEvent rd fun _ _ => True :=
  (TM.next hg).mono fun _ _ _ _ => trivial

theorem TM.tpeek {rd : Rd} (hg : Broken rd) : TM Yaserde.peek rd fun _ _ => True :=
  (TM.peek hg).mono fun _ _ _ _ => trivial

/-- An attempt at the next event in front of an event. -/
theorem TM.anext {rd : Rd} (hg : Broken rd) :
    TM (M.attempt nextEvent) rd fun _ rd' => rd'.len ≤ rd.len - 1 := by
  have h := TM.next hg
  unfold TM M.attempt at *
  have h' := at_self rd
  cases hx : nextEvent rd with
  | mk r rd' =>
    rw [hx] at h
    cases r with
    | ok a => exact ⟨h.1, by have := h.2; omega⟩
    | err m =>
      refine ⟨h, ?_⟩
      cases hv : rd.visible with
      | nil => have := h.2; simp only [Rd.len, hv] at this ⊢; simpa using this
      | cons e es =>
        rw [hv] at h'
        obtain ⟨rd2, h1, h2⟩ := nextEvent_at h'
        rw [hx] at h1
        cases e <;> simp [trackDepth] at h1
        split at h1 <;> simp at h1
    | panic m => trivial
    | diverge => exact h.elim

theorem TM.apeek {rd : Rd} (hg : Broken rd) : TM (M.attempt Yaserde.peek) rd fun _ _ => True :=
  (TM.attempt (.tpeek hg)).mono fun _ _ _ _ => trivial

theorem TM.skipLoop (depth n : Nat) : ∀ (acc : List REv) (rd : Rd), Broken rd → rd.len < n →
    TM (skipLoop n depth acc) rd fun _ _ => True := by
  induction n with
  | zero => intro acc rd _ h; omega
  | succ n ih =>
    intro acc rd hg hn
    unfold TM Yaserde.skipLoop
    by_cases h : rd.depth ≥ depth
    · rw [if_pos h]
      exact TM.bind (.next hg) fun e rd' hg' _ hl => ih _ _ hg' (by omega)
    · rw [if_neg h]
      exact ⟨⟨hg, Nat.le_refl _⟩, trivial⟩

theorem TM.attempt_bind {x : D α} {f : α → D β} {rd : Rd} {k : Nat} (hx : TM x rd fun _ rd' => rd'.len ≤ k)
    (hne : ∀ m rd', x rd ≠ (.err m, rd')) (hf : ∀ a rd', Broken rd' → TM (f a) rd' fun _ _ => True) :
    TM (M.attempt (x >>= f)) rd fun _ rd' => rd'.len ≤ k := by
  unfold TM at hx
  cases h : x rd with
  | mk r rd1 =>
    rw [h] at hx
    cases r with
    | ok a =>
      have := hf a rd1 hx.1.1
      have hle := hx.2
      have hle' := hx.1.2
      unfold TM at this
      unfold TM M.attempt
      rw [bind_ok h]
      cases h2 : f a rd1 with
      | mk r2 rd2 =>
        rw [h2] at this
        cases r2 with
        | ok b => exact ⟨⟨this.1.1, by have := this.1.2; omega⟩, by have := this.1.2; omega⟩
        | err m => exact ⟨⟨this.1, by have := this.2; omega⟩, by have := this.2; omega⟩
        | panic m => trivial
        | diverge => exact this
    | err m => exact (hne m rd1 h).elim
    | panic m =>
      unfold TM M.attempt
      rw [bind_panic h]
      trivial
    | diverge => exact hx.elim

/-- `read_inner_value` consumes something even when it fails. -/
theorem TM.attemptInner {f : D α} (hf : ∀ rd, Broken rd → TM f rd fun _ _ => True) {rd : Rd} (hg : Broken rd) :
    TM (M.attempt (Yaserde.readInnerValue f)) rd fun _ rd' => rd'.len ≤ rd.len - 1 := by
  refine TM.attempt_bind (.anext hg) ?_ ?_
  · intro m rd' h
    unfold M.attempt at h
    split at h <;> cases h
  · intro r rd1 hg1
    split
    · refine .bind (hf _ hg1) fun v rd2 hg2 _ _ => .bind (Q := fun _ _ => True) ?_ fun _ rd3 hg3 _ _ => .pure hg3 trivial
      refine .bind (.tnext hg2) fun e rd3 hg3 _ _ => ?_
      split
      · split
        · exact .pure hg3 trivial
        · exact .throw hg3
      · exact .throw hg3
    · exact .throw hg1

end

theorem foldRes_nd {α β : Type} (f : β → α → Res β) (l : List α) (b : β) (h : ∀ b a, f b a ≠ .diverge) :
    foldRes f b l ≠ .diverge := by
  induction l generalizing b with
  | nil => simp [foldRes]
  | cons a l ih =>
    unfold foldRes
    cases hf : f b a with
    | ok b' => exact ih b'
    | err m => simp [Res.bind]
    | panic m => simp [Res.bind]
    | diverge => exact (h b a hf).elim

theorem writeUnused_nd (hf : Bool) (e : REv) (w : Option EW) : writeUnused hf e w ≠ .diverge := by
  unfold writeUnused
  repeat' split
  all_goals simp

theorem writeUnusedAll_nd (hf : Bool) (es : List REv) (w : Option EW) : writeUnusedAll hf es w ≠ .diverge := by
  induction es generalizing w with
  | nil => simp [writeUnusedAll]
  | cons e es ih =>
    unfold writeUnusedAll
    cases h : writeUnused hf e w with
    | ok w' => exact ih w'
    | err m' => simp [Res.bind]
    | panic m' => simp [Res.bind]
    | diverge => exact (writeUnused_nd hf e w h).elim

theorem buildFields_nd (name : Str) (fs : List FieldDef) (ss : List Slot) : buildFields name fs ss ≠ .diverge := by
  induction fs generalizing ss with
  | nil => simp [buildFields]
  | cons f fs ih =>
    cases ss with
    | nil => simp [buildFields]
    | cons s ss =>
      unfold buildFields
      cases hb : buildField name f s with
      | ok v =>
        simp only [Res.bind]
        cases hbs : buildFields name fs ss with
        | diverge => exact (ih ss hbs).elim
        | _ => simp
      | err m' => simp [Res.bind]
      | panic m' => simp [Res.bind]
      | diverge =>
        unfold buildField at hb
        repeat' split at hb
        all_goals simp at hb

section
variable {L : Lib} {rec : Path → D Val}

theorem loadAttrs_nd (fs : List FieldDef) (hfs : ∀ f ∈ fs, f.attrs.isAttr = true → ∃ t, f.ty.core = .simple t)
    (as : List Attr) (ss : List Slot) : loadAttrs L rec fs as ss ≠ .diverge := by
  induction fs generalizing ss with
  | nil => simp [loadAttrs]
  | cons f fs ih =>
    cases ss with
    | nil => simp [loadAttrs]
    | cons s ss =>
      unfold loadAttrs
      have i1 := ih (fun g hg => hfs g (List.mem_cons_of_mem _ hg)) ss
      have key : (if f.attrs.isAttr then loadAttrField L rec f as s else .ok s) ≠ .diverge := by
        split
        · rename_i ha
          obtain ⟨t, ht⟩ := hfs f (List.mem_cons_self ..) ha
          have hone : ∀ (s : Slot) (v : Str),
              ((visitAttr L rec f.ty.core v).bind fun v => .ok (s.put v)) ≠ .diverge := by
            intro s v
            rw [ht]
            unfold visitAttr
            dsimp only
            split <;> simp [Res.bind]
          refine foldRes_nd _ _ _ ?_
          intro b a
          split
          · cases hty : f.ty with
            | vec t' =>
              have hcore : f.ty.core = t' := by rw [hty]; rfl
              rw [hcore] at hone
              exact foldRes_nd _ _ _ hone
            | simple t => rw [hty] at hone; exact hone b a.value
            | opt t => rw [hty] at hone; exact hone b a.value
            | struct q => rw [hty] at hone; exact hone b a.value
          · simp
        · simp
      cases hx : (if f.attrs.isAttr then loadAttrField L rec f as s else .ok s) with
      | ok s' =>
        simp only [Res.bind]
        cases hl : loadAttrs L rec fs as ss with
        | diverge => exact (i1 hl).elim
        | _ => simp
      | err m => simp [Res.bind]
      | panic m => simp [Res.bind]
      | diverge => exact (key hx).elim

theorem TM.callSimple (root : Attrs) (f : FieldDef) (i : Nat) (t : STy) (name : Name) (st : LoopSt)
    {rd : Rd} (hg : Broken rd) :
    TM (Yaserde.callSimple L root f i t name st) rd fun _ rd' => rd'.len ≤ rd.len - 1 := by
  refine .bind (.ofExcept (Q := fun _ rd' => rd' = rd) hg fun _ _ => rfl) fun _ rd1 hg1 _ h1 => ?_
  subst h1
  refine .bind (.attemptInner ?_ hg1) fun r rd2 hg2 _ h2 => ?_
  · intro rd hg
    refine .bind (.apeek hg) fun r rd1 hg1 _ _ => ?_
    split
    · refine .bind (.tnext hg1) fun _ rd2 hg2 _ _ => ?_
      split
      · exact .pure hg2 trivial
      · exact .throw hg2
    · exact .throw hg1
  · split
    · exact .pure hg2 h2
    · exact .pure hg2 h2

theorem TM.callStruct (V : Nat) (hrec : ∀ p rd, Broken rd → rd.len < V → TM (rec p) rd fun _ _ => True)
    (i : Nat) (p : Path) (st : LoopSt) {rd : Rd} (hg : Broken rd) (h1 : 1 ≤ rd.len)
    (hV : (st.depth = 0 ∧ rd.len ≤ V) ∨ rd.len < V) (h0 : ∃ n as m es, rd.visible = .start n as m :: es) :
    TM (Yaserde.callStruct rec i p st) rd fun _ rd' => rd'.len < rd.len := by
  refine .bind (Q := fun _ rd' => rd'.len < V ∧ (rd'.len < rd.len ∨ rd'.visible = rd.visible)) ?_
    fun _ rd1 hg1 hle hq => ?_
  · split
    · refine .bind (.anext hg) fun _ rd1 hg1 _ hl => .pure hg1 ?_
      exact ⟨by rcases hV with h | h <;> omega, .inl (by omega)⟩
    · rename_i hd
      refine .pure hg ⟨?_, .inr rfl⟩
      rcases hV with h | h
      · exact (hd h.1).elim
      · exact h
  · refine .bind (x := M.attempt Yaserde.peek)
      (Q := fun r rd2 => rd2.len ≤ rd1.len ∧ ((∃ n as m, r = .ok (.start n as m)) ∨ rd2.len < rd.len)) ?_ fun r rd2 hg2 hle2 hq2 => ?_
    · rcases hq.2 with h | h
      · exact (TM.apeek hg1).mono fun _ rd2 hl _ => ⟨hl, .inr (by omega)⟩
      · obtain ⟨n, as, m, es, he⟩ := h0
        have hat := at_self rd1
        rw [h, he] at hat
        obtain ⟨rd', hp, hat'⟩ := peek_at hat
        unfold TM
        rw [attempt_ok hp]
        have hl : rd'.len ≤ rd1.len := by simp [Rd.len, hat'.vis, h, he]
        refine ⟨⟨⟨by rw [hat'.fin_eq]; exact hg1.fin, by rw [hat'.vis, ← he, ← h]; exact hg1.noEnd⟩, hl⟩,
          hl, .inl ⟨n, as, m, rfl⟩⟩
    · split
      · refine .bind (hrec p _ hg2 (by omega)) fun v rd3 hg3 hl3 _ => .bind (.next hg3) fun _ rd4 hg4 _ hl4 =>
          .pure hg4 (by omega)
      · rename_i hne
        refine .pure hg2 ?_
        rcases hq2.2 with ⟨n, as, m, rfl⟩ | h
        · exact (hne n as m rfl).elim
        · exact h

theorem findArm_lt {root : Attrs} {ns loc : Str} {fs : List FieldDef} {i : Nat} (h : findArm root ns loc fs = some i) :
    i < fs.length := by
  unfold findArm at h
  exact (List.findIdx?_eq_some_iff_getElem.mp h).1

theorem TM.structStart (V fuel : Nat) (hrec : ∀ p rd, Broken rd → rd.len < V → TM (rec p) rd fun _ _ => True)
    (d : StructDef) (hat : ∀ f ∈ d.fields, f.attrs.isAttr = true → ∃ t, f.ty.core = .simple t)
    (st : LoopSt) (name : Name) (attrs : List Attr) {rd : Rd} (hg : Broken rd) (h1 : 1 ≤ rd.len) (hfuel : rd.len < fuel)
    (hV : (st.depth = 0 ∧ rd.len ≤ V) ∨ rd.len < V) (h0 : ∃ n as m es, rd.visible = .start n as m :: es) :
    TM (Yaserde.structStart L rec fuel d st name attrs) rd fun _ rd' => rd'.len < rd.len := by
  refine .bind (Q := fun _ rd' => rd'.len < rd.len) ?_ fun st' rd' hg' _ hl =>
    .bind (Q := fun _ rd' => rd'.len < rd.len) ?_ fun st'' rd'' hg'' _ hl' => .pure hg'' hl'
  · split
    · refine .bind (.next hg) fun e rd1 hg1 _ hl => ?_
      exact .bind (.lift (Q := fun _ rd' => rd'.len < rd.len) hg1 (writeUnused_nd _ _ _)
        fun _ _ => hl) fun w rd2 hg2 _ hl => .pure hg2 hl
    · split
      · rename_i i hi
        split
        · unfold Yaserde.callVisitor
          split
          · exact .callStruct V hrec _ _ _ hg h1 hV h0
          · exact (TM.callSimple _ _ _ _ _ _ hg).mono fun _ _ _ h => by omega
          · exact .panic
        · rename_i hn
          have := findArm_lt hi
          rw [List.getElem?_eq_none_iff] at hn
          omega
      · refine .bind (.next hg) fun e rd1 hg1 _ hl => ?_
        refine .bind (.lift (Q := fun _ rd' => rd'.len < rd.len) hg1 (writeUnused_nd _ _ _)
          fun _ _ => hl) fun w rd2 hg2 _ hl => ?_
        split
        · refine .bind (x := Yaserde.skipElement fuel) (Q := fun _ _ => True) ?_ fun evs rd3 hg3 hl3 _ => ?_
          · unfold TM Yaserde.skipElement
            exact TM.skipLoop rd2.depth fuel [] rd2 hg2 (by omega)
          · exact .bind (.lift (Q := fun _ rd' => rd'.len < rd.len) hg3 (writeUnusedAll_nd _ _ _)
              fun _ _ => by omega) fun w rd4 hg4 _ hl => .pure hg4 hl
        · exact .pure hg2 hl
  · split
    · exact .bind (.lift (Q := fun _ rd' => rd'.len < rd.len) hg' (loadAttrs_nd _ hat _ _) fun _ _ => hl)
        fun ss rd2 hg2 _ hl => .pure hg2 hl
    · exact .pure hg' hl

theorem TM.structStep (V fuel : Nat) (hrec : ∀ p rd, Broken rd → rd.len < V → TM (rec p) rd fun _ _ => True)
    (d : StructDef) (hat : ∀ f ∈ d.fields, f.attrs.isAttr = true → ∃ t, f.ty.core = .simple t)
    (named : Str) (startDepth : Nat) (st : LoopSt) {rd : Rd} (hg : Broken rd) (hfuel : rd.len < fuel)
    (hV : (st.depth = 0 ∧ rd.len ≤ V) ∨ rd.len < V) :
    TM (Yaserde.structStep L rec fuel d named startDepth st) rd fun r rd' => r.2 = true → rd'.len < rd.len := by
  refine .bind (.peek hg) fun e rd1 hg1 _ hp => ?_
  obtain ⟨hp1, hp2, es, hp3⟩ := hp
  have hl : rd1.len = rd.len := by simp [Rd.len, hp1]
  have hpos : 1 ≤ rd1.len := by simp [Rd.len, hp1, hp3]
  cases e with
  | start name attrs m =>
    refine .bind (.structStart V fuel hrec d hat st name attrs hg1 hpos (by omega) (by rw [hl]; exact hV)
      ⟨_, _, _, _, hp1.trans hp3⟩) fun st' rd2 hg2 _ hl2 => .pure hg2 fun _ => by omega
  | endE name =>
    refine .get ?_
    split
    · exact .bind (.lift (Q := fun _ _ => True) hg1 (writeUnused_nd _ _ _) fun _ _ => trivial)
        fun w rd2 hg2 _ _ => .pure hg2 fun h => by cases h
    · refine .bind (.next hg1) fun e' rd2 hg2 _ hl2 => ?_
      exact .bind (.lift (Q := fun _ rd' => rd'.len < rd.len) hg2 (writeUnused_nd _ _ _) fun _ _ => by omega)
        fun w rd3 hg3 _ h3 => .pure hg3 fun _ => h3
  | endDocument => exact (hp2 rfl).elim
  | chars t =>
    refine .bind (.next hg1) fun e' rd2 hg2 _ hl2 => ?_
    exact .bind (.lift (Q := fun _ rd' => rd'.len < rd.len) hg2 (writeUnused_nd _ _ _) fun _ _ => by omega)
      fun w rd3 hg3 _ h3 => .pure hg3 fun _ => h3
  | _ => exact .throw hg1

theorem TM.structLoop (V fuel : Nat) (hrec : ∀ p rd, Broken rd → rd.len < V → TM (rec p) rd fun _ _ => True)
    (d : StructDef) (hat : ∀ f ∈ d.fields, f.attrs.isAttr = true → ∃ t, f.ty.core = .simple t)
    (named : Str) (startDepth : Nat) (hfuel : V < fuel) (n : Nat) : ∀ (st : LoopSt) (rd : Rd), Broken rd → rd.len < n →
    ((st.depth = 0 ∧ rd.len ≤ V) ∨ rd.len < V) →
    TM (Yaserde.structLoop L rec fuel d named startDepth n st) rd fun _ _ => True := by
  induction n with
  | zero => intro st rd _ h; omega
  | succ n ih =>
    intro st rd hg hn hV
    refine .bind (.structStep V fuel hrec d hat named startDepth st hg (by rcases hV with h | h <;> omega) hV)
      fun r rd1 hg1 hl hq => ?_
    dsimp only
    split
    · rename_i hr
      have := hq hr
      exact ih _ _ hg1 (by omega) (.inr (by rcases hV with h | h <;> omega))
    · exact .pure hg1 trivial

theorem TM.structDeser (V fuel : Nat) (hrec : ∀ p rd, Broken rd → rd.len < V → TM (rec p) rd fun _ _ => True)
    (d : StructDef) (hat : ∀ f ∈ d.fields, f.attrs.isAttr = true → ∃ t, f.ty.core = .simple t)
    (hnf : d.hasFlat = false) (hfuel : V < fuel) {rd : Rd} (hg : Broken rd) (hV : rd.len ≤ V) :
    TM (Yaserde.structDeser L rec fuel d) rd fun _ _ => True := by
  refine .bind (.tpeek hg) fun e rd1 hg1 hl1 _ => .get ?_
  refine .bind (Q := fun _ _ => True) ?_ fun _ rd2 hg2 hl2 _ =>
    .bind (.structLoop V fuel hrec d hat _ _ hfuel _ _ _ hg2 (by omega) (.inl ⟨rfl, by omega⟩)) fun st rd3 hg3 _ _ =>
    .bind (Q := fun _ _ => True) ?_ fun slots rd4 hg4 _ _ =>
    .bind (.lift (Q := fun _ _ => True) hg4 (buildFields_nd _ _ _) fun _ _ => trivial) fun vs rd5 hg5 _ _ =>
    .pure hg5 trivial
  · split
    · exact .ofExcept hg1 fun _ _ => trivial
    · exact .pure hg1 trivial
  · rw [hnf]
    exact .pure hg3 trivial

theorem TM.variantArm (V : Nat) (i : Nat) (v : VariantDef) (cur : Option Val)
    (hrec : ∀ t p, v.shape = .newtype t → t.core = .struct p → ∀ rd, Broken rd → rd.len ≤ V → TM (rec p) rd fun _ _ => True)
    (hnn : ∀ fs, v.shape ≠ .named fs)
    {rd : Rd} (hg : Broken rd) (hV : rd.len ≤ V) :
    TM (Yaserde.variantArm L rec i v cur) rd fun r rd' => r.2 = true → rd'.len ≤ rd.len - 1 := by
  unfold Yaserde.variantArm
  split
  · exact .pure hg fun h => by cases h
  · rename_i fs hs; exact (hnn fs hs).elim
  · rename_i t ht
    split
    · rename_i p hp
      refine .bind (hrec t p ht hp _ hg hV) fun x rd1 hg1 hl1 _ =>
        .bind (.ofExcept (Q := fun _ rd2 => rd2.len ≤ rd1.len) hg1 fun _ _ => Nat.le_refl _) fun _ rd2 hg2 _ hl2 =>
        .bind (.anext hg2) fun _ rd3 hg3 _ hl3 => .pure hg3 fun _ => by omega
    · refine .bind (.attemptInner ?_ hg) fun r rd1 hg1 _ hl1 => ?_
      · intro rd hg
        refine .bind (.tpeek hg) fun e rd1 hg1 _ _ => ?_
        have hv : ∀ t s (rd : Rd), Broken rd → TM (visitUnwrap L t s) rd fun _ _ => True := by
          intro t s rd hg
          unfold visitUnwrap
          split
          · exact .pure hg trivial
          · exact .panic
        split
        · exact hv _ _ _ hg1
        · refine .bind (.anext hg1) fun r rd2 hg2 _ _ => ?_
          split
          · exact hv _ _ _ hg2
          · exact .throw hg2
      · split
        · exact .bind (.ofExcept (Q := fun _ rd2 => rd2.len ≤ rd.len - 1) hg1 fun _ _ => hl1)
            fun _ rd2 hg2 _ h => .pure hg2 fun _ => h
        · exact .pure hg1 fun _ => hl1
    · exact .panic

theorem TM.enumMatch (V : Nat) (d : EnumDef)
    (hrec : ∀ v ∈ d.variants, ∀ t p, v.shape = .newtype t → t.core = .struct p →
      ∀ rd, Broken rd → rd.len ≤ V → TM (rec p) rd fun _ _ => True)
    (key : Str) (cur : Option Val) {dflt : D (Option Val × Bool)} {Q : Option Val × Bool → Rd → Prop}
    {rd : Rd} (hg : Broken rd) (hV : rd.len ≤ V)
    (hd : TM dflt rd Q) (hQ : ∀ r rd', (r.2 = true → rd'.len ≤ rd.len - 1) → Q r rd') :
    TM (Yaserde.enumMatch L rec d key cur dflt) rd Q := by
  unfold Yaserde.enumMatch
  split
  · rename_i i hi
    split
    · rename_i v hv
      refine (TM.variantArm V _ _ _ (hrec v (List.mem_of_getElem? hv)) ?_ hg hV).mono fun r rd' _ h => hQ r rd' h
      unfold findVariant at hi
      obtain ⟨hlt, h1, -⟩ := List.findIdx?_eq_some_iff_getElem.mp hi
      rw [List.getElem?_eq_getElem hlt] at hv
      cases hv
      intro fs hs
      rw [hs] at h1
      simp at h1
    · exact hd
  · exact hd

theorem TM.enumLoop (V : Nat) (d : EnumDef)
    (hrec : ∀ v ∈ d.variants, ∀ t p, v.shape = .newtype t → t.core = .struct p →
      ∀ rd, Broken rd → rd.len ≤ V → TM (rec p) rd fun _ _ => True)
    (named : Str) (startDepth : Nat) (n : Nat) : ∀ (cur : Option Val) (rd : Rd), Broken rd → rd.len < n → rd.len ≤ V →
    TM (Yaserde.enumLoop L rec d named startDepth n cur) rd fun _ _ => True := by
  induction n with
  | zero => intro cur rd _ h; omega
  | succ n ih =>
    intro cur rd hg hn hV
    refine .bind (Q := fun r rd' => r.2 = true → rd'.len < rd.len) ?_ fun r rd1 hg1 hl hq => ?_
    · refine .bind (.peek hg) fun e rd1 hg1 hl1 hp => ?_
      have hle : rd1.len = rd.len := by simp [Rd.len, hp.1]
      have hpos : 1 ≤ rd.len := by obtain ⟨es, he⟩ := hp.2.2; simp [Rd.len, he]
      cases e with
      | start name attrs m =>
        refine .bind (.ofExcept (Q := fun _ rd' => rd'.len = rd.len) hg1 fun _ _ => hle) fun key rd2 hg2 _ hl2 =>
          .bind (.enumMatch V d hrec key cur hg2 (by omega)
            (Q := fun r rd' => r.2 = true → rd'.len < rd.len)
            (.bind (.anext hg2) fun _ rd3 hg3 _ hl3 => .pure hg3 fun _ => by omega)
            (fun r rd' h hr => by have := h hr; omega))
            fun r rd3 hg3 hl3 hq3 => ?_
        dsimp only
        split
        · rename_i hr
          have := hq3 hr
          refine .bind (.peek hg3) fun e' rd4 hg4 hl4 _ => ?_
          split
          · refine .enumMatch V d hrec _ _ hg4 (by omega) (.pure hg4 fun _ => by omega) fun r rd' h hr => ?_
            have := h hr
            omega
          · exact .pure hg4 fun _ => by omega
        · exact .pure hg3 fun h => by cases h
      | endE name =>
        refine .get ?_
        split
        · exact .pure hg1 fun h => by cases h
        · exact .bind (.anext hg1) fun _ rd2 hg2 _ hl2 => .pure hg2 fun _ => by omega
      | chars t => exact .bind (.anext hg1) fun _ rd2 hg2 _ hl2 => .pure hg2 fun _ => by omega
      | endDocument => exact (hp.2.1 rfl).elim
      | _ => exact .throw hg1
    · dsimp only
      split
      · rename_i hr
        have := hq hr
        exact ih _ _ hg1 (by omega) (by omega)
      · exact .pure hg1 trivial

theorem TM.enumDeser (V fuel : Nat) (d : EnumDef)
    (hrec : ∀ v ∈ d.variants, ∀ t p, v.shape = .newtype t → t.core = .struct p →
      ∀ rd, Broken rd → rd.len ≤ V → TM (rec p) rd fun _ _ => True)
    (hfuel : V < fuel) {rd : Rd} (hg : Broken rd) (hV : rd.len ≤ V) :
    TM (Yaserde.enumDeser L rec fuel d) rd fun _ _ => True := by
  refine .bind (.tpeek hg) fun e rd1 hg1 hl1 _ => .get ?_
  exact .bind (.ofExcept (Q := fun _ rd2 => rd2.len ≤ V) hg1 fun _ _ => by omega) fun _ rd2 hg2 _ hl2 =>
    .bind (.enumLoop V d hrec _ _ _ _ _ hg2 (by omega) hl2) fun _ rd3 hg3 _ _ => .pure hg3 trivial

theorem TM.primDeser (d : PrimDef) {rd : Rd} (hg : Broken rd) : TM (Yaserde.primDeser d) rd fun _ _ => True := by
  refine .bind (.apeek hg) fun r rd1 hg1 _ _ => ?_
  split
  · refine .bind (.tnext hg1) fun _ rd2 hg2 _ _ => .bind (.apeek hg2) fun r rd3 hg3 _ _ => ?_
    split <;> exact .ofExcept hg3 fun _ _ => trivial
  · exact .throw hg1

end

theorem TM.deser (L : Lib) (env : Env) (rank : Path → Nat) (R : Nat) (he : Ranked env rank R) (n : Nat) :
    ∀ (V : Nat) (p : Path), (V + 1) * (R + 3) + rank p ≤ n → ∀ rd, Broken rd → rd.len ≤ V →
      TM (deser L env n p) rd fun _ _ => True := by
  induction n with
  | zero =>
    intro V p h
    rw [Nat.add_mul] at h
    omega
  | succ n ih =>
    intro V p hn rd hg hV
    have h1 : (V + 1) * (R + 3) = V * (R + 3) + (R + 3) := by rw [Nat.add_mul, Nat.one_mul]
    have h2 : V * 3 ≤ V * (R + 3) := Nat.mul_le_mul_left V (by omega)
    unfold Yaserde.deser
    split
    · rename_i d hd
      refine .structDeser V n ?_ d (he.attrs p d hd) ?_ (by omega) hg hV
      · intro q rd' hg' hl'
        obtain ⟨V', rfl⟩ : ∃ V', V = V' + 1 := ⟨V - 1, by omega⟩
        have := he.bounded q
        exact ih V' q (by omega) rd' hg' (by omega)
      · have := he.noFlat p d hd
        simp only [StructDef.hasFlat, List.any_eq_false]
        intro f hf h
        simp only [Bool.and_eq_true, Bool.not_eq_true'] at h
        exact this ⟨f, hf, h⟩
    · rename_i d hd
      refine .enumDeser V n d ?_ (by omega) hg hV
      intro v hv t q ht hq rd' hg' hl'
      have := he.payload p d hd v hv t q ht hq
      exact ih V q (by omega) rd' hg' hl'
    · exact .primDeser _ hg
    · exact .panic

/-- A struct's loop that has reached the end of the document never leaves it. -/
theorem structLoop_stuck (L : Lib) (rec : Path → D Val) (fuel : Nat) (d : StructDef) (hd : d.attrs.flatten = false)
    (named : Str) (sd n D : Nat) (st : LoopSt) (rd : Rd)
    (h : At D [] none rd ∨ At D [.endDocument] none rd) :
    (structLoop L rec fuel d named sd n st rd).1 = .diverge := by
  induction n generalizing rd with
  | zero => rfl
  | succ n ih =>
    have hp : ∃ rd', peek rd = (.ok .endDocument, rd') ∧ At D [.endDocument] none rd' := by
      rcases h with h | h
      · rcases peek_at_nil h with ⟨-, h'⟩ | ⟨m, rd', h0, -⟩
        · exact h'
        · cases h0
      · exact peek_at h
    obtain ⟨rd', h1, h2⟩ := hp
    have h3 : structStep L rec fuel d named sd st rd = (.ok (st, true), rd') := by
      unfold structStep
      rw [bind_ok h1]
      simp [hd]
    unfold structLoop
    rw [bind_ok h3]
    exact ih rd' (.inr h2)

end Yaserde
