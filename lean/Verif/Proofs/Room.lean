import Verif.Spec.Room
import Verif.Proofs.Term
import Verif.Proofs.DecodeEnum
/-
Structs of scalars: once the loop is inside the document element, it stays there and stops at its end tag.
-/

set_option autoImplicit false

namespace Yaserde

/-- The reader is inside an element opened at depth `sd`, the rest of which is `es` and the end tag `nm`. -/
structure Within' (nm : Name) (post : List REv) (sd : Nat) (es : List REv) (rd : Rd) : Prop where
  vis : rd.visible = es ++ .endE nm :: post
  here : (rd.depth : Int) + bal es = sd + 1
  above : ∀ j, (rd.depth : Int) + bal (es.take j) ≥ sd + 1
  noEnd : REv.endDocument ∉ es

/-- The reader is inside the element. -/
def Room (nm : Name) (post : List REv) (sd : Nat) (rd : Rd) : Prop := ∃ es, Within' nm post sd es rd

section
variable {nm : Name} {post : List REv} {sd : Nat}

theorem Within'.cons {es : List REv} {rd : Rd} (h : Within' nm post sd es rd)
    (hne : ∀ e r, rd.visible = e :: r → e = .endE nm → rd.depth ≠ sd + 1) : ∃ e es', es = e :: es' := by
  cases es with
  | cons e es' => exact ⟨e, es', rfl⟩
  | nil =>
    have h1 := h.vis
    have h2 := h.here
    simp only [List.nil_append] at h1
    simp only [bal_nil] at h2
    exact (hne _ _ h1 rfl (by omega)).elim

theorem Room.depth {rd : Rd} (h : Room nm post sd rd) : sd + 1 ≤ rd.depth := by
  obtain ⟨es, h⟩ := h
  have := h.above 0
  simp at this
  omega

/-- The next event, if it is not the element's end tag. -/
theorem Room.next {rd : Rd} (h : Room nm post sd rd)
    (hne : ∀ e r, rd.visible = e :: r → e = .endE nm → rd.depth ≠ sd + 1) :
    ∃ e rd', nextEvent rd = (.ok e, rd') ∧ Room nm post sd rd' ∧ rd'.len < rd.len ∧
      (rd'.depth : Int) = rd.depth + weight (.ok e) ∧ ∃ r, rd.visible = e :: r := by
  obtain ⟨es, h⟩ := h
  obtain ⟨e, es', rfl⟩ := h.cons hne
  have hat : At rd.depth (e :: (es' ++ .endE nm :: post)) rd.reader.fin rd := ⟨rfl, h.vis, rfl⟩
  have hd := h.above 1
  simp only [List.take_succ_cons, List.take_zero, bal_cons, bal_nil, Int.add_zero] at hd
  have key : ∀ (rd' : Rd), rd'.visible = es' ++ .endE nm :: post → (rd'.depth : Int) = rd.depth + weight (.ok e) →
      Room nm post sd rd' ∧ rd'.len < rd.len := by
    intro rd' hv hdep
    refine ⟨⟨es', hv, ?_, fun j => ?_, fun hc => h.noEnd (List.mem_cons_of_mem _ hc)⟩, ?_⟩
    · have := h.here
      rw [bal_cons] at this
      omega
    · have := h.above (j + 1)
      rw [List.take_succ_cons, bal_cons] at this
      omega
    · simp [Rd.len, hv, h.vis]
  obtain ⟨hs1, -⟩ := next_stream rd
  have h0 : rd.stream 0 = .ok e := by rw [hat.stream]; rfl
  have h1 := hs1 (by rw [h0]; omega)
  cases hx : nextEvent rd with
  | mk r rd' =>
    rw [hx, h0] at h1
    obtain ⟨h1, h2⟩ := h1
    simp only at h1 h2
    subst h1
    have hdep : (rd'.depth : Int) = rd.depth + weight (.ok e) := by
      have := h2.2
      simpa [weightSum, h0] using this
    have hv : rd'.visible = es' ++ .endE nm :: post := by
      obtain ⟨rd2, h3, h4⟩ := nextEvent_at hat
      rw [hx] at h3
      unfold trackDepth at h3
      split at h3
      · cases h3; exact h4.vis
      · split at h3
        · cases h3
        · cases h3; exact h4.vis
      · cases h3; exact h4.vis
    obtain ⟨k1, k2⟩ := key rd' hv hdep
    exact ⟨e, rd', rfl, k1, k2, hdep, _, h.vis⟩

theorem Room.next_deep {rd : Rd} (h : Room nm post sd rd) (hd : sd + 2 ≤ rd.depth) :
    ∃ e rd', nextEvent rd = (.ok e, rd') ∧ Room nm post sd rd' ∧ rd'.len < rd.len ∧
      (rd'.depth : Int) = rd.depth + weight (.ok e) ∧ ∃ r, rd.visible = e :: r :=
  h.next fun _ _ _ _ => by omega

theorem Room.peek {rd : Rd} (h : Room nm post sd rd) :
    ∃ e rd' r, Yaserde.peek rd = (.ok e, rd') ∧ Room nm post sd rd' ∧ rd'.visible = rd.visible ∧ rd'.depth = rd.depth ∧
      rd.visible = e :: r ∧ e ≠ .endDocument := by
  obtain ⟨es, h⟩ := h
  obtain ⟨e, r, hv, hne⟩ : ∃ e r, rd.visible = e :: r ∧ e ≠ .endDocument := by
    cases es with
    | nil => exact ⟨_, _, h.vis, by simp⟩
    | cons e es => exact ⟨_, _, h.vis, fun hc => h.noEnd (by rw [hc]; exact List.mem_cons_self ..)⟩
  have hat : At rd.depth (e :: r) rd.reader.fin rd := ⟨rfl, hv, rfl⟩
  obtain ⟨rd', h1, h2⟩ := peek_at hat
  have hv' : rd'.visible = rd.visible := by rw [h2.vis, hv]
  refine ⟨e, rd', r, h1, ⟨es, by rw [hv']; exact h.vis, by rw [h2.depth]; exact h.here, by rw [h2.depth]; exact h.above,
    h.noEnd⟩, hv', h2.depth, hv, hne⟩

/-- The computation comes to an end with the reader inside the element; `Q` holds of an `Ok` result. -/
def TI {α : Type} (nm : Name) (post : List REv) (sd : Nat) (x : D α) (rd : Rd) (Q : α → Rd → Prop) : Prop :=
  match x rd with
  | (.ok a, rd') => (Room nm post sd rd' ∧ rd'.len ≤ rd.len) ∧ Q a rd'
  | (.err _, rd') => Room nm post sd rd' ∧ rd'.len ≤ rd.len
  | (.panic _, _) => True
  | (.diverge, _) => False

variable {α β : Type}

theorem TI.mono {x : D α} {rd : Rd} {Q R : α → Rd → Prop} (h : TI nm post sd x rd Q)
    (hq : ∀ a rd', rd'.len ≤ rd.len → Q a rd' → R a rd') : TI nm post sd x rd R := by
  unfold TI at *
  split <;> rename_i heq <;> rw [heq] at h
  · exact ⟨h.1, hq _ _ h.1.2 h.2⟩
  · exact h
  · trivial
  · exact h

theorem TI.bind {x : D α} {f : α → D β} {rd : Rd} {Q : α → Rd → Prop} {R : β → Rd → Prop}
    (hx : TI nm post sd x rd Q)
    (hf : ∀ a rd', Room nm post sd rd' → rd'.len ≤ rd.len → Q a rd' → TI nm post sd (f a) rd' R) :
    TI nm post sd (x >>= f) rd R := by
  unfold TI at hx
  cases h : x rd with
  | mk r rd' =>
    rw [h] at hx
    cases r with
    | ok a =>
      have := hf a rd' hx.1.1 hx.1.2 hx.2
      have hle := hx.1.2
      unfold TI at this ⊢
      rw [bind_ok h]
      split <;> rename_i heq <;> rw [heq] at this
      · exact ⟨⟨this.1.1, Nat.le_trans this.1.2 hle⟩, this.2⟩
      · exact ⟨this.1, Nat.le_trans this.2 hle⟩
      · trivial
      · exact this
    | err m => unfold TI; rw [bind_err h]; exact hx
    | panic m => unfold TI; rw [bind_panic h]; trivial
    | diverge => exact hx.elim

/-- The result is known to be `Ok`. -/
theorem TI.bind_ok {x : D α} {f : α → D β} {rd rd' : Rd} {a : α} {R : β → Rd → Prop}
    (hx : x rd = (.ok a, rd')) (hl : rd'.len ≤ rd.len) (hf : TI nm post sd (f a) rd' R) :
    TI nm post sd (x >>= f) rd R := by
  unfold TI at hf ⊢
  rw [Yaserde.bind_ok hx]
  split <;> rename_i heq <;> rw [heq] at hf
  · exact ⟨⟨hf.1.1, Nat.le_trans hf.1.2 hl⟩, hf.2⟩
  · exact ⟨hf.1, Nat.le_trans hf.2 hl⟩
  · trivial
  · exact hf

theorem TI.attempt {x : D α} {rd : Rd} {Q : α → Rd → Prop} (hx : TI nm post sd x rd Q) :
    TI nm post sd (M.attempt x) rd fun r rd' => ∀ a, r = .ok a → Q a rd' := by
  unfold TI M.attempt at *
  cases h : x rd with
  | mk r rd' =>
    rw [h] at hx
    cases r with
    | ok a => exact ⟨hx.1, fun b hb => by cases hb; exact hx.2⟩
    | err m => exact ⟨hx, fun b hb => by cases hb⟩
    | panic m => trivial
    | diverge => exact hx.elim

theorem TI.pure {a : α} {rd : Rd} {Q : α → Rd → Prop} (hg : Room nm post sd rd) (hq : Q a rd) :
    TI nm post sd (M.pure a) rd Q := ⟨⟨hg, Nat.le_refl _⟩, hq⟩

theorem TI.throw {m : Str} {rd : Rd} {Q : α → Rd → Prop} (hg : Room nm post sd rd) :
    TI nm post sd (M.throw m) rd Q := ⟨hg, Nat.le_refl _⟩

theorem TI.ofExcept {r : Except Str α} {rd : Rd} {Q : α → Rd → Prop} (hg : Room nm post sd rd)
    (hq : ∀ a, r = .ok a → Q a rd) : TI nm post sd (M.ofExcept r) rd Q := by
  cases r with
  | ok a => exact ⟨⟨hg, Nat.le_refl _⟩, hq a rfl⟩
  | error m => exact ⟨hg, Nat.le_refl _⟩

theorem TI.lift {r : Res α} {rd : Rd} {Q : α → Rd → Prop} (hg : Room nm post sd rd) (hr : r ≠ .diverge)
    (hq : ∀ a, r = .ok a → Q a rd) : TI nm post sd (M.lift r) rd Q := by
  cases r with
  | ok a => exact ⟨⟨hg, Nat.le_refl _⟩, hq a rfl⟩
  | err m => exact ⟨hg, Nat.le_refl _⟩
  | panic m => trivial
  | diverge => exact hr rfl

theorem TI.get {f : Rd → D β} {rd : Rd} {R : β → Rd → Prop} (h : TI nm post sd (f rd) rd R) :
    TI nm post sd (M.get >>= f) rd R := by
  unfold TI at *
  rw [bind_get]
  exact h

theorem TI.skipLoop (depth n : Nat) (hd : sd + 2 ≤ depth) : ∀ (acc : List REv) (rd : Rd), Room nm post sd rd → rd.len < n →
    TI nm post sd (skipLoop n depth acc) rd fun _ _ => True := by
  induction n with
  | zero => intro acc rd _ h; omega
  | succ n ih =>
    intro acc rd hg hn
    unfold TI Yaserde.skipLoop
    by_cases h : rd.depth ≥ depth
    · rw [if_pos h]
      obtain ⟨e, rd', h1, h2, h3, -⟩ := hg.next_deep (by omega)
      exact TI.bind_ok h1 (Nat.le_of_lt h3) (ih _ _ h2 (by omega))
    · rw [if_neg h]
      exact ⟨⟨hg, Nat.le_refl _⟩, trivial⟩

variable {L : Lib} {rec : Path → D Val}

/-- A scalar's text, and the event after it; the reader is inside the element, or deeper. -/
theorem TI.inner (f : FieldDef) (t : STy) (name : Name) {rd : Rd} (hg : Room nm post sd rd)
    (hdeep : sd + 2 ≤ rd.depth ∨ ∀ s, rd.visible ≠ .chars s :: .endE nm :: post) :
    TI nm post sd (simpleInner L f t >>= fun result => expectEndElement name >>= fun _ => M.pure result) rd
      fun _ _ => True := by
  obtain ⟨e, rd1, r, h1, hg1, hv1, hd1, hv, -⟩ := hg.peek
  have hl1 : rd1.len = rd.len := by simp [Rd.len, hv1]
  refine .bind (Q := fun _ rd' => sd + 2 ≤ rd'.depth ∨ rd'.visible ≠ .endE nm :: post) ?_ fun v rd2 hg2 _ hq => ?_
  · unfold simpleInner
    refine TI.bind_ok (attempt_ok h1) (by omega) ?_
    cases e with
    | chars s =>
      dsimp only
      obtain ⟨e2, rd2, h2, hg2, hl2, hd2, r2, hv2⟩ := hg1.next (by
        intro e r' he hc
        rw [hv1, hv] at he
        rw [hc] at he
        cases he)
      refine TI.bind_ok h2 (by omega) ?_
      rw [hv1, hv] at hv2
      cases hv2
      have hdd : rd2.depth = rd.depth := by simp [weight] at hd2; omega
      have hq : sd + 2 ≤ rd2.depth ∨ rd2.visible ≠ .endE nm :: post := by
        rcases hdeep with hdeep | hdeep
        · exact .inl (by omega)
        · right
          intro hc
          obtain ⟨rd3, h4, h5⟩ := nextEvent_at (rd := rd1) (D := rd1.depth) (e := .chars s) (es := r) (fin := rd1.reader.fin)
            ⟨rfl, by rw [hv1, hv], rfl⟩
          rw [h4] at h2
          simp only [trackDepth] at h2
          cases h2
          exact hdeep s (by rw [hv, ← h5.vis, hc])
      split
      · exact .pure hg2 hq
      · exact .throw hg2
    | _ => exact .throw hg1
  · unfold expectEndElement
    obtain ⟨e3, rd3, h3, hg3, hl3, -⟩ := hg2.next (by
      intro e r he hc hdp
      rcases hq with hq | hq
      · omega
      · apply hq
        obtain ⟨es, hw⟩ := hg2
        cases es with
        | nil => exact hw.vis
        | cons e' es' =>
          -- an end tag at this depth would leave the element
          have h1 := hw.vis
          rw [he, hc] at h1
          simp only [List.cons_append, List.cons.injEq] at h1
          have h2 := hw.above 1
          rw [← h1.1] at h2
          simp [bal_cons, weight] at h2
          omega)
    refine .bind (Q := fun _ _ => True) ?_ fun _ rd4 hg4 _ _ => .pure hg4 trivial
    refine TI.bind_ok h3 (by omega) ?_
    split
    · split
      · exact .pure hg3 trivial
      · exact .throw hg3
    · exact .throw hg3

theorem TI.callSimple (root : Attrs) (f : FieldDef) (i : Nat) (t : STy) (name : Name) (st : LoopSt)
    {rd : Rd} (hg : Room nm post sd rd) (h0 : ∃ n as m es, rd.visible = .start n as m :: es) :
    TI nm post sd (Yaserde.callSimple L root f i t name st) rd fun _ rd' => rd'.len < rd.len := by
  refine .bind (.ofExcept (Q := fun _ rd' => rd' = rd) hg fun _ _ => rfl) fun _ rd1 hg1 _ h1 => ?_
  subst h1
  obtain ⟨n, as, m, es, hv⟩ := h0
  obtain ⟨e, rd2, h2, hg2, hl2, hd2, r2, hv2⟩ := hg1.next (by
    intro e r' he hc
    rw [hv, hc] at he
    cases he)
  rw [hv] at hv2
  cases hv2
  have hdep := hg1.depth
  have hx : TI nm post sd (M.attempt (readInnerValue (simpleInner L f t))) rd1 fun _ rd' => rd'.len < rd1.len := by
    have hi := TI.inner (L := L) f t n hg2 (.inl (by simp [weight] at hd2; omega))
    unfold TI at hi ⊢
    unfold M.attempt readInnerValue
    rw [Yaserde.bind_ok (attempt_ok h2)]
    dsimp only
    split at hi <;> rename_i heq <;> rw [heq]
    · exact ⟨⟨hi.1.1, by have := hi.1.2; omega⟩, by have := hi.1.2; show _ < _; omega⟩
    · exact ⟨⟨hi.1, by have := hi.2; omega⟩, by have := hi.2; show _ < _; omega⟩
    · trivial
    · exact hi
  refine .bind hx fun r rd3 hg3 _ h3 => ?_
  split
  · exact .pure hg3 h3
  · exact .pure hg3 h3

variable {d : StructDef} (hd : d.ScalarsOnly)
include hd

theorem TI.structStart (fuel : Nat) (st : LoopSt) (name : Name) (attrs : List Attr) {rd : Rd} (hg : Room nm post sd rd)
    (hfuel : rd.len < fuel) (h0 : ∃ n as m es, rd.visible = .start n as m :: es) :
    TI nm post sd (Yaserde.structStart L rec fuel d st name attrs) rd fun _ rd' => rd'.len < rd.len := by
  have hnext : ∃ e rd', nextEvent rd = (.ok e, rd') ∧ Room nm post sd rd' ∧ rd'.len < rd.len ∧ sd + 2 ≤ rd'.depth := by
    obtain ⟨n, as, m, es, hv⟩ := h0
    obtain ⟨e, rd2, h2, hg2, hl2, hd2, r2, hv2⟩ := hg.next (by
      intro e r' he hc
      rw [hv, hc] at he
      cases he)
    rw [hv] at hv2
    cases hv2
    have := hg.depth
    exact ⟨_, rd2, h2, hg2, hl2, by simp [weight] at hd2; omega⟩
  obtain ⟨e1, rd1, h1, hg1, hl1, hd1⟩ := hnext
  refine .bind (Q := fun _ rd' => rd'.len < rd.len) ?_ fun st' rd' hg' _ hl =>
    .bind (Q := fun _ rd' => rd'.len < rd.len) ?_ fun st'' rd'' hg'' _ hl' => .pure hg'' hl'
  · split
    · refine TI.bind_ok h1 (by omega) ?_
      exact .bind (.lift (Q := fun _ rd' => rd'.len < rd.len) hg1 (writeUnused_nd _ _ _)
        fun _ _ => hl1) fun w rd2 hg2 _ hl => .pure hg2 hl
    · split
      · rename_i i hi
        split
        · rename_i f hf
          obtain ⟨t, ht⟩ := hd.scalar f (List.mem_of_getElem? hf)
          unfold Yaserde.callVisitor
          rw [ht]
          exact .callSimple _ _ _ _ _ _ hg h0
        · rename_i hn
          have := findArm_lt hi
          rw [List.getElem?_eq_none_iff] at hn
          omega
      · refine TI.bind_ok h1 (by omega) ?_
        refine .bind (.lift (Q := fun _ rd' => rd' = rd1) hg1 (writeUnused_nd _ _ _)
          fun _ _ => rfl) fun w rd2 hg2 _ hl => ?_
        subst hl
        split
        · refine .bind (x := Yaserde.skipElement fuel) (Q := fun _ _ => True) ?_ fun evs rd3 hg3 hl3 _ => ?_
          · unfold TI Yaserde.skipElement
            exact TI.skipLoop rd2.depth fuel hd1 [] rd2 hg2 (by omega)
          · exact .bind (.lift (Q := fun _ rd' => rd'.len < rd.len) hg3 (writeUnusedAll_nd _ _ _)
              fun _ _ => by omega) fun w rd4 hg4 _ hl => .pure hg4 hl
        · exact .pure hg2 hl1
  · split
    · exact .bind (.lift (Q := fun _ rd' => rd'.len < rd.len) hg'
        (loadAttrs_nd _ (fun f hf _ => hd.scalar f hf) _ _) fun _ _ => hl) fun ss rd2 hg2 _ hl => .pure hg2 hl
    · exact .pure hg' hl

theorem TI.structStep (fuel : Nat) (st : LoopSt) {rd : Rd} (hg : Room nm post sd rd) (hfuel : rd.len < fuel) :
    TI nm post sd (Yaserde.structStep L rec fuel d nm.loc sd st) rd fun r rd' => r.2 = true → rd'.len < rd.len := by
  obtain ⟨e, rd1, r, h1, hg1, hv1, hd1, hv, hne⟩ := hg.peek
  have hl : rd1.len = rd.len := by simp [Rd.len, hv1]
  refine TI.bind_ok h1 (by omega) ?_
  cases e with
  | start name attrs m =>
    refine .bind (.structStart hd fuel st name attrs hg1 (by omega) ⟨_, _, _, _, hv1.trans hv⟩)
      fun st' rd2 hg2 _ hl2 => .pure hg2 fun _ => by omega
  | endE name =>
    refine .get ?_
    split
    · exact .bind (.lift (Q := fun _ _ => True) hg1 (writeUnused_nd _ _ _) fun _ _ => trivial)
        fun w rd2 hg2 _ _ => .pure hg2 fun h => by cases h
    · rename_i hc
      obtain ⟨e', rd2, h2, hg2, hl2, -⟩ := hg1.next (by
        intro e r' he hc' hdp
        rw [hv1, hv, hc'] at he
        cases he
        exact hc ⟨rfl, hdp⟩)
      refine TI.bind_ok h2 (by omega) ?_
      exact .bind (.lift (Q := fun _ rd' => rd'.len < rd.len) hg2 (writeUnused_nd _ _ _) fun _ _ => by omega)
        fun w rd3 hg3 _ h3 => .pure hg3 fun _ => h3
  | endDocument => exact (hne rfl).elim
  | chars t =>
    obtain ⟨e', rd2, h2, hg2, hl2, -⟩ := hg1.next (by
      intro e r' he hc'
      rw [hv1, hv, hc'] at he
      cases he)
    refine TI.bind_ok h2 (by omega) ?_
    exact .bind (.lift (Q := fun _ rd' => rd'.len < rd.len) hg2 (writeUnused_nd _ _ _) fun _ _ => by omega)
      fun w rd3 hg3 _ h3 => .pure hg3 fun _ => h3
  | _ => exact .throw hg1

theorem TI.structLoop (fuel n : Nat) : ∀ (st : LoopSt) (rd : Rd), Room nm post sd rd → rd.len < n → rd.len < fuel →
    TI nm post sd (Yaserde.structLoop L rec fuel d nm.loc sd n st) rd fun _ _ => True := by
  induction n with
  | zero => intro st rd _ h; omega
  | succ n ih =>
    intro st rd hg hn hf
    refine .bind (.structStep hd fuel st hg hf) fun r rd1 hg1 hl hq => ?_
    dsimp only
    split
    · rename_i hr
      have := hq hr
      exact ih _ _ hg1 (by omega) (by omega)
    · exact .pure hg1 trivial

end

/-- Events of a list of nodes that are one text. -/
theorem eventsL_one {ks : List Node} {s : Str} (h : Node.eventsL ks = [.chars s]) : ks = [.text s] := by
  match ks with
  | [] => cases h
  | .elem n as m k :: ks => simp [Node.eventsL, Node.events] at h
  | .text s' :: ks =>
    simp only [Node.eventsL, Node.events, List.cons_append, List.nil_append, List.cons.injEq, REv.chars.injEq] at h
    obtain ⟨h1, h2⟩ := h
    subst h1
    match ks with
    | [] => rfl
    | .elem n as m k :: ks => simp [Node.eventsL, Node.events] at h2
    | .text s' :: ks => simp [Node.eventsL, Node.events] at h2

theorem nsMatching_iff {nss : NsMap} {pfx ns : Option Str} {m : Str} :
    nsMatching nss pfx ns m = .ok () ↔ ∀ u, ns = some u → ∃ e ∈ nss, pfx = some e.1 ∧ e.2 = u := by
  unfold nsMatching
  cases ns with
  | none => simp
  | some u =>
    dsimp only
    constructor
    · intro h u' hu
      cases hu
      split at h
      · rename_i hc
        rw [List.any_eq_true] at hc
        obtain ⟨e, he, hc⟩ := hc
        simp only [Bool.and_eq_true, beq_iff_eq] at hc
        exact ⟨e, he, hc.1, hc.2⟩
      · cases h
    · intro h
      obtain ⟨e, he, h1, h2⟩ := h u rfl
      rw [if_pos]
      rw [List.any_eq_true]
      exact ⟨e, he, by simp [h1, h2]⟩

section
variable {L : Lib} {rec : Path → D Val} {d : StructDef} (hd : d.ScalarsOnly)
  {n : Name} {as : List Attr} {m : NsMap} {ks : List Node} {post : List REv} {fin : Option Str} {rd : Rd}

/-- The document element is taken for a field, whatever its attributes. -/
def TakenTag (L : Lib) (d : StructDef) (n : Name) (ks : List Node) (i : Nat) (v : Val) : Prop :=
  nsOk d.attrs n ∧ ¬ d.OwnName n ∧ ∃ f t, d.fieldFor n = some i ∧ d.fields[i]? = some f ∧ f.ty.core = .simple t ∧
      (∀ u, n.ns = some u → ∃ e ∈ d.attrs.namespaces, f.attrs.pfx = some e.1 ∧ e.2 = u) ∧
      scalarContent L t ks = some v

theorem takenForField_iff : TakenForField L d (.elem n as m ks) ↔
    (∃ i v, TakenTag L d n ks i v) ∧ ∃ cs, attrContribs L (fun _ _ => .err []) d as = .ok cs := by
  constructor
  · rintro ⟨h1, h2, ⟨i, f, t, h3, h4, h5, h6, h7⟩, h8⟩
    obtain ⟨v, hv⟩ := Option.isSome_iff_exists.mp h7
    exact ⟨⟨i, v, h1, h2, f, t, h3, h4, h5, h6, hv⟩, h8⟩
  · rintro ⟨⟨i, v, h1, h2, f, t, h3, h4, h5, h6, h7⟩, h8⟩
    exact ⟨h1, h2, ⟨i, f, t, h3, h4, h5, h6, by rw [h7]; rfl⟩, h8⟩

include hd

theorem loadAttrs_scalars (cs : List Contrib) :
    loadAttrs L rec d.fields as (slotsFrom cs d.fields 0) =
      (Res.collect (d.fields.zipIdx.map fun p => attrContrib L (fun _ _ => .err []) p.2 p.1 as)).bind fun css =>
        .ok (slotsFrom (cs ++ css.flatten) d.fields 0) := by
  refine loadAttrs_slotsFrom L rec (fun _ _ => .err []) as cs d.fields (fun f hf => .inl (hd.scalar f hf)) ?_ 0
  intro f hf _ q hq
  obtain ⟨t, ht⟩ := hd.scalar f hf
  rw [ht] at hq
  cases hq

theorem ScalarsOnly.hasFlat : d.hasFlat = false := by
  unfold StructDef.hasFlat
  rw [List.any_eq_false]
  intro f hf h
  simp only [Bool.and_eq_true, Bool.not_eq_true'] at h
  rw [hd.noFlat f hf h.1] at h
  cases h.2

/-- What happens to a document element that is taken for a field: it is consumed as a whole. -/
theorem structStart_taken {i : Nat} {v : Val} (ht : TakenTag L d n ks i v) (fuel : Nat)
    (hat : At 0 (.start n as m :: (Node.eventsL ks ++ .endE n :: post)) fin rd) :
    ∃ rd', At 0 post fin rd' ∧
      structStart L rec fuel d ⟨0, d.fields.map (fun f => Slot.init f.ty), some {}⟩ n as rd =
        ((attrContribs L (fun _ _ => .err []) d as).bind fun cs =>
          .ok ⟨1, slotsFrom ([(i, v)] ++ cs) d.fields 0, some {}⟩, rd') := by
  obtain ⟨h1, h2, f, t, h3, h4, h5, h6, h7⟩ := ht
  obtain ⟨s, rfl⟩ : ∃ s, ks = [.text s] := by
    match ks, h7 with
    | [.text s], _ => exact ⟨s, rfl⟩
  obtain ⟨rd3, hc⟩ := callSimple_text (L := L) (d := d) (st := ⟨0, d.fields.map (fun f => Slot.init f.ty), some {}⟩)
    (f := f) (i := i) (t := t) (ks := [.text s]) trivial (nsMatching_iff.mpr h6) hat
  rw [h7] at hc
  obtain ⟨hc, a3⟩ := hc
  refine ⟨rd3, a3, ?_⟩
  have hlt : i < d.fields.length := (List.getElem?_eq_some_iff.mp h4).1
  have hslot : (LoopSt.setSlot ⟨0, d.fields.map (fun f => Slot.init f.ty), some {}⟩ i (Slot.put v))
      = ⟨0, slotsFrom [(i, v)] d.fields 0, some {}⟩ := by
    unfold LoopSt.setSlot
    rw [slotsFrom_init d.fields 0]
    have := modify_slotsFrom [] v d.fields 0 i
    simpa using this
  unfold structStart
  dsimp only
  rw [if_neg (by rintro ⟨-, h⟩; exact h2 h), findArm_eq, h3]
  dsimp only
  rw [h4]
  dsimp only
  unfold callVisitor
  rw [h5]
  dsimp only
  rw [bind_ok hc, hslot]
  dsimp only
  rw [if_pos rfl, loadAttrs_scalars hd]
  unfold attrContribs
  cases Res.collect (d.fields.zipIdx.map fun p => attrContrib L (fun _ _ => .err []) p.2 p.1 as) <;> rfl

theorem structDeser_taken {i : Nat} {v : Val} (ht : TakenTag L d n ks i v) (fuel : Nat)
    (hat : At 0 ((Node.elem n as m ks).events ++ post) fin rd) :
    (∀ cs, attrContribs L (fun _ _ => .err []) d as = .ok cs → post = [] → fin = none →
      (structDeser L rec (fuel + 1) d rd).1 = .diverge) ∧
    (∀ e, attrContribs L (fun _ _ => .err []) d as = .err e → (structDeser L rec (fuel + 1) d rd).1 = .err e) ∧
    (∀ e, attrContribs L (fun _ _ => .err []) d as = .panic e → (structDeser L rec (fuel + 1) d rd).1 = .panic e) := by
  have hat' : At 0 (.start n as m :: (Node.eventsL ks ++ .endE n :: post)) fin rd := by
    simpa [Node.events] using hat
  obtain ⟨rd1, p1, a1⟩ := peek_at hat'
  obtain ⟨rd2, p2, a2⟩ := peek_at a1
  obtain ⟨rd3, a3, h3⟩ := structStart_taken (rec := rec) hd ht (fuel + 1) a2
  have hns : (M.ofExcept (nsMatching d.attrs.namespaces d.attrs.pfx n.ns n.loc) : D Unit) rd1 = (.ok (), rd1) := by
    rw [nsMatching_ok ht.1]; rfl
  have key : ∀ (r : Res Val) (rd' : Rd), ((structLoop L rec (fuel + 1) d n.loc 0 (fuel + 1)
      ⟨0, d.fields.map (fun f => Slot.init f.ty), some {}⟩ >>= fun st =>
      (match d.hasFlat, st.writer with
        | true, some w => M.lift (flattenFields L rec (L.emit unusedCfg w.out) d.fields st.slots)
        | _, _ => M.pure st.slots) >>= fun slots =>
      M.lift (buildFields d.name d.fields slots) >>= fun vs => M.pure (.struct vs) : D Val) rd1) = (r, rd') →
      (structDeser L rec (fuel + 1) d rd).1 = r := by
    intro r rd' h
    unfold structDeser
    rw [bind_ok p1, bind_get]
    unfold structBody
    rw [a1.depth, if_pos rfl]
    show ((M.ofExcept (nsMatching d.attrs.namespaces d.attrs.pfx n.ns n.loc) >>= _) rd1).1 = _
    rw [bind_ok hns]
    exact congrArg Prod.fst h
  refine ⟨fun cs hcs hp hf => ?_, fun e he => ?_, fun e he => ?_⟩
  · subst hp hf
    rw [hcs] at h3
    have hs : structStep L rec (fuel + 1) d n.loc 0 ⟨0, d.fields.map (fun f => Slot.init f.ty), some {}⟩ rd1
        = (.ok (⟨1, slotsFrom ([(i, v)] ++ cs) d.fields 0, some {}⟩, true), rd3) := by
      unfold structStep
      rw [bind_ok p2]
      dsimp only
      rw [bind_ok h3]
      rfl
    have hl := structLoop_stuck L rec (fuel + 1) d hd.notFlattened n.loc 0 fuel 0
      ⟨1, slotsFrom ([(i, v)] ++ cs) d.fields 0, some {}⟩ rd3 (.inl a3)
    cases hx : structLoop L rec (fuel + 1) d n.loc 0 fuel ⟨1, slotsFrom ([(i, v)] ++ cs) d.fields 0, some {}⟩ rd3 with
    | mk r rd4 =>
      rw [hx] at hl
      simp only at hl
      subst hl
      refine key _ rd4 (bind_diverge ?_)
      unfold structLoop
      rw [bind_ok hs]
      exact hx
  · rw [he] at h3
    refine key _ rd3 (bind_err ?_)
    unfold structLoop
    refine bind_err ?_
    unfold structStep
    rw [bind_ok p2]
    dsimp only
    rw [bind_err h3]
  · rw [he] at h3
    refine key _ rd3 (bind_panic ?_)
    unfold structLoop
    refine bind_panic ?_
    unfold structStep
    rw [bind_ok p2]
    dsimp only
    rw [bind_panic h3]

/-- The outcome of a run that stays inside the document element. -/
def Stays (nm : Name) (post : List REv) {α : Type} (r : Res α × Rd) : Prop :=
  match r with
  | (.ok _, rd') => ∃ es, rd'.visible = es ++ .endE nm :: post
  | (.err _, rd') => ∃ es, rd'.visible = es ++ .endE nm :: post
  | (.panic _, _) => True
  | (.diverge, _) => False

omit hd in
theorem TI.stays {α : Type} {sd : Nat} {x : D α} {Q : α → Rd → Prop} (h : TI n post sd x rd Q) : Stays n post (x rd) := by
  unfold TI at h
  unfold Stays
  split <;> rename_i heq <;> rw [heq] at h
  · obtain ⟨es, hw⟩ := h.1.1; exact ⟨es, hw.vis⟩
  · obtain ⟨es, hw⟩ := h.1; exact ⟨es, hw.vis⟩
  · trivial
  · exact h

/-- Any other document element is read to its end tag. -/
theorem structDeser_stays (ht : ∀ i v, ¬ TakenTag L d n ks i v) (fuel : Nat)
    (hat : At 0 ((Node.elem n as m ks).events ++ post) fin rd) (hfuel : rd.len < fuel) :
    Stays n post (structDeser L rec fuel d rd) := by
  have hat' : At 0 (.start n as m :: (Node.eventsL ks ++ .endE n :: post)) fin rd := by
    simpa [Node.events] using hat
  obtain ⟨rd1, p1, a1⟩ := peek_at hat'
  have hl1 : rd1.len = rd.len := by simp [Rd.len, a1.vis, hat'.vis]
  have hvis : ∀ rd' : Rd, At 0 (.start n as m :: (Node.eventsL ks ++ .endE n :: post)) fin rd' →
      ∃ es, rd'.visible = es ++ .endE n :: post := fun rd' h => ⟨.start n as m :: Node.eventsL ks, by rw [h.vis]; rfl⟩
  unfold structDeser
  rw [bind_ok p1, bind_get]
  unfold structBody
  rw [a1.depth, if_pos rfl]
  show Stays n post ((M.ofExcept (nsMatching d.attrs.namespaces d.attrs.pfx n.ns n.loc) >>= _) rd1)
  cases hns : nsMatching d.attrs.namespaces d.attrs.pfx n.ns n.loc with
  | error e =>
    rw [bind_err (by rfl)]
    exact hvis _ a1
  | ok u =>
  rw [bind_ok (by rfl)]
  obtain ⟨k, rfl⟩ : ∃ k, fuel = k + 1 := ⟨fuel - 1, by omega⟩
  -- inside the document element
  have hin : ∀ rd' : Rd, At 1 (Node.eventsL ks ++ .endE n :: post) fin rd' → Room n post 0 rd' := by
    intro rd' h
    obtain ⟨b1, b2⟩ := bal_eventsL ks
    refine ⟨Node.eventsL ks, h.vis, by rw [h.depth, b1]; rfl, fun j => ?_, fun hc => eventsL_ne ks _ hc rfl⟩
    have := b2 j
    rw [h.depth]
    omega
  have hlen : ∀ rd' : Rd, At 1 (Node.eventsL ks ++ .endE n :: post) fin rd' → rd'.len < rd.len := by
    intro rd' h
    simp [Rd.len, h.vis, hat'.vis]
  -- the first step
  have hstep : ∀ st0 : LoopSt, st0.depth = 0 → (∃ e rd', structStep L rec (k + 1) d n.loc 0 st0 rd1 = (.err e, rd') ∧
        At 0 (.start n as m :: (Node.eventsL ks ++ .endE n :: post)) fin rd') ∨
      TI n post 0 (structStep L rec (k + 1) d n.loc 0 st0) rd1
        fun r rd' => r.2 = true ∧ rd'.len < rd.len := by
    intro st0 hst
    obtain ⟨rd2, p2, a2⟩ := peek_at a1
    have hl2 : rd2.len = rd.len := by simp [Rd.len, a2.vis, hat'.vis]
    obtain ⟨rd3, p3, a3⟩ := next_start a2
    have hg3 := hin rd3 a3
    have hl3 := hlen rd3 a3
    have hstart : (∃ e, structStart L rec (k + 1) d st0 n as rd2 = (.err e, rd2)) ∨
        TI n post 0 (structStart L rec (k + 1) d st0 n as) rd2 fun _ rd' => rd'.len < rd.len := by
      have hrest : ∀ x : D LoopSt, TI n post 0 x rd2 (fun _ rd' => rd'.len < rd.len) →
          TI n post 0 (x >>= fun st' => ((if st'.depth = 0 then
            M.lift (loadAttrs L rec d.fields as st'.slots) >>= fun ss => M.pure { st' with slots := ss }
            else M.pure st') >>= fun st'' => M.pure { st'' with depth := st''.depth + 1 })) rd2
            fun _ rd' => rd'.len < rd.len := by
        intro x hx
        refine .bind hx fun st' rd4 hg4 _ hl4 => ?_
        refine .bind (Q := fun _ rd' => rd'.len < rd.len) ?_ fun _ rd5 hg5 _ hl5 => .pure hg5 hl5
        split
        · exact .bind (.lift (Q := fun _ rd' => rd'.len < rd.len) hg4
            (loadAttrs_nd _ (fun f hf _ => hd.scalar f hf) _ _) fun _ _ => hl4) fun ss rd2 hg2 _ hl => .pure hg2 hl
        · exact .pure hg4 hl4
      have hnx : ∀ f : REv → D LoopSt, (∀ e, TI n post 0 (f e) rd3 fun _ rd' => rd'.len < rd.len) →
          TI n post 0 (nextEvent >>= f) rd2 fun _ rd' => rd'.len < rd.len :=
        fun f hf => TI.bind_ok p3 (by omega) (hf _)
      unfold structStart
      dsimp only
      by_cases hown : st0.depth = 0 ∧ n.loc = d.attrs.xmlElementName d.name ∧ n.ns.getD [] = d.attrs.rootNamespace
      · right
        rw [if_pos hown]
        refine hrest _ (hnx _ fun e => ?_)
        exact .bind (.lift (Q := fun _ rd' => rd'.len < rd.len) hg3 (writeUnused_nd _ _ _)
          fun _ _ => hl3) fun w rd2 hg2 _ hl => .pure hg2 hl
      · rw [if_neg hown, findArm_eq]
        cases hff : d.fieldFor n with
        | none =>
          right
          dsimp only
          refine hrest _ (hnx _ fun e => ?_)
          refine .bind (.lift (Q := fun _ rd' => rd'.len < rd.len) hg3 (writeUnused_nd _ _ _)
            fun _ _ => hl3) fun w rd2 hg2 _ hl => ?_
          rw [if_neg (by omega)]
          exact .pure hg2 hl
        | some i =>
          obtain ⟨f, hf, hmem, hcl⟩ := fieldFor_some hff
          obtain ⟨t, ht'⟩ := hd.scalar f hmem
          dsimp only
          rw [hf]
          dsimp only
          unfold callVisitor
          rw [ht']
          dsimp only
          cases hm : nsMatching d.attrs.namespaces f.attrs.pfx n.ns n.loc with
          | error e =>
            left
            refine ⟨e, bind_err ?_⟩
            unfold callSimple
            rw [hm]
            exact bind_err rfl
          | ok u' =>
            right
            refine hrest _ ?_
            by_cases htx : ∃ s, ks = [.text s]
            · obtain ⟨s, rfl⟩ := htx
              obtain ⟨rd4, hc⟩ := callSimple_text (L := L) (d := d) (st := st0) (f := f) (i := i) (t := t) (ks := [.text s])
                trivial hm a2
              have hnone : scalarContent L t [.text s] = none := by
                cases hsc : scalarContent L t [.text s] with
                | none => rfl
                | some v =>
                  refine (ht i v ⟨nsMatching_iff.mp hns, fun h => hown ⟨hst, h⟩, f, t, hff, hf, ht', nsMatching_iff.mp hm, hsc⟩).elim
              rw [hnone] at hc
              unfold TI
              rw [hc.1]
              have hr : Room n post 0 rd4 := ⟨[], hc.2.vis, by rw [hc.2.depth]; simp, fun j => by rw [hc.2.depth]; simp, by simp⟩
              have hl4 : rd4.len < rd.len := by simp [Rd.len, hc.2.vis, hat'.vis, Node.eventsL, Node.events]
              exact ⟨⟨hr, by omega⟩, hl4⟩
            · unfold callSimple
              rw [hm]
              refine TI.bind_ok rfl (Nat.le_refl _) ?_
              have hx : TI n post 0 (M.attempt (readInnerValue (simpleInner L f t))) rd2 fun _ rd' => rd'.len < rd.len := by
                have hi := TI.inner (L := L) f t n hg3 (.inr fun s hs => by
                  rw [a3.vis] at hs
                  refine htx ⟨s, eventsL_one ?_⟩
                  have : Node.eventsL ks ++ .endE n :: post = [.chars s] ++ .endE n :: post := hs
                  exact List.append_cancel_right this)
                unfold TI at hi ⊢
                unfold M.attempt readInnerValue
                rw [Yaserde.bind_ok (attempt_ok p3)]
                dsimp only
                split at hi <;> rename_i heq <;> rw [heq]
                · exact ⟨⟨hi.1.1, by have := hi.1.2; omega⟩, by have := hi.1.2; show _ < _; omega⟩
                · exact ⟨⟨hi.1, by have := hi.2; omega⟩, by have := hi.2; show _ < _; omega⟩
                · trivial
                · exact hi
              refine .bind hx fun r rd4 hg4 _ hl4 => ?_
              split
              · exact .pure hg4 hl4
              · exact .pure hg4 hl4
    unfold structStep
    rcases hstart with ⟨e, he⟩ | hstart
    · left
      refine ⟨e, rd2, ?_, a2⟩
      rw [bind_ok p2]
      exact bind_err he
    · right
      refine TI.bind_ok p2 (by omega) ?_
      exact .bind hstart fun st' rd4 hg4 _ hl4 => .pure hg4 ⟨rfl, hl4⟩
  rcases hstep ⟨0, d.fields.map (fun f => Slot.init f.ty), some {}⟩ rfl with ⟨e, rd', he, a'⟩ | hstep
  · have : structLoop L rec (k + 1) d n.loc 0 (k + 1) ⟨0, d.fields.map (fun f => Slot.init f.ty), some {}⟩ rd1 = (.err e, rd') := by
      unfold structLoop
      exact bind_err he
    show Stays n post ((structLoop L rec (k + 1) d n.loc 0 (k + 1) _ >>= _) rd1)
    rw [bind_err this]
    exact hvis _ a'
  · refine TI.stays (sd := 0) (Q := fun _ _ => True) ?_
    refine .bind (Q := fun _ _ => True) ?_ fun st rd3 hg3 _ _ =>
      .bind (Q := fun _ _ => True) ?_ fun slots rd4 hg4 _ _ =>
      .bind (.lift (Q := fun _ _ => True) hg4 (buildFields_nd _ _ _) fun _ _ => trivial) fun vs rd5 hg5 _ _ =>
      .pure hg5 trivial
    · unfold structLoop
      refine .bind hstep fun r rd2 hg2 _ hq => ?_
      dsimp only
      rw [if_pos hq.1]
      exact TI.structLoop hd (k + 1) k _ _ hg2 (by omega) (by omega)
    · rw [ScalarsOnly.hasFlat hd]
      exact .pure hg3 trivial

/-! ### Nothing is read by another type's deserializer -/

omit hd in
theorem loadAttrs_rec {rec rec' : Path → D Val} (fs : List FieldDef) (hfs : ∀ f ∈ fs, ∃ t, f.ty.core = .simple t) :
    ∀ (as : List Attr) (ss : List Slot), loadAttrs L rec fs as ss = loadAttrs L rec' fs as ss := by
  induction fs with
  | nil => intro as ss; rfl
  | cons f fs ih =>
    intro as ss
    cases ss with
    | nil => rfl
    | cons s ss =>
      unfold loadAttrs
      rw [ih (fun g hg => hfs g (List.mem_cons_of_mem _ hg)) as ss]
      obtain ⟨t, ht⟩ := hfs f (List.mem_cons_self ..)
      have hv : ∀ v, visitAttr L rec f.ty.core v = visitAttr L rec' f.ty.core v := by
        intro v
        rw [ht]
        rfl
      have : ∀ s, loadAttrField L rec f as s = loadAttrField L rec' f as s := by
        intro s
        unfold loadAttrField
        congr 1
        funext slot a
        split
        · cases hty : f.ty with
          | vec t' =>
            have hcore : f.ty.core = t' := by rw [hty]; rfl
            rw [hcore] at hv
            dsimp only
            congr 1
            funext slot w
            rw [hv]
          | simple t => dsimp only; rw [hty] at hv; rw [hv]
          | opt t => dsimp only; rw [hty] at hv; rw [hv]
          | struct q => dsimp only; rw [hty] at hv; rw [hv]
        · rfl
      rw [this]

theorem structDeser_rec (rec rec' : Path → D Val) (fuel : Nat) :
    structDeser L rec fuel d = structDeser L rec' fuel d := by
  have hstart : ∀ st name attrs, structStart L rec fuel d st name attrs = structStart L rec' fuel d st name attrs := by
    intro st name attrs
    have hc : ∀ i f, d.fields[i]? = some f → callVisitor L rec d.attrs f i name st = callVisitor L rec' d.attrs f i name st := by
      intro i f hf
      obtain ⟨t, ht⟩ := hd.scalar f (List.mem_of_getElem? hf)
      unfold callVisitor
      rw [ht]
    unfold structStart
    dsimp only
    congr 1
    · split
      · rfl
      · split
        · split
          · rename_i f hf; exact hc _ _ hf
          · rfl
        · rfl
    · funext st'
      rw [loadAttrs_rec (rec := rec) (rec' := rec') d.fields hd.scalar]
  have hstep : ∀ named sd st, structStep L rec fuel d named sd st = structStep L rec' fuel d named sd st := by
    intro named sd st
    unfold structStep
    congr 1
    funext e
    cases e <;> dsimp only
    rw [hstart]
  have hloop : ∀ n named sd st, structLoop L rec fuel d named sd n st = structLoop L rec' fuel d named sd n st := by
    intro n
    induction n with
    | zero => intros; rfl
    | succ n ih =>
      intro named sd st
      unfold structLoop
      rw [hstep]
      congr 1
      funext r
      obtain ⟨st', c⟩ := r
      dsimp only
      rw [ih]
  unfold structDeser
  congr 1
  funext e
  congr 1
  funext rd
  unfold structBody
  congr 1
  funext u
  rw [hloop]
  congr 1
  funext st
  congr 1
  rw [ScalarsOnly.hasFlat hd]

end

end Yaserde
