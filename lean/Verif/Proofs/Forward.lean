import Verif.Proofs.Slots
import Verif.Proofs.Nest
/-
Deserialization only moves forward in the document: whatever a generated deserializer does, what is left to read afterwards
is the tail end of what was left before.  No assumption about the document.
-/

set_option autoImplicit false

namespace Yaserde

/-- `R'` is what is left of `R` after reading on (at the end of the input `peek` puts an `EndDocument` in front). -/
def Later (R R' : List REv) : Prop := R' <:+ R ∨ R' = [.endDocument]

theorem Later.refl (R : List REv) : Later R R := .inl (List.suffix_refl R)

theorem Later.trans {R R' R'' : List REv} (h : Later R R') (h' : Later R' R'') : Later R R'' := by
  rcases h' with h' | h'
  · rcases h with h | h
    · exact .inl (h'.trans h)
    · subst h
      rw [List.suffix_cons_iff] at h'
      rcases h' with h' | h'
      · exact .inr h'
      · rw [List.suffix_nil] at h'
        subst h'
        exact .inl (List.nil_suffix)
  · exact .inr h'

theorem Later.tail {e : REv} {R R' : List REv} (h : Later R R') : Later (e :: R) R' :=
  .trans (.inl (List.suffix_cons e R)) h

/-- `x`, run on `rd`, moves forward, and if it succeeds then with `Q`. -/
def Fwd {α : Type} (x : D α) (rd : Rd) (Q : α → Rd → Prop) : Prop :=
  Later rd.visible (x rd).2.visible ∧ ∀ a, (x rd).1 = .ok a → Q a (x rd).2

section
variable {α β : Type} {rd : Rd} {Q : α → Rd → Prop} {R : β → Rd → Prop}

theorem Fwd.mono {x : D α} {Q' : α → Rd → Prop} (h : Fwd x rd Q)
    (hq : ∀ a rd', Later rd.visible rd'.visible → Q a rd' → Q' a rd') : Fwd x rd Q' :=
  ⟨h.1, fun a e => hq a _ h.1 (h.2 a e)⟩

theorem Fwd.bind {x : D α} {f : α → D β} (h : Fwd x rd Q)
    (hf : ∀ a rd', Later rd.visible rd'.visible → Q a rd' → Fwd (f a) rd' R) : Fwd (x >>= f) rd R := by
  obtain ⟨h1, h2⟩ := h
  unfold Fwd
  simp only [bind_def, M.bind]
  cases hx : x rd with
  | mk r s =>
    rw [hx] at h1 h2
    cases r with
    | ok a =>
      obtain ⟨h3, h4⟩ := hf a s h1 (h2 a rfl)
      exact ⟨h1.trans h3, h4⟩
    | err m => exact ⟨h1, fun b e => by simp at e⟩
    | panic m => exact ⟨h1, fun b e => by simp at e⟩
    | diverge => exact ⟨h1, fun b e => by simp at e⟩

theorem Fwd.pure {a : α} (h : Q a rd) : Fwd (M.pure a) rd Q :=
  ⟨.refl _, fun b e => by simp only [M.pure, Res.ok.injEq] at e; exact e ▸ h⟩

theorem Fwd.throw (m : Str) : Fwd (M.throw m) rd Q := ⟨.refl _, fun b e => by simp [M.throw] at e⟩

theorem Fwd.panic (m : Str) : Fwd (M.panic m) rd Q := ⟨.refl _, fun b e => by simp [M.panic] at e⟩

theorem Fwd.diverge : Fwd (M.diverge : D α) rd Q := ⟨.refl _, fun b e => by simp [M.diverge] at e⟩

theorem Fwd.lift {x : Res α} (h : ∀ a, x = .ok a → Q a rd) : Fwd (M.lift x) rd Q :=
  ⟨.refl _, fun a e => h a e⟩

theorem Fwd.get : Fwd (M.get : D Rd) rd fun a rd' => a = rd ∧ rd' = rd :=
  ⟨.refl _, fun a e => by simp only [M.get, Res.ok.injEq] at e; exact ⟨e.symm, rfl⟩⟩

theorem Fwd.ofExcept {x : Except Str α} (h : ∀ a, x = .ok a → Q a rd) : Fwd (M.ofExcept x) rd Q := by
  cases x with
  | ok a => exact Fwd.pure (h a rfl)
  | error m => exact Fwd.throw m

theorem Fwd.attempt {x : D α} (h : Fwd x rd Q) :
    Fwd (M.attempt x) rd fun r rd' => ∀ a, r = .ok a → Q a rd' := by
  obtain ⟨h1, h2⟩ := h
  unfold Fwd M.attempt
  cases hx : x rd with
  | mk r s1 =>
    rw [hx] at h1 h2
    cases r with
    | ok a' =>
      refine ⟨h1, fun b e a hb => ?_⟩
      subst hb
      simp only [Res.ok.injEq, Except.ok.injEq] at e
      exact e ▸ h2 a' rfl
    | err m =>
      refine ⟨h1, fun b e a hb => ?_⟩
      subst hb
      simp at e
    | panic m => exact ⟨h1, fun b e => by simp at e⟩
    | diverge => exact ⟨h1, fun b e => by simp at e⟩

end

/-! ### The reader -/

section
variable {rd : Rd}

/-- After `peek` returned `e`, it is in front. -/
theorem Fwd.peek : Fwd peek rd fun e rd' => (∃ R, rd'.visible = e :: R) ∧ (rd.visible ≠ [] → rd'.visible = rd.visible) := by
  have hat := at_self rd
  cases hv : rd.visible with
  | nil =>
    rw [hv] at hat
    rcases peek_at_nil hat with ⟨-, rd', h1, h2⟩ | ⟨m, rd', -, h1, h2⟩
    · unfold Fwd
      rw [h1, hv]
      dsimp only
      rw [h2.vis]
      exact ⟨.inr rfl, fun a e => by cases e; exact ⟨⟨_, rfl⟩, fun h => absurd rfl h⟩⟩
    · unfold Fwd
      rw [h1, hv]
      dsimp only
      rw [h2.vis]
      exact ⟨.refl _, fun a e => by cases e⟩
  | cons e R =>
    rw [hv] at hat
    obtain ⟨rd', h1, h2⟩ := peek_at hat
    unfold Fwd
    rw [h1, hv]
    dsimp only
    rw [h2.vis]
    exact ⟨.refl _, fun a e => by cases e; exact ⟨⟨_, rfl⟩, fun _ => rfl⟩⟩

theorem visible_trackDepth (e : REv) (rd : Rd) : (trackDepth e rd).2.visible = rd.visible := by
  unfold trackDepth
  split
  · rfl
  · split <;> rfl
  · rfl

theorem trackDepth_ok (e e' : REv) (rd : Rd) (h : (trackDepth e rd).1 = .ok e') : e' = e := by
  unfold trackDepth at h
  split at h
  · cases h; rfl
  · split at h
    · cases h
    · cases h; rfl
  · cases h; rfl

theorem nextEvent_nil {rd : Rd} (h : rd.visible = []) :
    (nextEvent rd).2.visible = [] ∧ ∀ e, (nextEvent rd).1 = .ok e → e = .endDocument := by
  cases hp : rd.peeked with
  | some e => simp [Rd.visible, hp] at h
  | none =>
    have hv' : rd.reader.evs.filter (fun e => !e.skipped) = [] := by
      simpa [Rd.visible, hp] using h
    have hi := innerNextL_nil (fin := rd.reader.fin) hv'
    have hin : innerNext rd = (finRes rd.reader.fin, { rd with reader := ⟨[], rd.reader.fin⟩ }) := by
      simp [innerNext, hi]
    unfold nextEvent
    rw [hp]
    simp only [bind_def, M.bind, hin]
    cases rd.reader.fin with
    | none =>
      simp only [finRes]
      rw [visible_trackDepth]
      exact ⟨by simp [Rd.visible, hp], fun e he => trackDepth_ok _ _ _ he⟩
    | some m => exact ⟨by simp [Rd.visible, hp, finRes], fun e he => by simp [finRes] at he⟩

/-- `next_event` takes the event in front, if there is one. -/
theorem Fwd.next : Fwd nextEvent rd fun e rd' =>
    rd.visible = e :: rd'.visible ∨ (rd.visible = [] ∧ rd'.visible = [] ∧ e = .endDocument) := by
  have hat := at_self rd
  cases hv : rd.visible with
  | nil =>
    obtain ⟨h1, h2⟩ := nextEvent_nil hv
    unfold Fwd
    rw [h1, hv]
    exact ⟨.refl _, fun e he => .inr ⟨rfl, h1, h2 e he⟩⟩
  | cons e R =>
    rw [hv] at hat
    obtain ⟨rd', h1, h2⟩ := nextEvent_at hat
    unfold Fwd
    rw [h1, visible_trackDepth, h2.vis, hv]
    exact ⟨.tail (.refl _), fun a he => .inl (by rw [trackDepth_ok _ _ _ he, visible_trackDepth, h2.vis])⟩

/-- … in particular it takes the event that was peeked. -/
theorem Fwd.next_cons {e : REv} {R : List REv} (h : rd.visible = e :: R) : Fwd nextEvent rd fun e' rd' => e' = e ∧ rd'.visible = R :=
  Fwd.next.mono fun a rd' _ hq => by
    rcases hq with hq | ⟨hq, -⟩
    · rw [h, List.cons.injEq] at hq
      exact ⟨hq.1.symm, hq.2.symm⟩
    · rw [h] at hq; cases hq

/-- … and whatever `next_event` returns, the reader is past the event in front. -/
theorem next_later {e : REv} {R : List REv} (h : rd.visible = e :: R) : (nextEvent rd).2.visible = R := by
  have hat := at_self rd
  rw [h] at hat
  obtain ⟨rd', h1, h2⟩ := nextEvent_at hat
  rw [h1, visible_trackDepth, h2.vis]

theorem Fwd.attemptNext {e : REv} {R : List REv} (h : rd.visible = e :: R) :
    Fwd (M.attempt nextEvent) rd fun r rd' => rd'.visible = R ∧ ∀ e', r = .ok e' → e' = e := by
  have h1 := next_later h
  obtain ⟨h2, h3⟩ := Fwd.next_cons h
  unfold Fwd M.attempt
  cases hx : nextEvent rd with
  | mk r s =>
    rw [hx] at h1 h2 h3
    cases r with
    | ok a =>
      refine ⟨h2, fun b eb => ?_⟩
      simp only [Res.ok.injEq] at eb
      subst eb
      refine ⟨h1, fun e' he' => ?_⟩
      simp only [Except.ok.injEq] at he'
      subst he'
      exact (h3 a rfl).1
    | err m =>
      refine ⟨h2, fun b eb => ?_⟩
      simp only [Res.ok.injEq] at eb
      subst eb
      exact ⟨h1, fun e' he' => by cases he'⟩
    | panic m => exact ⟨h2, fun b e => by simp at e⟩
    | diverge => exact ⟨h2, fun b e => by simp at e⟩

theorem Fwd.attemptPeek {e : REv} {R : List REv} (h : rd.visible = e :: R) :
    Fwd (M.attempt Yaserde.peek) rd fun r rd' => r = .ok e ∧ rd'.visible = e :: R := by
  have hat := at_self rd
  rw [h] at hat
  obtain ⟨rd', h1, h2⟩ := peek_at hat
  unfold Fwd M.attempt
  rw [h1]
  dsimp only
  rw [h2.vis, h]
  exact ⟨.refl _, fun a e => by cases e; exact ⟨rfl, rfl⟩⟩

theorem Fwd.any {α : Type} {x : D α} {Q : α → Rd → Prop} (h : Fwd x rd Q) : Fwd x rd fun _ _ => True :=
  h.mono fun _ _ _ _ => trivial

theorem Fwd.skipLoop : ∀ (n depth : Nat) (acc : List REv) (rd : Rd), Fwd (skipLoop n depth acc) rd fun _ _ => True
  | 0, _, _, _ => by
    simp only [Yaserde.skipLoop]
    exact Fwd.diverge
  | n + 1, depth, acc, rd => by
    unfold Fwd
    simp only [Yaserde.skipLoop]
    split
    · exact Fwd.bind Fwd.next (fun e rd' _ _ => Fwd.skipLoop n depth _ rd')
    · exact ⟨.refl _, fun _ _ => trivial⟩

theorem Fwd.skipElement (fuel : Nat) : Fwd (skipElement fuel) rd fun _ _ => True := by
  unfold Yaserde.skipElement
  exact Fwd.skipLoop fuel rd.depth [] rd

theorem Fwd.expectEnd (name : Name) : Fwd (expectEndElement name) rd fun _ rd' => rd.visible = .endE name :: rd'.visible := by
  unfold expectEndElement
  refine Fwd.bind Fwd.next fun e rd' _ h => ?_
  split
  · split
    · rename_i heq
      subst heq
      refine Fwd.pure ?_
      rcases h with h | ⟨-, -, h⟩
      · exact h
      · cases h
    · exact Fwd.throw _
  · exact Fwd.throw _

theorem Fwd.readInner {α : Type} {Q : α → Rd → Prop} {x : D α} {e : REv} {R : List REv} (hv : rd.visible = e :: R)
    (h : ∀ rd1, rd1.visible = R → Fwd x rd1 Q) :
    Fwd (readInnerValue x) rd fun a rd' => ∃ n as m rd1, e = .start n as m ∧ Q a rd1 ∧ rd1.visible = .endE n :: rd'.visible := by
  unfold readInnerValue
  refine Fwd.bind (Fwd.attemptNext hv) fun r rd1 _ hr => ?_
  split
  · rename_i n as m
    have he := hr.2 _ rfl
    refine Fwd.bind (h rd1 hr.1) fun a rd2 _ ha => Fwd.bind (Fwd.expectEnd n) fun _ rd3 _ h3 => Fwd.pure ?_
    exact ⟨n, as, m, rd2, he.symm, ha, h3⟩
  · exact Fwd.throw _

theorem Fwd.readInner_any {α : Type} {x : D α} (h : ∀ rd1, Fwd x rd1 fun _ _ => True) :
    Fwd (readInnerValue x) rd fun _ _ => True := by
  unfold readInnerValue
  refine Fwd.bind (Fwd.attempt Fwd.next) fun r rd1 _ _ => ?_
  split
  · exact Fwd.bind (h _) fun _ _ _ _ => Fwd.bind (Fwd.expectEnd _) fun _ _ _ _ => Fwd.pure trivial
  · exact Fwd.throw _

end

/-! ### Structs -/

section
variable (L : Lib)

/-- A scalar child that was read: what stood there. -/
theorem Fwd.simpleInner (f : FieldDef) (t : STy) (rd : Rd) : Fwd (simpleInner L f t) rd fun v rd' =>
    ∃ s, Later rd.visible (.chars s :: rd'.visible) ∧ (rd.visible ≠ [] → rd.visible = .chars s :: rd'.visible) ∧ visitS L t s = .ok v := by
  unfold Yaserde.simpleInner
  refine Fwd.bind (Fwd.attempt Fwd.peek) fun r rd1 h1 hr => ?_
  split
  · rename_i s
    obtain ⟨⟨R, hR⟩, hsame⟩ := hr _ rfl
    refine Fwd.bind (Fwd.next_cons hR) fun _ rd2 _ h2 => ?_
    split
    · rename_i v hv
      refine Fwd.pure ⟨s, ?_, ?_, hv⟩
      · rw [h2.2, ← hR]; exact h1
      · intro hne
        rw [h2.2, ← hR, hsame hne]
    · exact Fwd.throw _
  · exact Fwd.throw _

variable {rec : Path → D Val} (hrec : ∀ p rd, Fwd (rec p) rd fun _ _ => True)

theorem Fwd.callSimple (root : Attrs) (f : FieldDef) (i : Nat) (t : STy) (name : Name) (st : LoopSt) {rd : Rd} {n : Name}
    {as : List Attr} {m : NsMap} {R : List REv} (hv : rd.visible = .start n as m :: R) :
    Fwd (callSimple L root f i t name st) rd fun st' rd' => Later R rd'.visible ∧ (st' = st ∨
      ∃ s v, R = .chars s :: .endE n :: rd'.visible ∧ visitS L t s = .ok v ∧ st' = st.setSlot i (Slot.put v)) := by
  unfold Yaserde.callSimple
  refine Fwd.bind (Q := fun _ rd' => rd' = rd) (Fwd.ofExcept fun _ _ => rfl) fun _ rd' _ e => ?_
  subst e
  -- what is known even if the child could not be read
  have hlate : Later R (readInnerValue (Yaserde.simpleInner L f t) rd').2.visible := by
    unfold readInnerValue
    have h0 := Fwd.attemptNext hv
    have h1 : (M.attempt nextEvent rd').2.visible = R := by
      have := next_later hv
      unfold M.attempt
      cases hx : nextEvent rd' with
      | mk r s => rw [hx] at this; cases r <;> exact this
    simp only [bind_def, M.bind]
    cases hx : M.attempt nextEvent rd' with
    | mk r s =>
      rw [hx] at h1
      dsimp only at h1
      cases r with
      | ok a =>
        dsimp only
        rw [← h1]
        have : Fwd (match a with
          | .ok (.start name _ _) => Yaserde.simpleInner L f t >>= fun result => expectEndElement name >>= fun _ => M.pure result
          | _ => M.throw c!"Internal error: Bad Event") s fun _ _ => True := by
          split
          · exact Fwd.bind (Fwd.simpleInner L f t s) fun _ _ _ _ => Fwd.bind (Fwd.expectEnd _) fun _ _ _ _ => Fwd.pure trivial
          · exact Fwd.throw _
        exact this.1
      | err m => dsimp only; rw [h1]; exact .refl _
      | panic m => dsimp only; rw [h1]; exact .refl _
      | diverge => dsimp only; rw [h1]; exact .refl _
  have hread := Fwd.readInner (rd := rd') hv (fun rd1 (_ : rd1.visible = R) => (Fwd.simpleInner L f t rd1).mono fun v rd2 _ h => (⟨rd1, by assumption, h⟩ : ∃ rd1 : Rd, rd1.visible = R ∧ ∃ s, Later rd1.visible (.chars s :: rd2.visible) ∧
      (rd1.visible ≠ [] → rd1.visible = .chars s :: rd2.visible) ∧ visitS L t s = .ok v))
  have hatt : Fwd (M.attempt (readInnerValue (Yaserde.simpleInner L f t))) rd' fun r rd2 => Later R rd2.visible ∧ ∀ v, r = .ok v →
      ∃ s, R = .chars s :: .endE n :: rd2.visible ∧ visitS L t s = .ok v := by
    have h := Fwd.attempt hread
    refine ⟨h.1, fun r hr => ⟨?_, fun v hv' => ?_⟩⟩
    · have : (M.attempt (readInnerValue (Yaserde.simpleInner L f t)) rd').2 = (readInnerValue (Yaserde.simpleInner L f t) rd').2 := by
        unfold M.attempt
        cases hx : readInnerValue (Yaserde.simpleInner L f t) rd' with
        | mk r s => cases r <;> rfl
      rw [this]
      exact hlate
    · obtain ⟨n', as', m', rd1, he, ⟨rd0, hrd0, s, hs1, hs2, hs3⟩, h3⟩ := h.2 r hr v hv'
      cases he
      refine ⟨s, ?_, hs3⟩
      rw [← hrd0, ← h3]
      apply hs2
      intro hnil
      rw [hnil, h3] at hs1
      rcases hs1 with h | h
      · rw [List.suffix_nil] at h; cases h
      · cases h
  refine Fwd.bind hatt fun r rd2 _ hr => ?_
  split
  · rename_i v
    obtain ⟨s, hs, hvs⟩ := hr.2 v rfl
    exact Fwd.pure ⟨hr.1, .inr ⟨s, v, hs, hvs, rfl⟩⟩
  · exact Fwd.pure ⟨hr.1, .inl rfl⟩

include hrec in
theorem Fwd.callStruct (i : Nat) (p : Path) (st : LoopSt) {rd : Rd} {n : Name}
    {as : List Attr} {m : NsMap} {R : List REv} (hv : rd.visible = .start n as m :: R) :
    Fwd (callStruct rec i p st) rd fun st' rd' => Later R rd'.visible ∧ (st' = st ∨
      ∃ v rd1 rd2, Later rd.visible rd1.visible ∧ rec p rd1 = (.ok v, rd2) ∧ st' = st.setSlot i (Slot.put v)) := by
  unfold Yaserde.callStruct
  by_cases hd : st.depth = 0
  · rw [if_pos hd]
    refine Fwd.bind (Q := fun _ rd' => rd'.visible = R) (Fwd.bind (Fwd.attemptNext hv) fun _ _ _ h => Fwd.pure h.1) fun _ rd1 l1 h1 => ?_
    refine Fwd.bind (Fwd.attempt Fwd.peek) fun r rd2 h2 hr => ?_
    split
    · refine Fwd.bind (Q := fun v rd3 => Later rd2.visible rd3.visible ∧ rec p rd2 = (.ok v, rd3)) ?_ fun v rd3 l3 h3 =>
        Fwd.bind Fwd.next fun _ rd4 l4 _ => Fwd.pure ⟨?_, .inr ⟨v, rd2, rd3, l1.trans h2, h3.2, rfl⟩⟩
      · have := hrec p rd2
        exact ⟨this.1, fun a ha => ⟨this.1, Prod.ext ha rfl⟩⟩
      · rw [← h1]
        exact h2.trans (l3.trans l4)
    · exact Fwd.pure ⟨by rw [← h1]; exact h2, .inl rfl⟩
  · rw [if_neg hd]
    refine Fwd.bind (Q := fun _ rd' => rd' = rd) (Fwd.pure rfl) fun _ rd1 l1 h1 => ?_
    subst h1
    refine Fwd.bind (Fwd.attemptPeek hv) fun r rd2 h2 hr => ?_
    obtain ⟨rfl, hv2⟩ := hr
    split
    · refine Fwd.bind (Q := fun v rd3 => Later rd2.visible rd3.visible ∧ rec p rd2 = (.ok v, rd3)) ?_ fun v rd3 l3 h3 =>
        Fwd.bind Fwd.next fun _ rd4 l4 h4 => Fwd.pure ⟨?_, .inr ⟨v, rd2, rd3, h2, h3.2, rfl⟩⟩
      · have := hrec p rd2
        exact ⟨this.1, fun a ha => ⟨this.1, Prod.ext ha rfl⟩⟩
      · rw [hv2] at l3
        rcases l3 with l3 | l3
        · rcases h4 with h4 | ⟨h4, h5, -⟩
          · rw [h4] at l3
            rw [List.suffix_cons_iff] at l3
            rcases l3 with l3 | l3
            · rw [List.cons.injEq] at l3
              rw [l3.2]
              exact .refl _
            · exact .inl ((List.suffix_cons ..).trans l3)
          · rw [h5]; exact .inl List.nil_suffix
        · rcases h4 with h4 | ⟨h4, h5, -⟩
          · rw [l3, List.cons.injEq] at h4
            rw [← h4.2]
            exact .inl List.nil_suffix
          · rw [h5]; exact .inl List.nil_suffix
    · rename_i hno
      exact (hno _ _ _ rfl).elim

/-- What happens to the variable of field number `i` (`f`): `P R s` is kept, where `R` is what is left to read. -/
structure Tracks (rec : Path → D Val) (d : StructDef) (i : Nat) (f : FieldDef) (P : List REv → Slot → Prop) : Prop where
  field : d.fields[i]? = some f
  later : ∀ R R' s, Later R R' → P R s → P R' s
  scalar : d.fields[i]? = some f → ∀ n as m R s t str v, d.fieldFor n = some i → f.ty.core = .simple t → visitS L t str = .ok v →
    P (.start n as m :: .chars str :: .endE n :: R) s → P R (s.put v)
  nested : ∀ n as m R R' s q v rd1 rd2, d.fieldFor n = some i → f.ty.core = .struct q →
    Later (.start n as m :: R) rd1.visible → rec q rd1 = (.ok v, rd2) → Later R R' → P (.start n as m :: R) s → P R' (s.put v)
  attr : f.attrs.isAttr = true → ∀ n as m R R' s s', Later R R' → loadAttrField L rec f as s = .ok s' →
    P (.start n as m :: R) s → P R' s'
  text : ∀ t R s, P (.chars t :: R) s → ∀ s', (setText [f] t [s]) = [s'] → P R s'

theorem loadAttrs_at {attrs : List Attr} : ∀ {fs : List FieldDef} {ss ss' : List Slot}, loadAttrs L rec fs attrs ss = .ok ss' →
    ∀ (i : Nat) (f : FieldDef) (s : Slot), fs[i]? = some f → ss[i]? = some s → ∃ s', ss'[i]? = some s' ∧
      if f.attrs.isAttr then loadAttrField L rec f attrs s = .ok s' else s' = s
  | [], ss, ss', _, i, f, s', hf, _ => by simp at hf
  | g :: fs, [], ss', h, i, f, s', hf, hs => by simp at hs
  | g :: fs, s :: ss, ss', h, i, f, s', hf, hs => by
    simp only [loadAttrs] at h
    rw [Res.bind_eq_ok] at h
    obtain ⟨s1, h1, h⟩ := h
    rw [Res.bind_eq_ok] at h
    obtain ⟨ss1, h2, h⟩ := h
    simp only [Res.ok.injEq] at h
    subst h
    cases i with
    | zero =>
      simp only [List.getElem?_cons_zero, Option.some.injEq] at hf hs ⊢
      subst hf hs
      refine ⟨s1, rfl, ?_⟩
      split
      · rename_i ha
        rwa [if_pos ha] at h1
      · rename_i ha
        rw [if_neg ha] at h1
        cases h1
        rfl
    | succ i =>
      simp only [List.getElem?_cons_succ] at hf hs ⊢
      exact loadAttrs_at h2 i f s' hf hs

theorem setText_at {t : Str} : ∀ {fs : List FieldDef} {ss : List Slot}
    (i : Nat) (f : FieldDef) (s : Slot), fs[i]? = some f → ss[i]? = some s → ∃ s', (setText fs t ss)[i]? = some s' ∧
      setText [f] t [s] = [s']
  | [], ss, i, f, s', hf, _ => by simp at hf
  | g :: fs, [], i, f, s', hf, hs => by simp at hs
  | g :: fs, s :: ss, i, f, s', hf, hs => by
    cases i with
    | zero =>
      simp only [setText, List.getElem?_cons_zero, Option.some.injEq] at hf hs ⊢
      subst hf hs
      exact ⟨_, rfl, rfl⟩
    | succ i =>
      simp only [setText, List.getElem?_cons_succ] at hf hs ⊢
      exact setText_at i f s' hf hs

/-- The variable of field number `i` is fine. -/
def LoopSt.Fine (P : List REv → Slot → Prop) (i : Nat) (R : List REv) (st : LoopSt) : Prop :=
  ∃ s, st.slots[i]? = some s ∧ P R s

theorem setSlot_at {st : LoopSt} {i : Nat} {g : Slot → Slot} {s : Slot} (h : st.slots[i]? = some s) :
    (st.setSlot i g).slots[i]? = some (g s) := by
  simp [LoopSt.setSlot, List.getElem?_modify, h]

variable {L} {d : StructDef} {i : Nat} {f : FieldDef} {P : List REv → Slot → Prop}

include hrec in
theorem Tracks.visitor (hT : Tracks L rec d i f P) {st : LoopSt} {rd : Rd} {n : Name} {as : List Attr} {m : NsMap} {R : List REv}
    {j : Nat} {g : FieldDef} (hj : d.fieldFor n = some j) (hg : d.fields[j]? = some g)
    (hv : rd.visible = .start n as m :: R) (h : st.Fine P i rd.visible) :
    Fwd (callVisitor L rec d.attrs g j n st) rd fun st' rd' => st'.depth = st.depth ∧ Later R rd'.visible ∧
      (f.attrs.isAttr = true → st'.slots[i]? = st.slots[i]?) ∧ st'.Fine P i rd'.visible := by
  have hfld := hT.field
  have hna : f.attrs.isAttr = true → j ≠ i := by
    rintro ha rfl
    obtain ⟨g', hg', -, hcl⟩ := fieldFor_some hj
    rw [hfld] at hg'
    cases hg'
    have := hcl.1
    simp [FieldDef.isElem, ha] at this
  have hother : ∀ {st' : LoopSt} {v : Val} {rd' : Rd}, Later R rd'.visible → j ≠ i → st' = st.setSlot j (Slot.put v) →
      st'.slots[i]? = st.slots[i]? ∧ st'.Fine P i rd'.visible := by
    rintro st' v rd' hl hne rfl
    have : (st.setSlot j (Slot.put v)).slots[i]? = st.slots[i]? := by
      simp [LoopSt.setSlot, List.getElem?_modify, hne]
    obtain ⟨s, hs, h⟩ := h
    refine ⟨this, s, by rw [this]; exact hs, hT.later _ _ s ?_ h⟩
    rw [hv]
    exact hl.tail
  unfold callVisitor
  split
  · rename_i q hq
    refine (Fwd.callStruct hrec j q st hv).mono ?_
    rintro st' rd' - ⟨hl, rfl | ⟨v, rd1, rd2, h1, h2, h3⟩⟩
    · obtain ⟨s, hs, h⟩ := h
      exact ⟨rfl, hl, fun _ => rfl, s, hs, hT.later _ _ s (by rw [hv]; exact hl.tail) h⟩
    · refine ⟨by rw [h3]; rfl, hl, fun ha => (hother hl (hna ha) h3).1, ?_⟩
      by_cases hij : j = i
      · subst hij
        rw [hfld] at hg
        cases hg
        obtain ⟨s, hs, h⟩ := h
        refine ⟨_, by rw [h3]; exact setSlot_at hs, ?_⟩
        exact hT.nested n as m R rd'.visible s q v rd1 rd2 hj hq (by rw [← hv]; exact h1) h2 hl (by rw [← hv]; exact h)
      · exact (hother hl hij h3).2
  · rename_i t ht
    refine (Fwd.callSimple L d.attrs g j t n st hv).mono ?_
    rintro st' rd' - ⟨hl, rfl | ⟨str, v, h1, h2, h3⟩⟩
    · obtain ⟨s, hs, h⟩ := h
      exact ⟨rfl, hl, fun _ => rfl, s, hs, hT.later _ _ s (by rw [hv]; exact hl.tail) h⟩
    · refine ⟨by rw [h3]; rfl, hl, fun ha => (hother hl (hna ha) h3).1, ?_⟩
      by_cases hij : j = i
      · subst hij
        rw [hfld] at hg
        cases hg
        obtain ⟨s, hs, h⟩ := h
        refine ⟨_, by rw [h3]; exact setSlot_at hs, ?_⟩
        exact hT.scalar hfld n as m rd'.visible s t str v hj ht h2 (by rw [← h1, ← hv]; exact h)
      · exact (hother hl hij h3).2
  · exact Fwd.panic _

include hrec in
theorem Tracks.start (hT : Tracks L rec d i f P) (fuel : Nat) {st : LoopSt} {rd : Rd} {n : Name} {as : List Attr} {m : NsMap}
    {R : List REv} (hv : rd.visible = .start n as m :: R) (h : st.Fine P i rd.visible) :
    Fwd (structStart L rec fuel d st n as) rd fun st' rd' => st'.Fine P i rd'.visible := by
  have hlater : ∀ {st' : LoopSt} {rd' : Rd}, Later R rd'.visible → st'.slots = st.slots → st'.Fine P i rd'.visible := by
    intro st' rd' hl hs
    obtain ⟨s, hs', h⟩ := h
    exact ⟨s, by rw [hs]; exact hs', hT.later _ _ s (by rw [hv]; exact hl.tail) h⟩
  unfold structStart
  dsimp only
  refine Fwd.bind (Q := fun st' rd' => st'.depth = st.depth ∧ Later R rd'.visible ∧
      (f.attrs.isAttr = true → st'.slots[i]? = st.slots[i]?) ∧ st'.Fine P i rd'.visible) ?_ fun st' rd' _ h' =>
    Fwd.bind (Q := fun st'' rd'' => st''.Fine P i rd''.visible) ?_ fun st'' rd'' _ h'' => Fwd.pure h''
  · split
    · refine Fwd.bind (Fwd.next_cons hv) fun _ rd1 _ h1 => Fwd.bind (Q := fun _ rd2 => rd2 = rd1) (Fwd.lift fun _ _ => rfl) fun _ rd2 _ h2 => ?_
      subst h2
      exact Fwd.pure ⟨rfl, by rw [h1.2]; exact .refl _, fun _ => rfl, hlater (by rw [h1.2]; exact .refl _) rfl⟩
    · rw [findArm_eq]
      split
      · rename_i j hj
        split
        · rename_i g hg
          exact hT.visitor hrec hj hg hv h
        · rename_i hg
          obtain ⟨g', hg', -⟩ := fieldFor_some hj
          rw [hg] at hg'
          cases hg'
      · refine Fwd.bind (Fwd.next_cons hv) fun _ rd1 _ h1 => Fwd.bind (Q := fun _ rd2 => rd2 = rd1) (Fwd.lift fun _ _ => rfl) fun _ rd2 _ h2 => ?_
        subst h2
        split
        · refine Fwd.bind (Fwd.skipElement fuel) fun _ rd3 h3 _ => Fwd.bind (Q := fun _ rd4 => rd4 = rd3) (Fwd.lift fun _ _ => rfl) fun _ rd4 _ h4 => ?_
          subst h4
          rw [h1.2] at h3
          exact Fwd.pure ⟨rfl, h3, fun _ => rfl, hlater h3 rfl⟩
        · exact Fwd.pure ⟨rfl, by rw [h1.2]; exact .refl _, fun _ => rfl, hlater (by rw [h1.2]; exact .refl _) rfl⟩
  · obtain ⟨hd, hl, ha, hfine⟩ := h'
    split
    · refine Fwd.bind (Q := fun ss rd2 => rd2 = rd' ∧ loadAttrs L rec d.fields as st'.slots = .ok ss) (Fwd.lift fun ss hss => ⟨rfl, hss⟩) fun ss rd2 _ h2 => ?_
      obtain ⟨rfl, h2⟩ := h2
      obtain ⟨s, hs, hfine⟩ := hfine
      obtain ⟨s', hs', hc⟩ := loadAttrs_at L h2 i f s hT.field hs
      refine Fwd.pure ⟨s', hs', ?_⟩
      split at hc
      · rename_i hat
        obtain ⟨s0, hs0, h⟩ := h
        rw [ha hat, hs0] at hs
        cases hs
        exact hT.attr hat n as m R _ s s' hl hc (by rw [← hv]; exact h)
      · subst hc
        exact hfine
    · exact Fwd.pure hfine

include hrec in
theorem Tracks.step (hT : Tracks L rec d i f P) (fuel : Nat) (named : Str) (startDepth : Nat) {st : LoopSt} {rd : Rd}
    (h : st.Fine P i rd.visible) :
    Fwd (structStep L rec fuel d named startDepth st) rd fun r rd' => r.1.Fine P i rd'.visible := by
  have hlater : ∀ {st' : LoopSt} {rd' : Rd}, Later rd.visible rd'.visible → st'.slots = st.slots → st'.Fine P i rd'.visible := by
    intro st' rd' hl hs
    obtain ⟨s, hs', h⟩ := h
    exact ⟨s, by rw [hs]; exact hs', hT.later _ _ s hl h⟩
  unfold structStep
  refine Fwd.bind Fwd.peek fun e rd1 l1 h1 => ?_
  obtain ⟨⟨R, hR⟩, -⟩ := h1
  split
  · exact Fwd.bind (hT.start hrec fuel hR (hlater l1 rfl)) fun st' rd' _ h' => Fwd.pure h'
  · refine Fwd.bind Fwd.get fun rd' rd2 _ h2 => ?_
    obtain ⟨rfl, rfl⟩ := h2
    split
    · refine Fwd.bind (Q := fun _ rd2 => rd2 = _) (Fwd.lift fun _ _ => rfl) fun _ rd2 _ h2 => ?_
      subst h2
      exact Fwd.pure (hlater l1 rfl)
    · refine Fwd.bind (Fwd.next_cons hR) fun _ rd2 l2 _ => Fwd.bind (Q := fun _ rd3 => rd3 = rd2) (Fwd.lift fun _ _ => rfl) fun _ rd3 _ h3 => ?_
      subst h3
      exact Fwd.pure (hlater (l1.trans l2) rfl)
  · split <;> exact Fwd.pure (hlater l1 rfl)
  · rename_i t
    refine Fwd.bind (Fwd.next_cons hR) fun _ rd2 l2 h2 => Fwd.bind (Q := fun _ rd3 => rd3 = rd2) (Fwd.lift fun _ _ => rfl) fun _ rd3 _ h3 => ?_
    subst h3
    obtain ⟨s, hs, h⟩ := h
    obtain ⟨s', hs', hst⟩ := setText_at i f s hT.field hs
    refine Fwd.pure ⟨s', hs', hT.text t _ s ?_ s' hst⟩
    rw [h2.2, ← hR]
    exact hT.later _ _ s l1 h
  · exact Fwd.throw _

include hrec in
theorem Tracks.loop (hT : Tracks L rec d i f P) (skipFuel : Nat) (named : Str) (startDepth : Nat) :
    ∀ (n : Nat) {st : LoopSt} {rd : Rd}, st.Fine P i rd.visible →
      Fwd (structLoop L rec skipFuel d named startDepth n st) rd fun st' rd' => st'.Fine P i rd'.visible
  | 0, st, rd, _ => by
    simp only [structLoop]
    exact Fwd.diverge
  | n + 1, st, rd, h => by
    simp only [structLoop]
    refine Fwd.bind (hT.step hrec skipFuel named startDepth h) fun r rd' _ h' => ?_
    split
    · exact hT.loop skipFuel named startDepth n h'
    · exact Fwd.pure h'

theorem flattenFields_at {unused : Str} : ∀ {fs : List FieldDef} {ss ss' : List Slot},
    flattenFields L rec unused fs ss = .ok ss' → ∀ (i : Nat) (f : FieldDef), fs[i]? = some f →
      (f.attrs.isAttr = true ∨ f.attrs.flatten = false) → ss'[i]? = ss[i]?
  | [], ss, ss', _, i, f, hf, _ => by simp at hf
  | g :: fs, [], ss', h, i, f, hf, _ => by
    simp only [flattenFields, Res.ok.injEq] at h
    subst h
    rfl
  | g :: fs, s :: ss, ss', h, i, f, hf, hfl => by
    simp only [flattenFields] at h
    rw [Res.bind_eq_ok] at h
    obtain ⟨s1, h1, h⟩ := h
    rw [Res.bind_eq_ok] at h
    obtain ⟨ss1, h2, h⟩ := h
    simp only [Res.ok.injEq] at h
    subst h
    cases i with
    | zero =>
      simp only [List.getElem?_cons_zero, Option.some.injEq] at hf ⊢
      subst hf
      unfold flattenField at h1
      rw [if_neg (by rcases hfl with h | h <;> simp [h])] at h1
      cases h1
      rfl
    | succ i =>
      simp only [List.getElem?_cons_succ] at hf ⊢
      exact flattenFields_at h2 i f hf hfl

theorem buildFields_at {name : Str} : ∀ {fs : List FieldDef} {ss : List Slot} {vs : List Val},
    buildFields name fs ss = .ok vs → ∀ (i : Nat) (f : FieldDef) (s : Slot), fs[i]? = some f → ss[i]? = some s →
      ∃ v, vs[i]? = some v ∧ buildField name f s = .ok v
  | [], ss, vs, _, i, f, v, hf, _ => by simp at hf
  | g :: fs, [], vs, h, i, f, v, hf, hv => by simp at hv
  | g :: fs, s :: ss, vs, h, i, f, v, hf, hv => by
    simp only [buildFields] at h
    rw [Res.bind_eq_ok] at h
    obtain ⟨s1, h1, h⟩ := h
    rw [Res.bind_eq_ok] at h
    obtain ⟨ss1, h2, h⟩ := h
    simp only [Res.ok.injEq] at h
    subst h
    cases i with
    | zero =>
      simp only [List.getElem?_cons_zero, Option.some.injEq] at hf hv ⊢
      subst hf hv
      exact ⟨s1, rfl, h1⟩
    | succ i =>
      simp only [List.getElem?_cons_succ] at hf hv ⊢
      exact buildFields_at h2 i f v hf hv

include hrec in
/-- The value of a field, whatever the document. -/
theorem Tracks.deser (hT : Tracks L rec d i f P) (fuel : Nat) (hfl : f.attrs.isAttr = true ∨ f.attrs.flatten = false) {rd : Rd}
    (h0 : P rd.visible (Slot.init f.ty)) :
    Fwd (structDeser L rec fuel d) rd fun v rd' => ∃ vs, v = .struct vs ∧
      ∃ w, vs[i]? = some w ∧ ∃ s, P rd'.visible s ∧ buildField d.name f s = .ok w := by
  unfold structDeser structBody
  refine Fwd.bind Fwd.peek fun e rd1 l1 _ => Fwd.bind Fwd.get fun rd2 rd2' _ h2 => ?_
  obtain ⟨rfl, rfl⟩ := h2
  refine Fwd.bind (Q := fun _ rd3 => rd3 = rd2') ?_ fun _ rd3 _ h3 => ?_
  · split
    · exact Fwd.ofExcept fun _ _ => rfl
    · exact Fwd.pure rfl
  subst h3
  refine Fwd.bind (hT.loop hrec fuel _ _ fuel ?_) fun st rd4 l4 h4 =>
    Fwd.bind (Q := fun ss rd5 => rd5 = rd4 ∧ ss[i]? = st.slots[i]?) ?_ fun ss rd5 _ h5 =>
    Fwd.bind (Q := fun vs rd6 => rd6 = rd5 ∧ buildFields d.name d.fields ss = .ok vs) (Fwd.lift fun vs hvs => ⟨rfl, hvs⟩)
      fun vs rd6 _ h6 => ?_
  · refine ⟨Slot.init f.ty, ?_, hT.later _ _ _ l1 h0⟩
    simp only [List.getElem?_map, hT.field, Option.map_some]
  · split
    · exact Fwd.lift fun ss hss => ⟨rfl, flattenFields_at hss i f hT.field hfl⟩
    · exact Fwd.pure ⟨rfl, rfl⟩
  · obtain ⟨rfl, h5⟩ := h5
    obtain ⟨rfl, h6⟩ := h6
    obtain ⟨s, hs, h4⟩ := h4
    rw [← h5] at hs
    obtain ⟨w, hw, hb⟩ := buildFields_at h6 i f s hT.field hs
    exact Fwd.pure ⟨vs, rfl, w, hw, s, h4, hb⟩

end

/-! ### All types -/

section
variable (L : Lib) {rec : Path → D Val} (hrec : ∀ p rd, Fwd (rec p) rd fun _ _ => True)
include hrec

omit hrec in
theorem buildFields_le {name : Str} : ∀ {fs : List FieldDef} {ss : List Slot} {vs : List Val},
    buildFields name fs ss = .ok vs → vs.length ≤ fs.length
  | [], ss, vs, h => by simp [buildFields] at h; simp [h]
  | g :: fs, [], vs, h => by simp [buildFields] at h; simp [h]
  | g :: fs, s :: ss, vs, h => by
    simp only [buildFields] at h
    rw [Res.bind_eq_ok] at h
    obtain ⟨s1, h1, h⟩ := h
    rw [Res.bind_eq_ok] at h
    obtain ⟨ss1, h2, h⟩ := h
    simp only [Res.ok.injEq] at h
    subst h
    have := buildFields_le h2
    simpa using this

theorem Fwd.structStart (fuel : Nat) (d : StructDef) (st : LoopSt) (n : Name) (as : List Attr) {rd : Rd} {m : NsMap} {R : List REv}
    (hv : rd.visible = .start n as m :: R) : Fwd (structStart L rec fuel d st n as) rd fun _ _ => True := by
  have hL : ∀ {α : Type} (x : Res α) (rd : Rd), Fwd (M.lift x) rd fun _ _ => True := fun x rd => Fwd.lift fun _ _ => trivial
  unfold Yaserde.structStart
  dsimp only
  refine Fwd.bind (Q := fun _ _ => True) ?_ fun st' rd' _ _ =>
    Fwd.bind (Q := fun _ _ => True) ?_ fun st'' rd'' _ _ => Fwd.pure trivial
  · split
    · exact Fwd.bind Fwd.next fun _ _ _ _ => Fwd.bind (hL _ _) fun _ _ _ _ => Fwd.pure trivial
    · split
      · split
        · unfold callVisitor
          split
          · exact (Fwd.callStruct hrec _ _ _ hv).any
          · exact (Fwd.callSimple L _ _ _ _ _ _ hv).any
          · exact Fwd.panic _
        · exact Fwd.pure trivial
      · refine Fwd.bind Fwd.next fun _ _ _ _ => Fwd.bind (hL _ _) fun _ _ _ _ => ?_
        split
        · exact Fwd.bind (Fwd.skipElement _) fun _ _ _ _ => Fwd.bind (hL _ _) fun _ _ _ _ => Fwd.pure trivial
        · exact Fwd.pure trivial
  · split
    · exact Fwd.bind (hL _ _) fun _ _ _ _ => Fwd.pure trivial
    · exact Fwd.pure trivial

theorem Fwd.structLoop (skipFuel : Nat) (d : StructDef) (named : Str) (startDepth : Nat) : ∀ (n : Nat) (st : LoopSt) (rd : Rd),
    Fwd (structLoop L rec skipFuel d named startDepth n st) rd fun _ _ => True
  | 0, _, _ => by
    simp only [Yaserde.structLoop]
    exact Fwd.diverge
  | n + 1, st, rd => by
    have hL : ∀ {α : Type} (x : Res α) (rd : Rd), Fwd (M.lift x) rd fun _ _ => True := fun x rd => Fwd.lift fun _ _ => trivial
    simp only [Yaserde.structLoop]
    refine Fwd.bind (Q := fun _ _ => True) ?_ fun r rd' _ _ => ?_
    · unfold structStep
      refine Fwd.bind Fwd.peek fun e rd1 _ h1 => ?_
      obtain ⟨⟨R, hR⟩, -⟩ := h1
      split
      · exact Fwd.bind (Fwd.structStart L hrec _ _ _ _ _ hR) fun _ _ _ _ => Fwd.pure trivial
      · refine Fwd.bind Fwd.get fun _ _ _ _ => ?_
        split
        · exact Fwd.bind (hL _ _) fun _ _ _ _ => Fwd.pure trivial
        · exact Fwd.bind Fwd.next fun _ _ _ _ => Fwd.bind (hL _ _) fun _ _ _ _ => Fwd.pure trivial
      · split <;> exact Fwd.pure trivial
      · exact Fwd.bind Fwd.next fun _ _ _ _ => Fwd.bind (hL _ _) fun _ _ _ _ => Fwd.pure trivial
      · exact Fwd.throw _
    · split
      · exact Fwd.structLoop skipFuel d named startDepth n _ _
      · exact Fwd.pure trivial

theorem Fwd.structDeser (fuel : Nat) (d : StructDef) (rd : Rd) :
    Fwd (structDeser L rec fuel d) rd fun v _ => ∃ vs, v = .struct vs ∧ vs.length ≤ d.fields.length := by
  have hL : ∀ {α : Type} (x : Res α) (rd : Rd), Fwd (M.lift x) rd fun _ _ => True := fun x rd => Fwd.lift fun _ _ => trivial
  unfold Yaserde.structDeser structBody
  refine Fwd.bind Fwd.peek fun e rd1 _ _ => Fwd.bind Fwd.get fun _ rd2 _ _ => Fwd.bind (Q := fun _ _ => True) ?_ fun _ _ _ _ =>
    Fwd.bind (Fwd.structLoop L hrec _ _ _ _ _ _ _) fun st rd4 _ _ => Fwd.bind (Q := fun _ _ => True) ?_ fun _ _ _ _ =>
    Fwd.bind (Q := fun vs _ => vs.length ≤ d.fields.length) (Fwd.lift fun vs hvs => buildFields_le hvs) fun vs _ _ h => Fwd.pure ⟨vs, rfl, h⟩
  · split
    · exact Fwd.ofExcept fun _ _ => trivial
    · exact Fwd.pure trivial
  · split
    · exact hL _ _
    · exact Fwd.pure trivial

theorem Fwd.variantArm (i : Nat) (v : VariantDef) (cur : Option Val) (rd : Rd) : Fwd (variantArm L rec i v cur) rd fun _ _ => True := by
  have hE : ∀ {α : Type} (x : Except Str α) (rd : Rd), Fwd (M.ofExcept x) rd fun _ _ => True := fun x rd => Fwd.ofExcept fun _ _ => trivial
  have hV : ∀ (t : STy) (s : Str) (rd : Rd), Fwd (visitUnwrap L t s) rd fun _ _ => True := by
    intro t s rd
    unfold visitUnwrap
    split
    · exact Fwd.pure trivial
    · exact Fwd.panic _
  unfold Yaserde.variantArm
  split
  · exact Fwd.pure trivial
  · exact Fwd.pure trivial
  · split
    · exact Fwd.bind (hrec _ _) fun _ _ _ _ => Fwd.bind (hE _ _) fun _ _ _ _ => Fwd.bind (Fwd.attempt Fwd.next) fun _ _ _ _ => Fwd.pure trivial
    · refine Fwd.bind (Fwd.attempt (Fwd.readInner_any fun rd1 => ?_)) fun r rd2 _ _ => ?_
      · unfold variantInner
        refine Fwd.bind Fwd.peek fun e rd2 _ _ => ?_
        split
        · exact hV _ _ _
        · refine Fwd.bind (Fwd.attempt Fwd.next) fun r rd3 _ _ => ?_
          split
          · exact hV _ _ _
          · exact Fwd.throw _
      · split
        · exact Fwd.bind (hE _ _) fun _ _ _ _ => Fwd.pure trivial
        · exact Fwd.pure trivial
    · exact Fwd.panic _

theorem Fwd.enumMatch (d : EnumDef) (key : Str) (cur : Option Val) (dflt : D (Option Val × Bool)) (rd : Rd)
    (hd : Fwd dflt rd fun _ _ => True) : Fwd (enumMatch L rec d key cur dflt) rd fun _ _ => True := by
  unfold Yaserde.enumMatch
  split
  · split
    · exact Fwd.variantArm L hrec _ _ _ _
    · exact hd
  · exact hd

theorem Fwd.enumLoop (d : EnumDef) (named : Str) (startDepth : Nat) : ∀ (n : Nat) (cur : Option Val) (rd : Rd),
    Fwd (enumLoop L rec d named startDepth n cur) rd fun _ _ => True
  | 0, _, _ => by
    simp only [Yaserde.enumLoop]
    exact Fwd.diverge
  | n + 1, cur, rd => by
    have hN : ∀ (x : Option Val × Bool) (rd : Rd), Fwd (M.attempt nextEvent >>= fun _ => M.pure x) rd fun _ _ => True :=
      fun x rd => Fwd.bind (Fwd.attempt Fwd.next) fun _ _ _ _ => Fwd.pure trivial
    simp only [Yaserde.enumLoop]
    refine Fwd.bind (Q := fun _ _ => True) ?_ fun r rd' _ _ => ?_
    · unfold enumStep
      refine Fwd.bind Fwd.peek fun e rd1 _ _ => ?_
      split
      · refine Fwd.bind (Q := fun _ _ => True) (Fwd.ofExcept fun _ _ => trivial) fun key rd2 _ _ =>
          Fwd.bind (Fwd.enumMatch L hrec _ _ _ _ _ (hN _ _)) fun r rd3 _ _ => ?_
        split
        split
        · refine Fwd.bind Fwd.peek fun e rd4 _ _ => ?_
          split
          · exact Fwd.enumMatch L hrec _ _ _ _ _ (Fwd.pure trivial)
          · exact Fwd.pure trivial
        · exact Fwd.pure trivial
      · refine Fwd.bind Fwd.get fun _ _ _ _ => ?_
        split
        · exact Fwd.pure trivial
        · exact hN _ _
      · exact hN _ _
      · split
        · exact Fwd.pure trivial
        · exact Fwd.throw _
      · exact Fwd.throw _
    · split
      · exact Fwd.enumLoop d named startDepth n _ _
      · exact Fwd.pure trivial

theorem Fwd.enumDeser (fuel : Nat) (d : EnumDef) (rd : Rd) : Fwd (enumDeser L rec fuel d) rd fun _ _ => True := by
  unfold Yaserde.enumDeser enumBody
  exact Fwd.bind Fwd.peek fun e rd1 _ _ => Fwd.bind Fwd.get fun _ rd2 _ _ =>
    Fwd.bind (Q := fun _ _ => True) (Fwd.ofExcept fun _ _ => trivial) fun _ _ _ _ =>
    Fwd.bind (Fwd.enumLoop L hrec _ _ _ _ _ _) fun _ _ _ _ => Fwd.pure trivial

end

theorem Fwd.primDeser (d : PrimDef) (rd : Rd) : Fwd (primDeser d) rd fun _ _ => True := by
  have hE : ∀ {α : Type} (x : Except Str α) (rd : Rd), Fwd (M.ofExcept x) rd fun _ _ => True := fun x rd => Fwd.ofExcept fun _ _ => trivial
  unfold Yaserde.primDeser
  refine Fwd.bind (Fwd.attempt Fwd.peek) fun r rd1 _ _ => ?_
  split
  · refine Fwd.bind Fwd.next fun _ _ _ _ => Fwd.bind (Fwd.attempt Fwd.peek) fun r rd2 _ _ => ?_
    split <;> exact hE _ _
  · exact Fwd.throw _

/-- Every generated deserializer moves forward. -/
theorem Fwd.deser (L : Lib) (env : Env) : ∀ (n : Nat) (p : Path) (rd : Rd), Fwd (deser L env n p) rd fun _ _ => True
  | 0, _, _ => by
    simp only [Yaserde.deser]
    exact Fwd.diverge
  | n + 1, p, rd => by
    simp only [Yaserde.deser]
    split
    · exact (Fwd.structDeser L (Fwd.deser L env n) _ _ _).any
    · exact Fwd.enumDeser L (Fwd.deser L env n) _ _ _
    · exact Fwd.primDeser _ _
    · exact Fwd.panic _

end Yaserde
