import Verif.Model.Counter
import Verif.Proofs.Decode
import Verif.Proofs.Term
/-
The `i32` counter of the generated struct deserializer does not overflow on documents with fewer than 2^31 events (for C81).
-/

set_option autoImplicit false

namespace Yaserde

/-- `k` events further on (the reader may have turned the end of the input into an event). -/
def FwdC (k : Nat) (rd rd' : Rd) : Prop :=
  rd'.visible = rd.visible.drop k ∨ (rd.visible.length ≤ k ∧ rd'.visible = [.endDocument])

theorem FwdC.refl (rd : Rd) : FwdC 0 rd rd := .inl (by simp)

theorem FwdC.trans {k l : Nat} {a b c : Rd} (h : FwdC k a b) (h' : FwdC l b c) : FwdC (k + l) a c := by
  rcases h with h | ⟨h1, h2⟩
  · rcases h' with h' | ⟨h3, h4⟩
    · left; rw [h', h, List.drop_drop]
    · right
      rw [h, List.length_drop] at h3
      exact ⟨by omega, h4⟩
  · rcases h' with h' | ⟨h3, h4⟩
    · rw [h2] at h'
      cases l with
      | zero => right; exact ⟨by omega, by simpa using h'⟩
      | succ l =>
        left
        rw [h', List.drop_eq_nil_of_le (by simp), List.drop_eq_nil_of_le (by omega)]
    · right; exact ⟨by omega, h4⟩

theorem FwdC.len {k : Nat} {a b : Rd} (h : FwdC k a b) {m : Nat} (hm : 1 ≤ m) (ha : a.visible.length ≤ m) : b.visible.length ≤ m := by
  rcases h with h | ⟨-, h⟩ <;> rw [h]
  · rw [List.length_drop]; omega
  · exact hm

/-- In front of an event other than the end, fewer events have been taken than there are. -/
theorem FwdC.lt {k : Nat} {a b : Rd} (h : FwdC k a b) {e : REv} {es : List REv} (hb : b.visible = e :: es) (he : e ≠ .endDocument) :
    k < a.visible.length := by
  rcases h with h | ⟨-, h⟩
  · have : (a.visible.drop k).length ≠ 0 := by rw [← h, hb]; simp
    rw [List.length_drop] at this
    omega
  · rw [h] at hb; cases hb; exact (he rfl).elim

theorem peek_fwd (rd : Rd) : FwdC 0 rd (peek rd).2 := by
  have h := at_self rd
  cases hv : rd.visible with
  | cons e es =>
    rw [hv] at h
    obtain ⟨rd', h1, h2⟩ := peek_at h
    left
    rw [h1, h2.vis, hv]; rfl
  | nil =>
    rw [hv] at h
    rcases peek_at_nil h with ⟨hf, rd', h1, h2⟩ | ⟨m, rd', hf, h1, h2⟩
    · right; rw [h1, hv]; exact ⟨by simp, h2.vis⟩
    · left; rw [h1, hv]; exact h2.vis

theorem next_fwd (rd : Rd) : FwdC 1 rd (nextEvent rd).2 := by
  have h := at_self rd
  cases hv : rd.visible with
  | cons e es =>
    rw [hv] at h
    obtain ⟨rd', h1, h2⟩ := nextEvent_at h
    left
    rw [h1, hv]
    show _ = es
    rw [← h2.vis]
    unfold trackDepth
    split
    · rfl
    · split <;> rfl
    · rfl
  | nil =>
    rw [hv] at h
    obtain ⟨rd', h1, h2⟩ := next_at_nil h
    left
    rw [h1, hv]
    exact h2.vis

/-- The two computations do the same in front of at most `m` events, move forward, and by at least `j` events if they succeed. -/
def SameC {α : Type} (m j : Nat) (x y : D α) : Prop :=
  ∀ rd : Rd, rd.visible.length ≤ m → x rd = y rd ∧ ∃ k, FwdC k rd (y rd).2 ∧ ∀ a, (y rd).1 = .ok a → j ≤ k

section
variable {α β : Type} {m : Nat}

theorem SameC.app {j : Nat} {x y : D α} (h : SameC m j x y) {rd : Rd} (hrd : rd.visible.length ≤ m) :
    x rd = y rd ∧ ∃ k, FwdC k rd (y rd).2 ∧ ∀ a, (y rd).1 = .ok a → j ≤ k := h rd hrd

theorem SameC.weaken {j j' : Nat} {x y : D α} (h : SameC m j x y) (hj : j' ≤ j) : SameC m j' x y := by
  intro rd hm
  obtain ⟨h1, k, h2, h3⟩ := h rd hm
  exact ⟨h1, k, h2, fun a ha => Nat.le_trans hj (h3 a ha)⟩

theorem SameC.still {x : D α} (h : ∀ rd, (x rd).2 = rd) : SameC m 0 x x :=
  fun rd _ => ⟨rfl, 0, by rw [h]; exact .refl rd, fun _ _ => Nat.le_refl _⟩

theorem SameC.of_ne {j : Nat} {x : D α} (h : ∀ rd, (x rd).2 = rd) (h' : ∀ rd a, (x rd).1 ≠ .ok a) : SameC m j x x :=
  fun rd _ => ⟨rfl, 0, by rw [h]; exact .refl rd, fun a ha => (h' rd a ha).elim⟩

theorem SameC.pure (a : α) : SameC m 0 (M.pure a) (M.pure a) := .still fun _ => rfl
theorem SameC.throw (e : Str) {j : Nat} : SameC (α := α) m j (M.throw e) (M.throw e) := .of_ne (fun _ => rfl) fun _ _ h => by cases h
theorem SameC.panic (e : Str) {j : Nat} : SameC (α := α) m j (M.panic e) (M.panic e) := .of_ne (fun _ => rfl) fun _ _ h => by cases h
theorem SameC.diverge {j : Nat} : SameC (α := α) m j M.diverge M.diverge := .of_ne (fun _ => rfl) fun _ _ h => by cases h
theorem SameC.lift {r r' : Res α} (h : r = r') : SameC m 0 (M.lift r) (M.lift r') := by subst h; exact .still fun _ => rfl
theorem SameC.ofExcept (r : Except Str α) : SameC m 0 (M.ofExcept r) (M.ofExcept r) := .still fun _ => by cases r <;> rfl
theorem SameC.peek : SameC m 0 Yaserde.peek Yaserde.peek := fun rd _ => ⟨rfl, 0, peek_fwd rd, fun _ _ => Nat.le_refl _⟩
theorem SameC.next : SameC m 1 nextEvent nextEvent := fun rd _ => ⟨rfl, 1, next_fwd rd, fun _ _ => Nat.le_refl _⟩

theorem SameC.bind {i j : Nat} {x y : D α} {f g : α → D β} (hm : 1 ≤ m) (h : SameC m i x y) (hf : ∀ a, SameC m j (f a) (g a)) :
    SameC m (i + j) (x >>= f) (y >>= g) := by
  intro rd hrd
  obtain ⟨h1, k, h2, h3⟩ := h rd hrd
  cases hy : y rd with
  | mk r rd' =>
    rw [hy] at h1 h2 h3
    cases r with
    | ok a =>
      obtain ⟨h4, l, h5, h6⟩ := hf a rd' (h2.len hm hrd)
      rw [bind_ok h1, bind_ok hy]
      refine ⟨h4, k + l, h2.trans h5, fun b hb => ?_⟩
      have := h3 a rfl
      have := h6 b hb
      omega
    | err e => rw [bind_err h1, bind_err hy]; exact ⟨rfl, k, h2, fun _ hb => by cases hb⟩
    | panic e => rw [bind_panic h1, bind_panic hy]; exact ⟨rfl, k, h2, fun _ hb => by cases hb⟩
    | diverge => rw [bind_diverge h1, bind_diverge hy]; exact ⟨rfl, k, h2, fun _ hb => by cases hb⟩

/-- The weaker form, without counting. -/
theorem SameC.bind0 {i : Nat} {x y : D α} {f g : α → D β} (hm : 1 ≤ m) (h : SameC m i x y) (hf : ∀ a, SameC m 0 (f a) (g a)) :
    SameC m 0 (x >>= f) (y >>= g) := (h.bind hm hf).weaken (Nat.zero_le _)

theorem SameC.attempt {j : Nat} {x y : D α} (h : SameC m j x y) : SameC m 0 (M.attempt x) (M.attempt y) := by
  intro rd hrd
  obtain ⟨h1, k, h2, -⟩ := h rd hrd
  refine ⟨by simp only [M.attempt, h1], k, ?_, fun _ _ => Nat.zero_le _⟩
  simp only [M.attempt]
  revert h2
  cases y rd with
  | mk r rd' => intro h2; cases r <;> exact h2

/-- `attempt next_event` takes an event, whatever it is. -/
theorem SameC.anext : SameC m 1 (M.attempt nextEvent) (M.attempt nextEvent) := by
  intro rd _
  refine ⟨rfl, 1, ?_, fun _ _ => Nat.le_refl _⟩
  have := next_fwd rd
  revert this
  simp only [M.attempt]
  cases nextEvent rd with
  | mk r rd' => intro h2; cases r <;> exact h2

theorem SameC.get {j : Nat} {f g : Rd → D α} (h : ∀ rd : Rd, rd.visible.length ≤ m → f rd rd = g rd rd ∧ ∃ k, FwdC k rd (g rd rd).2 ∧
    ∀ a, (g rd rd).1 = .ok a → j ≤ k) : SameC m j (M.get >>= f) (M.get >>= g) := by
  intro rd hrd
  simpa only [bind_get] using h rd hrd

theorem SameC.ite {j : Nat} {c : Prop} [Decidable c] {x y x' y' : D α} (h : SameC m j x x') (h' : SameC m j y y') :
    SameC m j (if c then x else y) (if c then x' else y') := by
  split
  · exact h
  · exact h'

theorem SameC.skipLoop (hm : 1 ≤ m) (n depth : Nat) : ∀ acc, SameC m 0 (skipLoop n depth acc) (Yaserde.skipLoop n depth acc) := by
  induction n with
  | zero => intro acc; exact .diverge
  | succ n ih =>
    intro acc rd hrd
    unfold Yaserde.skipLoop
    split
    · exact SameC.bind0 hm .next (fun e => ih _) rd hrd
    · exact SameC.pure acc rd hrd

theorem SameC.skipElement (hm : 1 ≤ m) (n : Nat) : SameC m 0 (skipElement n) (Yaserde.skipElement n) :=
  fun rd hrd => SameC.skipLoop hm n rd.depth [] rd hrd

theorem SameC.expectEnd (hm : 1 ≤ m) (name : Name) : SameC m 1 (expectEndElement name) (expectEndElement name) := by
  unfold expectEndElement
  refine .bind (j := 0) hm .next fun e => ?_
  split
  · exact .ite (.pure _) (.throw _)
  · exact .throw _

theorem SameC.readInner (hm : 1 ≤ m) {f : D α} (hf : SameC m 0 f f) : SameC m 1 (readInnerValue f) (readInnerValue f) := by
  unfold readInnerValue
  refine .bind (j := 0) hm .anext fun r => ?_
  split
  · exact .bind0 hm hf fun _ => .bind0 hm (.expectEnd hm _) fun _ => .pure _
  · exact .throw _

theorem attempt_congr {x y : D α} {rd rd' : Rd} (h : x rd = y rd') : M.attempt x rd = M.attempt y rd' := by
  unfold M.attempt; rw [h]

theorem attempt_panic {x : D α} {rd rd' : Rd} {e : Str} (h : x rd = (.panic e, rd')) : M.attempt x rd = (.panic e, rd') := by
  unfold M.attempt; rw [h]

theorem attempt_diverge {x : D α} {rd rd' : Rd} (h : x rd = (.diverge, rd')) : M.attempt x rd = (.diverge, rd') := by
  unfold M.attempt; rw [h]

theorem SameC.attempt_anext (hm : 1 ≤ m) {g : Except Str REv → D α} (hg : ∀ r, SameC m 0 (g r) (g r)) :
    SameC m 1 (M.attempt (M.attempt nextEvent >>= g)) (M.attempt (M.attempt nextEvent >>= g)) := by
  intro rd hrd
  refine ⟨rfl, ?_⟩
  obtain ⟨-, k, h2, h3⟩ := SameC.anext (m := m) rd hrd
  cases hx : M.attempt nextEvent rd with
  | mk r rd' =>
    rw [hx] at h2 h3
    cases r with
    | ok a =>
      obtain ⟨-, l, h5, -⟩ := (hg a).attempt rd' (h2.len hm hrd)
      have : M.attempt (M.attempt nextEvent >>= g) rd = M.attempt (g a) rd' := attempt_congr (bind_ok hx)
      rw [this]
      exact ⟨k + l, h2.trans h5, fun _ _ => by have := h3 a rfl; omega⟩
    | err e => exfalso; revert hx; simp only [M.attempt]; cases nextEvent rd with | mk r _ => cases r <;> simp
    | panic e =>
      have : M.attempt (M.attempt nextEvent >>= g) rd = (.panic e, rd') := attempt_panic (bind_panic hx)
      rw [this]; exact ⟨k, h2, fun _ h => by cases h⟩
    | diverge =>
      have : M.attempt (M.attempt nextEvent >>= g) rd = (.diverge, rd') := attempt_diverge (bind_diverge hx)
      rw [this]; exact ⟨k, h2, fun _ h => by cases h⟩

/-- `attempt (read_inner_value …)` takes at least an event. -/
theorem SameC.attemptInner (hm : 1 ≤ m) {f : D α} (hf : SameC m 0 f f) : SameC m 1 (M.attempt (readInnerValue f)) (M.attempt (readInnerValue f)) := by
  unfold readInnerValue
  refine .attempt_anext hm fun r => ?_
  split
  · exact .bind0 hm hf fun _ => .bind0 hm (.expectEnd hm _) fun _ => .pure _
  · exact .throw _

end

/-- What a computation returns when it succeeds. -/
def Gives {α : Type} (x : D α) (Q : α → Prop) : Prop := ∀ rd a, (x rd).1 = .ok a → Q a

section
variable {α β : Type}

theorem Gives.pure {a : α} {Q : α → Prop} (h : Q a) : Gives (M.pure a) Q := fun _ _ h' => by cases h'; exact h
theorem Gives.any (x : D α) : Gives x fun _ => True := fun _ _ _ => trivial

theorem Gives.bind {x : D α} {f : α → D β} {Q : α → Prop} {R : β → Prop} (hx : Gives x Q) (hf : ∀ a, Q a → Gives (f a) R) :
    Gives (x >>= f) R := by
  intro rd b hb
  cases hy : x rd with
  | mk r rd' =>
    cases r with
    | ok a => rw [bind_ok hy] at hb; exact hf a (hx rd a (by rw [hy])) rd' b hb
    | err e => rw [bind_err hy] at hb; cases hb
    | panic e => rw [bind_panic hy] at hb; cases hb
    | diverge => rw [bind_diverge hy] at hb; cases hb

theorem Gives.ite {c : Prop} [Decidable c] {x y : D α} {Q : α → Prop} (hx : Gives x Q) (hy : Gives y Q) :
    Gives (if c then x else y) Q := by
  split
  · exact hx
  · exact hy

end

theorem structStart_gives (L : Lib) (rec : Path → D Val) (fuel : Nat) (d : StructDef) (st : LoopSt) (n : Name) (as : List Attr) :
    Gives (structStart L rec fuel d st n as) fun st' => st'.depth = st.depth + 1 := by
  unfold structStart
  refine .bind (Q := fun st' => st'.depth = st.depth) ?_ fun st' h' => .bind (Q := fun st' => st'.depth = st.depth) ?_ fun st'' h'' => .pure (by
    show st''.depth + 1 = _; rw [h''])
  · refine .ite (.bind (.any _) fun _ _ => .bind (.any _) fun _ _ => .pure rfl) ?_
    split
    · split
      · unfold callVisitor
        split
        · unfold callStruct
          refine .bind (.any _) fun _ _ => .bind (.any _) fun r _ => ?_
          split
          · exact .bind (.any _) fun _ _ => .bind (.any _) fun _ _ => .pure rfl
          · exact .pure rfl
        · unfold callSimple
          refine .bind (.any _) fun _ _ => .bind (.any _) fun r _ => ?_
          split <;> exact .pure rfl
        · intro _ _ h; cases h
      · exact .pure rfl
    · refine .bind (.any _) fun _ _ => .bind (.any _) fun _ _ => .ite ?_ (.pure rfl)
      exact .bind (.any _) fun _ _ => .bind (.any _) fun _ _ => .pure rfl
  · exact .ite (.bind (.any _) fun _ _ => .pure h') (.pure h')

/-! ### The generated code -/

/-- What else is read is short: texts in attributes of types that are not scalars, and the residue for flattened fields. -/
def Short (L : Lib) (d : StructDef) (m : Nat) : Prop :=
  (d.hasFlat = false ∧ ∀ f ∈ d.fields, f.attrs.isAttr = true → ∀ q, f.ty.core ≠ .struct q) ∨
  ∀ s, (Rd.new (L.parse s)).visible.length ≤ m

section
variable {L : Lib} {rec rec' : Path → D Val} {m : Nat} (hm : 1 ≤ m) (hrec : ∀ p, SameC m 0 (rec p) (rec' p))
include hm hrec

theorem fromStr_same (hs : ∀ s, (Rd.new (L.parse s)).visible.length ≤ m) (p : Path) (s : Str) :
    fromStr L rec p s = fromStr L rec' p s := by
  unfold fromStr
  rw [(hrec p _ (hs s)).1]

theorem loadAttrField_counter (f : FieldDef)
    (hs : (∀ q, f.ty.core ≠ .struct q) ∨ ∀ s, (Rd.new (L.parse s)).visible.length ≤ m) (as : List Attr) (s : Slot) :
    loadAttrField L rec f as s = loadAttrField L rec' f as s := by
  have h : ∀ v, visitAttr L rec f.ty.core v = visitAttr L rec' f.ty.core v := by
    intro v
    unfold visitAttr
    split
    · rfl
    · rename_i q hq
      rcases hs with hs | hs
      · exact (hs q hq).elim
      · exact fromStr_same hm hrec hs q _
    · rfl
  unfold loadAttrField
  congr 1
  funext slot a
  split
  · cases ht : f.ty with
    | vec t =>
      rw [ht] at h
      dsimp only
      congr 1
      funext slot w
      rw [show visitAttr L rec t w = visitAttr L rec' t w from h w]
    | simple t => rw [ht] at h; dsimp only; rw [h]
    | struct t => rw [ht] at h; dsimp only; rw [h]
    | opt t => rw [ht] at h; dsimp only; rw [h]
  · rfl

theorem loadAttrs_counter (as : List Attr) (fs : List FieldDef)
    (hs : (∀ f ∈ fs, f.attrs.isAttr = true → ∀ q, f.ty.core ≠ .struct q) ∨ ∀ s, (Rd.new (L.parse s)).visible.length ≤ m) :
    ∀ ss, loadAttrs L rec fs as ss = loadAttrs L rec' fs as ss := by
  induction fs with
  | nil => intro ss; rfl
  | cons f fs ih =>
    intro ss
    cases ss with
    | nil => rfl
    | cons s ss =>
      have ih' := ih (hs.imp_left fun h g hg => h g (List.mem_cons_of_mem _ hg))
      have : (if f.attrs.isAttr then loadAttrField L rec f as s else .ok s) =
          if f.attrs.isAttr then loadAttrField L rec' f as s else .ok s := by
        split
        · rename_i ha
          exact loadAttrField_counter hm hrec f (hs.imp_left fun h => h f (List.mem_cons_self ..) ha) as s
        · rfl
      simp only [loadAttrs, this, ih']

theorem flattenFields_same (hs : ∀ s, (Rd.new (L.parse s)).visible.length ≤ m) (unused : Str) (fs : List FieldDef) :
    ∀ ss, flattenFields L rec unused fs ss = flattenFields L rec' unused fs ss := by
  induction fs with
  | nil => intro ss; rfl
  | cons f fs ih =>
    intro ss
    cases ss with
    | nil => rfl
    | cons s ss =>
      have : flattenField L rec unused f s = flattenField L rec' unused f s := by
        unfold flattenField
        split
        · split
          · rw [fromStr_same hm hrec hs]
          · rw [fromStr_same hm hrec hs]
          · rfl
        · rfl
      simp only [flattenFields, this, ih]

omit hrec in
theorem SameC.simpleInner (f : FieldDef) (t : STy) : SameC m 0 (simpleInner L f t) (Yaserde.simpleInner L f t) := by
  unfold Yaserde.simpleInner
  refine .bind0 hm (.attempt .peek) fun r => ?_
  split
  · refine .bind0 hm .next fun _ => ?_
    split
    · exact .pure _
    · exact .throw _
  · exact .throw _

omit hrec in
theorem SameC.callSimple (root : Attrs) (f : FieldDef) (i : Nat) (t : STy) (name : Name) (st : LoopSt) :
    SameC m 1 (callSimple L root f i t name st) (Yaserde.callSimple L root f i t name st) := by
  unfold Yaserde.callSimple
  refine (SameC.bind (i := 0) (j := 1) hm (.ofExcept _) fun _ => .bind (i := 1) (j := 0) hm (.attemptInner hm (.simpleInner hm f t)) fun r => ?_).weaken
    (by omega)
  split <;> exact .pure _

theorem SameC.callStruct (i : Nat) (p : Path) (st : LoopSt) :
    SameC m 0 (callStruct rec i p st) (Yaserde.callStruct rec' i p st) := by
  unfold Yaserde.callStruct
  refine .bind0 hm (.ite (.bind0 hm .anext fun _ => .pure _) (.pure _)) fun _ => .bind0 hm (.attempt .peek) fun r => ?_
  split
  · exact .bind0 hm (hrec p) fun _ => .bind0 hm .next fun _ => .pure _
  · exact .pure _

/-- In front of a start tag, it is taken. -/
theorem callStruct_moves (i : Nat) (p : Path) (st : LoopSt) (rd : Rd) (hrd : rd.visible.length ≤ m) (n : Name) (as : List Attr) (ns : NsMap)
    (es : List REv) (hv : rd.visible = .start n as ns :: es) :
    ∃ k, FwdC k rd (Yaserde.callStruct rec' i p st rd).2 ∧ ∀ a, (Yaserde.callStruct rec' i p st rd).1 = .ok a → 1 ≤ k := by
  by_cases hd : st.depth = 0
  · have h : SameC m 1 (Yaserde.callStruct rec' i p st) (Yaserde.callStruct rec' i p st) := by
      unfold Yaserde.callStruct
      rw [if_pos hd]
      refine SameC.bind (i := 1) (j := 0) hm (.bind (i := 1) (j := 0) hm .anext fun _ => .pure _) fun _ =>
        .bind0 hm (.attempt .peek) fun r => ?_
      split
      · exact .bind0 hm (x := rec' p) (fun rd h => ⟨rfl, (hrec p rd h).2⟩) fun _ => .bind0 hm .next fun _ => .pure _
      · exact .pure _
    exact (h rd hrd).2
  · have hat := at_self rd
    rw [hv] at hat
    obtain ⟨rd1, h1, a1⟩ := peek_at hat
    have : Yaserde.callStruct rec' i p st rd = (rec' p >>= fun v => nextEvent >>= fun _ => M.pure (st.setSlot i (Slot.put v))) rd1 := by
      unfold Yaserde.callStruct
      rw [if_neg hd, bind_pure', bind_ok (attempt_ok h1)]
    rw [this]
    have hf : FwdC 0 rd rd1 := .inl (by rw [a1.vis, hv]; rfl)
    obtain ⟨-, k, h3, h4⟩ := SameC.bind (i := 0) (j := 1) hm (x := rec' p) (fun rd h => ⟨rfl, (hrec p rd h).2⟩) (fun v =>
      SameC.bind (i := 1) (j := 0) (f := fun _ => M.pure (st.setSlot i (Slot.put v))) hm .next fun _ => .pure _) rd1 (hf.len hm hrd)
    exact ⟨0 + k, hf.trans h3, fun a ha => by have := h4 a ha; omega⟩

theorem structStart_same (fuel : Nat) (d : StructDef) (hs : Short L d m) (st : LoopSt) (rd : Rd) (hrd : rd.visible.length ≤ m) (n : Name)
    (as : List Attr) (ns : NsMap) (es : List REv) (hv : rd.visible = .start n as ns :: es) :
    structStart L rec fuel d st n as rd = structStart L rec' fuel d st n as rd ∧
    ∃ k, FwdC k rd (structStart L rec' fuel d st n as rd).2 ∧ ∀ st', (structStart L rec' fuel d st n as rd).1 = .ok st' →
      1 ≤ k := by
  have hafter : ∀ st' : LoopSt, SameC m 0
      ((if st'.depth = 0 then
        M.lift (loadAttrs L rec d.fields as st'.slots) >>= fun ss => M.pure { st' with slots := ss }
      else M.pure st') >>= fun st'' => M.pure { st'' with depth := st''.depth + 1 } : D LoopSt)
      ((if st'.depth = 0 then
        M.lift (loadAttrs L rec' d.fields as st'.slots) >>= fun ss => M.pure { st' with slots := ss }
      else M.pure st') >>= fun st'' => M.pure { st'' with depth := st''.depth + 1 } : D LoopSt) := by
    intro st'
    refine .bind0 hm (.ite (.bind0 hm (.lift (loadAttrs_counter hm hrec as d.fields ?_ _)) fun _ => .pure _) (.pure _)) fun _ => .pure _
    exact hs.imp_left And.right
  -- putting an arm in front
  have glue : ∀ x y : D LoopSt, (x rd = y rd ∧ ∃ k, FwdC k rd (y rd).2 ∧ ∀ a, (y rd).1 = .ok a → 1 ≤ k) →
      ∀ f g : LoopSt → D LoopSt, (∀ a, SameC m 0 (f a) (g a)) →
      (x >>= f) rd = (y >>= g) rd ∧ ∃ k, FwdC k rd ((y >>= g) rd).2 ∧ ∀ a, ((y >>= g) rd).1 = .ok a → 1 ≤ k := by
    rintro x y ⟨h1, k, h2, h3⟩ f g hfg
    cases hy : y rd with
    | mk r rd' =>
      rw [hy] at h1 h2 h3
      cases r with
      | ok a =>
        obtain ⟨h4, l, h5, -⟩ := hfg a rd' (h2.len hm hrd)
        rw [bind_ok h1, bind_ok hy]
        exact ⟨h4, k + l, h2.trans h5, fun b hb => by have := h3 a rfl; omega⟩
      | err e => rw [bind_err h1, bind_err hy]; exact ⟨rfl, k, h2, fun _ hb => by cases hb⟩
      | panic e => rw [bind_panic h1, bind_panic hy]; exact ⟨rfl, k, h2, fun _ hb => by cases hb⟩
      | diverge => rw [bind_diverge h1, bind_diverge hy]; exact ⟨rfl, k, h2, fun _ hb => by cases hb⟩
  unfold structStart
  refine glue _ _ ?_ _ _ hafter
  by_cases hroot : st.depth = 0 ∧ n.loc = d.attrs.xmlElementName d.name ∧ n.ns.getD [] = d.attrs.rootNamespace
  · rw [if_pos hroot, if_pos hroot]
    refine SameC.app (j := 1) ?_ hrd
    exact SameC.bind (i := 1) (j := 0) hm .next fun _ => .bind0 hm (.lift rfl) fun _ => .pure _
  · simp only [if_neg hroot]
    cases hfa : findArm d.attrs (n.ns.getD []) n.loc d.fields with
    | some i =>
      have := findArm_lt hfa
      dsimp only
      rw [List.getElem?_eq_getElem this]
      dsimp only
      unfold callVisitor
      cases d.fields[i].ty.core with
      | struct q => exact ⟨(SameC.callStruct hm hrec _ _ _ rd hrd).1, callStruct_moves hm hrec _ _ _ rd hrd n as ns es hv⟩
      | simple t => exact SameC.callSimple hm _ _ _ _ _ _ rd hrd
      | opt t => exact SameC.panic _ rd hrd
      | vec t => exact SameC.panic _ rd hrd
    | none =>
      dsimp only
      refine SameC.app (j := 1) ?_ hrd
      refine SameC.bind (i := 1) (j := 0) hm .next fun _ => .bind0 hm (.lift rfl) fun _ => .ite ?_ (.pure _)
      exact .bind0 hm (.skipElement hm _) fun _ => .bind0 hm (.lift rfl) fun _ => .pure _

/-- One iteration: the same, and the counter moves by at most the number of events taken. -/
theorem structStep_same (fuel : Nat) (d : StructDef) (hs : Short L d m) (named : Str) (sd : Nat) (st : LoopSt) (rd : Rd)
    (hrd : rd.visible.length ≤ m) :
    structStep L rec fuel d named sd st rd = structStep L rec' fuel d named sd st rd ∧
    ∃ k, FwdC k rd (structStep L rec' fuel d named sd st rd).2 ∧ ∀ r, (structStep L rec' fuel d named sd st rd).1 = .ok r →
      r.1.depth = st.depth ∨
      (1 ≤ k ∧ (r.1.depth = st.depth + 1 ∨ r.1.depth = st.depth - 1) ∧ ∃ e es, rd.visible = e :: es ∧ e ≠ .endDocument) := by
  cases hp : peek rd with
  | mk r rd1 =>
    have hf := peek_fwd rd
    rw [hp] at hf
    cases r with
    | err e =>
      unfold structStep
      rw [bind_err hp, bind_err hp]
      exact ⟨rfl, 0, hf, fun _ h => by cases h⟩
    | panic e =>
      unfold structStep
      rw [bind_panic hp, bind_panic hp]
      exact ⟨rfl, 0, hf, fun _ h => by cases h⟩
    | diverge =>
      unfold structStep
      rw [bind_diverge hp, bind_diverge hp]
      exact ⟨rfl, 0, hf, fun _ h => by cases h⟩
    | ok e =>
      have hvis : rd1.visible = rd.visible ∨ (rd.visible = [] ∧ rd1.visible = [.endDocument]) := by
        rcases hf with h | ⟨h1, h2⟩
        · exact .inl h
        · exact .inr ⟨List.eq_nil_of_length_eq_zero (by omega), h2⟩
      have hrd1 := hf.len hm hrd
      have hat1 := at_self rd1
      have hfront : ∃ es, rd1.visible = e :: es := by
        have h := at_self rd
        cases hv : rd.visible with
        | cons e' es =>
          rw [hv] at h
          obtain ⟨rd', h1, h2⟩ := peek_at h
          rw [hp] at h1
          cases h1
          exact ⟨es, h2.vis⟩
        | nil =>
          rw [hv] at h
          rcases peek_at_nil h with ⟨-, rd', h1, h2⟩ | ⟨m', rd', -, h1, h2⟩ <;> rw [hp] at h1 <;> cases h1
          exact ⟨[], h2.vis⟩
      obtain ⟨es, hv1⟩ := hfront
      have hsame : ∀ e' es', rd1.visible = e' :: es' → e' ≠ .endDocument → rd.visible = e' :: es' := by
        intro e' es' h1 h2
        rcases hvis with h | ⟨-, h⟩
        · rw [← h, h1]
        · rw [h] at h1; cases h1; exact (h2 rfl).elim
      -- an event that is taken or left without counting
      have plain : ∀ x : D (LoopSt × Bool), SameC m 0 x x → Gives x (fun r => r.1.depth = st.depth) →
          x rd1 = x rd1 ∧ ∃ k, FwdC k rd (x rd1).2 ∧ ∀ r, (x rd1).1 = .ok r → r.1.depth = st.depth ∨
            (1 ≤ k ∧ (r.1.depth = st.depth + 1 ∨ r.1.depth = st.depth - 1) ∧ ∃ e es, rd.visible = e :: es ∧ e ≠ .endDocument) := by
        intro x hx hg
        obtain ⟨-, k, h2, -⟩ := hx rd1 hrd1
        exact ⟨rfl, 0 + k, hf.trans h2, fun r hr => .inl (hg rd1 r hr)⟩
      unfold structStep
      rw [bind_ok hp, bind_ok hp]
      cases e with
      | start n as ns =>
        dsimp only
        obtain ⟨h1, k, h2, h3⟩ := structStart_same hm hrec fuel d hs st rd1 hrd1 n as ns es hv1
        have hg := structStart_gives L rec' fuel d st n as rd1
        cases hy : structStart L rec' fuel d st n as rd1 with
        | mk r rd2 =>
          rw [hy] at h1 h2 h3 hg
          cases r with
          | ok st' =>
            rw [bind_ok h1, bind_ok hy]
            refine ⟨rfl, 0 + k, hf.trans h2, fun r hr => ?_⟩
            cases hr
            exact .inr ⟨by have := h3 st' rfl; omega, .inl (hg st' rfl), _, _, hsame _ _ hv1 (by simp), by simp⟩
          | err e => rw [bind_err h1, bind_err hy]; exact ⟨rfl, 0 + k, hf.trans h2, fun _ hb => by cases hb⟩
          | panic e => rw [bind_panic h1, bind_panic hy]; exact ⟨rfl, 0 + k, hf.trans h2, fun _ hb => by cases hb⟩
          | diverge => rw [bind_diverge h1, bind_diverge hy]; exact ⟨rfl, 0 + k, hf.trans h2, fun _ hb => by cases hb⟩
      | endE n =>
        dsimp only
        rw [bind_get]
        by_cases hend : n.loc = named ∧ rd1.depth = sd + 1
        · rw [if_pos hend]
          exact plain _ (.bind0 hm (.lift rfl) fun _ => .pure _) (.bind (.any _) fun _ _ => .pure rfl)
        · rw [if_neg hend]
          refine ⟨rfl, ?_⟩
          have hx : SameC m 1 (nextEvent >>= fun e' => M.lift (writeUnused d.hasFlat e' st.writer) >>= fun w =>
              M.pure (({ st with writer := w, depth := st.depth - 1 } : LoopSt), true))
              (nextEvent >>= fun e' => M.lift (writeUnused d.hasFlat e' st.writer) >>= fun w =>
              M.pure (({ st with writer := w, depth := st.depth - 1 } : LoopSt), true)) :=
            SameC.bind (i := 1) (j := 0) hm .next fun _ => .bind0 hm (.lift rfl) fun _ => .pure _
          have hg : Gives (nextEvent >>= fun e' => M.lift (writeUnused d.hasFlat e' st.writer) >>= fun w =>
              M.pure (({ st with writer := w, depth := st.depth - 1 } : LoopSt), true)) fun r => r.1.depth = st.depth - 1 :=
            .bind (.any _) fun _ _ => .bind (.any _) fun _ _ => .pure rfl
          obtain ⟨-, k, h2, h3⟩ := hx rd1 hrd1
          exact ⟨0 + k, hf.trans h2, fun r hr => .inr ⟨by have := h3 r hr; omega, .inr (hg rd1 r hr), _, _,
            hsame _ _ hv1 (by simp), by simp⟩⟩
      | endDocument => exact plain _ (.ite (.pure _) (.pure _)) (.ite (.pure rfl) (.pure rfl))
      | chars t =>
        exact plain _ (.bind0 hm .next fun _ => .bind0 hm (.lift rfl) fun _ => .pure _)
          (.bind (.any _) fun _ _ => .bind (.any _) fun _ _ => .pure rfl)
      | startDocument => exact plain _ (.throw _) (fun _ _ h => by cases h)
      | pi a b => exact plain _ (.throw _) (fun _ _ h => by cases h)
      | comment a => exact plain _ (.throw _) (fun _ _ h => by cases h)
      | cdata a => exact plain _ (.throw _) (fun _ _ h => by cases h)
      | ws a => exact plain _ (.throw _) (fun _ _ h => by cases h)

/-- The loop.  `k` events of those in front of the reader when it began have been taken. -/
theorem structLoop_same (ov : Overflow) (hi : (m : Int) ≤ IntTy.i32.hi) (fuel : Nat) (d : StructDef) (hs : Short L d m) (named : Str) (sd : Nat)
    (rd0 : Rd) (hrd0 : rd0.visible.length ≤ m) (n : Nat) : ∀ (k : Nat) (st : LoopSt) (rd : Rd), FwdC k rd0 rd →
      -(k : Int) ≤ st.depth → st.depth ≤ k → -(m : Int) ≤ st.depth → st.depth ≤ m →
      structLoopC ov L rec fuel d named sd n st rd = structLoop L rec' fuel d named sd n st rd ∧
      ∃ l, FwdC l rd (structLoop L rec' fuel d named sd n st rd).2 := by
  induction n with
  | zero => intro k st rd _ _ _ _ _; exact ⟨rfl, 0, .refl rd⟩
  | succ n ih =>
    intro k st rd hk h1 h2 h3 h4
    obtain ⟨e1, l, e2, e3⟩ := structStep_same hm hrec fuel d hs named sd st rd (hk.len hm hrd0)
    cases hy : structStep L rec' fuel d named sd st rd with
    | mk r rd' =>
      rw [hy] at e1 e2 e3
      unfold structLoopC structLoop structStepC
      cases r with
      | err e => rw [bind_err (bind_err e1), bind_err hy]; exact ⟨rfl, l, e2⟩
      | panic e => rw [bind_panic (bind_panic e1), bind_panic hy]; exact ⟨rfl, l, e2⟩
      | diverge => rw [bind_diverge (bind_diverge e1), bind_diverge hy]; exact ⟨rfl, l, e2⟩
      | ok r =>
        have hb : -((k + l : Nat) : Int) ≤ r.1.depth ∧ r.1.depth ≤ ((k + l : Nat) : Int) ∧ -(m : Int) ≤ r.1.depth ∧ r.1.depth ≤ m := by
          rcases e3 r rfl with h | ⟨h, h', e, es, hv, he⟩
          · rw [h]; omega
          · have hlt := hk.lt hv he
            rcases h' with h' | h' <;> rw [h'] <;> omega
        have hfit : ov.i32 r.1.depth = .ok r.1.depth := by
          have hi' : (m : Int) ≤ 2147483647 := hi
          cases ov with
          | checks =>
            simp only [Overflow.i32]
            rw [if_neg (by simp only [IntTy.lo]; omega), if_neg (by simp only [IntTy.hi]; omega)]
          | wraps =>
            simp only [Overflow.i32]
            congr 1
            omega
        have hc : (structStep L rec fuel d named sd st >>= fun r => M.lift (ov.i32 r.1.depth) >>= fun k =>
            M.pure (({ r.1 with depth := k } : LoopSt), r.2)) rd = (.ok r, rd') := by
          rw [bind_ok e1, hfit]
          rfl
        rw [bind_ok hc, bind_ok hy]
        obtain ⟨st', c⟩ := r
        cases c
        · exact ⟨rfl, l, e2⟩
        · obtain ⟨i1, j, i2⟩ := ih (k + l) st' rd' (hk.trans e2) hb.1 hb.2.1 hb.2.2.1 hb.2.2.2
          exact ⟨i1, l + j, e2.trans i2⟩

theorem structDeser_same (ov : Overflow) (hi : (m : Int) ≤ IntTy.i32.hi) (fuel : Nat) (d : StructDef) (hs : Short L d m) :
    SameC m 0 (structDeserC ov L rec fuel d) (structDeser L rec' fuel d) := by
  unfold structDeserC structDeser
  refine .bind0 hm .peek fun e => .get fun rd hrd => ?_
  unfold structBodyC structBody
  refine SameC.app (j := 0) (.bind0 hm (.ite (.ofExcept _) (.pure _)) fun _ => .bind0 (i := 0) hm ?_ fun st => .bind0 (i := 0) hm ?_ fun slots =>
    .bind0 hm (.lift rfl) fun _ => .pure _) hrd
  · intro rd0 hrd0
    obtain ⟨h1, l, h2⟩ := structLoop_same hm hrec ov hi fuel d hs (startInfo (d.attrs.xmlElementName d.name) e).1 rd.depth rd0 hrd0 fuel 0
      { depth := 0, slots := d.fields.map (fun f => Slot.init f.ty), writer := some {} } rd0 (.refl rd0) (by simp) (by simp) (by simp) (by simp)
    exact ⟨h1, l, h2, fun _ _ => Nat.zero_le _⟩
  · cases hh : d.hasFlat with
    | false => exact .pure _
    | true =>
      cases st.writer with
      | none => exact .pure _
      | some w =>
        refine .lift (flattenFields_same hm hrec ?_ _ _ _)
        rcases hs with ⟨h, -⟩ | h
        · rw [hh] at h; cases h
        · exact h

theorem enumDeser_same (fuel : Nat) (d : EnumDef) : SameC m 0 (enumDeser L rec fuel d) (enumDeser L rec' fuel d) := by
  have harm : ∀ i v cur, SameC m 0 (variantArm L rec i v cur) (variantArm L rec' i v cur) := by
    intro i v cur
    unfold variantArm
    split
    · exact .pure _
    · exact .pure _
    · split
      · exact .bind0 hm (hrec _) fun _ => .bind0 hm (.ofExcept _) fun _ => .bind0 hm .anext fun _ => .pure _
      · rename_i s _
        have hv : ∀ t, SameC m 0 (visitUnwrap L s t) (visitUnwrap L s t) := by
          intro t; unfold visitUnwrap; split
          · exact .pure _
          · exact .panic _
        have hin : SameC m 0 (variantInner L s) (variantInner L s) := by
          unfold variantInner
          refine .bind0 hm .peek fun e => ?_
          split
          · exact hv _
          · refine .bind0 hm .anext fun r => ?_
            split
            · exact hv _
            · exact .throw _
        refine .bind0 hm (.attemptInner hm hin) fun r => ?_
        split
        · exact .bind0 hm (.ofExcept _) fun _ => .pure _
        · exact .pure _
      · exact .panic _
  have hmatch : ∀ key cur (x : D (Option Val × Bool)), SameC m 0 x x → SameC m 0 (enumMatch L rec d key cur x) (enumMatch L rec' d key cur x) := by
    intro key cur x hx
    unfold enumMatch
    split
    · split
      · exact harm _ _ _
      · exact hx
    · exact hx
  have hstep : ∀ named sd cur, SameC m 0 (enumStep L rec d named sd cur) (enumStep L rec' d named sd cur) := by
    intro named sd cur
    unfold enumStep
    refine .bind0 hm .peek fun e => ?_
    split
    · refine .bind0 hm (.ofExcept _) fun key => .bind0 hm (hmatch _ _ _ (.bind0 hm .anext fun _ => .pure _)) fun r => ?_
      refine .ite (.bind0 hm .peek fun e' => ?_) (.pure _)
      split
      · exact hmatch _ _ _ (.pure _)
      · exact .pure _
    · refine .get fun rd hrd => SameC.app (.ite (.pure _) (.bind0 hm .anext fun _ => .pure _)) hrd
    · exact .bind0 hm .anext fun _ => .pure _
    · exact .ite (.pure _) (.throw _)
    · exact .throw _
  have hloop : ∀ named sd n cur, SameC m 0 (enumLoop L rec d named sd n cur) (enumLoop L rec' d named sd n cur) := by
    intro named sd n
    induction n with
    | zero => intro cur; exact .diverge
    | succ n ih =>
      intro cur
      unfold enumLoop
      exact .bind0 hm (hstep _ _ _) fun r => .ite (ih _) (.pure _)
  unfold enumDeser
  refine .bind0 hm .peek fun e => .get fun rd hrd => SameC.app (j := 0) ?_ hrd
  unfold enumBody
  exact .bind0 hm (.ofExcept _) fun _ => .bind0 hm (hloop _ _ _ _) fun _ => .pure _

end

theorem primDeser_same {m : Nat} (hm : 1 ≤ m) (d : PrimDef) : SameC m 0 (primDeser d) (primDeser d) := by
  unfold primDeser
  refine .bind0 hm (.attempt .peek) fun r => ?_
  split
  · refine .bind0 hm .next fun _ => .bind0 hm (.attempt .peek) fun r => ?_
    split
    · exact .ofExcept _
    · exact .ofExcept _
  · exact .throw _

theorem deser_counter (ov : Overflow) (L : Lib) (env : Env) {m : Nat} (hm : 1 ≤ m) (hi : (m : Int) ≤ IntTy.i32.hi)
    (hs : ∀ p d, env p = some (.struct d) → Short L d m) (n : Nat) : ∀ p, SameC m 0 (deserC ov L env n p) (deser L env n p) := by
  induction n with
  | zero => intro p; exact .diverge
  | succ n ih =>
    intro p
    unfold deserC deser
    cases hp : env p with
    | none => exact .panic _
    | some t =>
      cases t with
      | struct d => exact structDeser_same hm ih ov hi n d (hs p d hp)
      | enum d => exact enumDeser_same hm ih n d
      | prim d => exact primDeser_same hm d

end Yaserde
