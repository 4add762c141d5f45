import Verif.Spec.Size
import Verif.Proofs.Bound
import Verif.Proofs.Words
/-
How large the values read from a document can become: a price `f e` is put on every event; the events consumed pay for the value.
-/

set_option autoImplicit false

namespace Yaserde

/-- What the events still to be read are worth. -/
def Rd.pot (f : REv → Nat) (rd : Rd) : Nat := (rd.visible.map f).sum

/-- The same without the event in front. -/
def Rd.tl (f : REv → Nat) (rd : Rd) : Nat := (rd.visible.tail.map f).sum

theorem tl_le_pot (f : REv → Nat) (rd : Rd) : rd.tl f ≤ rd.pot f := by
  unfold Rd.tl Rd.pot
  cases rd.visible <;> simp

/-- How `x` leaves the reader: `Q` of an `Ok` result; what is left is worth at most `E` after an error. -/
def Wt {α : Type} (f : REv → Nat) (E : Nat) (x : D α) (rd : Rd) (Q : α → Rd → Prop) : Prop :=
  (∀ a rd', x rd = (.ok a, rd') → rd'.pot f ≤ rd.pot f ∧ Q a rd') ∧
  (∀ m rd', x rd = (.err m, rd') → rd'.pot f ≤ E)

section
variable {α β : Type} {f : REv → Nat} {E : Nat}

theorem Wt.mono {x : D α} {rd : Rd} {Q R : α → Rd → Prop} {E' : Nat} (h : Wt f E' x rd Q) (hE : E' ≤ E)
    (hq : ∀ a rd', rd'.pot f ≤ rd.pot f → Q a rd' → R a rd') : Wt f E x rd R :=
  ⟨fun a rd' hx => ⟨(h.1 a rd' hx).1, hq a rd' (h.1 a rd' hx).1 (h.1 a rd' hx).2⟩, fun m rd' hx => Nat.le_trans (h.2 m rd' hx) hE⟩

theorem Wt.post {x : D α} {rd : Rd} {Q R : α → Rd → Prop} (h : Wt f E x rd Q)
    (hq : ∀ a rd', rd'.pot f ≤ rd.pot f → Q a rd' → R a rd') : Wt f E x rd R := h.mono (Nat.le_refl _) hq

theorem Wt.bind {x : D α} {g : α → D β} {rd : Rd} {Q : α → Rd → Prop} {R : β → Rd → Prop}
    (hx : Wt f E x rd Q) (hg : ∀ a rd', rd'.pot f ≤ rd.pot f → Q a rd' → Wt f E (g a) rd' R) : Wt f E (x >>= g) rd R := by
  refine ⟨fun b rd2 h => ?_, fun m rd2 h => ?_⟩
  · cases hr : x rd with
    | mk r rd' =>
      cases r with
      | ok a =>
        obtain ⟨h1, h2⟩ := hx.1 a rd' hr
        rw [bind_ok hr] at h
        obtain ⟨h3, h4⟩ := (hg a rd' h1 h2).1 b rd2 h
        exact ⟨Nat.le_trans h3 h1, h4⟩
      | err m => rw [bind_err hr] at h; cases h
      | panic m => rw [bind_panic hr] at h; cases h
      | diverge => rw [bind_diverge hr] at h; cases h
  · cases hr : x rd with
    | mk r rd' =>
      cases r with
      | ok a =>
        obtain ⟨h1, h2⟩ := hx.1 a rd' hr
        rw [bind_ok hr] at h
        exact (hg a rd' h1 h2).2 m rd2 h
      | err m' => rw [bind_err hr] at h; cases h; exact hx.2 _ _ hr
      | panic m => rw [bind_panic hr] at h; cases h
      | diverge => rw [bind_diverge hr] at h; cases h

theorem Wt.attempt {x : D α} {rd : Rd} {Q : α → Rd → Prop} {E' : Nat} (hx : Wt f E' x rd Q) (hE : E' ≤ rd.pot f) :
    Wt f E (M.attempt x) rd fun r rd' => (∀ a, r = .ok a → Q a rd') ∧ (∀ m, r = .error m → rd'.pot f ≤ E') := by
  refine ⟨fun b rd2 h => ?_, fun m rd2 h => ?_⟩
  · cases hr : x rd with
    | mk r rd' =>
      cases r with
      | ok a =>
        rw [attempt_ok hr] at h; cases h
        exact ⟨(hx.1 a _ hr).1, fun a' ha => by cases ha; exact (hx.1 _ _ hr).2, fun m hm => by cases hm⟩
      | err m =>
        rw [attempt_err hr] at h; cases h
        exact ⟨Nat.le_trans (hx.2 m _ hr) hE, fun a' ha => (by cases ha), fun m' hm => hx.2 m _ hr⟩
      | panic m => simp [M.attempt, hr] at h
      | diverge => simp [M.attempt, hr] at h
  · cases hr : x rd with
    | mk r rd' => cases r <;> simp [M.attempt, hr] at h

theorem Wt.ret {a : α} {rd : Rd} {Q : α → Rd → Prop} (hq : Q a rd) : Wt f E (M.pure a) rd Q :=
  ⟨fun b rd' h => by cases h; exact ⟨Nat.le_refl _, hq⟩, fun m rd' h => by cases h⟩

theorem Wt.throw {m : Str} {rd : Rd} {Q : α → Rd → Prop} (hE : rd.pot f ≤ E) : Wt f E (M.throw m) rd Q :=
  ⟨fun b rd' h => (by cases h), fun m rd' h => by cases h; exact hE⟩

theorem Wt.panic {m : Str} {rd : Rd} {Q : α → Rd → Prop} : Wt f E (M.panic m) rd Q :=
  ⟨fun b rd' h => (by cases h), fun m rd' h => by cases h⟩

theorem Wt.diverge {rd : Rd} {Q : α → Rd → Prop} : Wt f E (M.diverge) rd Q :=
  ⟨fun b rd' h => (by cases h), fun m rd' h => by cases h⟩

theorem Wt.ofExcept {r : Except Str α} {rd : Rd} {Q : α → Rd → Prop} (hE : rd.pot f ≤ E)
    (hq : ∀ a, r = .ok a → Q a rd) : Wt f E (M.ofExcept r) rd Q := by
  cases r with
  | ok a => exact .ret (hq a rfl)
  | error m => exact .throw hE

theorem Wt.lift {r : Res α} {rd : Rd} {Q : α → Rd → Prop} (hE : rd.pot f ≤ E)
    (hq : ∀ a, r = .ok a → Q a rd) : Wt f E (M.lift r) rd Q := by
  cases r with
  | ok a => exact .ret (hq a rfl)
  | err m => exact Wt.throw (m := m) hE
  | panic m => exact Wt.panic (m := m)
  | diverge => exact Wt.diverge

theorem Wt.get {g : Rd → D β} {rd : Rd} {R : β → Rd → Prop} (h : Wt f E (g rd) rd R) : Wt f E (M.get >>= g) rd R := h

/-- What is known after looking at the event in front. -/
structure PeekedAt (f : REv → Nat) (rd : Rd) (e : REv) (rd' : Rd) : Prop where
  pot : rd'.pot f = rd.pot f
  tl : rd'.tl f = rd.tl f
  head : rd.pot f = f e + rd.tl f

theorem Wt.peek (h0 : f .endDocument = 0) {rd : Rd} (hE : rd.pot f ≤ E) : Wt f E peek rd (PeekedAt f rd) := by
  have h := at_self rd
  cases hv : rd.visible with
  | cons e es =>
    rw [hv] at h
    obtain ⟨rd', h1, h2⟩ := peek_at h
    have hp : rd'.pot f = rd.pot f := by simp [Rd.pot, h2.vis, hv]
    refine ⟨fun a rd2 hx => ?_, fun m rd2 hx => by rw [h1] at hx; cases hx⟩
    rw [h1] at hx
    cases hx
    exact ⟨Nat.le_of_eq hp, hp, by simp [Rd.tl, h2.vis, hv], by simp [Rd.tl, Rd.pot, hv]⟩
  | nil =>
    rw [hv] at h
    rcases peek_at_nil h with ⟨h3, rd', h1, h2⟩ | ⟨m, rd', h3, h1, h2⟩
    · refine ⟨fun a rd2 hx => ?_, fun m rd2 hx => by rw [h1] at hx; cases hx⟩
      rw [h1] at hx
      cases hx
      have hp : rd'.pot f = rd.pot f := by simp [Rd.pot, h2.vis, hv, h0]
      exact ⟨Nat.le_of_eq hp, hp, by simp [Rd.tl, h2.vis, hv], by simp [Rd.tl, Rd.pot, hv, h0]⟩
    · refine ⟨fun a rd2 hx => (by rw [h1] at hx; cases hx), fun m rd2 hx => ?_⟩
      rw [h1] at hx
      cases hx
      simp [Rd.pot, h2.vis]

/-- An attempt to look at the event in front. -/
theorem Wt.apeek (h0 : f .endDocument = 0) {rd : Rd} :
    Wt f E (M.attempt Yaserde.peek) rd fun r rd' => rd'.pot f = rd.pot f ∧ rd'.tl f = rd.tl f ∧
      ∀ e, r = .ok e → rd.pot f = f e + rd.tl f := by
  have h := at_self rd
  cases hv : rd.visible with
  | cons e es =>
    rw [hv] at h
    obtain ⟨rd', h1, h2⟩ := peek_at h
    have hp : rd'.pot f = rd.pot f := by simp [Rd.pot, h2.vis, hv]
    refine ⟨fun a rd2 hx => ?_, fun m rd2 hx => by rw [attempt_ok h1] at hx; cases hx⟩
    rw [attempt_ok h1] at hx
    cases hx
    exact ⟨Nat.le_of_eq hp, hp, by simp [Rd.tl, h2.vis, hv], fun e he => by cases he; simp [Rd.tl, Rd.pot, hv]⟩
  | nil =>
    rw [hv] at h
    rcases peek_at_nil h with ⟨h3, rd', h1, h2⟩ | ⟨m, rd', h3, h1, h2⟩
    · refine ⟨fun a rd2 hx => ?_, fun m rd2 hx => by rw [attempt_ok h1] at hx; cases hx⟩
      rw [attempt_ok h1] at hx
      cases hx
      have hp : rd'.pot f = rd.pot f := by simp [Rd.pot, h2.vis, hv, h0]
      exact ⟨Nat.le_of_eq hp, hp, by simp [Rd.tl, h2.vis, hv], fun e he => by cases he; simp [Rd.tl, Rd.pot, hv, h0]⟩
    · refine ⟨fun a rd2 hx => ?_, fun m rd2 hx => by rw [attempt_err h1] at hx; cases hx⟩
      rw [attempt_err h1] at hx
      cases hx
      exact ⟨by simp [Rd.pot, h2.vis], by simp [Rd.pot, h2.vis, hv], by simp [Rd.tl, h2.vis, hv], fun e he => by cases he⟩

theorem trackDepth_pot {e : REv} {rd : Rd} {r : Res REv} {rd' : Rd} (h : trackDepth e rd = (r, rd')) :
    rd'.visible = rd.visible ∧ (∀ a, r = .ok a → a = e) ∧ (∀ m, r ≠ .err m) := by
  unfold trackDepth at h
  split at h
  · cases h; exact ⟨rfl, fun a ha => by cases ha; rfl, fun m hm => by cases hm⟩
  · split at h <;> cases h
    · exact ⟨rfl, fun a ha => (by cases ha), fun m hm => by cases hm⟩
    · exact ⟨rfl, fun a ha => by cases ha; rfl, fun m hm => by cases hm⟩
  · cases h; exact ⟨rfl, fun a ha => by cases ha; rfl, fun m hm => by cases hm⟩

theorem Wt.next (h0 : f .endDocument = 0) {rd : Rd} (hE : rd.tl f ≤ E) :
    Wt f E nextEvent rd fun e rd' => rd'.pot f = rd.tl f ∧ rd.pot f = f e + rd.tl f := by
  have h := at_self rd
  cases hv : rd.visible with
  | cons e es =>
    rw [hv] at h
    obtain ⟨rd', h1, h2⟩ := nextEvent_at h
    have hp : rd.pot f = f e + rd.tl f := by simp [Rd.pot, Rd.tl, hv]
    refine ⟨fun a rd2 hx => ?_, fun m rd2 hx => ?_⟩
    · rw [h1] at hx
      obtain ⟨h3, h4, -⟩ := trackDepth_pot hx
      have ha := h4 a rfl
      subst ha
      have h5 : rd2.pot f = rd.tl f := by simp [Rd.pot, Rd.tl, h3, h2.vis, hv]
      exact ⟨by rw [h5]; exact tl_le_pot f rd, h5, hp⟩
    · rw [h1] at hx
      exact ((trackDepth_pot hx).2.2 m rfl).elim
  | nil =>
    rw [hv] at h
    obtain ⟨rd', h1, h2⟩ := next_at_nil h
    have hp : rd'.pot f = 0 := by simp [Rd.pot, h2.vis]
    refine ⟨fun a rd2 hx => ?_, fun m rd2 hx => ?_⟩
    · rw [h1] at hx
      cases hf : rd.reader.fin with
      | some m => rw [hf] at hx; cases hx
      | none =>
        rw [hf] at hx
        cases hx
        exact ⟨by omega, by simp [Rd.tl, hv, hp], by simp [Rd.pot, Rd.tl, hv, h0]⟩
    · rw [h1] at hx
      cases hf : rd.reader.fin with
      | none => rw [hf] at hx; cases hx
      | some m =>
        rw [hf] at hx
        cases hx
        omega

theorem Wt.anext (h0 : f .endDocument = 0) {rd : Rd} :
    Wt f E (M.attempt nextEvent) rd fun r rd' => rd'.pot f ≤ rd.tl f ∧ ∀ e, r = .ok e → rd.pot f = f e + rd.tl f := by
  refine (Wt.attempt (Wt.next h0 (Nat.le_refl (rd.tl f))) (tl_le_pot f rd)).post fun r rd' _ h => ?_
  cases r with
  | ok e => exact ⟨Nat.le_of_eq (h.1 e rfl).1, fun e' he => by cases he; exact (h.1 _ rfl).2⟩
  | error m => exact ⟨h.2 m rfl, fun e' he => by cases he⟩

theorem Wt.skipLoop (h0 : f .endDocument = 0) (n depth : Nat) : ∀ (acc : List REv) (rd : Rd), rd.pot f ≤ E →
    Wt f E (skipLoop n depth acc) rd fun _ _ => True := by
  induction n with
  | zero => intro acc rd hE; exact .diverge
  | succ n ih =>
    intro acc rd hE
    by_cases hd : rd.depth ≥ depth
    · have hw : Wt f E (nextEvent >>= fun e => Yaserde.skipLoop n depth (acc ++ [e])) rd fun _ _ => True :=
        .bind (.next h0 (Nat.le_trans (tl_le_pot f rd) hE)) fun e rd' hle _ => ih _ rd' (Nat.le_trans hle hE)
      have heq : Yaserde.skipLoop (n + 1) depth acc rd = (nextEvent >>= fun e => Yaserde.skipLoop n depth (acc ++ [e])) rd := by
        show (if rd.depth ≥ depth then _ else _) = _
        rw [if_pos hd]
      exact ⟨fun a rd' hx => hw.1 a rd' (heq ▸ hx), fun m rd' hx => hw.2 m rd' (heq ▸ hx)⟩
    · have heq : Yaserde.skipLoop (n + 1) depth acc rd = (.ok acc, rd) := by
        show (if rd.depth ≥ depth then _ else _) = _
        rw [if_neg hd]
      refine ⟨fun a rd' hx => ?_, fun m rd' hx => ?_⟩
      · rw [heq] at hx; cases hx; exact ⟨Nat.le_refl _, trivial⟩
      · rw [heq] at hx; cases hx

theorem Wt.skipElement (h0 : f .endDocument = 0) (n : Nat) (rd : Rd) (hE : rd.pot f ≤ E) :
    Wt f E (skipElement n) rd fun _ _ => True := Wt.skipLoop h0 n rd.depth [] rd hE

/-- `read_inner_value` consumes the start tag, also if it fails. -/
theorem Wt.inner (h0 : f .endDocument = 0) {g : D α} {rd : Rd} {Q : α → Nat → Nat → Prop}
    (hg : ∀ rd', rd'.pot f ≤ rd.tl f → Wt f (rd.tl f) g rd' fun a rd2 => Q a (rd'.pot f) (rd2.pot f))
    (hQ : ∀ a p q p' q', Q a p q → p ≤ p' → q' ≤ q → Q a p' q') :
    Wt f (rd.tl f) (readInnerValue g) rd fun a rd' => Q a (rd.tl f) (rd'.pot f) := by
  refine .bind (.anext h0) fun r rd1 _ h1 => ?_
  split
  · refine .bind (hg rd1 h1.1) fun a rd2 hle2 h2 => ?_
    refine .bind (Q := fun _ rd3 => rd3.pot f ≤ rd2.pot f) ?_ fun _ rd3 h3 _ => .ret (hQ _ _ _ _ _ h2 h1.1 h3)
    refine .bind (.next h0 (Nat.le_trans (tl_le_pot f rd2) (Nat.le_trans hle2 h1.1))) fun e rd3 hle3 _ => ?_
    have hE : rd3.pot f ≤ rd.tl f := by omega
    split
    · split
      · exact .ret hle3
      · exact .throw hE
    · exact .throw hE
  · exact .throw h1.1

end

/-! ### Sizes of the variables -/

def slotSize : Slot → Nat
  | .one none => 0
  | .one (some v) => v.size
  | .many vs => Val.sizeL vs

def slotsSize (ss : List Slot) : Nat := (ss.map slotSize).sum

theorem sizeL_append (xs ys : List Val) : Val.sizeL (xs ++ ys) = Val.sizeL xs + Val.sizeL ys := by
  induction xs with
  | nil => simp [Val.sizeL]
  | cons x xs ih => simp [Val.sizeL, ih]; omega

theorem slotSize_put (v : Val) (s : Slot) : slotSize (s.put v) ≤ slotSize s + v.size := by
  cases s with
  | one o => simp [Slot.put, slotSize]
  | many vs => simp [Slot.put, slotSize, sizeL_append, Val.sizeL]

theorem slotsSize_modify (v : Val) (ss : List Slot) (i : Nat) : slotsSize (ss.modify i (Slot.put v)) ≤ slotsSize ss + v.size := by
  induction ss generalizing i with
  | nil => cases i <;> simp [slotsSize]
  | cons s ss ih =>
    cases i with
    | zero =>
      have := slotSize_put v s
      simp only [slotsSize, List.modify_zero_cons, List.map_cons, List.sum_cons]
      omega
    | succ i =>
      have := ih i
      simp only [slotsSize, List.modify_succ_cons, List.map_cons, List.sum_cons] at this ⊢
      omega

theorem slotsSize_init (fs : List FieldDef) : slotsSize (fs.map fun f => Slot.init f.ty) = 0 := by
  induction fs with
  | nil => rfl
  | cons f fs ih =>
    simp only [slotsSize, List.map_cons, List.sum_cons] at ih ⊢
    have : slotSize (Slot.init f.ty) = 0 := by cases f.ty <;> rfl
    omega

theorem slotsSize_text (fs : List FieldDef) (t : Str) (ss : List Slot) :
    slotsSize (setText fs t ss) ≤ slotsSize ss + fs.length * (1 + t.length) := by
  induction fs generalizing ss with
  | nil => simp [setText]
  | cons f fs ih =>
    cases ss with
    | nil => simp [setText, slotsSize]
    | cons s ss =>
      have := ih ss
      obtain ⟨x, hx, hs⟩ : ∃ x, setText (f :: fs) t (s :: ss) = x :: setText fs t ss ∧ slotSize x ≤ slotSize s + (1 + t.length) := by
        refine ⟨_, rfl, ?_⟩
        split
        · split
          · simp [slotSize, Val.size]
          · split <;> simp [slotSize, Val.size]
          · omega
        · omega
      rw [hx]
      simp only [slotsSize, List.map_cons, List.sum_cons, List.length_cons, Nat.add_mul, Nat.one_mul] at this ⊢
      omega

theorem parseS_size (L : Lib) {t : STy} {s : Str} {v : Val} (h : parseS L t s = .ok v) : v.size ≤ 1 + s.length := by
  have hb : ∀ (α : Type) (e : Except Str α) (g : α → Val), (∀ a, (g a).size = 1) → e.map g = .ok v → v.size ≤ 1 + s.length := by
    intro α e g hg he
    cases e with
    | error m => cases he
    | ok a => cases he; rw [hg]; omega
  cases t with
  | string => cases h; simp [Val.size]
  | bool => exact hb _ _ _ (fun _ => rfl) h
  | int t => exact hb _ _ _ (fun _ => rfl) h
  | f32 => exact hb _ _ _ (fun _ => rfl) h
  | f64 => exact hb _ _ _ (fun _ => rfl) h

theorem visitS_size (L : Lib) {t : STy} {s : Str} {v : Val} (h : visitS L t s = .ok v) : v.size ≤ 1 + s.length := by
  unfold visitS at h
  split at h
  · rename_i ht
    subst ht
    have : ∃ b, v = .bool b := by
      unfold parseS at h
      cases hp : parseBool (mapIfBool s) with
      | error m => rw [hp] at h; cases h
      | ok b => rw [hp] at h; cases h; exact ⟨b, rfl⟩
    obtain ⟨b, rfl⟩ := this
    simp [Val.size]
  · exact parseS_size L h

theorem splitWs_size (acc s : Str) :
    ((splitWsAux acc s).map fun w => 1 + w.length).sum ≤ 1 + acc.length + s.length := by
  induction s generalizing acc with
  | nil =>
    unfold splitWsAux
    cases acc <;> simp <;> omega
  | cons c cs ih =>
    unfold splitWsAux
    split
    · have := ih []
      cases acc with
      | nil => simp at this ⊢; omega
      | cons a acc => simp at this ⊢; omega
    · have := ih (c :: acc)
      simp only [List.length_cons] at this ⊢
      omega

theorem words_size (s : Str) : ((splitWhitespace s).map fun w => 1 + w.length).sum ≤ 1 + s.length := by
  have := splitWs_size [] s
  simpa [splitWhitespace] using this

theorem foldRes_size {α : Type} (g : Slot → α → Res Slot) (w : α → Nat)
    (hg : ∀ s a s', g s a = .ok s' → slotSize s' ≤ slotSize s + w a) :
    ∀ (as : List α) (s s' : Slot), foldRes g s as = .ok s' → slotSize s' ≤ slotSize s + (as.map w).sum
  | [], s, s', h => by cases h; simp
  | a :: as, s, s', h => by
    unfold foldRes at h
    cases hr : g s a with
    | ok b =>
      rw [hr] at h
      have h1 := hg s a b hr
      have h2 := foldRes_size g w hg as b s' h
      simp only [List.map_cons, List.sum_cons]
      omega
    | err m => rw [hr] at h; cases h
    | panic m => rw [hr] at h; cases h
    | diverge => rw [hr] at h; cases h

theorem visitAttr_size (L : Lib) (rec : Path → D Val) {t : STy} {s : Str} {v : Val} (h : visitAttr L rec (.simple t) s = .ok v) :
    v.size ≤ 1 + s.length := by
  change (match visitS L t s with | .ok x => Res.ok x | .error m => .err m) = .ok v at h
  cases hv : visitS L t s with
  | ok x => rw [hv] at h; cases h; exact visitS_size L hv
  | error m => rw [hv] at h; cases h

theorem put_size (r : Res Val) (s s' : Slot) (n : Nat) (hr : ∀ v, r = .ok v → v.size ≤ n)
    (h : (r.bind fun v => .ok (s.put v)) = .ok s') : slotSize s' ≤ slotSize s + n := by
  cases r with
  | ok v =>
    cases h
    have := slotSize_put v s
    have := hr v rfl
    omega
  | err m => cases h
  | panic m => cases h
  | diverge => cases h

/-- What a field can take from an attribute: the text of it, or `A` times the document that is read instead of it. -/
def attrShare (A : Nat) (f : FieldDef) (a : Attr) : Nat :=
  if f.attrs.isAttr = true ∧ a.name.loc = f.label then
    match f.ty.core with
    | .simple _ => 1 + a.value.length
    | _ => A * (3 + a.value.length)
  else 0

/-- What an attribute is worth. -/
def attrsCost (A : Nat) (as : List Attr) : Nat := (as.map fun a => A * (3 + a.value.length)).sum

/-- What is known about the values of an attribute of a derived type. -/
def AttrPaid (L : Lib) (rec : Path → D Val) (A : Nat) (f : FieldDef) : Prop :=
  (∃ t, f.ty.core = .simple t) ∨ ∃ q, f.ty.core = .struct q ∧
    (∀ t v, visitStructStr L rec q t = .ok v → v.size ≤ A * (3 + t.length)) ∧
    (f.ty = .vec (.struct q) → ∃ A0, 3 * A0 ≤ A ∧
      ∀ w v, (∀ c ∈ w, c.toNat ∉ blanks) → visitStructStr L rec q w = .ok v → v.size ≤ A0 * (3 + w.length))

theorem words_noBlank {s : Str} {ws : List Str} (h : Words s ws) : ∀ w ∈ ws, ∀ c ∈ w, c.toNat ∉ blanks := by
  induction h with
  | none s h => intro w hw; cases hw
  | word gap w rest ws hgap hne hw hrest h ih =>
    intro x hx
    rcases List.mem_cons.mp hx with rfl | hx
    · exact hw
    · exact ih x hx

theorem foldRes_size_mem {α : Type} (g : Slot → α → Res Slot) (w : α → Nat) :
    ∀ (as : List α), (∀ s a s', a ∈ as → g s a = .ok s' → slotSize s' ≤ slotSize s + w a) →
    ∀ (s s' : Slot), foldRes g s as = .ok s' → slotSize s' ≤ slotSize s + (as.map w).sum
  | [], _, s, s', h => by cases h; simp
  | a :: as, hg, s, s', h => by
    unfold foldRes at h
    cases hr : g s a with
    | ok b =>
      rw [hr] at h
      have h1 := hg s a b (List.mem_cons_self ..) hr
      have h2 := foldRes_size_mem g w as (fun s a s' ha => hg s a s' (List.mem_cons_of_mem _ ha)) b s' h
      simp only [List.map_cons, List.sum_cons]
      omega
    | err m => rw [hr] at h; cases h
    | panic m => rw [hr] at h; cases h
    | diverge => rw [hr] at h; cases h

theorem loadAttrField_size (L : Lib) (rec : Path → D Val) (A : Nat) (f : FieldDef) (hi : f.attrs.isAttr = true)
    (hf : AttrPaid L rec A f) (attrs : List Attr)
    (s s' : Slot) (h : loadAttrField L rec f attrs s = .ok s') : slotSize s' ≤ slotSize s + (attrs.map (attrShare A f)).sum := by
  refine foldRes_size _ (attrShare A f) (fun s a s' h => ?_) attrs s s' h
  split at h
  · rename_i hl
    unfold attrShare
    rw [if_pos ⟨hi, hl⟩]
    rcases hf with ⟨t, ht⟩ | ⟨q, hq, hv⟩
    · rw [ht]
      split at h
      · rename_i u hu
        have hcore : u = .simple t := by rw [hu] at ht; exact ht
        subst hcore
        have h1 := foldRes_size (fun slot w => (visitAttr L rec (.simple t) w).bind fun v => .ok (slot.put v)) (fun w => 1 + w.length)
          (fun s w s' h => put_size _ s s' _ (fun v hv => visitAttr_size L rec hv) h) _ _ _ h
        have := words_size a.value
        dsimp only
        omega
      · rw [ht] at h
        exact put_size _ s s' _ (fun v hv => visitAttr_size L rec hv) h
    · rw [hq]
      split at h
      · rename_i u hu
        have hcore : u = .struct q := by rw [hu] at hq; exact hq
        subst hcore
        obtain ⟨A0, hA, hw⟩ := hv.2 hu
        have h1 := foldRes_size_mem (fun slot w => (visitAttr L rec (.struct q) w).bind fun v => .ok (slot.put v))
          (fun w => A0 * (3 + w.length)) _
          (fun s w s' hm h => put_size _ s s' _ (fun v hx => hw w v (words_noBlank (words_split _) w hm) hx) h) _ _ h
        have h2 := words_size a.value
        have h3 : ∀ ws : List Str, (ws.map fun w => A0 * (3 + w.length)).sum ≤ 3 * A0 * (ws.map fun w => 1 + w.length).sum := by
          intro ws
          induction ws with
          | nil => simp
          | cons w ws ih =>
            simp only [List.map_cons, List.sum_cons]
            rw [Nat.mul_add (3 * A0)]
            refine Nat.add_le_add ?_ ih
            rw [Nat.mul_comm 3 A0, Nat.mul_assoc]
            exact Nat.mul_le_mul_left _ (by omega)
        have h4 := h3 (splitWhitespace a.value)
        have h5 : 3 * A0 * ((splitWhitespace a.value).map fun w => 1 + w.length).sum ≤ A * (3 + a.value.length) :=
          Nat.mul_le_mul hA (by omega)
        dsimp only
        omega
      · rw [hq] at h
        exact put_size _ s s' _ (fun v hx => hv.1 _ v hx) h
  · cases h; omega

theorem loadAttrs_share (L : Lib) (rec : Path → D Val) (A : Nat) (attrs : List Attr) : ∀ (fs : List FieldDef) (ss ss' : List Slot),
    (∀ f ∈ fs, f.attrs.isAttr = true → AttrPaid L rec A f) → loadAttrs L rec fs attrs ss = .ok ss' →
    slotsSize ss' ≤ slotsSize ss + (fs.map fun f => (attrs.map (attrShare A f)).sum).sum
  | [], ss, ss', _, h => by
    unfold loadAttrs at h
    cases h
    omega
  | f :: fs, [], ss', _, h => by
    unfold loadAttrs at h
    cases h
    omega
  | f :: fs, s :: ss, ss', hf, h => by
    unfold loadAttrs at h
    have hs : ∀ s1, (if f.attrs.isAttr then loadAttrField L rec f attrs s else .ok s) = .ok s1 →
        slotSize s1 ≤ slotSize s + (attrs.map (attrShare A f)).sum := by
      intro s1 h1
      split at h1
      · rename_i ha
        exact loadAttrField_size L rec A f ha (hf f (List.mem_cons_self ..) ha) attrs s s1 h1
      · cases h1; omega
    cases h1 : (if f.attrs.isAttr then loadAttrField L rec f attrs s else .ok s) with
    | ok s1 =>
      rw [h1] at h
      cases h2 : loadAttrs L rec fs attrs ss with
      | ok ss2 =>
        have h3 := loadAttrs_share L rec A attrs fs ss ss2 (fun g hg => hf g (List.mem_cons_of_mem _ hg)) h2
        have h4 := hs s1 h1
        simp only [Res.bind, h2] at h
        cases h
        simp only [slotsSize, List.map_cons, List.sum_cons] at h3 ⊢
        omega
      | err m => simp only [Res.bind, h2] at h; cases h
      | panic m => simp only [Res.bind, h2] at h; cases h
      | diverge => simp only [Res.bind, h2] at h; cases h
    | err m => rw [h1] at h; cases h
    | panic m => rw [h1] at h; cases h
    | diverge => rw [h1] at h; cases h

theorem sum_swap {α β : Type} (g : α → β → Nat) (xs : List α) (ys : List β) :
    (xs.map fun x => (ys.map (g x)).sum).sum = (ys.map fun y => (xs.map fun x => g x y).sum).sum := by
  induction xs with
  | nil =>
    simp only [List.map_nil, List.sum_nil]
    induction ys with
    | nil => rfl
    | cons y ys ih => simpa using ih
  | cons x xs ih =>
    simp only [List.map_cons, List.sum_cons, ih]
    clear ih
    induction ys with
    | nil => simp
    | cons y ys ih => simp only [List.map_cons, List.sum_cons] at ih ⊢; omega

/-- Fields of scalar type only. -/
theorem share_simple (A : Nat) (a : Attr) : ∀ (fs : List FieldDef),
    (∀ f ∈ fs, f.attrs.isAttr = true → a.name.loc = f.label → ∃ t, f.ty.core = .simple t) →
    (fs.map fun f => attrShare A f a).sum ≤ fs.length * (1 + a.value.length)
  | [], _ => by simp
  | f :: fs, h => by
    have h1 := share_simple A a fs fun g hg => h g (List.mem_cons_of_mem _ hg)
    have h2 : attrShare A f a ≤ 1 + a.value.length := by
      unfold attrShare
      split
      · rename_i hc
        obtain ⟨t, ht⟩ := h f (List.mem_cons_self ..) hc.1 hc.2
        rw [ht]
        exact Nat.le_refl _
      · omega
    simp only [List.map_cons, List.sum_cons, List.length_cons, Nat.add_mul, Nat.one_mul]
    omega

/-- What the fields take from one attribute together. -/
theorem share_apart (A : Nat) (a : Attr) : ∀ (fs : List FieldDef),
    (fs.Pairwise fun f g => f.attrs.isAttr = true → g.attrs.isAttr = true → f.label = g.label →
      (∃ t, f.ty.core = .simple t) ∧ ∃ t, g.ty.core = .simple t) →
    (fs.map fun f => attrShare A f a).sum ≤ fs.length * (1 + a.value.length) ∨
      (fs.map fun f => attrShare A f a).sum ≤ A * (3 + a.value.length)
  | [], _ => by simp
  | f :: fs, h => by
    obtain ⟨hh, ht⟩ := List.pairwise_cons.mp h
    have h1 := share_apart A a fs ht
    simp only [List.map_cons, List.sum_cons, List.length_cons, Nat.add_mul, Nat.one_mul]
    by_cases hc : f.attrs.isAttr = true ∧ a.name.loc = f.label
    · by_cases hs : ∃ t, f.ty.core = .simple t
      · refine .inl ?_
        have h2 := share_simple A a fs fun g hg hg1 hg2 => (hh g hg hc.1 hg1 (hc.2.symm.trans hg2)).2
        obtain ⟨t, hs⟩ := hs
        have h3 : attrShare A f a = 1 + a.value.length := by
          unfold attrShare
          rw [if_pos hc, hs]
        omega
      · refine .inr ?_
        have h2 : (fs.map fun g => attrShare A g a).sum = 0 := by
          rw [List.sum_eq_zero_iff_forall_eq_nat]
          intro x hx
          obtain ⟨g, hg, rfl⟩ := List.mem_map.mp hx
          unfold attrShare
          rw [if_neg]
          rintro ⟨hg1, hg2⟩
          exact hs (hh g hg hc.1 hg1 (hc.2.symm.trans hg2)).1
        have h3 : attrShare A f a = A * (3 + a.value.length) := by
          unfold attrShare
          rw [if_pos hc]
          split
          · rename_i t hs'; exact (hs ⟨t, hs'⟩).elim
          · rfl
        omega
    · have h3 : attrShare A f a = 0 := by
        unfold attrShare
        rw [if_neg hc]
      omega

theorem loadAttrs_size (L : Lib) (rec : Path → D Val) (A : Nat) (fs : List FieldDef) (hlen : fs.length ≤ A)
    (hn : fs.Pairwise fun f g => f.attrs.isAttr = true → g.attrs.isAttr = true → f.label = g.label →
      (∃ t, f.ty.core = .simple t) ∧ ∃ t, g.ty.core = .simple t)
    (hf : ∀ f ∈ fs, f.attrs.isAttr = true → AttrPaid L rec A f) (attrs : List Attr) (ss ss' : List Slot)
    (h : loadAttrs L rec fs attrs ss = .ok ss') : slotsSize ss' ≤ slotsSize ss + attrsCost A attrs := by
  have h1 := loadAttrs_share L rec A attrs fs ss ss' hf h
  rw [sum_swap (attrShare A)] at h1
  refine Nat.le_trans h1 (Nat.add_le_add_left ?_ _)
  unfold attrsCost
  clear h h1
  induction attrs with
  | nil => simp
  | cons a as ih =>
    simp only [List.map_cons, List.sum_cons]
    refine Nat.add_le_add ?_ ih
    rcases share_apart A a fs hn with h2 | h2
    · exact Nat.le_trans h2 (Nat.mul_le_mul hlen (by omega))
    · exact h2

theorem buildField_size (name : Str) (c : Nat) (f : FieldDef) (hf : ∀ x, f.dflt = some x → x.val.size ≤ c) (s : Slot) (v : Val)
    (h : buildField name f s = .ok v) : v.size ≤ slotSize s + (c + 1) := by
  unfold buildField at h
  split at h
  · cases h; simp [slotSize, Val.size]; omega
  · cases h; simp [slotSize, Val.size]
  · cases h; simp [slotSize, Val.size]; omega
  · cases h; simp [slotSize]
  · split at h
    · rename_i d hd
      cases h
      have := hf d hd
      omega
    · cases h
  · cases h

theorem buildFields_size (name : Str) (c : Nat) : ∀ (fs : List FieldDef) (ss : List Slot) (vs : List Val),
    (∀ f ∈ fs, ∀ x, f.dflt = some x → x.val.size ≤ c) → buildFields name fs ss = .ok vs →
    Val.sizeL vs ≤ slotsSize ss + fs.length * (c + 1)
  | [], ss, vs, _, h => by cases h; simp [Val.sizeL]
  | f :: fs, [], vs, _, h => by cases h; simp [Val.sizeL]
  | f :: fs, s :: ss, vs, hf, h => by
    unfold buildFields at h
    cases h1 : buildField name f s with
    | ok v =>
      rw [h1] at h
      cases h2 : buildFields name fs ss with
      | ok vs2 =>
        have h3 := buildFields_size name c fs ss vs2 (fun g hg => hf g (List.mem_cons_of_mem _ hg)) h2
        have h4 := buildField_size name c f (hf f (List.mem_cons_self ..)) s v h1
        simp only [Res.bind, h2] at h
        cases h
        simp only [slotsSize, Val.sizeL, List.map_cons, List.sum_cons, List.length_cons, Nat.add_mul, Nat.one_mul] at h3 ⊢
        omega
      | err m => simp only [Res.bind, h2] at h; cases h
      | panic m => simp only [Res.bind, h2] at h; cases h
      | diverge => simp only [Res.bind, h2] at h; cases h
    | err m => rw [h1] at h; cases h
    | panic m => rw [h1] at h; cases h
    | diverge => rw [h1] at h; cases h

end Yaserde
