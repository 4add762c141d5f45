import Verif.Proofs.Nest
import Verif.Proofs.Within
import Verif.Spec.Rename
/-
Two runs in lockstep over documents that differ only in the name of the document element.
-/

set_option autoImplicit false

namespace Yaserde

/-- The two readers have the same depth and the same events in front of them, except for the end
tag of the document element (`n` in one, `n'` in the other); once that is passed no element is
opened any more. -/
structure Ren (n n' : Name) (a b : Rd) : Prop where
  depth : a.depth = b.depth
  evs : ∀ j, (a.stream j = b.stream j ∧
      ∀ x, a.stream j = .ok (.endE x) → (a.depth : Int) + weightSum a.stream j ≠ 1) ∨
    (a.stream j = .ok (.endE n) ∧ b.stream j = .ok (.endE n') ∧
      (a.depth : Int) + weightSum a.stream j = 1)
  once : ∀ i, (a.depth : Int) + weightSum a.stream i = 0 → ∀ j, i ≤ j → weight (a.stream j) ≤ 0

section
variable {n n' : Name} {a b : Rd}

theorem Ren.weight (h : Ren n n' a b) (j : Nat) : weight (a.stream j) = weight (b.stream j) := by
  rcases h.evs j with ⟨h1, -⟩ | ⟨h1, h2, -⟩
  · rw [h1]
  · rw [h1, h2]; rfl

theorem Ren.weightSum (h : Ren n n' a b) (k : Nat) : weightSum a.stream k = weightSum b.stream k := by
  induction k with
  | zero => rfl
  | succ k ih => simp only [Yaserde.weightSum, ih, h.weight]

theorem Ren.adv (h : Ren n n' a b) {k : Nat} {a' b' : Rd} (ha : Adv k a a') (hb : Adv k b b') :
    Ren n n' a' b' := by
  have hs : a'.stream = fun j => a.stream (j + k) := funext ha.1
  have hw : ∀ j, (a'.depth : Int) + Yaserde.weightSum a'.stream j
      = a.depth + Yaserde.weightSum a.stream (j + k) := by
    intro j
    rw [ha.2, hs, Nat.add_comm j k, weightSum_add]
    omega
  constructor
  · have h1 := ha.2
    have h2 := hb.2
    rw [h.weightSum, h.depth] at h1
    exact Int.natCast_inj.mp (h1.trans h2.symm)
  · intro j
    rw [hw, ha.1, hb.1]
    exact h.evs (j + k)
  · intro i hi j hj
    rw [hw] at hi
    rw [ha.1]
    exact h.once _ hi _ (by omega)

/-- An element is opened only inside of the document element. -/
theorem Ren.inside (h : Ren n n' a b) {m : Name} {as : List Attr} {ns : NsMap}
    (h0 : a.stream 0 = .ok (.start m as ns)) : 1 ≤ a.depth := by
  rcases Nat.eq_zero_or_pos a.depth with h1 | h1
  · have := h.once 0 (by simp [h1, Yaserde.weightSum]) 0 (Nat.le_refl _)
    rw [h0] at this
    simp [Yaserde.weight] at this
  · exact h1

/-- What two runs in lockstep end with. -/
inductive Both {α β : Type} (n n' : Name) (Q : α → β → Rd → Rd → Prop) : Res α × Rd → Res β × Rd → Prop
  | ok {x : α} {y : β} {a b : Rd} (h : Ren n n' a b) (hq : Q x y a b) : Both n n' Q (.ok x, a) (.ok y, b)
  | err (m : Str) {a b : Rd} (h : Ren n n' a b) : Both n n' Q (.err m, a) (.err m, b)
  | panic (m : Str) {a b : Rd} : Both n n' Q (.panic m, a) (.panic m, b)
  | diverge {a b : Rd} : Both n n' Q (.diverge, a) (.diverge, b)

variable {α β γ δ : Type}

theorem Both.imp {Q R : α → β → Rd → Rd → Prop} {x : Res α × Rd} {y : Res β × Rd} (h : Both n n' Q x y)
    (hqr : ∀ x y a b, Ren n n' a b → Q x y a b → R x y a b) : Both n n' R x y := by
  cases h with
  | ok h hq => exact .ok h (hqr _ _ _ _ h hq)
  | err m h => exact .err m h
  | panic m => exact .panic m
  | diverge => exact .diverge

theorem Both.bind {Q : α → β → Rd → Rd → Prop} {R : γ → δ → Rd → Rd → Prop} {f : D α} {g : D β}
    {k : α → D γ} {l : β → D δ} (h : Both n n' Q (f a) (g b))
    (hk : ∀ x y a b, Ren n n' a b → Q x y a b → Both n n' R (k x a) (l y b)) :
    Both n n' R ((f >>= k) a) ((g >>= l) b) := by
  generalize hx : f a = x at h
  generalize hy : g b = y at h
  cases h with
  | ok h hq => rw [bind_ok hx, bind_ok hy]; exact hk _ _ _ _ h hq
  | err m h => rw [bind_err hx, bind_err hy]; exact .err m h
  | panic m => rw [bind_panic hx, bind_panic hy]; exact .panic m
  | diverge => rw [bind_diverge hx, bind_diverge hy]; exact .diverge

theorem Both.pure (h : Ren n n' a b) (x : α) : Both n n' (fun x y _ _ => x = y) (M.pure x a) (M.pure x b) :=
  .ok h rfl

theorem Both.throw (h : Ren n n' a b) (m : Str) {Q : α → β → Rd → Rd → Prop} :
    Both n n' Q ((M.throw m : D α) a) ((M.throw m : D β) b) := .err m h

theorem Both.lift (h : Ren n n' a b) (r : Res α) :
    Both n n' (fun x y _ _ => x = y) (M.lift r a) (M.lift r b) := by
  cases r with
  | ok x => exact .ok h rfl
  | err m => exact .err m h
  | panic m => exact .panic m
  | diverge => exact .diverge

theorem Both.ofExcept (h : Ren n n' a b) (r : Except Str α) :
    Both n n' (fun x y _ _ => x = y) (M.ofExcept r a) (M.ofExcept r b) := by
  cases r with
  | ok x => exact .ok h rfl
  | error m => exact .err m h

/-- Relation of attempted results. -/
def Tried (Q : α → β → Rd → Rd → Prop) (r : Except Str α) (r' : Except Str β) (a b : Rd) : Prop :=
  match r, r' with
  | .ok x, .ok y => Q x y a b
  | .error m, .error m' => m = m'
  | _, _ => False

theorem Both.attempt {Q : α → β → Rd → Rd → Prop} {f : D α} {g : D β} (h : Both n n' Q (f a) (g b)) :
    Both n n' (Tried Q) (M.attempt f a) (M.attempt g b) := by
  generalize hx : f a = x at h
  generalize hy : g b = y at h
  cases h with
  | ok h hq => rw [attempt_ok hx, attempt_ok hy]; exact .ok h hq
  | err m h => rw [attempt_err hx, attempt_err hy]; exact .ok h rfl
  | panic m => simp only [M.attempt, hx, hy]; exact .panic m
  | diverge => simp only [M.attempt, hx, hy]; exact .diverge

/-- What is seen in front of two readers: the same, unless it is the end tag of the document element. -/
def Seen (n n' : Name) (e e' : REv) (a b : Rd) : Prop :=
  (e = e' ∧ a.stream 0 = .ok e ∧ ∀ x, e = .endE x → a.depth ≠ 1) ∨
    (e = .endE n ∧ e' = .endE n' ∧ a.depth = 1)

theorem Both.peek (h : Ren n n' a b) :
    Both n n' (fun e e' a' b' => Seen n n' e e' a' b' ∧ a'.depth = a.depth) (peek a) (peek b) := by
  have h1 := peek_stream a
  have h2 := peek_stream b
  have h3 := h.adv (peek_adv a) (peek_adv b)
  generalize hx : Yaserde.peek a = x at h1 h3
  generalize hy : Yaserde.peek b = y at h2 h3
  obtain ⟨r, a'⟩ := x
  obtain ⟨r', b'⟩ := y
  dsimp only at h1 h2 h3
  obtain ⟨rfl, h1s, h1d⟩ := h1
  obtain ⟨rfl, h2s, h2d⟩ := h2
  rcases h.evs 0 with ⟨h4, h5⟩ | ⟨h4, h5, h6⟩
  · rw [← h4]
    cases hs : a.stream 0 with
    | ok e =>
      refine .ok h3 ⟨.inl ⟨rfl, by rw [h1s, hs], fun x hex => ?_⟩, h1d⟩
      subst hex
      have := h5 x hs
      simp [Yaserde.weightSum] at this
      omega
    | err m => exact .err m h3
    | panic m => exact .panic m
    | diverge => exact .diverge
  · rw [h4, h5]
    refine .ok h3 ⟨.inr ⟨rfl, rfl, ?_⟩, h1d⟩
    simp [Yaserde.weightSum] at h6
    omega

/-- `next_event` on both sides: also tells what becomes of the depth. -/
theorem Both.next (h : Ren n n' a b) :
    Both n n' (fun e e' a' _ => (e = e' ∨ (e = .endE n ∧ e' = .endE n' ∧ a.depth = 1)) ∧ a.stream 0 = .ok e ∧
      (a'.depth : Int) = a.depth + Yaserde.weight (.ok e)) (nextEvent a) (nextEvent b) := by
  have h1 := next_stream a
  have h2 := next_stream b
  by_cases hw : (a.depth : Int) + Yaserde.weight (a.stream 0) ≥ 0
  · have hw' := hw
    rw [h.weight, h.depth] at hw'
    obtain ⟨h3, h4⟩ := h1.1 hw
    obtain ⟨h5, h6⟩ := h2.1 hw'
    have h7 := h.adv h4 h6
    generalize hx : nextEvent a = x at h3 h4 h7
    generalize hy : nextEvent b = y at h5 h6 h7
    obtain ⟨r, a'⟩ := x
    obtain ⟨r', b'⟩ := y
    dsimp only at h3 h4 h5 h6 h7
    subst h3 h5
    have h8 : (a'.depth : Int) = a.depth + Yaserde.weight (a.stream 0) := by
      rw [h4.2]; simp [Yaserde.weightSum]
    rcases h.evs 0 with ⟨h9, -⟩ | ⟨h9, h10, h11⟩
    · rw [← h9]
      cases hs : a.stream 0 with
      | ok e => exact .ok h7 ⟨.inl rfl, rfl, by rw [h8, hs]⟩
      | err m => exact .err m h7
      | panic m => exact .panic m
      | diverge => exact .diverge
    · rw [h9] at h8
      rw [h9, h10]
      refine .ok h7 ⟨.inr ⟨rfl, rfl, ?_⟩, rfl, h8⟩
      simp [Yaserde.weightSum] at h11
      omega
  · have hw' := hw
    rw [h.weight, h.depth] at hw'
    have h3 := h1.2 hw
    have h4 := h2.2 hw'
    generalize hx : nextEvent a = x at h3
    generalize hy : nextEvent b = y at h4
    obtain ⟨r, a'⟩ := x
    obtain ⟨r', b'⟩ := y
    dsimp only at h3 h4
    subst h3 h4
    exact .panic _

theorem Both.next' (h : Ren n n' a b) : Both n n' (fun _ _ _ _ => True) (nextEvent a) (nextEvent b) :=
  (Both.next h).imp fun _ _ _ _ _ _ => trivial

theorem Both.tryNext (h : Ren n n' a b) (x : α) :
    Both n n' (fun x y _ _ => x = y) ((M.attempt nextEvent >>= fun _ => M.pure x) a)
      ((M.attempt nextEvent >>= fun _ => M.pure x) b) :=
  .bind (Both.attempt (Both.next' h)) fun _ _ _ _ h _ => Both.pure h x

end

section
variable {n n' : Name}

theorem Both.skipLoop (k depth : Nat) : ∀ (acc acc' : List REv) {a b : Rd}, Ren n n' a b →
    Both n n' (fun _ _ _ _ => True) (Yaserde.skipLoop k depth acc a) (Yaserde.skipLoop k depth acc' b) := by
  induction k with
  | zero => intro acc acc' a b h; exact .diverge
  | succ k ih =>
    intro acc acc' a b h
    simp only [Yaserde.skipLoop]
    rw [← h.depth]
    split
    · exact .bind (Both.next' h) fun e e' _ _ h _ => ih _ _ h
    · exact .ok h trivial

theorem Both.skipElement (fuel : Nat) {a b : Rd} (h : Ren n n' a b) :
    Both n n' (fun _ _ _ _ => True) (Yaserde.skipElement fuel a) (Yaserde.skipElement fuel b) := by
  unfold Yaserde.skipElement
  rw [← h.depth]
  exact Both.skipLoop _ _ _ _ h

/-- The element read by `read_inner_value` is not the document element. -/
theorem Both.readInnerValue {α : Type} {f : D α} {a b : Rd} (h : Ren n n' a b)
    (hf : ∀ a b, Ren n n' a b → Both n n' (fun x y a' _ => x = y ∧ a'.depth = a.depth) (f a) (f b)) :
    Both n n' (fun x y _ _ => x = y) (Yaserde.readInnerValue f a) (Yaserde.readInnerValue f b) := by
  refine .bind (Both.attempt (Both.next h)) fun r r' a1 b1 h1 hr => ?_
  match r, r', hr with
  | .error m, .error m', hr =>
    exact Both.throw h1 _
  | .ok e, .ok e', ⟨.inr ⟨h2, h3, _⟩, _⟩ =>
    subst h2 h3
    exact Both.throw h1 _
  | .ok e, .ok e', ⟨.inl h2, h3, h4⟩ =>
    subst h2
    cases e with
    | start m as ns =>
      have hd := h.inside h3
      simp only [Yaserde.weight] at h4
      refine .bind (hf _ _ h1) fun x y a2 b2 h2 hq => ?_
      obtain ⟨rfl, hd2⟩ := hq
      refine .bind (Q := fun _ _ _ _ => True) ?_ fun _ _ _ _ h _ => Both.pure h x
      refine .bind (Both.next h2) fun e e' _ _ h3 hq => ?_
      rcases hq.1 with rfl | ⟨-, -, h5⟩
      · split
        · split
          · exact .ok h3 trivial
          · exact Both.throw h3 _
        · exact Both.throw h3 _
      · omega
    | _ => exact Both.throw h1 _

end

section
variable {n n' : Name} {L : Lib} {rec : Path → D Val}
  (hrec : ∀ p a b, Ren n n' a b → Both n n' (fun x y _ _ => x = y) (rec p a) (rec p b))

theorem Both.simpleInner (f : FieldDef) (t : STy) {a b : Rd} (h : Ren n n' a b) :
    Both n n' (fun x y a' _ => x = y ∧ a'.depth = a.depth) (Yaserde.simpleInner L f t a)
      (Yaserde.simpleInner L f t b) := by
  refine .bind (Both.attempt (Both.peek h)) fun r r' a1 b1 h1 hr => ?_
  match r, r', hr with
  | .error m, .error m', hr => exact Both.throw h1 _
  | .ok e, .ok e', ⟨.inr ⟨h2, h3, _⟩, _⟩ =>
    subst h2 h3
    exact Both.throw h1 _
  | .ok e, .ok e', ⟨.inl ⟨h2, h3, _⟩, hd⟩ =>
    subst h2
    cases e with
    | chars s =>
      refine .bind (Both.next h1) fun e e' a2 b2 h2 hq => ?_
      have hd2 : a2.depth = a.depth := by
        obtain ⟨-, h4, h5⟩ := hq
        rw [h3] at h4
        cases h4
        simp only [Yaserde.weight] at h5
        omega
      cases visitS L t s with
      | ok v => exact .ok h2 ⟨rfl, hd2⟩
      | error m => exact Both.throw h2 _
    | _ => exact Both.throw h1 _

theorem Both.callSimple (root : Attrs) (f : FieldDef) (i : Nat) (t : STy) (name : Name) (st : LoopSt) {a b : Rd}
    (h : Ren n n' a b) :
    Both n n' (fun x y _ _ => x = y) (Yaserde.callSimple L root f i t name st a)
      (Yaserde.callSimple L root f i t name st b) := by
  refine .bind (Both.ofExcept h _) fun _ _ _ _ h _ =>
    .bind (Both.attempt (Both.readInnerValue h fun _ _ h => Both.simpleInner f t h)) fun r r' _ _ h hr => ?_
  match r, r', hr with
  | .error m, .error m', _ => exact Both.pure h _
  | .ok x, .ok y, hr =>
    have : x = y := hr
    subst this
    exact Both.pure h _

include hrec in
theorem Both.callStruct (i : Nat) (p : Path) (st : LoopSt) {a b : Rd} (h : Ren n n' a b) :
    Both n n' (fun x y _ _ => x = y) (Yaserde.callStruct rec i p st a) (Yaserde.callStruct rec i p st b) := by
  refine .bind (Q := fun x y _ _ => x = y) ?_ fun _ _ _ _ h _ =>
    .bind (Both.attempt (Both.peek h)) fun r r' a1 b1 h1 hr => ?_
  · split
    · exact Both.tryNext h ()
    · exact Both.pure h ()
  · match r, r', hr with
    | .error m, .error m', hr => exact Both.pure h1 _
    | .ok e, .ok e', ⟨.inr ⟨h2, h3, _⟩, _⟩ =>
      subst h2 h3
      exact Both.pure h1 _
    | .ok e, .ok e', ⟨.inl ⟨h2, h3, _⟩, hd⟩ =>
      subst h2
      cases e with
      | start m as ns =>
        refine .bind (hrec p _ _ h1) fun x y _ _ h2 hq => .bind (Both.next' h2) fun _ _ _ _ h3 _ => ?_
        subst hq
        exact Both.pure h3 _
      | _ => exact Both.pure h1 _

include hrec in
theorem Both.callVisitor (root : Attrs) (f : FieldDef) (i : Nat) (name : Name) (st : LoopSt) {a b : Rd}
    (h : Ren n n' a b) :
    Both n n' (fun x y _ _ => x = y) (Yaserde.callVisitor L rec root f i name st a)
      (Yaserde.callVisitor L rec root f i name st b) := by
  unfold Yaserde.callVisitor
  cases f.ty.core with
  | struct p => exact Both.callStruct hrec _ _ _ h
  | simple t => exact Both.callSimple _ _ _ _ _ _ h
  | _ => exact .panic _

theorem writeUnused_none (e : REv) (w : Option EW) : writeUnused false e w = .ok w := rfl

theorem writeUnusedAll_none (es : List REv) (w : Option EW) : writeUnusedAll false es w = .ok w := by
  induction es with
  | nil => rfl
  | cons e es ih => simp only [writeUnusedAll, writeUnused_none, Res.bind, ih]

include hrec in
theorem Both.structStart (fuel : Nat) (d : StructDef) (hd : d.hasFlat = false) (st : LoopSt) (name : Name)
    (attrs : List Attr) {a b : Rd} (h : Ren n n' a b) :
    Both n n' (fun x y _ _ => x = y) (Yaserde.structStart L rec fuel d st name attrs a)
      (Yaserde.structStart L rec fuel d st name attrs b) := by
  unfold Yaserde.structStart
  rw [hd]
  simp only [writeUnused_none, writeUnusedAll_none]
  refine .bind (Q := fun x y _ _ => x = y) ?_ fun st' _ _ _ h hq => ?_
  · split
    · refine .bind (Both.next' h) fun _ _ _ _ h _ => ?_
      exact Both.pure h _
    · cases findArm d.attrs (name.ns.getD []) name.loc d.fields with
      | some i =>
        dsimp only
        cases d.fields[i]? with
        | some f => exact Both.callVisitor hrec _ _ _ _ _ h
        | none => exact Both.pure h _
      | none =>
        dsimp only
        refine .bind (Both.next' h) fun _ _ _ _ h _ => ?_
        refine .bind (Both.lift h _) fun w _ _ _ h hw => ?_
        subst hw
        split
        · exact .bind (Both.skipElement _ h) fun _ _ _ _ h _ => Both.pure h _
        · exact Both.pure h _
  · subst hq
    refine .bind (Q := fun x y _ _ => x = y) ?_ fun st' _ _ _ h hq => ?_
    · split
      · refine .bind (Both.lift h _) fun ss _ _ _ h hs => ?_
        subst hs
        exact Both.pure h _
      · exact Both.pure h _
    · subst hq
      exact Both.pure h _

include hrec in
/-- One iteration.  The loop of the document element itself (`startDepth = 0`) ends at its own end
tag on both sides; any other loop does not end there. -/
theorem Both.structStep (fuel : Nat) (d : StructDef) (hd : d.hasFlat = false) (named named' : Str) (startDepth : Nat)
    (hnm : named = named' ∨ startDepth = 0) (hroot : startDepth = 0 → named = n.loc ∧ named' = n'.loc)
    (st : LoopSt) {a b : Rd} (h : Ren n n' a b) :
    Both n n' (fun x y _ _ => x = y) (Yaserde.structStep L rec fuel d named startDepth st a)
      (Yaserde.structStep L rec fuel d named' startDepth st b) := by
  refine .bind (Both.peek h) fun e e' a1 b1 h1 hq => ?_
  obtain ⟨hq, -⟩ := hq
  rcases hq with ⟨rfl, -, h3⟩ | ⟨rfl, rfl, h3⟩
  · cases e with
    | start name attrs m =>
      refine .bind (Both.structStart hrec fuel d hd st name attrs h1) fun st' _ _ _ h hq => ?_
      subst hq
      exact Both.pure h _
    | endE name =>
      dsimp only
      rw [bind_get, bind_get, hd]
      simp only [writeUnused_none]
      rw [← h1.depth]
      have hiff : (name.loc = named ∧ a1.depth = startDepth + 1) ↔ (name.loc = named' ∧ a1.depth = startDepth + 1) := by
        rcases hnm with rfl | rfl
        · rfl
        · have := h3 name rfl
          simp [this]
      simp only [hiff]
      split
      · exact Both.pure h1 _
      · exact .bind (Both.next' h1) fun _ _ _ _ h _ => Both.pure h _
    | endDocument =>
      dsimp only
      split <;> exact Both.pure h1 _
    | chars t =>
      dsimp only
      rw [hd]
      simp only [writeUnused_none]
      exact .bind (Both.next' h1) fun _ _ _ _ h _ => Both.pure h _
    | _ => exact Both.throw h1 _
  · dsimp only
    rw [bind_get, bind_get, hd]
    simp only [writeUnused_none]
    rw [← h1.depth, h3]
    by_cases hs : startDepth = 0
    · obtain ⟨rfl, rfl⟩ := hroot hs
      subst hs
      rw [if_pos ⟨rfl, rfl⟩, if_pos ⟨rfl, rfl⟩]
      exact Both.pure h1 _
    · rw [if_neg (by omega), if_neg (by omega)]
      exact .bind (Both.next' h1) fun _ _ _ _ h _ => Both.pure h _

include hrec in
theorem Both.structLoop (fuel : Nat) (d : StructDef) (hd : d.hasFlat = false) (named named' : Str) (startDepth : Nat)
    (hnm : named = named' ∨ startDepth = 0) (hroot : startDepth = 0 → named = n.loc ∧ named' = n'.loc) (k : Nat) :
    ∀ (st : LoopSt) {a b : Rd}, Ren n n' a b →
    Both n n' (fun x y _ _ => x = y) (Yaserde.structLoop L rec fuel d named startDepth k st a)
      (Yaserde.structLoop L rec fuel d named' startDepth k st b) := by
  induction k with
  | zero => intro st a b h; exact .diverge
  | succ k ih =>
    intro st a b h
    refine .bind (Both.structStep hrec fuel d hd named named' startDepth hnm hroot st h) fun r _ _ _ h hq => ?_
    subst hq
    obtain ⟨st', c⟩ := r
    dsimp only
    split
    · exact ih st' h
    · exact Both.pure h _

/-- After the loop. -/
theorem Both.structEnd (d : StructDef) (hd : d.hasFlat = false) (st : LoopSt) {a b : Rd} (h : Ren n n' a b) :
    Both n n' (fun x y _ _ => x = y)
      (((match d.hasFlat, st.writer with
        | true, some w => M.lift (flattenFields L rec (L.emit unusedCfg w.out) d.fields st.slots)
        | _, _ => M.pure st.slots) >>= fun slots =>
        M.lift (buildFields d.name d.fields slots) >>= fun vs => M.pure (Val.struct vs)) a)
      (((match d.hasFlat, st.writer with
        | true, some w => M.lift (flattenFields L rec (L.emit unusedCfg w.out) d.fields st.slots)
        | _, _ => M.pure st.slots) >>= fun slots =>
        M.lift (buildFields d.name d.fields slots) >>= fun vs => M.pure (Val.struct vs)) b) := by
  rw [hd]
  refine .bind (Both.pure h _) fun _ _ _ _ h hq => ?_
  subst hq
  refine .bind (Both.lift h _) fun _ _ _ _ h hq => ?_
  subst hq
  exact Both.pure h _

/-- Outside of the document element the two readers are the same. -/
theorem Both.ofLoc {α : Type} {f : D α} (hf : Loc f) {a b : Rd} (h : Ren n n' a b) (h0 : a.depth = 0) :
    Both n n' (fun x y _ _ => x = y) (f a) (f b) := by
  have hle : ∀ j, weightSum a.stream j ≤ 0 := by
    intro j
    induction j with
    | zero => simp [weightSum]
    | succ j ih =>
      have := h.once 0 (by simp [h0, weightSum]) j (by omega)
      simp only [weightSum]
      omega
  have hag : ∀ k, Agree k a b := fun k => ⟨h.depth, fun j _ => by
    rcases h.evs j with ⟨h1, -⟩ | ⟨-, -, h1⟩
    · exact h1
    · have := hle j
      omega⟩
  obtain ⟨k, hk⟩ := hf.from_ a
  obtain ⟨h1, h2⟩ := hk b (hag k)
  obtain ⟨-, h3⟩ := hk a (Agree.refl _ _)
  generalize hx : f a = x at h1 h2 h3
  generalize hy : f b = y at h1 h2
  obtain ⟨r, a'⟩ := x
  obtain ⟨r', b'⟩ := y
  dsimp only at h1 h2 h3
  subst h1
  cases r' with
  | ok v => exact .ok (h.adv (h3 trivial) (h2 trivial)) rfl
  | err m => exact .err m (h.adv (h3 trivial) (h2 trivial))
  | panic m => exact .panic m
  | diverge => exact .diverge

include hrec in
theorem Both.structDeser (fuel : Nat) (d : StructDef) (hd : d.hasFlat = false) {a b : Rd} (h : Ren n n' a b)
    (h0 : a.depth ≠ 0) :
    Both n n' (fun x y _ _ => x = y) (Yaserde.structDeser L rec fuel d a) (Yaserde.structDeser L rec fuel d b) := by
  refine .bind (Both.peek h) fun e e' a1 b1 h1 hq => ?_
  obtain ⟨hq, hdep⟩ := hq
  rw [bind_get, bind_get, ← h1.depth]
  have hi : startInfo (d.attrs.xmlElementName d.name) e = startInfo (d.attrs.xmlElementName d.name) e' := by
    rcases hq with ⟨rfl, -, -⟩ | ⟨rfl, rfl, -⟩ <;> rfl
  rw [← hi]
  unfold structBody
  rw [if_neg (by omega)]
  refine .bind (Both.pure h1 ()) fun _ _ _ _ h1 _ => ?_
  refine .bind (Both.structLoop hrec fuel d hd _ _ _ (.inl rfl) (fun h => by omega) fuel _ h1) fun st _ _ _ h2 hq => ?_
  subst hq
  exact Both.structEnd d hd st h2

theorem Both.visitUnwrap (t : STy) (s : Str) {a b : Rd} (h : Ren n n' a b) :
    Both n n' (fun x y a' _ => x = y ∧ a'.depth = a.depth) (Yaserde.visitUnwrap L t s a)
      (Yaserde.visitUnwrap L t s b) := by
  unfold Yaserde.visitUnwrap
  cases parseS L t s with
  | ok v => exact .ok h ⟨rfl, rfl⟩
  | error m => exact .panic _

theorem Both.variantInner (t : STy) {a b : Rd} (h : Ren n n' a b) :
    Both n n' (fun x y a' _ => x = y ∧ a'.depth = a.depth) (Yaserde.variantInner L t a)
      (Yaserde.variantInner L t b) := by
  refine .bind (Both.peek h) fun e e' a1 b1 h1 hq => ?_
  obtain ⟨hq, hdep⟩ := hq
  have key : ∀ e, a1.stream 0 = .ok e →
      Both n n' (fun x y a' _ => x = y ∧ a'.depth = a.depth)
        ((M.attempt nextEvent >>= fun r => match r with
          | .ok (.chars s) => Yaserde.visitUnwrap L t s
          | _ => M.throw c!"unable to parse content for field_0") a1)
        ((M.attempt nextEvent >>= fun r => match r with
          | .ok (.chars s) => Yaserde.visitUnwrap L t s
          | _ => M.throw c!"unable to parse content for field_0") b1) := by
    intro e he
    refine .bind (Both.attempt (Both.next h1)) fun r r' a2 b2 h2 hr => ?_
    match r, r', hr with
    | .error m, .error m', hr => exact Both.throw h2 _
    | .ok e1, .ok e1', ⟨.inr ⟨h3, h4, _⟩, _⟩ =>
      subst h3 h4
      exact Both.throw h2 _
    | .ok e1, .ok e1', ⟨.inl h3, h4, h5⟩ =>
      subst h3
      cases e1 with
      | chars s =>
        simp only [Yaserde.weight] at h5
        exact (Both.visitUnwrap t s h2).imp fun _ _ _ _ _ h => ⟨h.1, by rw [h.2]; omega⟩
      | _ => exact Both.throw h2 _
  rcases hq with ⟨rfl, h3, -⟩ | ⟨rfl, rfl, -⟩
  · cases e with
    | endE m => exact (Both.visitUnwrap t [] h1).imp fun _ _ _ _ _ h => ⟨h.1, by rw [h.2, hdep]⟩
    | _ => exact key _ h3
  · exact (Both.visitUnwrap t [] h1).imp fun _ _ _ _ _ h => ⟨h.1, by rw [h.2, hdep]⟩

include hrec in
theorem Both.variantArm (i : Nat) (v : VariantDef) (cur : Option Val) {a b : Rd} (h : Ren n n' a b) :
    Both n n' (fun x y _ _ => x = y) (Yaserde.variantArm L rec i v cur a) (Yaserde.variantArm L rec i v cur b) := by
  unfold Yaserde.variantArm
  cases v.shape with
  | unit => exact Both.pure h _
  | named fs => exact Both.pure h _
  | newtype t =>
    dsimp only
    cases t.core with
    | struct p =>
      refine .bind (hrec p _ _ h) fun x _ _ _ h hq => ?_
      subst hq
      refine .bind (Both.ofExcept h _) fun c _ _ _ h hq => ?_
      subst hq
      exact Both.tryNext h _
    | simple s =>
      refine .bind (Both.attempt (Both.readInnerValue h fun _ _ h => Both.variantInner s h)) fun r r' _ _ h hr => ?_
      match r, r', hr with
      | .error m, .error m', _ => exact Both.pure h _
      | .ok x, .ok y, hr =>
        have : x = y := hr
        subst this
        refine .bind (Both.ofExcept h _) fun c _ _ _ h hq => ?_
        subst hq
        exact Both.pure h _
    | _ => exact .panic _

include hrec in
theorem Both.enumMatch (d : EnumDef) (key : Str) (cur : Option Val) {dflt : D (Option Val × Bool)} {a b : Rd}
    (h : Ren n n' a b) (hd : Both n n' (fun x y _ _ => x = y) (dflt a) (dflt b)) :
    Both n n' (fun x y _ _ => x = y) (Yaserde.enumMatch L rec d key cur dflt a)
      (Yaserde.enumMatch L rec d key cur dflt b) := by
  unfold Yaserde.enumMatch
  cases findVariant key d.variants with
  | none => exact hd
  | some i =>
    dsimp only
    cases d.variants[i]? with
    | none => exact hd
    | some v => exact Both.variantArm hrec i v cur h

include hrec in
theorem Both.enumStep (d : EnumDef) (named : Str) (startDepth : Nat) (h0 : startDepth ≠ 0) (cur : Option Val)
    {a b : Rd} (h : Ren n n' a b) :
    Both n n' (fun x y _ _ => x = y) (Yaserde.enumStep L rec d named startDepth cur a)
      (Yaserde.enumStep L rec d named startDepth cur b) := by
  refine .bind (Both.peek h) fun e e' a1 b1 h1 hq => ?_
  obtain ⟨hq, -⟩ := hq
  rcases hq with ⟨rfl, -, -⟩ | ⟨rfl, rfl, h3⟩
  · cases e with
    | start name attrs m =>
      refine .bind (Both.ofExcept h1 _) fun key _ _ _ h2 hq => ?_
      subst hq
      refine .bind (Both.enumMatch hrec d key cur h2 (Both.tryNext h2 _)) fun r _ _ _ h3 hq => ?_
      subst hq
      obtain ⟨cur', c⟩ := r
      dsimp only
      split
      · refine .bind (Both.peek h3) fun e e' a4 b4 h4 hq => ?_
        obtain ⟨hq, -⟩ := hq
        rcases hq with ⟨rfl, -, -⟩ | ⟨rfl, rfl, -⟩
        · cases e with
          | chars t => exact Both.enumMatch hrec d t cur' h4 (Both.pure h4 _)
          | _ => exact Both.pure h4 _
        · exact Both.pure h4 _
      · exact Both.pure h3 _
    | endE name =>
      dsimp only
      rw [bind_get, bind_get, ← h1.depth]
      split
      · exact Both.pure h1 _
      · exact Both.tryNext h1 _
    | chars t => exact Both.tryNext h1 _
    | endDocument =>
      dsimp only
      split
      · exact Both.pure h1 _
      · exact Both.throw h1 _
    | _ => exact Both.throw h1 _
  · dsimp only
    rw [bind_get, bind_get, ← h1.depth, if_neg (by omega), if_neg (by omega)]
    exact Both.tryNext h1 _

include hrec in
theorem Both.enumLoop (d : EnumDef) (named : Str) (startDepth : Nat) (h0 : startDepth ≠ 0) (k : Nat) :
    ∀ (cur : Option Val) {a b : Rd}, Ren n n' a b →
    Both n n' (fun x y _ _ => x = y) (Yaserde.enumLoop L rec d named startDepth k cur a)
      (Yaserde.enumLoop L rec d named startDepth k cur b) := by
  induction k with
  | zero => intro st a b h; exact .diverge
  | succ k ih =>
    intro cur a b h
    refine .bind (Both.enumStep hrec d named startDepth h0 cur h) fun r _ _ _ h hq => ?_
    subst hq
    obtain ⟨cur', c⟩ := r
    dsimp only
    split
    · exact ih cur' h
    · exact Both.pure h _

include hrec in
theorem Both.enumDeser (fuel : Nat) (d : EnumDef) {a b : Rd} (h : Ren n n' a b) (h0 : a.depth ≠ 0) :
    Both n n' (fun x y _ _ => x = y) (Yaserde.enumDeser L rec fuel d a) (Yaserde.enumDeser L rec fuel d b) := by
  refine .bind (Both.peek h) fun e e' a1 b1 h1 hq => ?_
  obtain ⟨hq, hdep⟩ := hq
  rw [bind_get, bind_get, ← h1.depth]
  have hi : startInfo (d.attrs.xmlElementName d.name) e = startInfo (d.attrs.xmlElementName d.name) e' := by
    rcases hq with ⟨rfl, -, -⟩ | ⟨rfl, rfl, -⟩ <;> rfl
  rw [← hi]
  refine .bind (Both.ofExcept h1 _) fun _ _ _ _ h1 _ => ?_
  refine .bind (Both.enumLoop hrec d _ _ (by omega) fuel _ h1) fun cur _ _ _ h2 hq => ?_
  subst hq
  exact Both.pure h2 _

theorem Both.primDeser (d : PrimDef) {a b : Rd} (h : Ren n n' a b) :
    Both n n' (fun x y _ _ => x = y) (Yaserde.primDeser d a) (Yaserde.primDeser d b) := by
  refine .bind (Both.attempt (Both.peek h)) fun r r' a1 b1 h1 hr => ?_
  match r, r', hr with
  | .error m, .error m', hr => exact Both.throw h1 _
  | .ok e, .ok e', ⟨.inr ⟨h2, h3, _⟩, _⟩ =>
    subst h2 h3
    exact Both.throw h1 _
  | .ok e, .ok e', ⟨.inl ⟨h2, h3, _⟩, hd⟩ =>
    subst h2
    cases e with
    | start m as ns =>
      refine .bind (Both.next' h1) fun _ _ a2 b2 h2 _ => ?_
      refine .bind (Both.attempt (Both.peek h2)) fun r r' a3 b3 h3 hr => ?_
      match r, r', hr with
      | .error m, .error m', hr => exact Both.ofExcept h3 _
      | .ok e, .ok e', ⟨.inr ⟨h4, h5, _⟩, _⟩ =>
        subst h4 h5
        exact Both.ofExcept h3 _
      | .ok e, .ok e', ⟨.inl ⟨h4, _, _⟩, _⟩ =>
        subst h4
        cases e <;> exact Both.ofExcept h3 _
    | _ => exact Both.throw h1 _

end

theorem noFlat_iff {d : StructDef} :
    (∀ f ∈ d.fields, f.attrs.isAttr = false → f.attrs.flatten = false) ↔ d.hasFlat = false := by
  simp only [StructDef.hasFlat, List.any_eq_false, Bool.and_eq_true, Bool.not_eq_true', not_and, Bool.not_eq_true]

/-- Deserializers in lockstep. -/
theorem Both.deser {n n' : Name} (L : Lib) (env : Env) (henv : NoFlatten env) (k : Nat) :
    ∀ p a b, Ren n n' a b → Both n n' (fun x y _ _ => x = y) (Yaserde.deser L env k p a) (Yaserde.deser L env k p b) := by
  induction k with
  | zero => intro p a b h; exact .diverge
  | succ k ih =>
    intro p a b h
    by_cases h0 : a.depth = 0
    · exact Both.ofLoc (Loc.deser L env (k + 1) p) h h0
    · unfold Yaserde.deser
      cases hp : env p with
      | none => exact .panic _
      | some t =>
        cases t with
        | struct d => exact Both.structDeser ih k d (noFlat_iff.mp (henv p d hp)) h h0
        | enum d => exact Both.enumDeser ih k d h h0
        | prim d => exact Both.primDeser d h

/-- The first iteration on the start tag of the document element. -/
theorem structStart_root {L : Lib} {rec : Path → D Val} (fuel : Nat) (d : StructDef) (hd : d.hasFlat = false)
    (st : LoopSt) (h0 : st.depth = 0) (n : Name) (hn : ∀ f ∈ d.fields, ¬ f.claims d.attrs n) (as : List Attr) :
    structStart L rec fuel d st n as = (nextEvent >>= fun _ =>
      M.lift (loadAttrs L rec d.fields as st.slots) >>= fun ss =>
      M.pure { st with slots := ss, depth := 1 }) := by
  have hf : findArm d.attrs (n.ns.getD []) n.loc d.fields = none := by rw [findArm_eq, fieldFor_none hn]
  obtain ⟨dep, slots, w⟩ := st
  dsimp only at h0
  subst h0
  have hs : structStart L rec fuel d ⟨0, slots, w⟩ n as = ((nextEvent >>= fun _ => M.pure (⟨0, slots, w⟩ : LoopSt)) >>= fun st' =>
      (if st'.depth = 0 then
        M.lift (loadAttrs L rec d.fields as st'.slots) >>= fun ss => M.pure { st' with slots := ss }
      else M.pure st') >>= fun st'' => M.pure { st'' with depth := st''.depth + 1 }) := by
    unfold structStart
    simp only [hf, hd, writeUnused_none]
    split <;> rfl
  rw [hs]
  funext rd
  cases hx : nextEvent rd with
  | mk r rd' =>
    cases r with
    | ok e =>
      rw [bind_ok (s' := rd') (a := ⟨0, slots, w⟩) (by rw [bind_ok hx]; rfl), bind_ok hx, if_pos rfl]
      dsimp only
      cases loadAttrs L rec d.fields as slots with
      | ok ss => rfl
      | _ => rfl
    | err m => rw [bind_err hx, bind_err (s' := rd') (m := m) (by rw [bind_err hx])]
    | panic m => rw [bind_panic hx, bind_panic (s' := rd') (m := m) (by rw [bind_panic hx])]
    | diverge => rw [bind_diverge hx, bind_diverge (s' := rd') (by rw [bind_diverge hx])]

theorem strm_ren {n n' : Name} {u u' : List REv} (fin : Option Str) (a b : Rd) (h : RootRest n n' u u')
    (ha : At 1 u fin a) (hb : At 1 u' fin b) : Ren n n' a b := by
  have hda := ha.depth
  have hdb := hb.depth
  constructor
  · rw [hda, hdb]
  · intro j
    rw [ha.stream, hb.stream, hda, weightSum_strm]
    cases h with
    | whole mid post h1 h2 h3 =>
      rcases Nat.lt_trichotomy j mid.length with hj | hj | hj
      · left
        have e1 : ∀ x, (mid ++ REv.endE x :: post)[j]? = mid[j]? := fun x => List.getElem?_append_left hj
        refine ⟨by simp only [strm, e1], fun x hx => ?_⟩
        have h4 := h1 (j + 1)
        have h5 : mid[j]? = some (.endE x) := by
          simp only [strm, e1] at hx
          rw [List.getElem?_eq_getElem hj] at hx ⊢
          exact congrArg some (by injection hx)
        have h6 : bal (mid.take (j + 1)) = bal (mid.take j) - 1 := by
          rw [List.take_add_one, h5, bal_append]
          simp [bal_cons, weight]
          omega
        rw [List.take_append_of_le_length (by omega)]
        have : bal (mid.take (j + 1)) ≥ 0 := by simp only [bal]; omega
        omega
      · right
        subst hj
        refine ⟨by simp [strm], by simp [strm], ?_⟩
        rw [List.take_left']
        · have : bal mid = 0 := by simp only [bal]; omega
          omega
        · rfl
      · left
        have e1 : ∀ x, (mid ++ REv.endE x :: post)[j]? = post[j - mid.length - 1]? := by
          intro x
          rw [List.getElem?_append_right (by omega)]
          rw [show j - mid.length = (j - mid.length - 1) + 1 by omega, List.getElem?_cons_succ]
          simp
        refine ⟨by simp only [strm, e1], fun x hx => ?_⟩
        rw [List.take_append, List.take_of_length_le (by omega), bal_append,
          show j - mid.length = (j - mid.length - 1) + 1 by omega, List.take_succ_cons, bal_cons]
        have h4 : bal mid = 0 := by simp only [bal]; omega
        have h5 : bal (post.take (j - mid.length - 1)) ≤ 0 := by
          have : opens (post.take (j - mid.length - 1)) = 0 := by
            simp only [opens, List.countP_eq_zero]
            intro e he
            have := h3 e (List.mem_of_mem_take he)
            cases e with
            | start m as ns => exact (this m as ns rfl).elim
            | _ => simp
          simp only [bal]
          omega
        simp only [weight]
        omega
    | cut es h1 =>
      left
      refine ⟨rfl, fun x hx => ?_⟩
      by_cases hj : j < u.length
      · have h5 : u[j]? = some (.endE x) := by
          simp only [strm] at hx
          rw [List.getElem?_eq_getElem hj] at hx ⊢
          exact congrArg some (by injection hx)
        have h6 : bal (u.take (j + 1)) = bal (u.take j) - 1 := by
          rw [List.take_add_one, h5, bal_append]
          simp [bal_cons, weight]
          omega
        have h4 := h1 (j + 1)
        have : bal (u.take (j + 1)) ≥ 0 := by simp only [bal]; omega
        omega
      · exfalso
        simp only [strm, List.getElem?_eq_none (Nat.le_of_not_lt hj)] at hx
        cases fin <;> simp [finRes] at hx
  · intro i hi j hj
    rw [ha.stream, hda, weightSum_strm] at hi
    rw [ha.stream]
    cases h with
    | whole mid post h1 h2 h3 =>
      by_cases hi' : i ≤ mid.length
      · rw [List.take_append_of_le_length hi'] at hi
        have := h1 i
        have : bal (mid.take i) ≥ 0 := by simp only [bal]; omega
        omega
      · have e1 : (mid ++ REv.endE n :: post)[j]? = post[j - mid.length - 1]? := by
          rw [List.getElem?_append_right (by omega)]
          rw [show j - mid.length = (j - mid.length - 1) + 1 by omega, List.getElem?_cons_succ]
          simp
        simp only [strm, e1]
        cases hp : post[j - mid.length - 1]? with
        | none => cases fin <;> simp [finRes, weight]
        | some e =>
          have := h3 e (List.mem_of_getElem? hp)
          cases e with
          | start m as ns => exact (this m as ns rfl).elim
          | _ => simp [weight]
    | cut es h1 =>
      have := h1 i
      have : bal (u.take i) ≥ 0 := by simp only [bal]; omega
      omega

theorem wellNested_eventsL (ks : List Node) :
    WellNested (Node.eventsL ks) ∧ opens (Node.eventsL ks) = closes (Node.eventsL ks) := by
  obtain ⟨h1, h2⟩ := bal_eventsL ks
  refine ⟨fun k => ?_, ?_⟩
  · have := h2 k
    simp only [bal] at this
    omega
  · simp only [bal] at h1
    omega

/-- What the deserializer of the document element does after its start tag. -/
def rootRest (L : Lib) (rec : Path → D Val) (k : Nat) (d : StructDef) (as : List Attr) (named : Str) : D Val :=
  M.lift (loadAttrs L rec d.fields as (d.fields.map fun f => Slot.init f.ty)) >>= fun ss =>
  structLoop L rec (k + 1) d named 0 k ⟨1, ss, some {}⟩ >>= fun st =>
  (match d.hasFlat, st.writer with
    | true, some w => M.lift (flattenFields L rec (L.emit unusedCfg w.out) d.fields st.slots)
    | _, _ => M.pure st.slots) >>= fun slots =>
  M.lift (buildFields d.name d.fields slots) >>= fun vs => M.pure (Val.struct vs)

theorem rootRest_eq {L : Lib} {rec : Path → D Val} (k : Nat) (d : StructDef) (hd : d.hasFlat = false)
    (n : Name) (as : List Attr) (m : NsMap) (u : List REv) (fin : Option Str) (rd : Rd)
    (hat : At 0 (.start n as m :: u) fin rd) (hn : ∀ f ∈ d.fields, ¬ f.claims d.attrs n) (hns : nsOk d.attrs n) :
    ∃ rd', At 1 u fin rd' ∧ structDeser L rec (k + 1) d rd = rootRest L rec k d as n.loc rd' := by
  obtain ⟨a1, pa1, ha1⟩ := peek_at hat
  obtain ⟨a2, pa2, ha2⟩ := peek_at ha1
  obtain ⟨a3, pa3, ha3⟩ := next_start ha2
  refine ⟨a3, ha3, ?_⟩
  unfold structDeser
  rw [bind_ok pa1, bind_get, ha1.depth]
  unfold structBody
  simp only [startInfo, if_true]
  rw [nsMatching_ok hns]
  have hstep := structStart_root (L := L) (rec := rec) (k + 1) d hd
    ⟨0, d.fields.map fun f => Slot.init f.ty, some {}⟩ rfl n hn as
  have hloop : structLoop L rec (k + 1) d n.loc 0 (k + 1) ⟨0, d.fields.map fun f => Slot.init f.ty, some {}⟩ a1
      = (M.lift (loadAttrs L rec d.fields as (d.fields.map fun f => Slot.init f.ty)) >>= fun ss =>
          structLoop L rec (k + 1) d n.loc 0 k ⟨1, ss, some {}⟩) a3 := by
    rw [structLoop]
    cases hl : loadAttrs L rec d.fields as (d.fields.map fun f => Slot.init f.ty) with
    | ok ss =>
      have h1 : structStep L rec (k + 1) d n.loc 0 ⟨0, d.fields.map fun f => Slot.init f.ty, some {}⟩ a1
          = (.ok (⟨1, ss, some {}⟩, true), a3) := by
        unfold structStep
        rw [bind_ok pa2]
        dsimp only
        rw [hstep, hl]
        simp only [bind_def, M.bind, pa3, M.lift, M.pure]
      rw [bind_ok h1]; rfl
    | err e =>
      have h1 : structStep L rec (k + 1) d n.loc 0 ⟨0, d.fields.map fun f => Slot.init f.ty, some {}⟩ a1
          = (.err e, a3) := by
        unfold structStep
        rw [bind_ok pa2]
        dsimp only
        rw [hstep, hl]
        simp only [bind_def, M.bind, pa3, M.lift]
      rw [bind_err h1]; rfl
    | panic e =>
      have h1 : structStep L rec (k + 1) d n.loc 0 ⟨0, d.fields.map fun f => Slot.init f.ty, some {}⟩ a1
          = (.panic e, a3) := by
        unfold structStep
        rw [bind_ok pa2]
        dsimp only
        rw [hstep, hl]
        simp only [bind_def, M.bind, pa3, M.lift]
      rw [bind_panic h1]; rfl
    | diverge =>
      have h1 : structStep L rec (k + 1) d n.loc 0 ⟨0, d.fields.map fun f => Slot.init f.ty, some {}⟩ a1
          = (.diverge, a3) := by
        unfold structStep
        rw [bind_ok pa2]
        dsimp only
        rw [hstep, hl]
        simp only [bind_def, M.bind, pa3, M.lift]
      rw [bind_diverge h1]; rfl
  show M.bind (structLoop L rec (k + 1) d n.loc 0 (k + 1) _) _ a1 = _
  unfold M.bind
  rw [hloop]
  unfold rootRest
  simp only [bind_def, M.bind, M.lift]
  cases loadAttrs L rec d.fields as (d.fields.map fun f => Slot.init f.ty) <;> rfl

/-- The whole run. -/
theorem struct_renamed (L : Lib) (env : Env) (henv : NoFlatten env) (p : Path) (d : StructDef)
    (hp : env p = some (.struct d)) (s t : Str) (n n' : Name)
    (hren : RootRenamed n n' (content (L.parse s).evs) (content (L.parse t).evs))
    (hfin : (L.parse s).fin = (L.parse t).fin)
    (hn : ∀ f ∈ d.fields, ¬ f.claims d.attrs n) (hn' : ∀ f ∈ d.fields, ¬ f.claims d.attrs n')
    (hns : nsOk d.attrs n) (hns' : nsOk d.attrs n') (k : Nat) :
    deFromStr L env k p s = deFromStr L env k p t := by
  have hd := noFlat_iff.mp (henv p d hp)
  have ha := at_new' (L.parse s)
  have hb := at_new' (L.parse t)
  rw [← hfin] at hb
  generalize content (L.parse s).evs = es at hren ha
  generalize content (L.parse t).evs = es' at hren hb
  obtain ⟨as, m, u, u', rfl, rfl, hrest⟩ := hren
  cases k with
  | zero => rfl
  | succ k =>
    unfold deFromStr fromStr
    simp only [deser, hp]
    cases k with
    | zero =>
      have hz : ∀ (n : Name) u rd, At 0 (.start n as m :: u) (L.parse s).fin rd → nsOk d.attrs n →
          (structDeser L (deser L env 0) 0 d rd).1 = .diverge := by
        intro n u rd hat hns
        obtain ⟨a1, pa1, ha1⟩ := peek_at hat
        unfold structDeser
        rw [bind_ok pa1, bind_get, ha1.depth]
        unfold structBody
        simp only [startInfo, if_true]
        rw [nsMatching_ok hns]
        rfl
      rw [hz n u _ ha hns, hz n' u' _ hb hns']
    | succ k =>
      obtain ⟨a, ha1, ha2⟩ := rootRest_eq (L := L) (rec := deser L env (k + 1)) k d hd n as m u _ _ ha hn hns
      obtain ⟨b, hb1, hb2⟩ := rootRest_eq (L := L) (rec := deser L env (k + 1)) k d hd n' as m u' _ _ hb hn' hns'
      rw [ha2, hb2]
      have hrec := Both.deser (n := n) (n' := n') L env henv (k + 1)
      have hR := strm_ren _ a b hrest ha1 hb1
      have hval : Both n n' (fun x y _ _ => x = y) (rootRest L (deser L env (k + 1)) k d as n.loc a)
          (rootRest L (deser L env (k + 1)) k d as n'.loc b) := by
        refine .bind (Both.lift hR _) fun ss _ _ _ h1 hq => ?_
        subst hq
        refine .bind (Both.structLoop hrec (k + 1) d hd n.loc n'.loc 0 (.inr rfl) (fun _ => ⟨rfl, rfl⟩) k _ h1)
          fun st _ _ _ h2 hq => ?_
        subst hq
        exact Both.structEnd d hd st h2
      generalize rootRest L (deser L env (k + 1)) k d as n.loc a = x at hval
      generalize rootRest L (deser L env (k + 1)) k d as n'.loc b = y at hval
      cases hval with
      | ok _ hq => rw [hq]
      | _ => rfl

end Yaserde
