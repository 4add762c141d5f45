import Mathlib.Data.List.Forall2
import Verif.Proofs.Rename
import Verif.Spec.Twin
/-
Two runs in lockstep over documents that differ in prefixes, namespace declarations and the order of
attributes only.
-/

set_option autoImplicit false

namespace Yaserde

/-- An element that contains at most one text ends with an end tag of its own name. -/
def Tight (rd : Rd) : Prop :=
  ∀ j n as m, rd.stream j = .ok (.start n as m) →
    (∀ x, rd.stream (j + 1) = .ok (.endE x) → x = n) ∧
    ∀ s x, rd.stream (j + 1) = .ok (.chars s) → rd.stream (j + 2) = .ok (.endE x) → x = n

theorem Tight.adv {k : Nat} {a a' : Rd} (h : Tight a) (ha : Adv k a a') : Tight a' := by
  intro j n as m hj
  rw [ha.1] at hj
  obtain ⟨h1, h2⟩ := h _ n as m hj
  refine ⟨fun x hx => h1 x ?_, fun s x hs hx => h2 s x ?_ ?_⟩
  · rw [ha.1] at hx
    rwa [show j + k + 1 = j + 1 + k by omega]
  · rw [ha.1] at hs
    rwa [show j + k + 1 = j + 1 + k by omega]
  · rw [ha.1] at hx
    rwa [show j + k + 2 = j + 2 + k by omega]

/-- The same thing in front of two readers. -/
inductive SameRes : Res REv → Res REv → Prop
  | ev {e e' : REv} (h : SameEv e e') : SameRes (.ok e) (.ok e')
  | other {r : Res REv} (h : ∀ e, r ≠ .ok e) : SameRes r r

/-- Two readers over the same events, up to prefixes, declarations and the order of attributes. -/
structure Twin (a b : Rd) : Prop where
  depth : a.depth = b.depth
  evs : ∀ j, SameRes (a.stream j) (b.stream j)
  left : Tight a
  right : Tight b

section
variable {a b : Rd}

theorem SameEv.weight {e e' : REv} (h : SameEv e e') : weight (.ok e) = weight (.ok e') := by
  cases h <;> rfl

theorem SameRes.weight {r r' : Res REv} (h : SameRes r r') : weight r = weight r' := by
  cases h with
  | ev h => exact h.weight
  | other => rfl

theorem Twin.weightSum (h : Twin a b) (k : Nat) : weightSum a.stream k = weightSum b.stream k := by
  induction k with
  | zero => rfl
  | succ k ih => simp only [Yaserde.weightSum, ih, (h.evs k).weight]

theorem Twin.adv (h : Twin a b) {k : Nat} {a' b' : Rd} (ha : Adv k a a') (hb : Adv k b b') : Twin a' b' := by
  refine ⟨?_, fun j => ?_, h.left.adv ha, h.right.adv hb⟩
  · have h1 := ha.2
    have h2 := hb.2
    rw [h.weightSum, h.depth] at h1
    exact Int.natCast_inj.mp (h1.trans h2.symm)
  · rw [ha.1, hb.1]
    exact h.evs (j + k)

/-- What two runs in lockstep end with. -/
inductive Duo {α β : Type} (P : Prop) (Q : α → β → Rd → Rd → Prop) : Res α × Rd → Res β × Rd → Prop
  | ok {x : α} {y : β} {a b : Rd} (h : Twin a b) (hq : Q x y a b) : Duo P Q (.ok x, a) (.ok y, b)
  | err {m m' : Str} {a b : Rd} (h : Twin a b) (hm : P → m = m') : Duo P Q (.err m, a) (.err m', b)
  | panic (m : Str) {a b : Rd} : Duo P Q (.panic m, a) (.panic m, b)
  | diverge {a b : Rd} : Duo P Q (.diverge, a) (.diverge, b)

variable {α β γ δ : Type} {P : Prop}

theorem Duo.imp {Q R : α → β → Rd → Rd → Prop} {x : Res α × Rd} {y : Res β × Rd} (h : Duo P Q x y)
    (hqr : ∀ x y a b, Twin a b → Q x y a b → R x y a b) : Duo P R x y := by
  cases h with
  | ok h hq => exact .ok h (hqr _ _ _ _ h hq)
  | err h hm => exact .err h hm
  | panic m => exact .panic m
  | diverge => exact .diverge

theorem Duo.bind {Q : α → β → Rd → Rd → Prop} {R : γ → δ → Rd → Rd → Prop} {f : D α} {g : D β}
    {k : α → D γ} {l : β → D δ} (h : Duo P Q (f a) (g b))
    (hk : ∀ x y a b, Twin a b → Q x y a b → Duo P R (k x a) (l y b)) :
    Duo P R ((f >>= k) a) ((g >>= l) b) := by
  generalize hx : f a = x at h
  generalize hy : g b = y at h
  cases h with
  | ok h hq => rw [bind_ok hx, bind_ok hy]; exact hk _ _ _ _ h hq
  | err h hm => rw [bind_err hx, bind_err hy]; exact .err h hm
  | panic m => rw [bind_panic hx, bind_panic hy]; exact .panic m
  | diverge => rw [bind_diverge hx, bind_diverge hy]; exact .diverge

theorem Duo.pure (h : Twin a b) (x : α) : Duo P (fun x y _ _ => x = y) (M.pure x a) (M.pure x b) :=
  .ok h rfl

theorem Duo.throw (h : Twin a b) (m : Str) {Q : α → β → Rd → Rd → Prop} :
    Duo P Q ((M.throw m : D α) a) ((M.throw m : D β) b) := .err h fun _ => rfl

theorem Duo.lift (h : Twin a b) (r : Res α) :
    Duo P (fun x y _ _ => x = y) (M.lift r a) (M.lift r b) := by
  cases r with
  | ok x => exact .ok h rfl
  | err m => exact .err h fun _ => rfl
  | panic m => exact .panic m
  | diverge => exact .diverge

theorem Duo.ofExcept (h : Twin a b) (r : Except Str α) :
    Duo P (fun x y _ _ => x = y) (M.ofExcept r a) (M.ofExcept r b) := by
  cases r with
  | ok x => exact .ok h rfl
  | error m => exact .err h fun _ => rfl

/-- Relation of attempted results. -/
def Tried' (Q : α → β → Rd → Rd → Prop) (r : Except Str α) (r' : Except Str β) (a b : Rd) : Prop :=
  match r, r' with
  | .ok x, .ok y => Q x y a b
  | .error _, .error _ => True
  | _, _ => False

theorem Duo.attempt {Q : α → β → Rd → Rd → Prop} {f : D α} {g : D β} (h : Duo P Q (f a) (g b)) :
    Duo P (Tried' Q) (M.attempt f a) (M.attempt g b) := by
  generalize hx : f a = x at h
  generalize hy : g b = y at h
  cases h with
  | ok h hq => rw [attempt_ok hx, attempt_ok hy]; exact .ok h hq
  | err h hm => rw [attempt_err hx, attempt_err hy]; exact .ok h trivial
  | panic m => simp only [M.attempt, hx, hy]; exact .panic m
  | diverge => simp only [M.attempt, hx, hy]; exact .diverge

theorem Duo.peek (h : Twin a b) :
    Duo P (fun e e' a' b' => SameEv e e' ∧ Adv 0 a a' ∧ Adv 0 b b' ∧ a'.stream 0 = .ok e) (peek a) (peek b) := by
  have h1 := peek_stream a
  have h2 := peek_stream b
  have pa := peek_adv a
  have pb := peek_adv b
  have h3 := h.adv pa pb
  generalize hx : Yaserde.peek a = x at h1 h3 pa
  generalize hy : Yaserde.peek b = y at h2 h3 pb
  obtain ⟨r, a'⟩ := x
  obtain ⟨r', b'⟩ := y
  dsimp only at h1 h2 h3 pa pb
  obtain ⟨h1r, h1s, -⟩ := h1
  obtain ⟨h2r, -, -⟩ := h2
  have h4 := h.evs 0
  rw [← h1r, ← h2r] at h4
  cases h4 with
  | ev he => exact .ok h3 ⟨he, pa, pb, by rw [h1s, ← h1r]⟩
  | other hn =>
    cases r with
    | ok e => exact (hn e rfl).elim
    | err m => exact .err h3 fun _ => rfl
    | panic m => exact .panic m
    | diverge => exact .diverge

theorem Duo.next (h : Twin a b) :
    Duo P (fun e e' a' b' => SameEv e e' ∧ a.stream 0 = .ok e ∧ b.stream 0 = .ok e' ∧ Adv 1 a a' ∧ Adv 1 b b')
      (nextEvent a) (nextEvent b) := by
  have h1 := next_stream a
  have h2 := next_stream b
  have h0 := h.evs 0
  by_cases hw : (a.depth : Int) + Yaserde.weight (a.stream 0) ≥ 0
  · have hw' := hw
    rw [h0.weight, h.depth] at hw'
    obtain ⟨h3, h4⟩ := h1.1 hw
    obtain ⟨h5, h6⟩ := h2.1 hw'
    have h7 := h.adv h4 h6
    generalize hx : nextEvent a = x at h3 h4 h7
    generalize hy : nextEvent b = y at h5 h6 h7
    obtain ⟨r, a'⟩ := x
    obtain ⟨r', b'⟩ := y
    dsimp only at h3 h4 h5 h6 h7
    rw [← h3, ← h5] at h0
    rw [← h3, ← h5]
    cases h0 with
    | ev he => exact .ok h7 ⟨he, rfl, rfl, h4, h6⟩
    | other hn =>
      cases r with
      | ok e => exact (hn e rfl).elim
      | err m => exact .err h7 fun _ => rfl
      | panic m => exact .panic m
      | diverge => exact .diverge
  · have hw' := hw
    rw [h0.weight, h.depth] at hw'
    have h3 := h1.2 hw
    have h4 := h2.2 hw'
    generalize hx : nextEvent a = x at h3
    generalize hy : nextEvent b = y at h4
    obtain ⟨r, a'⟩ := x
    obtain ⟨r', b'⟩ := y
    dsimp only at h3 h4
    subst h3 h4
    exact .panic _

theorem Duo.next' (h : Twin a b) : Duo P (fun _ _ _ _ => True) (nextEvent a) (nextEvent b) :=
  (Duo.next h).imp fun _ _ _ _ _ _ => trivial

theorem Duo.tryNext (h : Twin a b) (x : α) :
    Duo P (fun x y _ _ => x = y) ((M.attempt nextEvent >>= fun _ => M.pure x) a)
      ((M.attempt nextEvent >>= fun _ => M.pure x) b) :=
  .bind (Duo.attempt (Duo.next' h)) fun _ _ _ _ h _ => Duo.pure h x

theorem Duo.skipLoop (k depth : Nat) : ∀ (acc acc' : List REv) {a b : Rd}, Twin a b →
    Duo P (fun _ _ _ _ => True) (Yaserde.skipLoop k depth acc a) (Yaserde.skipLoop k depth acc' b) := by
  induction k with
  | zero => intro acc acc' a b h; exact .diverge
  | succ k ih =>
    intro acc acc' a b h
    simp only [Yaserde.skipLoop]
    rw [← h.depth]
    split
    · exact .bind (Duo.next' h) fun e e' _ _ h _ => ih _ _ h
    · exact .ok h trivial

theorem Duo.skipElement (fuel : Nat) (h : Twin a b) :
    Duo P (fun _ _ _ _ => True) (Yaserde.skipElement fuel a) (Yaserde.skipElement fuel b) := by
  unfold Yaserde.skipElement
  rw [← h.depth]
  exact Duo.skipLoop _ _ _ _ h

/-- Nothing, or one text, has been consumed. -/
def Little (a a' : Rd) : Prop := Adv 0 a a' ∨ ∃ s, a.stream 0 = .ok (.chars s) ∧ Adv 1 a a'

theorem Little.own {a a1 a2 : Rd} (h : Tight a) {n : Name} {as : List Attr} {m : NsMap}
    (h0 : a.stream 0 = .ok (.start n as m)) (h1 : Adv 1 a a1) (h2 : Little a1 a2) {x : Name}
    (hx : a2.stream 0 = .ok (.endE x)) : x = n := by
  obtain ⟨h3, h4⟩ := h 0 n as m h0
  rcases h2 with h2 | ⟨s, hs, h2⟩
  · rw [h2.1, h1.1] at hx
    exact h3 x hx
  · rw [h2.1, h1.1] at hx
    rw [h1.1] at hs
    exact h4 s x hs hx

theorem Duo.readInnerValue {f : D α} (h : Twin a b)
    (hf : ∀ a b, Twin a b → Duo P (fun x y a' b' => x = y ∧ Little a a' ∧ Little b b') (f a) (f b)) :
    Duo P (fun x y _ _ => x = y) (Yaserde.readInnerValue f a) (Yaserde.readInnerValue f b) := by
  refine .bind (Duo.attempt (Duo.next h)) fun r r' a1 b1 h1 hr => ?_
  match r, r', hr with
  | .error m, .error m', hr => exact Duo.throw h1 _
  | .ok e, .ok e', ⟨he, ha, hb, aa, ab⟩ =>
    cases he with
    | start m m' hn hat =>
      refine .bind (hf _ _ h1) fun x y a2 b2 h2 hq => ?_
      obtain ⟨rfl, la, lb⟩ := hq
      refine .bind (Q := fun _ _ _ _ => True) ?_ fun _ _ _ _ h _ => Duo.pure h x
      refine .bind (Duo.next h2) fun e e' _ _ h3 hq => ?_
      obtain ⟨he, h4, h5, -, -⟩ := hq
      cases he with
      | start m m' hn' hat' =>
        dsimp only
        rw [hn.1]
        exact Duo.throw h3 _
      | endE hn' =>
        have e1 := la.own h.left ha aa h4
        have e2 := lb.own h.right hb ab h5
        subst e1 e2
        dsimp only
        rw [if_pos rfl, if_pos rfl]
        exact .ok h3 trivial
      | other hs he =>
        cases e with
        | start n as m => exact (hs n as m rfl).elim
        | endE n => exact (he n rfl).elim
        | _ =>
          dsimp only
          rw [hn.1]
          exact Duo.throw h3 _
    | endE hn => exact Duo.throw h1 _
    | other hs he =>
      cases e with
      | start n as m => exact (hs n as m rfl).elim
      | endE n => exact (he n rfl).elim
      | _ => exact Duo.throw h1 _

end

section
variable {P : Prop} {L : Lib} {rec : Path → D Val}
  (hrec : ∀ p a b, Twin a b → Duo P (fun x y _ _ => x = y) (rec p a) (rec p b))

theorem Duo.simpleInner (f : FieldDef) (t : STy) {a b : Rd} (h : Twin a b) :
    Duo P (fun x y a' b' => x = y ∧ Little a a' ∧ Little b b') (Yaserde.simpleInner L f t a)
      (Yaserde.simpleInner L f t b) := by
  refine .bind (Duo.attempt (Duo.peek h)) fun r r' a1 b1 h1 hr => ?_
  match r, r', hr with
  | .error m, .error m', hr => exact Duo.throw h1 _
  | .ok e, .ok e', ⟨he, pa, pb, h0⟩ =>
    cases he with
    | start m m' hn hat => exact Duo.throw h1 _
    | endE hn => exact Duo.throw h1 _
    | other hs he =>
      cases e with
      | chars s =>
        refine .bind (Duo.next h1) fun e e' a2 b2 h2 hq => ?_
        obtain ⟨hse, h3, h4, h5, h6⟩ := hq
        rw [h0] at h3
        cases h3
        have hb0 : b1.stream 0 = .ok (.chars s) := by cases hse; exact h4
        have la : Little a a2 := .inr ⟨s, by rw [pa.1] at h0; exact h0, by simpa using pa.trans h5⟩
        have lb : Little b b2 := .inr ⟨s, by rw [pb.1] at hb0; exact hb0, by simpa using pb.trans h6⟩
        cases visitS L t s with
        | ok v => exact .ok h2 ⟨rfl, la, lb⟩
        | error m => exact Duo.throw h2 _
      | _ => exact Duo.throw h1 _

theorem Duo.callSimple (root : Attrs) (f : FieldDef) (i : Nat) (t : STy) {name name' : Name} (hn : name.Same name')
    (st : LoopSt) {a b : Rd} (h : Twin a b) :
    Duo P (fun x y _ _ => x = y) (Yaserde.callSimple L root f i t name st a)
      (Yaserde.callSimple L root f i t name' st b) := by
  unfold Yaserde.callSimple
  rw [hn.1, hn.2]
  refine .bind (Duo.ofExcept h _) fun _ _ _ _ h _ =>
    .bind (Duo.attempt (Duo.readInnerValue h fun _ _ h => Duo.simpleInner f t h)) fun r r' _ _ h hr => ?_
  match r, r', hr with
  | .error m, .error m', _ => exact Duo.pure h _
  | .ok x, .ok y, hr =>
    have : x = y := hr
    subst this
    exact Duo.pure h _

include hrec in
theorem Duo.callStruct (i : Nat) (p : Path) (st : LoopSt) {a b : Rd} (h : Twin a b) :
    Duo P (fun x y _ _ => x = y) (Yaserde.callStruct rec i p st a) (Yaserde.callStruct rec i p st b) := by
  refine .bind (Q := fun x y _ _ => x = y) ?_ fun _ _ _ _ h _ =>
    .bind (Duo.attempt (Duo.peek h)) fun r r' a1 b1 h1 hr => ?_
  · split
    · exact Duo.tryNext h ()
    · exact Duo.pure h ()
  · match r, r', hr with
    | .error m, .error m', hr => exact Duo.pure h1 _
    | .ok e, .ok e', ⟨he, _⟩ =>
      cases he with
      | start m m' hn hat =>
        refine .bind (hrec p _ _ h1) fun x y _ _ h2 hq => .bind (Duo.next' h2) fun _ _ _ _ h3 _ => ?_
        subst hq
        exact Duo.pure h3 _
      | endE hn => exact Duo.pure h1 _
      | other hs he =>
        cases e with
        | start n as m => exact (hs n as m rfl).elim
        | _ => exact Duo.pure h1 _

include hrec in
theorem Duo.callVisitor (root : Attrs) (f : FieldDef) (i : Nat) {name name' : Name} (hn : name.Same name')
    (st : LoopSt) {a b : Rd} (h : Twin a b) :
    Duo P (fun x y _ _ => x = y) (Yaserde.callVisitor L rec root f i name st a)
      (Yaserde.callVisitor L rec root f i name' st b) := by
  unfold Yaserde.callVisitor
  cases f.ty.core with
  | struct p => exact Duo.callStruct hrec _ _ _ h
  | simple t => exact Duo.callSimple _ _ _ _ hn _ h
  | _ => exact .panic _

theorem foldRes_filter {β : Type} (l : Str) (g : β → Str → Res β) (as : List Attr) : ∀ b : β,
    foldRes (fun b (a : Attr) => if a.name.loc = l then g b a.value else .ok b) b as
      = foldRes g b ((as.filter fun a => a.name.loc = l).map (·.value)) := by
  induction as with
  | nil => intro b; rfl
  | cons a as ih =>
    intro b
    by_cases h : a.name.loc = l
    · simp only [foldRes, h, if_true, List.filter_cons, decide_true, List.map_cons, ih]
    · simp only [foldRes, h, if_false, List.filter_cons, decide_false, ih, Res.bind_ok]
      simp

theorem loadAttrField_same (f : FieldDef) {as as' : List Attr} (h : SameAttrs as as') (s : Slot) :
    loadAttrField L rec f as s = loadAttrField L rec f as' s := by
  have key : ∀ as, loadAttrField L rec f as s = foldRes (fun slot v =>
      match f.ty with
      | .vec t => foldRes (fun slot w => (visitAttr L rec t w).bind fun v => .ok (slot.put v)) slot (splitWhitespace v)
      | t => (visitAttr L rec t.core v).bind fun v => .ok (slot.put v)) s
        ((as.filter fun a => a.name.loc = f.label).map (·.value)) := by
    intro as
    rw [← foldRes_filter]
    rfl
  rw [key, key, h f.label]

theorem loadAttrs_same (fs : List FieldDef) {as as' : List Attr} (h : SameAttrs as as') : ∀ ss : List Slot,
    loadAttrs L rec fs as ss = loadAttrs L rec fs as' ss := by
  induction fs with
  | nil => intro ss; cases ss <;> rfl
  | cons f fs ih =>
    intro ss
    cases ss with
    | nil => rfl
    | cons s ss => simp only [loadAttrs, ih, loadAttrField_same f h]

include hrec in
theorem Duo.structStart (fuel : Nat) (d : StructDef) (hd : d.hasFlat = false) (st : LoopSt) {name name' : Name}
    (hn : name.Same name') {attrs attrs' : List Attr} (hat : SameAttrs attrs attrs') {a b : Rd} (h : Twin a b) :
    Duo P (fun x y _ _ => x = y) (Yaserde.structStart L rec fuel d st name attrs a)
      (Yaserde.structStart L rec fuel d st name' attrs' b) := by
  unfold Yaserde.structStart
  rw [hd, ← hn.1, ← hn.2]
  simp only [writeUnused_none, writeUnusedAll_none, ← loadAttrs_same d.fields hat]
  refine .bind (Q := fun x y _ _ => x = y) ?_ fun st' _ _ _ h hq => ?_
  · split
    · refine .bind (Duo.next' h) fun _ _ _ _ h _ => ?_
      exact Duo.pure h _
    · cases findArm d.attrs (name.ns.getD []) name.loc d.fields with
      | some i =>
        dsimp only
        cases d.fields[i]? with
        | some f => exact Duo.callVisitor hrec _ _ _ hn _ h
        | none => exact Duo.pure h _
      | none =>
        dsimp only
        refine .bind (Duo.next' h) fun _ _ _ _ h _ => ?_
        refine .bind (Duo.lift h _) fun w _ _ _ h hw => ?_
        subst hw
        split
        · exact .bind (Duo.skipElement _ h) fun _ _ _ _ h _ => Duo.pure h _
        · exact Duo.pure h _
  · subst hq
    refine .bind (Q := fun x y _ _ => x = y) ?_ fun st' _ _ _ h hq => ?_
    · split
      · refine .bind (Duo.lift h _) fun ss _ _ _ h hs => ?_
        subst hs
        exact Duo.pure h _
      · exact Duo.pure h _
    · subst hq
      exact Duo.pure h _

include hrec in
theorem Duo.structStep (fuel : Nat) (d : StructDef) (hd : d.hasFlat = false) (named : Str) (startDepth : Nat)
    (st : LoopSt) {a b : Rd} (h : Twin a b) :
    Duo P (fun x y _ _ => x = y) (Yaserde.structStep L rec fuel d named startDepth st a)
      (Yaserde.structStep L rec fuel d named startDepth st b) := by
  refine .bind (Duo.peek h) fun e e' a1 b1 h1 hq => ?_
  obtain ⟨hq, -⟩ := hq
  cases hq with
  | start m m' hn hat =>
    refine .bind (Duo.structStart hrec fuel d hd st hn hat h1) fun st' _ _ _ h hq => ?_
    subst hq
    exact Duo.pure h _
  | endE hn =>
    dsimp only
    rw [bind_get, bind_get, hd]
    simp only [writeUnused_none]
    rw [← h1.depth, ← hn.1]
    split
    · exact Duo.pure h1 _
    · exact .bind (Duo.next' h1) fun _ _ _ _ h _ => Duo.pure h _
  | other hs he =>
    cases e with
    | start n as m => exact (hs n as m rfl).elim
    | endE n => exact (he n rfl).elim
    | endDocument =>
      dsimp only
      split <;> exact Duo.pure h1 _
    | chars t =>
      dsimp only
      rw [hd]
      simp only [writeUnused_none]
      exact .bind (Duo.next' h1) fun _ _ _ _ h _ => Duo.pure h _
    | _ => exact Duo.throw h1 _

include hrec in
theorem Duo.structLoop (fuel : Nat) (d : StructDef) (hd : d.hasFlat = false) (named : Str) (startDepth : Nat) (k : Nat) :
    ∀ (st : LoopSt) {a b : Rd}, Twin a b →
    Duo P (fun x y _ _ => x = y) (Yaserde.structLoop L rec fuel d named startDepth k st a)
      (Yaserde.structLoop L rec fuel d named startDepth k st b) := by
  induction k with
  | zero => intro st a b h; exact .diverge
  | succ k ih =>
    intro st a b h
    refine .bind (Duo.structStep hrec fuel d hd named startDepth st h) fun r _ _ _ h hq => ?_
    subst hq
    obtain ⟨st', c⟩ := r
    dsimp only
    split
    · exact ih st' h
    · exact Duo.pure h _

theorem startInfo_same (own : Str) {e e' : REv} (h : SameEv e e') : startInfo own e = startInfo own e' := by
  cases h with
  | start m m' hn hat => simp only [startInfo, hn.1, hn.2]
  | endE hn => rfl
  | other => rfl

include hrec in
theorem Duo.structDeser (fuel : Nat) (d : StructDef) (hd : d.hasFlat = false) {a b : Rd} (h : Twin a b) :
    Duo P (fun x y _ _ => x = y) (Yaserde.structDeser L rec fuel d a) (Yaserde.structDeser L rec fuel d b) := by
  refine .bind (Duo.peek h) fun e e' a1 b1 h1 hq => ?_
  rw [bind_get, bind_get, ← h1.depth, ← startInfo_same _ hq.1]
  unfold structBody
  refine .bind (Q := fun _ _ _ _ => True) ?_ fun _ _ _ _ h1 _ => ?_
  · split
    · exact (Duo.ofExcept h1 _).imp fun _ _ _ _ _ _ => trivial
    · exact .ok h1 trivial
  refine .bind (Duo.structLoop hrec fuel d hd _ _ fuel _ h1) fun st _ _ _ h2 hq => ?_
  subst hq
  rw [hd]
  refine .bind (Duo.pure h2 _) fun _ _ _ _ h hq => ?_
  subst hq
  refine .bind (Duo.lift h _) fun _ _ _ _ h hq => ?_
  subst hq
  exact Duo.pure h _

theorem Duo.visitUnwrap (t : STy) (s : Str) {a b : Rd} (h : Twin a b) :
    Duo P (fun x y a' b' => x = y ∧ a' = a ∧ b' = b) (Yaserde.visitUnwrap L t s a)
      (Yaserde.visitUnwrap L t s b) := by
  unfold Yaserde.visitUnwrap
  cases parseS L t s with
  | ok v => exact .ok h ⟨rfl, rfl, rfl⟩
  | error m => exact .panic _

theorem Duo.variantInner (t : STy) {a b : Rd} (h : Twin a b) :
    Duo P (fun x y a' b' => x = y ∧ Little a a' ∧ Little b b') (Yaserde.variantInner L t a)
      (Yaserde.variantInner L t b) := by
  refine .bind (Duo.peek h) fun e e' a1 b1 h1 hq => ?_
  obtain ⟨hq, pa, pb, h0⟩ := hq
  have key :
      Duo P (fun x y a' b' => x = y ∧ Little a a' ∧ Little b b')
        ((M.attempt nextEvent >>= fun r => match r with
          | .ok (.chars s) => Yaserde.visitUnwrap L t s
          | _ => M.throw c!"unable to parse content for field_0") a1)
        ((M.attempt nextEvent >>= fun r => match r with
          | .ok (.chars s) => Yaserde.visitUnwrap L t s
          | _ => M.throw c!"unable to parse content for field_0") b1) := by
    refine .bind (Duo.attempt (Duo.next h1)) fun r r' a2 b2 h2 hr => ?_
    match r, r', hr with
    | .error m, .error m', hr => exact Duo.throw h2 _
    | .ok e1, .ok e1', ⟨he, h3, h4, h5, h6⟩ =>
      cases he with
      | start m m' hn hat => exact Duo.throw h2 _
      | endE hn => exact Duo.throw h2 _
      | other hs he =>
        cases e1 with
        | chars s =>
          have la : Little a a2 := .inr ⟨s, by rw [pa.1] at h3; exact h3, by simpa using pa.trans h5⟩
          have lb : Little b b2 := .inr ⟨s, by rw [pb.1] at h4; exact h4, by simpa using pb.trans h6⟩
          exact (Duo.visitUnwrap t s h2).imp fun _ _ _ _ _ h => ⟨h.1, by rw [h.2.1]; exact la, by rw [h.2.2]; exact lb⟩
        | _ => exact Duo.throw h2 _
  have stay : Duo P (fun x y a' b' => x = y ∧ Little a a' ∧ Little b b') (Yaserde.visitUnwrap L t [] a1)
      (Yaserde.visitUnwrap L t [] b1) :=
    (Duo.visitUnwrap t [] h1).imp fun _ _ _ _ _ h => ⟨h.1, by rw [h.2.1]; exact .inl pa, by rw [h.2.2]; exact .inl pb⟩
  cases hq with
  | start m m' hn hat => exact key
  | endE hn => exact stay
  | other hs he =>
    cases e with
    | endE m => exact stay
    | _ => exact key

include hrec in
theorem Duo.variantArm (i : Nat) (v : VariantDef) (cur : Option Val) {a b : Rd} (h : Twin a b) :
    Duo P (fun x y _ _ => x = y) (Yaserde.variantArm L rec i v cur a) (Yaserde.variantArm L rec i v cur b) := by
  unfold Yaserde.variantArm
  cases v.shape with
  | unit => exact Duo.pure h _
  | named fs => exact Duo.pure h _
  | newtype t =>
    dsimp only
    cases t.core with
    | struct p =>
      refine .bind (hrec p _ _ h) fun x _ _ _ h hq => ?_
      subst hq
      refine .bind (Duo.ofExcept h _) fun c _ _ _ h hq => ?_
      subst hq
      exact Duo.tryNext h _
    | simple s =>
      refine .bind (Duo.attempt (Duo.readInnerValue h fun _ _ h => Duo.variantInner s h)) fun r r' _ _ h hr => ?_
      match r, r', hr with
      | .error m, .error m', _ => exact Duo.pure h _
      | .ok x, .ok y, hr =>
        have : x = y := hr
        subst this
        refine .bind (Duo.ofExcept h _) fun c _ _ _ h hq => ?_
        subst hq
        exact Duo.pure h _
    | _ => exact .panic _

include hrec in
theorem Duo.enumMatch (d : EnumDef) (key : Str) (cur : Option Val) {dflt : D (Option Val × Bool)} {a b : Rd}
    (h : Twin a b) (hd : Duo P (fun x y _ _ => x = y) (dflt a) (dflt b)) :
    Duo P (fun x y _ _ => x = y) (Yaserde.enumMatch L rec d key cur dflt a)
      (Yaserde.enumMatch L rec d key cur dflt b) := by
  unfold Yaserde.enumMatch
  cases findVariant key d.variants with
  | none => exact hd
  | some i =>
    dsimp only
    cases d.variants[i]? with
    | none => exact hd
    | some v => exact Duo.variantArm hrec i v cur h

theorem find?_filter_map (l : Str) (as : List Attr) :
    (as.find? fun a => a.name.loc == l).map (·.value) = ((as.filter fun a => a.name.loc = l).map (·.value)).head? := by
  induction as with
  | nil => rfl
  | cons a as ih =>
    by_cases h : a.name.loc = l
    · simp [List.find?_cons, List.filter_cons, h]
    · have : (a.name.loc == l) = false := by simpa using h
      simp only [List.find?_cons, this, List.filter_cons, h, decide_false, ih]
      simp

theorem Duo.enumKey (d : EnumDef) (hP : P → d.attrs.tag = none) {e e' : REv} {n n' : Name} {as as' : List Attr}
    (hn : n.Same n') (ha : SameAttrs as as') {a b : Rd} (h : Twin a b) :
    Duo P (fun x y _ _ => x = y) (M.ofExcept (Yaserde.enumKey L d e n as) a) (M.ofExcept (Yaserde.enumKey L d e' n' as') b) := by
  unfold Yaserde.enumKey
  cases ht : d.attrs.tag with
  | none => dsimp only; rw [hn.1]; exact Duo.ofExcept h _
  | some tag =>
    dsimp only
    have h1 := find?_filter_map tag as
    have h2 := find?_filter_map tag as'
    rw [ha tag, ← h2] at h1
    cases hx : as.find? fun a => a.name.loc == tag with
    | none =>
      rw [hx] at h1
      cases hy : as'.find? fun a => a.name.loc == tag with
      | none => exact .err h fun hp => by rw [hP hp] at ht; cases ht
      | some y => rw [hy] at h1; cases h1
    | some x =>
      rw [hx] at h1
      cases hy : as'.find? fun a => a.name.loc == tag with
      | none => rw [hy] at h1; cases h1
      | some y =>
        rw [hy] at h1
        simp only [Option.map_some, Option.some.injEq] at h1
        dsimp only
        rw [h1]
        exact Duo.ofExcept h _

include hrec in
theorem Duo.enumStep (d : EnumDef) (hP : P → d.attrs.tag = none) (named : Str) (startDepth : Nat) (cur : Option Val)
    {a b : Rd} (h : Twin a b) :
    Duo P (fun x y _ _ => x = y) (Yaserde.enumStep L rec d named startDepth cur a)
      (Yaserde.enumStep L rec d named startDepth cur b) := by
  refine .bind (Duo.peek h) fun e e' a1 b1 h1 hq => ?_
  obtain ⟨hq, -⟩ := hq
  cases hq with
  | start m m' hn hat =>
    refine .bind (Duo.enumKey d hP hn hat h1) fun key _ _ _ h2 hq => ?_
    subst hq
    refine .bind (Duo.enumMatch hrec d key cur h2 (Duo.tryNext h2 _)) fun r _ _ _ h3 hq => ?_
    subst hq
    obtain ⟨cur', c⟩ := r
    dsimp only
    split
    · refine .bind (Duo.peek h3) fun e e' a4 b4 h4 hq => ?_
      obtain ⟨hq, -⟩ := hq
      cases hq with
      | start m m' hn hat => exact Duo.pure h4 _
      | endE hn => exact Duo.pure h4 _
      | other hs he =>
        cases e with
        | chars t => exact Duo.enumMatch hrec d t cur' h4 (Duo.pure h4 _)
        | _ => exact Duo.pure h4 _
    · exact Duo.pure h3 _
  | endE hn =>
    dsimp only
    rw [bind_get, bind_get, ← h1.depth, ← hn.1]
    split
    · exact Duo.pure h1 _
    · exact Duo.tryNext h1 _
  | other hs he =>
    cases e with
    | start n as m => exact (hs n as m rfl).elim
    | endE n => exact (he n rfl).elim
    | chars t => exact Duo.tryNext h1 _
    | endDocument =>
      dsimp only
      split
      · exact Duo.pure h1 _
      · exact Duo.throw h1 _
    | _ => exact Duo.throw h1 _

include hrec in
theorem Duo.enumLoop (d : EnumDef) (hP : P → d.attrs.tag = none) (named : Str) (startDepth : Nat) (k : Nat) :
    ∀ (cur : Option Val) {a b : Rd}, Twin a b →
    Duo P (fun x y _ _ => x = y) (Yaserde.enumLoop L rec d named startDepth k cur a)
      (Yaserde.enumLoop L rec d named startDepth k cur b) := by
  induction k with
  | zero => intro st a b h; exact .diverge
  | succ k ih =>
    intro cur a b h
    refine .bind (Duo.enumStep hrec d hP named startDepth cur h) fun r _ _ _ h hq => ?_
    subst hq
    obtain ⟨cur', c⟩ := r
    dsimp only
    split
    · exact ih cur' h
    · exact Duo.pure h _

include hrec in
theorem Duo.enumDeser (fuel : Nat) (d : EnumDef) (hP : P → d.attrs.tag = none) {a b : Rd} (h : Twin a b) :
    Duo P (fun x y _ _ => x = y) (Yaserde.enumDeser L rec fuel d a) (Yaserde.enumDeser L rec fuel d b) := by
  refine .bind (Duo.peek h) fun e e' a1 b1 h1 hq => ?_
  rw [bind_get, bind_get, ← h1.depth, ← startInfo_same _ hq.1]
  refine .bind (Duo.ofExcept h1 _) fun _ _ _ _ h1 _ => ?_
  refine .bind (Duo.enumLoop hrec d hP _ _ fuel _ h1) fun cur _ _ _ h2 hq => ?_
  subst hq
  exact Duo.pure h2 _

theorem Duo.primDeser (d : PrimDef) {a b : Rd} (h : Twin a b) :
    Duo P (fun x y _ _ => x = y) (Yaserde.primDeser d a) (Yaserde.primDeser d b) := by
  refine .bind (Duo.attempt (Duo.peek h)) fun r r' a1 b1 h1 hr => ?_
  match r, r', hr with
  | .error m, .error m', hr => exact Duo.throw h1 _
  | .ok e, .ok e', ⟨he, _⟩ =>
    cases he with
    | start m m' hn hat =>
      refine .bind (Duo.next' h1) fun _ _ a2 b2 h2 _ => ?_
      refine .bind (Duo.attempt (Duo.peek h2)) fun r r' a3 b3 h3 hr => ?_
      match r, r', hr with
      | .error m, .error m', hr => exact Duo.ofExcept h3 _
      | .ok e, .ok e', ⟨he, _⟩ =>
        cases he with
        | start m m' hn hat => exact Duo.ofExcept h3 _
        | endE hn => exact Duo.ofExcept h3 _
        | other hs he => cases e <;> exact Duo.ofExcept h3 _
    | endE hn => exact Duo.throw h1 _
    | other hs he =>
      cases e with
      | start n as m => exact (hs n as m rfl).elim
      | _ => exact Duo.throw h1 _

end

/-- Deserializers in lockstep. -/
theorem Duo.deser (L : Lib) (env : Env) (henv : NoFlatten env) (k : Nat) :
    ∀ p a b, Twin a b → Duo (Untagged env) (fun x y _ _ => x = y) (Yaserde.deser L env k p a) (Yaserde.deser L env k p b) := by
  induction k with
  | zero => intro p a b h; exact .diverge
  | succ k ih =>
    intro p a b h
    unfold Yaserde.deser
    cases hp : env p with
    | none => exact .panic _
    | some t =>
      cases t with
      | struct d => exact Duo.structDeser ih k d (noFlat_iff.mp (henv p d hp)) h
      | enum d => exact Duo.enumDeser ih k d (fun hu => hu p d hp) h
      | prim d => exact Duo.primDeser d h

/-- Start tags and the end tags right after them. -/
theorem tagsMatch_tight : ∀ (es : List REv) (st : List Name), TagsMatch st es → ∀ j n as m, es[j]? = some (.start n as m) →
    (∀ x, es[j + 1]? = some (.endE x) → x = n) ∧
    ∀ s x, es[j + 1]? = some (.chars s) → es[j + 2]? = some (.endE x) → x = n := by
  intro es
  induction es with
  | nil => intro st _ j n as m h; simp at h
  | cons e es ih =>
    intro st h j n as m hj
    cases j with
    | succ j =>
      simp only [List.getElem?_cons_succ] at hj ⊢
      have : ∃ st', TagsMatch st' es := by
        cases e with
        | start n as m => exact ⟨_, h⟩
        | endE n =>
          cases st with
          | nil => exact h.elim
          | cons n' st => exact ⟨_, h.2⟩
        | _ => exact ⟨st, by cases st <;> exact h⟩
      obtain ⟨st', h'⟩ := this
      exact ih st' h' j n as m hj
    | zero =>
      simp only [List.getElem?_cons_zero, Option.some.injEq] at hj
      subst hj
      simp only [Nat.zero_add, List.getElem?_cons_succ]
      have h' : TagsMatch (n :: st) es := h
      constructor
      · intro x hx
        cases es with
        | nil => simp at hx
        | cons e es =>
          simp only [List.getElem?_cons_zero, Option.some.injEq] at hx
          subst hx
          exact h'.1
      · intro s x hs hx
        cases es with
        | nil => simp at hs
        | cons e es =>
          simp only [List.getElem?_cons_zero, Option.some.injEq] at hs
          subst hs
          have h2 : TagsMatch (n :: st) es := h'
          simp only [List.getElem?_cons_succ] at hx
          cases es with
          | nil => simp at hx
          | cons e es =>
            simp only [List.getElem?_cons_zero, Option.some.injEq] at hx
            subst hx
            exact h2.1

theorem strm_some {es : List REv} {fin : Option Str} {j : Nat} {e : REv} (h : strm es fin j = .ok e)
    (hne : e ≠ .endDocument) : es[j]? = some e := by
  unfold strm at h
  cases he : es[j]? with
  | some x => rw [he] at h; simp at h; rw [h]
  | none => rw [he] at h; cases fin <;> simp [finRes] at h; exact (hne h.symm).elim

theorem tight_at {es : List REv} {fin : Option Str} {rd : Rd} {dep : Nat} (hat : At dep es fin rd)
    (h : TagsMatch [] es) : Tight rd := by
  intro j n as m hj
  rw [hat.stream] at hj ⊢
  obtain ⟨h1, h2⟩ := tagsMatch_tight es [] h j n as m (strm_some hj (by simp))
  exact ⟨fun x hx => h1 x (strm_some hx (by simp)), fun s x hs hx => h2 s x (strm_some hs (by simp)) (strm_some hx (by simp))⟩

theorem forall₂_getElem? {α β : Type} {R : α → β → Prop} {l : List α} {l' : List β} (h : List.Forall₂ R l l') (j : Nat) :
    (l[j]? = none ∧ l'[j]? = none) ∨ ∃ x y, l[j]? = some x ∧ l'[j]? = some y ∧ R x y := by
  induction h generalizing j with
  | nil => left; simp
  | cons hxy _ ih =>
    cases j with
    | zero => right; exact ⟨_, _, rfl, rfl, hxy⟩
    | succ j => simpa using ih j

/-- The whole run. -/
theorem same_run (L : Lib) (env : Env) (henv : NoFlatten env) (p : Path) (s t : Str)
    (hev : List.Forall₂ SameEv (content (L.parse s).evs) (content (L.parse t).evs))
    (hfin : (L.parse s).fin = (L.parse t).fin)
    (hs : TagsMatch [] (content (L.parse s).evs)) (ht : TagsMatch [] (content (L.parse t).evs)) (k : Nat) :
    (deFromStr L env k p s).Like (Untagged env) (deFromStr L env k p t) := by
  have ha := at_new' (L.parse s)
  have hb := at_new' (L.parse t)
  have hT : Twin (Rd.new (L.parse s)) (Rd.new (L.parse t)) := by
    refine ⟨rfl, fun j => ?_, tight_at ha hs, tight_at hb ht⟩
    rw [ha.stream, hb.stream, ← hfin]
    unfold strm
    rcases forall₂_getElem? hev j with ⟨h1, h2⟩ | ⟨x, y, h1, h2, h3⟩
    · rw [h1, h2]
      dsimp only
      cases (L.parse s).fin with
      | none => exact .ev (.other (by simp) (by simp))
      | some m => exact .other (by simp [finRes])
    · rw [h1, h2]
      exact .ev h3
  have hd := Duo.deser L env henv k p _ _ hT
  unfold deFromStr fromStr
  generalize deser L env k p (Rd.new (L.parse s)) = x at hd
  generalize deser L env k p (Rd.new (L.parse t)) = y at hd
  cases hd with
  | ok _ hq => exact hq
  | err _ hm => exact hm
  | panic m => exact rfl
  | diverge => exact trivial

end Yaserde
