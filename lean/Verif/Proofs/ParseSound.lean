import Verif.Proofs.ParseWf
import Verif.Proofs.Nest
import Verif.Proofs.Runtime
import Verif.Proofs.XmlLaw
/-
The character-level parser accepts only documents that consist of properly nested elements, and what it delivers for a text
begins with what it delivers for the beginning of the text.
-/

set_option autoImplicit false

namespace Yaserde
namespace XmlText

/-- An element, not a text. -/
def _root_.Yaserde.Node.IsElem : Node → Prop
  | .elem _ _ _ _ => True
  | .text _ => False

/-- The events delivered so far: complete elements, then the start tags of the elements that are still open, with what has been
read of their content. -/
inductive Opened : List REv → List (Str × NsMap) → Prop
  | nil (xs : List Node) : (∀ x ∈ xs, x.IsElem) → Opened (Node.eventsL xs) []
  | cons {E : List REv} {St : List (Str × NsMap)} (nm : Str) (scope : NsMap) (n : Name) (as : List Attr) (ks : List Node) :
      Opened E St → resolveElem scope nm = some n →
      Opened (E ++ .start n as scope :: Node.eventsL ks) ((nm, scope) :: St)

theorem Opened.node {E : List REv} {St : List (Str × NsMap)} (h : Opened E St) (x : Node) (hx : St = [] → x.IsElem) :
    Opened (E ++ x.events) St := by
  cases h with
  | nil xs hxs =>
    have : Node.eventsL xs ++ x.events = Node.eventsL (xs ++ [x]) := by rw [eventsL_append]; simp [Node.eventsL]
    rw [this]
    refine .nil _ fun y hy => ?_
    rcases List.mem_append.mp hy with hy | hy
    · exact hxs y hy
    · rw [List.mem_singleton.mp hy]; exact hx rfl
  | cons nm scope n as ks h hr =>
    have e : ∀ E : List REv, E ++ .start n as scope :: Node.eventsL ks ++ x.events = E ++ .start n as scope :: Node.eventsL (ks ++ [x]) := by
      intro E; rw [eventsL_append]; simp [Node.eventsL]
    rw [e]
    exact .cons nm scope n as _ h hr

theorem Opened.close {E : List REv} {St : List (Str × NsMap)} {nm : Str} {scope : NsMap} (h : Opened E ((nm, scope) :: St)) {n : Name}
    (hr : resolveElem scope nm = some n) : Opened (E ++ [.endE n]) St := by
  cases h with
  | cons _ _ n' as ks h hr' =>
    rw [hr] at hr'; cases hr'
    have := h.node (.elem n as scope ks) fun _ => trivial
    rw [Node.events] at this
    simpa using this

/-- Invariant of the parser: what has been read is properly nested. -/
structure Sound (p : PS) : Prop where
  opened : Opened p.evs p.stack
  blank : p.stack = [] → ∀ c ∈ p.buf, isWs c = true
  cdata : ∀ n, p.st = .cdata n → p.stack ≠ []
  closing : ∀ acc, (p.st = .closeName acc ∨ p.st = .closeWs acc) → p.buf = []
  seen : p.seenRoot = true → p.stack = [] → p.evs ≠ []

theorem trim_blank {s : Str} (h : ∀ c ∈ s, isWs c = true) : trim s = [] := by
  unfold trim
  have : s.dropWhile isWs = [] := by
    induction s with
    | nil => rfl
    | cons c s ih => rw [List.dropWhile_cons_of_pos (h c (by simp))]; exact ih fun x hx => h x (by simp [hx])
  rw [this]; rfl

theorem Sound.fail {p : PS} (h : Sound p) (m : Str) : Sound (p.fail m) :=
  ⟨h.opened, h.blank, by simp [PS.fail], by simp [PS.fail], h.seen⟩

theorem Sound.st {p : PS} (h : Sound p) (st : PSt) (h1 : ∀ n, st ≠ .cdata n) (h2 : ∀ acc, st ≠ .closeName acc ∧ st ≠ .closeWs acc) :
    Sound { p with st := st } :=
  ⟨h.opened, h.blank, fun n e => absurd e (h1 n), fun acc e => e.elim (absurd · (h2 acc).1) (absurd · (h2 acc).2), h.seen⟩

theorem Sound.flush {p : PS} (h : Sound p) (st : PSt) (h1 : ∀ n, st ≠ .cdata n) : Sound { p.flush with st := st } := by
  refine ⟨?_, by simp [PS.flush], fun n e => absurd e (h1 n), by simp [PS.flush], ?_⟩
  · show Opened p.flush.evs p.stack
    unfold PS.flush
    dsimp only
    split
    · exact h.opened
    · rename_i ht
      exact h.opened.node (.text (trim p.buf)) fun hs => absurd (trim_blank (h.blank hs)) (by simpa using ht)
  · intro a b
    have := h.seen a b
    unfold PS.flush
    dsimp only
    split
    · exact this
    · simp

theorem Sound.openElem {p : PS} (h : Sound p) (nm : Str) (as : List (Str × Str)) (b : Bool) : Sound (p.openElem nm as b) := by
  unfold PS.openElem
  split
  · exact h.fail _
  · dsimp only
    split
    · rename_i n as' hn has
      split
      · refine ⟨?_, h.blank, by simp, by simp, by simp⟩
        have := fun sc => h.opened.node (.elem n as' sc []) fun _ => trivial
        simp only [Node.events, Node.eventsL, List.nil_append] at this
        rw [List.append_assoc]
        exact this _
      · refine ⟨?_, by simp, by simp, by simp, by simp⟩
        simpa [Node.eventsL] using Opened.cons nm _ n as' [] h.opened hn
    · exact h.fail _
    · exact h.fail _

theorem Sound.closeElem {p : PS} (h : Sound p) (nm : Str) (hb : p.buf = []) : Sound (p.closeElem nm) := by
  unfold PS.closeElem
  split
  · rename_i n scope rest hs
    split
    · rename_i he
      subst he
      split
      · rename_i name hn
        refine ⟨?_, by simp [hb], by simp, by simp, by simp⟩
        have := h.opened
        rw [hs] at this
        exact this.close hn
      · exact h.fail _
    · exact h.fail _
  · exact h.fail _

theorem Sound.pushText {p : PS} (h : Sound p) (c : Char) (h2 : ∀ acc, p.st ≠ .closeName acc ∧ p.st ≠ .closeWs acc) : Sound (p.pushText c) := by
  unfold PS.pushText
  split
  · exact h.fail _
  · rename_i hc
    refine ⟨h.opened, fun hs x hx => ?_, h.cdata, fun acc e => ?_, h.seen⟩
    · rcases List.mem_append.mp hx with hx | hx
      · exact h.blank hs x hx
      · rw [List.mem_singleton.mp hx]
        have hs : p.stack = [] := hs
        simpa [hs] using hc
    · rcases e with e | e
      · exact absurd e (h2 acc).1
      · exact absurd e (h2 acc).2

theorem Sound.buf {p : PS} (h : Sound p) (hs : p.stack ≠ []) (b : Str) (st : PSt)
    (h2 : ∀ acc, st ≠ .closeName acc ∧ st ≠ .closeWs acc) : Sound { p with st := st, buf := b } :=
  ⟨h.opened, fun e => absurd e hs, fun _ _ => hs, fun acc e => e.elim (absurd · (h2 acc).1) (absurd · (h2 acc).2),
    fun _ e => absurd e hs⟩

theorem Sound.step {p : PS} (h : Sound p) (c : Char) : Sound (p.step c) := by
  unfold PS.step
  cases hst : p.st <;> dsimp only
  case closeName acc =>
    have hb := h.closing acc (.inl hst)
    repeat' split
    · exact ⟨h.opened, h.blank, by simp, fun _ _ => hb, h.seen⟩
    · exact h.closeElem _ hb
    · exact ⟨h.opened, h.blank, by simp, fun _ _ => hb, h.seen⟩
    · exact h.fail _
  case closeWs acc =>
    have hb := h.closing acc (.inr hst)
    repeat' split
    · exact h
    · exact h.closeElem _ hb
    · exact h.fail _
  case cdata n =>
    have hs := h.cdata n hst
    repeat' split
    all_goals first
      | exact h.fail _
      | exact h.buf hs _ _ (by simp)
  case bang acc =>
    repeat' split
    · exact h.st _ (by simp) (by simp)
    · exact h.fail _
    · rename_i hs
      exact h.buf (by simpa using hs) _ _ (by simp)
    · exact h.st _ (by simp) (by simp)
    · exact h.fail _
  all_goals
    repeat' split
    all_goals first
      | exact h
      | exact h.fail _
      | exact h.st _ (by simp) (by simp)
      | exact h.pushText _ (by simp [hst])
      | exact (h.st .text (by simp) (by simp)).pushText _ (by simp)
      | exact h.flush _ (by simp)
      | exact h.openElem _ _ _

theorem Sound.run (s : Str) : Sound (run s {}) := by
  have : ∀ p : PS, Sound p → Sound (s.foldl PS.step p) := by
    induction s with
    | nil => exact fun _ h => h
    | cons c s ih => exact fun p h => ih _ (h.step c)
  exact this _ ⟨.nil [] (by simp), by simp, by simp, by simp, by simp⟩

/-! ### Completeness of what is read -/

theorem finish_none {p : PS} : p.finish.fin = none ↔ p.st = .text ∧ p.stack = [] ∧ p.seenRoot = true := by
  unfold PS.finish
  cases hst : p.st <;> simp
  case text => cases hs : p.stack <;> cases hr : p.seenRoot <;> simp

theorem finish_evs (p : PS) : p.finish.evs = .startDocument :: p.evs := by
  unfold PS.finish
  repeat' split
  all_goals rfl

/-- A text that is accepted is a sequence of elements, at least one. -/
theorem parse_sound (s : Str) (h : (parse s).fin = none) :
    ∃ x xs, (∀ y ∈ x :: xs, Node.IsElem y) ∧ (parse s).evs = .startDocument :: Node.eventsL (x :: xs) := by
  have hs := Sound.run s
  obtain ⟨-, h2, h3⟩ := finish_none.mp h
  change (XmlText.run s {}).stack = [] at h2
  have h4 := hs.seen h3 h2
  have h5 := hs.opened
  rw [h2] at h5
  generalize he : (XmlText.run s {}).evs = E at h4 h5
  cases h5 with
  | nil xs hxs =>
    cases xs with
    | nil => exact absurd rfl h4
    | cons x xs => exact ⟨x, xs, hxs, by rw [show parse s = (XmlText.run s {}).finish from rfl, finish_evs, he]⟩

/-! ### The beginning of a text -/

/-- What one more character adds. -/
inductive Adds (p : PS) : PS → Prop
  | none (q : PS) : q.evs = p.evs → Adds p q
  | other (q : PS) (e : REv) : (∀ n, e ≠ .endE n) → q.evs = p.evs ++ [e] → Adds p q
  | close (q : PS) (n : Name) : q.st = .text → (q.stack = [] → q.seenRoot = true) → q.evs = p.evs ++ [.endE n] → Adds p q
  | both (q : PS) (n : Name) (as : List Attr) (m : NsMap) : q.st = .text → q.seenRoot = true →
      q.evs = p.evs ++ [.start n as m, .endE n] → Adds p q

theorem Adds.flush (p : PS) (st : PSt) : Adds p { p.flush with st := st } := by
  unfold PS.flush
  dsimp only
  by_cases h : (trim p.buf).isEmpty
  · exact .none _ (by simp [h])
  · exact .other _ (.chars (trim p.buf)) (by simp) (by simp [h])

theorem Adds.openElem (p : PS) (nm : Str) (as : List (Str × Str)) (b : Bool) : Adds p (p.openElem nm as b) := by
  unfold PS.openElem
  split
  · exact .none _ rfl
  · dsimp only
    split
    · rename_i n as' hn has
      split
      · exact .both _ n as' _ rfl rfl (by simp; rfl)
      · exact .other _ _ (by simp) rfl
    · exact .none _ rfl
    · exact .none _ rfl

theorem Adds.pushText (p : PS) (st : PSt) (c : Char) : Adds p (PS.pushText { p with st := st } c) := by
  unfold PS.pushText
  split <;> exact .none _ rfl

/-- An open element has been seen. -/
def Rooted (p : PS) : Prop := p.stack ≠ [] → p.seenRoot = true

theorem Rooted.step {p : PS} (h : Rooted p) (c : Char) : Rooted (p.step c) := by
  have ho : ∀ nm as b, Rooted (p.openElem nm as b) := by
    intro nm as b
    unfold PS.openElem
    split
    · exact h
    · dsimp only
      repeat' split
      all_goals first | exact h | exact fun _ => rfl
  have hc : ∀ nm, Rooted (p.closeElem nm) := by
    intro nm
    unfold PS.closeElem
    cases hs : p.stack with
    | nil => exact h
    | cons x rest =>
      dsimp only
      repeat' split
      all_goals first | exact h | exact fun _ => h (by simp [hs])
  unfold PS.step
  cases hst : p.st <;> dsimp only
  all_goals
    repeat' split
    all_goals first
      | exact h
      | (unfold PS.pushText; split <;> exact h)
      | exact ho _ _ _
      | exact hc _

theorem Rooted.run (s : Str) : Rooted (run s {}) := by
  have : ∀ p : PS, Rooted p → Rooted (s.foldl PS.step p) := by
    induction s with
    | nil => exact fun _ h => h
    | cons c s ih => exact fun p h => ih _ (h.step c)
  exact this _ (by simp [Rooted])

theorem Adds.closeElem {p : PS} (h : Rooted p) (nm : Str) : Adds p (p.closeElem nm) := by
  unfold PS.closeElem
  split
  · rename_i n scope rest hs
    split
    · split
      · rename_i name hn
        exact .close _ name rfl (fun _ => h (by simp [hs])) rfl
      · exact .none _ rfl
    · exact .none _ rfl
  · exact .none _ rfl

theorem Adds.step {p : PS} (h : Rooted p) (c : Char) : Adds p (p.step c) := by
  unfold PS.step
  cases hst : p.st <;> dsimp only
  all_goals
    repeat' split
    all_goals first
      | exact .none _ rfl
      | exact Adds.flush p _
      | exact Adds.openElem p _ _ _
      | exact Adds.closeElem h _
      | exact Adds.pushText p _ _
      | exact hst ▸ Adds.pushText p p.st _

theorem Adds.prefix {p q : PS} (h : Adds p q) : p.evs <+: q.evs := by
  cases h with
  | none h => rw [h]; exact List.prefix_rfl
  | other e _ h => rw [h]; exact List.prefix_append _ _
  | close n _ _ h => rw [h]; exact List.prefix_append _ _
  | both n as m _ _ h => rw [h]; exact List.prefix_append _ _

/-- What is delivered for the beginning of a text is the beginning of what is delivered for the text. -/
theorem run_prefix {t s : Str} (h : t <+: s) : (run t {}).evs <+: (run s {}).evs := by
  obtain ⟨u, rfl⟩ := h
  rw [run_append]
  have : ∀ p : PS, Rooted p → p.evs <+: (run u p).evs := by
    induction u with
    | nil => exact fun p _ => List.prefix_rfl
    | cons c u ih => exact fun p h => (Adds.step h c).prefix.trans (ih _ (h.step c))
  exact this _ (Rooted.run t)

/-! ### The first element -/

theorem rev_ind {α : Type} {P : List α → Prop} (h0 : P []) (h1 : ∀ s c, P s → P (s ++ [c])) (s : List α) : P s := by
  have : ∀ r : List α, P r.reverse := by
    intro r
    induction r with
    | nil => exact h0
    | cons c r ih => rw [List.reverse_cons]; exact h1 _ _ ih
  simpa using this s.reverse

theorem elem_events {x : Node} (h : x.IsElem) : ∃ n as m ks, x = .elem n as m ks := by
  cases x with
  | elem n as m ks => exact ⟨n, as, m, ks, rfl⟩
  | text => exact h.elim

theorem bal_evs (s : Str) : bal (run s {}).evs = (run s {}).stack.length := by
  have := (PInv.parse s).bal
  change opens (run s {}).evs = closes (run s {}).evs + (run s {}).stack.length at this
  unfold bal
  omega

/-- If an end tag is delivered that closes an outermost element, then the text begins with a document that consists of one
element. -/
theorem first_elem (s : Str) (pre post : List REv) (n : Name) (h : (run s {}).evs = pre ++ .endE n :: post)
    (hb : bal pre = 1) : ∃ t x, t <+: s ∧ Node.IsElem x ∧ parse t = ⟨.startDocument :: x.events, none⟩ := by
  induction s using rev_ind generalizing pre post n with
  | h0 => simp [run] at h
  | h1 s c ih =>
    have hle : s <+: s ++ [c] := List.prefix_append _ _
    have ih' : ∀ pre post n, (run s {}).evs = pre ++ .endE n :: post → bal pre = 1 →
        ∃ t x, t <+: s ++ [c] ∧ Node.IsElem x ∧ parse t = ⟨.startDocument :: x.events, none⟩ := by
      intro pre post n h hb
      obtain ⟨t, x, h1, h2⟩ := ih pre post n h hb
      exact ⟨t, x, h1.trans hle, h2⟩
    have hstep : run (s ++ [c]) {} = (run s {}).step c := by rw [run_append]; rfl
    -- the end tag was there before
    have hold : ∀ pre post n, (run (s ++ [c]) {}).evs = pre ++ .endE n :: post → bal pre = 1 → pre.length < (run s {}).evs.length →
        ∃ t x, t <+: s ++ [c] ∧ Node.IsElem x ∧ parse t = ⟨.startDocument :: x.events, none⟩ := by
      intro pre post n h hb hl
      obtain ⟨post', hp⟩ := run_prefix hle
      rw [h] at hp
      refine ih' pre ((run s {}).evs.drop (pre.length + 1)) n ?_ hb
      have h1 : (run s {}).evs = (pre ++ REv.endE n :: post).take (run s {}).evs.length := by rw [← hp]; simp
      have h2 : pre ++ REv.endE n :: post = (pre ++ [.endE n]) ++ post := by simp
      have h3 : (run s {}).evs.take (pre.length + 1) = pre ++ [.endE n] := by
        rw [h1, List.take_take, Nat.min_eq_left (by omega), h2, List.take_left' (by simp)]
      calc (run s {}).evs = (run s {}).evs.take (pre.length + 1) ++ (run s {}).evs.drop (pre.length + 1) := (List.take_append_drop _ _).symm
        _ = _ := by rw [h3]; simp
    by_cases hl : pre.length < (run s {}).evs.length
    · exact hold pre post n h hb hl
    -- it is new
    have hnew : (run (s ++ [c]) {}).st = .text ∧ ((run (s ++ [c]) {}).stack = [] → (run (s ++ [c]) {}).seenRoot = true) ∧ post = [] ∧
        (run (s ++ [c]) {}).evs.length ≤ (run s {}).evs.length + 2 := by
      have ha := Adds.step (Rooted.run s) c
      rw [← hstep] at ha
      cases ha with
      | none he =>
        rw [h] at he
        have := congrArg List.length he
        simp at this; omega
      | other e hne he =>
        rw [h] at he
        have h1 := congrArg List.length he
        have h2 : pre.length = (run s {}).evs.length := by simp at h1; omega
        have := List.append_inj_right he h2
        simp only [List.cons.injEq] at this
        exact absurd this.1.symm (hne n)
      | close m h1 h2 he =>
        refine ⟨h1, h2, ?_, by rw [he]; simp⟩
        rw [h] at he
        have h3 := congrArg List.length he
        have : post.length = 0 := by simp at h3; omega
        exact List.length_eq_zero_iff.mp this
      | both m as sc h1 h2 he =>
        refine ⟨h1, fun _ => h2, ?_, by rw [he]; simp⟩
        rw [h] at he
        have h3 := congrArg List.length he
        have h4 : pre.length = (run s {}).evs.length ∨ pre.length = (run s {}).evs.length + 1 := by simp at h3; omega
        rcases h4 with h4 | h4
        · have := List.append_inj_right he h4
          simp at this
        · have : post.length = 0 := by simp at h3; omega
          exact List.length_eq_zero_iff.mp this
    obtain ⟨h1, h2, rfl, h3⟩ := hnew
    have h4 : (run (s ++ [c]) {}).stack = [] := by
      have := bal_evs (s ++ [c])
      rw [h, bal_append, hb, bal_cons] at this
      simp only [weight, bal_nil] at this
      exact List.length_eq_zero_iff.mp (by omega)
    have hfin : (parse (s ++ [c])).fin = none := finish_none.mpr ⟨h1, h4, h2 h4⟩
    obtain ⟨x, xs, h5, h6⟩ := parse_sound _ hfin
    cases xs with
    | nil =>
      refine ⟨s ++ [c], x, List.prefix_rfl, h5 x (by simp), ?_⟩
      generalize parse (s ++ [c]) = src at hfin h6
      obtain ⟨evs, fin⟩ := src
      simp only at hfin h6
      rw [hfin, h6]; simp [Node.eventsL]
    | cons y ys =>
      have h7 : (run (s ++ [c]) {}).evs = Node.eventsL (x :: y :: ys) := by
        have := finish_evs (run (s ++ [c]) {})
        rw [show (run (s ++ [c]) {}).finish = parse (s ++ [c]) from rfl, h6] at this
        exact (List.cons.inj this).2.symm
      obtain ⟨xn, xa, xm, xk, rfl⟩ := elem_events (h5 x (by simp))
      obtain ⟨yn, ya, ym, yk, rfl⟩ := elem_events (h5 y (by simp))
      have h8 : (run (s ++ [c]) {}).evs = (.start xn xa xm :: Node.eventsL xk) ++ .endE xn :: (Node.eventsL (.elem yn ya ym yk :: ys)) := by
        rw [h7]; simp [Node.eventsL, Node.events]
      refine hold _ _ _ h8 ?_ ?_
      · rw [bal_cons, (bal_eventsL xk).1]; rfl
      · rw [h8] at h3
        simp [Node.eventsL, Node.events] at h3 ⊢
        omega
end XmlText
end Yaserde
