import Verif.Spec.Layout
import Verif.Proofs.XmlText
/-
White space before tags does not matter to the parser, well formed or not: the emitter of `Model/XmlText.lean` with two
configurations.
-/

set_option autoImplicit false

namespace Yaserde
namespace XmlText

/-! ### Where white space matters -/

/-- The parser has not just seen the beginning of a tag, and is not in a CDATA section. -/
def PSt.calm : PSt → Bool
  | .lt | .bang _ | .cdata _ => false
  | _ => true

theorem fail_calm (p : PS) (m : Str) : (p.fail m).st.calm = true := rfl

theorem pushText_calm {p : PS} (c : Char) (h : p.st.calm = true) : (p.pushText c).st.calm = true := by
  unfold PS.pushText
  split
  · rfl
  · exact h

theorem openElem_calm (p : PS) (nm : Str) (as : List (Str × Str)) (b : Bool) : (p.openElem nm as b).st.calm = true := by
  unfold PS.openElem
  split
  · rfl
  · dsimp only
    split
    · split <;> rfl
    · rfl
    · rfl

theorem closeElem_calm (p : PS) (nm : Str) : (p.closeElem nm).st.calm = true := by
  unfold PS.closeElem
  split
  · split
    · split <;> rfl
    · rfl
  · rfl

/-- Only `<` disturbs. -/
theorem step_calm {p : PS} {c : Char} (h : p.st.calm = true) (hc : c ≠ '<') : (p.step c).st.calm = true := by
  unfold PS.step
  cases hst : p.st <;> rw [hst] at h <;> dsimp only
  case lt => cases h
  case bang => cases h
  case cdata => cases h
  case failed => rw [hst]; rfl
  case text =>
    rw [if_neg hc]
    split
    · rfl
    · split
      · exact pushText_calm _ (by rw [hst]; rfl)
      · rfl
  case ref acc =>
    split
    · split
      · exact pushText_calm _ rfl
      · rfl
    · rfl
  case openName acc =>
    split
    · rfl
    · split
      · rfl
      · split
        · exact openElem_calm ..
        · split <;> rfl
  case inTag nm as =>
    split
    · rw [hst]; rfl
    · split
      · exact openElem_calm ..
      · split
        · rfl
        · split <;> rfl
  case attrName nm as acc =>
    split
    · rfl
    · split
      · rfl
      · split <;> rfl
  case attrEq nm as an =>
    split
    · rw [hst]; rfl
    · split <;> rfl
  case attrQuote nm as an =>
    split
    · rw [hst]; rfl
    · split
      · rfl
      · rfl
  case attrVal nm as an q acc =>
    split
    · rfl
    · split
      · rfl
      · split <;> rfl
  case attrRef nm as an q acc r =>
    split
    · split <;> rfl
    · rfl
  case afterVal nm as =>
    split
    · rfl
    · split
      · exact openElem_calm ..
      · split <;> rfl
  case slash nm as =>
    split
    · exact openElem_calm ..
    · rfl
  case closeName acc =>
    split
    · rfl
    · split
      · exact closeElem_calm ..
      · split <;> rfl
  case closeWs acc =>
    split
    · rw [hst]; rfl
    · split
      · exact closeElem_calm ..
      · rfl
  case comment n =>
    split
    · rfl
    · split <;> rfl
  case pi q =>
    split <;> rfl

theorem run_calm {s : Str} {p : PS} (h : p.st.calm = true) (hs : '<' ∉ s) : (run s p).st.calm = true := by
  induction s generalizing p with
  | nil => exact h
  | cons c s ih =>
    refine ih (step_calm h fun hc => hs (hc ▸ List.mem_cons_self)) fun hc => hs (List.mem_cons_of_mem _ hc)

/-- The beginning of a tag. -/
theorem step_lt {p : PS} (h : p.st.calm = true) : (p.step '<').st.calm = true ∨ (p.st = .text ∧ p.step '<' = { p with st := .lt }) := by
  unfold PS.step
  cases hst : p.st <;> rw [hst] at h <;> dsimp only
  case text => exact .inr ⟨rfl, rfl⟩
  case lt => cases h
  case bang => cases h
  case cdata => cases h
  case attrVal nm as an q acc =>
    left
    split <;> rfl
  case failed => left; rw [hst]; rfl
  case inTag => left; rfl
  case attrEq => left; rfl
  case attrQuote => left; rfl
  all_goals first | (left; rfl) | skip
  all_goals left
  case openName acc => split <;> first | rfl | (split <;> rfl)
  case attrName nm as acc => split <;> first | rfl | (split <;> rfl)
  case closeName acc => split <;> first | rfl | (split <;> rfl)

theorem tag_calm {p : PS} (h : p.st.calm = true) {c : Char} (h1 : c ≠ '!') (h2 : c ≠ '<') {s : Str} (hs : '<' ∉ s) :
    (run ('<' :: c :: s) p).st.calm = true := by
  rw [run_cons, run_cons]
  refine run_calm ?_ hs
  rcases step_lt h with h | ⟨hst, h⟩
  · exact step_calm h h2
  · rw [h]
    unfold PS.step
    dsimp only
    split
    · rfl
    · split
      · rfl
      · split <;> rfl

/-- After a closing bracket the parser has not just seen the beginning of a tag. -/
theorem step_bracket (p : PS) : (p.step ']').st.calm = true ∨ ∃ n, p.st = .cdata n ∧ (p.step ']').st = .cdata (n + 1) := by
  by_cases h : p.st.calm = true
  · exact .inl (step_calm h (by decide))
  · unfold PS.step
    cases hst : p.st <;> rw [hst] at h <;> dsimp only
    case lt => left; rfl
    case bang acc =>
      left
      have h1 : acc ++ [']'] ≠ c!"--" := fun e => by
        have := congrArg List.getLast? e
        simp at this
      have h2 : acc ++ [']'] ≠ c!"[CDATA[" := fun e => by
        have := congrArg List.getLast? e
        simp at this
      have h3 : ((acc ++ [']']).isPrefixOf c!"[CDATA[" || decide (acc ++ [']'] = c!"-")) = false := by
        rw [Bool.or_eq_false_iff]
        constructor
        · rw [Bool.eq_false_iff]
          intro e
          have hp := List.isPrefixOf_iff_prefix.1 e
          have hm : ']' ∈ c!"[CDATA[" := hp.subset (List.mem_append_right _ (List.mem_singleton_self _))
          revert hm
          decide
        · rw [decide_eq_false_iff_not]
          intro e
          have := congrArg List.getLast? e
          simp at this
      rw [if_neg h1, if_neg h2, if_neg (by rw [h3]; decide)]
      rfl
    case cdata n => exact .inr ⟨n, rfl, rfl⟩
    all_goals exact absurd rfl h

/-- After the end marker of a CDATA section the parser is in none. -/
theorem marker_calm (p : PS) : (run c!"]]>" p).st.calm = true := by
  show (((p.step ']').step ']').step '>').st.calm = true
  rcases step_bracket p with h | ⟨n, h1, h2⟩
  · exact step_calm (step_calm h (by decide)) (by decide)
  · rcases step_bracket (p.step ']') with h | ⟨m, h3, h4⟩
    · exact step_calm h (by decide)
    · rw [h2] at h3
      cases h3
      generalize (p.step ']').step ']' = q at h4
      unfold PS.step
      rw [h4]
      dsimp only
      rw [if_neg (by decide), if_pos (by simp)]
      rfl

theorem cdata_calm (p : PS) (s : Str) : (run (c!"<![CDATA[" ++ s ++ c!"]]>") p).st.calm = true := by
  rw [run_append]
  exact marker_calm _

/-! ### Quotation marks -/

/-- The quotation mark at the end of the value of an attribute is neither white space nor `<`. -/
def PSt.quoted : PSt → Bool
  | .attrVal _ _ _ q _ | .attrRef _ _ _ q _ _ => !isWs q && !(q == '<')
  | _ => true

theorem step_quoted {p : PS} (c : Char) (h : p.st.quoted = true) : (p.step c).st.quoted = true := by
  have hopen : ∀ nm as b, (p.openElem nm as b).st.quoted = true := by
    intro nm as b
    unfold PS.openElem
    split
    · rfl
    · dsimp only
      split
      · split <;> rfl
      · rfl
      · rfl
  have hclose : ∀ nm, (p.closeElem nm).st.quoted = true := by
    intro nm
    unfold PS.closeElem
    split
    · split
      · split <;> rfl
      · rfl
    · rfl
  have hpush : ∀ (q : PS) c, q.st.quoted = true → (q.pushText c).st.quoted = true := by
    intro q c h
    unfold PS.pushText
    split
    · rfl
    · exact h
  unfold PS.step
  cases hst : p.st <;> rw [hst] at h <;> dsimp only
  case failed => rw [hst]; rfl
  case text =>
    split
    · rfl
    · split
      · rfl
      · split
        · exact hpush _ _ (by rw [hst]; rfl)
        · rfl
  case ref acc =>
    split
    · split
      · exact hpush _ _ rfl
      · rfl
    · rfl
  case attrQuote nm as an =>
    split
    · rw [hst]; rfl
    · split
      · rename_i h1 h2
        rcases Bool.or_eq_true_iff.1 h2 with h2 | h2 <;> rw [decide_eq_true_iff] at h2 <;> subst h2 <;> rfl
      · rfl
  case attrVal nm as an q acc =>
    split
    · rfl
    · split
      · exact h
      · split
        · rfl
        · split
          · exact h
          · rfl
  case attrRef nm as an q acc r =>
    split
    · split
      · exact h
      · rfl
    · exact h
  all_goals repeat' split
  all_goals first | rfl | exact hopen _ _ _ | exact hclose _ | (rw [hst]; rfl)

theorem run_quoted {p : PS} (s : Str) (h : p.st.quoted = true) : (run s p).st.quoted = true := by
  induction s generalizing p with
  | nil => exact h
  | cons c s ih => exact ih (step_quoted c h)

/-! ### The same outcome -/

/-- Nothing more will be delivered. -/
inductive Doomed : PSt → PSt → Prop
  | failed (m : Str) : Doomed (.failed m) (.failed m)
  | ref {a b : Str} (ha : '<' ∈ a) (hb : '<' ∈ b) : Doomed (.ref a) (.ref b)
  | attrRef {nm : Str} {as : List (Str × Str)} {an : Str} {q : Char} {acc acc' a b : Str} (ha : '<' ∈ a) (hb : '<' ∈ b) :
      Doomed (.attrRef nm as an q acc a) (.attrRef nm as an q acc' b)

/-- The parser is in the same state, or will fail in the same way. -/
def Same (p q : PS) : Prop := p = q ∨ (p.evs = q.evs ∧ Doomed p.st q.st)

theorem Same.refl (p : PS) : Same p p := .inl rfl

theorem Doomed.symm {a b : PSt} (h : Doomed a b) : Doomed b a := by
  cases h with
  | failed m => exact .failed m
  | ref ha hb => exact .ref hb ha
  | attrRef ha hb => exact .attrRef hb ha

theorem Doomed.trans {a b c : PSt} (h : Doomed a b) (h' : Doomed b c) : Doomed a c := by
  cases h with
  | failed m => exact h'
  | ref ha hb => cases h' with | ref _ hc => exact .ref ha hc
  | attrRef ha hb => cases h' with | attrRef _ hc => exact .attrRef ha hc

theorem Same.symm {p q : PS} (h : Same p q) : Same q p := by
  rcases h with rfl | ⟨h1, h2⟩
  · exact .refl _
  · exact .inr ⟨h1.symm, h2.symm⟩

theorem Same.trans {p q r : PS} (h : Same p q) (h' : Same q r) : Same p r := by
  rcases h with rfl | ⟨h1, h2⟩
  · exact h'
  · rcases h' with rfl | ⟨h3, h4⟩
    · exact .inr ⟨h1, h2⟩
    · exact .inr ⟨h1.trans h3, h2.trans h4⟩

theorem numVal_none {base : Nat} {dig : Char → Option Nat} {c : Char} (hc : dig c = none) {s : Str} (h : c ∈ s) (n : Nat) :
    numVal base dig n s = none := by
  induction s generalizing n with
  | nil => cases h
  | cons d s ih =>
    rw [numVal]
    rcases List.mem_cons.1 h with rfl | h
    · rw [hc]
    · cases dig d with
      | none => rfl
      | some k => exact ih h _

theorem resolveRef_none {a : Str} (h : '<' ∈ a) : resolveRef a = none := by
  unfold resolveRef
  have hne : ∀ b : Str, '<' ∉ b → a ≠ b := fun b hb e => hb (e ▸ h)
  rw [if_neg (hne _ (by decide)), if_neg (hne _ (by decide)), if_neg (hne _ (by decide)), if_neg (hne _ (by decide)),
    if_neg (hne _ (by decide))]
  split
  · rename_i ds
    have hd : '<' ∈ ds := by simpa using h
    rw [numVal_none (c := '<') (by decide) hd]
    split <;> rfl
  · rename_i ds _
    have hd : '<' ∈ ds := by simpa using h
    rw [numVal_none (c := '<') (by decide) hd]
    split <;> rfl
  · rfl

theorem Same.step {p q : PS} (h : Same p q) (c : Char) : Same (p.step c) (q.step c) := by
  rcases h with rfl | ⟨he, hd⟩
  · exact .refl _
  · right
    unfold PS.step
    generalize hp : p.st = ps at hd
    generalize hq : q.st = qs at hd
    cases hd with
    | failed m =>
      dsimp only
      rw [hp, hq]
      exact ⟨he, .failed m⟩
    | ref ha hb =>
      dsimp only
      by_cases hc : c = ';'
      · rw [if_pos hc, if_pos hc, resolveRef_none ha, resolveRef_none hb]
        exact ⟨he, .failed _⟩
      · rw [if_neg hc, if_neg hc]
        exact ⟨he, .ref (List.mem_append_left _ ha) (List.mem_append_left _ hb)⟩
    | attrRef ha hb =>
      dsimp only
      by_cases hc : c = ';'
      · rw [if_pos hc, if_pos hc, resolveRef_none ha, resolveRef_none hb]
        exact ⟨he, .failed _⟩
      · rw [if_neg hc, if_neg hc]
        exact ⟨he, .attrRef (List.mem_append_left _ ha) (List.mem_append_left _ hb)⟩

theorem Same.run {p q : PS} (h : Same p q) (s : Str) : Same (XmlText.run s p) (XmlText.run s q) := by
  induction s generalizing p q with
  | nil => exact h
  | cons c s ih => exact ih (h.step c)

theorem Same.finish {p q : PS} (h : Same p q) : p.finish = q.finish := by
  rcases h with rfl | ⟨he, hd⟩
  · rfl
  · unfold PS.finish
    generalize hp : p.st = ps at hd
    generalize hq : q.st = qs at hd
    cases hd <;> dsimp only <;> rw [he]

theorem Same.calm {p q : PS} (h : Same p q) : p.st.calm = q.st.calm := by
  rcases h with rfl | ⟨_, hd⟩
  · rfl
  · generalize p.st = ps at hd
    generalize q.st = qs at hd
    cases hd <;> rfl

/-! ### White space -/

/-- White space as the parser keeps it. -/
def keptWs (ws : Str) : Str := ws.map fun c => if c = '\r' then '\n' else c

theorem ws_cases {c : Char} (h : isWs c = true) : c = ' ' ∨ c = '\t' ∨ c = '\n' ∨ c = '\r' := by
  simpa [isWs, or_assoc] using h

theorem nameStep_ws {c : Char} (h : isWs c = true) (acc : Str) : nameStep acc c = false := by
  have h1 : isNameStartChar c = false := by rcases ws_cases h with rfl | rfl | rfl | rfl <;> decide
  have h2 : isNameChar c = false := by rcases ws_cases h with rfl | rfl | rfl | rfl <;> decide
  have h3 : c ≠ ':' := by rcases ws_cases h with rfl | rfl | rfl | rfl <;> decide
  unfold nameStep
  rw [if_neg h3, h1, h2]
  split <;> rfl

theorem nameStep_lt (acc : Str) : nameStep acc '<' = false := by
  have h1 : isNameStartChar '<' = false := by decide
  have h2 : isNameChar '<' = false := by decide
  unfold nameStep
  rw [if_neg (by decide), h1, h2]
  split <;> rfl

theorem run_fixed {p : PS} (h : ∀ c, isWs c = true → p.step c = p) {ws : Str} (hw : ∀ c ∈ ws, isWs c = true) : run ws p = p := by
  induction ws with
  | nil => rfl
  | cons c ws ih =>
    rw [run_cons, h c (hw c List.mem_cons_self)]
    exact ih fun d hd => hw d (List.mem_cons_of_mem _ hd)

theorem run_blank {p : PS} (hst : p.st = .text) {ws : Str} (hw : ∀ c ∈ ws, isWs c = true) :
    run ws p = { p with buf := p.buf ++ keptWs ws } := by
  induction ws generalizing p with
  | nil => simp [keptWs]
  | cons c ws ih =>
    have hc := hw c List.mem_cons_self
    have hs : p.step c = { p with buf := p.buf ++ [if c = '\r' then '\n' else c] } := by
      unfold PS.step PS.pushText
      rw [hst]
      rcases ws_cases hc with rfl | rfl | rfl | rfl <;> cases p.stack <;> rfl
    rw [run_cons, hs, ih (p := { p with buf := p.buf ++ [if c = '\r' then '\n' else c] }) hst fun d hd => hw d (List.mem_cons_of_mem _ hd)]
    simp [keptWs]

theorem keptWs_blank {ws : Str} (hw : ∀ c ∈ ws, isWs c = true) : ∀ c ∈ keptWs ws, isWs c = true := by
  intro c hc
  obtain ⟨d, hd, rfl⟩ := List.mem_map.1 hc
  split
  · rfl
  · exact hw d hd

theorem failed_tag {p : PS} {m : Str} (h : p.st = .failed m) (s : Str) : run s p = p := by
  induction s with
  | nil => rfl
  | cons c s ih =>
    have : p.step c = p := by unfold PS.step; rw [h]
    rw [run_cons, this, ih]

/-- White space before a tag does not matter. -/
theorem insert_ws {p : PS} (h : p.st.calm = true) (hq : p.st.quoted = true) {ws : Str} (hw : ∀ c ∈ ws, isWs c = true)
    {c : Char} (hc : c ≠ '!') (s : Str) : Same (run (ws ++ '<' :: c :: s) p) (run ('<' :: c :: s) p) := by
  suffices hs : Same (run (ws ++ ['<', c]) p) (run ['<', c] p) by
    have := hs.run s
    rw [← run_append, ← run_append] at this
    simpa using this
  suffices hs : ws ≠ [] → Same (run (ws ++ ['<', c]) p) (run ['<', c] p) by
    by_cases h0 : ws = []
    · rw [h0]; exact .refl _
    · exact hs h0
  intro hne
  obtain ⟨w, ws, rfl⟩ := List.exists_cons_of_ne_nil hne
  have hw1 : isWs w = true := hw w List.mem_cons_self
  have hw2 : ∀ c ∈ ws, isWs c = true := fun d hd => hw d (List.mem_cons_of_mem _ hd)
  have hlt : '<' ∈ w :: ws → False := fun hm => by have := hw _ hm; revert this; decide
  rw [run_append]
  -- both fail
  have fails : ∀ (q : PS) (m : Str), (q.step '<') = q.fail m → p.step '<' = p.fail m → q.evs = p.evs →
      run (w :: ws) p = q → Same (run ['<', c] (run (w :: ws) p)) (run ['<', c] p) := by
    intro q m h1 h2 h3 h4
    rw [h4, run_cons, run_cons (p := p), h1, h2, failed_tag (m := m) rfl, failed_tag (m := m) rfl]
    exact .inr ⟨h3, .failed m⟩
  -- the same state
  have same : run (w :: ws) p = p → Same (run ['<', c] (run (w :: ws) p)) (run ['<', c] p) := fun e => by rw [e]; exact .refl _
  cases hst : p.st <;> rw [hst] at h hq
  case lt => cases h
  case bang => cases h
  case cdata => cases h
  case failed m => exact same (failed_tag hst _)
  case text =>
    rw [run_blank hst hw]
    generalize hk : keptWs (w :: ws) = k
    have hkb : ∀ c ∈ k, isXmlSpace c = true := hk ▸ keptWs_blank hw
    show Same ((({ p with buf := p.buf ++ k } : PS).step '<').step c) ((p.step '<').step c)
    have h1 : ({ p with buf := p.buf ++ k } : PS).step '<' = { p with buf := p.buf ++ k, st := .lt } := by
      unfold PS.step; dsimp only; rw [hst]; rfl
    have h2 : p.step '<' = { p with st := .lt } := by unfold PS.step; rw [hst]; rfl
    have hf : ∀ st, ({ ({ p with buf := p.buf ++ k, st := .lt } : PS).flush with st := st } : PS) =
        { ({ p with st := .lt } : PS).flush with st := st } := by
      intro st
      unfold PS.flush
      dsimp only
      rw [trim_eq, trim_eq, trim_append_space _ _ hkb]
    rw [h1, h2]
    unfold PS.step
    dsimp only
    rw [if_neg hc, if_neg hc]
    by_cases e1 : c = '/'
    · rw [if_pos e1, if_pos e1, hf]; exact .refl _
    · rw [if_neg e1, if_neg e1]
      by_cases e2 : c = '?'
      · rw [if_pos e2, if_pos e2, hf]; exact .refl _
      · rw [if_neg e2, if_neg e2]
        by_cases e3 : nameStep [] c = true
        · rw [if_pos e3, if_pos e3, hf]; exact .refl _
        · rw [if_neg e3, if_neg e3]
          exact .inr ⟨rfl, .failed _⟩
  case ref acc =>
    have hr : ∀ (ws acc : Str) (p : PS), p.st = .ref acc → (∀ c ∈ ws, isWs c = true) → run ws p = { p with st := .ref (acc ++ ws) } := by
      intro ws
      induction ws with
      | nil => intro acc p h _; rw [List.append_nil, ← h]; rfl
      | cons d ws ih =>
        intro acc p h hw
        have hd : d ≠ ';' := by rintro rfl; have := hw _ List.mem_cons_self; revert this; decide
        have : p.step d = { p with st := .ref (acc ++ [d]) } := by unfold PS.step; rw [h]; dsimp only; rw [if_neg hd]
        rw [run_cons, this, ih _ _ rfl fun e he => hw e (List.mem_cons_of_mem _ he)]
        simp
    rw [hr _ _ _ hst hw, run_cons, run_cons (p := p)]
    refine Same.run ?_ [c]
    unfold PS.step
    rw [hst]
    exact .inr ⟨rfl, .ref (by simp) (by simp)⟩
  case attrRef nm as an q acc r =>
    have hr : ∀ (ws r : Str) (p : PS), p.st = .attrRef nm as an q acc r → (∀ c ∈ ws, isWs c = true) →
        run ws p = { p with st := .attrRef nm as an q acc (r ++ ws) } := by
      intro ws
      induction ws with
      | nil => intro acc p h _; rw [List.append_nil, ← h]; rfl
      | cons d ws ih =>
        intro r p h hw
        have hd : d ≠ ';' := by rintro rfl; have := hw _ List.mem_cons_self; revert this; decide
        have : p.step d = { p with st := .attrRef nm as an q acc (r ++ [d]) } := by unfold PS.step; rw [h]; dsimp only; rw [if_neg hd]
        rw [run_cons, this, ih _ _ rfl fun e he => hw e (List.mem_cons_of_mem _ he)]
        simp
    rw [hr _ _ _ hst hw, run_cons, run_cons (p := p)]
    refine Same.run ?_ [c]
    unfold PS.step
    rw [hst]
    exact .inr ⟨rfl, .attrRef (by simp) (by simp)⟩
  case attrVal nm as an q acc =>
    have hr : ∀ (ws acc : Str) (p : PS), p.st = .attrVal nm as an q acc → (∀ c ∈ ws, isWs c = true) →
        ∃ acc', run ws p = { p with st := .attrVal nm as an q acc' } := by
      intro ws
      induction ws with
      | nil => intro acc p h _; exact ⟨acc, by rw [← h]; rfl⟩
      | cons d ws ih =>
        intro acc p h hw
        have hd := hw _ List.mem_cons_self
        have hdq : d ≠ q := by rintro rfl; have hq' : (!isWs d && !(d == '<')) = true := hq; rw [hd] at hq'; cases hq'
        have : p.step d = { p with st := .attrVal nm as an q (acc ++ [if isWs d then ' ' else d]) } := by
          unfold PS.step; rw [h]; dsimp only; rw [if_neg hdq]
          rcases ws_cases hd with rfl | rfl | rfl | rfl <;> rfl
        rw [run_cons, this]
        exact ih _ _ rfl fun e he => hw e (List.mem_cons_of_mem _ he)
    obtain ⟨acc', hr⟩ := hr _ _ _ hst hw
    have hlq : '<' ≠ q := by rintro rfl; have hq' : (!isWs '<' && !('<' == '<')) = true := hq; revert hq'; decide
    refine fails { p with st := .attrVal nm as an q acc' } c!"Unexpected token in attribute value" ?_ ?_ rfl hr
    · unfold PS.step; dsimp only; rw [if_neg hlq]; rfl
    · unfold PS.step; rw [hst]; dsimp only; rw [if_neg hlq]; rfl
  case openName acc =>
    refine fails { p with st := .inTag acc [] } c!"Unexpected token inside tag" rfl ?_ rfl ?_
    · unfold PS.step; rw [hst]; dsimp only; rw [nameStep_lt]; rfl
    · have : p.step w = { p with st := .inTag acc [] } := by
        unfold PS.step; rw [hst]; dsimp only; rw [nameStep_ws hw1, if_neg (by decide), if_pos hw1]
      rw [run_cons, this]
      exact run_fixed (fun c hc => by unfold PS.step; dsimp only; rw [if_pos hc]) hw2
  case inTag nm as => exact same (run_fixed (fun c hc => by unfold PS.step; rw [hst]; dsimp only; rw [if_pos hc]) hw)
  case attrName nm as acc =>
    refine fails { p with st := .attrEq nm as acc } c!"Unexpected token in attribute" rfl ?_ rfl ?_
    · unfold PS.step; rw [hst]; dsimp only; rw [nameStep_lt]; rfl
    · have he : w ≠ '=' := by rintro rfl; revert hw1; decide
      have : p.step w = { p with st := .attrEq nm as acc } := by
        unfold PS.step; rw [hst]; dsimp only; rw [nameStep_ws hw1, if_neg (by decide), if_neg he, if_pos hw1]
      rw [run_cons, this]
      exact run_fixed (fun c hc => by unfold PS.step; dsimp only; rw [if_pos hc]) hw2
  case attrEq nm as an => exact same (run_fixed (fun c hc => by unfold PS.step; rw [hst]; dsimp only; rw [if_pos hc]) hw)
  case attrQuote nm as an => exact same (run_fixed (fun c hc => by unfold PS.step; rw [hst]; dsimp only; rw [if_pos hc]) hw)
  case afterVal nm as =>
    refine fails { p with st := .inTag nm as } c!"Unexpected token inside tag" rfl ?_ rfl ?_
    · unfold PS.step; rw [hst]; rfl
    · have : p.step w = { p with st := .inTag nm as } := by unfold PS.step; rw [hst]; dsimp only; rw [if_pos hw1]
      rw [run_cons, this]
      exact run_fixed (fun c hc => by unfold PS.step; dsimp only; rw [if_pos hc]) hw2
  case slash nm as =>
    have h1 : p.step w = p.fail c!"Unexpected token inside tag" := by
      have he : w ≠ '>' := by rintro rfl; revert hw1; decide
      unfold PS.step; rw [hst]; dsimp only; rw [if_neg he]
    have h2 : p.step '<' = p.fail c!"Unexpected token inside tag" := by unfold PS.step; rw [hst]; rfl
    refine fails (p.fail c!"Unexpected token inside tag") _ ?_ h2 rfl ?_
    · rfl
    · rw [run_cons, h1]; exact failed_tag rfl _
  case closeName acc =>
    refine fails { p with st := .closeWs acc } c!"Unexpected token inside closing tag" rfl ?_ rfl ?_
    · unfold PS.step; rw [hst]; dsimp only; rw [nameStep_lt]; rfl
    · have he : w ≠ '>' := by rintro rfl; revert hw1; decide
      have : p.step w = { p with st := .closeWs acc } := by
        unfold PS.step; rw [hst]; dsimp only; rw [nameStep_ws hw1, if_neg (by decide), if_neg he, if_pos hw1]
      rw [run_cons, this]
      exact run_fixed (fun c hc => by unfold PS.step; dsimp only; rw [if_pos hc]) hw2
  case closeWs acc => exact same (run_fixed (fun c hc => by unfold PS.step; rw [hst]; dsimp only; rw [if_pos hc]) hw)
  case comment n =>
    have h1 : ∀ (q : PS) n d, q.st = .comment n → d ≠ '-' → d ≠ '>' → q.step d = { q with st := .comment 0 } := by
      intro q n d h e1 e2
      unfold PS.step; rw [h]; dsimp only; rw [if_neg e1, if_neg (by simp [e2])]
    have hd : ∀ d, isWs d = true → d ≠ '-' ∧ d ≠ '>' := by
      intro d hd
      constructor <;> (rintro rfl; revert hd; decide)
    have h2 : run (w :: ws) p = { p with st := .comment 0 } := by
      rw [run_cons, h1 p n w hst (hd w hw1).1 (hd w hw1).2]
      exact run_fixed (fun c hc => h1 _ 0 c rfl (hd c hc).1 (hd c hc).2) hw2
    rw [h2, run_cons, run_cons (p := p), h1 _ 0 '<' rfl (by decide) (by decide), h1 p n '<' hst (by decide) (by decide)]
    exact .refl _
  case pi q =>
    have h1 : ∀ (x : PS) q d, x.st = .pi q → d ≠ '?' → d ≠ '>' → x.step d = { x with st := .pi false } := by
      intro x q d h e1 e2
      unfold PS.step; rw [h]; dsimp only; rw [if_neg (by simp [e2]), decide_eq_false e1]
    have hd : ∀ d, isWs d = true → d ≠ '?' ∧ d ≠ '>' := by
      intro d hd
      constructor <;> (rintro rfl; revert hd; decide)
    have h2 : run (w :: ws) p = { p with st := .pi false } := by
      rw [run_cons, h1 p q w hst (hd w hw1).1 (hd w hw1).2]
      exact run_fixed (fun c hc => h1 _ false c rfl (hd c hc).1 (hd c hc).2) hw2
    rw [h2, run_cons, run_cons (p := p), h1 _ false '<' rfl (by decide) (by decide), h1 p q '<' hst (by decide) (by decide)]
    exact .refl _

/-! ### The emitter -/

/-- The names in an event. -/
def WEv.Plain : WEv → Prop
  | .start n as nss => TagName (qname n) ∧ (∀ a ∈ as, '<' ∉ qname a.name) ∧ ∀ d ∈ nss, '<' ∉ d.1 ∧ '<' ∉ d.2
  | _ => True

theorem escChar_plain (c : Char) : '<' ∉ escChar c := by
  unfold escChar
  split
  · decide
  · split
    · decide
    · split
      · decide
      · rename_i h _ _
        simpa using fun e => h e.symm

theorem escText_plain (s : Str) : '<' ∉ escText s := by
  intro h
  obtain ⟨c, _, hc⟩ := List.mem_flatMap.1 h
  exact escChar_plain c hc

theorem escAttr_plain (s : Str) : '<' ∉ escAttr s := by
  intro h
  obtain ⟨c, _, hc⟩ := List.mem_flatMap.1 h
  revert hc
  unfold escAttrChar
  repeat' split
  all_goals first | decide | skip
  rename_i h _ _ _ _ _ _
  simpa using fun e => h e.symm

theorem emitAttr_plain {a : Attr} (h : '<' ∉ qname a.name) : '<' ∉ emitAttr a := by
  unfold emitAttr
  simp only [List.mem_append, not_or]
  exact ⟨⟨⟨⟨by decide, h⟩, by decide⟩, escAttr_plain _⟩, by decide⟩

theorem emitDecl_plain {d : Str × Str} (h1 : '<' ∉ d.1) (h2 : '<' ∉ d.2) : '<' ∉ emitDecl d := by
  unfold emitDecl
  split
  · split
    · decide
    · simp only [List.mem_append, not_or]
      exact ⟨⟨by decide, h2⟩, by decide⟩
  · simp only [List.mem_append, not_or]
    exact ⟨⟨⟨⟨by decide, h1⟩, by decide⟩, h2⟩, by decide⟩

theorem nl_blank {cfg : EmitCfg} (hb : cfg.Blank) {ind : Str} (h : cfg.indent = some ind) (n : Nat) : ∀ c ∈ nl ind n, isWs c = true := by
  intro c hc
  rcases List.mem_cons.1 hc with rfl | hc
  · rfl
  · obtain ⟨l, hl, hc⟩ := List.mem_flatten.1 hc
    rw [List.eq_of_mem_replicate hl] at hc
    exact List.all_eq_true.1 (hb ind h) c hc

/-- Two emitters have written texts that are read alike. -/
structure Alike (e e' : Em) : Prop where
  opened : e.opened = e'.opened
  scopes : e.scopes = e'.scopes
  pending : e.pending = e'.pending
  started : e.started = e'.started
  same : Same (run e.out {}) (run e'.out {})
  calm : (run e.out {}).st.calm = true
  names : ∀ o ∈ e.opened, '<' ∉ o
  fresh : e.started = false → e.opened = [] ∧ e.pending = false ∧
    ((run e.out {} = {} ∧ run e'.out {} = {}) ∨ ∃ m, (run e.out {}).st = .failed m ∧ (run e'.out {}).st = .failed m)

theorem quoted_run (s : Str) : (run s {}).st.quoted = true := run_quoted s rfl

/-- Text without the beginning of a tag. -/
theorem same_add {e e' : Em} (h : Alike e e') {s : Str} (hs : '<' ∉ s) :
    Same (run (e.out ++ s) {}) (run (e'.out ++ s) {}) ∧ (run (e.out ++ s) {}).st.calm = true := by
  rw [run_append, run_append]
  exact ⟨h.same.run s, run_calm h.calm hs⟩

/-- A tag, with white space before it. -/
theorem same_tag {e e' : Em} (h : Alike e e') {ws ws' : Str} (hw : ∀ c ∈ ws, isWs c = true) (hw' : ∀ c ∈ ws', isWs c = true)
    {c : Char} {s : Str} (hc : c ≠ '!') (hc' : c ≠ '<') (hs : '<' ∉ s) :
    Same (run (e.out ++ (ws ++ '<' :: c :: s)) {}) (run (e'.out ++ (ws' ++ '<' :: c :: s)) {}) ∧
      (run (e.out ++ (ws ++ '<' :: c :: s)) {}).st.calm = true := by
  rw [run_append e.out, run_append e'.out]
  have h1 := insert_ws h.calm (quoted_run e.out) hw hc s
  have h2 := insert_ws (h.same.calm ▸ h.calm) (quoted_run e'.out) hw' hc s
  exact ⟨h1.trans ((h.same.run _).trans h2.symm), h1.calm.trans (tag_calm h.calm hc hc' hs)⟩

/-- The declaration. -/
def declText : Str := c!"<?xml version=\"1.0\" encoding=\"utf-8\"?>"

theorem run_declText : run declText {} = {} := by rfl

theorem started_check {cfg : EmitCfg} {e : Em} (h : e.started = true) : e.checkStarted cfg = e := by
  unfold Em.checkStarted
  rw [if_pos h]

theorem flag_out (e : Em) (f : Flag) : (e.setFlag f).out = e.out ∧ (e.setFlag f).opened = e.opened ∧ (e.setFlag f).scopes = e.scopes ∧
    (e.setFlag f).pending = e.pending ∧ (e.setFlag f).started = e.started := by
  unfold Em.setFlag
  split <;> exact ⟨rfl, rfl, rfl, rfl, rfl⟩

theorem checkStarted_fresh (cfg : EmitCfg) {e : Em} (h : e.started = false) :
    ((e.checkStarted cfg).out = e.out ∨ (e.checkStarted cfg).out = e.out ++ declText) ∧ (e.checkStarted cfg).opened = e.opened ∧
    (e.checkStarted cfg).scopes = e.scopes ∧ (e.checkStarted cfg).pending = e.pending ∧ (e.checkStarted cfg).started = true := by
  unfold Em.checkStarted
  rw [if_neg (by rw [h]; decide)]
  dsimp only
  split
  · obtain ⟨h1, h2, h3, h4, h5⟩ := flag_out (Em.add { e with started := true } declText) .markup
    exact ⟨.inr h1, h2, h3, h4, h5⟩
  · exact ⟨.inl rfl, rfl, rfl, rfl, rfl⟩

theorem checkStarted_started (cfg : EmitCfg) (e : Em) : (e.checkStarted cfg).started = true := by
  cases h : e.started with
  | true => rw [started_check h, h]
  | false => exact (checkStarted_fresh cfg h).2.2.2.2

theorem Alike.checkStarted (cfg cfg' : EmitCfg) {e e' : Em} (h : Alike e e') : Alike (e.checkStarted cfg) (e'.checkStarted cfg') := by
  cases hs : e.started with
  | true => rw [started_check hs, started_check (h.started ▸ hs)]; exact h
  | false =>
    obtain ⟨ho, o1, o2, o3, o4⟩ := checkStarted_fresh cfg hs
    obtain ⟨ho', o1', o2', o3', o4'⟩ := checkStarted_fresh cfg' (h.started ▸ hs)
    obtain ⟨f1, f2, f3⟩ := h.fresh hs
    have hrun : run (e.checkStarted cfg).out {} = run e.out {} := by
      rcases ho with ho | ho <;> rw [ho]
      rw [run_append]
      rcases f3 with ⟨f, _⟩ | ⟨m, f, _⟩
      · rw [f]; exact run_declText
      · exact failed_tag f _
    have hrun' : run (e'.checkStarted cfg').out {} = run e'.out {} := by
      rcases ho' with ho | ho <;> rw [ho]
      rw [run_append]
      rcases f3 with ⟨_, f⟩ | ⟨m, _, f⟩
      · rw [f]; exact run_declText
      · exact failed_tag f _
    exact {
      opened := by rw [o1, o1']; exact h.opened
      scopes := by rw [o2, o2']; exact h.scopes
      pending := by rw [o3, o3']; exact h.pending
      started := by rw [o4, o4']
      same := by rw [hrun, hrun']; exact h.same
      calm := by rw [hrun]; exact h.calm
      names := by rw [o1]; exact h.names
      fresh := fun hf => by rw [o4] at hf; cases hf }

/-- Add texts that are read alike. -/
theorem Alike.add {e e' : Em} (h : Alike e e') (hst : e.started = true) {s s' : Str}
    (hs : Same (run (e.out ++ s) {}) (run (e'.out ++ s') {}) ∧ (run (e.out ++ s) {}).st.calm = true) : Alike (e.add s) (e'.add s') where
  opened := h.opened
  scopes := h.scopes
  pending := h.pending
  started := h.started
  same := hs.1
  calm := hs.2
  names := h.names
  fresh hf := by rw [show (e.add s).started = e.started from rfl, hst] at hf; cases hf

theorem Alike.flag {e e' : Em} (h : Alike e e') (f f' : Flag) : Alike (e.setFlag f) (e'.setFlag f') := by
  obtain ⟨h1, h2, h3, h4, h5⟩ := flag_out e f
  obtain ⟨h1', h2', h3', h4', h5'⟩ := flag_out e' f'
  exact {
    opened := by rw [h2, h2']; exact h.opened
    scopes := by rw [h3, h3']; exact h.scopes
    pending := by rw [h4, h4']; exact h.pending
    started := by rw [h5, h5']; exact h.started
    same := by rw [h1, h1']; exact h.same
    calm := by rw [h1]; exact h.calm
    names := by rw [h2]; exact h.names
    fresh := by rw [h5, h2, h4, h1, h1']; exact h.fresh }

theorem Alike.pend {e e' : Em} (h : Alike e e') (b : Bool) (hb : e.started = true) :
    Alike { e with pending := b } { e' with pending := b } :=
  { h with pending := rfl, fresh := fun hf => by rw [show ({ e with pending := b } : Em).started = e.started from rfl, hb] at hf; cases hf }

theorem Alike.fix {e e' : Em} (h : Alike e e') : Alike e.fix e'.fix := by
  unfold Em.fix
  rw [← h.pending]
  by_cases hp : e.pending = true
  · have hst : e.started = true := by
      cases hs : e.started with
      | true => rfl
      | false => rw [(h.fresh hs).2.1] at hp; cases hp
    rw [if_pos hp, if_pos hp]
    exact (h.add hst (same_add h (by decide))).pend false hst
  · rw [if_neg hp, if_neg hp]
    exact h

theorem started_fix (e : Em) : e.fix.started = e.started := by
  unfold Em.fix
  split <;> rfl

theorem before_blank {cfg : EmitCfg} (hb : cfg.Blank) (e : Em) : ∃ ws, (∀ c ∈ ws, isWs c = true) ∧ e.beforeMarkup cfg = e.add ws := by
  unfold Em.beforeMarkup
  split
  · exact ⟨[], fun _ h => absurd h List.not_mem_nil, (by unfold Em.add; rw [List.append_nil])⟩
  · rename_i ind hi
    split
    · exact ⟨_, nl_blank hb hi _, rfl⟩
    · exact ⟨[], fun _ h => absurd h List.not_mem_nil, (by unfold Em.add; rw [List.append_nil])⟩

theorem newDecls_sub {scopes : List NsMap} {nss : NsMap} {d : Str × Str} (h : d ∈ newDecls scopes nss) : d ∈ nss := (List.mem_filter.1 h).1

/-- Before anything else has been written, something that is not a document. -/
theorem Alike.addFresh {e e' : Em} (h : Alike e e') (hst : e.started = false) {s m : Str} (hs : (run s {}).st = .failed m) :
    Alike (e.add s) (e'.add s) := by
  obtain ⟨f1, f2, f3⟩ := h.fresh hst
  have hf : ∃ m, (run (e.out ++ s) {}).st = .failed m ∧ (run (e'.out ++ s) {}).st = .failed m := by
    rw [run_append, run_append]
    rcases f3 with ⟨g1, g2⟩ | ⟨m', g1, g2⟩
    · rw [g1, g2]; exact ⟨m, hs, hs⟩
    · rw [failed_tag g1, failed_tag g2]; exact ⟨m', g1, g2⟩
  obtain ⟨m', hf1, hf2⟩ := hf
  exact {
    opened := h.opened
    scopes := h.scopes
    pending := h.pending
    started := h.started
    same := by
      show Same (run (e.out ++ s) {}) (run (e'.out ++ s) {})
      rw [run_append, run_append]
      exact h.same.run s
    calm := by show (run (e.out ++ s) {}).st.calm = true; rw [hf1]; rfl
    names := h.names
    fresh := fun _ => ⟨f1, f2, .inr ⟨m', hf1, hf2⟩⟩ }

theorem step_endE {cfg : EmitCfg} (hb : cfg.Blank) (g : Option Name) {e : Em} (hp : e.pending = false) :
    ∃ ws, (∀ c ∈ ws, isWs c = true) ∧ (e.opened = [] → ws = []) ∧ e.step cfg (.endE g) =
      Em.setFlag { (e.add (ws ++ (c!"</" ++ e.opened.headD [] ++ c!">"))) with
        opened := e.opened.tail, scopes := e.scopes.tail, flags := e.flags.tail } Flag.markup := by
  unfold Em.step
  dsimp only
  rw [if_neg (by rw [hp]; decide)]
  split
  · exact ⟨[], fun _ h => absurd h List.not_mem_nil, fun _ => rfl, rfl⟩
  · rename_i ind hi
    split
    · rename_i hlen
      refine ⟨nl ind (e.opened.length - 1), nl_blank hb hi _, fun ho => ?_, ?_⟩
      · rw [ho] at hlen; exact absurd hlen.1 (by decide)
      · unfold Em.add
        dsimp only
        rw [List.append_assoc]
    · exact ⟨[], fun _ h => absurd h List.not_mem_nil, fun _ => rfl, rfl⟩

theorem Alike.step {cfg cfg' : EmitCfg} (hb : cfg.Blank) (hb' : cfg'.Blank) {e e' : Em} (h : Alike e e') {w : WEv} (hw : WEv.Plain w) :
    Alike (e.step cfg w) (e'.step cfg' w) := by
  have hcs := h.checkStarted cfg cfg'
  have hst := checkStarted_started cfg e
  have hfix := hcs.fix
  have hfs : (e.checkStarted cfg).fix.started = true := by rw [started_fix, hst]
  cases w with
  | start n as nss =>
    obtain ⟨⟨hn, c, cs, hc, hne⟩, ha, hd⟩ := hw
    unfold Em.step
    dsimp only
    obtain ⟨ws, hws, e1⟩ := before_blank hb (e.checkStarted cfg).fix
    obtain ⟨ws', hws', e2⟩ := before_blank hb' (e'.checkStarted cfg').fix
    rw [e1, e2]
    generalize (e.checkStarted cfg).fix = x at hfix hfs
    generalize (e'.checkStarted cfg').fix = x' at hfix
    have hsc : newDecls (x.add ws).scopes nss = newDecls (x'.add ws').scopes nss := by
      rw [show (x.add ws).scopes = x.scopes from rfl, show (x'.add ws').scopes = x'.scopes from rfl, hfix.scopes]
    generalize hds : newDecls (x.add ws).scopes nss = ds at hsc
    rw [← hsc]
    have hds' : ∀ d ∈ ds, '<' ∉ d.1 ∧ '<' ∉ d.2 := fun d hm => hd d (newDecls_sub (hds ▸ hm))
    have hrest : '<' ∉ cs ++ ds.flatMap emitDecl ++ as.flatMap emitAttr := by
      simp only [List.mem_append, not_or]
      refine ⟨⟨fun hm => hn (hc ▸ List.mem_cons_of_mem _ hm), fun hm => ?_⟩, fun hm => ?_⟩
      · obtain ⟨d, hm, hd⟩ := List.mem_flatMap.1 hm
        exact emitDecl_plain (hds' d hm).1 (hds' d hm).2 hd
      · obtain ⟨a, hm, had⟩ := List.mem_flatMap.1 hm
        exact emitAttr_plain (ha a hm) had
    have htag := same_tag hfix hws hws' hne (fun e => hn (hc ▸ e ▸ List.mem_cons_self)) hrest
    have hpiece : c!"<" ++ qname n ++ ds.flatMap emitDecl ++ as.flatMap emitAttr = '<' :: c :: (cs ++ ds.flatMap emitDecl ++ as.flatMap emitAttr) := by
      rw [hc]; simp
    rw [hpiece]
    rw [← List.append_assoc, ← List.append_assoc] at htag
    exact {
      opened := by show qname n :: x.opened = qname n :: x'.opened; rw [hfix.opened]
      scopes := by show ds :: x.scopes = ds :: x'.scopes; rw [hfix.scopes]
      pending := rfl
      started := hfix.started
      same := htag.1
      calm := htag.2
      names := by
        intro o ho
        rcases List.mem_cons.1 ho with rfl | ho
        · exact hn
        · exact hfix.names o ho
      fresh := fun hf => absurd (hfs.symm.trans hf) (by decide) }
  | endE g =>
    unfold Em.step
    dsimp only
    rw [← h.pending]
    have close : ∀ {x x' : Em}, Alike x x' → x.started = true →
        Alike (Em.setFlag { x with opened := x.opened.tail, scopes := x.scopes.tail, flags := x.flags.tail } Flag.markup)
          (Em.setFlag { x' with opened := x'.opened.tail, scopes := x'.scopes.tail, flags := x'.flags.tail } Flag.markup) := by
      intro x x' hx hs
      refine Alike.flag ?_ _ _
      exact {
        opened := by show x.opened.tail = x'.opened.tail; rw [hx.opened]
        scopes := by show x.scopes.tail = x'.scopes.tail; rw [hx.scopes]
        pending := hx.pending
        started := hx.started
        same := hx.same
        calm := hx.calm
        names := fun o ho => hx.names o (List.mem_of_mem_tail ho)
        fresh := fun hf => absurd (hs.symm.trans hf) (by decide) }
    by_cases hp : e.pending = true
    · have hst : e.started = true := by
        cases hs : e.started with
        | true => rfl
        | false => rw [(h.fresh hs).2.1] at hp; cases hp
      rw [if_pos hp, if_pos hp]
      exact close ((h.add hst (same_add h (by decide))).pend false hst) hst
    · rw [if_neg hp, if_neg hp]
      obtain ⟨ws, hw1, hw2, hw3⟩ := step_endE hb g (by simpa using hp)
      obtain ⟨ws', hw1', hw2', hw3'⟩ := step_endE hb' g (e := e') (by rw [← h.pending]; simpa using hp)
      unfold Em.step at hw3 hw3'
      dsimp only at hw3 hw3'
      rw [if_neg hp] at hw3
      rw [if_neg (by rw [← h.pending]; exact hp)] at hw3'
      rw [hw3, hw3', show e'.opened.headD [] = e.opened.headD [] by rw [h.opened]]
      cases hst : e.started with
      | true =>
        refine close (h.add hst ?_) hst
        refine same_tag h hw1 hw1' (c := '/') (s := e.opened.headD [] ++ c!">") (by decide) (by decide) ?_
        simp only [List.mem_append, not_or]
        refine ⟨?_, by decide⟩
        cases ho : e.opened with
        | nil => exact List.not_mem_nil
        | cons o os => exact h.names o (by rw [ho]; exact List.mem_cons_self)
      | false =>
        have f := h.fresh hst
        rw [hw2 f.1, hw2' (h.opened ▸ f.1), show e.opened.headD [] = [] by rw [f.1]; rfl]
        have hx := h.addFresh hst (s := c!"</>") (m := c!"Unexpected closing tag: ") rfl
        refine Alike.flag ?_ _ _
        exact {
          opened := by show e.opened.tail = e'.opened.tail; rw [h.opened]
          scopes := by show e.scopes.tail = e'.scopes.tail; rw [h.scopes]
          pending := h.pending
          started := h.started
          same := hx.same
          calm := hx.calm
          names := fun o ho => h.names o (List.mem_of_mem_tail ho)
          fresh := fun hf => ⟨by show e.opened.tail = []; rw [f.1]; rfl, f.2.1, (hx.fresh hf).2.2⟩ }
  | chars s =>
    unfold Em.step
    exact (hfix.add hfs (same_add hfix (escText_plain s))).flag _ _
  | cdata s =>
    unfold Em.step
    refine Alike.flag ?_ _ _
    have hf := h.fix
    cases hst : e.started with
    | true =>
      refine hf.add (by rw [started_fix, hst]) ?_
      rw [run_append e.fix.out, run_append e'.fix.out]
      exact ⟨hf.same.run _, cdata_calm _ s⟩
    | false =>
      refine hf.addFresh (m := c!"Unexpected CDATA") (by rw [started_fix, hst]) ?_
      rw [run_append, run_append]
      have h1 : (run c!"<![CDATA[" {}).st = .failed c!"Unexpected CDATA" := rfl
      rw [failed_tag h1, failed_tag h1, h1]
  | _ => exact h

/-- All layouts of the same events are read alike. -/
theorem parse_layout {cfg cfg' : EmitCfg} (hb : cfg.Blank) (hb' : cfg'.Blank) {ws : List WEv} (hw : ∀ w ∈ ws, WEv.Plain w) :
    parse (emit cfg ws) = parse (emit cfg' ws) := by
  have h : ∀ (ws : List WEv) (e e' : Em), (∀ w ∈ ws, WEv.Plain w) → Alike e e' →
      Alike (ws.foldl (Em.step cfg) e) (ws.foldl (Em.step cfg') e') := by
    intro ws
    induction ws with
    | nil => intro e e' _ h; exact h
    | cons w ws ih =>
      intro e e' hw h
      exact ih _ _ (fun x hx => hw x (List.mem_cons_of_mem _ hx)) (h.step hb hb' (hw w List.mem_cons_self))
  refine (h ws {} {} hw ?_).same.finish
  exact {
    opened := rfl, scopes := rfl, pending := rfl, started := rfl, same := .refl _, calm := rfl
    names := fun _ h => absurd h List.not_mem_nil
    fresh := fun _ => ⟨rfl, rfl, .inl ⟨rfl, rfl⟩⟩ }

end XmlText
end Yaserde
