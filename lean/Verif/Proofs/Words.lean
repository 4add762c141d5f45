import Verif.Spec.Words
/-
`splitWhitespace` computes the words of a text.
-/

set_option autoImplicit false

namespace Yaserde

theorem isWhite_iff (c : Char) : isWhite c = true ↔ c.toNat ∈ blanks := by
  unfold isWhite blanks
  generalize c.toNat = n
  simp only [Bool.or_eq_true, Bool.and_eq_true, decide_eq_true_eq, beq_iff_eq, List.mem_cons, List.not_mem_nil, or_false]
  omega

theorem words_gap {c : Char} (hc : c.toNat ∈ blanks) {s : Str} {ws : List Str} (h : Words s ws) : Words (c :: s) ws := by
  cases h with
  | none _ h => exact .none _ (by simpa [hc] using h)
  | word gap w rest ws hgap hne hw hrest h =>
    exact .word (c :: gap) w rest ws (by simpa [hc] using hgap) hne hw hrest h

theorem words_aux : ∀ (s acc : Str), (∀ c ∈ acc, c.toNat ∉ blanks) → Words (acc.reverse ++ s) (splitWsAux acc s)
  | [], acc, hacc => by
    unfold splitWsAux
    cases acc with
    | nil => exact .none _ (by simp)
    | cons a acc =>
      rw [List.append_nil]
      have := Words.word [] (a :: acc).reverse [] [] (by simp) (by simp)
          (fun c hc => hacc c (List.mem_reverse.mp hc)) (by simp) (.none _ (by simp))
      simpa using this
  | c :: cs, acc, hacc => by
    unfold splitWsAux
    by_cases hc : isWhite c = true
    · rw [if_pos hc]
      have hb := (isWhite_iff c).mp hc
      have h0 : Words (c :: cs) (splitWsAux [] cs) := words_gap hb (words_aux cs [] (by simp))
      cases acc with
      | nil => exact h0
      | cons a acc =>
        have := Words.word [] (a :: acc).reverse (c :: cs) _ (by simp) (by simp)
          (fun c hc => hacc c (List.mem_reverse.mp hc))
          (by simp [hb]) h0
        simpa using this
    · rw [if_neg hc]
      have hb : c.toNat ∉ blanks := fun h => hc ((isWhite_iff c).mpr h)
      have := words_aux cs (c :: acc) (by simpa [hb] using hacc)
      simpa using this

theorem words_split (s : Str) : Words s (splitWhitespace s) := words_aux s [] (by simp)

theorem takeWhile_word {p : Char → Bool} {w rest : Str} (hw : ∀ c ∈ w, p c = true) (hr : ∀ c, rest.head? = some c → p c = false) :
    (w ++ rest).takeWhile p = w ∧ (w ++ rest).dropWhile p = rest := by
  induction w with
  | nil =>
    cases rest with
    | nil => exact ⟨rfl, rfl⟩
    | cons c cs =>
      have := hr c rfl
      simp [this]
  | cons c w ih =>
    obtain ⟨h1, h2⟩ := ih fun c hc => hw c (by simp [hc])
    have := hw c (by simp)
    simp [this, h1, h2]

/-- A text has one list of words. -/
theorem words_unique {s : Str} {ws ws' : List Str} (h : Words s ws) (h' : Words s ws') : ws = ws' := by
  induction h generalizing ws' with
  | none s h =>
    cases h' with
    | none => rfl
    | word gap w rest ws hgap hne hw hrest h2 =>
      cases w with
      | nil => exact absurd rfl hne
      | cons c w => exact absurd (h c (by simp)) (hw c (by simp))
  | word gap w rest ws hgap hne hw hrest h ih =>
    generalize hs : gap ++ w ++ rest = s at h'
    cases h' with
    | none _ h =>
      subst hs
      cases w with
      | nil => exact absurd rfl hne
      | cons c w => exact absurd (h c (by simp)) (hw c (by simp))
    | word gap' w' rest' ws' hgap' hne' hw' hrest' h2 =>
      have hd : ∀ (w rest : Str), w ≠ [] → (∀ c ∈ w, c.toNat ∉ blanks) → ∀ c, (w ++ rest).head? = some c →
          decide (c.toNat ∈ blanks) = false := by
        intro w rest hne hw c hc
        cases w with
        | nil => exact absurd rfl hne
        | cons a w => cases hc; simpa using hw c (by simp)
      rw [List.append_assoc, List.append_assoc] at hs
      obtain ⟨-, e1⟩ := takeWhile_word (p := fun c => decide (c.toNat ∈ blanks)) (w := gap) (rest := w ++ rest)
        (by simpa using hgap) (hd w rest hne hw)
      obtain ⟨-, e2⟩ := takeWhile_word (p := fun c => decide (c.toNat ∈ blanks)) (w := gap') (rest := w' ++ rest')
        (by simpa using hgap') (hd w' rest' hne' hw')
      rw [hs, e2] at e1
      obtain ⟨f1, f2⟩ := takeWhile_word (p := fun c => decide (c.toNat ∉ blanks)) (w := w) (rest := rest)
        (by simpa using hw) (by simpa using hrest)
      obtain ⟨g1, g2⟩ := takeWhile_word (p := fun c => decide (c.toNat ∉ blanks)) (w := w') (rest := rest')
        (by simpa using hw') (by simpa using hrest')
      rw [← e1] at f1 f2
      rw [f1] at g1
      rw [f2] at g2
      subst g1 g2
      rw [ih h2]

theorem words_iff (s : Str) (ws : List Str) : Words s ws ↔ splitWhitespace s = ws :=
  ⟨fun h => words_unique (words_split s) h, fun h => h ▸ words_split s⟩

end Yaserde
