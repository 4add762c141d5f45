import Verif.Model.XmlText
import Verif.Spec.Total
/-
The character-level parser delivers well-formed event sequences.
-/

set_option autoImplicit false

namespace Yaserde
namespace XmlText

/-- Invariant of the parser state. -/
structure PInv (p : PS) : Prop where
  nested : WellNested p.evs
  bal : opens p.evs = closes p.evs + p.stack.length
  noEnd : REv.endDocument ∉ p.evs

theorem wellNested_concat {es : List REv} {e : REv} (h : WellNested es)
    (he : closes (es ++ [e]) ≤ opens (es ++ [e])) : WellNested (es ++ [e]) := by
  intro k
  by_cases hk : k ≤ es.length
  · rw [List.take_append_of_le_length hk]; exact h k
  · rw [List.take_of_length_le (by simp; omega)]; exact he

theorem opens_append (a b : List REv) : opens (a ++ b) = opens a + opens b := by simp [opens]
theorem closes_append (a b : List REv) : closes (a ++ b) = closes a + closes b := by simp [closes]

theorem PInv.congr {p q : PS} (h : PInv p) (he : q.evs = p.evs) (hs : q.stack.length = p.stack.length) : PInv q :=
  ⟨by rw [he]; exact h.nested, by rw [he, hs]; exact h.bal, by rw [he]; exact h.noEnd⟩

theorem PInv.flush {p : PS} (h : PInv p) : PInv p.flush := by
  unfold PS.flush
  by_cases ht : (trim p.buf).isEmpty
  · exact h.congr (by simp [ht]) rfl
  · have hb := h.bal
    refine ⟨?_, ?_, ?_⟩
    · simp only [ht]
      refine wellNested_concat h.nested ?_
      rw [opens_append, closes_append]
      simp [opens, closes] at hb ⊢
      omega
    · simp only [ht]
      simp [opens, closes] at hb ⊢
      omega
    · simp only [ht]
      simpa using h.noEnd

theorem PInv.openElem {p : PS} (h : PInv p) (nm : Str) (as : List (Str × Str)) (b : Bool) :
    PInv (p.openElem nm as b) := by
  have hb := h.bal
  unfold PS.openElem
  split
  · exact h.congr rfl rfl
  · dsimp only
    split
    · have h1 : ∀ n as' sc, WellNested (p.evs ++ [.start n as' sc]) := by
        intro n as' sc
        refine wellNested_concat h.nested ?_
        rw [opens_append, closes_append]
        simp [opens, closes] at hb ⊢
        omega
      split
      · refine ⟨wellNested_concat (h1 _ _ _) ?_, ?_, ?_⟩
        · simp [opens, closes] at hb ⊢; omega
        · simp [opens, closes] at hb ⊢; omega
        · simpa using h.noEnd
      · refine ⟨h1 _ _ _, ?_, ?_⟩
        · simp [opens, closes] at hb ⊢; omega
        · simpa using h.noEnd
    · exact h.congr rfl rfl
    · exact h.congr rfl rfl

theorem PInv.closeElem {p : PS} (h : PInv p) (nm : Str) : PInv (p.closeElem nm) := by
  have hb := h.bal
  unfold PS.closeElem
  split
  · rename_i n scope rest hst
    split
    · split
      · rw [hst] at hb
        refine ⟨wellNested_concat h.nested ?_, ?_, ?_⟩
        · simp [opens, closes] at hb ⊢; omega
        · simp [opens, closes] at hb ⊢; omega
        · simpa using h.noEnd
      · exact h.congr rfl rfl
    · exact h.congr rfl rfl
  · exact h.congr rfl rfl

theorem PInv.pushText {p : PS} (h : PInv p) (c : Char) : PInv (p.pushText c) := by
  unfold PS.pushText
  split <;> exact h.congr rfl rfl

theorem PInv.st {p : PS} (h : PInv p) (st : PSt) : PInv { p with st := st } := h.congr rfl rfl

theorem PInv.fail {p : PS} (h : PInv p) (m : Str) : PInv (p.fail m) := h.congr rfl rfl

theorem PInv.step {p : PS} (h : PInv p) (c : Char) : PInv (p.step c) := by
  unfold PS.step
  cases hst : p.st <;> dsimp only
  all_goals
    repeat' split
    all_goals first
      | exact h
      | exact h.fail _
      | exact h.st _
      | exact h.pushText _
      | exact (h.st _).pushText _
      | exact h.flush.st _
      | exact h.openElem _ _ _
      | exact h.closeElem _
      | exact h.congr rfl rfl

theorem PInv.parse (s : Str) : PInv (s.foldl PS.step {}) := by
  have : ∀ p : PS, PInv p → PInv (s.foldl PS.step p) := by
    induction s with
    | nil => exact fun _ h => h
    | cons c s ih => exact fun p h => ih _ (h.step c)
  refine this _ ⟨fun k => ?_, rfl, ?_⟩
  · simp [opens, closes]
  · simp

/-- Whatever the text, the parser's events are well formed. -/
theorem parse_wellFormed (s : Str) : WellFormed (parse s) := by
  have h := PInv.parse s
  unfold parse
  generalize s.foldl PS.step {} = p at h
  have h1 : WellNested (.startDocument :: p.evs) := by
    intro k
    cases k with
    | zero => simp [opens, closes]
    | succ k => simpa [opens, closes] using h.nested k
  have h2 : REv.endDocument ∉ REv.startDocument :: p.evs := by simpa using h.noEnd
  unfold PS.finish
  repeat' split
  all_goals refine ⟨h1, h2, ?_⟩
  all_goals intro hf
  all_goals simp only [reduceCtorEq] at hf
  rename_i hs _
  have hb := h.bal
  have : p.stack = [] := by simpa using hs
  rw [this] at hb
  simpa [opens, closes] using hb

end XmlText
end Yaserde
