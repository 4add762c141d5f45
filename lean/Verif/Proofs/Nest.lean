import Verif.Proofs.Loc
import Verif.Spec.Stream
/-
Depth accounting in terms of lists of events.
-/

set_option autoImplicit false

namespace Yaserde

theorem isMisc_eq_skipped (e : REv) : isMisc e = e.skipped := by cases e <;> rfl

theorem content_eq (es : List REv) : content es = es.filter fun e => !e.skipped := by
  simp [content, isMisc_eq_skipped]

theorem at_new' (s : Src) : At 0 (content s.evs) s.fin (Rd.new s) := by
  rw [content_eq]; exact at_new s

theorem delivered_eq (src : Src) (i : Nat) : delivered src i = strm (content src.evs) src.fin i := by
  unfold delivered strm finRes
  cases (content src.evs)[i]? <;> rfl

theorem new_stream (s : Src) : (Rd.new s).stream = delivered s := by
  funext i; rw [(at_new' s).stream, delivered_eq]

/-- Opened minus closed elements. -/
def bal (es : List REv) : Int := opens es - closes es

@[simp] theorem bal_nil : bal [] = 0 := rfl

theorem bal_append (a b : List REv) : bal (a ++ b) = bal a + bal b := by
  simp [bal, opens, closes, List.countP_append]; omega

theorem bal_cons (e : REv) (es : List REv) : bal (e :: es) = weight (.ok e) + bal es := by
  cases e <;> simp [bal, opens, closes, List.countP_cons, weight] <;> omega

theorem weightSum_strm (es : List REv) (fin : Option Str) (k : Nat) :
    weightSum (strm es fin) k = bal (es.take k) := by
  induction k with
  | zero => simp [weightSum]
  | succ k ih =>
    simp only [weightSum, ih]
    by_cases h : k < es.length
    · rw [List.take_add_one, List.getElem?_eq_getElem h, bal_append]
      simp only [strm, List.getElem?_eq_getElem h, Option.toList, bal_cons]
      simp
    · rw [List.take_of_length_le (by omega), List.take_of_length_le (by omega)]
      have : es[k]? = none := List.getElem?_eq_none (by omega)
      simp only [strm, this]
      cases fin <;> simp [finRes, weight]

theorem opens_misc (es : List REv) : opens (content es) = opens es := by
  simp only [opens, content, List.countP_filter]
  congr 1; funext e; cases e <;> rfl

theorem closes_misc (es : List REv) : closes (content es) = closes es := by
  simp only [closes, content, List.countP_filter]
  congr 1; funext e; cases e <;> rfl

theorem bal_content (es : List REv) : bal (content es) = bal es := by
  simp [bal, opens_misc, closes_misc]

/-- Every prefix of the filtered list is a filtered prefix. -/
theorem content_take (es : List REv) (k : Nat) : ∃ j, (content es).take k = content (es.take j) := by
  induction es generalizing k with
  | nil => exact ⟨0, by simp [content]⟩
  | cons e es ih =>
    cases h : isMisc e
    · cases k with
      | zero => exact ⟨0, by simp [content]⟩
      | succ k =>
        obtain ⟨j, hj⟩ := ih k
        refine ⟨j + 1, ?_⟩
        have : content (e :: es) = e :: content es := by simp [content, h]
        rw [this, List.take_succ_cons, List.take_succ_cons, hj]
        simp [content, h]
    · obtain ⟨j, hj⟩ := ih k
      refine ⟨j + 1, ?_⟩
      have : content (e :: es) = content es := by simp [content, h]
      rw [this, hj, List.take_succ_cons]
      simp [content, h]

theorem WellNested.content {es : List REv} (h : WellNested es) : WellNested (content es) := by
  intro k
  obtain ⟨j, hj⟩ := content_take es k
  rw [hj, opens_misc, closes_misc]
  exact h j

/-- The reader will never decrement a zero depth. -/
def Safe (rd : Rd) : Prop := ∀ k, (rd.depth : Int) + weightSum rd.stream k ≥ 0

theorem safe_new {s : Src} (h : WellNested s.evs) : Safe (Rd.new s) := by
  intro k
  have hs := (at_new' s).stream
  rw [hs, weightSum_strm]
  have := h.content k
  simp only [Rd.new, bal]
  omega

theorem Safe.adv {k : Nat} {a b : Rd} (h : Safe a) (hab : Adv k a b) : Safe b := by
  intro l
  have := h (k + l)
  rw [weightSum_add] at this
  rw [hab.2]
  have : b.stream = fun n => a.stream (n + k) := funext hab.1
  rw [this]
  omega

theorem Safe.next {rd : Rd} (h : Safe rd) :
    (nextEvent rd).1 = rd.stream 0 ∧ Adv 1 rd (nextEvent rd).2 := by
  apply (next_stream rd).1
  have := h 1
  simpa [weightSum] using this

end Yaserde
