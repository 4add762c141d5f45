import Verif.Model.Xml
/-
The order of strings, and insertion into namespace tables.
-/

set_option autoImplicit false

namespace Yaserde

theorem strLt_irrefl (s : Str) : strLt s s = false := by
  induction s with
  | nil => rfl
  | cons a s ih => simp [strLt, ih]

theorem strLt_trans (s t u : Str) (h1 : strLt s t = true) (h2 : strLt t u = true) : strLt s u = true := by
  induction s generalizing t u with
  | nil =>
    cases u with
    | nil => cases t <;> simp [strLt] at h2
    | cons => rfl
  | cons a s ih =>
    cases t with
    | nil => simp [strLt] at h1
    | cons b t =>
      cases u with
      | nil => simp [strLt] at h2
      | cons c u =>
        simp only [strLt] at h1 h2 ⊢
        by_cases hab : a = b
        · subst hab
          rw [if_pos rfl] at h1
          by_cases hac : a = c
          · subst hac
            rw [if_pos rfl] at h2 ⊢
            exact ih _ _ h1 h2
          · rw [if_neg hac] at h2 ⊢; exact h2
        · rw [if_neg hab] at h1
          by_cases hbc : b = c
          · subst hbc
            rw [if_neg hab]; exact h1
          · rw [if_neg hbc] at h2
            simp only [decide_eq_true_eq] at h1 h2
            have h3 : a < c := Std.lt_trans h1 h2
            have h4 : a ≠ c := fun e => by subst e; exact absurd h3 (Std.lt_irrefl)
            rw [if_neg h4]; simpa using h3

theorem strLt_total (s t : Str) (h : s ≠ t) (h1 : strLt s t = false) : strLt t s = true := by
  induction s generalizing t with
  | nil => cases t with
    | nil => exact absurd rfl h
    | cons => simp [strLt] at h1
  | cons a s ih =>
    cases t with
    | nil => rfl
    | cons b t =>
      simp only [strLt] at h1 ⊢
      by_cases hab : a = b
      · subst hab
        rw [if_pos rfl] at h1 ⊢
        exact ih _ (fun e => h (by rw [e])) h1
      · rw [if_neg hab] at h1
        rw [if_neg (Ne.symm hab)]
        simp only [decide_eq_false_iff_not, decide_eq_true_eq] at h1 ⊢
        rcases Nat.lt_trichotomy a.toNat b.toNat with h | h | h
        · exact absurd h h1
        · exact absurd (Char.toNat_inj.mp h) hab
        · exact h

theorem strLt_asymm {s t : Str} (h : strLt s t = true) : strLt t s = false := by
  cases k : strLt t s with
  | false => rfl
  | true => rw [← strLt_trans _ _ _ h k, strLt_irrefl]

theorem NsMap.insert_perm (p u : Str) (m : NsMap) : (m.insert p u).Perm ((p, u) :: m) := by
  induction m with
  | nil => exact .refl _
  | cons e m ih =>
    unfold NsMap.insert; split
    · exact .refl _
    · exact (List.Perm.cons e ih).trans (.swap ..)

theorem NsMap.mem_insert {p u : Str} {m : NsMap} {e : Str × Str} : e ∈ m.insert p u ↔ e = (p, u) ∨ e ∈ m := by
  rw [(NsMap.insert_perm p u m).mem_iff, List.mem_cons]

theorem NsMap.insert_comm {p q : Str} (u v : Str) (h : p ≠ q) (m : NsMap) :
    NsMap.insert p u (NsMap.insert q v m) = NsMap.insert q v (NsMap.insert p u m) := by
  have hpq : strLt p q = true ∧ strLt q p = false ∨ strLt q p = true ∧ strLt p q = false := by
    cases k : strLt p q with
    | true => exact .inl ⟨rfl, strLt_asymm k⟩
    | false => exact .inr ⟨strLt_total p q h k, rfl⟩
  induction m with
  | nil => rcases hpq with ⟨a, b⟩ | ⟨a, b⟩ <;> simp [NsMap.insert, a, b]
  | cons e m ih =>
    cases hp : strLt p e.1 <;> cases hq : strLt q e.1
    · simp [NsMap.insert, hp, hq, ih]
    · have : strLt p q = false := by
        cases k : strLt p q with
        | false => rfl
        | true => rw [strLt_trans _ _ _ k hq] at hp; cases hp
      simp [NsMap.insert, hp, hq, this]
    · have : strLt q p = false := by
        cases k : strLt q p with
        | false => rfl
        | true => rw [strLt_trans _ _ _ k hp] at hq; cases hq
      simp [NsMap.insert, hp, hq, this]
    · rcases hpq with ⟨a, b⟩ | ⟨a, b⟩ <;> simp [NsMap.insert, hp, hq, a, b]

end Yaserde
