import Verif.Spec.Scalars
/-
Decimal literals.
-/

set_option autoImplicit false

namespace Yaserde

theorem lo_le (t : IntTy) : t.lo ≤ 0 := by cases t <;> decide
theorem hi_ge (t : IntTy) : 0 ≤ t.hi := by cases t <;> decide
theorem lo_unsigned (t : IntTy) (h : t.signed = false) : t.lo = 0 := by cases t <;> first | rfl | cases h

theorem digitVal_eq (c : Char) (d : Nat) : digitVal c = some d ↔ IsDigit c ∧ d = c.toNat - 48 := by
  unfold digitVal IsDigit
  have h0 : ('0' ≤ c) ↔ 48 ≤ c.toNat := by
    rw [Char.le_def, UInt32.le_iff_toNat_le]; rfl
  have h9 : (c ≤ '9') ↔ c.toNat ≤ 57 := by
    rw [Char.le_def, UInt32.le_iff_toNat_le]; rfl
  have h48 : '0'.toNat = 48 := rfl
  rw [h48]
  split
  · rename_i h
    rw [h0, h9] at h
    simp [h, eq_comm]
  · rename_i h
    rw [h0, h9] at h
    simp [h]

theorem digitVal_none (c : Char) : digitVal c = none ↔ ¬ IsDigit c := by
  constructor
  · intro h hd
    have := (digitVal_eq c (c.toNat - 48)).mpr ⟨hd, rfl⟩
    rw [h] at this; cases this
  · intro h
    cases hc : digitVal c with
    | none => rfl
    | some d => exact (h ((digitVal_eq c d).mp hc).1).elim

/-- The value of digits read after a number `n`. -/
def digitsFrom (n : Nat) (s : Str) : Nat := s.foldl (fun n c => 10 * n + (c.toNat - 48)) n

theorem digitsFrom_ge (n : Nat) (s : Str) : n ≤ digitsFrom n s := by
  induction s generalizing n with
  | nil => exact Nat.le_refl _
  | cons c s ih =>
    have h := ih (10 * n + (c.toNat - 48))
    show n ≤ digitsFrom (10 * n + (c.toNat - 48)) s
    omega

theorem parseDigits_pos (lo hi : Int) (hlo : lo ≤ 0) (s : Str) (n : Nat) (hn : (n : Int) ≤ hi) (z : Int) :
    parseDigits true lo hi n s = .ok z ↔
      (∀ c ∈ s, IsDigit c) ∧ z = digitsFrom n s ∧ z ≤ hi := by
  induction s generalizing n with
  | nil =>
    simp only [parseDigits, digitsFrom, List.foldl_nil, Except.ok.injEq, List.not_mem_nil, false_imp_iff, implies_true, true_and]
    constructor
    · rintro rfl; exact ⟨rfl, hn⟩
    · rintro ⟨h, -⟩; exact h.symm
  | cons c s ih =>
    unfold parseDigits
    cases hc : digitVal c with
    | none =>
      rw [digitVal_none] at hc
      simp only [List.mem_cons, forall_eq_or_imp, hc, false_and, iff_false]
      intro h; cases h
    | some d =>
      obtain ⟨hd, rfl⟩ := (digitVal_eq c d).mp hc
      have hcast : ((n : Int) * 10 + ((c.toNat - 48 : Nat) : Int)) = ((10 * n + (c.toNat - 48) : Nat) : Int) := by omega
      simp only [if_true, List.mem_cons, forall_eq_or_imp, hd, true_and]
      rw [hcast]
      have hge := digitsFrom_ge (10 * n + (c.toNat - 48)) s
      have hstep : digitsFrom n (c :: s) = digitsFrom (10 * n + (c.toNat - 48)) s := rfl
      rw [hstep]
      split
      · constructor
        · intro h; cases h
        · rintro ⟨-, h1, h2⟩; omega
      · rw [if_neg (by omega)]
        exact ih _ (by omega)

theorem parseDigits_neg (lo hi : Int) (hhi : 0 ≤ hi) (s : Str) (n : Nat) (hn : lo ≤ -(n : Int)) (z : Int) :
    parseDigits false lo hi (-(n : Int)) s = .ok z ↔
      (∀ c ∈ s, IsDigit c) ∧ z = -(digitsFrom n s : Int) ∧ lo ≤ z := by
  induction s generalizing n with
  | nil =>
    simp only [parseDigits, digitsFrom, List.foldl_nil, Except.ok.injEq, List.not_mem_nil, false_imp_iff, implies_true, true_and]
    constructor
    · rintro rfl; exact ⟨rfl, hn⟩
    · rintro ⟨h, -⟩; exact h.symm
  | cons c s ih =>
    unfold parseDigits
    cases hc : digitVal c with
    | none =>
      rw [digitVal_none] at hc
      simp only [List.mem_cons, forall_eq_or_imp, hc, false_and, iff_false]
      intro h; cases h
    | some d =>
      obtain ⟨hd, rfl⟩ := (digitVal_eq c d).mp hc
      have hcast : (-(n : Int) * 10 - ((c.toNat - 48 : Nat) : Int)) = -((10 * n + (c.toNat - 48) : Nat) : Int) := by omega
      simp only [Bool.false_eq_true, if_false, List.mem_cons, forall_eq_or_imp, hd, true_and]
      rw [hcast]
      have hge := digitsFrom_ge (10 * n + (c.toNat - 48)) s
      have hstep : digitsFrom n (c :: s) = digitsFrom (10 * n + (c.toNat - 48)) s := rfl
      rw [hstep]
      rw [if_neg (by omega)]
      split
      · constructor
        · intro h; cases h
        · rintro ⟨-, h1, h2⟩; omega
      · exact ih _ (by omega)

theorem not_digit_plus : ¬ IsDigit '+' := by unfold IsDigit; decide
theorem not_digit_minus : ¬ IsDigit '-' := by unfold IsDigit; decide

theorem pos_literal (t : IntTy) (s : Str) (z : Int) :
    parseDigits true t.lo t.hi 0 s = .ok z ↔
      (∀ c ∈ s, IsDigit c) ∧ z = digitsValue s ∧ t.lo ≤ z ∧ z ≤ t.hi := by
  rw [show (0 : Int) = ((0 : Nat) : Int) from rfl, parseDigits_pos _ _ (lo_le t) s 0 (hi_ge t)]
  show _ ∧ z = (digitsValue s : Nat) ∧ _ ↔ _
  have := lo_le t
  constructor
  · rintro ⟨h1, h2, h3⟩; exact ⟨h1, h2, by omega, h3⟩
  · rintro ⟨h1, h2, h3, h4⟩; exact ⟨h1, h2, h4⟩

theorem neg_literal (t : IntTy) (s : Str) (z : Int) :
    parseDigits false t.lo t.hi 0 s = .ok z ↔
      (∀ c ∈ s, IsDigit c) ∧ z = -(digitsValue s : Int) ∧ t.lo ≤ z ∧ z ≤ t.hi := by
  have h := parseDigits_neg t.lo t.hi (hi_ge t) s 0 (by have := lo_le t; omega) z
  rw [show (-((0 : Nat) : Int)) = 0 from rfl] at h
  rw [h]
  show _ ∧ z = -(digitsValue s : Int) ∧ _ ↔ _
  have := hi_ge t
  constructor
  · rintro ⟨h1, h2, h3⟩; exact ⟨h1, h2, h3, by omega⟩
  · rintro ⟨h1, h2, h3, h4⟩; exact ⟨h1, h2, h3⟩

/-- The model's bounds of the integer types are those of `bits`-bit integers. -/
theorem fits_iff (t : IntTy) (z : Int) : t.Fits z ↔ t.lo ≤ z ∧ z ≤ t.hi := by
  cases t <;> simp [IntTy.Fits, IntTy.hasSign, IntTy.bits, IntTy.lo, IntTy.hi] <;> omega

theorem hasSign_iff (t : IntTy) : t.hasSign ↔ t.signed = true := by
  cases t <;> simp [IntTy.hasSign, IntTy.signed]

theorem intLiteral_iff (t : IntTy) (s : Str) (z : Int) : IntLiteral t s z ↔
    ∃ ds, ds ≠ [] ∧ (∀ c ∈ ds, IsDigit c) ∧ t.lo ≤ z ∧ z ≤ t.hi ∧
      (((s = ds ∨ s = '+' :: ds) ∧ z = digitsValue ds) ∨
        (t.signed = true ∧ s = '-' :: ds ∧ z = -(digitsValue ds : Int))) := by
  simp only [IntLiteral, fits_iff, hasSign_iff, and_assoc]

theorem parseInt_iff (t : IntTy) (s : Str) (z : Int) : parseInt t s = .ok z ↔ IntLiteral t s z := by
  rw [intLiteral_iff]
  unfold parseInt
  split
  · -- empty
    constructor
    · intro h; cases h
    · rintro ⟨ds, h0, h1, h2, h3, ⟨rfl | h, -⟩ | ⟨-, h, -⟩⟩
      · exact (h0 rfl).elim
      · cases h
      · cases h
  · constructor
    · intro h; cases h
    · rintro ⟨ds, h0, h1, h2, h3, ⟨rfl | h, -⟩ | ⟨-, h, -⟩⟩
      · exact (not_digit_plus (h1 _ (List.mem_singleton.mpr rfl))).elim
      · cases h; exact (h0 rfl).elim
      · cases h
  · constructor
    · intro h; cases h
    · rintro ⟨ds, h0, h1, h2, h3, ⟨rfl | h, -⟩ | ⟨-, h, -⟩⟩
      · exact (not_digit_minus (h1 _ (List.mem_singleton.mpr rfl))).elim
      · cases h
      · cases h; exact (h0 rfl).elim
  · -- `+…`
    rename_i rest hne
    rw [pos_literal]
    constructor
    · rintro ⟨h1, h2, h3, h4⟩
      exact ⟨rest, by rintro rfl; exact hne rfl, h1, h3, h4, .inl ⟨.inr rfl, h2⟩⟩
    · rintro ⟨ds, h0, h1, h2, h3, ⟨rfl | h, hz⟩ | ⟨-, h, -⟩⟩
      · exact (not_digit_plus (h1 _ List.mem_cons_self)).elim
      · cases h; exact ⟨h1, hz, h2, h3⟩
      · cases h
  · -- `-…`
    rename_i rest hne
    split
    · rename_i hs
      rw [neg_literal]
      constructor
      · rintro ⟨h1, h2, h3, h4⟩
        exact ⟨rest, by rintro rfl; exact hne rfl, h1, h3, h4, .inr ⟨hs, rfl, h2⟩⟩
      · rintro ⟨ds, h0, h1, h2, h3, ⟨rfl | h, hz⟩ | ⟨-, h, hz⟩⟩
        · exact (not_digit_minus (h1 _ List.mem_cons_self)).elim
        · cases h
        · cases h; exact ⟨h1, hz, h2, h3⟩
    · rename_i hs
      rw [pos_literal]
      constructor
      · rintro ⟨h1, -⟩
        exact (not_digit_minus (h1 _ List.mem_cons_self)).elim
      · rintro ⟨ds, h0, h1, h2, h3, ⟨rfl | h, hz⟩ | ⟨h, -⟩⟩
        · exact (not_digit_minus (h1 _ List.mem_cons_self)).elim
        · cases h
        · exact (hs h).elim
  · -- no sign
    rename_i h0 h1 h2 h3 h4
    rw [pos_literal]
    constructor
    · rintro ⟨h5, h6, h7, h8⟩
      exact ⟨s, h0, h5, h7, h8, .inl ⟨.inl rfl, h6⟩⟩
    · rintro ⟨ds, -, h5, h6, h7, ⟨rfl | h, hz⟩ | ⟨-, h, -⟩⟩
      · exact ⟨h5, hz, h6, h7⟩
      · exact (h3 _ h).elim
      · exact (h4 _ h).elim

/-! ### Printing -/

theorem digitChar_toNat (n : Nat) : (digitChar n).toNat = 48 + n % 10 := by
  unfold digitChar
  have h : n % 10 < 10 := Nat.mod_lt _ (by omega)
  generalize n % 10 = d at h
  match d, h with
  | 0, _ => rfl | 1, _ => rfl | 2, _ => rfl | 3, _ => rfl | 4, _ => rfl
  | 5, _ => rfl | 6, _ => rfl | 7, _ => rfl | 8, _ => rfl | 9, _ => rfl

theorem digitChar_isDigit (n : Nat) : IsDigit (digitChar n) := by
  unfold IsDigit; rw [digitChar_toNat]; have := Nat.mod_lt n (show 10 > 0 by omega); omega

theorem showNatF_ne (fuel n : Nat) : showNatF (fuel + 1) n ≠ [] := by
  unfold showNatF; split <;> simp

theorem showNatF_digits (fuel n : Nat) : ∀ c ∈ showNatF fuel n, IsDigit c := by
  induction fuel generalizing n with
  | zero => intro c hc; cases hc
  | succ fuel ih =>
    intro c hc
    unfold showNatF at hc
    split at hc
    · rw [List.mem_singleton] at hc; subst hc; exact digitChar_isDigit n
    · rw [List.mem_append, List.mem_singleton] at hc
      rcases hc with hc | rfl
      · exact ih _ _ hc
      · exact digitChar_isDigit n

theorem showNatF_value (fuel n : Nat) (h : n < fuel) : digitsValue (showNatF fuel n) = n := by
  induction fuel generalizing n with
  | zero => omega
  | succ fuel ih =>
    unfold showNatF
    split
    · rename_i hn
      show 10 * 0 + ((digitChar n).toNat - 48) = n
      rw [digitChar_toNat, Nat.mod_eq_of_lt hn]; omega
    · rename_i hn
      have hv := ih (n / 10) (by omega)
      unfold digitsValue at hv ⊢
      rw [List.foldl_append, hv]
      show 10 * (n / 10) + ((digitChar n).toNat - 48) = n
      rw [digitChar_toNat]; omega

theorem showNat_ne (n : Nat) : showNat n ≠ [] := showNatF_ne n n
theorem showNat_digits (n : Nat) : ∀ c ∈ showNat n, IsDigit c := showNatF_digits _ n
theorem showNat_value (n : Nat) : digitsValue (showNat n) = n := showNatF_value _ n (by omega)

theorem parseInt_showInt (t : IntTy) (z : Int) (hz : t.Fits z) : parseInt t (showInt z) = .ok z := by
  obtain ⟨h1, h2⟩ := (fits_iff t z).mp hz
  rw [parseInt_iff, intLiteral_iff]
  cases z with
  | ofNat n =>
    exact ⟨showNat n, showNat_ne n, showNat_digits n, h1, h2, .inl ⟨.inl rfl, by rw [showNat_value]; rfl⟩⟩
  | negSucc n =>
    refine ⟨showNat (n + 1), showNat_ne _, showNat_digits _, h1, h2, .inr ⟨?_, rfl, ?_⟩⟩
    · cases hs : t.signed with
      | true => rfl
      | false => rw [lo_unsigned t hs] at h1; omega
    · rw [showNat_value]; omega

theorem parseBool_showBool (b : Bool) : parseBool (showBool b) = .ok b := by cases b <;> rfl

theorem parseBool_iff (s : Str) (b : Bool) : parseBool s = .ok b ↔ s = showBool b := by
  unfold parseBool
  split
  · subst_vars
    constructor
    · rintro h; cases h; rfl
    · intro h; cases b
      · cases h
      · rfl
  · split
    · subst_vars
      constructor
      · rintro h; cases h; rfl
      · intro h; cases b
        · rfl
        · cases h
    · rename_i h1 h2
      constructor
      · intro h; cases h
      · intro h; cases b
        · exact (h2 h).elim
        · exact (h1 h).elim

theorem parseMapBool_iff (s : Str) (b : Bool) : parseBool (mapIfBool s) = .ok b ↔ BoolLiteral s b := by
  rw [parseBool_iff]
  unfold mapIfBool BoolLiteral showBool
  by_cases h1 : s = c!"1"
  · subst h1; cases b <;> simp
  · by_cases h0 : s = c!"0"
    · subst h0; cases b <;> simp
    · rw [if_neg h1, if_neg h0]
      cases b <;> simp [h0, h1]

theorem mapIfBool_showBool (b : Bool) : mapIfBool (showBool b) = showBool b := by cases b <;> rfl

end Yaserde
