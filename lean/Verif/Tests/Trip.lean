import Verif.Tests.SimpleCheck
import Verif.Props.Runtime
/-
Concrete round trips, and failures of round trips.
-/

set_option autoImplicit false

namespace Yaserde

mutual
  theorem Val.beq_refl : ∀ a : Val, Val.beq a a = true
    | .str _ => by simp [Val.beq]
    | .bool _ => by simp [Val.beq]
    | .int _ => by simp [Val.beq]
    | .f32 _ => by simp [Val.beq]
    | .f64 _ => by simp [Val.beq]
    | .none => by simp [Val.beq]
    | .some x => by rw [Val.beq]; exact Val.beq_refl x
    | .vec x => by rw [Val.beq]; exact Val.beqL_refl x
    | .struct x => by rw [Val.beq]; exact Val.beqL_refl x
    | .enum i x => by rw [Val.beq, Val.beqL_refl x]; simp
  theorem Val.beqL_refl : ∀ a : List Val, Val.beqL a a = true
    | [] => by simp [Val.beqL]
    | x :: xs => by rw [Val.beqL, Val.beq_refl x, Val.beqL_refl xs]; rfl
end

theorem Val.ne_of_beq {a b : Val} (h : a.beq b = false) : a ≠ b := by
  rintro rfl
  rw [Val.beq_refl] at h
  cases h

namespace Tests

/-- What the value is written as. -/
def writesB (env : Env) (p : Str) (v : Val) (s : Str) : Bool :=
  match toString lib env [p] v with
  | .ok x => x == s
  | _ => false

theorem writes_of_check {env : Env} {p : Str} {v : Val} {s : Str} (h : writesB env p v s = true) :
    toString lib env [p] v = .ok s := by
  unfold writesB at h
  split at h
  · rename_i x hx
    rw [hx, eq_of_beq h]
  · cases h

theorem reads_one {env : Env} {p : Str} {s : Str} {r r' : Res Val} (h : Returns lib env [p] s r) (h' : Returns lib env [p] s r') :
    r = r' := (C27_budget_irrelevant lib env [p] s).2 _ _ h h'

/-- What is read from what the value is written as. -/
def tripB (env : Env) (p : Str) (v : Val) (test : Str → Bool) : Bool :=
  match toString lib env [p] v with
  | .ok s => test s
  | _ => false

theorem trip_of_check {env : Env} {p : Str} {v : Val} {test : Str → Bool} (h : tripB env p v test = true) :
    ∃ s, toString lib env [p] v = .ok s ∧ test s = true := by
  unfold tripB at h
  split at h
  · exact ⟨_, by assumption, h⟩
  · cases h

/-- The value is written, and something else is read. -/
theorem misread {env : Env} {p : Str} {v : Val} (w : Val) (h : tripB env p v (fun s => deOk env p s w) = true)
    (hne : v.beq w = false) : ¬ RoundTrips lib env [p] v := by
  obtain ⟨s, hw, hr⟩ := trip_of_check h
  rintro ⟨s', h1, h2⟩
  rw [hw] at h1
  cases h1
  have := (h2 _).mp (returns_of_deOk hr)
  cases this
  exact Val.ne_of_beq hne rfl

/-- The value is written, and what is written is rejected. -/
theorem unreadable {env : Env} {p : Str} {v : Val} (m : Str) (h : tripB env p v (fun s => deErr env p s m) = true) :
    ¬ RoundTrips lib env [p] v := by
  obtain ⟨s, hw, hr⟩ := trip_of_check h
  rintro ⟨s', h1, h2⟩
  rw [hw] at h1
  cases h1
  have := (h2 _).mp (returns_of_deErr hr)
  cases this

end Tests
end Yaserde
