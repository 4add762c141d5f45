import Verif.Model.Prim
/-
What the texts of scalars are.
-/

set_option autoImplicit false

namespace Yaserde

/-- An ASCII digit. -/
def IsDigit (c : Char) : Prop := 48 ≤ c.toNat ∧ c.toNat ≤ 57

/-- The number a sequence of digits denotes. -/
def digitsValue (s : Str) : Nat := s.foldl (fun n c => 10 * n + (c.toNat - 48)) 0

/-- The number of bits of an integer type. -/
def IntTy.bits : IntTy → Nat
  | .i8 | .u8 => 8
  | .i16 | .u16 => 16
  | .i32 | .u32 => 32
  | .i64 | .u64 => 64

/-- Whether the type has a sign. -/
def IntTy.hasSign : IntTy → Prop
  | .i8 | .i16 | .i32 | .i64 => True
  | .u8 | .u16 | .u32 | .u64 => False

instance (t : IntTy) : Decidable t.hasSign := by cases t <;> unfold IntTy.hasSign <;> infer_instance

/-- `z` is a number of the type: two's complement for the types with a sign. -/
def IntTy.Fits (t : IntTy) (z : Int) : Prop :=
  (t.hasSign → -2 ^ (t.bits - 1) ≤ z ∧ z < 2 ^ (t.bits - 1)) ∧
    (¬ t.hasSign → 0 ≤ z ∧ z < 2 ^ t.bits)

instance (t : IntTy) (z : Int) : Decidable (t.Fits z) := inferInstanceAs (Decidable (_ ∧ _))

/-- `s` denotes the value `z` of the integer type: an optional sign (`-` only for signed types)
followed by one or more digits, in the range of the type. -/
def IntLiteral (t : IntTy) (s : Str) (z : Int) : Prop :=
  ∃ ds, ds ≠ [] ∧ (∀ c ∈ ds, IsDigit c) ∧ t.Fits z ∧
    (((s = ds ∨ s = '+' :: ds) ∧ z = digitsValue ds) ∨
      (t.hasSign ∧ s = '-' :: ds ∧ z = -(digitsValue ds : Int)))

/-- The texts of a Boolean. -/
def BoolLiteral (s : Str) (b : Bool) : Prop :=
  (b = true ∧ (s = c!"true" ∨ s = c!"1")) ∨ (b = false ∧ (s = c!"false" ∨ s = c!"0"))

end Yaserde
