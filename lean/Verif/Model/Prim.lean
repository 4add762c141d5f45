import Verif.Model.Basic
/-
Scalars: the simple field types of `Field` (`/repo/yaserde_derive/src/common/field.rs:211-223`)
and their Rust `Display` / `FromStr` behaviour, which the generated code relies on through
`format!("{}", …)`, `to_string()` and `T::from_str`.
-/

set_option autoImplicit false

namespace Yaserde

/-- Integer field types, `/repo/yaserde_derive/src/common/field.rs:214-221`. -/
inductive IntTy where
  | i8 | u8 | i16 | u16 | i32 | u32 | i64 | u64
  deriving Repr, DecidableEq

/-- Smallest value (`T::MIN`). -/
def IntTy.lo : IntTy → Int
  | .i8 => -128
  | .i16 => -32768
  | .i32 => -2147483648
  | .i64 => -9223372036854775808
  | _ => 0

/-- Largest value (`T::MAX`). -/
def IntTy.hi : IntTy → Int
  | .i8 => 127
  | .u8 => 255
  | .i16 => 32767
  | .u16 => 65535
  | .i32 => 2147483647
  | .u32 => 4294967295
  | .i64 => 9223372036854775807
  | .u64 => 18446744073709551615

/-- Whether a leading `-` is a sign. -/
def IntTy.signed : IntTy → Bool
  | .i8 | .i16 | .i32 | .i64 => true
  | _ => false

/-- The simple field types, `/repo/yaserde_derive/src/common/field.rs:212-223`. -/
inductive STy where
  | string
  | bool
  | int (t : IntTy)
  | f32
  | f64
  deriving Repr, DecidableEq

/-- Value of an ASCII decimal digit (`char::to_digit(10)`). -/
def digitVal (c : Char) : Option Nat :=
  if '0' ≤ c ∧ c ≤ '9' then some (c.toNat - '0'.toNat) else none

def msgEmpty : Str := c!"cannot parse integer from empty string"
def msgDigit : Str := c!"invalid digit found in string"
def msgHigh : Str := c!"number too large to fit in target type"
def msgLow : Str := c!"number too small to fit in target type"

/-- The accumulation loop of `core::num::from_str_radix(_, 10)`: left to right, per
character the digit test comes before the overflow test. -/
def parseDigits (pos : Bool) (lo hi : Int) : Int → Str → Except Str Int
  | acc, [] => .ok acc
  | acc, c :: cs =>
    match digitVal c with
    | none => .error msgDigit
    | some d =>
      let acc' := if pos then acc * 10 + d else acc * 10 - d
      if acc' > hi then .error msgHigh
      else if acc' < lo then .error msgLow
      else parseDigits pos lo hi acc' cs

/-- `<int as FromStr>::from_str`. -/
def parseInt (t : IntTy) (s : Str) : Except Str Int :=
  match s with
  | [] => .error msgEmpty
  | ['+'] => .error msgDigit
  | ['-'] => .error msgDigit
  | '+' :: rest => parseDigits true t.lo t.hi 0 rest
  | '-' :: rest =>
    if t.signed then parseDigits false t.lo t.hi 0 rest
    else parseDigits true t.lo t.hi 0 s
  | _ => parseDigits true t.lo t.hi 0 s

/-- The decimal digit character of `n < 10`. -/
def digitChar (n : Nat) : Char := Char.ofNat (48 + n % 10)

/-- Decimal digits, most significant first (`fuel` bounds the number of digits). -/
def showNatF : Nat → Nat → Str
  | 0, _ => []
  | fuel + 1, n => if n < 10 then [digitChar n] else showNatF fuel (n / 10) ++ [digitChar n]

def showNat (n : Nat) : Str := showNatF (n + 1) n

/-- `Display` of an integer. -/
def showInt : Int → Str
  | .ofNat n => showNat n
  | .negSucc n => '-' :: showNat (n + 1)

/-- `<bool as FromStr>::from_str`. -/
def parseBool (s : Str) : Except Str Bool :=
  if s = c!"true" then .ok true
  else if s = c!"false" then .ok false
  else .error c!"provided string was not `true` or `false`"

/-- `Display` of a bool. -/
def showBool (b : Bool) : Str := if b then c!"true" else c!"false"

/-- `match v { "1" => "true", "0" => "false", _ => v }` —
`/repo/yaserde_derive/src/de/expand_struct.rs:100-105`. -/
def mapIfBool (v : Str) : Str :=
  if v = c!"1" then c!"true" else if v = c!"0" then c!"false" else v

/-- Unicode `White_Space` (`char::is_whitespace`). -/
def isWhite (c : Char) : Bool :=
  let n := c.toNat
  (9 ≤ n && n ≤ 13) || n == 32 || n == 0x85 || n == 0xA0 || n == 0x1680 ||
  (0x2000 ≤ n && n ≤ 0x200A) || n == 0x2028 || n == 0x2029 || n == 0x202F ||
  n == 0x205F || n == 0x3000

/-- `str::split_whitespace`, with the word being accumulated in `acc` (reversed). -/
def splitWsAux : Str → Str → List Str
  | acc, [] => if acc.isEmpty then [] else [acc.reverse]
  | acc, c :: cs =>
    if isWhite c then
      if acc.isEmpty then splitWsAux [] cs else acc.reverse :: splitWsAux [] cs
    else splitWsAux (c :: acc) cs

/-- `str::split_whitespace`. -/
def splitWhitespace (s : Str) : List Str := splitWsAux [] s

end Yaserde
