import Verif.Model.Schema
/-
The `Display` and `FromStr` implementations generated for newtypes:
`/repo/yaserde_derive/src/primitives.rs`.  A value of the newtype is represented by the wrapped value.
-/

set_option autoImplicit false

namespace Yaserde

/-- The values of a simple type. -/
def STy.holds : STy → Val → Bool
  | .string, .str _ => true
  | .bool, .bool _ => true
  | .int t, .int z => t.lo ≤ z && z ≤ t.hi
  | .f32, .f32 _ => true
  | .f64, .f64 _ => true
  | _, _ => false

/-- `PrimitiveYaSerde` on `struct name(t)` — `/repo/yaserde_derive/src/primitives.rs:84-119`:
`write!(f, "{}", self.0)` and `<t as FromStr>::from_str(s)`. -/
def PrimDef.primitive (L : Lib) (name : Str) (t : STy) : PrimDef where
  name := name
  toStr := showS L
  fromStr := parseS L t
  dom := t.holds

/-- A digit of `{:X}`. -/
def hexChar (n : Nat) : Char := if n % 16 < 10 then Char.ofNat (48 + n % 16) else Char.ofNat (55 + n % 16)

/-- `{:X}`: hexadecimal digits, most significant first (`fuel` bounds the number of digits). -/
def showHexF : Nat → Nat → Str
  | 0, _ => []
  | fuel + 1, n => if n < 16 then [hexChar n] else showHexF fuel (n / 16) ++ [hexChar n]

/-- `{:02X}`: at least two digits. -/
def showHex2 (n : Nat) : Str := if n < 16 then ['0', hexChar n] else showHexF (n + 1) n

/-- `HexBinaryYaSerde` on a bit-flags type over an unsigned integer type, with the declared flags `mask` —
`/repo/yaserde_derive/src/primitives.rs:58-82`: `write!(f, "{:02X}", self.0)`, and `from_bits(s.parse()?)`, which
accepts only declared flags. -/
def PrimDef.hexBinary (name : Str) (t : IntTy) (mask : Nat) : PrimDef where
  name := name
  toStr
    | .int (.ofNat n) => showHex2 n
    | _ => []
  fromStr s :=
    match parseInt t s with
    | .error _ => .error c!"Failed to parse Bitflag integer"
    | .ok z => if z.toNat &&& mask = z.toNat then .ok (.int z) else .error c!"Unknown bits were set in Bitflag"
  dom
    | .int (.ofNat n) => n ≤ t.hi && n &&& mask = n
    | _ => false

end Yaserde
