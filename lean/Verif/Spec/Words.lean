import Verif.Model.Prim
/-
The words of a text.
-/

set_option autoImplicit false

namespace Yaserde

/-- The characters with the Unicode property `White_Space`. -/
def blanks : List Nat :=
  [0x09, 0x0A, 0x0B, 0x0C, 0x0D, 0x20, 0x85, 0xA0, 0x1680, 0x2000, 0x2001, 0x2002, 0x2003, 0x2004, 0x2005, 0x2006, 0x2007, 0x2008,
    0x2009, 0x200A, 0x2028, 0x2029, 0x202F, 0x205F, 0x3000]

/-- `ws` are the words of `s`: the longest runs of characters that are not white space, in order. -/
inductive Words : Str → List Str → Prop where
  | none (s : Str) (h : ∀ c ∈ s, c.toNat ∈ blanks) : Words s []
  | word (gap w rest : Str) (ws : List Str) (hgap : ∀ c ∈ gap, c.toNat ∈ blanks) (hne : w ≠ []) (hw : ∀ c ∈ w, c.toNat ∉ blanks)
      (hrest : ∀ c, rest.head? = some c → c.toNat ∈ blanks) (h : Words rest ws) : Words (gap ++ w ++ rest) (w :: ws)

end Yaserde
