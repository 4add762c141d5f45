import Verif.Spec.XmlLaw
/-
How a document can be spelled (XML 1.0): references, CDATA sections, comments, white space in tags, kinds of quotes, tags of
empty elements, processing instructions.  Not covered: document type declarations.
-/

set_option autoImplicit false

namespace Yaserde
namespace Spell

/-- White space, possibly none. -/
def Blank (s : Str) : Prop := ∀ c ∈ s, isXmlSpace c = true

/-! ### References -/

/-- A digit and its value. -/
inductive Digit : Nat → Char → Nat → Prop
  | dec {base : Nat} {c : Char} {d : Nat} : d < 10 → c.toNat = 48 + d → Digit base c d
  | lower {c : Char} {d : Nat} : d < 6 → c.toNat = 97 + d → Digit 16 c (10 + d)
  | upper {c : Char} {d : Nat} : d < 6 → c.toNat = 65 + d → Digit 16 c (10 + d)

/-- A number, most significant digit first. -/
inductive Numeral (base : Nat) : Str → Nat → Prop
  | one {c : Char} {d : Nat} : Digit base c d → Numeral base [c] d
  | more {s : Str} {n : Nat} {c : Char} {d : Nat} : Numeral base s n → Digit base c d → Numeral base (s ++ [c]) (n * base + d)

/-- A reference without `&` and `;`, and the character it stands for. -/
inductive RefTo : Str → Char → Prop
  | lt : RefTo c!"lt" '<'
  | gt : RefTo c!"gt" '>'
  | amp : RefTo c!"amp" '&'
  | quot : RefTo c!"quot" '"'
  | apos : RefTo c!"apos" '\''
  | dec {ds : Str} {c : Char} : Numeral 10 ds c.toNat → isDocChar c = true → RefTo (c!"#" ++ ds) c
  | hex {ds : Str} {c : Char} : Numeral 16 ds c.toNat → isDocChar c = true → RefTo (c!"#x" ++ ds) c

/-! ### Attributes -/

/-- The value of an attribute between the quotes `q`, and what it stands for: white space becomes a space. -/
inductive Value (q : Char) : Str → Str → Prop
  | nil : Value q [] []
  | char {c : Char} {s v : Str} : isDocChar c = true → c ≠ q → c ≠ '<' → c ≠ '&' → Value q s v →
      Value q (c :: s) ((if isXmlSpace c then ' ' else c) :: v)
  | ref {r : Str} {c : Char} {s v : Str} : RefTo r c → Value q s v → Value q (c!"&" ++ r ++ c!";" ++ s) (c :: v)

/-- The attributes in a tag, each after some white space. -/
inductive Attrs : Str → List (Str × Str) → Prop
  | nil : Attrs [] []
  | cons {w n w1 w2 s v rest : Str} {q : Char} {as : List (Str × Str)} :
      Blank w → w ≠ [] → isQName n = true → Blank w1 → Blank w2 → q = '"' ∨ q = '\'' → Value q s v → Attrs rest as →
      Attrs (w ++ n ++ w1 ++ c!"=" ++ w2 ++ [q] ++ s ++ [q] ++ rest) ((n, v) :: as)

/-! ### Text, comments, processing instructions -/

/-- Line ends.  Character by character, as in `XmlText`: a carriage return and a line feed are two line ends (XML: one), which
makes a difference inside a text only. -/
def lineEnd (c : Char) : Char := if c = '\r' then '\n' else c

/-- A comment. -/
inductive Comment : Str → Prop
  | mk {t : Str} : (∀ c ∈ t, isDocChar c = true) → ¬ c!"--" <:+: t ++ c!"-" → Comment (c!"<!--" ++ t ++ c!"-->")

/-- A processing instruction, or the XML declaration. -/
inductive Pi : Str → Prop
  | mk {target t : Str} : isNCName target = true → (t = [] ∨ ∃ c t', t = c :: t' ∧ isXmlSpace c = true) → (∀ c ∈ t, isDocChar c = true) →
      ¬ c!"?>" <:+: t → Pi (c!"<?" ++ target ++ t ++ c!"?>")

/-- A piece of text and what it stands for. -/
inductive Piece : Str → Str → Prop
  | char {c : Char} : isDocChar c = true → c ≠ '<' → c ≠ '&' → Piece [c] [lineEnd c]
  | ref {r : Str} {c : Char} : RefTo r c → Piece (c!"&" ++ r ++ c!";") [c]
  | cdata {t : Str} : (∀ c ∈ t, isDocChar c = true) → ¬ c!"]]>" <:+: t → Piece (c!"<![CDATA[" ++ t ++ c!"]]>") (t.map lineEnd)
  | comment {s : Str} : Comment s → Piece s []

/-! ### Namespaces -/

/-- The declarations among the attributes: prefix (empty for the default namespace) and name of the namespace. -/
def declOf (a : Str × Str) : Option (Str × Str) :=
  if a.1 = c!"xmlns" then some ([], a.2)
  else match splitColon a.1 with
    | some (p, l) => if p = c!"xmlns" then some (l, a.2) else none
    | none => none

/-- Inner declarations hide outer ones of the same prefix. -/
def inner (sc ds : NsMap) : NsMap := ds ++ sc.filter fun e => !(ds.any fun d => d.1 == e.1)

/-- The namespace of a prefix, if it is not the empty one. -/
def nsOf (sc : NsMap) (p : Str) : Option Str :=
  match scopeUri sc p with
  | some [] => none
  | u => u

/-- The name of an element. -/
inductive ElemName (sc : NsMap) : Str → Name → Prop
  | bare {raw : Str} : splitColon raw = none → ElemName sc raw { loc := raw, ns := nsOf sc [] }
  | prefixed {raw p l : Str} : splitColon raw = some (p, l) → (scopeUri sc p).isSome = true →
      ElemName sc raw { loc := l, ns := nsOf sc p, pfx := some p }

/-- The name of an attribute. -/
inductive AttrName (sc : NsMap) : Str → Name → Prop
  | bare {raw : Str} : splitColon raw = none → AttrName sc raw { loc := raw }
  | xml {raw l : Str} : splitColon raw = some (c!"xml", l) →
      AttrName sc raw { loc := l, ns := some c!"http://www.w3.org/XML/1998/namespace", pfx := some c!"xml" }
  | prefixed {raw p l : Str} : splitColon raw = some (p, l) → p ≠ c!"xml" → (scopeUri sc p).isSome = true →
      AttrName sc raw { loc := l, ns := nsOf sc p, pfx := some p }

/-- The attributes without the declarations. -/
inductive AttrList (sc : NsMap) : List (Str × Str) → List Attr → Prop
  | nil : AttrList sc [] []
  | decl {a : Str × Str} {as : List (Str × Str)} {bs : List Attr} : (declOf a).isSome = true → AttrList sc as bs → AttrList sc (a :: as) bs
  | attr {a : Str × Str} {n : Name} {as : List (Str × Str)} {bs : List Attr} : declOf a = none → AttrName sc a.1 n →
      AttrList sc as bs → AttrList sc (a :: as) (⟨n, a.2⟩ :: bs)

/-- The meaning of a tag: names in the declarations `sc`. -/
structure Tag (outer sc : NsMap) (raw : Str) (as : List (Str × Str)) (n : Name) (bs : List Attr) : Prop where
  name : isQName raw = true
  nodup : (as.map Prod.fst).Nodup
  scope : sc = inner outer (as.filterMap declOf)
  elem : ElemName sc raw n
  attrs : AttrList sc as bs

/-! ### Elements -/

mutual
  /-- The text of an element inside the declarations `sc`. -/
  inductive Elem : NsMap → Node → Str → Prop
    | empty {outer sc : NsMap} {raw sa w : Str} {as : List (Str × Str)} {n : Name} {bs : List Attr} :
        Attrs sa as → Blank w → Tag outer sc raw as n bs →
        Elem outer (.elem n bs sc []) (c!"<" ++ raw ++ sa ++ w ++ c!"/>")
    | full {outer sc : NsMap} {raw sa w w' s : Str} {as : List (Str × Str)} {n : Name} {bs : List Attr} {ks : List Node} :
        Attrs sa as → Blank w → Tag outer sc raw as n bs → Content sc [] ks s → Blank w' →
        Elem outer (.elem n bs sc ks) (c!"<" ++ raw ++ sa ++ w ++ c!">" ++ s ++ c!"</" ++ raw ++ w' ++ c!">")
  /-- The content of an element, of which the text `run` has been read since the last tag: texts are trimmed, and left out
  if nothing remains. -/
  inductive Content : NsMap → Str → List Node → Str → Prop
    | nil {sc : NsMap} {run : Str} : Content sc run (textRun run) []
    | piece {sc : NsMap} {run d s s' : Str} {ks : List Node} : Piece s d → Content sc (run ++ d) ks s' → Content sc run ks (s ++ s')
    | pi {sc : NsMap} {run s s' : Str} {ks : List Node} : Pi s → Content sc [] ks s' → Content sc run (textRun run ++ ks) (s ++ s')
    | elem {sc : NsMap} {run s s' : Str} {x : Node} {ks : List Node} : Elem sc x s → Content sc [] ks s' →
        Content sc run (textRun run ++ x :: ks) (s ++ s')
end

/-- What can be before and after the document element. -/
inductive Misc : Str → Prop
  | nil : Misc []
  | space {c : Char} {s : Str} : isXmlSpace c = true → Misc s → Misc (c :: s)
  | comment {s s' : Str} : Comment s → Misc s' → Misc (s ++ s')
  | pi {s s' : Str} : Pi s → Misc s' → Misc (s ++ s')

/-- The document `x` is spelled `s`. -/
inductive Doc (x : Node) : Str → Prop
  | mk {a s b : Str} : Misc a → Elem [] x s → Misc b → Doc x (a ++ s ++ b)

end Spell
end Yaserde
