import Verif.Proofs.Scalars
import Verif.Props.Decode
/-
Properties C23, C24 (texts accepted for integers and Booleans), C51 (their round trip).
-/

set_option autoImplicit false
set_option maxRecDepth 100000

namespace Yaserde

/-- C23.  The text of an integer field or attribute (and of an integer payload of an enum) is accepted
iff it is a literal of the type, and then denotes the value read. -/
theorem C23_int_literal (L : Lib) (t : IntTy) (s : Str) (v : Val) :
    (visitS L (.int t) s = .ok v ↔ ∃ z, v = .int z ∧ IntLiteral t s z) ∧
    (parseS L (.int t) s = .ok v ↔ ∃ z, v = .int z ∧ IntLiteral t s z) := by
  have h : parseS L (.int t) s = .ok v ↔ ∃ z, v = .int z ∧ IntLiteral t s z := by
    show (parseInt t s).map Val.int = .ok v ↔ _
    cases hp : parseInt t s with
    | ok z =>
      constructor
      · intro h; cases h; exact ⟨z, rfl, (parseInt_iff t s z).mp hp⟩
      · rintro ⟨z', rfl, h⟩
        rw [(parseInt_iff t s z').mpr h] at hp
        cases hp; rfl
    | error e =>
      constructor
      · intro h; cases h
      · rintro ⟨z', rfl, h⟩
        rw [(parseInt_iff t s z').mpr h] at hp
        cases hp
  exact ⟨h, h⟩

/-- C23 on documents: a child element of an `Option<int>` field, with text `txt`, sets the field to
`Some(z)` iff `txt` is a literal of the type denoting `z`. -/
theorem C23_int_element (L : Lib) (env : Env) (k : Nat) (p : Path) (d : StructDef) (s : Str) (n : Name)
    (as : List Attr) (m : NsMap) (ks : List Node) (vs : List Val)
    (h : OkDoc L env k p d s n as m ks vs) (i : Nat) (f : FieldDef) (t : IntTy)
    (hf : d.fields[i]? = some f) (he : f.isElem = true) (htext : f.attrs.text = false)
    (hty : f.ty = .opt (.simple (.int t)))
    (c : Node) (txt : Str) (hks : matching d i ks = [c]) (hc : c.content = [.text txt]) (z : Int) :
    vs[i]? = some (.some (.int z)) ↔ IntLiteral t txt z := by
  obtain ⟨w, hw, hv⟩ := h.scalarField hf he htext (t := .int t) (by rw [hty]; rfl)
  rw [hw, hks]  at *
  simp only [List.filterMap_cons, List.filterMap_nil, hc, scalarContent, fieldValue, hty] at hv
  cases hvis : visitS L (.int t) txt with
  | ok v =>
    obtain ⟨z', rfl, hz'⟩ := ((C23_int_literal L t txt v).1).mp hvis
    rw [hvis] at hv
    simp at hv
    subst hv
    constructor
    · intro hh; cases hh; exact hz'
    · intro hh
      rw [((C23_int_literal L t txt (.int z)).1).mpr ⟨z, rfl, hh⟩] at hvis
      cases hvis; rfl
  | error e =>
    rw [hvis] at hv
    simp at hv
    subst hv
    constructor
    · intro hh; cases hh
    · intro hh
      rw [((C23_int_literal L t txt (.int z)).1).mpr ⟨z, rfl, hh⟩] at hvis
      cases hvis

/-- C23 on documents: an attribute of an integer field makes the document rejected unless it is a
literal of the type. -/
theorem C23_int_attribute (L : Lib) (env : Env) (k : Nat) (p : Path) (d : StructDef)
    (s : Str) (n : Name) (as : List Attr) (m : NsMap) (ks : List Node) (vs : List Val)
    (h : OkDoc L env k p d s n as m ks vs)
    (i : Nat) (f : FieldDef) (t : IntTy) (hf : d.fields[i]? = some f) (ha : f.attrs.isAttr = true)
    (htext : f.attrs.text = false) (hty : f.ty = .simple (.int t))
    (pre post : List Attr) (a : Attr) (has : as = pre ++ a :: post)
    (hname : a.name.loc = f.attrs.rename.getD f.ident)
    (hlast : ∀ b ∈ post, b.name.loc ≠ f.attrs.rename.getD f.ident) :
    ∃ z, vs[i]? = some (.int z) ∧ IntLiteral t a.value z := by
  obtain ⟨v, h1, h2⟩ := (C13_attribute_value_partial L env k p d s n as m ks vs h i f (.int t) hf ha htext pre post a has
    hname hlast).1 hty
  obtain ⟨z, rfl, hz⟩ := ((C23_int_literal L t a.value v).1).mp h2
  exact ⟨z, h1, hz⟩

example : IntLiteral .i8 c!"-0128" (-128) :=
  ⟨c!"0128", by simp, by unfold IsDigit; decide, by decide, .inr ⟨trivial, rfl, rfl⟩⟩
example (L : Lib) : ¬ ∃ v, visitS L (.int .u8) c!"256" = .ok v := by
  rintro ⟨v, h⟩; cases h
example : parseInt .u8 c!"-0" ≠ .ok 0 := by decide
example : parseInt .i8 c!"-0" = .ok 0 := by decide
example : parseInt .u8 c!"+255" = .ok 255 := by decide

/-- C24.  The text of a Boolean field or attribute of a struct is accepted iff it is `true`, `false`, `1`
or `0`. -/
theorem C24_bool_literal (L : Lib) (s : Str) (v : Val) :
    visitS L .bool s = .ok v ↔ ∃ b, v = .bool b ∧ BoolLiteral s b := by
  show (parseBool (mapIfBool s)).map Val.bool = .ok v ↔ _
  cases hp : parseBool (mapIfBool s) with
  | ok b =>
    constructor
    · intro h; cases h; exact ⟨b, rfl, (parseMapBool_iff s b).mp hp⟩
    · rintro ⟨b', rfl, h⟩
      rw [(parseMapBool_iff s b').mpr h] at hp
      cases hp; rfl
  | error e =>
    constructor
    · intro h; cases h
    · rintro ⟨b', rfl, h⟩
      rw [(parseMapBool_iff s b').mpr h] at hp
      cases hp

/-- C24 on documents: the attribute of a Boolean field. -/
theorem C24_bool_attribute (L : Lib) (env : Env) (k : Nat) (p : Path) (d : StructDef)
    (s : Str) (n : Name) (as : List Attr) (m : NsMap) (ks : List Node) (vs : List Val)
    (h : OkDoc L env k p d s n as m ks vs)
    (i : Nat) (f : FieldDef) (hf : d.fields[i]? = some f) (ha : f.attrs.isAttr = true)
    (htext : f.attrs.text = false) (hty : f.ty = .simple .bool)
    (pre post : List Attr) (a : Attr) (has : as = pre ++ a :: post)
    (hname : a.name.loc = f.attrs.rename.getD f.ident)
    (hlast : ∀ b ∈ post, b.name.loc ≠ f.attrs.rename.getD f.ident) :
    ∃ b, vs[i]? = some (.bool b) ∧ BoolLiteral a.value b := by
  obtain ⟨v, h1, h2⟩ := (C13_attribute_value_partial L env k p d s n as m ks vs h i f .bool hf ha htext pre post a has
    hname hlast).1 hty
  obtain ⟨z, rfl, hz⟩ := (C24_bool_literal L a.value v).mp h2
  exact ⟨z, h1, hz⟩

/-- C24 on documents: a child element of an `Option<bool>` field. -/
theorem C24_bool_element (L : Lib) (env : Env) (k : Nat) (p : Path) (d : StructDef) (s : Str) (n : Name)
    (as : List Attr) (m : NsMap) (ks : List Node) (vs : List Val)
    (h : OkDoc L env k p d s n as m ks vs) (i : Nat) (f : FieldDef)
    (hf : d.fields[i]? = some f) (he : f.isElem = true) (htext : f.attrs.text = false)
    (hty : f.ty = .opt (.simple .bool))
    (c : Node) (txt : Str) (hks : matching d i ks = [c]) (hc : c.content = [.text txt]) (z : Bool) :
    vs[i]? = some (.some (.bool z)) ↔ BoolLiteral txt z := by
  obtain ⟨w, hw, hv⟩ := h.scalarField hf he htext (t := .bool) (by rw [hty]; rfl)
  rw [hw, hks]  at *
  simp only [List.filterMap_cons, List.filterMap_nil, hc, scalarContent, fieldValue, hty] at hv
  cases hvis : visitS L .bool txt with
  | ok v =>
    obtain ⟨z', rfl, hz'⟩ := (C24_bool_literal L txt v).mp hvis
    rw [hvis] at hv
    simp at hv
    subst hv
    constructor
    · intro hh; cases hh; exact hz'
    · intro hh
      rw [(C24_bool_literal L txt (.bool z)).mpr ⟨z, rfl, hh⟩] at hvis
      cases hvis; rfl
  | error e =>
    rw [hvis] at hv
    simp at hv
    subst hv
    constructor
    · intro hh; cases hh
    · intro hh
      rw [(C24_bool_literal L txt (.bool z)).mpr ⟨z, rfl, hh⟩] at hvis
      cases hvis

example (L : Lib) : visitS L .bool c!"0" = .ok (.bool false) := (C24_bool_literal L _ _).mpr ⟨_, rfl, .inr ⟨rfl, .inr rfl⟩⟩
example (L : Lib) : ¬ ∃ v, visitS L .bool c!"TRUE" = .ok v := by
  rintro ⟨v, h⟩
  obtain ⟨b, -, ⟨-, h | h⟩ | ⟨-, h | h⟩⟩ := (C24_bool_literal L _ _).mp h <;> cases h

/-- The Boolean payload of an enum variant, in contrast, does not accept `1` and `0`. -/
theorem C24_enum_bool (L : Lib) : ¬ ∃ v, parseS L .bool c!"1" = .ok v := by rintro ⟨v, h⟩; cases h

namespace Sample
open Tests

def switch : StructDef :=
  { name := c!"Switch", fields := [F c!"on" B attr, F c!"off" (O B), F c!"level" (O (I .i8)), F c!"id" (I .u32) attr] }
def env3 : Env := envOf [([c!"Switch"], .struct switch)]
def kids3 : List Node := [el c!"off" [tx c!"0"], el c!"level" [tx c!"-128"]]
def text3 : Str := c!"<Switch on=\"1\" id=\"+07\"><off>0</off><level>-128</level></Switch>"
def val3 : List Val := [.bool true, .some (.bool false), .some (.int (-128)), .int 7]

theorem ok3 : OkDoc lib env3 0 [c!"Switch"] switch text3 ⟨c!"Switch", none, none⟩
    [⟨⟨c!"on", none, none⟩, c!"1"⟩, ⟨⟨c!"id", none, none⟩, c!"+07"⟩] [] kids3 val3 where
  isStruct := rfl
  doc := ⟨[], by decide +kernel⟩
  conf := by
    refine .inl ?_
    rw [ConfN, ConfWith, show env3 [c!"Switch"] = some (.struct switch) from rfl]
    refine ⟨⟨?_, ?_, ?_⟩, .inr (by decide), ?_, ?_, ?_⟩
    iterate 3
      intro f hf
      simp only [switch, List.mem_cons, List.not_mem_nil, or_false] at hf
      rcases hf with rfl | rfl | rfl | rfl <;> simp [F, FTy.core, B, I, O, attr]
    · have hn : switch.hasFlat = false := by decide
      simp only [kids3, ConfKids, and_true, el, ConfKid]
      refine ⟨⟨by simp, fun i f hi hf => ⟨fun t _ => ⟨trivial, fun h => (not_hasFlat _ hn h).elim⟩, fun q hq => ?_⟩⟩,
        ⟨by simp, fun i f hi hf => ⟨fun t _ => ⟨trivial, fun h => (not_hasFlat _ hn h).elim⟩, fun q hq => ?_⟩⟩⟩
      · rw [show switch.fieldFor ⟨c!"off", none, none⟩ = some 1 by decide] at hi
        cases hi; cases hf; cases hq
      · rw [show switch.fieldFor ⟨c!"level", none, none⟩ = some 2 by decide] at hi
        cases hi; cases hf; cases hq
    · intro f hf h1 h2
      exact (not_hasFlat switch (by decide) ⟨f, hf, h1, h2⟩).elim
    · intro f hf _ q hq
      simp only [switch, List.mem_cons, List.not_mem_nil, or_false] at hf
      rcases hf with rfl | rfl | rfl | rfl <;> simp [F, FTy.core, B, I, O] at hq
  returns := returns_of_deOk (by decide +kernel)

example : val3[2]? = some (.some (.int (-128))) ↔ IntLiteral .i8 c!"-128" (-128) :=
  C23_int_element _ _ _ _ _ _ _ _ _ _ _ ok3 2 _ .i8 rfl rfl rfl rfl (el c!"level" [tx c!"-128"]) _ rfl rfl _
example : ∃ z, val3[3]? = some (.int z) ∧ IntLiteral .u32 c!"+07" z :=
  C23_int_attribute _ _ _ _ _ _ _ _ _ _ _ ok3 3 _ .u32 rfl rfl rfl rfl [_] [] _ rfl rfl (by simp)
example : val3[1]? = some (.some (.bool false)) ↔ BoolLiteral c!"0" false :=
  C24_bool_element _ _ _ _ _ _ _ _ _ _ _ ok3 1 _ rfl rfl rfl rfl (el c!"off" [tx c!"0"]) _ rfl rfl _
example : ∃ b, val3[0]? = some (.bool b) ∧ BoolLiteral c!"1" b :=
  C24_bool_attribute _ _ _ _ _ _ _ _ _ _ _ ok3 0 _ rfl rfl rfl rfl [] [_] _ rfl rfl (by decide)

end Sample

/-- C51.  Reading the text of an integer of any of the eight types, or of a Boolean, gives the value back —
as a struct's field and as an enum's payload. -/
theorem C51_scalar_round_trip (L : Lib) :
    (∀ (t : IntTy) (z : Int), t.Fits z →
      visitS L (.int t) (showS L (.int z)) = .ok (.int z) ∧ parseS L (.int t) (showS L (.int z)) = .ok (.int z)) ∧
    ∀ b, visitS L .bool (showS L (.bool b)) = .ok (.bool b) ∧ parseS L .bool (showS L (.bool b)) = .ok (.bool b) := by
  refine ⟨fun t z hz => ?_, fun b => ?_⟩
  · have : parseS L (.int t) (showS L (.int z)) = .ok (.int z) := by
      show (parseInt t (showInt z)).map Val.int = _
      rw [parseInt_showInt t z hz]; rfl
    exact ⟨this, this⟩
  · cases b <;> exact ⟨rfl, rfl⟩

example (L : Lib) : parseS L (.int .i64) (showS L (.int (-9223372036854775808))) = .ok (.int (-9223372036854775808)) :=
  ((C51_scalar_round_trip L).1 .i64 _ (by decide)).2

end Yaserde
