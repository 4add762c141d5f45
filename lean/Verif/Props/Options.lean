import Verif.Proofs.Options
import Verif.Props.Sample
/-
C95: which options of a definition reading depends on, and which options writing depends on.
-/

set_option autoImplicit false
set_option maxRecDepth 100000

namespace Yaserde

/-- **C95, reading**: programs that agree in what `FieldDef.ReadAlike` and its companions list read every text alike, step by step. -/
theorem C95_reading (L : Lib) {env env' : Env} (h : env.ReadAlike env') (p : Path) (s : Str) :
    (∀ n, deFromStr L env n p s = deFromStr L env' n p s) ∧ ∀ r, Returns L env p s r ↔ Returns L env' p s r := by
  have h1 : ∀ n, deFromStr L env n p s = deFromStr L env' n p s := by
    intro n
    unfold deFromStr fromStr
    rw [deser_alike L h]
  refine ⟨h1, fun r => ?_⟩
  unfold Returns
  simp only [h1]

/-- **C95, writing**: programs that agree in what `FieldDef.WriteAlike` and its companions list write every value alike: the same events,
with the same outcome, whatever the output does; with whatever hand-written implementations there are. -/
theorem C95_writing (L : Lib) {env env' : Env} (h : env.WriteAlike env') (p : Path) (v : Val) :
    (∀ io, serializeWithWriter L env p v io = serializeWithWriter L env' p v io) ∧
    (∀ c, toStringWithConfig L env c p v = toStringWithConfig L env' c p v) ∧
    toStringContent L env p v = toStringContent L env' p v ∧
    ∀ user n c, toStringU L env user n c p v = toStringU L env' user n c p v := by
  have h1 : ∀ io, serializeWithWriter L env p v io = serializeWithWriter L env' p v io := by
    intro io
    unfold serializeWithWriter
    rw [serTy_alike L h]
  refine ⟨h1, fun c => ?_, ?_, fun user n c => ?_⟩
  · unfold toStringWithConfig
    rw [h1]
  · unfold toStringContent
    rw [serTy_alike L h]
  · unfold toStringU serU
    rw [serB_alike L h]

/-- **C95**: `skip_serializing`, `skip_serializing_if` and `cdata` can be set or dropped on any field, and every text is read as
before. -/
theorem C95_written_only (L : Lib) (env : Env) (skip cdata : FieldDef → Bool) (skipIf : FieldDef → Option (Val → Val → Bool))
    (p : Path) (s : Str) (r : Res Val) :
    Returns L (env.mapFields (FieldDef.mark skip cdata skipIf)) p s r ↔ Returns L env p s r :=
  (C95_reading L (mapFields_read (g := FieldDef.mark skip cdata skipIf) (fun _ =>
    ⟨rfl, rfl, rfl, fun _ => rfl, fun _ => rfl, fun _ _ => rfl, fun _ => ⟨rfl, fun _ => rfl⟩⟩) env) p s).2 r

/-- **C95**: the value of `default` matters to reading only; writing depends on the comparison with it. -/
theorem C95_read_only (L : Lib) (env : Env) (val : FieldDef → Val) (c : Config) (p : Path) (v : Val) :
    toStringWithConfig L (env.mapFields (FieldDef.fallback val)) c p v = toStringWithConfig L env c p v := by
  refine (C95_writing L (mapFields_write (g := FieldDef.fallback val) (fun root f =>
    ⟨rfl, rfl, fun _ => rfl, fun _ => rfl, fun _ _ => rfl, fun _ _ _ => rfl, fun _ => rfl, fun _ => ?_, fun _ => rfl⟩) env) p v).2.1 c
  show (f.dflt.map _).map Dflt.ne = _
  rw [Option.map_map]
  rfl

/-- **C95**: on `Option` and `Vec` fields `default` does nothing to reading: with any other default, or none, every text is read as
before. -/
theorem C95_never_missing (L : Lib) (env : Env) (dflt : FieldDef → Option Dflt) (p : Path) (s : Str) (r : Res Val) :
    Returns L (env.mapFields (FieldDef.refill dflt)) p s r ↔ Returns L env p s r := by
  refine (C95_reading L (mapFields_read (g := FieldDef.refill dflt) (fun f => ?_) env) p s).2 r
  unfold FieldDef.refill
  rcases hm : f.ty.neverMissing with _ | _
  · exact ⟨rfl, rfl, rfl, fun _ => rfl, fun _ => rfl, fun _ _ => rfl, fun _ => ⟨rfl, fun _ => rfl⟩⟩
  · exact ⟨rfl, rfl, rfl, fun _ => rfl, fun _ => rfl, fun _ _ => rfl, fun h => (by rw [if_pos rfl] at h; exact absurd (hm.symm.trans h) (by decide))⟩

/-- The field with other `skip_serializing` and `cdata`, if it is an attribute or text. -/
def FieldDef.markInline (skip cdata : FieldDef → Bool) (f : FieldDef) : FieldDef :=
  if f.attrs.isAttr || f.attrs.text then f.mark skip cdata FieldDef.skipIf else f

/-- **C95**: on attributes and on text fields `skip_serializing` and `cdata` have no effect at all. -/
theorem C95_ignored (L : Lib) (env : Env) (skip cdata : FieldDef → Bool) (p : Path) :
    (∀ c v, toStringWithConfig L (env.mapFields (FieldDef.markInline skip cdata)) c p v = toStringWithConfig L env c p v) ∧
    ∀ s r, Returns L (env.mapFields (FieldDef.markInline skip cdata)) p s r ↔ Returns L env p s r := by
  constructor
  · intro c v
    refine (C95_writing L (mapFields_write (g := FieldDef.markInline skip cdata) (fun root f => ?_) env) p v).2.1 c
    unfold FieldDef.markInline
    by_cases hm : (f.attrs.isAttr || f.attrs.text) = true
    · rw [if_pos hm]
      have hno : f.attrs.isAttr = false → f.attrs.text = false → False := fun ha ht => by simp [ha, ht] at hm
      exact ⟨rfl, rfl, fun _ => rfl, fun _ => rfl, fun ha ht => (hno ha ht).elim, fun ha ht => (hno ha ht).elim,
        fun _ => rfl, fun _ => rfl, fun _ => rfl⟩
    · rw [if_neg hm]
      exact ⟨rfl, rfl, fun _ => rfl, fun _ => rfl, fun _ _ => rfl, fun _ _ _ => rfl, fun _ => rfl, fun _ => rfl, fun _ => rfl⟩
  · intro s r
    refine (C95_reading L (mapFields_read (g := FieldDef.markInline skip cdata) (fun f => ?_) env) p s).2 r
    unfold FieldDef.markInline
    by_cases hm : (f.attrs.isAttr || f.attrs.text) = true
    · rw [if_pos hm]
      exact ⟨rfl, rfl, rfl, fun _ => rfl, fun _ => rfl, fun _ _ => rfl, fun _ => ⟨rfl, fun _ => rfl⟩⟩
    · rw [if_neg hm]
      exact ⟨rfl, rfl, rfl, fun _ => rfl, fun _ => rfl, fun _ _ => rfl, fun _ => ⟨rfl, fun _ => rfl⟩⟩

/-! #### A program, one that is read alike, and one that is written alike -/

namespace OptionsSample
open Tests

theorem envOf_alike {R : TypeDef → TypeDef → Prop} {l l' : List (Path × TypeDef)}
    (h : List.Forall₂ (fun e e' => e.1 = e'.1 ∧ R e.2 e'.2) l l') (p : Path) :
    (envOf l p = none ∧ envOf l' p = none) ∨ ∃ b b', envOf l p = some b ∧ envOf l' p = some b' ∧ R b b' := by
  unfold envOf
  induction h with
  | nil => exact .inl ⟨rfl, rfl⟩
  | @cons e e' l l' he _ ih =>
    rw [List.find?_cons, List.find?_cons, ← he.1]
    rcases e.1 == p with _ | _
    · exact ih
    · exact .inr ⟨_, _, rfl, rfl, he.2⟩

def meta' : Path × TypeDef := mkS c!"Meta" [F c!"year" (O (I .u16))]

/-- An attribute, an element with a default, a flattened struct, an optional element, and text. -/
def plain : Env := envOf [
  mkS c!"Doc" [
    F c!"id" (I .u8) attr,
    { ident := c!"title", ty := Tests.S, attrs := rn c!"t", dflt := some ⟨s c!"none", fun v => !v.beq (s c!"none")⟩ },
    F c!"meta" (T c!"Meta") flat,
    F c!"note" (O Tests.S),
    F c!"tags" (V Tests.S),
    F c!"body" Tests.S { text := true }],
  meta']

/-- Other options for writing; other prefixes, names and defaults where reading does not look at them. -/
def reads : Env := envOf [
  mkS c!"Doc" [
    F c!"id" (I .u8) { isAttr := true, skipSer := true, cdata := true, pfx := some c!"x", flatten := true },
    { ident := c!"t", ty := Tests.S, attrs := { skipSer := true, cdata := true }, dflt := some ⟨s c!"none", fun _ => false⟩ },
    F c!"meta" (T c!"Meta") { flatten := true, rename := some c!"zzz", pfx := some c!"y" },
    { ident := c!"note", ty := O Tests.S, dflt := some ⟨.some (s c!"n"), fun _ => true⟩, skipIf := some fun _ _ => true },
    { ident := c!"tags", ty := V Tests.S, dflt := some ⟨.vec [s c!"n"], fun _ => true⟩ },
    { ident := c!"body", ty := Tests.S, attrs := { text := true }, skipIf := some fun _ _ => true }]
    { defaultNs := some c!"d" },
  meta']

/-- Other names, conditions and defaults where writing does not look at them. -/
def writes : Env := envOf [
  ([c!"Doc"], .struct { name := c!"Document", attrs := rn c!"Doc", fields := [
    F c!"id" (I .u8) { isAttr := true, skipSer := true, cdata := true, text := true, flatten := true },
    { ident := c!"t", ty := Tests.S, dflt := some ⟨s c!"other", fun v => !v.beq (s c!"none")⟩ },
    F c!"info" (T c!"Meta") { flatten := true, rename := some c!"meta" },
    F c!"note" (O Tests.S),
    F c!"tags" (V Tests.S),
    { ident := c!"content", ty := Tests.S, attrs := { text := true, skipSer := true, cdata := true, rename := some c!"c" },
      dflt := some ⟨s c!"", fun _ => false⟩, skipIf := some fun _ _ => true }] }),
  meta']

theorem readAlike : plain.ReadAlike reads := by
  refine envOf_alike (.cons ⟨rfl, .struct ⟨rfl, rfl, rfl⟩ rfl rfl ?_⟩ (.cons ⟨rfl, readAlike_refl _⟩ .nil))
  refine .cons ?_ (.cons ?_ (.cons ?_ (.cons ?_ (.cons ?_ (.cons ?_ .nil)))))
  · exact ⟨rfl, rfl, rfl, fun h => (by cases h), fun _ => rfl, fun h => (by cases h), fun _ => ⟨rfl, fun _ => rfl⟩⟩
  · exact ⟨rfl, rfl, rfl, fun _ => rfl, fun _ => rfl, fun _ _ => rfl, fun _ => ⟨rfl, fun h => (by cases h)⟩⟩
  · exact ⟨rfl, rfl, rfl, fun _ => rfl, fun h => (by rcases h with h | h <;> cases h), fun _ h => (by cases h), fun _ => ⟨rfl, fun _ => rfl⟩⟩
  · exact ⟨rfl, rfl, rfl, fun _ => rfl, fun _ => rfl, fun _ _ => rfl, fun h => (by cases h)⟩
  · exact ⟨rfl, rfl, rfl, fun _ => rfl, fun _ => rfl, fun _ _ => rfl, fun h => (by cases h)⟩
  · exact ⟨rfl, rfl, rfl, fun _ => rfl, fun _ => rfl, fun _ _ => rfl, fun _ => ⟨rfl, fun _ => rfl⟩⟩

theorem writeAlike : plain.WriteAlike writes := by
  refine envOf_alike (.cons ⟨rfl, .struct ⟨rfl, rfl, rfl⟩ rfl ?_⟩ (.cons ⟨rfl, writeAlike_refl _⟩ .nil))
  refine .cons ?_ (.cons ?_ (.cons ?_ (.cons ?_ (.cons ?_ (.cons ?_ .nil)))))
  · exact ⟨rfl, rfl, fun h => (by cases h), fun h => (by cases h), fun h => (by cases h), fun h => (by cases h),
      fun _ => rfl, fun _ => rfl, fun _ => rfl⟩
  · exact ⟨rfl, rfl, fun _ => rfl, fun _ => rfl, fun _ _ => rfl, fun _ _ _ => rfl, fun _ => rfl, fun _ => rfl, fun _ => rfl⟩
  · exact ⟨rfl, rfl, fun _ => rfl, fun _ => rfl, fun _ _ => rfl, fun _ _ _ => rfl, fun _ => rfl, fun _ => rfl, fun _ => rfl⟩
  · exact ⟨rfl, rfl, fun _ => rfl, fun _ => rfl, fun _ _ => rfl, fun _ _ _ => rfl, fun _ => rfl, fun _ => rfl, fun _ => rfl⟩
  · exact ⟨rfl, rfl, fun _ => rfl, fun _ => rfl, fun _ _ => rfl, fun _ _ _ => rfl, fun _ => rfl, fun _ => rfl, fun _ => rfl⟩
  · exact ⟨rfl, rfl, fun _ => rfl, fun _ => rfl, fun _ h => (by cases h), fun _ h => (by cases h),
      fun h => (by rcases h with h | ⟨h, _⟩ <;> cases h), fun h => (by rcases h with h | ⟨h, _⟩ <;> cases h),
      fun h => (by rcases h with h | ⟨h, _⟩ <;> cases h)⟩

def text : Str := c!"<Doc id=\"7\"><t>T</t><year>1999</year>hello</Doc>"
def value : Val := .struct [i 7, s c!"T", .struct [.some (i 1999)], .none, .vec [], s c!"hello"]

/-- The text is read as the same value by the first two programs. -/
example : Returns lib reads [c!"Doc"] text (.ok value) :=
  ((C95_reading lib readAlike [c!"Doc"] text).2 _).1 (returns_of_deOk (by decide +kernel))

/-- The value is written in the same way by the first and the third. -/
example : toString lib writes [c!"Doc"] value =
    .ok c!"<?xml version=\"1.0\" encoding=\"utf-8\"?><Doc id=\"7\"><t>T</t><year>1999</year>hello</Doc>" :=
  ((C95_writing lib writeAlike [c!"Doc"] value).2.1 {}).symm.trans (by decide +kernel)

/-- The second writes other documents, and the third reads others: there the options do matter. -/
example : toString lib reads [c!"Doc"] value =
      .ok c!"<?xml version=\"1.0\" encoding=\"utf-8\"?><Doc x:id=\"7\"><year>1999</year>hello</Doc>" ∧
    Returns lib plain [c!"Doc"] c!"<Doc id=\"7\">hello</Doc>"
      (.ok (.struct [i 7, s c!"none", .struct [.none], .none, .vec [], s c!"hello"])) ∧
    Returns lib writes [c!"Doc"] c!"<Doc id=\"7\">hello</Doc>"
      (.ok (.struct [i 7, s c!"other", .struct [.none], .none, .vec [], s c!"hello"])) :=
  ⟨by decide +kernel, returns_of_deOk (by decide +kernel), returns_of_deOk (by decide +kernel)⟩

/-- A struct with one field, in a program with a further struct. -/
def one (a : Attrs) (dflt : Option Dflt := none) (skipIf : Option (Val → Val → Bool) := none) (ty : FTy := O Tests.S) : Env := envOf [
  mkS c!"S" [{ ident := c!"a", ty, attrs := a, dflt, skipIf }] { namespaces := [(c!"n", c!"u")] },
  mkS c!"C" [F c!"b" (O Tests.S)]]

/-- A list and an `Option` stay empty whatever their `default`. -/
example : Returns lib ((one {} none none (V Tests.S)).mapFields (FieldDef.refill fun _ => some ⟨.vec [s c!"x"], fun _ => true⟩)) [c!"S"]
    c!"<S/>" (.ok (.struct [.vec []])) :=
  (C95_never_missing lib _ _ _ _ _).2 (returns_of_deOk (by decide +kernel))

/-- What the field is read as. -/
def reading (env : Env) (text : Str) (v : Val) : Bool := deOk env c!"S" text (.struct [v])

end OptionsSample

open Tests OptionsSample in
/-- **C95** leaves nothing out for reading: a field read with and without `attribute`, `text`, a new name, a prefix, `flatten`, and with
another default. -/
theorem C95_reading_sharp :
    (reading (one {}) c!"<S a=\"1\"/>" .none && reading (one attr) c!"<S a=\"1\"/>" (.some (s c!"1"))) = true ∧
    (reading (one {}) c!"<S>1</S>" .none && reading (one { text := true }) c!"<S>1</S>" (.some (s c!"1"))) = true ∧
    (reading (one {}) c!"<S><a>1</a></S>" (.some (s c!"1")) && reading (one (rn c!"b")) c!"<S><a>1</a></S>" .none) = true ∧
    (reading (one {}) c!"<S><n:a xmlns:n=\"u\">1</n:a></S>" .none &&
      reading (one { pfx := some c!"n" }) c!"<S><n:a xmlns:n=\"u\">1</n:a></S>" (.some (s c!"1"))) = true ∧
    (reading (one {} none none (O (T c!"C"))) c!"<S><b>1</b></S>" .none &&
      reading (one flat none none (O (T c!"C"))) c!"<S><b>1</b></S>" (.some (.struct [.some (s c!"1")]))) = true ∧
    (reading (one {} (some ⟨s c!"1", fun _ => true⟩) none Tests.S) c!"<S/>" (s c!"1") &&
      reading (one {} (some ⟨s c!"2", fun _ => true⟩) none Tests.S) c!"<S/>" (s c!"2")) = true := by
  decide +kernel

open Tests OptionsSample in
/-- And for writing: `attribute`, `text`, a new name, a prefix, `skip_serializing`, `cdata`, `skip_serializing_if`, the comparison with
the default, and `flatten`. -/
theorem C95_writing_sharp :
    serOk (one {} none none Tests.S) c!"S" (.struct [s c!"1"]) c!"<S xmlns:n=\"u\"><a>1</a></S>" = true ∧
    serOk (one attr none none Tests.S) c!"S" (.struct [s c!"1"]) c!"<S xmlns:n=\"u\" a=\"1\" />" = true ∧
    serOk (one { text := true } none none Tests.S) c!"S" (.struct [s c!"1"]) c!"<S xmlns:n=\"u\">1</S>" = true ∧
    serOk (one (rn c!"b") none none Tests.S) c!"S" (.struct [s c!"1"]) c!"<S xmlns:n=\"u\"><b>1</b></S>" = true ∧
    serOk (one { pfx := some c!"n" } none none Tests.S) c!"S" (.struct [s c!"1"]) c!"<S xmlns:n=\"u\"><n:a>1</n:a></S>" = true ∧
    serOk (one { skipSer := true } none none Tests.S) c!"S" (.struct [s c!"1"]) c!"<S xmlns:n=\"u\" />" = true ∧
    serOk (one { cdata := true } none none Tests.S) c!"S" (.struct [s c!"1"]) c!"<S xmlns:n=\"u\"><a><![CDATA[1]]></a></S>" = true ∧
    serOk (one {} none (some fun _ _ => true) Tests.S) c!"S" (.struct [s c!"1"]) c!"<S xmlns:n=\"u\" />" = true ∧
    serOk (one {} (some ⟨s c!"2", fun _ => false⟩) none Tests.S) c!"S" (.struct [s c!"1"]) c!"<S xmlns:n=\"u\" />" = true ∧
    serOk (one {} none none (T c!"C")) c!"S" (.struct [.struct [.some (s c!"1")]]) c!"<S xmlns:n=\"u\"><a><b>1</b></a></S>" = true ∧
    serOk (one flat none none (T c!"C")) c!"S" (.struct [.struct [.some (s c!"1")]]) c!"<S xmlns:n=\"u\"><b>1</b></S>" = true := by
  decide +kernel

end Yaserde
