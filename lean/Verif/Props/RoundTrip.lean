import Verif.Proofs.Leaf
import Verif.Tests.Trip
import Verif.Proofs.XmlLaw
/-
Properties of writing followed by reading: C43, C44, C50-C60.

`XmlLaw L` is the assumption about the XML library: a tree that can be written as XML text is read back.  It is proved for
the writer and reader modelled in `Model/XmlText.lean` (`XmlText.xmlLaw`), which the examples use.
-/

set_option autoImplicit false
set_option maxRecDepth 100000

namespace Yaserde

theorem Tests.xml : XmlLaw Tests.lib := XmlText.xmlLaw Tests.lib rfl rfl

theorem roundTrips_of {L : Lib} {env : Env} {p : Path} {v : Val}
    (h : ∃ s, toString L env p v = .ok s ∧ Returns L env p s (.ok v)) : RoundTrips L env p v := by
  obtain ⟨s, h1, h2⟩ := h
  exact ⟨s, h1, fun r => ⟨fun h => (C27_budget_irrelevant L env p s).2 _ _ h h2, fun h => h ▸ h2⟩⟩

theorem roundTrips_iff {L : Lib} {env : Env} {p : Path} {v : Val} {s : Str} (hs : toString L env p v = .ok s) :
    RoundTrips L env p v ↔ Returns L env p s (.ok v) := by
  constructor
  · rintro ⟨s', h1, h2⟩
    rw [hs] at h1
    cases h1
    exact (h2 _).mpr rfl
  · exact fun h => roundTrips_of ⟨s, hs, h⟩

/-! ### C50 -/

/-- Newtypes over integers: `FromStr` inverts `Display`. -/
theorem C52_primitive_int (L : Lib) (name : Str) (t : IntTy) : Inverts (.primitive L name (.int t)) := by
  refine ⟨rfl, fun v hv => ?_⟩
  cases v with
  | int z =>
    simp only [PrimDef.primitive, STy.holds, Bool.and_eq_true, decide_eq_true_eq] at hv
    have := payload_of_tame (L := L) (env := fun _ => none) (.int t z ((fits_iff t z).mpr hv)) (by simp [Val.Tame])
    exact ⟨this.chars, this.parses⟩
  | str _ | bool _ | f32 _ | f64 _ | none | some _ | vec _ | struct _ | enum _ _ => simp [PrimDef.primitive, STy.holds] at hv

/-- Newtypes over `bool`. -/
theorem C52_primitive_bool (L : Lib) (name : Str) : Inverts (.primitive L name .bool) := by
  refine ⟨rfl, fun v hv => ?_⟩
  cases v with
  | bool b =>
    have := payload_of_tame (L := L) (env := fun _ => none) (.bool b) (by simp [Val.Tame])
    exact ⟨this.chars, this.parses⟩
  | str _ | int _ | f32 _ | f64 _ | none | some _ | vec _ | struct _ | enum _ _ => simp [PrimDef.primitive, STy.holds] at hv

/-- **C50** for programs without namespaces and flattened fields: structs (attributes, text, scalars, `Option`s, `Vec`s,
nested and recursive types), enums, and types with `Display` and `FromStr`; `default` and `skip_serializing_if` are allowed
where they leave out only what reading fills in.  Every value whose strings are non-empty and trimmed survives. -/
theorem C50_simple_partial {L : Lib} (hx : XmlLaw L) {env : Env} (hs : SimpleProgram env) (hw : Restores env)
    (hpr : ∀ p d, env p = some (.prim d) → Inverts d) {p : Path} (hroot : SimpleRoot env p) {v : Val}
    (hv : HasTy env (.struct p) v) (ht : v.Tame L) : RoundTrips L env p v :=
  roundTrips_of (roundtrip hx (rtOk_simple hs) (serOk_simple hs hw) (rootOk_simple hs hroot) hv
    (canon_of_tame hx (rtOk_simple hs) (carries_simple hs) (plainPayloads_simple hs) hw hpr hv ht) {} blank_default)

/-- **C50** for programs with namespaces and flattened fields: every value whose strings are non-empty and trimmed survives. -/
theorem C50_tame_partial {L : Lib} (hx : XmlLaw L) {env : Env} {G : NsMap} (hrt : RtOk env G) (hok : SerOk env)
    (hC : Carries env) (hP : PlainPayloads env) (hw : Restores env) (hpr : ∀ p d, env p = some (.prim d) → Inverts d) {p : Path}
    (hroot : RootOk env G p) {v : Val} (hv : HasTy env (.struct p) v) (ht : v.Tame L) : RoundTrips L env p v :=
  roundTrips_of (roundtrip hx hrt hok hroot hv (canon_of_tame hx hrt hC hP hw hpr hv ht) {} blank_default)

namespace Trip
open Tests

def hash : PrimDef := .primitive lib c!"Hash" (.int .u64)
/-- Two mutually recursive structs, an enum, a newtype. -/
def prog : List (Path × TypeDef) :=
  [mkS c!"Dir" [F c!"name" Tests.S attr, F c!"mode" (O (I .u16)) attr, F c!"entry" (V (T c!"Entry")),
      F c!"note" (O Tests.S) { text := true }],
   mkS c!"Entry" [F c!"file" (O Tests.S), F c!"dir" (O (T c!"Dir")), F c!"kind" (T c!"Kind"), F c!"hash" (V (T c!"Hash"))],
   mkE c!"Kind" [vU c!"Plain", vN c!"Link" Tests.S, vN c!"Meta" (T c!"Info"), vN c!"Size" (I .u64)] (.enum 0 []),
   mkS c!"Info" [F c!"a" (I .i32), F c!"b" B],
   ([c!"Hash"], .prim hash)]

def env : Env := envOf prog

theorem inverts_hash : Inverts hash := C52_primitive_int lib _ _

theorem prims : ∀ p d, env p = some (.prim d) → Inverts d := by
  intro p d hp
  have := mem_envOf hp
  simp only [prog, mkS, mkE, List.mem_cons, Prod.mk.injEq, List.not_mem_nil, or_false, reduceCtorEq, and_false, false_or,
    TypeDef.prim.injEq] at this
  rw [this.2]
  exact inverts_hash

theorem simple : SimpleProgram env := simple_of_check prog (by decide +kernel)
theorem writesAll : WritesAll env := writesAll_of_check prog (by decide +kernel)

def leafDir : Val := .struct [.str c!"sub", .none, .vec [], .none]
def val : Val :=
  .struct [.str c!"top dir", .some (.int 493),
    .vec [.struct [.some (.str c!"a < b & c"), .none, .enum 0 [], .vec [.int 18446744073709551615, .int 0]],
          .struct [.none, .some leafDir, .enum 2 [.struct [.int (-5), .bool true]], .vec []],
          .struct [.some (.str c!"]]>"), .some leafDir, .enum 1 [.str c!"target"], .vec []]],
    .some (.str c!"a \"note\"")]

example : RoundTrips lib env [c!"Dir"] val :=
  C50_simple_partial xml simple (restores_of_writesAll writesAll) prims (simpleRoot_of_check (by decide +kernel))
    (hasTy_of_check env (T c!"Dir") val (by decide +kernel)) (tame_of_check lib val (by decide +kernel))

end Trip

/-- **C50**, in general: with namespaces and flattened fields.  `RtOk` and `RootOk` are conditions on the names in the program,
`Canon` on the value; what they rule out is shown below (`C50_false` etc.). -/
theorem C50_round_trip_partial {L : Lib} (hx : XmlLaw L) {env : Env} {G : NsMap} (hrt : RtOk env G) (hok : SerOk env) {p : Path}
    (hroot : RootOk env G p) {v : Val} (hv : HasTy env (.struct p) v) (hc : Canon L env (.struct p) v) : RoundTrips L env p v :=
  roundTrips_of (roundtrip hx hrt hok hroot hv hc {} blank_default)

section
open Tests

/-- A recursive struct: `struct N { kids: Vec<N>, p: Option<P> }`, `struct P { #[attribute] q: String }`. -/
def recursive : Env :=
  envOf [mkS c!"N" [F c!"kids" (V (T c!"N")), F c!"p" (O (T c!"P"))], mkS c!"P" [F c!"q" Tests.S attr]]

/-- **C50 is false** without the condition on names: the element `<kids>` is read as an `N`, whose own field `kids` takes
it for its first child.  The value is written as `<N><kids><p q="a" /></kids></N>`; its strings are fine. -/
theorem C50_false : ∃ (L : Lib) (env : Env) (p : Path) (v : Val), XmlLaw L ∧ SerOk env ∧ WritesAll env ∧
    HasTy env (.struct p) v ∧ v.Tame L ∧ ¬ RoundTrips L env p v := by
  refine ⟨lib, recursive, [c!"N"], .struct [.vec [.struct [.vec [], .some (.struct [.str c!"a"])]], .none], xml, ?_, ?_, ?_, ?_, ?_⟩
  · exact serOk_of_all _ (by decide)
  · exact writesAll_of_check _ (by decide)
  · exact hasTy_of_check _ (T c!"N") _ (by decide)
  · exact tame_of_check _ _ (by decide)
  · exact misread (.struct [.vec [.struct [.vec [.struct [.vec [], .none]], .none]], .none]) (by decide +kernel) (by decide)

end

/-! ### C52: types with `Display` and `FromStr` -/

/-- **C52.** A value of such a type survives exactly if `FromStr` gets it back from its text without the white space at the
ends. -/
theorem C52_iff {L : Lib} (hx : XmlLaw L) {env : Env} (hok : SerOk env) {p : Path} {d : PrimDef} (hp : env p = some (.prim d))
    (hf : d.bare = false) (hn : isNCName d.name = true) {v : Val} (hd : d.dom v = true) (ht : isText (d.toStr v) = true) :
    RoundTrips L env p v ↔ d.fromStr (trimSpace (d.toStr v)) = .ok v := by
  have h := toString_eq (L := L) hok (.prim p d v hp hd) {}
  rw [roundTrips_iff h, show encTy L env .root p v = [leaf d.name (d.toStr v)] by
    rw [encTy.eq_def, hp]; simp [wrap, Place.root, leaf, hf], WNode.eventsL_single]
  exact prim_ok hx hp hn ht _ blank_default v

/-- In particular, every value does if `FromStr` inverts `Display` and there is no white space at the ends; fields of the type
are covered by `C50_simple_partial`. -/
theorem C52_round_trip {L : Lib} (hx : XmlLaw L) {env : Env} (hok : SerOk env) {p : Path} {d : PrimDef}
    (hp : env p = some (.prim d)) (hn : isNCName d.name = true) (hinv : Inverts d) {v : Val} (hd : d.dom v = true) :
    RoundTrips L env p v :=
  (C52_iff hx hok hp hinv.1 hn hd (hinv.2 v hd).1).mpr (hinv.2 v hd).2

example : RoundTrips Tests.lib Trip.env [c!"Hash"] (.int 18446744073709551615) :=
  C52_round_trip Tests.xml (serOk_simple Trip.simple (restores_of_writesAll Trip.writesAll)) rfl (by decide) Trip.inverts_hash
    (by decide)

/-- A type whose texts begin with a blank. -/
def blankFirst : PrimDef where
  name := c!"P"
  toStr _ := c!" a"
  fromStr s := if s = c!" a" then .ok (.str c!"a") else .error c!"no"
  dom v := v.beq (.str c!"a")

/-- **C52 is false** if the text begins or ends with white space. -/
theorem C52_false : ∃ (L : Lib) (env : Env) (p : Path) (d : PrimDef), XmlLaw L ∧ SerOk env ∧ env p = some (.prim d) ∧
    (∀ v, d.dom v = true → d.fromStr (d.toStr v) = .ok v) ∧ ∃ v, d.dom v = true ∧ ¬ RoundTrips L env p v := by
  have hok : SerOk (Tests.envOf [([c!"P"], .prim blankFirst)]) := Tests.serOk_of_all _ (by decide)
  refine ⟨Tests.lib, Tests.envOf [([c!"P"], .prim blankFirst)], [c!"P"], blankFirst, Tests.xml, hok, rfl, ?_, .str c!"a", ?_, ?_⟩
  · intro v hv
    rw [Val.eq_of_beq v _ hv]
    rfl
  · decide
  · rw [C52_iff Tests.xml hok rfl rfl (by decide) (by decide) (by decide),
      show blankFirst.fromStr (trimSpace (blankFirst.toStr (.str c!"a"))) = .error c!"no" from rfl]
    simp

/-! ### C53: hexadecimal output -/

/-- **C53 is false**: `HexBinaryYaSerde` writes hexadecimal digits and reads decimal ones; exactly the numbers below ten
survive. -/
theorem C53_iff {L : Lib} (hx : XmlLaw L) {env : Env} (hok : SerOk env) {p : Path} {name : Str} {t : IntTy} {mask : Nat}
    (hp : env p = some (.prim (.hexBinary name t mask))) (hn : isNCName name = true) (n : Nat) (hhi : (n : Int) ≤ t.hi)
    (hmask : n &&& mask = n) : RoundTrips L env p (.int n) ↔ n < 10 := by
  have hvis := showHex2_visible n
  have hclean := clean_of_visible hvis.1 fun c hc => by have := hvis.2 c hc; omega
  have hstr : (PrimDef.hexBinary name t mask).toStr (.int n) = showHex2 n := rfl
  rw [C52_iff hx hok hp rfl hn (by simp only [PrimDef.hexBinary, Bool.and_eq_true, decide_eq_true_eq]; exact ⟨hhi, hmask⟩)
    (by rw [hstr]; exact hclean.1.chars), hstr, hclean.1.trimmed, ← parse_showHex2 t n hhi]
  simp only [PrimDef.hexBinary]
  cases h : parseInt t (showHex2 n) with
  | error m => simp
  | ok z =>
    simp only [Except.ok.injEq]
    by_cases hz : z = n
    · subst hz
      simp [hmask]
    · simp only [hz, iff_false]
      split
      · intro h'
        simp only [Except.ok.injEq, Val.int.injEq] at h'
        exact hz h'
      · simp

def hexEnv : Env := Tests.envOf [([c!"Flags"], .prim (.hexBinary c!"Flags" .u8 255))]

example : RoundTrips Tests.lib hexEnv [c!"Flags"] (.int 9) :=
  (C53_iff Tests.xml (Tests.serOk_of_all _ (by decide)) (name := c!"Flags") (t := .u8) (mask := 255) rfl (by decide) 9 (by decide)
    (by decide)).mpr (by decide)

/-- 16 is written as `10`. -/
theorem C53_false : ∃ (L : Lib) (env : Env) (p : Path) (v : Val), XmlLaw L ∧ SerOk env ∧ HasTy env (.struct p) v ∧
    (∃ name t mask, env p = some (.prim (.hexBinary name t mask))) ∧ ¬ RoundTrips L env p v ∧
    ∃ s, toString L env p v = .ok s ∧ Returns L env p s (.ok (.int 10)) := by
  have hok : SerOk hexEnv := Tests.serOk_of_all _ (by decide)
  refine ⟨Tests.lib, hexEnv, [c!"Flags"], .int 16, Tests.xml, hok, .prim _ (.hexBinary c!"Flags" .u8 255) _ rfl (by decide),
    ⟨c!"Flags", .u8, 255, rfl⟩, ?_, ?_⟩
  · rw [show (16 : Int) = ((16 : Nat) : Int) from rfl,
      C53_iff Tests.xml hok (name := c!"Flags") (t := .u8) (mask := 255) rfl (by decide) 16 (by decide) (by decide)]
    decide
  · obtain ⟨s, h1, h2⟩ := Tests.trip_of_check (env := hexEnv) (p := c!"Flags") (v := .int 16)
      (test := fun s => Tests.deOk hexEnv c!"Flags" s (.int 10)) (by decide +kernel)
    exact ⟨s, h1, Tests.returns_of_deOk h2⟩

/-! ### C54: enums -/

/-- **C54.** Enums with unit variants and variants with one scalar, or one value of a type without attributes: as document
element; fields of these types, also inside `Option` and `Vec`, are covered by `C50_simple_partial`. -/
theorem C54_enum_partial {L : Lib} (hx : XmlLaw L) {env : Env} (hs : SimpleProgram env) (hw : Restores env)
    (hpr : ∀ p d, env p = some (.prim d) → Inverts d) {p : Path} {d : EnumDef} (hp : env p = some (.enum d))
    (hn : isNCName (d.attrs.rename.getD d.name) = true)
    (hne : ∀ v ∈ d.variants, v.attrs.rename.getD v.ident ≠ d.attrs.rename.getD d.name) {v : Val}
    (hv : HasTy env (.struct p) v) (ht : v.Tame L) : RoundTrips L env p v :=
  C50_simple_partial hx hs hw hpr
    ⟨_, hp, hn, ⟨fun e he => (by rw [hp] at he; cases he), fun e he => (by rw [hp] at he; cases he; exact hne)⟩⟩ hv ht

section
open Tests

example : RoundTrips lib Trip.env [c!"Kind"] (.enum 2 [.struct [.int (-5), .bool true]]) :=
  C54_enum_partial xml Trip.simple (restores_of_writesAll Trip.writesAll) Trip.prims rfl (by decide) (by decide +kernel)
    (hasTy_of_check _ (T c!"Kind") _ (by decide +kernel)) (tame_of_check _ _ (by decide +kernel))

example : RoundTrips lib Trip.env [c!"Entry"]
    (.struct [.none, .none, .enum 1 [.str c!"x y"], .vec []]) :=
  C50_simple_partial xml Trip.simple (restores_of_writesAll Trip.writesAll) Trip.prims (simpleRoot_of_check (by decide +kernel))
    (hasTy_of_check _ (T c!"Entry") _ (by decide +kernel)) (tame_of_check _ _ (by decide +kernel))

/-- `enum E { V(P) }` with `struct P { #[attribute] k: String }`. -/
def variantAttr : Env :=
  envOf [mkE c!"E" [vU c!"U", vN c!"V" (T c!"P")] (.enum 0 []), mkS c!"P" [F c!"k" Tests.S attr],
    mkS c!"A" [F c!"f" (T c!"E")]]

/-- **C54 is false** in general: attributes of the value inside a variant are not written. -/
theorem C54_false : ∃ (L : Lib) (env : Env) (p : Path) (v : Val), XmlLaw L ∧ SerOk env ∧ WritesAll env ∧
    HasTy env (.struct p) v ∧ v.Tame L ∧ ¬ RoundTrips L env p v := by
  refine ⟨lib, variantAttr, [c!"A"], .struct [.enum 1 [.struct [.str c!"a"]]], xml, ?_, ?_, ?_, ?_, ?_⟩
  · exact serOk_of_all _ (by decide)
  · exact writesAll_of_check _ (by decide)
  · exact hasTy_of_check _ (T c!"A") _ (by decide)
  · exact tame_of_check _ _ (by decide)
  · exact unreadable c!"k is a required field of P" (by decide +kernel)

/-- The variant `f` of a field `f`: the field's element is taken for the variant. -/
def variantField : Env :=
  envOf [mkE c!"E" [vU c!"U", vN c!"f" (I .u8)] (.enum 0 []), mkS c!"A" [F c!"f" (T c!"E")]]

/-- Nor does a variant survive that is named like the field. -/
theorem C54_false_name : ¬ RoundTrips lib variantField [c!"A"] (.struct [.enum 1 [.int 7]]) :=
  misread (.struct [.enum 0 []]) (by decide +kernel) (by decide)

/-- Nor variants with named fields: the default variant is read. -/
theorem C54_false_named :
    ¬ RoundTrips lib (envOf [mkE c!"E" [vU c!"U", { ident := c!"V", shape := .named [F c!"x" (I .u8)] }] (.enum 0 []),
      mkS c!"A" [F c!"f" (T c!"E")]]) [c!"A"] (.struct [.enum 1 [.int 7]]) :=
  misread (.struct [.enum 0 []]) (by decide +kernel) (by decide)

/-- Nor an empty `Option` or `Vec` inside a variant. -/
theorem C54_false_empty :
    ¬ RoundTrips lib (envOf [mkE c!"E" [vU c!"U", vN c!"V" (O (I .u8))] (.enum 0 []), mkS c!"A" [F c!"f" (T c!"E")]])
      [c!"A"] (.struct [.enum 1 [.none]]) :=
  misread (.struct [.enum 0 []]) (by decide +kernel) (by decide)

end

/-! ### C55: strings -/

/-- **C55 is false**: a string in an element survives exactly if it is not empty and has no white space at the ends. -/
theorem C55_element_iff {L : Lib} (hx : XmlLaw L) {env : Env} (hok : SerOk env) {p : Path} {a x s : Str}
    (hp : env p = some (.struct ⟨a, {}, [{ ident := x, ty := .simple .string }]⟩)) (ha : isNCName a = true) (hxn : isNCName x = true)
    (hs : isText s = true) : RoundTrips L env p (.struct [.str s]) ↔ s ≠ [] ∧ trimSpace s = s := by
  let f : FieldDef := { ident := x, ty := .simple .string }
  have hp : env p = some (.struct (oneField a f)) := hp
  have hv : HasTy env (.struct p) (.struct [.str s]) := hasTy_one hp (.str s)
  rw [roundTrips_iff (toString_eq hok hv {}), enc_leaf (t := .string) hp rfl rfl rfl rfl (.inl ⟨rfl, rfl⟩)
    (not_omitted rfl rfl rfl _ _), WNode.eventsL_single]
  have hl : f.label = x := rfl
  rw [leaf_ok (t := .string) hx hp ha (by rw [hl]; exact hxn) rfl rfl rfl rfl (show isText (showS L (.str s)) = true from hs) _ blank_default]
  show (∃ w, Val.struct [.str s] = .struct [w] ∧ fieldValue a f (scalarContent L .string (textRun s)).toList = .ok w) ↔ _
  unfold textRun
  by_cases h : trimSpace s = []
  · rw [if_pos h]
    constructor
    · rintro ⟨w, -, h'⟩
      cases h'
    · rintro ⟨h1, h2⟩
      rw [h] at h2
      exact (h1 h2.symm).elim
  · rw [if_neg h]
    have e : fieldValue a f (scalarContent L .string [.text (trimSpace s)]).toList = .ok (.str (trimSpace s)) := rfl
    rw [e]
    constructor
    · rintro ⟨w, h1, h2⟩
      simp only [Val.struct.injEq, List.cons.injEq, and_true, Res.ok.injEq] at h1 h2
      rw [← h1, Val.str.injEq] at h2
      exact ⟨fun h' => by rw [h'] at h; exact h rfl, h2⟩
    · rintro ⟨h1, h2⟩
      exact ⟨_, rfl, by rw [h2]⟩

/-- The same holds for text fields. -/
theorem C55_text_iff {L : Lib} (hx : XmlLaw L) {env : Env} (hok : SerOk env) {p : Path} {a x s : Str}
    (hp : env p = some (.struct ⟨a, {}, [{ ident := x, ty := .simple .string, attrs := { text := true } }]⟩))
    (ha : isNCName a = true) (hs : isText s = true) : RoundTrips L env p (.struct [.str s]) ↔ s ≠ [] ∧ trimSpace s = s := by
  let f : FieldDef := { ident := x, ty := .simple .string, attrs := { text := true } }
  have hp : env p = some (.struct (oneField a f)) := hp
  have hv : HasTy env (.struct p) (.struct [.str s]) := hasTy_one hp (.str s)
  rw [roundTrips_iff (toString_eq hok hv {}), enc_text hp rfl rfl, WNode.eventsL_single, show fieldText (.str s) = s from rfl,
    textLeaf_ok (t := .string) hx hp ha rfl rfl (fun _ => .inl rfl) hs _ (.inl rfl) _ blank_default]
  by_cases h : trimSpace s = []
  · rw [if_neg (fun h' => h'.2 h)]
    constructor
    · rintro ⟨w, -, h'⟩
      cases h'
    · rintro ⟨h1, h2⟩
      rw [h] at h2
      exact (h1 h2.symm).elim
  · rw [if_pos ⟨rfl, h⟩]
    have e : fieldValue a f [.str (trimSpace s)] = .ok (.str (trimSpace s)) := rfl
    rw [e]
    constructor
    · rintro ⟨w, h1, h2⟩
      simp only [Val.struct.injEq, List.cons.injEq, and_true, Res.ok.injEq] at h1 h2
      rw [← h1, Val.str.injEq] at h2
      exact ⟨fun h' => by rw [h'] at h; exact h rfl, h2⟩
    · rintro ⟨h1, h2⟩
      exact ⟨_, rfl, by rw [h2]⟩

/-- Strings in attributes survive if they contain no tabs and carriage returns (and only characters allowed in XML). -/
theorem C55_attribute_partial {L : Lib} (hx : XmlLaw L) {env : Env} (hs : SimpleProgram env) (hok : SerOk env) {p : Path}
    {d : StructDef} (hp : env p = some (.struct d)) (hn : isNCName (d.attrs.rename.getD d.name) = true)
    (hall : ∀ f ∈ d.fields, f.attrs.isAttr = true ∧ f.ty = .simple .string ∧ f.dflt = none ∧ f.skipIf = none) {ss : List Str}
    (hlen : ss.length = d.fields.length) (hss : ∀ s ∈ ss, isAttrText s = true) :
    RoundTrips L env p (.struct (ss.map .str)) := by
  have hget : ∀ (i : Nat) (v : Val), (ss.map Val.str)[i]? = some v → ∃ s ∈ ss, v = .str s := by
    intro i v h
    obtain ⟨s, h1, h2⟩ := List.mem_map.mp (List.mem_of_getElem? h)
    exact ⟨s, h1, h2.symm⟩
  refine C50_round_trip_partial hx (rtOk_simple hs) hok
    (rootOk_simple hs ⟨_, hp, hn, ⟨fun e he => (by rw [hp] at he; cases he; exact .inl rfl), fun e he => (by rw [hp] at he; cases he)⟩⟩)
    ?_ ?_
  · refine .struct p d _ hp (by simpa using hlen) ?_
    intro i f v hf hv
    obtain ⟨s, -, rfl⟩ := hget i v hv
    rw [(hall f (List.mem_of_getElem? hf)).2.1]
    exact .str s
  · have hat : ∀ (i : Nat) (f : FieldDef), d.fields[i]? = some f → ¬ f.attrs.isAttr = false := fun i f hf h => by
      rw [(hall f (List.mem_of_getElem? hf)).1] at h; cases h
    refine .struct p d (ss.map .str) hp (by simpa using hlen) ?_ ?_ ?_ ?_ ?_ ?_
    rotate_left
    · intro i f v q x hf hv _ h _
      have h1 := (hall f (List.mem_of_getElem? hf)).2.1
      rcases h with ⟨h, -⟩ | ⟨h, -⟩ <;> rw [h1] at h <;> cases h
    rotate_right
    · intro i f v hf hv ha
      obtain ⟨-, h1, h2, h3⟩ := hall f (List.mem_of_getElem? hf)
      obtain ⟨s, hs, rfl⟩ := hget i v hv
      refine .plain .string _ h1 ⟨fun g hg => ?_, fun g hg => ?_⟩ ⟨hss s hs, rfl⟩
      · rw [h3] at hg; cases hg
      · rw [h2] at hg; cases hg
    all_goals exact fun i f v hf hv ha => (hat i f hf ha).elim

section
open Tests

def strEnv : Env := envOf [mkS c!"A" [F c!"x" Tests.S], mkS c!"B" [F c!"x" Tests.S { text := true }],
  mkS c!"C" [F c!"x" Tests.S attr, F c!"y" Tests.S attr]]
theorem strEnv_ok : SerOk strEnv := serOk_of_all _ (by decide)

example : RoundTrips lib strEnv [c!"A"] (.struct [.str c!"one\ttwo  <three>\nfour"]) :=
  (C55_element_iff xml strEnv_ok (x := c!"x") rfl (by decide) (by decide) (by decide)).mpr (by decide)
example : ¬ RoundTrips lib strEnv [c!"A"] (.struct [.str c!" a"]) := by
  rw [C55_element_iff xml strEnv_ok (x := c!"x") rfl (by decide) (by decide) (by decide)]; decide
example : RoundTrips lib strEnv [c!"B"] (.struct [.str c!"one & two"]) :=
  (C55_text_iff xml strEnv_ok (x := c!"x") rfl (by decide) (by decide)).mpr (by decide)
example : ¬ RoundTrips lib strEnv [c!"B"] (.struct [.str []]) := by
  rw [C55_text_iff xml strEnv_ok (x := c!"x") rfl (by decide) (by decide)]; decide
example : RoundTrips lib strEnv [c!"C"] (.struct [.str c!"  \"<&>'\n ", .str []]) :=
  C55_attribute_partial xml (simple_of_check _ (by decide +kernel)) strEnv_ok rfl (by decide) (by decide)
    (ss := [c!"  \"<&>'\n ", []]) rfl (by decide)

/-- **C55 is false**: strings with white space at the ends … -/
theorem C55_false : ∃ (L : Lib) (env : Env) (p : Path) (s : Str), XmlLaw L ∧ SerOk env ∧ WritesAll env ∧ isText s = true ∧
    HasTy env (.struct p) (.struct [.str s]) ∧ ¬ RoundTrips L env p (.struct [.str s]) :=
  ⟨lib, strEnv, [c!"A"], c!" a ", xml, strEnv_ok, writesAll_of_check _ (by decide), by decide,
    hasTy_of_check _ (T c!"A") _ (by decide), misread (.struct [.str c!"a"]) (by decide +kernel) (by decide)⟩

/-- … the empty string, in elements … -/
theorem C55_false_empty : ¬ RoundTrips lib strEnv [c!"A"] (.struct [.str []]) :=
  unreadable c!"x is a required field of A" (by decide +kernel)

/-- … tabs in attributes (read as blanks) … -/
theorem C55_false_tab : ¬ RoundTrips lib strEnv [c!"C"] (.struct [.str c!"a\tb", .str []]) :=
  misread (.struct [.str c!"a b", .str []]) (by decide +kernel) (by decide)

/-- … and carriage returns (read as line feeds). -/
theorem C55_false_cr : ¬ RoundTrips lib strEnv [c!"A"] (.struct [.str c!"a\rb"]) :=
  misread (.struct [.str c!"a\nb"]) (by decide +kernel) (by decide)

end

/-! ### C56: `Option` -/

/-- **C56 is false**: an `Option<String>` in an element is `None` after a round trip exactly if it was `None`, or a string
of white space only. -/
theorem C56_iff {L : Lib} (hx : XmlLaw L) {env : Env} (hok : SerOk env) {p : Path} {a x : Str}
    (hp : env p = some (.struct ⟨a, {}, [{ ident := x, ty := .opt (.simple .string) }]⟩)) (ha : isNCName a = true)
    (hxn : isNCName x = true) (o : Option Str) (ho : ∀ s, o = some s → isText s = true) :
    ∃ txt o', toString L env p (.struct [match o with | some s => .some (.str s) | none => .none]) = .ok txt ∧
      Returns L env p txt (.ok (.struct [match o' with | some s => .some (.str s) | none => .none])) ∧
      (o' = none ↔ ∀ s, o = some s → trimSpace s = []) := by
  let f : FieldDef := { ident := x, ty := .opt (.simple .string) }
  have hp : env p = some (.struct (oneField a f)) := hp
  cases o with
  | none =>
    have hv : HasTy env (.struct p) (.struct [.none]) := hasTy_one hp (.none _)
    refine ⟨_, none, toString_eq hok hv {}, ?_, by simp⟩
    rw [enc_none (t := .string) hp rfl rfl rfl rfl, WNode.eventsL_single,
      textLeaf_ok (t := .string) hx hp ha rfl rfl (fun h => by cases h) (s := []) rfl _ (.inr ⟨rfl, rfl⟩) _ blank_default]
    exact ⟨.none, rfl, rfl⟩
  | some s =>
    have hs := ho s rfl
    have hv : HasTy env (.struct p) (.struct [.some (.str s)]) := hasTy_one hp (.some _ _ (.str s))
    refine ⟨_, if trimSpace s = [] then none else some (trimSpace s), toString_eq hok hv {}, ?_, ?_⟩
    · rw [enc_leaf (t := .string) hp rfl rfl rfl rfl (.inr ⟨rfl, rfl⟩) (not_omitted rfl rfl rfl _ _), WNode.eventsL_single,
        leaf_ok (t := .string) hx hp ha hxn rfl rfl rfl rfl (show isText (showS L (.str s)) = true from hs) _ blank_default]
      show ∃ w, _ ∧ fieldValue a f (scalarContent L .string (textRun s)).toList = .ok w
      unfold textRun
      by_cases h : trimSpace s = []
      · rw [if_pos h, if_pos h]
        exact ⟨.none, rfl, rfl⟩
      · rw [if_neg h, if_neg h]
        exact ⟨.some (.str (trimSpace s)), rfl, rfl⟩
    · by_cases h : trimSpace s = []
      · simp [h]
      · rw [if_neg h]
        simp [h]

/-- In simple programs, with strings that are not empty, `None` and `Some` stay apart in all fields, at all depths: the value
read is the one written. -/
theorem C56_option_partial {L : Lib} (hx : XmlLaw L) {env : Env} (hs : SimpleProgram env) (hw : Restores env)
    (hpr : ∀ p d, env p = some (.prim d) → Inverts d) {p : Path} (hroot : SimpleRoot env p) {vs : List Val}
    (hv : HasTy env (.struct p) (.struct vs)) (ht : (Val.struct vs).Tame L) :
    ∃ s, toString L env p (.struct vs) = .ok s ∧ ∀ r, Returns L env p s r →
      ∃ ws, r = .ok (.struct ws) ∧ ∀ (i : Nat), ws[i]? = some .none ↔ vs[i]? = some .none := by
  obtain ⟨s, h1, h2⟩ := C50_simple_partial hx hs hw hpr hroot hv ht
  exact ⟨s, h1, fun r hr => ⟨vs, (h2 r).mp hr, fun _ => Iff.rfl⟩⟩

/-- `Option<String>`s in attributes stay apart: `None`, the empty string and strings of white space are read as what they were (with the
restriction of C55 on tabs and carriage returns). -/
theorem C56_attribute_partial {L : Lib} (hx : XmlLaw L) {env : Env} (hs : SimpleProgram env) (hok : SerOk env) {p : Path}
    {d : StructDef} (hp : env p = some (.struct d)) (hn : isNCName (d.attrs.rename.getD d.name) = true)
    (hall : ∀ f ∈ d.fields, f.attrs.isAttr = true ∧ f.ty = .opt (.simple .string) ∧ f.dflt = none ∧ f.skipIf = none) {os : List (Option Str)}
    (hlen : os.length = d.fields.length) (hos : ∀ s, some s ∈ os → isAttrText s = true) :
    RoundTrips L env p (.struct (os.map fun o => match o with | some s => .some (.str s) | none => .none)) := by
  have hget : ∀ (i : Nat) (v : Val), (os.map fun o => match o with | some s => Val.some (.str s) | none => .none)[i]? = some v →
      (∃ s, some s ∈ os ∧ v = .some (.str s)) ∨ v = .none := by
    intro i v h
    obtain ⟨o, h1, h2⟩ := List.mem_map.mp (List.mem_of_getElem? h)
    cases o with
    | none => exact .inr h2.symm
    | some s => exact .inl ⟨s, h1, h2.symm⟩
  refine C50_round_trip_partial hx (rtOk_simple hs) hok
    (rootOk_simple hs ⟨_, hp, hn, ⟨fun e he => (by rw [hp] at he; cases he; exact .inl rfl), fun e he => (by rw [hp] at he; cases he)⟩⟩)
    ?_ ?_
  · refine .struct p d _ hp (by simpa using hlen) ?_
    intro i f v hf hv
    rw [(hall f (List.mem_of_getElem? hf)).2.1]
    rcases hget i v hv with ⟨s, -, rfl⟩ | rfl
    · exact .some _ _ (.str s)
    · exact .none _
  · have hat : ∀ (i : Nat) (f : FieldDef), d.fields[i]? = some f → ¬ f.attrs.isAttr = false := fun i f hf h => by
      rw [(hall f (List.mem_of_getElem? hf)).1] at h; cases h
    refine .struct p d _ hp (by simpa using hlen) ?_ ?_ ?_ ?_ ?_ ?_
    rotate_left
    · intro i f v q x hf hv _ h _
      have h1 := (hall f (List.mem_of_getElem? hf)).2.1
      rcases h with ⟨h, -⟩ | ⟨h, -⟩ <;> rw [h1] at h <;> cases h
    rotate_right
    · intro i f v hf hv ha
      obtain ⟨-, h1, h2, h3⟩ := hall f (List.mem_of_getElem? hf)
      rcases hget i v hv with ⟨s, hs, rfl⟩ | rfl
      · refine .some .string _ h1 ⟨fun g hg => ?_, fun g hg => ?_⟩ ⟨hos s hs, rfl⟩
        · rw [h3] at hg; cases hg
        · rw [h2] at hg; cases hg
      · refine .absent _ (.inr (.inl ⟨_, h1, rfl⟩)) ?_
        unfold FieldDef.absent
        rw [h1, h2]
    all_goals exact fun i f v hf hv ha => (hat i f hf ha).elim

section
open Tests

def optEnv : Env := envOf [mkS c!"A" [F c!"x" (O Tests.S)]]

example : ∃ txt o', toString lib optEnv [c!"A"] (.struct [.some (.str c!"  ")]) = .ok txt ∧
    Returns lib optEnv [c!"A"] txt (.ok (.struct [match o' with | some s => .some (.str s) | none => .none])) ∧
      (o' = none ↔ ∀ s, some c!"  " = some s → trimSpace s = []) :=
  C56_iff xml (serOk_of_all _ (by decide)) (x := c!"x") rfl (by decide) (by decide) (some c!"  ") (by simp; decide)

def optAttrEnv : Env := envOf [mkS c!"A" [F c!"x" (O Tests.S) attr, F c!"y" (O Tests.S) attr, F c!"z" (O Tests.S) attr]]

example : RoundTrips lib optAttrEnv [c!"A"] (.struct [.some (.str []), .none, .some (.str c!"  ")]) :=
  C56_attribute_partial xml (simple_of_check _ (by decide +kernel)) (serOk_of_all _ (by decide)) rfl (by decide) (by decide)
    (os := [some [], none, some c!"  "]) rfl (by simp; decide)

/-- `Some("")` is read as `None`. -/
theorem C56_false : ∃ (L : Lib) (env : Env) (p : Path), XmlLaw L ∧ SerOk env ∧ WritesAll env ∧
    HasTy env (.struct p) (.struct [.some (.str [])]) ∧
    ∃ s, toString L env p (.struct [.some (.str [])]) = .ok s ∧ Returns L env p s (.ok (.struct [.none])) := by
  obtain ⟨s, h1, h2⟩ := trip_of_check (env := optEnv) (p := c!"A") (v := .struct [.some (.str [])])
      (test := fun s => deOk optEnv c!"A" s (.struct [.none])) (by decide +kernel)
  exact ⟨lib, optEnv, [c!"A"], xml, serOk_of_all _ (by decide), writesAll_of_check _ (by decide),
    hasTy_of_check _ (T c!"A") _ (by decide), s, h1, returns_of_deOk h2⟩

end

/-! ### C57: flattened fields -/

/-- **C57.** Programs without namespaces, with flattened fields of struct type.  The conditions `RtOk` say, in addition to those
of `SimpleProgram`, that no two fields take the same attribute or child, and that beside a flattened field there are no
children that are read by their text alone (unit variants, types with `FromStr`).  Missing: flattened `Option`s and enums. -/
theorem C57_flatten_partial {L : Lib} (hx : XmlLaw L) {env : Env} (hrt : RtOk env []) (hok : SerOk env) {p : Path}
    (hroot : RootOk env [] p) {v : Val} (hv : HasTy env (.struct p) v) (hc : Canon L env (.struct p) v) : RoundTrips L env p v :=
  C50_round_trip_partial hx hrt hok hroot hv hc

section
open Tests

/-- A struct with attributes and children of its own, and two flattened structs, one of which has a flattened struct. -/
def flatProg : List (Path × TypeDef) :=
  [mkS c!"Node" [F c!"id" (I .u8) attr, F c!"base" (T c!"Base") flat, F c!"value" (V (T c!"Value")), F c!"more" (T c!"More") flat],
   mkS c!"Base" [F c!"kind" Tests.S attr, F c!"tag" (V Tests.S), F c!"deep" (T c!"Deep") flat],
   mkS c!"Deep" [F c!"x" (I .i32), F c!"lang" (O Tests.S) attr],
   mkS c!"More" [F c!"y" (O (I .i32)), F c!"txt" (O Tests.S) { text := true }],
   mkS c!"Value" [F c!"v" Tests.S attr, F c!"item" (V Tests.S)]]

def flatVal : Val :=
  .struct [.int 3, .struct [.str c!"k", .vec [.str c!"t1", .str c!"t2"], .struct [.int (-1), .some (.str c!"en")]],
    .vec [.struct [.str [], .vec [.str c!"i"]], .struct [.str c!"w", .vec []]], .struct [.some (.int 8), .some (.str c!"text")]]

example : RoundTrips lib (envOf flatProg) [c!"Node"] flatVal :=
  C57_flatten_partial xml (rtOk_of_check [] flatProg (by decide +kernel)) (serOk_of_all _ (by decide))
    (rootOk_of_check 5 (by decide +kernel)) (hasTy_of_check _ (T c!"Node") _ (by decide +kernel))
    (canon_of_check _ _ 9 (T c!"Node") _ (by decide +kernel))

/-- `struct A { #[flatten] b: Option<B> }`, `struct B { #[attribute] k: Option<String>, c: Option<u8> }`. -/
def flatOpt : Env := envOf [mkS c!"A" [F c!"b" (O (T c!"B")) flat], mkS c!"B" [F c!"k" (O Tests.S) attr, F c!"c" (O (I .u8))]]

/-- **C57 is false** for flattened `Option`s: the attributes are not written … -/
theorem C57_false : ∃ (L : Lib) (env : Env) (p : Path) (v : Val), XmlLaw L ∧ SerOk env ∧ WritesAll env ∧
    HasTy env (.struct p) v ∧ v.Tame L ∧ ¬ RoundTrips L env p v :=
  ⟨lib, flatOpt, [c!"A"], .struct [.some (.struct [.some (.str c!"a"), .some (.int 1)])], xml, serOk_of_all _ (by decide),
    writesAll_of_check _ (by decide), hasTy_of_check _ (T c!"A") _ (by decide), tame_of_check _ _ (by decide),
    misread (.struct [.some (.struct [.none, .some (.int 1)])]) (by decide +kernel) (by decide)⟩

/-- … and `None` is read as `Some` if nothing in the flattened struct is required. -/
theorem C57_false_none : ¬ RoundTrips lib flatOpt [c!"A"] (.struct [.none]) :=
  misread (.struct [.some (.struct [.none, .none])]) (by decide +kernel) (by decide)

/-- Beside a child that is read by its text alone, a flattened field gets nothing. -/
theorem C57_false_text :
    ¬ RoundTrips lib (envOf [mkS c!"A" [F c!"e" (T c!"E"), F c!"b" (T c!"B") flat], mkE c!"E" [vU c!"U", vU c!"V"] (.enum 0 []),
      mkS c!"B" [F c!"x" (I .u8)]]) [c!"A"] (.struct [.enum 1 [], .struct [.int 1]]) :=
  unreadable c!"b is a required field of A" (by decide +kernel)

end

/-! ### C58: namespaces -/

/-- **C58.** `G` collects the namespace declarations of all types: one meaning per prefix.  Prefixes of fields must be declared by
the type itself. -/
theorem C58_namespaces_partial {L : Lib} (hx : XmlLaw L) {env : Env} {G : NsMap} (hrt : RtOk env G) (hok : SerOk env) {p : Path}
    (hroot : RootOk env G p) {v : Val} (hv : HasTy env (.struct p) v) (hc : Canon L env (.struct p) v) : RoundTrips L env p v :=
  C50_round_trip_partial hx hrt hok hroot hv hc

section
open Tests

def nsA : Attrs := { namespaces := [(c!"a", c!"urn:a"), (c!"b", c!"urn:b")] }

/-- Fields in two namespaces and in none, and an attribute with prefix. -/
def nsProg : List (Path × TypeDef) :=
  [mkS c!"Doc" [F c!"x" (I .i32) { pfx := some c!"a" }, F c!"y" Tests.S { pfx := some c!"b" }, F c!"z" (O Tests.S),
      F c!"k" Tests.S { isAttr := true, pfx := some c!"b" }, F c!"sub" (V (T c!"Sub")) { pfx := some c!"a" }]
      { nsA with pfx := some c!"a" },
   mkS c!"Sub" [F c!"w" Tests.S { pfx := some c!"b" }] { nsA with pfx := some c!"a" }]

def nsTab : NsMap := [(c!"a", c!"urn:a"), (c!"b", c!"urn:b")]

def nsVal : Val :=
  .struct [.int 5, .str c!"why", .some (.str c!"zed"), .str c!"key", .vec [.struct [.str c!"w1"], .struct [.str c!"w2"]]]

example : RoundTrips lib (envOf nsProg) [c!"Doc"] nsVal :=
  C58_namespaces_partial xml (rtOk_of_check nsTab nsProg (by decide +kernel)) (serOk_of_all _ (by decide))
    (rootOk_of_check 5 (by decide +kernel)) (hasTy_of_check _ (T c!"Doc") _ (by decide +kernel))
    (canon_of_check _ _ 9 (T c!"Doc") _ (by decide +kernel))

/-- **C58 is false** with a default namespace: a field without prefix is written into the default namespace, where it is not
looked for. -/
theorem C58_false : ∃ (L : Lib) (env : Env) (p : Path) (v : Val), XmlLaw L ∧ SerOk env ∧ WritesAll env ∧
    HasTy env (.struct p) v ∧ v.Tame L ∧ ¬ RoundTrips L env p v :=
  ⟨lib, envOf [mkS c!"A" [F c!"x" (I .u8)] { namespaces := [(c!"a", c!"urn:a")], pfx := some c!"a", defaultNs := some c!"a" }],
    [c!"A"], .struct [.int 1], xml, serOk_of_all _ (by decide), writesAll_of_check _ (by decide),
    hasTy_of_check _ (T c!"A") _ (by decide), tame_of_check _ _ (by decide),
    unreadable c!"x is a required field of A" (by decide +kernel)⟩

end

/-! ### C60: defaults -/

/-- **C60.** A scalar element field with a default: if the value is the default, nothing is written for it, and the default
is read. -/
theorem C60_default {L : Lib} (hx : XmlLaw L) {env : Env} (hok : SerOk env) {p : Path} {a x : Str} {t : STy} {dv : Dflt}
    (hp : env p = some (.struct ⟨a, {}, [{ ident := x, ty := .simple t, dflt := some dv }]⟩)) (ha : isNCName a = true)
    (hne : dv.ne dv.val = false) (hty : HasTy env (.simple t) dv.val) :
    ∃ s, toString L env p (.struct [dv.val]) = .ok s ∧
      serializeWithWriter L env p (.struct [dv.val]) = (.ok (), (WNode.elem a [] [] []).events) ∧
      ∀ r, Returns L env p s r ↔ r = .ok (.struct [dv.val]) := by
  let f : FieldDef := { ident := x, ty := .simple t, dflt := some dv }
  have hp : env p = some (.struct (oneField a f)) := hp
  have hv : HasTy env (.struct p) (.struct [dv.val]) := hasTy_one hp hty
  have ho : f.omitted (.struct [dv.val]) dv.val := by
    refine .inr fun h => ?_
    have := h.2 dv rfl
    rw [hne] at this
    cases this
  have e := enc_omitted (L := L) hp rfl rfl ho
  have hs := toString_eq (L := L) hok hv {}
  have h : RoundTrips L env p (.struct [dv.val]) := by
    rw [roundTrips_iff hs, e, WNode.eventsL_single,
      textLeaf_ok (t := t) hx hp ha rfl rfl (fun h => by cases h) (s := []) rfl _ (.inr ⟨rfl, rfl⟩) _ blank_default]
    exact ⟨dv.val, rfl, rfl⟩
  obtain ⟨s, h1, h2⟩ := h
  refine ⟨s, h1, ?_, h2⟩
  rw [serialize_eq hok hv, e, WNode.eventsL_single]

/-- Defaults are among the things that `C50_simple_partial` allows: a field of scalar, struct or enum type (element or attribute)
whose default function yields the only value that compares equal to it. -/
theorem C60_restores {env : Env} {f : FieldDef} {dv : Dflt} (hd : f.dflt = some dv) (hskip : f.skipIf = none) (hser : f.attrs.skipSer = false)
    (hty : ∀ t, f.ty ≠ .opt t ∧ f.ty ≠ .vec t) (heq : ∀ v, HasTy env f.ty v → dv.ne v = false → v = dv.val) :
    ∀ self v, HasTy env f.ty v → f.omitted self v → f.absent = some v := by
  rintro self v hv (h | h)
  · rw [hser] at h; cases h
  · have hne : dv.ne v = false := by
      cases hn : dv.ne v with
      | false => rfl
      | true =>
        refine (h ⟨fun g hg => ?_, fun g hg => ?_⟩).elim
        · rw [hskip] at hg; cases hg
        · rw [hd] at hg; cases hg; exact hn
    rw [heq v hv hne]
    unfold FieldDef.absent
    rw [hd]
    cases hft : f.ty with
    | opt t => exact ((hty t).1 hft).elim
    | vec t => exact ((hty t).2 hft).elim
    | simple t => rfl
    | struct q => rfl

section
open Tests

def five : Dflt := ⟨.int 5, fun v => !v.beq (.int 5)⟩

def dfltProg : List (Path × TypeDef) :=
  [mkS c!"A" [{ ident := c!"x", ty := I .u16, dflt := some five }],
   mkS c!"B" [{ ident := c!"x", ty := O (I .u16), dflt := some ⟨.some (.int 5), fun v => !v.beq (.some (.int 5))⟩ }],
   mkS c!"C" [{ ident := c!"x", ty := I .u16, dflt := some five, attrs := attr }, F c!"a" (V (T c!"A"))]]

def dfltEnv : Env := envOf dfltProg

example : ∃ s, toString lib dfltEnv [c!"A"] (.struct [five.val]) = .ok s ∧
      serializeWithWriter lib dfltEnv [c!"A"] (.struct [five.val]) = (.ok (), (WNode.elem c!"A" [] [] []).events) ∧
      ∀ r, Returns lib dfltEnv [c!"A"] s r ↔ r = .ok (.struct [five.val]) :=
  C60_default xml (serOk_of_all _ (by decide)) (x := c!"x") (t := .int .u16) rfl (by decide) (by decide)
    (hasTy_of_check _ (I .u16) _ (by decide))

/-- A value with a default attribute and, in nested elements, default and other values. -/
example : RoundTrips lib (envOf [dfltProg[0], dfltProg[2]]) [c!"C"] (.struct [.int 5, .vec [.struct [.int 5], .struct [.int 6]]]) := by
  refine C50_simple_partial xml (simple_of_check _ (by decide +kernel)) ?_ ?_ (simpleRoot_of_check (by decide +kernel))
    (hasTy_of_check _ (T c!"C") _ (by decide +kernel)) (tame_of_check _ _ (by decide +kernel))
  · intro p d hp f hf
    have h5 : ∀ v, five.ne v = false → v = five.val := fun v h => Val.eq_of_beq v _ (by simpa [five] using h)
    have := mem_envOf hp
    simp only [dfltProg, mkS, List.getElem_cons_zero, List.getElem_cons_succ, List.mem_cons, Prod.mk.injEq, TypeDef.struct.injEq,
      List.not_mem_nil, or_false] at this
    rcases this with ⟨-, rfl⟩ | ⟨-, rfl⟩ <;> simp only [List.mem_cons, List.not_mem_nil, or_false] at hf
    · subst hf
      exact ⟨fun _ => C60_restores rfl rfl rfl (fun t => by simp [I]) (fun v _ h => h5 v h), rfl, fun _ t => by simp [I]⟩
    · rcases hf with rfl | rfl
      · exact ⟨fun _ => C60_restores rfl rfl rfl (fun t => by simp [I]) (fun v _ h => h5 v h), rfl, fun _ t => by simp [I]⟩
      · refine ⟨fun _ self v _ ho => (not_omitted rfl rfl rfl self v ho).elim, rfl, fun h => by cases h⟩
  · intro p d hp
    have := mem_envOf hp
    simp [dfltProg, mkS] at this

/-- **C60 is false** for `Option` fields: the default `Some(5)` is left out, and `None` is read. -/
theorem C60_false : ∃ (L : Lib) (env : Env) (p : Path) (d : StructDef) (f : FieldDef) (dv : Dflt), XmlLaw L ∧ SerOk env ∧
    env p = some (.struct d) ∧ d.fields = [f] ∧ f.dflt = some dv ∧ HasTy env (.struct p) (.struct [dv.val]) ∧
    ¬ RoundTrips L env p (.struct [dv.val]) :=
  ⟨lib, dfltEnv, [c!"B"], _, _, _, xml, serOk_of_all _ (by decide), rfl, rfl, rfl, hasTy_of_check _ (T c!"B") _ (by decide),
    misread (.struct [.none]) (by decide +kernel) (by decide)⟩

end

/-! ### C59: stability -/

/-- One round of reading and writing takes the document `s` to `s'`. -/
def Rewrites (L : Lib) (env : Env) (p : Path) (s s' : Str) : Prop :=
  ∃ v, Returns L env p s (.ok v) ∧ toString L env p v = .ok s'

/-- **C59.** Once a document has been read as a canonical value, writing it gives a document that is read as the same value
and written as the same text. -/
theorem C59_stable_partial {L : Lib} (hx : XmlLaw L) {env : Env} {G : NsMap} (hrt : RtOk env G) (hok : SerOk env) {p : Path}
    (hroot : RootOk env G p) {s : Str} {v : Val} (hr : Returns L env p s (.ok v)) (hv : HasTy env (.struct p) v)
    (hc : Canon L env (.struct p) v) :
    ∃ s', (∀ x, Rewrites L env p s x ↔ x = s') ∧ (∀ x, Rewrites L env p s' x ↔ x = s') ∧ ∀ r, Returns L env p s' r ↔ r = .ok v := by
  obtain ⟨s', h1, h2⟩ := C50_round_trip_partial hx hrt hok hroot hv hc
  have key : ∀ t, Returns L env p t (.ok v) → ∀ x, Rewrites L env p t x ↔ x = s' := by
    intro t ht x
    constructor
    · rintro ⟨w, h3, h4⟩
      have := (C27_budget_irrelevant L env p t).2 _ _ h3 ht
      cases this
      rw [h1] at h4
      cases h4
      rfl
    · rintro rfl
      exact ⟨v, ht, h1⟩
  exact ⟨s', key s hr, key s' ((h2 _).mpr rfl), h2⟩

section
open Tests

/-- A document with comments, white space, unknown elements and a different order. -/
example : ∃ s', (∀ x, Rewrites lib (envOf flatProg) [c!"Node"]
      c!"<!-- c --><Node kind='k' zzz='' id='3'> <y>8</y><item/> <value v=''/> text<x>  -1 </x></Node>" x ↔ x = s') ∧
    (∀ x, Rewrites lib (envOf flatProg) [c!"Node"] s' x ↔ x = s') ∧
    ∀ r, Returns lib (envOf flatProg) [c!"Node"] s' r ↔
      r = .ok (.struct [.int 3, .struct [.str c!"k", .vec [], .struct [.int (-1), .none]],
        .vec [.struct [.str [], .vec []]], .struct [.some (.int 8), .some (.str c!"text")]]) :=
  C59_stable_partial xml (rtOk_of_check [] flatProg (by decide +kernel)) (serOk_of_all _ (by decide))
    (rootOk_of_check 5 (by decide +kernel)) (returns_of_deOk (by decide +kernel))
    (hasTy_of_check _ (T c!"Node") _ (by decide +kernel)) (canon_of_check _ _ 9 (T c!"Node") _ (by decide +kernel))

end

/-! ### C43 and C44 -/

/-- **C43** for canonical values: the configuration has no influence on what is read. -/
theorem C43_config_partial {L : Lib} (hx : XmlLaw L) {env : Env} {G : NsMap} (hrt : RtOk env G) (hok : SerOk env) {p : Path}
    (hroot : RootOk env G p) {v : Val} (hv : HasTy env (.struct p) v) (hc : Canon L env (.struct p) v) (c : Config)
    (hcfg : c.emitCfg.Blank) : ∃ s, toStringWithConfig L env c p v = .ok s ∧ ∀ r, Returns L env p s r ↔ r = .ok v := by
  obtain ⟨s, h1, h2⟩ := roundtrip hx hrt hok hroot hv hc c hcfg
  exact ⟨s, h1, fun r => ⟨fun h => (C27_budget_irrelevant L env p s).2 _ _ h h2, fun h => h ▸ h2⟩⟩

open Tests in
example : ∃ s, toStringWithConfig lib (envOf flatProg) { performIndent := true, indentString := some c!"\t " } [c!"Node"] flatVal = .ok s ∧
    ∀ r, Returns lib (envOf flatProg) [c!"Node"] s r ↔ r = .ok flatVal :=
  C43_config_partial xml (rtOk_of_check [] flatProg (by decide +kernel)) (serOk_of_all _ (by decide))
    (rootOk_of_check 5 (by decide +kernel)) (hasTy_of_check _ (T c!"Node") _ (by decide +kernel))
    (canon_of_check _ _ 9 (T c!"Node") _ (by decide +kernel)) _ (by intro i h; simp [Config.emitCfg] at h; subst h; decide)

/-- **C44.** Different canonical values are written differently (also with different configurations). -/
theorem C44_injective_partial {L : Lib} (hx : XmlLaw L) {env : Env} {G : NsMap} (hrt : RtOk env G) (hok : SerOk env) {p : Path}
    (hroot : RootOk env G p) {v w : Val} (hv : HasTy env (.struct p) v) (hc : Canon L env (.struct p) v)
    (hv' : HasTy env (.struct p) w) (hc' : Canon L env (.struct p) w) (c c' : Config) (hcfg : c.emitCfg.Blank)
    (hcfg' : c'.emitCfg.Blank) (h : toStringWithConfig L env c p v = toStringWithConfig L env c' p w) : v = w := by
  obtain ⟨s, h1, h2⟩ := C43_config_partial hx hrt hok hroot hv hc c hcfg
  obtain ⟨s', h1', h2'⟩ := C43_config_partial hx hrt hok hroot hv' hc' c' hcfg'
  rw [h1, h1'] at h
  cases h
  have := (h2 _).mp ((h2' _).mpr rfl)
  cases this
  rfl

section
open Tests

/-- The values of the example above, and a different one. -/
example (w : Val) (hw : HasTy (envOf flatProg) (T c!"Node") w) (hc : Canon lib (envOf flatProg) (T c!"Node") w) (hne : w ≠ flatVal) :
    toString lib (envOf flatProg) [c!"Node"] w ≠ toString lib (envOf flatProg) [c!"Node"] flatVal := fun h =>
  hne (C44_injective_partial xml (rtOk_of_check [] flatProg (by decide +kernel)) (serOk_of_all _ (by decide))
    (rootOk_of_check 5 (by decide +kernel)) hw hc (hasTy_of_check _ (T c!"Node") _ (by decide +kernel))
    (canon_of_check _ _ 9 (T c!"Node") _ (by decide +kernel)) {} {} blank_default blank_default h)

/-- **C44 is false** for values that are not canonical: a `Vec` that is an XML attribute is not written. -/
theorem C44_false : ∃ (L : Lib) (env : Env) (p : Path) (v w : Val), XmlLaw L ∧ SerOk env ∧ HasTy env (.struct p) v ∧
    HasTy env (.struct p) w ∧ v.Tame L ∧ w.Tame L ∧ v ≠ w ∧ toString L env p v = toString L env p w := by
  refine ⟨lib, envOf [mkS c!"A" [F c!"x" (V (I .u8)) attr]], [c!"A"], .struct [.vec []], .struct [.vec [.int 1]], xml,
    serOk_of_all _ (by decide), hasTy_of_check _ (T c!"A") _ (by decide), hasTy_of_check _ (T c!"A") _ (by decide),
    tame_of_check _ _ (by decide), tame_of_check _ _ (by decide), Val.ne_of_beq (by decide), ?_⟩
  obtain ⟨s, h1, h2⟩ := trip_of_check (env := envOf [mkS c!"A" [F c!"x" (V (I .u8)) attr]]) (p := c!"A") (v := .struct [.vec []])
    (test := fun s => writesB (envOf [mkS c!"A" [F c!"x" (V (I .u8)) attr]]) c!"A" (.struct [.vec [.int 1]]) s) (by decide +kernel)
  rw [h1, writes_of_check h2]

end

end Yaserde
