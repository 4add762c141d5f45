import Verif.Proofs.Stable
import Verif.Proofs.PlainDoc
import Verif.Proofs.Relay
import Verif.Props.RoundTrip
/-
C62 (results are well typed) and C59 for arbitrary documents.
-/

set_option autoImplicit false
set_option maxRecDepth 100000

namespace Yaserde

/-! ### C62 -/

/-- **C62.** Whatever the document, a value that is returned has the type it was read as: structs have a value of the right
type for every field, numbers are in the range of their type, `Vec`s are homogeneous, enum values are those of a variant
of the enum, with a payload of its type. -/
theorem C62_result_has_type {L : Lib} {env : Env} (hT : Typed env) {p : Path} {s : Str} {v : Val}
    (h : Returns L env p s (.ok v)) : HasTy env (.struct p) v := by
  obtain ⟨-, n, hn⟩ := h
  exact fromStr_typed L env (deser_typed L env hT n) p s v hn

/-- In particular, what has been read can be written. -/
theorem C62_read_then_write {L : Lib} {env : Env} (hT : Typed env) (hok : SerOk env) {p : Path} {s : Str} {v : Val}
    (h : Returns L env p s (.ok v)) : ∃ s', toString L env p v = .ok s' :=
  (C41_ok hok (C62_result_has_type hT h)).2.2.1

/-- `FromStr` of the newtypes generated by `PrimitiveYaSerde` returns values of the type. -/
theorem primitive_typed (L : Lib) (name : Str) (t : STy) (s : Str) (v : Val)
    (h : (PrimDef.primitive L name t).fromStr s = .ok v) : (PrimDef.primitive L name t).dom v = true := by
  have := parseS_typed L (fun _ => none) h
  cases this with
  | str _ | bool _ | f32 _ | f64 _ => rfl
  | int t z fits =>
    have := (fits_iff t z).mp fits
    simp only [PrimDef.primitive, STy.holds, Bool.and_eq_true, decide_eq_true_eq]
    exact this

namespace Trip
open Tests

theorem typed : Typed env where
  dflt := by
    intro p d hp f hf dv hdv
    rw [(writesAll p d hp f hf).1] at hdv
    cases hdv
  enumDflt := by
    intro p d hp
    have hp' := hp
    have := mem_envOf hp
    simp only [prog, mkS, mkE, List.mem_cons, Prod.mk.injEq, List.not_mem_nil, or_false, reduceCtorEq, and_false, false_or,
      TypeDef.enum.injEq] at this
    obtain ⟨rfl, rfl⟩ := this
    exact .unit _ _ 0 _ hp rfl rfl
  prim := by
    intro p d hp
    have := mem_envOf hp
    simp only [prog, mkS, mkE, List.mem_cons, Prod.mk.injEq, List.not_mem_nil, or_false, reduceCtorEq, and_false, false_or,
      TypeDef.prim.injEq] at this
    rw [this.2]
    exact primitive_typed lib _ _

/-- A document with misplaced, malformed and repeated content. -/
def odd : Str := c!"<?pi?><Dir mode='+0493' name=' a&lt;b '>\n<entry><dir name=''/><kind>Plain</kind><kind/><file>  x  y </file><hash>7</hash><hash> 007 </hash></entry><zz><entry/></zz> n <!-- c --> m <entry><kind><Meta><b>1</b><a>x</a><a>-5</a></Meta></kind><kind>?<Size>12</Size></kind></entry></Dir>"

def oddVal : Val :=
  .struct [.str c!" a<b ", .some (.int 493),
    .vec [.struct [.some (.str c!"x  y"), .some (.struct [.str [], .none, .vec [], .none]), .enum 0 [], .vec [.int 7, .int 7]],
          .struct [.none, .none, .enum 3 [.int 12], .vec []]], .some (.str c!"n  m")]

theorem reads_odd : Returns lib env [c!"Dir"] odd (.ok oddVal) := returns_of_deOk (by decide +kernel)

example : HasTy env (T c!"Dir") oddVal := C62_result_has_type typed reads_odd
example : ∃ s', toString lib env [c!"Dir"] oddVal = .ok s' :=
  C62_read_then_write typed (serOk_simple simple (restores_of_writesAll writesAll)) reads_odd

end Trip

/-! ### C59 -/

/-- **C59** for programs without flattened fields and all documents without references to tabs and carriage returns, conforming
or not: a value that is read survives being written and read again; from then on neither the value nor the text
changes. -/
theorem C59_namespaces_partial {L : Lib} (hx : XmlLaw L) {env : Env} {G : NsMap} (hrt : RtOk env G) (hok : SerOk env)
    (hC : Carries env) (hw : Restores env) (hT : Typed env) (hsd : SettledDefaults L env)
    (hpr : ∀ p d, env p = some (.prim d) → Inverts d) (hfl : NoFlatten env) {p : Path} (hroot : RootOk env G p)
    {s : Str} (hdoc : PlainDoc L s) {v : Val} (hr : Returns L env p s (.ok v)) :
    ∃ s', (∀ x, Rewrites L env p s x ↔ x = s') ∧ (∀ x, Rewrites L env p s' x ↔ x = s') ∧
      ∀ r, Returns L env p s' r ↔ r = .ok v := by
  have hc : Canon L env (.struct p) v := by
    obtain ⟨-, n, hn⟩ := hr
    have hk := deser_canon (P := fun e => e.PlainText L) hx hrt hC hw hT hsd hpr hdoc.empty ⟨fun _ h => h, trivial⟩ (.inl hfl) n p
      (Rd.new (L.parse s)) ⟨hdoc.events, fun e he => by simp [Rd.new] at he⟩
    exact hk.2 v hn
  exact C59_stable_partial hx hrt hok hroot hr (C62_result_has_type hT hr) hc

/-- With flattened fields, for the XML library of `Model/XmlText.lean` and documents without number signs.  Missing: documents
with number signs; among them are some for which this is false (`C59_false_flat`). -/
theorem C59_flat_partial {L : Lib} (hx : XmlLaw L) (hL : L.parse = XmlText.parse) (hE : L.emit = XmlText.emit)
    (hf : ∀ t, FloatsOk L t) {env : Env} {G : NsMap} (hrt : RtOk env G) (hok : SerOk env)
    (hC : Carries env) (hw : Restores env) (hT : Typed env) (hsd : SettledDefaults L env)
    (hpr : ∀ p d, env p = some (.prim d) → Inverts d) {p : Path} (hroot : RootOk env G p)
    {s : Str} (hno : '#' ∉ s) {v : Val} (hr : Returns L env p s (.ok v)) :
    ∃ s', (∀ x, Rewrites L env p s x ↔ x = s') ∧ (∀ x, Rewrites L env p s' x ↔ x = s') ∧
      ∀ r, Returns L env p s' r ↔ r = .ok v := by
  have hdoc : PlainDoc L s := plainDoc_of_parse hL hf (noBlankRefs_of_none fun hi => hno (hi.subset (by simp)))
  have hc : Canon L env (.struct p) v := by
    obtain ⟨-, n, hn⟩ := hr
    have hk := deser_canon (P := fun e => e.PlainText L ∧ e.NoHash) hx hrt hC hw hT hsd hpr hdoc.empty
      ⟨fun _ h => h.1, trivial, trivial⟩ (.inr (relays_noHash hL hE hf)) n p
      (Rd.new (L.parse s)) ⟨fun e he => ⟨hdoc.events e he, XmlText.parse_noHash hno e (by rw [← hL]; exact he)⟩,
        fun e he => by simp [Rd.new] at he⟩
    exact hk.2 v hn
  exact C59_stable_partial hx hrt hok hroot hr (C62_result_has_type hT hr) hc

/-- **C59** for programs without namespaces and flattened fields: the conditions are simpler. -/
theorem C59_simple_partial {L : Lib} (hx : XmlLaw L) {env : Env} (hs : SimpleProgram env) (hw : Restores env) (hT : Typed env)
    (hsd : SettledDefaults L env) (hpr : ∀ p d, env p = some (.prim d) → Inverts d) {p : Path} (hroot : SimpleRoot env p)
    {s : Str} (hdoc : PlainDoc L s) {v : Val} (hr : Returns L env p s (.ok v)) :
    ∃ s', (∀ x, Rewrites L env p s x ↔ x = s') ∧ (∀ x, Rewrites L env p s' x ↔ x = s') ∧
      ∀ r, Returns L env p s' r ↔ r = .ok v :=
  C59_namespaces_partial hx (rtOk_simple hs) (serOk_simple hs hw) (carries_simple hs) hw hT hsd hpr (noFlat_simple hs)
    (rootOk_simple hs hroot) hdoc hr

/-- For the XML library of `Model/XmlText.lean`, documents without references to tabs and carriage returns are of this kind. -/
theorem C59_plain_documents {L : Lib} (hL : L.parse = XmlText.parse) (hf : ∀ t, FloatsOk L t) {s : Str}
    (hno : NoBlankRefs s) : PlainDoc L s := plainDoc_of_parse hL hf hno

namespace Trip
open Tests

theorem floats (t : Str) : FloatsOk lib t := by
  have key : ∀ b, (parseInt .u64 t).map Int.toNat = .ok b →
      CleanText (showNat b) ∧ isAttrText (showNat b) = true ∧ (parseInt .u64 (showNat b)).map Int.toNat = .ok b := by
    intro b hb
    cases hp : parseInt .u64 t with
    | error m => rw [hp] at hb; simp [Except.map] at hb
    | ok z =>
      rw [hp] at hb
      simp only [Except.map, Except.ok.injEq] at hb
      obtain ⟨_, _, _, hfit, _⟩ := (parseInt_iff .u64 t z).mp hp
      have h0 : z = (b : Int) := by
        have := (fits_iff .u64 z).mp hfit
        have h1 : (0 : Int) ≤ z := this.1
        omega
      subst h0
      have hc := showInt_clean (b : Int)
      have := parseInt_showInt .u64 _ hfit
      refine ⟨hc.1, hc.2, ?_⟩
      rw [show showNat b = showInt (b : Int) from rfl, this]
      rfl
  exact ⟨fun b hb => key b hb, fun b hb => key b hb⟩

theorem settled : SettledDefaults lib env where
  fields := by
    intro p d hp f hf dv hdv
    rw [(writesAll p d hp f hf).1] at hdv
    cases hdv
  enums := by
    intro p d hp
    have hp' := hp
    have := mem_envOf hp
    simp only [prog, mkS, mkE, List.mem_cons, Prod.mk.injEq, List.not_mem_nil, or_false, reduceCtorEq, and_false, false_or,
      TypeDef.enum.injEq] at this
    obtain ⟨rfl, rfl⟩ := this
    exact .unit _ _ 0 _ hp rfl rfl

example : ∃ s', (∀ x, Rewrites lib env [c!"Dir"] odd x ↔ x = s') ∧ (∀ x, Rewrites lib env [c!"Dir"] s' x ↔ x = s') ∧
    ∀ r, Returns lib env [c!"Dir"] s' r ↔ r = .ok oddVal :=
  C59_simple_partial xml simple (restores_of_writesAll writesAll) typed settled prims (simpleRoot_of_check (by decide +kernel))
    (C59_plain_documents rfl floats (noBlankRefs_of_none (by decide +kernel))) reads_odd

end Trip

section
open Tests

def stEnv : Env := envOf [mkS c!"A" [F c!"a" Tests.S attr], mkS c!"B" [F c!"b" Tests.S]]

/-- **C59 is false** for documents with references to white space: a tab in an attribute is written as such, and then read
as a space. -/
theorem C59_false : ∃ (L : Lib) (env : Env) (p : Path) (s : Str) (v : Val), XmlLaw L ∧ SimpleProgram env ∧ WritesAll env ∧
    SimpleRoot env p ∧ Returns L env p s (.ok v) ∧ ¬ RoundTrips L env p v :=
  ⟨lib, stEnv, [c!"A"], c!"<A a='x&#9;y'/>", .struct [.str ['x', '\t', 'y']], xml, simple_of_check _ (by decide +kernel),
    writesAll_of_check _ (by decide +kernel), simpleRoot_of_check (by decide +kernel), returns_of_deOk (by decide +kernel),
    misread (.struct [.str c!"x y"]) (by decide +kernel) (by decide)⟩

/-- … and a carriage return in an element is read as a line feed. -/
theorem C59_false_element : ∃ (L : Lib) (env : Env) (p : Path) (s : Str) (v : Val), XmlLaw L ∧ SimpleProgram env ∧ WritesAll env ∧
    SimpleRoot env p ∧ Returns L env p s (.ok v) ∧ ¬ RoundTrips L env p v :=
  ⟨lib, stEnv, [c!"B"], c!"<B><b>x&#13;y</b></B>", .struct [.str ['x', '\r', 'y']], xml, simple_of_check _ (by decide +kernel),
    writesAll_of_check _ (by decide +kernel), simpleRoot_of_check (by decide +kernel), returns_of_deOk (by decide +kernel),
    misread (.struct [.str ['x', '\n', 'y']]) (by decide +kernel) (by decide)⟩

/-- Attributes in a namespace and of an enum type, a flattened struct, enums with payloads. -/
def wideProg : List (Path × TypeDef) :=
  [mkS c!"Doc" [F c!"k" Tests.S { isAttr := true, pfx := some c!"b" }, F c!"kind" (T c!"Kind") attr, F c!"base" (T c!"Base") flat,
      F c!"x" (I .i32) { pfx := some c!"a" }, F c!"shape" (V (T c!"Shape")) { pfx := some c!"a" }] { nsA with pfx := some c!"a" },
   mkS c!"Base" [F c!"id" (I .u8) attr, F c!"tag" (V Tests.S), F c!"note" (O Tests.S) { text := true }] { nsA with pfx := some c!"a" },
   mkE c!"Kind" [vU c!"Old", vU c!"New"] (.enum 0 []),
   mkE c!"Shape" [vN c!"Round" (I .i32), vN c!"Flat" (T c!"Dim")] (.enum 0 [.int 0]) { nsA with pfx := some c!"a" },
   mkS c!"Dim" [F c!"w" (I .u8), F c!"h" (I .u8)]]

def wideEnv : Env := envOf wideProg

def wideVal : Val :=
  .struct [.str c!"key", .enum 1 [], .struct [.int 3, .vec [.str c!"t", .str c!"u"], .some (.str c!"n")], .int (-5),
    .vec [.enum 0 [.int 7], .enum 1 [.struct [.int 1, .int 2]]]]

theorem widePrims : ∀ p d, wideEnv p = some (.prim d) → Inverts d := by
  intro p d hp
  have := mem_envOf hp
  simp [wideProg, mkS, mkE] at this

theorem wideRt : RtOk wideEnv nsTab := rtOk_of_check nsTab wideProg (by decide +kernel)
theorem wideCarries : Carries wideEnv := carries_of_check wideProg (by decide +kernel)
theorem wideWrites : WritesAll wideEnv := writesAll_of_check wideProg (by decide +kernel)
theorem wideSer : SerOk wideEnv := serOk_of_all _ (by decide)
theorem wideRoot : RootOk wideEnv nsTab [c!"Doc"] := rootOk_of_check 9 (by decide +kernel)

example : RoundTrips lib wideEnv [c!"Doc"] wideVal :=
  C50_tame_partial xml wideRt wideSer wideCarries (plainPayloads_of_check _ (by decide +kernel)) (restores_of_writesAll wideWrites)
    widePrims wideRoot (hasTy_of_check _ (T c!"Doc") _ (by decide +kernel)) (tame_of_check _ _ (by decide +kernel))

theorem wideEnums : ∀ p d, wideEnv p = some (.enum d) → HasTy wideEnv (.struct p) d.dflt ∧ Canon lib wideEnv (.struct p) d.dflt := by
  intro p d hp
  have := mem_envOf hp
  simp only [wideProg, mkS, mkE, List.mem_cons, Prod.mk.injEq, List.not_mem_nil, or_false, reduceCtorEq, and_false, false_or,
    TypeDef.enum.injEq] at this
  rcases this with ⟨rfl, rfl⟩ | ⟨rfl, rfl⟩
  · exact ⟨hasTy_of_check _ (T c!"Kind") _ (by decide +kernel), canon_of_check _ _ 9 (T c!"Kind") _ (by decide +kernel)⟩
  · exact ⟨hasTy_of_check _ (T c!"Shape") _ (by decide +kernel), canon_of_check _ _ 9 (T c!"Shape") _ (by decide +kernel)⟩

theorem wideTyped : Typed wideEnv where
  dflt := by
    intro p d hp f hf dv hdv
    rw [(wideWrites p d hp f hf).1] at hdv
    cases hdv
  enumDflt := fun p d hp => (wideEnums p d hp).1
  prim := by
    intro p d hp
    have := mem_envOf hp
    simp [wideProg, mkS, mkE] at this

theorem wideSettled : SettledDefaults lib wideEnv where
  fields := by
    intro p d hp f hf dv hdv
    rw [(wideWrites p d hp f hf).1] at hdv
    cases hdv
  enums := fun p d hp => (wideEnums p d hp).2

/-- Malformed, misplaced and repeated content, in all sorts of namespaces. -/
def wideOdd : Str := c!"<q:Doc xmlns:q='urn:a' xmlns:b='urn:b' kind='New' b:k=' &lt;' id='+07' b:kind='?'>\n no <q:shape><Flat><h>1</h><zz xmlns='urn:c'/><w>x</w><w>2</w></Flat></q:shape><tag> t <!-- --></tag><b:x>1</b:x><q:x>4</q:x><q:x>-5</q:x> te </q:Doc>"

def wideRead : Val :=
  .struct [.str c!" <", .enum 0 [], .struct [.int 7, .vec [.str c!"t"], .some (.str c!"te")], .int (-5),
    .vec [.enum 1 [.struct [.int 2, .int 1]]]]

example : ∃ s', (∀ x, Rewrites lib wideEnv [c!"Doc"] wideOdd x ↔ x = s') ∧ (∀ x, Rewrites lib wideEnv [c!"Doc"] s' x ↔ x = s') ∧
    ∀ r, Returns lib wideEnv [c!"Doc"] s' r ↔ r = .ok wideRead :=
  C59_flat_partial xml rfl rfl Trip.floats wideRt wideSer wideCarries (restores_of_writesAll wideWrites) wideTyped wideSettled
    widePrims wideRoot (by decide +kernel) (returns_of_deOk (by decide +kernel))

/-- Checker for `NoBlankRefs`. -/
def noBlankB : Str → Bool
  | [] => true
  | c :: s => (c != '&' || (List.range s.length).all fun i => s[i]? != some ';' ||
      (match XmlText.resolveRef (s.take i) with | some r => r != '\t' && r != '\r' | none => true)) && noBlankB s

theorem noBlankRefs_of_check : ∀ s : Str, noBlankB s = true → NoBlankRefs s
  | [], _ => by
    intro m hm
    have := List.infix_nil.mp hm
    simp at this
  | c :: s, h => by
    rw [noBlankB, Bool.and_eq_true] at h
    intro m hm
    rcases List.infix_cons_iff.mp hm with hm | hm
    · obtain ⟨t, ht⟩ := hm
      rw [List.cons_append, List.cons.injEq] at ht
      obtain ⟨hc, hs⟩ := ht
      have h1 := h.1
      rw [← hc] at h1
      simp only [bne_self_eq_false, Bool.false_or, List.all_eq_true] at h1
      have := h1 m.length (by rw [← hs]; simp)
      rw [← hs] at this
      simp only [List.append_assoc, List.getElem?_append_right (Nat.le_refl _), Nat.sub_self, List.cons_append,
        List.getElem?_cons_zero, bne_self_eq_false, Bool.false_or, List.take_left'] at this
      constructor <;> intro e <;> rw [e] at this <;> simp at this
    · exact noBlankRefs_of_check s h.2 m hm

theorem nsWrites : WritesAll (envOf nsProg) := writesAll_of_check nsProg (by decide +kernel)

theorem nsNoEnum {p : Path} {d : EnumDef} (hp : envOf nsProg p = some (.enum d)) : False := by
  have := mem_envOf hp
  simp [nsProg, mkS] at this

theorem nsNoPrim {p : Path} {d : PrimDef} (hp : envOf nsProg p = some (.prim d)) : False := by
  have := mem_envOf hp
  simp [nsProg, mkS] at this

theorem nsNoDflt {p : Path} {d : StructDef} (hp : envOf nsProg p = some (.struct d)) {f : FieldDef} (hf : f ∈ d.fields) {dv : Dflt}
    (h : f.dflt = some dv) : False := by
  rw [(nsWrites p d hp f hf).1] at h
  cases h

theorem nsTyped : Typed (envOf nsProg) :=
  ⟨fun _ _ hp _ hf _ h => (nsNoDflt hp hf h).elim, fun _ _ hp => (nsNoEnum hp).elim, fun _ _ hp => (nsNoPrim hp).elim⟩

theorem nsSettled : SettledDefaults lib (envOf nsProg) :=
  ⟨fun _ _ hp _ hf _ h => (nsNoDflt hp hf h).elim, fun _ _ hp => (nsNoEnum hp).elim⟩

theorem nsPrims : ∀ p d, envOf nsProg p = some (.prim d) → Inverts d := fun _ _ hp => (nsNoPrim hp).elim

theorem nsNoFlat : NoFlatten (envOf nsProg) := by
  intro p d hp
  have := mem_envOf hp
  simp only [nsProg, mkS, List.mem_cons, Prod.mk.injEq, List.not_mem_nil, or_false, TypeDef.struct.injEq] at this
  rcases this with ⟨-, rfl⟩ | ⟨-, rfl⟩ <;> simp [F, attr]

/-- Two namespaces, and references to characters that are not white space. -/
example : ∃ s', (∀ x, Rewrites lib (envOf nsProg) [c!"Doc"]
      c!"<u:Doc xmlns:u='urn:a' xmlns='urn:b' k='&#65;' u:k='&#x20;b'><u:x>1</u:x><u:sub><u:zz/><w>&#66; </w></u:sub><y>&#10;&#x41;</y><u:x>&#50;</u:x></u:Doc>" x ↔ x = s') ∧
    (∀ x, Rewrites lib (envOf nsProg) [c!"Doc"] s' x ↔ x = s') ∧
    ∀ r, Returns lib (envOf nsProg) [c!"Doc"] s' r ↔
      r = .ok (.struct [.int 2, .str c!"A", .none, .str c!" b", .vec [.struct [.str c!"B"]]]) :=
  C59_namespaces_partial xml (rtOk_of_check nsTab nsProg (by decide +kernel)) (serOk_of_all _ (by decide))
    (carries_of_check nsProg (by decide +kernel)) (restores_of_writesAll nsWrites)
    nsTyped nsSettled nsPrims nsNoFlat
    (rootOk_of_check 9 (by decide +kernel)) (C59_plain_documents rfl Trip.floats (noBlankRefs_of_check _ (by decide +kernel)))
    (returns_of_deOk (by decide +kernel))

/-- **C59 is false** with flattened fields, although there are only references by name: a namespace name can smuggle a numeric
one into the document assembled for the flattened field (see `C26_false_namespace`). -/
theorem C59_false_flat : ∃ (L : Lib) (env : Env) (p : Path) (s : Str) (v : Val), XmlLaw L ∧ RtOk env [] ∧ SerOk env ∧ Carries env ∧
    WritesAll env ∧ RootOk env [] p ∧ PlainDoc L s ∧ Returns L env p s (.ok v) ∧ ¬ RoundTrips L env p v :=
  ⟨lib, envOf [mkS c!"A" [F c!"b" (T c!"B") flat], mkS c!"B" [F c!"k" Tests.S attr]], [c!"A"],
    c!"<A xmlns:p='u&quot; k=&quot;x&amp;#9;y'/>", .struct [.struct [.str ['x', '\t', 'y']]], xml, rtOk_of_check _ _ (by decide +kernel),
    serOk_of_all _ (by decide), carries_of_check _ (by decide +kernel), writesAll_of_check _ (by decide +kernel),
    rootOk_of_check 9 (by decide +kernel), C59_plain_documents rfl Trip.floats (noBlankRefs_of_none (by decide +kernel)),
    returns_of_deOk (by decide +kernel), misread (.struct [.struct [.str c!"x y"]]) (by decide +kernel) (by decide)⟩

end

end Yaserde
