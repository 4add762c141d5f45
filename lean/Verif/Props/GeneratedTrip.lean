import Verif.Props.Generated
import Verif.Props.GeneratedSer
import Verif.Props.RoundTrip
import Verif.Props.Panic
import Verif.Props.Sound
/-
C79: writing with one printed program and reading with the other.
-/

set_option autoImplicit false
set_option maxRecDepth 100000

namespace Yaserde

/-- `yaserde::ser::to_string`, where the implementations of `YaSerialize` are the printed programs, returns `s`. -/
def GenWrites (L : Lib) (env : Env) (p : Path) (v : Val) (r : Res Str) : Prop :=
  r ≠ .diverge ∧ ∃ n, genToStringWithConfig L env n {} p v = r

/-- `from_str(&to_string(&v))`, with the printed programs, returns, and what it returns is `Ok(v)`. -/
def GenRoundTrips (L : Lib) (env : Env) (p : Path) (v : Val) : Prop :=
  ∃ s, GenWrites L env p v (.ok s) ∧ ∀ r, GenReturns L env p s r ↔ r = .ok v

theorem genWrites_iff (L : Lib) {env : Env} (h : DerivedSer env) {p : Path} {v : Val} (hv : HasTy env (.struct p) v) (r : Res Str) :
    GenWrites L env p v r ↔ toString L env p v = r := by
  obtain ⟨s, hs⟩ := C66_serializes L h.derived hv
  have key : ∀ n, genToStringWithConfig L env n {} p v ≠ .diverge → genToStringWithConfig L env n {} p v = toString L env p v := by
    intro n hn
    unfold toString
    rw [← C77_string L h hv (n := n + (sizeOf v + 1)) (by omega) {}]
    unfold genToStringWithConfig genSerializeWithWriter at hn ⊢
    rw [C77_budget L env p v (show n ≤ n + (sizeOf v + 1) by omega)]
    intro hd
    rcases hg : Rs.serGen L env n p v (Sr.new { io := fun _ => none }) with ⟨r, s⟩
    rw [hg] at hd hn
    dsimp only at hd
    rw [hd] at hn
    exact hn rfl
  constructor
  · rintro ⟨h1, n, rfl⟩
    exact (key n h1).symm
  · rintro rfl
    refine ⟨by rw [hs]; simp, sizeOf v + 1, C77_string L h hv (by omega) {}⟩

/-- **C79.** Writing a value of the program with the printed program comes to an end, with a text: it does not fail and does not
panic. -/
theorem C79_writes (L : Lib) {env : Env} (h : DerivedSer env) {p : Path} {v : Val} (hv : HasTy env (.struct p) v) :
    ∃ s, ∀ r, GenWrites L env p v r ↔ r = .ok s := by
  obtain ⟨s, hs⟩ := C66_serializes L h.derived hv
  refine ⟨s, fun r => ?_⟩
  rw [genWrites_iff L h hv, hs]
  exact eq_comm

/-- **C79.** A value survives being written and read by the printed programs exactly if it does so for the interpreter: what C50 to
C60 say about round trips, that they succeed and that they do not, is so of the printed programs. -/
theorem C79_round_trip (L : Lib) (hL : ∀ s, WellFormed (L.parse s)) {env : Env} (hd : DerivedDe env) (hs : DerivedSer env) {p : Path}
    {v : Val} (hv : HasTy env (.struct p) v) : GenRoundTrips L env p v ↔ RoundTrips L env p v := by
  unfold GenRoundTrips RoundTrips
  simp only [genWrites_iff L hs hv, C76_returns L hL hd]

/-- **C79.** In particular, programs with namespaces and flattened fields: every value whose strings are non-empty and trimmed
survives. -/
theorem C79_tame_partial {L : Lib} (hL : ∀ s, WellFormed (L.parse s)) (hx : XmlLaw L) {env : Env} (hd : DerivedDe env)
    (hs : DerivedSer env) {G : NsMap} (hrt : RtOk env G) (hC : Carries env) (hP : PlainPayloads env) (hw : Restores env)
    (hpr : ∀ p d, env p = some (.prim d) → Inverts d) {p : Path} (hroot : RootOk env G p) {v : Val}
    (hv : HasTy env (.struct p) v) (ht : v.Tame L) : GenRoundTrips L env p v :=
  (C79_round_trip L hL hd hs hv).mpr (C50_tame_partial hx hrt (C66_serOk hs.derived) hC hP hw hpr hroot hv ht)

/-- **C79.** Reading with the printed program: whatever the text, the only panic is the `unwrap` of the scalar of a variant; the
program never gets stuck. -/
theorem C79_panics (L : Lib) (hL : ∀ s, WellFormed (L.parse s)) {env : Env} (hd : DerivedDe env) (p : Path)
    (hc : ∀ q, Reaches env p q → Checked env q) (s : Str) (m : Str) (h : GenReturns L env p s (.panic m)) :
    m = c!"called `Result::unwrap()` on an `Err` value" ∧ ∃ q, Reaches env p q ∧ Unwraps L env q :=
  C22_panic_only_partial L hL env p hc s m ((C76_returns L hL hd p s _).mp h)

/-- **C79.** A value that the printed program reads, from whatever text, has its type, and the printed program writes it. -/
theorem C79_read_then_write {L : Lib} (hL : ∀ s, WellFormed (L.parse s)) {env : Env} (hd : DerivedDe env) (hs : DerivedSer env)
    (hT : Typed env) {p : Path} {s : Str} {v : Val} (h : GenReturns L env p s (.ok v)) :
    HasTy env (.struct p) v ∧ ∃ t, ∀ r, GenWrites L env p v r ↔ r = .ok t := by
  have hv := C62_result_has_type hT ((C76_returns L hL hd p s _).mp h)
  exact ⟨hv, C79_writes L hs hv⟩

namespace TripSample
open Tests MacroSample

/-! The program of `Trip`, as it is written in Rust. -/

def asAttr : SynAttr := yaserde [(c!"attribute", .bool true)]

/-- `struct Dir { #[yaserde(attribute = true)] name: String, #[yaserde(attribute = true)] mode: Option<u16>, entry: Vec<Entry>,
#[yaserde(text = true)] note: Option<String> }` -/
def dir : DeriveInput := ⟨c!"Dir", [], .struct (.named [⟨some c!"name", ty c!"String", [asAttr]⟩,
  ⟨some c!"mode", one c!"Option" (ty c!"u16"), [asAttr]⟩, ⟨some c!"entry", one c!"Vec" (ty c!"Entry"), []⟩,
  ⟨some c!"note", one c!"Option" (ty c!"String"), [yaserde [(c!"text", .bool true)]]⟩])⟩

/-- `struct Entry { file: Option<String>, dir: Option<Dir>, kind: Kind, hash: Vec<Hash> }` -/
def entry : DeriveInput := ⟨c!"Entry", [], .struct (.named [⟨some c!"file", one c!"Option" (ty c!"String"), []⟩,
  ⟨some c!"dir", one c!"Option" (ty c!"Dir"), []⟩, ⟨some c!"kind", ty c!"Kind", []⟩, ⟨some c!"hash", one c!"Vec" (ty c!"Hash"), []⟩])⟩

/-- `enum Kind { Plain, Link(String), Meta(Info), Size(u64) }` -/
def kind : DeriveInput := ⟨c!"Kind", [], .enum [⟨c!"Plain", [], .unit⟩, ⟨c!"Link", [], .unnamed [⟨none, ty c!"String", []⟩]⟩,
  ⟨c!"Meta", [], .unnamed [⟨none, ty c!"Info", []⟩]⟩, ⟨c!"Size", [], .unnamed [⟨none, ty c!"u64", []⟩]⟩]⟩

/-- `struct Info { a: i32, b: bool }` -/
def info : DeriveInput := ⟨c!"Info", [], .struct (.named [⟨some c!"a", ty c!"i32", []⟩, ⟨some c!"b", ty c!"bool", []⟩])⟩

theorem mem {p : Path} {td : TypeDef} (h : Trip.env p = some td) :
    (∃ d, td = .prim d) ∨ ∃ i ∈ [dir, entry, kind, info], i.toDef fns = .ok td := by
  have := mem_envOf h
  simp only [Trip.prog, mkS, mkE, List.mem_cons, Prod.mk.injEq, List.not_mem_nil, or_false] at this
  rcases this with ⟨-, rfl⟩ | ⟨-, rfl⟩ | ⟨-, rfl⟩ | ⟨-, rfl⟩ | ⟨-, rfl⟩
  · exact .inr ⟨dir, by simp, rfl⟩
  · exact .inr ⟨entry, by simp, rfl⟩
  · exact .inr ⟨kind, by simp, rfl⟩
  · exact .inr ⟨info, by simp, rfl⟩
  · exact .inl ⟨_, rfl⟩

theorem derivedDe : DerivedDe Trip.env := by
  intro p td h
  rcases mem h with h | ⟨i, hi, h⟩
  · exact .inl h
  · refine .inr ⟨fns, i, ?_, ?_, h⟩
    · simp only [List.mem_cons, List.not_mem_nil, or_false] at hi
      rcases hi with rfl | rfl | rfl | rfl <;> rfl
    · intro fs hf
      simp only [List.mem_cons, List.not_mem_nil, or_false] at hi
      rcases hi with rfl | rfl | rfl | rfl <;> cases hf <;> decide

theorem derivedSer : DerivedSer Trip.env := by
  intro p td h
  rcases mem h with h | ⟨i, hi, h⟩
  · exact .inl h
  · refine .inr ⟨fns, i, ?_, ?_, h⟩
    · simp only [List.mem_cons, List.not_mem_nil, or_false] at hi
      rcases hi with rfl | rfl | rfl | rfl <;> rfl
    · rintro vs hv v hm fs hfs
      simp only [List.mem_cons, List.not_mem_nil, or_false] at hi
      rcases hi with rfl | rfl | rfl | rfl <;> cases hv
      simp only [List.mem_cons, List.not_mem_nil, or_false] at hm
      rcases hm with rfl | rfl | rfl | rfl <;> cases hfs

/-- A directory survives being written and read by the printed programs, whatever its names, as long as they are trimmed … -/
example (x : Str) (hx : CleanText x) (ha : isAttrText x = true) :
    GenRoundTrips lib Trip.env [c!"Dir"] (.struct [.str x, .some (.int 493), .vec [], .none]) := by
  refine C79_tame_partial wf xml derivedDe derivedSer (rtOk_simple Trip.simple) (carries_simple Trip.simple)
    (plainPayloads_simple Trip.simple) (restores_of_writesAll Trip.writesAll) Trip.prims
    (rootOk_simple Trip.simple (simpleRoot_of_check (by decide +kernel))) (hasTy_of_check _ _ _ rfl) ?_
  simp only [Val.Tame, TameL]
  exact ⟨⟨hx, ha⟩, trivial, trivial, trivial, trivial⟩

/-- … and so does a large one. -/
example : GenRoundTrips lib Trip.env [c!"Dir"] Trip.val :=
  (C79_round_trip lib wf derivedDe derivedSer (hasTy_of_check _ (T c!"Dir") _ (by decide +kernel))).mpr
    (C50_simple_partial xml Trip.simple (restores_of_writesAll Trip.writesAll) Trip.prims (simpleRoot_of_check (by decide +kernel))
    (hasTy_of_check _ (T c!"Dir") _ (by decide +kernel)) (tame_of_check lib _ (by decide +kernel)))

/-- An empty string does not survive. -/
example : ¬ GenRoundTrips lib Trip.env [c!"Entry"] (.struct [.some (.str []), .none, .enum 0 [], .vec []]) := by
  rw [C79_round_trip lib wf derivedDe derivedSer (hasTy_of_check _ (T c!"Entry") _ (by decide +kernel))]
  exact misread (.struct [.none, .none, .enum 0 [], .vec []]) (by decide +kernel) (by decide)

end TripSample

end Yaserde
