import Verif.Proofs.GenSerKnot
import Verif.Props.Macro
import Verif.Props.Total
/-
C77: the code that `#[derive(YaSerialize)]` prints does what the interpreter of schemas does.
-/

set_option autoImplicit false
set_option maxRecDepth 100000

namespace Yaserde

/-- `yaserde::ser::serialize_with_writer`, where the implementations of `YaSerialize` are the printed programs; `io` says which
writes fail. -/
def genSerializeWithWriter (L : Lib) (env : Env) (fuel : Nat) (p : Path) (v : Val) (io : Nat → Option Str := fun _ => none) :
    Res Unit × List WEv :=
  match Rs.serGen L env fuel p v (Sr.new { io := io }) with
  | (r, s) => (r, s.writer.out)

/-- `yaserde::ser::to_string_with_config`, likewise. -/
def genToStringWithConfig (L : Lib) (env : Env) (fuel : Nat) (c : Config) (p : Path) (v : Val) : Res Str :=
  match genSerializeWithWriter L env fuel p v with
  | (.ok (), evs) => .ok (L.emit c.emitCfg evs)
  | (.err m, _) => .err m
  | (.panic m, _) => .panic m
  | (.diverge, _) => .diverge

/-- A named field of a variant is not called like a variable of the template that is used after the field is bound: `writer`, or
`struct_start_event` if the field is scalar.  (Fields of type `Option` are not written at all.) -/
def SynField.NoCapture (f : SynField) : Prop :=
  ∀ x t, f.ident = some x → Denotes f.ty t →
    ((∀ u, t ≠ .opt u) → Rs.unraw x ≠ c!"writer") ∧ ∀ s, t = .simple s → Rs.unraw x ≠ c!"struct_start_event"

def DeriveInput.NoCapture (i : DeriveInput) : Prop :=
  ∀ vs, i.data = .enum vs → ∀ v ∈ vs, ∀ fs, v.fields = .named fs → ∀ f ∈ fs, f.NoCapture

/-- The program consists of items for which `YaSerialize` can be derived (and primitive types). -/
def DerivedSer (env : Env) : Prop :=
  ∀ p td, env p = some td → (∃ d, td = .prim d) ∨ ∃ fn i, serAccepts i = .ok () ∧ i.NoCapture ∧ i.toDef fn = .ok td

theorem DerivedSer.derived {env : Env} (h : DerivedSer env) : Derived env := by
  intro p td hp
  rcases h p td hp with h | ⟨fn, i, h1, -, h2⟩
  · exact .inl h
  · exact .inr ⟨fn, i, h1, h2⟩

theorem Options.unique {as : List SynAttr} {y y' : YAttr} (h : Options as y) (h' : Options as y') : y = y' := by
  rw [← attrFrom_iff] at h h'
  rw [h] at h'
  injection h'

theorem serField_fieldSer {fn : UserFns} {s : SynField} {f : FieldDef} (h : SerField s) (hf : FieldOf fn s f) : Rs.FieldSer f := by
  refine ⟨serField_ok h hf, ?_⟩
  obtain ⟨y, t, x, h1, h2, -, h4, -⟩ := h
  obtain ⟨-, h5, y', h6, h7, -⟩ := hf
  obtain rfl := h1.unique h6
  obtain rfl := h2.unique h5
  intro ha ht
  rw [h7] at ha
  rw [ht] at h4
  cases h4 with
  | attr _ h => rw [ha] at h; cases h
  | attrVec _ h => rw [ha] at h; cases h
  | elem _ _ _ _ hs => cases hs
  | vecOpt _ _ _ _ hs => exact hs rfl

theorem userVar_eq_writer {x : Str} (h : Rs.userVar x = .writer) : Rs.unraw x = c!"writer" := by
  unfold Rs.userVar Rs.templateVars at h
  by_contra hn
  simp only [List.find?_cons] at h
  repeat' split at h
  all_goals simp_all

theorem userVar_eq_start {x : Str} (h : Rs.userVar x = .struct_start_event) : Rs.unraw x = c!"struct_start_event" := by
  unfold Rs.userVar Rs.templateVars at h
  by_contra hn
  simp only [List.find?_cons] at h
  repeat' split at h
  all_goals simp_all

theorem serNamed_ok {fn : UserFns} {root : Attrs} {s : SynField} {f : FieldDef} (h : SerNamed root s) (hc : s.NoCapture)
    (hf : FieldOf fn s f) : Rs.NamedSer root f := by
  obtain ⟨y, t, h1, h2, h3, h4, -, h6, h7⟩ := h
  obtain ⟨hx, h8, y', h9, h10, -⟩ := hf
  obtain rfl := h1.unique h9
  obtain rfl := h2.unique h8
  obtain ⟨hw, hst⟩ := hc _ _ hx h8
  refine ⟨by rw [h10]; exact h3, by rw [h10]; exact h4, ?_, fun ha q hq => (h7 (by rw [← h10]; exact ha) q hq).1, ?_,
    fun hn he => hw hn (userVar_eq_writer he), fun t ht he => hst t ht (userVar_eq_start he)⟩
  · rcases h6 with ⟨s, e⟩ | ⟨s, e⟩ | ⟨s, e⟩ | ⟨s, -, e⟩ | ⟨s, e⟩ <;> rw [e] <;> trivial
  · intro e'
    rcases h6 with ⟨s, e⟩ | ⟨s, e⟩ | ⟨s, e⟩ | ⟨s, hs, e⟩ | ⟨s, e⟩ <;> rw [e] at e' <;> simp_all

/-- What the macro accepts is what the printed code is correct for. -/
theorem DerivedSer.ok {env : Env} (h : DerivedSer env) : Rs.EnvSer env where
  structs p d hd f hf := by
    rcases h p _ hd with ⟨_, hp⟩ | ⟨fn, i, h1, h2, h3⟩
    · cases hp
    · obtain ⟨-, -, fs, h4, h5⟩ := C66_struct fn i d h3
      obtain ⟨y, -, h6⟩ := (serAccepts_iff i).mp h1
      rw [h4] at h6
      obtain ⟨s, h7, h8⟩ := forall₂_mem_right h5 hf
      exact serField_fieldSer (h6 s h7) h8
  enums p d hd v hv := by
    refine ⟨fun t ht => (C66_serOk h.derived).variants p d hd v hv t ht, fun fds hs f hf => ?_⟩
    rcases h p _ hd with ⟨_, hp⟩ | ⟨fn, i, h1, h2, h3⟩
    · cases hp
    · obtain ⟨-, ⟨y, h4, h5⟩, -, vs, h6, h7⟩ := C66_enum fn i d h3
      obtain ⟨y', h8, h9⟩ := (serAccepts_iff i).mp h1
      obtain rfl := h4.unique h8
      rw [h6] at h9
      obtain ⟨s, h10, h11⟩ := forall₂_mem_right h7 hv
      have h12 := (h9 s h10).2
      rcases h11.named fds hs with ⟨-, rfl⟩ | ⟨fs, h13, h14⟩
      · cases hf
      · rw [h13] at h12
        obtain ⟨g, h15, h16⟩ := forall₂_mem_right h14 hf
        rw [h5]
        exact serNamed_ok (h12 g h15) (h2 vs h6 s h10 fs h13 g h15) h16

/-- **C77.** The printed `serialize` function writes the same events, leaves the writer in the same state and returns the same
result as the interpreter of schemas, from every state of the writer and whichever writes fail.  Calls are nested no deeper than
the value is large. -/
theorem C77_same (L : Lib) {env : Env} (h : DerivedSer env) {p : Path} {v : Val} (hv : HasTy env (.struct p) v) {n : Nat}
    (hn : sizeOf v < n) (s : Sr) : Rs.serGen L env n p v s = serTy L env p v s := by
  rw [(Rs.gen_eq L h.ok n).1 p v hv hn]

/-- **C77.** And so does the printed `serialize_attributes`, as it is called by the parent's `serialize`. -/
theorem C77_attributes (L : Lib) {env : Env} (h : DerivedSer env) {p : Path} {v : Val} (hv : HasTy env (.struct p) v) {n : Nat}
    (hn : sizeOf v < n) : Rs.attrsGen L env n p v [] [] = attrsOf L env p v :=
  (Rs.gen_eq L h.ok n).2 p v hv hn

/-- More budget does not change what the printed program does. -/
theorem C77_budget (L : Lib) (env : Env) (p : Path) (v : Val) {n m : Nat} (h : n ≤ m) (s : Sr)
    (hn : (Rs.serGen L env n p v s).1 ≠ .diverge) : Rs.serGen L env m p v s = Rs.serGen L env n p v s :=
  (Rs.gen_mono L env h).1 p v s hn

/-- **C77.** With whatever budget the printed program comes to an end, it does what the interpreter does. -/
theorem C77_returned (L : Lib) {env : Env} (h : DerivedSer env) {p : Path} {v : Val} (hv : HasTy env (.struct p) v) (n : Nat) (s : Sr)
    (hn : (Rs.serGen L env n p v s).1 ≠ .diverge) : Rs.serGen L env n p v s = serTy L env p v s := by
  rw [← C77_same L h hv (n := n + (sizeOf v + 1)) (by omega) s]
  exact (C77_budget L env p v (by omega) s hn).symm

/-- **C77.** `serialize_with_writer`. -/
theorem C77_writer (L : Lib) {env : Env} (h : DerivedSer env) {p : Path} {v : Val} (hv : HasTy env (.struct p) v) {n : Nat}
    (hn : sizeOf v < n) (io : Nat → Option Str) : genSerializeWithWriter L env n p v io = serializeWithWriter L env p v io := by
  unfold genSerializeWithWriter serializeWithWriter
  rw [C77_same L h hv hn]

/-- **C77.** `to_string_with_config`. -/
theorem C77_string (L : Lib) {env : Env} (h : DerivedSer env) {p : Path} {v : Val} (hv : HasTy env (.struct p) v) {n : Nat}
    (hn : sizeOf v < n) (c : Config) : genToStringWithConfig L env n c p v = toStringWithConfig L env c p v := by
  unfold genToStringWithConfig toStringWithConfig
  rw [C77_writer L h hv hn]
  rcases serializeWithWriter L env p v with ⟨r, evs⟩
  cases r <;> rfl

/-- **C77.** `to_string_content`. -/
theorem C77_content (L : Lib) {env : Env} (h : DerivedSer env) {p : Path} {v : Val} (hv : HasTy env (.struct p) v) {n : Nat}
    (hn : sizeOf v < n) : contentOf L (Rs.serGen L env n p v) = toStringContent L env p v := by
  unfold toStringContent
  rw [(Rs.gen_eq L h.ok n).1 p v hv hn]

namespace MacroSample
open Tests

theorem derivedSer : DerivedSer (envOf prog) := by
  intro p td h
  have := mem_envOf h
  simp only [prog, List.mem_cons, List.not_mem_nil, or_false, Prod.mk.injEq] at this
  rcases this with ⟨-, rfl⟩ | ⟨-, rfl⟩ | ⟨-, rfl⟩
  · exact .inr ⟨fns, book, book_ser, (by rintro fs h; cases h), book_toDef⟩
  · refine .inr ⟨fns, kind, kind_ser, ?_, kind_toDef⟩
    rintro vs ⟨rfl⟩ v hv fs hf f hff x t hx ht
    simp only [List.mem_cons, List.not_mem_nil, or_false] at hv
    rcases hv with rfl | rfl | rfl <;> cases hf
    rcases List.mem_singleton.mp hff with rfl
    cases hx
    exact ⟨fun _ => by decide, fun _ _ => by decide⟩
  · exact .inl ⟨_, rfl⟩

def bookVal : Val := .struct [.int 3, .vec [.str c!"x", .str c!"y"], .some (.int 7)]

/-- The printed program writes a book as the interpreter does … -/
example (io : Nat → Option Str) : genSerializeWithWriter lib (envOf prog) 10000 [c!"Book"] bookVal io =
    serializeWithWriter lib (envOf prog) [c!"Book"] bookVal io :=
  C77_writer lib derivedSer (hasTy_of_check _ _ _ rfl) (by decide) io

/-- … and a kind of book, inside an element of the parent's. -/
example (s : Sr) : Rs.serGen lib (envOf prog) 10000 [c!"Kind"] (.enum 1 [bookVal]) s = serTy lib (envOf prog) [c!"Kind"] (.enum 1 [bookVal]) s :=
  C77_same lib derivedSer (hasTy_of_check _ _ _ rfl) (by decide) s

/-- The printed program itself, run. -/
example : genToStringWithConfig lib (envOf prog) 5 {} [c!"Book"] bookVal =
    .ok c!"<?xml version=\"1.0\" encoding=\"utf-8\"?><b:book xmlns:a=\"urn:a\" xmlns:b=\"urn:b\" id=\"3\"><b:titles>x</b:titles><b:titles>y</b:titles><price>7</price></b:book>" := by decide +kernel

/-! ### Names of the template -/

/-- `enum Log { Line { writer: u32 } }` -/
def log (x : Str) : DeriveInput := ⟨c!"Log", [], .enum [⟨c!"Line", [], .named [⟨some x, ty c!"u32", []⟩]⟩]⟩

def logDef (x : Str) : EnumDef :=
  { name := c!"Log", variants := [{ ident := c!"Line", shape := .named [{ ident := x, ty := .simple (.int .u32) }] }], dflt := .enum 0 [] }

def logEnv (x : Str) : Env := envOf [([c!"Log"], .enum (logDef x))]

theorem log_names (x : Str) : (log x).NoCapture ↔ Rs.unraw x ≠ c!"writer" ∧ Rs.unraw x ≠ c!"struct_start_event" := by
  constructor
  · intro h
    obtain ⟨h1, h2⟩ := h _ rfl _ (List.mem_singleton.mpr rfl) _ rfl _ (List.mem_singleton.mpr rfl) x (.simple (.int .u32)) rfl
      (.scalar [] c!"u32" .none (.int .u32) (by simp [scalarTable]))
    exact ⟨h1 (by simp), h2 _ rfl⟩
  · rintro ⟨h1, h2⟩ vs ⟨rfl⟩ v hv fs hf f hff y t hy ht
    rcases List.mem_singleton.mp hv with rfl
    cases hf
    rcases List.mem_singleton.mp hff with rfl
    cases hy
    exact ⟨fun _ => h1, fun _ _ => h2⟩

theorem stuck_writer : genToStringWithConfig lib (logEnv c!"writer") 1 {} [c!"Log"] (.enum 0 [.int 5]) = .panic c!"stuck" := by
  decide +kernel

theorem stuck_start : genToStringWithConfig lib (logEnv c!"struct_start_event") 1 {} [c!"Log"] (.enum 0 [.int 5]) = .panic c!"stuck" := by
  decide +kernel

/-- **C77 (capture).** `NoCapture` cannot be dropped: the macro accepts a variant with a field called `writer`, or
`struct_start_event`, but the code it prints uses the field for the writer (or for the start event): it gets stuck, which is to say
that rustc rejects it.  The interpreter of schemas, which has no such names, writes the value. -/
theorem C77_false_capture (x : Str) (hx : x = c!"writer" ∨ x = c!"struct_start_event") (n : Nat) (hn : 0 < n) :
    serAccepts (log x) = .ok () ∧ (log x).toDef fns = .ok (.enum (logDef x)) ∧
    genToStringWithConfig lib (logEnv x) n {} [c!"Log"] (.enum 0 [.int 5]) = .panic c!"stuck" ∧
    ∃ s, Yaserde.toString lib (logEnv x) [c!"Log"] (.enum 0 [.int 5]) = .ok s := by
  have h1 : genToStringWithConfig lib (logEnv x) 1 {} [c!"Log"] (.enum 0 [.int 5]) = .panic c!"stuck" := by
    rcases hx with rfl | rfl
    · exact stuck_writer
    · exact stuck_start
  have h2 : serAccepts (log x) = .ok () := by rcases hx with rfl | rfl <;> rfl
  have h3 : (log x).toDef fns = .ok (.enum (logDef x)) := by rcases hx with rfl | rfl <;> rfl
  refine ⟨h2, h3, ?_, ?_⟩
  · rw [← h1]
    unfold genToStringWithConfig genSerializeWithWriter at h1 ⊢
    rw [C77_budget lib _ _ _ (show 1 ≤ n from hn) _ (fun hd => ?_)]
    rcases hg : Rs.serGen lib (logEnv x) 1 [c!"Log"] (.enum 0 [.int 5]) (Sr.new { io := fun _ => none }) with ⟨r, s⟩
    rw [hg] at hd h1
    dsimp only at hd
    rw [hd] at h1
    cases h1
  · refine C66_serializes lib ?_ (hasTy_of_check _ _ _ rfl)
    intro p td h
    have := mem_envOf h
    simp only [List.mem_cons, List.not_mem_nil, or_false, Prod.mk.injEq] at this
    obtain ⟨-, rfl⟩ := this
    exact .inr ⟨fns, log x, h2, h3⟩

/-- A field called `item` does no harm. -/
example : DerivedSer (logEnv c!"item") := by
  intro p td h
  have := mem_envOf h
  simp only [List.mem_cons, List.not_mem_nil, or_false, Prod.mk.injEq] at this
  obtain ⟨-, rfl⟩ := this
  exact .inr ⟨fns, log c!"item", rfl, (log_names _).mpr (by decide), rfl⟩

end MacroSample

end Yaserde
