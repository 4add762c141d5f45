import Verif.Props.WellFormed
import Verif.Proofs.LayoutSer
/-
C43: the layout of a document, also of one that is not well formed.
-/

set_option autoImplicit false
set_option maxRecDepth 100000

namespace Yaserde

/-- **C43** for every value, legal or not, of any program in whose names there is no `<` (and of whose names none is empty or
begins with `!`): with one configuration the value is written if and only if it is with the other one, with the same error or panic
if not; and if it is written, then the two texts contain the same events — or the same events up to the same error of the XML
parser —, so that all types of all programs are read from them with the same result. -/
theorem C43_every_value_partial {L : Lib} (hp : L.parse = XmlText.parse) (he : L.emit = XmlText.emit) {env : Env} (henv : PlainNames env)
    (p : Path) (v : Val) (c c' : Config) (hc : c.emitCfg.Blank) (hc' : c'.emitCfg.Blank) :
    (∃ s s', toStringWithConfig L env c p v = .ok s ∧ toStringWithConfig L env c' p v = .ok s' ∧ L.parse s = L.parse s' ∧
      ∀ (env' : Env) (q : Path) (r : Res Val), Returns L env' q s r ↔ Returns L env' q s' r) ∨
    (toStringWithConfig L env c p v = toStringWithConfig L env c' p v ∧ ∀ s, toStringWithConfig L env c p v ≠ .ok s) := by
  have ht := tidy_serTy L henv p v (Sr.new {}) ⟨fun _ h => absurd h List.not_mem_nil, fun _ h => by cases h⟩
  unfold toStringWithConfig serializeWithWriter
  change PlainSr (serTy L env p v (Sr.new { io := fun _ => none })).2 at ht
  cases hs : serTy L env p v (Sr.new { io := fun _ => none }) with
  | mk r s =>
    rw [hs] at ht
    cases r with
    | ok u =>
      have h : L.parse (L.emit c.emitCfg s.writer.out) = L.parse (L.emit c'.emitCfg s.writer.out) := by
        rw [hp, he]
        exact XmlText.parse_layout hc hc' ht.out
      exact .inl ⟨_, _, rfl, rfl, h, fun env' q r => returns_of_parse h r⟩
    | err m => exact .inr ⟨rfl, fun _ h => by cases h⟩
    | panic m => exact .inr ⟨rfl, fun _ h => by cases h⟩
    | diverge => exact .inr ⟨rfl, fun _ h => by cases h⟩

namespace LayoutSample
open Tests

def namesB : TypeDef → Bool
  | .struct d => decide (TagName (d.attrs.written d.name)) && decide d.attrs.PlainNs && d.fields.all fun f => decide (TagName (f.written d.attrs))
  | .enum d =>
    decide (TagName (d.attrs.written d.name)) && decide d.attrs.PlainNs && (d.attrs.tag.all fun t => decide ('<' ∉ t)) &&
      d.variants.all fun v => decide (TagName (v.written d.attrs)) &&
        match v.shape with | .named fds => fds.all fun f => decide (TagName (f.written d.attrs)) | _ => true
  | .prim d => decide (TagName d.name)

theorem plainNames_of_check {t : TypeDef} (h : namesB t = true) : t.PlainNames := by
  cases t with
  | struct d =>
    simp only [namesB, Bool.and_eq_true, decide_eq_true_eq, List.all_eq_true] at h
    exact ⟨h.1.1, h.1.2, h.2⟩
  | enum d =>
    simp only [namesB, Bool.and_eq_true, decide_eq_true_eq, List.all_eq_true] at h
    refine ⟨h.1.1.1, h.1.1.2, fun t ht => ?_, fun v hv => ⟨(h.2 v hv).1, fun fds hs f hf => ?_⟩⟩
    · have := h.1.2
      rw [ht] at this
      simpa using this
    · have := (h.2 v hv).2
      rw [hs] at this
      simp only [List.all_eq_true, decide_eq_true_eq] at this
      exact this f hf
  | prim d =>
    simp only [namesB, decide_eq_true_eq] at h
    exact h

theorem plainNames_of_all (prog : List (Path × TypeDef)) (h : prog.all (fun e => namesB e.2) = true) : PlainNames (envOf prog) :=
  fun _ _ hp => plainNames_of_check (List.all_eq_true.1 h _ (mem_envOf hp))

/-! The program of `Props/WellFormed.lean`, and a value whose CDATA section ends too early, with a control character and an
attribute with a line feed: the text is not well formed, and the parser reports the same error for all layouts. -/

def broken : Val :=
  .struct [.str c!"i\n", .vec [.enum 0 [], .enum 1 [.str c!"]]>"]],
    .struct [.none, .str c!"\u0001"], .some (.struct [.vec [.str c!" ", .str []]]), .str c!"a]]></b><![CDATA[", .some (.str c!"\t")]

theorem plain : PlainNames WfSample.env := plainNames_of_all _ (by decide +kernel)

def tabs : Config := { performIndent := true, indentString := some c!"\t" }
def bare : Config := { writeDecl := false }

theorem tabs_blank : tabs.emitCfg.Blank := by intro i h; simp [tabs, Config.emitCfg] at h; subst h; decide
theorem bare_blank : bare.emitCfg.Blank := by intro i h; simp [bare, Config.emitCfg] at h

example := C43_every_value_partial (L := lib) rfl rfl plain [c!"Doc"] broken tabs bare tabs_blank bare_blank

/-- It is written, and neither text can be read. -/
example : (match toStringWithConfig lib WfSample.env tabs [c!"Doc"] broken, toStringWithConfig lib WfSample.env bare [c!"Doc"] broken with
    | .ok s, .ok s' => (lib.parse s).fin.isSome && (lib.parse s).fin == (lib.parse s').fin && s != s'
    | _, _ => false) = true := by decide +kernel

/-! Namespaces are written as they are: the name of one may contain the beginning of a CDATA section, so that the indentation is
text. -/

/-- `#[yaserde(namespaces = {"n" = "u\"><s><![CDATA["})] struct A { s: Option<String>, #[yaserde(cdata)] c: String }` -/
def prog : List (Path × TypeDef) :=
  [mkS c!"A" [F c!"s" (O Tests.S), F c!"c" Tests.S { cdata := true }] { namespaces := [(c!"n", c!"u\"><s><![CDATA[")] }]

def value : Val := .struct [.none, .str c!"]]></s><c><![CDATA[x"]

def laidOutB (c : Config) (v' : Val) : Bool :=
  match toStringWithConfig lib (envOf prog) c [c!"A"] value with | .ok s => deOk (envOf prog) c!"A" s v' | _ => false

theorem laidOut {c : Config} {v' : Val} (h : laidOutB c v' = true) :
    ∃ s, toStringWithConfig lib (envOf prog) c [c!"A"] value = .ok s ∧ Returns lib (envOf prog) [c!"A"] s (.ok v') := by
  unfold laidOutB at h
  split at h
  · exact ⟨_, ‹_›, returns_of_deOk h⟩
  · cases h

/-- **C43, negation of the whole statement.** A value that is written and read with every configuration, but not with the same
result. -/
theorem _root_.Yaserde.C43_false : ∃ (L : Lib) (env : Env) (p : Path) (v : Val) (c c' : Config), XmlLaw L ∧ SerOk env ∧
    HasTy env (.struct p) v ∧ c.emitCfg.Blank ∧ c'.emitCfg.Blank ∧ ∃ s s' r r', toStringWithConfig L env c p v = .ok s ∧
      toStringWithConfig L env c' p v = .ok s' ∧ Returns L env p s (.ok r) ∧ Returns L env p s' (.ok r') ∧ r ≠ r' := by
  obtain ⟨s, h1, h2⟩ := laidOut (c := tabs) (v' := .struct [.some (.str c!"\">\n\t<c><![CDATA["), .str c!"x"]) (by decide +kernel)
  obtain ⟨s', h1', h2'⟩ := laidOut (c := bare) (v' := .struct [.some (.str c!"\"><c><![CDATA["), .str c!"x"]) (by decide +kernel)
  exact ⟨lib, envOf prog, [c!"A"], value, tabs, bare, xml, serOk_of_all _ (by decide), hasTy_of_check _ (T c!"A") _ rfl,
    tabs_blank, bare_blank, s, s', _, _, h1, h1', h2, h2', by intro h; cases h⟩

end LayoutSample

end Yaserde
