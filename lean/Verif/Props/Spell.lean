import Verif.Proofs.SpellOut
import Verif.Props.WellFormed
import Verif.Props.Twin
import Verif.Props.Decode
/-
C74: how a document is spelled carries no information.  C61: what is written is in the grammar of XML.
-/

set_option autoImplicit false
set_option maxRecDepth 100000

namespace Yaserde

/-- The text of a document is read as the document: `Spell.Doc` describes the texts without reference to the parser. -/
theorem C74_parse {x : Node} {s : Str} (h : Spell.Doc x s) : XmlText.parse s = ⟨.startDocument :: x.events, none⟩ :=
  XmlText.parse_spelling h

/-- **C74.** Whatever the program and the type: all spellings of a document are read alike. -/
theorem C74_spelling_partial (L : Lib) (hL : L.parse = XmlText.parse) (env : Env) (p : Path) {x : Node} {s s' : Str} (h : Spell.Doc x s)
    (h' : Spell.Doc x s') (r : Res Val) : Returns L env p s r ↔ Returns L env p s' r := by
  have e : ∀ n, deFromStr L env n p s = deFromStr L env n p s' := by
    intro n
    unfold deFromStr fromStr
    rw [hL, C74_parse h, C74_parse h']
  simp only [Returns, e]

/-- What is read is what the document says (`Spec/Decode.lean`), however it is spelled. -/
theorem C74_reads_partial (L : Lib) (hL : L.parse = XmlText.parse) (env : Env) (k : Nat) (p : Path) {x : Node} {s : Str} (h : Spell.Doc x s)
    (hc : ConfN L env k x p) (r : Res Val) : Returns L env p s r ↔ r = decodeDocN L env k x p :=
  returns_iff L env k p s x ⟨[], by rw [hL, C74_parse h, List.append_nil]; exact content_node x⟩ hc r

/-- A text spells at most one document. -/
theorem C74_unambiguous {x y : Node} {s : Str} (h : Spell.Doc x s) (h' : Spell.Doc y s) : x.events = y.events := by
  have := C74_parse h
  rw [C74_parse h'] at this
  simpa using this.symm

/-! ### C61: the text written -/

/-- **C61**, without reference to the parser: the text written for a legal value is, in every configuration, a spelling of the
tree written. -/
theorem C61_grammar (L : Lib) (hL : L.emit = XmlText.emit) (env : Env) {G : NsMap} (hN : NamesOk env G) (hok : SerOk env) {p : Path}
    (he : HasElement env p) {v : Val} (hv : HasTy env (.struct p) v) (hl : Legal L env (.struct p) v) :
    ∃ (w : WNode) (y : Node), serializeWithWriter L env p v = (.ok (), w.events) ∧ y.Like (w.back []) ∧
      ∀ c : Config, c.emitCfg.Blank → ∃ s, toStringWithConfig L env c p v = .ok s ∧ Spell.Doc y s := by
  obtain ⟨n, as, nss, ks, h1, h2⟩ := C61_well_formed hN hok he hv hl
  obtain ⟨y, h3, h4⟩ := XmlText.emit_spelling n as nss ks _ h1 rfl
  refine ⟨_, y, h2, h3, fun c hc => ⟨_, ?_, h4 _ hc⟩⟩
  unfold toStringWithConfig
  rw [h2, hL]

example := C61_grammar Tests.lib rfl _ WfSample.names WfSample.serOk WfSample.hasElement (WfSample.hasTy _) WfSample.legal

/-! ### Examples -/

namespace SpellSample
open Tests TwinSample Spell

def u (l : Str) : Name := ⟨l, some c!"urn:u", some c!"u"⟩
def sc : NsMap := [(c!"u", c!"urn:u")]

def x : Node := .elem (u c!"Log") [⟨⟨c!"id", none, none⟩, c!"a b"⟩] sc [.elem (u c!"n") [] sc [.text c!"7"], .elem (u c!"sub") [] sc []]

def plain : Str := c!"<u:Log xmlns:u=\"urn:u\" id=\"a b\"><u:n>7</u:n><u:sub/></u:Log>"
def fancy : Str := c!"<?xml version='1.0'?>\n<u:Log\n id = 'a&#x20;b' xmlns:u='urn:u'\t><!-- - --> <u:n ><![CDATA[]]>&#55; </u:n >\r<u:sub></u:sub><?p?></u:Log>\n<!--end-->"

theorem chars {q : Char} : ∀ (s : Str), (s.all fun c => isDocChar c && !isXmlSpace c && c != q && c != '<' && c != '&') = true → Value q s s
  | [], _ => .nil
  | c :: s, h => by
    simp only [List.all_cons, Bool.and_eq_true, Bool.not_eq_true', bne_iff_ne] at h
    obtain ⟨⟨⟨⟨⟨h1, h2⟩, h3⟩, h4⟩, h5⟩, h6⟩ := h
    have := Value.char h1 h3 h4 h5 (chars s (by simpa using h6))
    rw [h2] at this
    exact this

theorem blank (s : Str) (h : s.all isXmlSpace = true) : Blank s := by simpa [Blank] using h

theorem tagLog (as : List (Str × Str)) (h : as = [(c!"xmlns:u", c!"urn:u"), (c!"id", c!"a b")] ∨ as = [(c!"id", c!"a b"), (c!"xmlns:u", c!"urn:u")]) :
    Tag [] sc c!"u:Log" as (u c!"Log") [⟨⟨c!"id", none, none⟩, c!"a b"⟩] where
  name := by decide
  nodup := by rcases h with rfl | rfl <;> decide
  scope := by rcases h with rfl | rfl <;> decide
  elem := .prefixed (p := c!"u") (by decide) (by decide)
  attrs := by
    rcases h with rfl | rfl
    · exact .decl (by decide) (.attr (by decide) (.bare (by decide)) .nil)
    · exact .attr (by decide) (.bare (by decide)) (.decl (by decide) .nil)

theorem tagIn (l : Str) (h1 : isQName (c!"u:" ++ l) = true) (h2 : splitColon (c!"u:" ++ l) = some (c!"u", l)) :
    Tag sc sc (c!"u:" ++ l) [] (u l) [] where
  name := h1
  nodup := by simp
  scope := by decide
  elem := .prefixed h2 (by decide)
  attrs := .nil

theorem docPlain : Doc x plain := by
  refine .mk (a := []) (s := plain) (b := []) .nil ?_ .nil
  refine .full (sa := c!" xmlns:u=\"urn:u\" id=\"a b\"") (w := []) (w' := []) (s := c!"<u:n>7</u:n><u:sub/>") ?_ (blank _ rfl) (tagLog _ (.inl rfl)) ?_
    (blank _ rfl)
  · refine .cons (w := c!" ") (n := c!"xmlns:u") (w1 := []) (w2 := []) (rest := c!" id=\"a b\"") (blank _ rfl) (by simp) (by decide) (blank _ rfl) (blank _ rfl) (.inl rfl)
      (chars c!"urn:u" (by decide)) ?_
    refine .cons (w := c!" ") (w1 := []) (w2 := []) (rest := []) (blank _ rfl) (by simp) (by decide) (blank _ rfl) (blank _ rfl) (.inl rfl)
      (n := c!"id") (s := c!"a b") ?_ .nil
    exact .char (c := 'a') (by decide) (by decide) (by decide) (by decide) (.char (c := ' ') (by decide) (by decide) (by decide) (by decide)
      (chars c!"b" (by decide)))
  · refine .elem (run := []) (s := c!"<u:n>7</u:n>") (.full (raw := c!"u:n") (sa := []) (w := []) (w' := []) (s := c!"7") .nil (blank _ rfl)
      (tagIn c!"n" (by decide) (by decide)) ?_ (blank _ rfl)) ?_
    · exact .piece (run := []) (s' := []) (.char (c := '7') (by decide) (by decide) (by decide)) .nil
    · exact .elem (run := []) (s' := []) (.empty (raw := c!"u:sub") (sa := []) (w := []) .nil (blank _ rfl) (tagIn c!"sub" (by decide) (by decide))) .nil

theorem docFancy : Doc x fancy := by
  refine .mk (a := c!"<?xml version='1.0'?>\n") (b := c!"\n<!--end-->")
    (s := c!"<u:Log\n id = 'a&#x20;b' xmlns:u='urn:u'\t><!-- - --> <u:n ><![CDATA[]]>&#55; </u:n >\r<u:sub></u:sub><?p?></u:Log>")
    ?_ ?_ ?_
  · exact .pi (s' := c!"\n") (.mk (target := c!"xml") (t := c!" version='1.0'") (by decide) (.inr ⟨_, _, rfl, rfl⟩) (by decide) (by decide))
      (.space rfl .nil)
  · refine .full (raw := c!"u:Log") (sa := c!"\n id = 'a&#x20;b' xmlns:u='urn:u'") (w := c!"\t") (w' := [])
      (s := c!"<!-- - --> <u:n ><![CDATA[]]>&#55; </u:n >\r<u:sub></u:sub><?p?>") ?_ (blank _ rfl) (tagLog _ (.inr rfl)) ?_ (blank _ rfl)
    · refine .cons (w := c!"\n ") (n := c!"id") (w1 := c!" ") (w2 := c!" ") (q := '\'') (s := c!"a&#x20;b") (rest := c!" xmlns:u='urn:u'") (blank _ rfl) (by simp)
        (by decide) (blank _ rfl) (blank _ rfl) (.inr rfl) ?_ ?_
      · refine .char (c := 'a') (by decide) (by decide) (by decide) (by decide) (.ref (r := c!"#x20") (c := ' ') (s := c!"b") (v := c!"b") ?_ (chars _ (by decide)))
        refine .hex (ds := c!"20") ?_ (by decide)
        exact .more (s := c!"2") (n := 2) (c := '0') (d := 0) (.one (.dec (by decide) (by decide))) (.dec (by decide) (by decide))
      · exact .cons (w := c!" ") (n := c!"xmlns:u") (w1 := []) (w2 := []) (q := '\'') (rest := []) (blank _ rfl) (by simp) (by decide) (blank _ rfl) (blank _ rfl) (.inr rfl)
          (chars c!"urn:u" (by decide)) .nil
    · refine .piece (run := []) (s := c!"<!-- - -->") (s' := c!" <u:n ><![CDATA[]]>&#55; </u:n >\r<u:sub></u:sub><?p?>")
        (.comment (.mk (t := c!" - ") (by decide) (by decide))) ?_
      refine .piece (s := c!" ") (.char (c := ' ') (by decide) (by decide) (by decide)) ?_
      refine .elem (run := c!" ") (s := c!"<u:n ><![CDATA[]]>&#55; </u:n >") (.full (raw := c!"u:n") (sa := []) (w := c!" ") (w' := c!" ")
        (s := c!"<![CDATA[]]>&#55; ") .nil (blank _ rfl) (tagIn c!"n" (by decide) (by decide)) ?_ (blank _ rfl)) ?_
      · refine .piece (run := []) (s := c!"<![CDATA[]]>") (.cdata (t := []) (by decide) (by decide)) ?_
        refine .piece (s := c!"&#55;") (s' := c!" ") (.ref (r := c!"#55") (c := '7') (.dec (ds := c!"55") ?_ (by decide))) ?_
        · exact .more (s := c!"5") (n := 5) (c := '5') (d := 5) (.one (.dec (by decide) (by decide))) (.dec (by decide) (by decide))
        · exact .piece (s' := []) (.char (c := ' ') (by decide) (by decide) (by decide)) .nil
      · refine .piece (run := []) (s := ['\r']) (.char (c := '\r') (by decide) (by decide) (by decide)) ?_
        refine .elem (run := ['\n']) (s := c!"<u:sub></u:sub>") (s' := c!"<?p?>") (.full (raw := c!"u:sub") (sa := []) (w := []) (w' := []) (s := []) .nil
          (blank _ rfl) (tagIn c!"sub" (by decide) (by decide)) .nil (blank _ rfl)) ?_
        exact .pi (run := []) (s' := []) (.mk (target := c!"p") (t := []) (by decide) (.inl rfl) (by decide) (by decide)) .nil
  · exact .space rfl (.comment (s' := []) (.mk (t := c!"end") (by decide) (by decide)) .nil)

example : ∀ r, Returns lib TwinSample.env [c!"Log"] plain r ↔ Returns lib TwinSample.env [c!"Log"] fancy r :=
  C74_spelling_partial lib rfl _ _ docPlain docFancy

theorem reads_plain : Returns lib TwinSample.env [c!"Log"] plain
    (.ok (.struct [.some (.str c!"a b"), .none, .some (.int 7), .vec [.struct [.none, .none, .none, .vec []]]])) :=
  returns_of_deOk (by decide +kernel)

example : Returns lib TwinSample.env [c!"Log"] fancy
    (.ok (.struct [.some (.str c!"a b"), .none, .some (.int 7), .vec [.struct [.none, .none, .none, .vec []]]])) :=
  (C74_spelling_partial lib rfl _ _ docPlain docFancy _).mp reads_plain

end SpellSample

section
open Tests

/-- **C74 does not hold for processing instructions inside a text**: they carry no information in XML either, but cut the text
in two, and the field is then missing; a comment does not. -/
theorem C74_false : ∃ (L : Lib) (env : Env) (p : Path) (v : Val) (m : Str), L.parse = XmlText.parse ∧
    Returns L env p c!"<B><b>xy</b></B>" (.ok v) ∧ Returns L env p c!"<B><b>x<!-- c -->y</b></B>" (.ok v) ∧
    Returns L env p c!"<B><b>x<?c?>y</b></B>" (.err m) :=
  ⟨lib, envOf [mkS c!"B" [F c!"b" Tests.S]], [c!"B"], .struct [.str c!"xy"], c!"b is a required field of B", rfl,
    returns_of_deOk (by decide +kernel), returns_of_deOk (by decide +kernel), returns_of_deErr (by decide +kernel)⟩

end

end Yaserde
