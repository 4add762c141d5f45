import Verif.Props.RoundTrip
import Verif.Proofs.Legal
import Verif.Proofs.NameTree
import Verif.Tests.WfCheck
/-
Well-formed output: C34 (second half), C43 and C61.

`NamesOk env G` is a condition on the names in the program (XML names, declared prefixes, one meaning per prefix, no
attribute written twice), `Legal L env t v` one on the characters in the value.  Neither says that the value can be read back.
-/

set_option autoImplicit false

namespace Yaserde

section
variable {L : Lib} {env : Env} {G : NsMap}

/-! ### C61: well-formed output -/

/-- **C61.** A legal value is written as one element that is well formed: all names are XML names, all prefixes are declared
where they are used, no prefix is declared twice in a tag, no attribute is repeated, all characters are allowed. -/
theorem C61_well_formed (hN : NamesOk env G) (hok : SerOk env) {p : Path} (he : HasElement env p) {v : Val}
    (hv : HasTy env (.struct p) v) (hl : Legal L env (.struct p) v) : ∃ n as nss ks, (WNode.elem n as nss ks).Ok [] ∧
      serializeWithWriter L env p v = (.ok (), (WNode.elem n as nss ks).events) := by
  obtain ⟨n, as, nss, ks, e⟩ := doc_one (L := L) hN he hv
  have hc : ChTy L env p v := chars_of_legal hN hok hl
  have h := doc_ok (L := L) hN hv (hc.1 _)
  refine ⟨n, as, nss, ks, ?_, ?_⟩
  · rw [e] at h; exact h.1
  · rw [serialize_eq hok hv, e]; simp [WNode.eventsL]

/-- The same for the text: it is parsed without error, whatever the configuration, and the tree read is the one written. -/
theorem C61_parses (hx : XmlLaw L) (hN : NamesOk env G) (hok : SerOk env) {p : Path} (he : HasElement env p) {v : Val}
    (hv : HasTy env (.struct p) v) (hl : Legal L env (.struct p) v) : ∃ (w : WNode) (y : Node), serializeWithWriter L env p v = (.ok (), w.events) ∧ y.Like (w.back []) ∧
      ∀ c : Config, c.emitCfg.Blank → ∃ s, toStringWithConfig L env c p v = .ok s ∧ L.parse s = ⟨.startDocument :: y.events, none⟩ := by
  obtain ⟨n, as, nss, ks, h1, h2⟩ := C61_well_formed hN hok he hv hl
  obtain ⟨y, h3, h4⟩ := hx.doc n as nss ks _ h1 rfl
  refine ⟨_, y, h2, h3, fun c hc => ⟨_, ?_, h4 _ hc⟩⟩
  unfold toStringWithConfig
  rw [h2]

/-! ### C34: markup in strings -/

/-- **C34**, second half: the tags read back from the text are those written, and they are the same for all legal values of the
same shape, whatever their strings.  (First half: `C34_shape_partial`.) -/
theorem C34_read_back_partial (hx : XmlLaw L) (hN : NamesOk env G) (hok : SerOk env) {p : Path} (he : HasElement env p) {a b : Val}
    (ha : HasTy env (.struct p) a) (hb : HasTy env (.struct p) b) (hla : Legal L env (.struct p) a) (hlb : Legal L env (.struct p) b)
    (h : SameShape env (.struct p) a b) : ∃ sa sb wa wb ya yb, toString L env p a = .ok sa ∧ toString L env p b = .ok sb ∧
      serializeWithWriter L env p a = (.ok (), WNode.events wa) ∧ serializeWithWriter L env p b = (.ok (), WNode.events wb) ∧
      L.parse sa = ⟨.startDocument :: Node.events ya, none⟩ ∧ L.parse sb = ⟨.startDocument :: Node.events yb, none⟩ ∧
      ya.names = wa.names ∧ yb.names = wb.names ∧ ya.names = yb.names := by
  obtain ⟨n, as, nss, ks, e⟩ := doc_one (L := L) hN he ha
  obtain ⟨n', as', nss', ks', e'⟩ := doc_one (L := L) hN he hb
  have hca : ChTy L env p a := chars_of_legal hN hok hla
  have hcb : ChTy L env p b := chars_of_legal hN hok hlb
  have h1 := doc_ok (L := L) hN ha (hca.1 _)
  have h2 := doc_ok (L := L) hN hb (hcb.1 _)
  rw [e] at h1
  rw [e'] at h2
  obtain ⟨ya, h3, h4⟩ := hx.doc n as nss ks _ h1.1 rfl
  obtain ⟨yb, h5, h6⟩ := hx.doc n' as' nss' ks' _ h2.1 rfl
  have hblank : (({} : Config).emitCfg).Blank := by intro i hi; cases hi
  have sa := serialize_eq (L := L) hok ha
  have sb := serialize_eq (L := L) hok hb
  rw [e] at sa
  rw [e'] at sb
  simp only [WNode.eventsL, List.append_nil] at sa sb
  have ea : ya.names = (WNode.elem n as nss ks).names := by rw [names_like _ _ h3, names_back]
  have eb : yb.names = (WNode.elem n' as' nss' ks').names := by rw [names_like _ _ h5, names_back]
  refine ⟨_, _, _, _, ya, yb, ?_, ?_, sa, sb, h4 _ hblank, h6 _ hblank, ea, eb, ?_⟩
  · unfold toString toStringWithConfig; rw [sa]
  · unfold toString toStringWithConfig; rw [sb]
  · rw [ea, eb]
    have hal := (h.alike (L := L) hok).1 .root
    have hsk : WNode.skelL (encTy L env .root p a) = WNode.skelL (encTy L env .root p b) := by
      rw [← WNode.skelL_mapText (fun _ => []), hal, WNode.skelL_mapText]
    have := congrArg Skel.namesL hsk
    rw [names_skelL, names_skelL, e, e'] at this
    simpa [WNode.namesL] using this

/-! ### C43: layout -/

theorem returns_of_parse {L : Lib} {env : Env} {q : Path} {s t : Str} (h : L.parse s = L.parse t) (r : Res Val) :
    Returns L env q s r ↔ Returns L env q t r := by
  unfold Returns deFromStr fromStr
  rw [h]

/-- **C43.** However a legal value is laid out, reading the text gives the same result: the same value, the same error, the same
panic or the same infinite loop; also if it is read as a value of another type, or of another program. -/
theorem C43_layout_partial (hx : XmlLaw L) (hN : NamesOk env G) (hok : SerOk env) {p : Path} (he : HasElement env p) {v : Val}
    (hv : HasTy env (.struct p) v) (hl : Legal L env (.struct p) v) (c c' : Config) (hc : c.emitCfg.Blank) (hc' : c'.emitCfg.Blank) :
    ∃ s s', toStringWithConfig L env c p v = .ok s ∧ toStringWithConfig L env c' p v = .ok s' ∧
      ∀ (env' : Env) (q : Path) (r : Res Val), Returns L env' q s r ↔ Returns L env' q s' r := by
  obtain ⟨w, y, -, -, h⟩ := C61_parses hx hN hok he hv hl
  obtain ⟨s, h1, h2⟩ := h c hc
  obtain ⟨s', h3, h4⟩ := h c' hc'
  exact ⟨s, s', h1, h3, fun env' q r => returns_of_parse (h2.trans h4.symm) r⟩

end

/-! ### A sample program -/

namespace WfSample
open Tests

def abs_ : Attrs := { namespaces := [(c!"a", c!"urn:a"), (c!"b", c!"urn:b")] }

/-- Namespaces, a default namespace, a flattened struct, a flattened `Option`, enums of all kinds, a CDATA field, text. -/
def prog : List (Path × TypeDef) :=
  [mkS c!"Doc" [F c!"id" Tests.S { isAttr := true, pfx := some c!"b" }, F c!"x" (V (T c!"Kind")) { pfx := some c!"a" },
      F c!"base" (T c!"Base") flat, F c!"opt" (O (T c!"Plain")) flat, F c!"raw" Tests.S { cdata := true },
      F c!"txt" (O Tests.S) { text := true }]
      { abs_ with pfx := some c!"a", defaultNs := some c!"b" },
   mkS c!"Base" [F c!"lang" (O Tests.S) attr, F c!"y" Tests.S { pfx := some c!"c" }] { namespaces := [(c!"c", c!"urn:c")] },
   mkS c!"Plain" [F c!"z" (V Tests.S)],
   mkE c!"Kind" [vU c!"One", vN c!"Two" Tests.S, vN c!"Many" (V (T c!"Plain"))] (.enum 0 [])]

def env : Env := envOf prog

def tab : NsMap := [(c!"a", c!"urn:a"), ([], c!"urn:b"), (c!"c", c!"urn:c")]

def value (t : Str) : Val :=
  .struct [.str c!"i\"<d", .vec [.enum 0 [], .enum 1 [.str t], .enum 2 [.vec [.struct [.vec [.str t, .str c!" "]]]]],
    .struct [.some (.str c!"a&b"), .str c!"</c:y>"], .some (.struct [.vec [.str []]]), .str c!"<![CDATA[", .some (.str c!"\t<!-- ")]

theorem names : NamesOk env tab := namesOk_of_check tab prog (by decide +kernel)
theorem serOk : SerOk env := serOk_of_all _ (by decide)
theorem hasElement : HasElement env [c!"Doc"] := by intro d h; cases h
theorem hasTy (t : Str) : HasTy env (T c!"Doc") (value t) := hasTy_of_check _ _ _ rfl
theorem legal : Legal lib env (T c!"Doc") (value c!"</Two><Evil/>") := legal_of_check _ _ 9 _ _ (by decide +kernel)
theorem legal' : Legal lib env (T c!"Doc") (value c!"two") := legal_of_check _ _ 9 _ _ (by decide +kernel)

theorem sameShape : SameShape env (T c!"Doc") (value c!"</Two><Evil/>") (value c!"two") := sameShape_of_check _ 9 _ _ _ (by decide +kernel)

/-- The text of the sample value. -/
example : toString lib env [c!"Doc"] (value c!"</Two><Evil/>") = .ok c!"<?xml version=\"1.0\" encoding=\"utf-8\"?><a:Doc xmlns=\"urn:b\" xmlns:a=\"urn:a\" xmlns:c=\"urn:c\" id=\"i&quot;&lt;d\" lang=\"a&amp;b\"><a:x>One</a:x><a:x><Two>&lt;/Two&gt;&lt;Evil/&gt;</Two></a:x><a:x><Many><z>&lt;/Two&gt;&lt;Evil/&gt;</z><z> </z></Many></a:x><c:y>&lt;/c:y&gt;</c:y><z></z><raw><![CDATA[<![CDATA[]]></raw>\t&lt;!-- </a:Doc>" := by
  decide +kernel

example := C61_well_formed names serOk hasElement (hasTy _) legal
example := C61_parses xml names serOk hasElement (hasTy _) legal
example := C34_read_back_partial xml names serOk hasElement (hasTy _) (hasTy _) legal legal' sameShape

/-- Indented with tabs, or not at all and without XML declaration. -/
example : ∃ s s', toStringWithConfig lib env { performIndent := true, indentString := some c!"\t" } [c!"Doc"] (value c!"two") = .ok s ∧
    toStringWithConfig lib env { writeDecl := false } [c!"Doc"] (value c!"two") = .ok s' ∧
    ∀ (env' : Env) (q : Path) (r : Res Val), Returns lib env' q s r ↔ Returns lib env' q s' r :=
  C43_layout_partial xml names serOk hasElement (hasTy _) legal' _ _
    (by intro i h; simp [Config.emitCfg] at h; subst h; decide) (by intro i h; simp [Config.emitCfg] at h)

/-! Where the conditions on names fail, the text is not well formed. -/

/-- The namespaces of a variant's payload are not declared: `enum K { P(Q) }`, where `Q` has a namespace. -/
def payload : List (Path × TypeDef) :=
  [mkS c!"A" [F c!"k" (T c!"K")], mkE c!"K" [vN c!"P" (T c!"Q")] (.enum 0 []),
   mkS c!"Q" [F c!"x" Tests.S { pfx := some c!"q" }] { namespaces := [(c!"q", c!"urn:q")], pfx := some c!"q" }]

/-- Nor those of a flattened `Option`. -/
def flatOpt : List (Path × TypeDef) :=
  [mkS c!"A" [F c!"k" (O (T c!"Q")) flat],
   mkS c!"Q" [F c!"x" Tests.S { pfx := some c!"q" }] { namespaces := [(c!"q", c!"urn:q")], pfx := some c!"q" }]

/-- A struct and a struct flattened into it have attributes of the same name. -/
def twice : List (Path × TypeDef) :=
  [mkS c!"A" [F c!"k" (T c!"Q") flat, F c!"x" Tests.S attr],  mkS c!"Q" [F c!"x" Tests.S attr]]

def rejectedB (prog : List (Path × TypeDef)) (v : Val) (txt why : Str) : Bool :=
  writesB (envOf prog) c!"A" v txt && (lib.parse txt).fin == some why

theorem rejected {prog : List (Path × TypeDef)} {v : Val} {txt why : Str} (h : rejectedB prog v txt why = true) :
    toString lib (envOf prog) [c!"A"] v = .ok txt ∧ (lib.parse txt).fin = some why := by
  unfold rejectedB at h
  rw [Bool.and_eq_true, beq_iff_eq] at h
  exact ⟨writes_of_check h.1, h.2⟩

theorem _root_.Yaserde.C61_unbound_payload :
    toString lib (envOf payload) [c!"A"] (.struct [.enum 0 [.struct [.str c!"v"]]]) =
      .ok c!"<?xml version=\"1.0\" encoding=\"utf-8\"?><A><k><P><q:x>v</q:x></P></k></A>" ∧
    (lib.parse c!"<?xml version=\"1.0\" encoding=\"utf-8\"?><A><k><P><q:x>v</q:x></P></k></A>").fin =
      some c!"Element q:x prefix is unbound" := rejected (by decide +kernel)

theorem _root_.Yaserde.C61_unbound_flatten :
    toString lib (envOf flatOpt) [c!"A"] (.struct [.some (.struct [.str c!"v"])]) =
      .ok c!"<?xml version=\"1.0\" encoding=\"utf-8\"?><A><q:x>v</q:x></A>" ∧
    (lib.parse c!"<?xml version=\"1.0\" encoding=\"utf-8\"?><A><q:x>v</q:x></A>").fin =
      some c!"Element q:x prefix is unbound" := rejected (by decide +kernel)

theorem _root_.Yaserde.C61_repeated_attribute :
    toString lib (envOf twice) [c!"A"] (.struct [.struct [.str c!"v"], .str c!"w"]) =
      .ok c!"<?xml version=\"1.0\" encoding=\"utf-8\"?><A x=\"w\" x=\"v\" />" ∧
    (lib.parse c!"<?xml version=\"1.0\" encoding=\"utf-8\"?><A x=\"w\" x=\"v\" />").fin =
      some c!"Attribute is redefined" := rejected (by decide +kernel)

end WfSample

end Yaserde
