import Verif.Props.RoundTrip
/-
Property C70: enums with `#[yaserde(tag = "…")]`, whose variant is named by an attribute.
-/

set_option autoImplicit false
set_option maxRecDepth 100000

namespace Yaserde

/-- `v` is variant number `i` of `d`, has no payload, and is the first one (of those without named fields) with this name. -/
structure NamedUnit (d : EnumDef) (key : Str) (i : Nat) (v : VariantDef) : Prop where
  get : d.variants[i]? = some v
  shape : v.shape = .unit
  name : v.attrs.rename.getD v.ident = key
  first : ∀ (j : Nat) (w : VariantDef), j < i → d.variants[j]? = some w → (∃ fs, w.shape = .named fs) ∨ w.attrs.rename.getD w.ident ≠ key

theorem NamedUnit.variantFor {d : EnumDef} {key : Str} {i : Nat} {v : VariantDef} (h : NamedUnit d key i v) :
    d.variantFor key = some i := by
  unfold EnumDef.variantFor
  obtain ⟨hlt, hget⟩ := List.getElem?_eq_some_iff.mp h.get
  rw [List.findIdx?_eq_some_iff_getElem]
  refine ⟨hlt, ?_, ?_⟩
  · rw [hget]
    exact decide_eq_true ⟨by rw [h.shape]; simp, h.name⟩
  · intro j hj hc
    obtain ⟨c1, c2⟩ := of_decide_eq_true hc
    rcases h.first j _ hj (List.getElem?_eq_getElem (by omega)) with ⟨fs, h1⟩ | h1
    · exact c1 fs h1
    · exact h1 c2

/-- The value of the first attribute with the local name `tag`. -/
structure TagIs (tag key : Str) (as : List Attr) : Prop where
  split : ∃ pre a post, as = pre ++ a :: post ∧ (∀ b ∈ pre, b.name.loc ≠ tag) ∧ a.name.loc = tag ∧ a.value = key

theorem TagIs.keyOf {d : EnumDef} {tag key : Str} {as : List Attr} {n : Name} (h : TagIs tag key as) (ht : d.attrs.tag = some tag) :
    d.keyOf n as = some key := by
  obtain ⟨pre, a, post, rfl, h1, h2, h3⟩ := h.split
  unfold EnumDef.keyOf
  rw [ht]
  dsimp only
  rw [List.find?_append, List.find?_eq_none.mpr (by simpa using h1)]
  simp [h2, h3]

/-! ### Reading -/

/-- **C70**, reading: whatever the document contains besides its first start tag, if the attribute named by `tag` on it names
a variant without payload, this variant is the result. -/
theorem C70_unit {L : Lib} {env : Env} {p : Path} {d : EnumDef} {tag key s : Str} {n : Name} {as : List Attr} {m : NsMap}
    {post : List REv} {i : Nat} {v : VariantDef} (hp : env p = some (.enum d)) (htag : d.attrs.tag = some tag)
    (hdoc : content (L.parse s).evs = .start n as m :: post) (hns : nsOk d.attrs n) (hkey : TagIs tag key as)
    (hv : NamedUnit d key i v) (r : Res Val) : Returns L env p s r ↔ r = .ok (.enum i []) := by
  have hr : Returns L env p s (.ok (.enum i [])) := by
    refine ⟨by simp, 2, ?_⟩
    unfold deFromStr fromStr
    rw [deser, hp]
    dsimp only
    have hat := at_new' (L.parse s)
    rw [hdoc] at hat
    obtain ⟨rd1, h1, a1⟩ := peek_at hat
    unfold enumDeser
    rw [bind_ok h1, bind_ok (show M.get rd1 = (.ok rd1, rd1) from rfl)]
    have hinfo : startInfo (d.attrs.xmlElementName d.name) (.start n as m) = (n.loc, n.ns) := rfl
    rw [hinfo]
    unfold enumBody
    have h0 : (M.ofExcept (nsMatching d.attrs.namespaces d.attrs.pfx n.ns n.loc) : D Unit) rd1 = (.ok (), rd1) := by
      rw [nsMatching_ok hns]; rfl
    rw [bind_ok h0]
    dsimp only
    obtain ⟨rd2, h2, a2⟩ := peek_at a1
    have hk : (M.ofExcept (enumKey L d (.start n as m) n as) : D Str) rd2 = (.ok key, rd2) := by
      rw [enumKey_eq L d _ n as (hkey.keyOf htag)]; rfl
    have hstep : enumStep L (deser L env 1) d n.loc rd1.depth none rd1 = (.ok (some (.enum i []), false), rd2) := by
      unfold enumStep
      rw [bind_ok h2]
      dsimp only
      rw [bind_ok hk]
      have hm : enumMatch L (deser L env 1) d key none (M.attempt nextEvent >>= fun _ => M.pure (none, true)) rd2
          = (.ok (some (.enum i []), false), rd2) := by
        unfold enumMatch
        rw [findVariant_eq, hv.variantFor]
        dsimp only
        rw [hv.get]
        dsimp only
        unfold variantArm
        rw [hv.shape]
        rfl
      rw [bind_ok hm]
      rfl
    have hl : enumLoop L (deser L env 1) d n.loc rd1.depth 1 none rd1 = (.ok (some (.enum i [])), rd2) := by
      unfold enumLoop
      rw [bind_ok hstep]
      rfl
    rw [bind_ok hl]
    rfl
  exact ⟨fun h => (C27_budget_irrelevant L env p s).2 _ _ h hr, fun h => h ▸ hr⟩

/-- **C70**, reading: without this attribute the document is rejected. -/
theorem C70_missing {L : Lib} {env : Env} {p : Path} {d : EnumDef} {tag s : Str} {n : Name} {as : List Attr} {m : NsMap}
    {post : List REv} (hp : env p = some (.enum d)) (htag : d.attrs.tag = some tag)
    (hdoc : content (L.parse s).evs = .start n as m :: post) (hns : nsOk d.attrs n) (hno : ∀ a ∈ as, a.name.loc ≠ tag)
    (r : Res Val) : Returns L env p s r ↔
      r = .err (c!"Expected enum tagged with " ++ tag ++ c!", found " ++ L.dbgEv (.start n as m)) := by
  have hr : Returns L env p s (.err (c!"Expected enum tagged with " ++ tag ++ c!", found " ++ L.dbgEv (.start n as m))) := by
    refine ⟨by simp, 2, ?_⟩
    unfold deFromStr fromStr
    rw [deser, hp]
    dsimp only
    have hat := at_new' (L.parse s)
    rw [hdoc] at hat
    obtain ⟨rd1, h1, a1⟩ := peek_at hat
    unfold enumDeser
    rw [bind_ok h1, bind_ok (show M.get rd1 = (.ok rd1, rd1) from rfl)]
    have hinfo : startInfo (d.attrs.xmlElementName d.name) (.start n as m) = (n.loc, n.ns) := rfl
    rw [hinfo]
    unfold enumBody
    have h0 : (M.ofExcept (nsMatching d.attrs.namespaces d.attrs.pfx n.ns n.loc) : D Unit) rd1 = (.ok (), rd1) := by
      rw [nsMatching_ok hns]; rfl
    rw [bind_ok h0]
    dsimp only
    obtain ⟨rd2, h2, a2⟩ := peek_at a1
    have hk : enumKey L d (.start n as m) n as =
        .error (c!"Expected enum tagged with " ++ tag ++ c!", found " ++ L.dbgEv (.start n as m)) := by
      unfold enumKey
      rw [htag]
      dsimp only
      rw [List.find?_eq_none.mpr (by simpa using hno)]
    have hstep : enumStep L (deser L env 1) d n.loc rd1.depth none rd1 =
        (.err (c!"Expected enum tagged with " ++ tag ++ c!", found " ++ L.dbgEv (.start n as m)), rd2) := by
      unfold enumStep
      rw [bind_ok h2]
      dsimp only
      rw [hk]
      rfl
    have hl : enumLoop L (deser L env 1) d n.loc rd1.depth 1 none rd1 =
        (.err (c!"Expected enum tagged with " ++ tag ++ c!", found " ++ L.dbgEv (.start n as m)), rd2) := by
      unfold enumLoop
      rw [bind_err hstep]
    rw [bind_err hl]
  exact ⟨fun h => (C27_budget_irrelevant L env p s).2 _ _ h hr, fun h => h ▸ hr⟩

/-- **C70**, reading: a field of a tagged enum is the variant named by the attribute of its (last) element, if the element is
empty; the enum's default if the attribute names none. -/
theorem C70_field_partial {L : Lib} {env : Env} {k : Nat} {d : StructDef} {s : Str} {ks : List Node} {vs : List Val}
    {i : Nat} {e : EnumDef} {n : Name} {as : List Attr} {m : NsMap} {tag key : Str}
    (h : EnumField L env k d s ks vs i e (.elem n as m [])) (htag : e.attrs.tag = some tag) (hkey : TagIs tag key as) :
    (∀ j v, NamedUnit e key j v → vs[i]? = some (.enum j [])) ∧
    ((∀ v ∈ e.variants, v.attrs.rename.getD v.ident ≠ key) → vs[i]? = some e.dflt) := by
  constructor
  · intro j v hv
    obtain ⟨q, w, hq, h1, h2⟩ := h.reads
    have hof : e.variantOf n as = some j := by simp [EnumDef.variantOf, hkey.keyOf htag, hv.variantFor]
    rw [decodeN_eq, decodeWith, hq] at h2
    simp only [decodeEnum, hof, Res.ok.injEq] at h2
    rw [h1, h2]
  · intro hno
    refine C21_default_partial h (by simp) fun _ => ?_
    have hvf : e.variantFor key = none := by
      unfold EnumDef.variantFor
      rw [List.findIdx?_eq_none_iff]
      intro v hv
      simp only [decide_eq_false_iff_not]
      rintro ⟨-, hl⟩
      exact hno v hv hl
    simp [EnumDef.variantOf, hkey.keyOf htag, hvf]

/-! ### Writing -/

/-- The element of a variant without payload of a tagged enum. -/
theorem encTy_tagged {L : Lib} {env : Env} {p : Path} {d : EnumDef} {tag : Str} {i : Nat} {v : VariantDef}
    (hp : env p = some (.enum d)) (htag : d.attrs.tag = some tag) (hflat : d.attrs.flatten = false)
    (hv : d.variants[i]? = some v) (hs : v.shape = .unit) :
    encTy L env .root p (.enum i []) =
      [.elem (d.attrs.written d.name) [⟨{ loc := tag }, v.attrs.rename.getD v.ident⟩] (firstDecls d.attrs.decls) []] := by
  rw [encTy.eq_def, hp]
  dsimp only
  rw [hv]
  dsimp only
  rw [hs]
  dsimp only
  rw [encVariant.eq_def, hs]
  simp [wrap, hflat, Place.root, tagAttrs, htag]

/-- **C70**, writing: a variant without payload is written as an empty element with the one attribute `tag="Variant"`. -/
theorem C70_written {L : Lib} {env : Env} (hok : SerOk env) {p : Path} {d : EnumDef} {tag : Str} {i : Nat} {v : VariantDef}
    (hp : env p = some (.enum d)) (htag : d.attrs.tag = some tag) (hflat : d.attrs.flatten = false)
    (hv : d.variants[i]? = some v) (hs : v.shape = .unit) :
    toString L env p (.enum i []) = .ok (L.emit {}
      [.start (Name.ofStr (d.attrs.written d.name)) [⟨{ loc := tag }, v.attrs.rename.getD v.ident⟩] (firstDecls d.attrs.decls),
        .endE none]) := by
  have h := toString_eq (L := L) hok (.unit p d i v hp hv hs) {}
  rw [encTy_tagged hp htag hflat hv hs] at h
  exact h

/-- **C70**: variants without payload survive, whatever the other variants are like. -/
theorem C70_round_trip_partial {L : Lib} (hx : XmlLaw L) {env : Env} (hok : SerOk env) {p : Path} {d : EnumDef} {tag key : Str}
    {i : Nat} {v : VariantDef} (hp : env p = some (.enum d)) (htag : d.attrs.tag = some tag) (hflat : d.attrs.flatten = false)
    {G : NsMap} (hG : NsTable G) (hdecls : ∀ e ∈ d.attrs.decls, e ∈ G) (hpfx : PfxOk G d.attrs d.attrs.pfx)
    (hname : isNCName (d.attrs.rename.getD d.name) = true) (ht1 : isNCName tag = true) (ht2 : tag ≠ c!"xmlns")
    (hkey : isAttrText key = true) (hv : NamedUnit d key i v) : RoundTrips L env p (.enum i []) := by
  refine roundTrips_of ⟨_, toString_eq (L := L) hok (.unit p d i v hp hv.get hv.shape) {}, ?_⟩
  rw [encTy_tagged hp htag hflat hv.get hv.shape, hv.name, WNode.eventsL_single]
  have hdG : ∀ e ∈ firstDecls d.attrs.decls ++ [], e ∈ G := by
    intro e he
    rw [List.append_nil] at he
    exact hdecls e (mem_firstDecls he)
  have hdec : ∀ e ∈ d.attrs.decls, e ∈ firstDecls d.attrs.decls ++ [] := by
    intro e he
    rw [List.append_nil]
    exact mem_firstDecls_of hG hdecls he
  obtain ⟨n1, n2, n3⟩ := elemName_ok (root := d.attrs) hG hdec hdG hpfx hname
  have e : d.attrs.written d.name = qualify d.attrs.defaultNs d.attrs.pfx (d.attrs.rename.getD d.name) := rfl
  rw [← e] at n1 n2 n3
  have hsp := XmlText.splitColon_none (XmlText.ncName_noColon ht1)
  have hraw : ({ loc := tag } : Name).raw = tag := rfl
  refine returns_of_view hx hG (n := d.attrs.written d.name) (as := [⟨{ loc := tag }, key⟩]) (nss := firstDecls d.attrs.decls)
    (ks := []) ?_ ?_ ?_ ?_ _ rfl _ blank_default
  · refine ⟨n1, n2, declsOk_first hG hdecls (by simp), ⟨?_, ?_, by simp⟩, trivial⟩
    · intro a ha
      rw [List.mem_singleton] at ha; subst ha
      simp only [hraw, AttrNameOk, isQName, hsp, ht1, ht2, true_and, ne_eq, not_false_eq_true, and_self]
    · intro a ha
      rw [List.mem_singleton] at ha; subst ha
      exact hkey
  · exact ⟨fun e he => hdecls e (mem_firstDecls he), by simp [wtexts], trivial⟩
  · refine .named p d _ _ _ key i v hp (nsOk_of_isNameOf n3) ?_ hv.variantFor hv.get hv.shape
    simp [EnumDef.keyOf, htag, hraw, readAttrName, hsp]
  · intro d' hd'; rw [hp] at hd'; cases hd'

/-! ### Samples -/

namespace Tagged
open Tests

/-- `#[yaserde(tag = "type", rename = "foobar")] enum XmlEnum { foo, bar, Num(i32), P(Pt), R { w: i32 } }`
(`/repo/yaserde/tests/enum.rs:363-371` has the first two). -/
def xmlEnum : EnumDef :=
  { name := c!"XmlEnum", attrs := { tag := some c!"type", rename := some c!"foobar" },
    variants := [⟨c!"Foo", rn c!"foo", .unit⟩, ⟨c!"Bar", rn c!"bar", .unit⟩, vN c!"Num" (I .i32), vN c!"P" (T c!"Pt"),
      ⟨c!"R", {}, .named [F c!"w" (I .i32)]⟩], dflt := .enum 0 [] }

/-- `#[yaserde(rename = "base")] struct XmlStruct { #[yaserde(rename = "foobar")] foo_bar: XmlEnum, x: Option<i32> }`. -/
def xmlStruct : StructDef :=
  { name := c!"XmlStruct", attrs := rn c!"base", fields := [F c!"foo_bar" (T c!"XmlEnum") (rn c!"foobar"), F c!"x" (O (I .i32))] }

def prog : List (Path × TypeDef) :=
  [([c!"XmlEnum"], .enum xmlEnum), ([c!"XmlStruct"], .struct xmlStruct), mkS c!"Pt" [F c!"z" (O (I .i32))]]

def env : Env := envOf prog

theorem isEnum : env [c!"XmlEnum"] = some (.enum xmlEnum) := rfl
theorem serOk : SerOk env := serOk_of_all prog (by decide)

theorem isBar : NamedUnit xmlEnum c!"bar" 1 ⟨c!"Bar", rn c!"bar", .unit⟩ := by
  refine ⟨rfl, rfl, rfl, ?_⟩
  intro j w hj hw
  obtain rfl : j = 0 := by omega
  cases hw
  exact .inr (by decide)

/-- Unclosed elements and all: only the start tag matters. -/
example : Returns lib env [c!"XmlEnum"] c!"<foobar x='1' type='bar'><y>2</foobar>" (.ok (.enum 1 [])) := by
  refine (C70_unit (n := ⟨c!"foobar", none, none⟩) (as := [⟨⟨c!"x", none, none⟩, c!"1"⟩, ⟨⟨c!"type", none, none⟩, c!"bar"⟩])
    (m := []) (post := [.start ⟨c!"y", none, none⟩ [] [], .chars c!"2"])
    isEnum rfl (by decide +kernel) (by simp [nsOk]) ⟨⟨[⟨⟨c!"x", none, none⟩, c!"1"⟩], ⟨⟨c!"type", none, none⟩, c!"bar"⟩, [], rfl, ?_, rfl, rfl⟩⟩ isBar _).mpr rfl
  intro b hb
  rw [List.mem_singleton] at hb
  subst hb
  decide

example : Returns lib env [c!"XmlEnum"] c!"<foobar kind='bar' />" (.err c!"Expected enum tagged with type, found <event>") :=
  (C70_missing (n := ⟨c!"foobar", none, none⟩) (as := [⟨⟨c!"kind", none, none⟩, c!"bar"⟩]) (m := [])
    (post := [.endE ⟨c!"foobar", none, none⟩]) isEnum rfl (by decide +kernel) (by simp [nsOk]) (by decide) _).mpr rfl

example : toString lib env [c!"XmlEnum"] (.enum 1 []) = .ok c!"<?xml version=\"1.0\" encoding=\"utf-8\"?><foobar type=\"bar\" />" :=
  (C70_written serOk isEnum rfl rfl (v := ⟨c!"Bar", rn c!"bar", .unit⟩) rfl rfl).trans (by decide +kernel)

theorem noTable : NsTable [] := ⟨by simp, by simp, by simp⟩

example : RoundTrips lib env [c!"XmlEnum"] (.enum 1 []) :=
  C70_round_trip_partial xml serOk isEnum rfl rfl noTable (by intro e he; cases he) (by intro e he; cases he)
    (by decide) (by decide) (by decide) (by decide) isBar

/-- As a field, by the general theorem. -/
example : RoundTrips lib env [c!"XmlStruct"] (.struct [.enum 1 [], .some (.int 3)]) :=
  C50_round_trip_partial (G := []) xml (rtOk_of_check [] prog (by decide +kernel)) serOk (rootOk_of_check 9 (by decide +kernel))
    (hasTy_of_check env (T c!"XmlStruct") _ (by decide +kernel)) (canon_of_check lib env 9 _ _ (by decide +kernel))

theorem okDoc : OkDoc lib env 0 [c!"XmlStruct"] xmlStruct c!"<base><foobar type='bar'/></base>" ⟨c!"base", none, none⟩ [] []
    [Sample.elA c!"foobar" [(c!"type", c!"bar")] []] [.enum 1 [], .none] := by
  refine ⟨rfl, ⟨[], by decide +kernel⟩, .inl ?_, returns_of_deOk (by decide +kernel)⟩
  rw [ConfN, ConfWith, show env [c!"XmlStruct"] = some (.struct xmlStruct) from rfl]
  refine ⟨plain_of_check (by decide), .inl (by decide), ?_, ?_, ?_⟩
  · simp only [ConfKids, and_true]
    rw [Sample.elA, ConfKid]
    refine ⟨by simp, ?_⟩
    intro i f hi hf
    have : xmlStruct.fieldFor ⟨c!"foobar", none, none⟩ = some 0 := by decide
    rw [this] at hi
    cases hi
    cases hf
    refine ⟨(fun t h => nomatch h), fun q h => ?_⟩
    cases h
    refine ⟨?_, fun hfl => absurd hfl ?_⟩
    · rw [ConfWith, isEnum]
      refine ⟨by simp [nsOk], .inr ⟨rfl, c!"bar", by decide, ?_⟩⟩
      intro i v hi hv
      rw [isBar.variantFor] at hi
      cases hi
      cases hv
      rfl
    · rintro ⟨f, hf, h1, h2⟩
      simp only [xmlStruct, List.mem_cons, List.not_mem_nil, or_false] at hf
      rcases hf with rfl | rfl <;> cases h2
  · intro f hf h1 h2
    simp only [xmlStruct, List.mem_cons, List.not_mem_nil, or_false] at hf
    rcases hf with rfl | rfl <;> cases h2
  · intro f hf h1
    simp only [xmlStruct, List.mem_cons, List.not_mem_nil, or_false] at hf
    rcases hf with rfl | rfl <;> cases h1

example : ([.enum 1 [], .none] : List Val)[0]? = some (.enum 1 []) :=
  (C70_field_partial (tag := c!"type") (key := c!"bar") (e := xmlEnum) (as := [⟨⟨c!"type", none, none⟩, c!"bar"⟩])
    ⟨⟨_, _, _, _, okDoc⟩, ⟨_, _, rfl, rfl, rfl, isEnum⟩, [], rfl⟩ rfl
    ⟨⟨[], ⟨⟨c!"type", none, none⟩, c!"bar"⟩, [], rfl, by simp, rfl, rfl⟩⟩).1 1 _ isBar

/-- **C70 is false** of scalar payloads: `XmlEnum::Num(42)`, written `<foobar type="Num"><Num>42</Num></foobar>`, is read as the
default variant. -/
theorem _root_.Yaserde.C70_false : ∃ (L : Lib) (env : Env) (p : Path) (v w : Val) (s : Str), XmlLaw L ∧ SerOk env ∧ HasTy env (.struct p) v ∧
    toString L env p v = .ok s ∧ Returns L env p s (.ok w) ∧ v ≠ w :=
  ⟨lib, Tagged.env, [c!"XmlEnum"], .enum 2 [.int 42], .enum 0 [],
    c!"<?xml version=\"1.0\" encoding=\"utf-8\"?><foobar type=\"Num\"><Num>42</Num></foobar>", xml, serOk,
    hasTy_of_check _ (T c!"XmlEnum") _ (by decide), writes_of_check (by decide +kernel), returns_of_deOk (by decide +kernel), by simp⟩

/-- **C70 is false** of struct payloads: what is written is rejected. -/
theorem _root_.Yaserde.C70_false_struct : toString lib Tagged.env [c!"XmlEnum"] (.enum 3 [.struct [.some (.int 42)]]) =
      .ok c!"<?xml version=\"1.0\" encoding=\"utf-8\"?><foobar type=\"P\"><P><z>42</z></P></foobar>" ∧
    Returns lib Tagged.env [c!"XmlEnum"] c!"<?xml version=\"1.0\" encoding=\"utf-8\"?><foobar type=\"P\"><P><z>42</z></P></foobar>"
      (.err c!"End of document, missing some content ?") :=
  ⟨writes_of_check (by decide +kernel), returns_of_deErr (by decide +kernel)⟩

/-- **C70 is false** of variants with named fields: what is written is rejected, since the elements of the fields are expected
to be tagged, too. -/
theorem _root_.Yaserde.C70_false_named : toString lib Tagged.env [c!"XmlEnum"] (.enum 4 [.int 42]) =
      .ok c!"<?xml version=\"1.0\" encoding=\"utf-8\"?><foobar type=\"R\"><w>42</w></foobar>" ∧
    Returns lib Tagged.env [c!"XmlEnum"] c!"<?xml version=\"1.0\" encoding=\"utf-8\"?><foobar type=\"R\"><w>42</w></foobar>"
      (.err c!"Expected enum tagged with type, found <event>") :=
  ⟨writes_of_check (by decide +kernel), returns_of_deErr (by decide +kernel)⟩

/-- What a tagged element contains is read as if it were content of the element around: the `x` is that of `foobar`. -/
theorem _root_.Yaserde.C70_false_content :
    Returns lib Tagged.env [c!"XmlStruct"] c!"<base><foobar type=\"bar\"><x>1</x></foobar></base>"
      (.ok (.struct [.enum 1 [], .some (.int 1)])) :=
  returns_of_deOk (by decide +kernel)

end Tagged

end Yaserde
