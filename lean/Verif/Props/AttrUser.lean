import Verif.Props.Flatten
/-
Property C68: attributes of derived types.
-/

set_option autoImplicit false
set_option maxRecDepth 100000

namespace Yaserde

section
variable {L : Lib} {env : Env} {k : Nat} {p : Path} {d : StructDef} {s : Str} {n : Name}
  {as : List Attr} {m : NsMap} {ks : List Node} {vs : List Val}

theorem attrWords_user {user : Path → Str → Res Val} {ty : FTy} {q : Path} (hq : ty.core = .struct q) (value : Str) :
    attrWords L user ty value = (ty.attrTexts value).map (user q) := by
  cases ty with
  | simple t => cases hq
  | struct q' => cases hq; rfl
  | opt t => cases t <;> cases hq; rfl
  | vec t => cases t <;> cases hq; rfl

/-- A text that is read as an attribute of a derived type in a conforming document is read as if `from_str` were applied to
the text in an element named after the type. -/
theorem userAttr_returns {q : Path} {t : Str} (hc : flatConfN L env k (.text t) q) (r : Res Val) :
    Returns L env q (attrDoc q t) r ↔ r = userAttr (flatN L env k) q t := by
  cases k with
  | zero => exact hc.elim
  | succ j =>
    obtain ⟨y, h1, h2, h3⟩ := hc
    rw [returns_iff L env j q _ y h1 h3]
    cases y with
    | text t => rw [confN_eq, ConfWith] at h3; exact h3.elim
    | elem n1 as1 m1 ks1 =>
      unfold userAttr
      rw [flatN_text h1]
      rfl

theorem forall₂_of_map_ok {α : Type} {f : α → Res Val} : ∀ {ts : List α} {ws : List Val}, ts.map f = ws.map .ok →
    List.Forall₂ (fun t w => f t = .ok w) ts ws
  | [], [], _ => .nil
  | t :: ts, w :: ws, h => by
    simp only [List.map_cons, List.cons.injEq] at h
    exact .cons h.1 (forall₂_of_map_ok h.2)
  | [], _ :: _, h => by simp at h
  | _ :: _, [], h => by simp at h

theorem forall₂_imp {α β : Type} {R S : α → β → Prop} {as : List α} {bs : List β} (h : List.Forall₂ R as bs)
    (hi : ∀ a ∈ as, ∀ b, R a b → S a b) : List.Forall₂ S as bs := by
  induction h with
  | nil => exact .nil
  | cons hr _ ih => exact .cons (hi _ (by simp) _ hr) (ih fun a ha => hi a (by simp [ha]))

theorem attrTexts_forall₂ (ty : FTy) : ∀ as : List Attr,
    List.Forall₂ (fun (a : Attr) l => ((∃ t, ty = .vec t) → Words a.value l) ∧ ((∀ t, ty ≠ .vec t) → l = [a.value])) as
      (as.map fun a => ty.attrTexts a.value)
  | [] => .nil
  | a :: as => by
    refine .cons ?_ (attrTexts_forall₂ ty as)
    constructor
    · rintro ⟨t, rfl⟩
      exact words_split _
    · intro h
      cases ty with
      | vec t => exact absurd rfl (h t)
      | simple t => rfl
      | struct q => rfl
      | opt t => rfl

/-- **C68.**  A field that is an XML attribute and of a derived type (or an `Option` or `Vec` of one), in a conforming
document: it is made from the values `from_str` returns for the texts `<Type>value</Type>`, where the values are those of
the attributes with the field's name (the words, for a `Vec`). -/
theorem C68_reading (h : OkDoc L env k p d s n as m ks vs) {i : Nat} {f : FieldDef} (hf : d.fields[i]? = some f)
    (ha : f.attrs.isAttr = true) {q : Path} (hq : f.ty.core = .struct q) :
    ∃ w ts ws, vs[i]? = some w ∧ fieldValue d.name f ws = .ok w ∧
      List.Forall₂ (fun (a : Attr) l => ((∃ t, f.ty = .vec t) → Words a.value l) ∧ ((∀ t, f.ty ≠ .vec t) → l = [a.value]))
        (as.filter fun a => a.name.loc = f.label) ts ∧
      List.Forall₂ (fun t x => ∀ r, Returns L env q (c!"<" ++ q.flatten ++ c!">" ++ t ++ c!"</" ++ q.flatten ++ c!">") r ↔ r = .ok x)
        ts.flatten ws := by
  have htext : f.attrs.text = false := by
    cases hx : f.attrs.text with
    | false => rfl
    | true => rcases h.plain.textTy f (List.mem_of_getElem? hf) hx with h3 | h3 <;> rw [h3] at hq <;> cases hq
  obtain ⟨w, ws, hw, h1, h2⟩ := h.attrField hf ha htext
  refine ⟨w, (as.filter fun a => a.name.loc = f.label).map fun a => f.ty.attrTexts a.value, ws, hw, h2, attrTexts_forall₂ f.ty _, ?_⟩
  unfold attrInputs at h1
  rw [if_pos ha] at h1
  simp only [attrWords_user hq, ← List.map_flatMap] at h1
  rw [← List.flatMap_def]
  refine forall₂_imp (forall₂_of_map_ok h1) fun t ht x hx r => ?_
  obtain ⟨a, ha1, ha2⟩ := List.mem_flatMap.mp ht
  obtain ⟨ha3, ha4⟩ := List.mem_filter.mp ha1
  have hc := h.conf.attrs h.isStruct f (List.mem_of_getElem? hf) ha q hq a ha3 (by simpa using ha4) t ha2
  rw [← hx]
  exact userAttr_returns hc r

/-- For one attribute. -/
theorem C68_one (h : OkDoc L env k p d s n as m ks vs) {i : Nat} {f : FieldDef} (hf : d.fields[i]? = some f)
    (ha : f.attrs.isAttr = true) {q : Path} (hty : f.ty = .struct q) {a : Attr}
    (hone : as.filter (fun a => a.name.loc = f.label) = [a]) :
    ∃ w, vs[i]? = some w ∧ ∀ r, Returns L env q (attrDoc q a.value) r ↔ r = .ok w := by
  obtain ⟨w, ts, ws, h1, h2, h0, h3⟩ := C68_reading h hf ha (q := q) (by rw [hty]; rfl)
  rw [hone] at h0
  cases h0 with
  | cons h6 h7 =>
  cases h7
  have h6 := h6.2 (by rw [hty]; intro t ht; cases ht)
  subst h6
  cases h3 with
  | cons h4 h5 =>
    cases h5
    unfold fieldValue at h2
    rw [hty] at h2
    cases h2
    exact ⟨_, h1, h4⟩

theorem C68_option (h : OkDoc L env k p d s n as m ks vs) {i : Nat} {f : FieldDef} (hf : d.fields[i]? = some f)
    (ha : f.attrs.isAttr = true) {q : Path} (hty : f.ty = .opt (.struct q)) {a : Attr}
    (hone : as.filter (fun a => a.name.loc = f.label) = [a]) :
    ∃ w, vs[i]? = some (.some w) ∧ ∀ r, Returns L env q (attrDoc q a.value) r ↔ r = .ok w := by
  obtain ⟨w, ts, ws, h1, h2, h0, h3⟩ := C68_reading h hf ha (q := q) (by rw [hty]; rfl)
  rw [hone] at h0
  cases h0 with
  | cons h6 h7 =>
  cases h7
  have h6 := h6.2 (by rw [hty]; intro t ht; cases ht)
  subst h6
  cases h3 with
  | cons h4 h5 =>
    cases h5
    unfold fieldValue at h2
    rw [hty] at h2
    cases h2
    exact ⟨_, h1, h4⟩

end

/-! ### Enums without payloads -/

theorem escText_id {s : Str} (h : ∀ c ∈ s, c ≠ '<' ∧ c ≠ '>' ∧ c ≠ '&') : XmlText.escText s = s := by
  unfold XmlText.escText
  induction s with
  | nil => rfl
  | cons c s ih =>
    obtain ⟨h1, h2, h3⟩ := h c (by simp)
    rw [List.flatMap_cons, ih fun c hc => h c (by simp [hc])]
    simp [XmlText.escChar, h1, h2, h3]

/-- Text in an element. -/
theorem parse_text {L : Lib} (hp : L.parse = XmlText.parse) (he : L.emit = XmlText.emit) {n s : Str}
    (hn : isNCName n = true) (hs : isText s = true) (h : ∀ c ∈ s, c ≠ '<' ∧ c ≠ '>' ∧ c ≠ '&') :
    L.parse (c!"<" ++ n ++ c!">" ++ s ++ c!"</" ++ n ++ c!">") =
      ⟨.startDocument :: (Node.elem ⟨n, none, none⟩ [] [] (textRun s)).events, none⟩ := by
  obtain ⟨y, hy, hpar⟩ := (XmlText.xmlLaw L hp he).frag n [.text s] [.chars s] hn ⟨hs, trivial⟩ rfl
  obtain ⟨-, -, a3, -⟩ := ncName_read hn
  have e1 : L.emit { decl := false } [.chars s] = s := by
    rw [he]
    show [] ++ XmlText.escText s = s
    rw [List.nil_append, escText_id h]
  have e2 : (WNode.elem n [] [] [.text s]).back [] = .elem ⟨n, none, none⟩ [] [] (textRun s) := by
    simp only [WNode.back, WNode.backL, List.append_nil, List.nil_append, List.map_nil, a3]
  rw [e2] at hy
  rw [e1] at hpar
  rw [hpar, like_eq _ y hy (by simp [Node.strip, strip_textRun])]

/-- An attribute whose type is an enum without payloads, if the value contains no markup characters: the (first) variant
named like the value without surrounding white space, and the enum's default if there is none.  (No variant may be named
like the type.) -/
theorem C68_enum {L : Lib} (hp : L.parse = XmlText.parse) (he : L.emit = XmlText.emit) {env : Env} {q : Path} {e : EnumDef}
    (hq : env q = some (.enum e)) (htag : e.attrs.tag = none) (hunit : ∀ v ∈ e.variants, v.shape = .unit)
    (hid : isNCName q.flatten = true) (hown : ∀ v ∈ e.variants, v.attrs.rename.getD v.ident ≠ q.flatten) {s : Str}
    (hs : isText s = true) (h : ∀ c ∈ s, c ≠ '<' ∧ c ≠ '>' ∧ c ≠ '&') (r : Res Val) :
    (∀ i v, e.variants[i]? = some v → v.attrs.rename.getD v.ident = trimSpace s → trimSpace s ≠ [] →
      (∀ j w, j < i → e.variants[j]? = some w → w.attrs.rename.getD w.ident ≠ trimSpace s) →
      (Returns L env q (attrDoc q s) r ↔ r = .ok (.enum i []))) ∧
    ((trimSpace s = [] ∨ ∀ v ∈ e.variants, v.attrs.rename.getD v.ident ≠ trimSpace s) →
      (Returns L env q (attrDoc q s) r ↔ r = .ok e.dflt)) := by
  have hpar := parse_text hp he hid hs h
  have hdoc : IsDoc (L.parse (attrDoc q s)) (.elem ⟨q.flatten, none, none⟩ [] [] (textRun s)) := by
    refine ⟨[], ?_⟩
    rw [attrDoc, hpar, List.append_nil]
    exact content_doc _
  have hnone : ∀ key, (∀ v ∈ e.variants, v.attrs.rename.getD v.ident ≠ key) → e.variantFor key = none := by
    intro key hk
    unfold EnumDef.variantFor
    rw [List.findIdx?_eq_none_iff]
    intro v hv
    simp only [decide_eq_false_iff_not]
    rintro ⟨-, hl⟩
    exact hk v hv hl
  have hof : e.variantOf ⟨q.flatten, none, none⟩ [] = none := by simp [EnumDef.variantOf, EnumDef.keyOf, htag, hnone _ hown]
  constructor
  · intro i v hi hv hne hfirst
    have hfor : e.variantFor (trimSpace s) = some i := by
      unfold EnumDef.variantFor
      obtain ⟨hlt, hget⟩ := List.getElem?_eq_some_iff.mp hi
      rw [List.findIdx?_eq_some_iff_getElem]
      refine ⟨hlt, ?_, ?_⟩
      · rw [hget]
        exact decide_eq_true ⟨by rw [hunit v (List.mem_of_getElem? hi)]; simp, hv⟩
      · intro j hj hc
        exact hfirst j _ hj (List.getElem?_eq_getElem (by omega)) (of_decide_eq_true hc).2
    have hrun : textRun s = [.text (trimSpace s)] := by unfold textRun; rw [if_neg hne]
    rw [hrun] at hdoc
    rw [returns_iff L env 0 q _ _ hdoc]
    · simp only [decodeDocN, decodeDocWith, hq, decodeN, decodeWith, decodeEnum, hof, unitByText, hfor]
    · rw [ConfN, ConfWith, hq]
      exact ⟨by simp [nsOk], .inl ⟨htag, hnone _ hown, .inl ⟨i, v, hfor, hi, hunit v (List.mem_of_getElem? hi)⟩⟩⟩
  · intro hor
    by_cases hne : trimSpace s = []
    · have hrun : textRun s = [] := by unfold textRun; rw [if_pos hne]
      rw [hrun] at hdoc
      rw [returns_iff L env 0 q _ _ hdoc]
      · simp only [decodeDocN, decodeDocWith, hq, decodeN, decodeWith, decodeEnum, hof, unitByText, List.zip_nil_left, variantKids, Res.bind, Option.getD_none]
      · rw [ConfN, ConfWith, hq]
        exact ⟨by simp [nsOk], .inl ⟨htag, hnone _ hown, .inr (by rw [ConfVariants]; trivial)⟩⟩
    · have hfor := hnone _ (hor.resolve_left hne)
      have hrun : textRun s = [.text (trimSpace s)] := by unfold textRun; rw [if_neg hne]
      rw [hrun] at hdoc
      rw [returns_iff L env 0 q _ _ hdoc]
      · simp only [decodeDocN, decodeDocWith, hq, decodeN, decodeWith, decodeEnum, hof, unitByText, hfor, decodeL,
          List.zip_cons_cons, List.zip_nil_left, variantKids, variantKid, variantAdd, Res.bind, Option.getD_none]
      · rw [ConfN, ConfWith, hq]
        exact ⟨by simp [nsOk], .inl ⟨htag, hnone _ hown, .inr (by simp [ConfVariants, ConfVariant, hfor])⟩⟩

/-! ### Samples -/

namespace AttrSample
open Tests Sample

/-- `enum Color { White, Black }`, `struct W { #[yaserde(text)] t: String }`,
`struct A { #[attribute] c: Color, #[attribute] cs: Vec<Color>, #[attribute] w: Option<W> }`. -/
def sA : StructDef :=
  { name := c!"A", fields := [F c!"c" (T c!"Color") attr, F c!"cs" (V (T c!"Color")) attr, F c!"w" (O (T c!"W")) attr] }

def env : Env := envOf [colorE, ([c!"A"], .struct sA), mkS c!"W" [F c!"t" Tests.S { text := true }]]

def text : Str := c!"<A c='Black' cs='Black  White' w=' x &amp;amp; y '/>"
def as : List Attr :=
  [⟨⟨c!"c", none, none⟩, c!"Black"⟩, ⟨⟨c!"cs", none, none⟩, c!"Black  White"⟩, ⟨⟨c!"w", none, none⟩, c!" x &amp; y "⟩]

theorem plain_W : ({ name := c!"W", fields := [F c!"t" Tests.S { text := true }] } : StructDef).Plain :=
  plain_of_check (by decide)

theorem plain_A : sA.Plain := plain_of_check (by decide)

theorem conf_color {t : Str} {i : Nat} (ht : textRun t = [.text t]) (h : isText t = true)
    (hc : ∀ c ∈ t, c ≠ '<' ∧ c ≠ '>' ∧ c ≠ '&')
    (hv : (match colorE.2 with | .enum e => e.variantFor t | _ => none) = some i)
    (hu : (match colorE.2 with | .enum e => e.variants[i]?.map (·.shape) | _ => none) = some .unit) :
    flatConfN lib env 1 (.text t) [c!"Color"] := by
  refine ⟨.elem ⟨c!"Color", none, none⟩ [] [] (textRun t), ⟨[], ?_⟩, ?_, ?_⟩
  · have := parse_text (L := lib) rfl rfl (n := c!"Color") (s := t) (by decide) h hc
    unfold attrDoc
    rw [show ([c!"Color"] : Path).flatten = c!"Color" from rfl, this, List.append_nil]
    exact content_doc _
  · rw [ht]; simp [Node.events, Node.eventsL]
  · rw [ht, ConfN, ConfWith, show env [c!"Color"] = some colorE.2 from rfl]
    simp only [colorE, mkE] at hv hu ⊢
    refine ⟨by simp [nsOk], .inl ⟨rfl, by decide, .inl ?_⟩⟩
    cases hg : ([vU c!"White", vU c!"Black"] : List VariantDef)[i]? with
    | none => rw [hg] at hu; cases hu
    | some v => rw [hg] at hu; exact ⟨i, v, hv, hg, by simpa using hu⟩

theorem conf_w : flatConfN lib env 1 (.text c!" x &amp; y ") [c!"W"] := by
  refine ⟨el c!"W" [tx c!"x & y"], ⟨[], by decide +kernel⟩, by decide, ?_⟩
  rw [el, ConfN, ConfWith, show env [c!"W"] = some (.struct { name := c!"W", fields := [F c!"t" Tests.S { text := true }] }) from rfl]
  refine ⟨plain_W, .inl (by decide), ?_, ?_, ?_⟩
  · simp only [ConfKids, tx, ConfKid]; simp
  · intro f hf _ hfl
    simp only [List.mem_cons, List.not_mem_nil, or_false] at hf
    rw [hf] at hfl
    cases hfl
  · intro f _ _ _ _ a ha
    cases ha

theorem conf_A : ConfN lib env 1 (elA c!"A" [(c!"c", c!"Black"), (c!"cs", c!"Black  White"), (c!"w", c!" x &amp; y ")] []) [c!"A"] := by
  rw [confN_eq, elA, ConfWith, show env [c!"A"] = some (.struct sA) from rfl]
  refine ⟨plain_A, .inl (by decide), by rw [ConfKids]; trivial, ?_, ?_⟩
  · intro f hf _ hfl
    simp only [sA, List.mem_cons, List.not_mem_nil, or_false] at hf
    rcases hf with rfl | rfl | rfl <;> cases hfl
  intro f hf hfa q hq a ha hn t ht
  have black : flatConfN lib env 1 (.text c!"Black") [c!"Color"] :=
    conf_color (i := 1) rfl (by decide) (by decide) (by decide) rfl
  have white : flatConfN lib env 1 (.text c!"White") [c!"Color"] :=
    conf_color (i := 0) rfl (by decide) (by decide) (by decide) rfl
  simp only [sA, List.mem_cons, List.not_mem_nil, or_false] at hf
  simp only [List.map_cons, List.map_nil, List.mem_cons, List.not_mem_nil, or_false] at ha
  rcases hf with rfl | rfl | rfl
  · cases hq
    rcases ha with rfl | rfl | rfl
    · have : t = c!"Black" := by simpa [FTy.attrTexts, F, T] using ht
      subst this
      exact black
    · exact absurd hn (by decide)
    · exact absurd hn (by decide)
  · cases hq
    rcases ha with rfl | rfl | rfl
    · exact absurd hn (by decide)
    · have h1 : t ∈ [c!"Black", c!"White"] := by
        have : (F c!"cs" (V (T c!"Color")) attr).ty.attrTexts c!"Black  White" = [c!"Black", c!"White"] := by decide
        rw [this] at ht
        exact ht
      simp only [List.mem_cons, List.not_mem_nil, or_false] at h1
      rcases h1 with rfl | rfl
      · exact black
      · exact white
    · exact absurd hn (by decide)
  · cases hq
    rcases ha with rfl | rfl | rfl
    · exact absurd hn (by decide)
    · exact absurd hn (by decide)
    · have : t = c!" x &amp; y " := by simpa [FTy.attrTexts, F, T, O] using ht
      subst this
      exact conf_w

theorem ok : OkDoc lib env 1 [c!"A"] sA text ⟨c!"A", none, none⟩ as [] []
    [.enum 1 [], .vec [.enum 1 [], .enum 0 []], .some (.struct [.str c!"x & y"])] :=
  ⟨rfl, ⟨[], by decide +kernel⟩, .inl conf_A, returns_of_deOk (by decide +kernel)⟩

example (r : Res Val) : Returns lib env [c!"Color"] c!"<Color>Black</Color>" r ↔ r = .ok (.enum 1 []) := by
  obtain ⟨w, h1, h2⟩ := C68_one ok (i := 0) rfl rfl rfl (a := ⟨⟨c!"c", none, none⟩, c!"Black"⟩) (by decide)
  cases h1
  exact h2 r

example (r : Res Val) : Returns lib env [c!"W"] c!"<W> x &amp; y </W>" r ↔ r = .ok (.struct [.str c!"x & y"]) := by
  obtain ⟨w, h1, h2⟩ := C68_option ok (i := 2) rfl rfl rfl (a := ⟨⟨c!"w", none, none⟩, c!" x &amp; y "⟩) (by decide)
  cases h1
  exact h2 r

example (r : Res Val) : Returns lib env [c!"Color"] c!"<Color>\tBlack </Color>" r ↔ r = .ok (.enum 1 []) :=
  (C68_enum (L := lib) rfl rfl (env := env) (q := [c!"Color"]) rfl rfl (by simp [vU]) (by decide) (by decide) (s := c!"\tBlack ")
    (by decide) (by decide) r).1 1 _ rfl (by decide) (by decide) (by
      intro j w hj
      match j, hj with
      | 0, _ => intro hw; cases hw; decide)

example (r : Res Val) : Returns lib env [c!"Color"] c!"<Color>Blackish</Color>" r ↔ r = .ok (.enum 0 []) :=
  (C68_enum (L := lib) rfl rfl (env := env) (q := [c!"Color"]) rfl rfl (by simp [vU]) (by decide) (by decide) (s := c!"Blackish")
    (by decide) (by decide) r).2 (.inr (by decide))

/-- Written and read back. -/
example : RoundTrips lib (envOf [colorE, mkS c!"B" [F c!"c" (T c!"Color") attr, F c!"d" (O (T c!"Color")) attr]]) [c!"B"]
    (.struct [.enum 1 [], .some (.enum 0 [])]) :=
  C50_simple_partial xml (simple_of_check _ (by decide +kernel)) (restores_of_writesAll (writesAll_of_check _ (by decide)))
    (by intro p d h; have := mem_envOf h; simp [colorE, mkE, mkS] at this) (simpleRoot_of_check (by decide +kernel))
    (hasTy_of_check _ (T c!"B") _ (by decide +kernel)) (tame_of_check lib _ (by decide +kernel))

end AttrSample

open AttrSample Tests Sample in
/-- **C68, with the value read as data, is false**: the attribute `c='&lt;Black>&lt;/Black>'` has the value `<Black></Black>`,
which is not the name of a variant (an element with this text is read as the default, `White`), but is read as `Black`. -/
theorem C68_false : ∃ (L : Lib) (env : Env) (p q : Path) (d : StructDef) (f : FieldDef) (s text elemText : Str) (v w : Val),
    XmlLaw L ∧ env p = some (.struct d) ∧ d.fields = [f] ∧ f.attrs.isAttr = true ∧ f.ty = .struct q ∧
      IsDoc (L.parse text) (.elem ⟨d.name, none, none⟩ [⟨⟨f.label, none, none⟩, s⟩] [] []) ∧
      IsDoc (L.parse elemText) (.elem ⟨q.flatten, none, none⟩ [] [] [.text s]) ∧
      Returns L env p text (.ok (.struct [v])) ∧ Returns L env q elemText (.ok w) ∧ v ≠ w :=
  ⟨lib, envOf [colorE, mkS c!"A" [F c!"c" (T c!"Color") attr]], [c!"A"], [c!"Color"],
    { name := c!"A", fields := [F c!"c" (T c!"Color") attr] }, F c!"c" (T c!"Color") attr, c!"<Black></Black>",
    c!"<A c='&lt;Black>&lt;/Black>'/>", c!"<Color>&lt;Black>&lt;/Black></Color>", .enum 1 [], .enum 0 [], xml, rfl, rfl, rfl, rfl,
    ⟨[], by decide +kernel⟩, ⟨[], by decide +kernel⟩, returns_of_deOk (by decide +kernel), returns_of_deOk (by decide +kernel),
    by simp⟩

open AttrSample Tests Sample in
/-- Nor need it be rejected if it is not well formed: the value `Black</Color><` is read as `Black`, since what follows the end
tag is never looked at. -/
theorem C68_false_ill : ∃ (L : Lib) (env : Env) (p q : Path) (d : StructDef) (f : FieldDef) (s text : Str) (v : Val),
    XmlLaw L ∧ env p = some (.struct d) ∧ d.fields = [f] ∧ f.attrs.isAttr = true ∧ f.ty = .struct q ∧
      IsDoc (L.parse text) (.elem ⟨d.name, none, none⟩ [⟨⟨f.label, none, none⟩, s⟩] [] []) ∧
      (L.parse (attrDoc q s)).fin.isSome = true ∧ Returns L env p text (.ok (.struct [v])) :=
  ⟨lib, envOf [colorE, mkS c!"A" [F c!"c" (T c!"Color") attr]], [c!"A"], [c!"Color"],
    { name := c!"A", fields := [F c!"c" (T c!"Color") attr] }, F c!"c" (T c!"Color") attr, c!"Black</Color><",
    c!"<A c='Black&lt;/Color>&lt;'/>", .enum 1 [], xml, rfl, rfl, rfl, rfl,
    ⟨[], by decide +kernel⟩, by decide +kernel, returns_of_deOk (by decide +kernel)⟩

open AttrSample Tests Sample in
/-- … and a value that is fine as text, `x & y`, is rejected. -/
theorem C68_false_error : ∃ (L : Lib) (env : Env) (p q : Path) (d : StructDef) (f : FieldDef) (s text elemText e : Str) (w : Val),
    XmlLaw L ∧ env p = some (.struct d) ∧ d.fields = [f] ∧ f.attrs.isAttr = true ∧ f.ty = .struct q ∧
      IsDoc (L.parse text) (.elem ⟨d.name, none, none⟩ [⟨⟨f.label, none, none⟩, s⟩] [] []) ∧
      IsDoc (L.parse elemText) (.elem ⟨q.flatten, none, none⟩ [] [] [.text s]) ∧
      Returns L env p text (.err e) ∧ Returns L env q elemText (.ok w) :=
  ⟨lib, envOf [mkS c!"W" [F c!"t" Tests.S { text := true }], mkS c!"A" [F c!"w" (T c!"W") attr]], [c!"A"], [c!"W"],
    { name := c!"A", fields := [F c!"w" (T c!"W") attr] }, F c!"w" (T c!"W") attr, c!"x & y",
    c!"<A w='x &amp; y'/>", c!"<W>x &amp; y</W>", c!"Unexpected end of stream", .struct [.str c!"x & y"], xml, rfl, rfl, rfl, rfl,
    ⟨[], by decide +kernel⟩, ⟨[], by decide +kernel⟩, returns_of_deErr (by decide +kernel), returns_of_deOk (by decide +kernel)⟩

end Yaserde
