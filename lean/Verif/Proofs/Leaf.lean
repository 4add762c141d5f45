import Verif.Proofs.Simple
import Verif.Props.Decode
import Verif.Model.Primitives
/-
Reading the document of a struct with a single field.
-/

set_option autoImplicit false

namespace Yaserde

theorem ncName_read {a : Str} (h : isNCName a = true) : isQName a = true ∧ Bound [] a ∧
    readElemName [] a = ⟨a, none, none⟩ ∧ splitColon a = none := by
  have hsp := XmlText.splitColon_none (XmlText.ncName_noColon h)
  refine ⟨?_, ?_, ?_, hsp⟩
  · unfold isQName; rw [hsp]; exact h
  · unfold Bound; rw [hsp]; trivial
  · unfold readElemName; rw [hsp]; rfl

mutual
  /-- A tree read without namespace declarations is the tree itself. -/
  theorem like_eq (x y : Node) (h : y.Like x) (hn : x.strip = x) : y = x := by
    match x, y, h with
    | .text s, .text t, h => rw [Node.Like] at h; rw [h]
    | .elem n as m ks, .elem n' as' m' ks', h =>
      rw [Node.Like] at h
      obtain ⟨rfl, rfl, -, hm, hl⟩ := h
      simp only [Node.strip, Node.elem.injEq, true_and] at hn
      obtain ⟨rfl, hks⟩ := hn
      have : m' = [] := by
        rw [List.eq_nil_iff_forall_not_mem]
        intro e he
        have := (hm e).mp he
        cases this
      rw [this, likeL_eq ks ks' hl hks]
  theorem likeL_eq (xs ys : List Node) (h : Node.LikeL ys xs) (hn : Node.stripL xs = xs) : ys = xs := by
    match xs, ys, h with
    | [], [], _ => rfl
    | x :: xs, y :: ys, h =>
      rw [Node.LikeL] at h
      simp only [Node.stripL, List.cons.injEq] at hn
      rw [like_eq x y h.1 hn.1, likeL_eq xs ys h.2 hn.2]
end

/-- A tree written without namespace declarations is read back exactly. -/
theorem parse_bare {L : Lib} (hx : XmlLaw L) {n : Str} {as : List Attr} {ks : List WNode} (hok : (WNode.elem n as [] ks).Ok [])
    (hn : ((WNode.elem n as [] ks).back []).strip = (WNode.elem n as [] ks).back []) (cfg : EmitCfg) (hcfg : cfg.Blank) :
    L.parse (L.emit cfg (WNode.elem n as [] ks).events) = ⟨.startDocument :: ((WNode.elem n as [] ks).back []).events, none⟩ := by
  obtain ⟨y, hy, hp⟩ := hx.doc n as [] ks _ hok rfl
  rw [hp cfg hcfg, like_eq _ y hy hn]

theorem isDoc_bare {L : Lib} (hx : XmlLaw L) {n : Str} {as : List Attr} {ks : List WNode} (hok : (WNode.elem n as [] ks).Ok [])
    (hn : ((WNode.elem n as [] ks).back []).strip = (WNode.elem n as [] ks).back []) (cfg : EmitCfg) (hcfg : cfg.Blank) :
    IsDoc (L.parse (L.emit cfg (WNode.elem n as [] ks).events)) ((WNode.elem n as [] ks).back []) := by
  refine ⟨[], ?_⟩
  rw [parse_bare hx hok hn cfg hcfg, List.append_nil]
  exact content_doc _

theorem blank_default : ({} : Config).emitCfg.Blank := by
  intro ind h
  simp [Config.emitCfg] at h

/-- A struct with one field. -/
def oneField (a : Str) (f : FieldDef) : StructDef := { name := a, fields := [f] }

/-- A struct with one element field that holds the scalar `s`, as a tree. -/
theorem leaf_back {a x s : Str} (ha : isNCName a = true) (hxn : isNCName x = true) (hs : isText s = true) :
    (WNode.elem a [] [] [leaf x s]).Ok [] ∧
    (WNode.elem a [] [] [leaf x s]).back [] = .elem ⟨a, none, none⟩ [] [] [.elem ⟨x, none, none⟩ [] [] (textRun s)] := by
  obtain ⟨a1, a2, a3, -⟩ := ncName_read ha
  obtain ⟨x1, x2, x3, -⟩ := ncName_read hxn
  constructor
  · simp only [WNode.Ok, WNode.OkL, leaf, List.append_nil]
    exact ⟨a1, a2, declsOk_nil _, attrsOk_nil _, ⟨x1, x2, declsOk_nil _, attrsOk_nil _, hs, trivial⟩, trivial⟩
  · simp only [WNode.back, WNode.backL, leaf, List.append_nil, List.nil_append, List.map_nil, a3, x3]
    simp [textRun, trimSpace]

theorem strip_textRun (s : Str) : Node.stripL (textRun s) = textRun s := by
  unfold textRun
  split <;> simp [Node.stripL, Node.strip]

/-- Reading such a document. -/
theorem leaf_ok {L : Lib} (hx : XmlLaw L) {env : Env} {p : Path} {a s : Str} {f : FieldDef} {t : STy}
    (hp : env p = some (.struct (oneField a f))) (ha : isNCName a = true) (hf : isNCName f.label = true)
    (hpf : f.attrs.pfx = none) (hel : f.isElem = true) (htx : f.attrs.text = false) (hty : f.ty.core = .simple t)
    (hs : isText s = true) (cfg : EmitCfg) (hcfg : cfg.Blank) (v : Val) :
    Returns L env p (L.emit cfg (WNode.elem a [] [] [leaf f.label s]).events) (.ok v) ↔
    ∃ w, v = .struct [w] ∧ fieldValue a f (scalarContent L t (textRun s)).toList = .ok w := by
  obtain ⟨h1, h2⟩ := leaf_back ha hf hs
  have hdoc := isDoc_bare hx h1 (by
    rw [h2]
    simp [Node.strip, Node.stripL, strip_textRun]) cfg hcfg
  rw [h2] at hdoc
  have hclaims : ∀ n : Name, f.claims {} n ↔ n.ns.getD [] = [] ∧ f.label = n.loc := by
    intro n
    unfold FieldDef.claims
    rw [hpf]
    simp only [hel, true_and]
    constructor
    · rintro ⟨h3, h4⟩; exact ⟨h3.symm, h4⟩
    · rintro ⟨h3, h4⟩; exact ⟨h3.symm, h4⟩
  have hff : (oneField a f).fieldFor ⟨f.label, none, none⟩ = some 0 := by
    unfold StructDef.fieldFor
    have : f.claims (oneField a f).attrs ⟨f.label, none, none⟩ := (hclaims _).mpr ⟨rfl, rfl⟩
    simp [oneField, List.findIdx?_cons] at this ⊢
    exact decide_eq_true this
  have hflat : ¬ (oneField a f).HasFlat := by
    rintro ⟨g, hg, h3, h4⟩
    simp only [oneField, List.mem_singleton] at hg
    subst hg
    simp [FieldDef.isElem, h4] at hel
  have hattr : f.attrs.isAttr = false := by
    simp [FieldDef.isElem] at hel
    exact hel.1
  have hconf : ConfN L env 0 (.elem ⟨a, none, none⟩ [] [] [.elem ⟨f.label, none, none⟩ [] [] (textRun s)]) p := by
    unfold ConfN
    rw [ConfWith, hp]
    dsimp only
    refine ⟨⟨?_, ?_, ?_⟩, .inl ⟨rfl, rfl⟩, ?_, ?_, fun g hg hga q hq a hm => nomatch hm⟩
    · intro g hg
      simp only [oneField, List.mem_singleton] at hg
      subst hg
      exact .inl ⟨t, hty⟩
    · intro g hg hgt
      simp only [oneField, List.mem_singleton] at hg
      subst hg
      rw [htx] at hgt; cases hgt
    · intro g hg h3 h4
      exact (hflat ⟨g, hg, h3, h4⟩).elim
    · simp only [ConfKids, and_true]
      rw [ConfKid]
      refine ⟨by simp, ?_⟩
      intro i g hi hg
      rw [hff] at hi
      cases hi
      simp only [oneField, List.getElem?_cons_zero, Option.some.injEq] at hg
      subst hg
      refine ⟨?_, ?_⟩
      · exact fun t' _ => ⟨textOnly_textRun s, fun hfl => (hflat hfl).elim⟩
      · intro q hq; rw [hty] at hq; cases hq
    · intro g hg h3 h4
      exact (hflat ⟨g, hg, h3, h4⟩).elim
  have hmat : matching (oneField a f) 0 [.elem ⟨f.label, none, none⟩ [] [] (textRun s)] =
      [.elem ⟨f.label, none, none⟩ [] [] (textRun s)] := by
    unfold matching
    simp [hff]
  have e : List.filterMap (fun c => scalarContent L t c.content)
      [Node.elem ⟨f.label, none, none⟩ [] [] (textRun s)] = (scalarContent L t (textRun s)).toList := by
    simp only [List.filterMap_cons, List.filterMap_nil, Node.content]
    cases scalarContent L t (textRun s) <;> rfl
  constructor
  · intro h
    obtain ⟨-, vs, rfl, hlen, -⟩ := (C08_ok_fields_partial L env 0 p _ hp _ _ _ _ _ hdoc (.inl hconf) v).mp h
    obtain ⟨w, hw, hv⟩ := OkDoc.scalarField ⟨hp, hdoc, .inl hconf, h⟩ (i := 0) (f := f) (t := t) rfl hel htx hty
    refine ⟨w, ?_, ?_⟩
    · match vs, hlen, hw with
      | [x], _, hw => simp at hw; rw [hw]
    · rw [hmat, e] at hv
      exact hv
  · rintro ⟨w, rfl, hw⟩
    refine (C08_ok_fields_partial L env 0 p _ hp _ _ _ _ _ hdoc (.inl hconf) _).mpr ⟨?_, [w], rfl, rfl, ?_⟩
    · intro u hu; cases hu
    · intro i g w' hg hw'
      match i, hg, hw' with
      | 0, hg, hw' =>
        simp only [oneField, List.getElem?_cons_zero, Option.some.injEq] at hg hw'
        subst hg hw'
        refine ⟨(scalarContent L t (textRun s)).toList, ?_, hw⟩
        unfold fieldInputs
        rw [attrInputs_elem L _ f _ hel, flatInputs_elem _ f hel, inputs_matching_simple L _ _ 0 f t hty htx, hmat, e]
        simp only [List.nil_append, List.append_nil]

/-- Reading the document of a struct with one field from an element that has only text, or nothing. -/
theorem textLeaf_ok {L : Lib} (hx : XmlLaw L) {env : Env} {p : Path} {a s : Str} {f : FieldDef} {t : STy}
    (hp : env p = some (.struct (oneField a f))) (ha : isNCName a = true) (hel : f.isElem = true) (hty : f.ty.core = .simple t)
    (htxt : f.attrs.text = true → f.ty = .simple .string ∨ f.ty = .opt (.simple .string)) (hs : isText s = true)
    (ws : List WNode) (hws : ws = [.text s] ∨ (ws = [] ∧ s = [])) (cfg : EmitCfg) (hcfg : cfg.Blank) (v : Val) :
    Returns L env p (L.emit cfg (WNode.elem a [] [] ws).events) (.ok v) ↔
    ∃ w, v = .struct [w] ∧
      fieldValue a f (if f.attrs.text = true ∧ trimSpace s ≠ [] then [.str (trimSpace s)] else []) = .ok w := by
  obtain ⟨a1, a2, a3, -⟩ := ncName_read ha
  have h1 : (WNode.elem a [] [] ws).Ok [] := by
    rcases hws with rfl | ⟨rfl, -⟩ <;> simp only [WNode.Ok, WNode.OkL, List.append_nil]
    · exact ⟨a1, a2, declsOk_nil _, attrsOk_nil _, hs, trivial⟩
    · exact ⟨a1, a2, declsOk_nil _, attrsOk_nil _, trivial⟩
  have h2 : (WNode.elem a [] [] ws).back [] = .elem ⟨a, none, none⟩ [] [] (textRun s) := by
    rcases hws with rfl | ⟨rfl, rfl⟩ <;>
      simp only [WNode.back, WNode.backL, List.append_nil, List.nil_append, List.map_nil, a3]
  have hdoc := isDoc_bare hx h1 (by rw [h2]; simp [Node.strip, strip_textRun]) cfg hcfg
  rw [h2] at hdoc
  have hflat : ¬ (oneField a f).HasFlat := by
    rintro ⟨g, hg, h3, h4⟩
    simp only [oneField, List.mem_singleton] at hg
    subst hg
    simp [FieldDef.isElem, h4] at hel
  have hconf : ConfN L env 0 (.elem ⟨a, none, none⟩ [] [] (textRun s)) p := by
    unfold ConfN
    rw [ConfWith, hp]
    dsimp only
    refine ⟨⟨?_, ?_, ?_⟩, .inl ⟨rfl, rfl⟩, ?_, ?_, fun g hg hga q hq a hm => nomatch hm⟩
    · intro g hg
      simp only [oneField, List.mem_singleton] at hg
      subst hg
      exact .inl ⟨t, hty⟩
    · intro g hg hgt
      simp only [oneField, List.mem_singleton] at hg
      subst hg
      exact htxt hgt
    · intro g hg h3 h4
      exact (hflat ⟨g, hg, h3, h4⟩).elim
    · unfold textRun
      split
      · simp [ConfKids]
      · rename_i h
        simp only [ConfKids, ConfKid, and_true]
        exact h
    · intro g hg h3 h4
      exact (hflat ⟨g, hg, h3, h4⟩).elim
  have key : ∀ ins : List Val, fieldInputs L (decodeN L env 0) (flatN L env 0) (oneField a f) ⟨a, none, none⟩ [] [] (textRun s) 0 f = ins.map .ok ↔
      ins = if f.attrs.text = true ∧ trimSpace s ≠ [] then [.str (trimSpace s)] else [] := by
    intro ins
    have e : fieldInputs L (decodeN L env 0) (flatN L env 0) (oneField a f) ⟨a, none, none⟩ [] [] (textRun s) 0 f =
        (if f.attrs.text = true ∧ trimSpace s ≠ [] then [Val.str (trimSpace s)] else []).map Res.ok := by
      unfold fieldInputs
      rw [attrInputs_elem L _ f _ hel, flatInputs_elem _ f hel]
      simp only [List.nil_append, List.append_nil]
      unfold textRun
      by_cases h : trimSpace s = []
      · rw [if_pos h, if_neg (by simp [h])]; rfl
      · rw [if_neg h]
        simp only [List.flatMap_cons, List.flatMap_nil, List.append_nil, kidInputs]
        by_cases ht : f.attrs.text = true
        · rw [if_pos ht, if_pos ⟨ht, h⟩]; rfl
        · rw [if_neg ht, if_neg (fun h' => ht h'.1)]; rfl
    rw [e]
    exact ⟨fun h => (map_ok_inj h).symm, fun h => by rw [h]⟩
  rw [C08_ok_fields_partial L env 0 p _ hp _ _ _ _ _ hdoc (.inl hconf) v]
  constructor
  · rintro ⟨-, vs, rfl, hlen, h⟩
    match vs, hlen with
    | [w], _ =>
      obtain ⟨ins, h3, h4⟩ := h 0 f w rfl rfl
      rw [(key ins).mp h3] at h4
      exact ⟨w, rfl, h4⟩
  · rintro ⟨w, rfl, hw⟩
    refine ⟨fun u hu => (by cases hu), [w], rfl, rfl, ?_⟩
    intro i g w' hg hw'
    match i, hg, hw' with
    | 0, hg, hw' =>
      simp only [oneField, List.getElem?_cons_zero, Option.some.injEq] at hg hw'
      subst hg hw'
      exact ⟨_, (key _).mpr rfl, hw⟩

theorem toString_eq {L : Lib} {env : Env} (hok : SerOk env) {p : Path} {v : Val} (hv : HasTy env (.struct p) v) (c : Config) :
    toStringWithConfig L env c p v = .ok (L.emit c.emitCfg (WNode.eventsL (encTy L env .root p v))) := by
  unfold toStringWithConfig
  rw [serialize_eq hok hv]

theorem not_omitted {f : FieldDef} (h1 : f.skipIf = none) (h2 : f.dflt = none) (h3 : f.attrs.skipSer = false) (self v : Val) :
    ¬ f.omitted self v := by
  rintro (h | h)
  · rw [h3] at h; cases h
  · refine h ⟨fun g hg => ?_, fun g hg => ?_⟩
    · rw [h1] at hg; cases hg
    · rw [h2] at hg; cases hg

/-- Of a struct with one element or text field. -/
theorem enc_one {L : Lib} {env : Env} {p : Path} {a : Str} {f : FieldDef} (hp : env p = some (.struct (oneField a f)))
    (hel : f.isElem = true) (v : Val) :
    encTy L env .root p (.struct [v]) = [.elem a [] [] (encFields L env {} (.struct [v]) [f] [v])] := by
  have hattr : f.attrs.isAttr = false := by
    simp [FieldDef.isElem] at hel
    exact hel.1
  have hflat : f.attrs.flatten = false := by
    simp [FieldDef.isElem] at hel
    exact hel.2
  have e1 : encOwn L env {} (.struct [v]) [f] [v] = [] := by
    rw [encOwn.eq_def]
    dsimp only
    rw [hattr, Bool.false_and, if_neg (by decide), encOwn.eq_def]
    rfl
  have e2 : encInherited L env [f] [v] = [] := by
    rw [encInherited.eq_def]
    dsimp only
    rw [hflat, Bool.and_false, if_neg (by decide), encInherited.eq_def]
    rfl
  have e3 : encInheritedDecls env [f] [v] = [] := by
    rw [encInheritedDecls.eq_def]
    dsimp only
    rw [hflat, Bool.and_false, if_neg (by decide), encInheritedDecls.eq_def]
    rfl
  rw [encTy.eq_def, hp]
  dsimp only [oneField]
  rw [e1, e2, e3]
  rfl

/-- A scalar element field. -/
theorem enc_leaf {L : Lib} {env : Env} {p : Path} {a : Str} {f : FieldDef} {t : STy}
    (hp : env p = some (.struct (oneField a f))) (hpf : f.attrs.pfx = none) (hel : f.isElem = true)
    (htx : f.attrs.text = false) (hcd : f.attrs.cdata = false)
    {v x : Val} (hv : (f.ty = .simple t ∧ v = x) ∨ (f.ty = .opt (.simple t) ∧ v = .some x)) (hsel : ¬ f.omitted (.struct [v]) v) :
    encTy L env .root p (.struct [v]) = [.elem a [] [] [leaf f.label (showS L x)]] := by
  have hattr : f.attrs.isAttr = false := by
    simp [FieldDef.isElem] at hel
    exact hel.1
  have hw : f.written {} = f.label := by
    unfold FieldDef.written FieldDef.label
    rw [hpf]
    rfl
  have hs : (f.attrs.skipSer || !decide (f.selected (.struct [v]) v)) = false := by
    unfold FieldDef.omitted at hsel
    simpa [not_or] using hsel
  rw [enc_one hp hel, encFields.eq_def]
  dsimp only
  rw [hattr, htx, hs, hcd, if_neg (by decide), if_neg (by decide), if_neg (by decide), if_neg (by decide), hw, encFields.eq_def]
  rcases hv with ⟨h1, rfl⟩ | ⟨h1, rfl⟩ <;> rw [h1] <;> rfl

/-- An `Option` without value. -/
theorem enc_none {L : Lib} {env : Env} {p : Path} {a : Str} {f : FieldDef} {t : STy}
    (hp : env p = some (.struct (oneField a f))) (hel : f.isElem = true) (htx : f.attrs.text = false)
    (hcd : f.attrs.cdata = false) (hty : f.ty = .opt (.simple t)) :
    encTy L env .root p (.struct [.none]) = [.elem a [] [] []] := by
  have hattr : f.attrs.isAttr = false := by
    simp [FieldDef.isElem] at hel
    exact hel.1
  rw [enc_one hp hel, encFields.eq_def]
  dsimp only
  rw [hattr, htx, hcd, if_neg (by decide), if_neg (by decide), encFields.eq_def, hty]
  split <;> rfl

/-- A field that is left out. -/
theorem enc_omitted {L : Lib} {env : Env} {p : Path} {a : Str} {f : FieldDef}
    (hp : env p = some (.struct (oneField a f))) (hel : f.isElem = true) (htx : f.attrs.text = false) {v : Val}
    (h : f.omitted (.struct [v]) v) : encTy L env .root p (.struct [v]) = [.elem a [] [] []] := by
  have hattr : f.attrs.isAttr = false := by
    simp [FieldDef.isElem] at hel
    exact hel.1
  have hs : (f.attrs.skipSer || !decide (f.selected (.struct [v]) v)) = true := by
    unfold FieldDef.omitted at h
    simpa using h
  rw [enc_one hp hel, encFields.eq_def]
  dsimp only
  rw [hattr, htx, hs, if_neg (by decide), if_neg (by decide), if_pos rfl, encFields.eq_def]
  rfl

/-- A text field. -/
theorem enc_text {L : Lib} {env : Env} {p : Path} {a : Str} {f : FieldDef} (hp : env p = some (.struct (oneField a f)))
    (hel : f.isElem = true) (htx : f.attrs.text = true) (v : Val) :
    encTy L env .root p (.struct [v]) = [.elem a [] [] [.text (fieldText v)]] := by
  have hattr : f.attrs.isAttr = false := by
    simp [FieldDef.isElem] at hel
    exact hel.1
  rw [enc_one hp hel, encFields.eq_def]
  dsimp only
  rw [hattr, htx, if_neg (by decide), if_pos rfl, encFields.eq_def]
  rfl

theorem hasTy_one {env : Env} {p : Path} {a : Str} {f : FieldDef} (hp : env p = some (.struct (oneField a f))) {v : Val}
    (hv : HasTy env f.ty v) : HasTy env (.struct p) (.struct [v]) := by
  refine .struct p _ _ hp rfl ?_
  intro i g w hg hw
  match i, hg, hw with
  | 0, hg, hw =>
    simp only [oneField, List.getElem?_cons_zero, Option.some.injEq] at hg hw
    subst hg hw
    exact hv

/-- A type with `Display` and `FromStr` as document element. -/
theorem prim_ok {L : Lib} (hx : XmlLaw L) {env : Env} {p : Path} {d : PrimDef} (hp : env p = some (.prim d))
    (hn : isNCName d.name = true) {s : Str} (hs : isText s = true) (cfg : EmitCfg) (hcfg : cfg.Blank) (v : Val) :
    Returns L env p (L.emit cfg (leaf d.name s).events) (.ok v) ↔ d.fromStr (trimSpace s) = .ok v := by
  obtain ⟨a1, a2, a3, -⟩ := ncName_read hn
  have h1 : (leaf d.name s).Ok [] := by
    simp only [leaf, WNode.Ok, WNode.OkL, List.append_nil]
    exact ⟨a1, a2, declsOk_nil _, attrsOk_nil _, hs, trivial⟩
  have h2 : (leaf d.name s).back [] = .elem ⟨d.name, none, none⟩ [] [] (textRun s) := by
    simp only [leaf, WNode.back, WNode.backL, List.append_nil, List.nil_append, List.map_nil, a3]
  have hdoc := isDoc_bare hx h1 (by
    show ((leaf d.name s).back []).strip = (leaf d.name s).back []
    rw [h2]
    simp [Node.strip, strip_textRun]) cfg hcfg
  rw [← leaf, h2] at hdoc
  have hconf : ConfN L env 0 (.elem ⟨d.name, none, none⟩ [] [] (textRun s)) p := by
    unfold ConfN
    rw [ConfWith, hp]
    exact textOnly_textRun s
  rw [returns_iff L env 0 p _ _ hdoc hconf]
  have : textContent (textRun s) = trimSpace s := by
    unfold textRun
    split
    · rename_i h; rw [h]; rfl
    · rfl
  unfold decodeDocN decodeDocWith decodeN
  rw [hp]
  dsimp only
  rw [decodeWith, hp]
  dsimp only
  rw [this]
  cases d.fromStr (trimSpace s) <;> simp [eq_comm]

/-! ### Hexadecimal digits -/

theorem hexChar_toNat (n : Nat) : (hexChar n).toNat = if n % 16 < 10 then 48 + n % 16 else 55 + n % 16 := by
  unfold hexChar
  have h : n % 16 < 16 := Nat.mod_lt _ (by omega)
  generalize n % 16 = d at h
  revert h
  revert d
  decide

theorem hexChar_digit (n : Nat) (h : IsDigit (hexChar n)) : n % 16 < 10 ∧ (hexChar n).toNat - 48 = n % 16 := by
  have := hexChar_toNat n
  unfold IsDigit at h
  by_cases h' : n % 16 < 10
  · rw [if_pos h'] at this
    omega
  · rw [if_neg h'] at this
    omega

theorem digitsValue_snoc (s : Str) (c : Char) : digitsValue (s ++ [c]) = digitsValue s * 10 + (c.toNat - 48) := by
  unfold digitsValue
  rw [List.foldl_append]
  simp only [List.foldl_cons, List.foldl_nil]
  omega

/-- Hexadecimal digits, read as decimal ones, stand for less. -/
theorem showHexF_value : ∀ (fuel n : Nat), n < fuel → (∀ c ∈ showHexF fuel n, IsDigit c) →
    digitsValue (showHexF fuel n) ≤ n ∧ (10 ≤ n → digitsValue (showHexF fuel n) < n)
  | 0, n, h, _ => by omega
  | fuel + 1, n, h, hd => by
    rw [showHexF] at hd ⊢
    by_cases h16 : n < 16
    · rw [if_pos h16] at hd ⊢
      obtain ⟨h1, h2⟩ := hexChar_digit n (hd _ (by simp))
      have : digitsValue [hexChar n] = (hexChar n).toNat - 48 := by
        have := digitsValue_snoc [] (hexChar n)
        simpa [digitsValue] using this
      rw [this, h2]
      omega
    · rw [if_neg h16] at hd ⊢
      obtain ⟨h1, h2⟩ := hexChar_digit n (hd _ (by simp))
      have ih := (showHexF_value fuel (n / 16) (by omega) fun c hc => hd c (by simp [hc])).1
      rw [digitsValue_snoc, h2]
      omega

theorem showHex2_visible (n : Nat) : showHex2 n ≠ [] ∧ ∀ c ∈ showHex2 n, 48 ≤ c.toNat ∧ c.toNat ≤ 70 := by
  have hc : ∀ m, 48 ≤ (hexChar m).toNat ∧ (hexChar m).toNat ≤ 70 := by
    intro m
    rw [hexChar_toNat]
    split <;> omega
  have hF : ∀ fuel m, ∀ c ∈ showHexF fuel m, 48 ≤ c.toNat ∧ c.toNat ≤ 70 := by
    intro fuel
    induction fuel with
    | zero => intro m c h; simp [showHexF] at h
    | succ fuel ih =>
      intro m c h
      rw [showHexF] at h
      split at h
      · simp only [List.mem_singleton] at h; rw [h]; exact hc m
      · rw [List.mem_append, List.mem_singleton] at h
        rcases h with h | rfl
        · exact ih _ c h
        · exact hc m
  unfold showHex2
  split
  · refine ⟨by simp, ?_⟩
    intro c h
    simp only [List.mem_cons, List.not_mem_nil, or_false] at h
    rcases h with rfl | rfl
    · decide
    · exact hc n
  · refine ⟨?_, hF _ _⟩
    rw [showHexF]
    split <;> simp

/-- Reading the hexadecimal digits as a decimal number gives the number back only if it has one decimal digit. -/
theorem parse_showHex2 (t : IntTy) (n : Nat) (hn : (n : Int) ≤ t.hi) :
    parseInt t (showHex2 n) = .ok (n : Int) ↔ n < 10 := by
  have hvis := showHex2_visible n
  have hlo := lo_le t
  have hval : digitsValue ['0', hexChar n] = (hexChar n).toNat - 48 := by
    have := digitsValue_snoc ['0'] (hexChar n)
    simpa [digitsValue] using this
  rw [parseInt_iff, intLiteral_iff]
  constructor
  · rintro ⟨ds, hne, hd, -, -, ⟨rfl | h, hz⟩ | ⟨-, h, -⟩⟩
    · by_contra hge
      unfold showHex2 at hd hz
      split at hd
      · rename_i h16
        rw [if_pos h16] at hz
        have := hexChar_digit n (hd _ (by simp))
        omega
      · rename_i h16
        rw [if_neg h16] at hz
        have := (showHexF_value (n + 1) n (by omega) hd).2 (by omega)
        omega
    · have := (hvis.2 '+' (by rw [h]; simp)).1
      exact absurd this (by decide)
    · have := (hvis.2 '-' (by rw [h]; simp)).1
      exact absurd this (by decide)
  · intro h
    have h16 : n < 16 := by omega
    have hc := hexChar_toNat n
    rw [if_pos (by omega)] at hc
    refine ⟨['0', hexChar n], by simp, ?_, by omega, hn, .inl ⟨.inl ?_, ?_⟩⟩
    · intro c hm
      simp only [List.mem_cons, List.not_mem_nil, or_false] at hm
      rcases hm with rfl | rfl
      · unfold IsDigit; decide
      · unfold IsDigit; omega
    · unfold showHex2; rw [if_pos h16]
    · rw [hval]; omega

end Yaserde
