import Verif.Proofs.EncStruct
/-
The encoding of enums and primitives that survives a round trip, and of all values.
-/

set_option autoImplicit false

namespace Yaserde

open Classical
open XmlText (splitColon_none ncName_noColon)

theorem textContent_textRun (s : Str) : textContent (textRun s) = trimSpace s := by
  unfold textRun
  split
  · rename_i h; rw [h]; rfl
  · rfl

theorem textOnly_textRun (s : Str) : textOnly (textRun s) := by
  unfold textRun
  split <;> trivial

theorem trimSpace_of_noSpace {s : Str} (h : ∀ c ∈ s, isXmlSpace c = false) : trimSpace s = s := by
  unfold trimSpace
  rw [dropWhile_eq_of_head (l := s) (fun a t e => h a (by rw [e]; exact List.mem_cons_self))]
  rw [dropWhile_eq_of_head (l := s.reverse) (fun a t e => h a (by
    have : a ∈ s.reverse := by rw [e]; exact List.mem_cons_self
    simpa using this))]
  exact List.reverse_reverse s

theorem cleanText_ncName {s : Str} (h : isNCName s = true) : CleanText s := by
  have hp := ncName_parts h
  refine ⟨?_, trimSpace_of_noSpace fun c hc => (namePart_facts (hp c hc)).2, by rintro rfl; cases h⟩
  unfold isText
  rw [List.all_eq_true]
  intro c hc
  obtain ⟨h1, h2⟩ := namePart_facts (hp c hc)
  rw [h1, Bool.true_and]
  by_contra hne
  have : c = '\r' := by simpa using hne
  subst this
  exact absurd h2 (by decide)

theorem attrText_ncName {s : Str} (h : isNCName s = true) : isAttrText s = true := by
  have hp := ncName_parts h
  unfold isAttrText
  rw [List.all_eq_true]
  intro c hc
  obtain ⟨h1, h2⟩ := namePart_facts (hp c hc)
  rw [h1, Bool.true_and]
  by_contra hne
  have : c = '\r' ∨ c = '\t' := by
    by_cases h3 : c = '\r'
    · exact .inl h3
    · right; simpa [h3] using hne
  rcases this with rfl | rfl <;> exact absurd h2 (by decide)

theorem encTyDecls_enum {env : Env} {p : Path} {d : EnumDef} (hp : env p = some (.enum d)) (v : Val) :
    encTyDecls env p v = d.attrs.decls := by
  rw [encTyDecls.eq_def, hp]

theorem encTyAttrs_enum {L : Lib} {env : Env} {p : Path} {d : EnumDef} (hp : env p = some (.enum d)) (htag : d.attrs.tag = none)
    (i : Nat) (pay : List Val) : encTyAttrs L env p (.enum i pay) = [] := by
  rw [encTyAttrs.eq_def, hp]
  dsimp only
  split
  · simp [tagAttrs, htag]
  · rfl

theorem encTy_enum {L : Lib} {env : Env} {p : Path} {d : EnumDef} (hp : env p = some (.enum d)) (htag : d.attrs.tag = none)
    (pl : Place) (i : Nat) (vd : VariantDef) (pay : List Val) (hv : d.variants[i]? = some vd) (hs : ∀ fds, vd.shape ≠ .named fds) :
    encTy L env pl p (.enum i pay) = wrap d.attrs pl (d.attrs.written d.name) [] (firstDecls d.attrs.decls)
      (encVariant L env pl d.attrs vd pay) := by
  rw [encTy.eq_def, hp]
  dsimp only
  rw [hv]
  dsimp only
  have : tagAttrs d vd = [] := by simp [tagAttrs, htag]
  rw [this]
  congr 1
  split
  · rename_i fds h; exact absurd h (hs fds)
  · rfl

theorem fits_enum {env : Env} {p : Path} {d : EnumDef} {n : Name} (hp : env p = some (.enum d)) (h : Fits env p n) :
    nsOk d.attrs n ∧ (d.attrs.tag = none → d.variantFor n.loc = none) := by
  cases h with
  | struct _ d2 _ hp' => rw [hp] at hp'; cases hp'
  | enum _ d2 _ hp' h2 h3 => rw [hp] at hp'; cases hp'; exact ⟨h2, h3⟩
  | prim _ d2 _ hp' => rw [hp] at hp'; cases hp'

/-- An enum whose content is a list of elements named after the variant. -/
theorem enc_variant {L : Lib} {env : Env} {G : NsMap} (hG : NsTable G) {p : Path} {d : EnumDef} {i : Nat} {vd : VariantDef}
    {t : FTy} {pay xs : List Val} (kk : Val → List WNode) (hp : env p = some (.enum d)) (hrt : EnumRt env G d)
    (htag : d.attrs.tag = none)
    (hv : d.variants[i]? = some vd) (hs : vd.shape = .newtype t)
    (hcore : (∃ s, t.core = .simple s) ∨ ∃ q, t.core = .struct q)
    (henc : ∀ pl, encVariant L env pl d.attrs vd pay = xs.map fun x => .elem (vd.written d.attrs) [] [] (kk x))
    (hval : VariantVal d.dflt i t xs (.enum i pay))
    (hitem : ∀ x ∈ xs, ∀ sc, (∀ e ∈ d.attrs.decls, e ∈ sc) → (∀ e ∈ sc, e ∈ G) →
      WNode.OkL sc (kk x) ∧ WNode.TidyL G (kk x) ∧ (wtexts (kk x)).length ≤ 1 ∧
      (∀ s, t.core = .simple s → textOnly (backs sc (kk x)) ∧ parseS L s (textContent (backs sc (kk x))) = .ok x) ∧
      (∀ q, t.core = .struct q → ∀ n m, Fits env q n → View L env q x (.elem n [] m (backs sc (kk x))))) :
    Enc L env G p (.enum i pay) := by
  have hvm := List.mem_of_getElem? hv
  have hnn : ∀ fds, vd.shape ≠ .named fds := by intro fds h; rw [hs] at h; cases h
  have hnu : vd.shape ≠ .unit := by intro h; rw [hs] at h; cases h
  have hin : encTy L env .inner p (.enum i pay) = xs.map fun x => .elem (vd.written d.attrs) [] [] (kk x) := by
    rw [encTy_enum hp htag .inner i vd pay hv hnn, henc]
    simp [wrap, Place.inner]
  have hat := encTyAttrs_enum (L := L) hp htag i pay
  refine ⟨?_, ?_, ?_⟩
  · rw [encTyDecls_enum hp]; exact hrt.decls
  · intro pl hpl
    rw [hin, hat, encTyDecls_enum hp, encTy_enum hp htag pl i vd pay hv hnn, henc]
    simp [wrap, hrt.own, hpl, ownName, hp]
  · intro sc hsc hsG
    rw [encTyDecls_enum hp] at hsc
    obtain ⟨n1, n2, n3⟩ := elemName_ok (root := d.attrs) hG hsc hsG (hrt.pfx vd hvm hnu) (hrt.key vd hvm)
    have e : vd.written d.attrs = qualify d.attrs.defaultNs vd.attrs.pfx (vd.attrs.rename.getD vd.ident) := rfl
    rw [← e] at n1 n2 n3
    have hbk : backs sc (xs.map fun x => WNode.elem (vd.written d.attrs) [] [] (kk x)) =
        xs.map fun x => Node.elem (readElemName sc (vd.written d.attrs)) [] sc (backs sc (kk x)) := by
      clear henc hval hin
      induction xs with
      | nil => rfl
      | cons x xs ih =>
        have h1 := hitem x List.mem_cons_self sc hsc hsG
        rw [List.map_cons, List.map_cons, ← ih (fun y hy => hitem y (List.mem_cons_of_mem _ hy))]
        simp only [backs, List.flatMap_cons, back1, WNode.back, List.nil_append, List.map_nil]
        rw [backL_nil_eq _ _ h1.2.2.1]
        rfl
    have hstr : ∀ d', env p ≠ some (.struct d') := by intro d' h; rw [hp] at h; cases h
    have hwt : wtexts (xs.map fun x => WNode.elem (vd.written d.attrs) [] [] (kk x)) = [] := by
      clear henc hval hin hbk hitem
      induction xs with
      | nil => rfl
      | cons x xs ih => rw [List.map_cons, wtexts_cons, ih]; rfl
    refine ⟨?_, ?_, ?_, ?_, ?_, ?_, ?_, ?_, ?_, ?_⟩
    · rw [hin, okL_iff]
      intro k hk
      obtain ⟨x, hx, rfl⟩ := List.mem_map.mp hk
      have h1 := hitem x hx sc hsc hsG
      exact ⟨n1, n2, declsOk_nil sc, attrsOk_nil _, h1.1⟩
    · rw [hin, tidyL_iff]
      intro k hk
      obtain ⟨x, hx, rfl⟩ := List.mem_map.mp hk
      have h1 := hitem x hx sc hsc hsG
      exact ⟨by simp, h1.2.2.1, h1.2.1⟩
    · rw [hin, hwt]; simp
    · rw [hat]; exact attrsOk_nil sc
    · rw [hat]; simp
    · intro d' h; exact absurd h (hstr d')
    · intro d' h; exact absurd h (hstr d')
    · intro d' h; exact absurd h (hstr d')
    · intro n m hn
      rw [hin, hat, hbk]
      obtain ⟨h2, h3⟩ := fits_enum hp hn
      refine .variants p d n _ m _ i vd t xs _ hp htag h2 (h3 htag) hv hs hcore (by simp) ?_ ?_ ?_ hval
      · intro kid hk
        obtain ⟨x, hx, rfl⟩ := List.mem_map.mp hk
        refine ⟨_, _, _, _, rfl, ?_⟩
        rw [n3.1]
        exact hrt.distinct i vd hv hnn
      · intro s j kid w hc hk hw
        rw [List.getElem?_map, hw] at hk
        simp only [Option.map_some, Option.some.injEq] at hk
        subst hk
        exact (hitem w (List.mem_of_getElem? hw) sc hsc hsG).2.2.2.1 s hc
      · intro q j kid w hc hk hw
        rw [List.getElem?_map, hw] at hk
        simp only [Option.map_some, Option.some.injEq] at hk
        subst hk
        refine (hitem w (List.mem_of_getElem? hw) sc hsc hsG).2.2.2.2 q hc _ _ ?_
        exact hrt.fits vd hvm t q hs hc _ n3
    · intro _ _ n m hn hb
      unfold byText at hb
      rw [hp, hin, hbk] at hb
      rcases hb with hb | hb
      rotate_left
      · refine hb ?_
        simp [EnumDef.variantOf, EnumDef.keyOf, htag, Node.name, (fits_enum hp hn).2 htag]
      refine hb ?_
      simp only [Node.content]
      match xs with
      | [] => rfl
      | [x] => rfl
      | x :: y :: r => rfl

/-- Scalar payloads. -/
theorem variantItem_scalar {L : Lib} {env : Env} {G sc : NsMap} {t : FTy} {s : STy} {x : Val} (hc : t.core = .simple s)
    (h : PayloadOk L s x) :
      WNode.OkL sc [.text (showS L x)] ∧ WNode.TidyL G [.text (showS L x)] ∧ (wtexts [.text (showS L x)]).length ≤ 1 ∧
      (∀ s, t.core = .simple s → textOnly (backs sc [.text (showS L x)]) ∧
        parseS L s (textContent (backs sc [.text (showS L x)])) = .ok x) ∧
      (∀ q, t.core = .struct q → ∀ n m, Fits env q n → View L env q x (.elem n [] m (backs sc [.text (showS L x)]))) := by
  have hbk : backs sc [WNode.text (showS L x)] = textRun (showS L x) := by simp [backs, back1]
  refine ⟨⟨h.chars, trivial⟩, ⟨trivial, trivial⟩, ?_, ?_, ?_⟩
  · rw [wtexts_text]; split <;> simp
  · intro s' hs'
    rw [hc] at hs'; cases hs'
    rw [hbk, textContent_textRun]
    exact ⟨textOnly_textRun _, h.parses⟩
  · intro q hq; rw [hc] at hq; cases hq

/-- Struct payloads. -/
theorem variantItem_struct {L : Lib} {env : Env} {G sc : NsMap} {t : FTy} {q : Path} {x : Val} {decls : NsMap}
    (hc : t.core = .struct q) (h : Enc L env G q x) (hbare : encTyAttrs L env q x = [])
    (hns : ∀ e ∈ encTyDecls env q x, e ∈ decls) (hsc : ∀ e ∈ decls, e ∈ sc) (hs : ∀ e ∈ sc, e ∈ G) :
      WNode.OkL sc (encTy L env .inner q x) ∧ WNode.TidyL G (encTy L env .inner q x) ∧
      (wtexts (encTy L env .inner q x)).length ≤ 1 ∧
      (∀ s, t.core = .simple s → textOnly (backs sc (encTy L env .inner q x)) ∧
        parseS L s (textContent (backs sc (encTy L env .inner q x))) = .ok x) ∧
      (∀ q', t.core = .struct q' → ∀ n m, Fits env q' n → View L env q' x (.elem n [] m (backs sc (encTy L env .inner q x)))) := by
  have hE := h.content sc (fun e he => hsc e (hns e he)) hs
  refine ⟨hE.ok, hE.tidy, hE.one, ?_, ?_⟩
  · intro s hs'; rw [hc] at hs'; cases hs'
  · intro q' hq' n m hn
    rw [hc] at hq'; cases hq'
    have := hE.view n m hn
    rw [hbare] at this
    exact this

theorem encVariantItems_map (L : Lib) (env : Env) (name : Str) (t : FTy) (kk : Val → List WNode)
    (h : ∀ x, (match t with
        | .struct p => WNode.elem name [] [] (encTy L env .inner p x)
        | _ => leaf name (showS L x)) = .elem name [] [] (kk x)) (xs : List Val) :
    encVariantItems L env name t xs = xs.map fun x => .elem name [] [] (kk x) := by
  induction xs with
  | nil => rw [encVariantItems.eq_def]; rfl
  | cons x xs ih =>
    rw [encVariantItems.eq_def]
    dsimp only
    rw [ih, List.map_cons, ← h x]
    cases t <;> rfl

theorem encUnit_inner {L : Lib} {env : Env} {G : NsMap} {p : Path} {d : EnumDef} {i : Nat} {vd : VariantDef}
    (hp : env p = some (.enum d)) (hrt : EnumRt env G d) (htag : d.attrs.tag = none) (hv : d.variants[i]? = some vd) (hs : vd.shape = .unit) :
    encTy L env .inner p (.enum i []) = [.text (vd.attrs.rename.getD vd.ident)] := by
  have hnn : ∀ fds, vd.shape ≠ .named fds := by intro fds h; rw [hs] at h; cases h
  have hkey : vd.written d.attrs = vd.attrs.rename.getD vd.ident := by
    unfold VariantDef.written qualify
    rcases hrt.unit vd (List.mem_of_getElem? hv) hs with h | h
    · rw [h]
    · cases hpx : vd.attrs.pfx with
      | none => rfl
      | some q => rw [hpx] at h; simp [← h]
  rw [encTy_enum hp htag .inner i vd [] hv hnn, encVariant.eq_def, hs]
  simp [wrap, Place.inner, htag, hkey]

theorem enc_unit_text {L : Lib} {env : Env} {G : NsMap} {p : Path} {d : EnumDef} {i : Nat} {vd : VariantDef}
    (hp : env p = some (.enum d)) (hrt : EnumRt env G d) (htag : d.attrs.tag = none) (hv : d.variants[i]? = some vd) (hs : vd.shape = .unit) :
    Enc L env G p (.enum i []) := by
  have hvm := List.mem_of_getElem? hv
  have hnn : ∀ fds, vd.shape ≠ .named fds := by intro fds h; rw [hs] at h; cases h
  have hkey : vd.written d.attrs = vd.attrs.rename.getD vd.ident := by
    unfold VariantDef.written qualify
    rcases hrt.unit vd hvm hs with h | h
    · rw [h]
    · cases hpx : vd.attrs.pfx with
      | none => rfl
      | some q => rw [hpx] at h; simp [← h]
  have hvar : ∀ pl, encVariant L env pl d.attrs vd [] = [.text (vd.attrs.rename.getD vd.ident)] := by
    intro pl
    rw [encVariant.eq_def, hs]
    simp [htag, hkey]
  have hin : encTy L env .inner p (.enum i []) = [.text (vd.attrs.rename.getD vd.ident)] := by
    rw [encTy_enum hp htag .inner i vd [] hv hnn, hvar]
    simp [wrap, Place.inner]
  have hcl := cleanText_ncName (hrt.key vd hvm)
  have hat := encTyAttrs_enum (L := L) hp htag i []
  have hstr : ∀ d', env p ≠ some (.struct d') := by intro d' h; rw [hp] at h; cases h
  refine ⟨?_, ?_, ?_⟩
  · rw [encTyDecls_enum hp]; exact hrt.decls
  · intro pl hpl
    rw [hin, hat, encTyDecls_enum hp, encTy_enum hp htag pl i vd [] hv hnn, hvar]
    simp [wrap, hrt.own, hpl, ownName, hp]
  · intro sc hsc hsG
    have hbk : backs sc [WNode.text (vd.attrs.rename.getD vd.ident)] = [.text (vd.attrs.rename.getD vd.ident)] := by
      simp [backs, back1, textRun_clean hcl]
    refine ⟨?_, ?_, ?_, ?_, ?_, ?_, ?_, ?_, ?_, ?_⟩
    · rw [hin]; exact ⟨hcl.chars, trivial⟩
    · rw [hin]; exact ⟨trivial, trivial⟩
    · rw [hin, wtexts_text]; split <;> simp
    · rw [hat]; exact attrsOk_nil sc
    · rw [hat]; simp
    · intro d' h; exact absurd h (hstr d')
    · intro d' h; exact absurd h (hstr d')
    · intro d' h; exact absurd h (hstr d')
    · intro n m hn
      rw [hin, hbk]
      obtain ⟨h2, h3⟩ := fits_enum hp hn
      exact .unit p d n _ m _ i vd hp htag h2 (h3 htag) (hrt.distinct i vd hv hnn) hv hs
    · intro _ h2
      exact absurd hs (h2 d hp vd hvm)

/-- A unit variant of a tagged enum: an attribute and no content. -/
theorem enc_unit_tagged {L : Lib} {env : Env} {G : NsMap} {p : Path} {d : EnumDef} {i : Nat} {vd : VariantDef} {tag : Str}
    (hp : env p = some (.enum d)) (hrt : EnumRt env G d) (htag : d.attrs.tag = some tag) (hv : d.variants[i]? = some vd)
    (hs : vd.shape = .unit) : Enc L env G p (.enum i []) := by
  have hvm := List.mem_of_getElem? hv
  have hnn : ∀ fds, vd.shape ≠ .named fds := by intro fds h; rw [hs] at h; cases h
  have hvar : ∀ pl, encVariant L env pl d.attrs vd [] = [] := by
    intro pl
    rw [encVariant.eq_def, hs]
    simp [htag]
  have hta : tagAttrs d vd = [⟨{ loc := tag }, vd.attrs.rename.getD vd.ident⟩] := by simp [tagAttrs, htag]
  have hty : ∀ pl, encTy L env pl p (.enum i []) = wrap d.attrs pl (d.attrs.written d.name) (tagAttrs d vd)
      (firstDecls d.attrs.decls) [] := by
    intro pl
    rw [encTy.eq_def, hp]
    dsimp only
    rw [hv]
    dsimp only
    congr 1
    split
    · rename_i fds h; exact absurd h (hnn fds)
    · exact hvar pl
  have hin : encTy L env .inner p (.enum i []) = [] := by
    rw [hty]
    simp [wrap, Place.inner]
  have hat : encTyAttrs L env p (.enum i []) = [⟨{ loc := tag }, vd.attrs.rename.getD vd.ident⟩] := by
    rw [encTyAttrs.eq_def, hp]
    dsimp only
    rw [hv]
    exact hta
  obtain ⟨t1, t2⟩ := hrt.tag tag htag
  have hraw : ({ loc := tag } : Name).raw = tag := rfl
  have hsp := splitColon_none (ncName_noColon t1)
  have hstr : ∀ d', env p ≠ some (.struct d') := by intro d' h; rw [hp] at h; cases h
  refine ⟨?_, ?_, ?_⟩
  · rw [encTyDecls_enum hp]; exact hrt.decls
  · intro pl hpl
    rw [hin, hat, encTyDecls_enum hp, hty, hta]
    simp [wrap, hrt.own, hpl, ownName, hp]
  · intro sc hsc hsG
    refine ⟨?_, ?_, ?_, ?_, ?_, ?_, ?_, ?_, ?_, ?_⟩
    · rw [hin]; trivial
    · rw [hin]; trivial
    · rw [hin]; simp [wtexts]
    · rw [hat]
      refine ⟨?_, ?_, by simp⟩
      · intro a ha
        rw [List.mem_singleton] at ha; subst ha
        simp only [hraw, AttrNameOk, isQName, hsp, t1, t2, true_and, ne_eq, not_false_eq_true, and_self]
      · intro a ha
        rw [List.mem_singleton] at ha; subst ha
        exact attrText_ncName (hrt.key vd hvm)
    · rw [hat]; simp
    · intro d' h; exact absurd h (hstr d')
    · intro d' h; exact absurd h (hstr d')
    · intro d' h; exact absurd h (hstr d')
    · intro n m hn
      rw [hin, hat]
      obtain ⟨h2, -⟩ := fits_enum hp hn
      refine .named p d n _ m (vd.attrs.rename.getD vd.ident) i vd hp h2 ?_ (hrt.distinct i vd hv hnn) hv hs
      simp [EnumDef.keyOf, htag, readAttrs, hraw, readAttrName, hsp]
    · intro _ h2
      exact absurd hs (h2 d hp vd hvm)

theorem enc_unit {L : Lib} {env : Env} {G : NsMap} {p : Path} {d : EnumDef} {i : Nat} {vd : VariantDef}
    (hp : env p = some (.enum d)) (hrt : EnumRt env G d) (hv : d.variants[i]? = some vd) (hs : vd.shape = .unit) :
    Enc L env G p (.enum i []) := by
  cases htag : d.attrs.tag with
  | none => exact enc_unit_text hp hrt htag hv hs
  | some tag => exact enc_unit_tagged hp hrt htag hv hs

theorem enc_prim {L : Lib} {env : Env} {G : NsMap} {p : Path} {d : PrimDef} {v : Val}
    (hp : env p = some (.prim d)) (hb : d.bare = false) (hc : isText (d.toStr v) = true) (h : d.fromStr (trimSpace (d.toStr v)) = .ok v) :
    Enc L env G p v := by
  have hty : ∀ pl, encTy L env pl p v = wrap {} pl d.name [] [] [.text (d.toStr v)] := by
    intro pl; rw [encTy.eq_def, hp]; dsimp only; rw [hb]
  have hin : encTy L env .inner p v = [.text (d.toStr v)] := by rw [hty]; simp [wrap, Place.inner]
  have hat : encTyAttrs L env p v = [] := by rw [encTyAttrs.eq_def, hp]
  have hde : encTyDecls env p v = [] := by rw [encTyDecls.eq_def, hp]
  have hstr : ∀ d', env p ≠ some (.struct d') := by intro d' h; rw [hp] at h; cases h
  refine ⟨?_, ?_, ?_⟩
  · rw [hde]; simp
  · intro pl hpl
    rw [hin, hat, hde, hty]
    simp [wrap, hpl, ownName, hp, firstDecls, NsMap.extend]
  · intro sc hsc hsG
    have hbk : backs sc [WNode.text (d.toStr v)] = textRun (d.toStr v) := by simp [backs, back1]
    refine ⟨?_, ?_, ?_, ?_, ?_, ?_, ?_, ?_, ?_, ?_⟩
    · rw [hin]; exact ⟨hc, trivial⟩
    · rw [hin]; exact ⟨trivial, trivial⟩
    · rw [hin, wtexts_text]; split <;> simp
    · rw [hat]; exact attrsOk_nil sc
    · rw [hat]; simp
    · intro d' h; exact absurd h (hstr d')
    · intro d' h; exact absurd h (hstr d')
    · intro d' h; exact absurd h (hstr d')
    · intro n m _
      rw [hin, hbk]
      exact .prim p d n _ m _ v hp (textOnly_textRun _) (by rw [textContent_textRun]; exact h)
    · intro h1; exact absurd hp (h1 d)

/-- Every value that survives. -/
theorem canon_enc {L : Lib} (hL : XmlLaw L) {env : Env} {G : NsMap} (hrt : RtOk env G) {t : FTy} {v : Val} (h : Canon L env t v) :
    ItemsCanon L env G t v := by
  have st : ∀ {p : Path} {v : Val}, Enc L env G p v → ItemsCanon L env G (.struct p) v := fun h =>
    itemsCanon_one (.inr ⟨_, rfl⟩) ⟨(fun _ e => nomatch e), fun q e => by cases e; exact h⟩
  have hG := hrt.table
  induction h with
  | scalar t v h => exact itemsCanon_one (.inl ⟨_, rfl⟩) ⟨(fun s e => by cases e; exact h), (fun _ e => nomatch e)⟩
  | none t =>
    refine ⟨(fun x hx => by cases hx), ?_⟩
    intro nm f hf; unfold fieldValue; rw [hf]; rfl
  | some t v h ih =>
    refine ⟨?_, ?_⟩
    · intro x hx
      simp only [itemsOf, List.mem_singleton] at hx
      subst hx; exact ih.item
    · intro nm f hf; unfold fieldValue; rw [hf]; rfl
  | vec t vs h ih =>
    refine ⟨?_, ?_⟩
    · intro x hx
      exact (ih x hx).item
    · intro nm f hf; unfold fieldValue; rw [hf]; rfl
  | struct p d fs hp hlen hattr hattrs htext homit hcdata h iha ih =>
    refine st (enc_struct hL hG hp (hrt.struct p d hp) hlen ?_)
    intro i f v hf hv
    exact ⟨hattr i f v hf hv, fun h1 q x h2 h3 => (iha i f v q x hf hv h1 h2 h3).item.enc q rfl, htext i f v hf hv, homit i f v hf hv, hcdata i f v hf hv,
      fun h1 h2 h3 h4 => ih i f v hf hv h1 h2 h3 h4⟩
  | unit p d i vd hp hv hs => exact st (enc_unit hp (hrt.enum p d hp) hv hs)
  | payload p d i vd t x hp htag hv hs h =>
    refine st (enc_variant hG (fun x => [.text (showS L x)]) (xs := [x]) hp (hrt.enum p d hp) htag hv hs (.inl ⟨t, rfl⟩) ?_
      (.simple t x) ?_)
    · intro pl; rw [encVariant.eq_def, hs]; rfl
    · intro y hy sc hsc hsG
      rw [List.mem_singleton] at hy; subst hy
      exact variantItem_scalar rfl h
  | payloadSome p d i vd t x hp htag hv hs h =>
    refine st (enc_variant hG (fun x => [.text (showS L x)]) (xs := [x]) hp (hrt.enum p d hp) htag hv hs (.inl ⟨t, rfl⟩) ?_
      (.some _ x) ?_)
    · intro pl; rw [encVariant.eq_def, hs]; rfl
    · intro y hy sc hsc hsG
      rw [List.mem_singleton] at hy; subst hy
      exact variantItem_scalar rfl h
  | payloadItems p d i vd t xs hp htag hv hs hne h =>
    refine st (enc_variant hG (fun x => [.text (showS L x)]) (xs := xs) hp (hrt.enum p d hp) htag hv hs (.inl ⟨t, rfl⟩) ?_ ?_ ?_)
    · intro pl; rw [encVariant.eq_def, hs]; exact encVariantItems_map L env _ _ _ (fun _ => rfl) xs
    · cases xs with
      | nil => exact absurd rfl hne
      | cons x xs => exact .items _ x xs
    · intro y hy sc hsc hsG
      exact variantItem_scalar rfl (h y hy)
  | payloadStruct p d i vd q x hp htag hv hs h hbare hns ih =>
    refine st (enc_variant hG (fun x => encTy L env .inner q x) (xs := [x]) hp (hrt.enum p d hp) htag hv hs (.inr ⟨q, rfl⟩) ?_
      (.struct q x) ?_)
    · intro pl; rw [encVariant.eq_def, hs]
      simp [(hrt.enum p d hp).flat vd (List.mem_of_getElem? hv)]
    · intro y hy sc hsc hsG
      rw [List.mem_singleton] at hy; subst hy
      exact variantItem_struct rfl (ih.item.enc q rfl) hbare hns hsc hsG
  | payloadSomeStruct p d i vd q x hp htag hv hs h hbare hns ih =>
    refine st (enc_variant hG (fun x => encTy L env .inner q x) (xs := [x]) hp (hrt.enum p d hp) htag hv hs (.inr ⟨q, rfl⟩) ?_
      (.some _ x) ?_)
    · intro pl; rw [encVariant.eq_def, hs]; rfl
    · intro y hy sc hsc hsG
      rw [List.mem_singleton] at hy; subst hy
      exact variantItem_struct rfl (ih.item.enc q rfl) hbare hns hsc hsG
  | payloadStructs p d i vd q xs hp htag hv hs hne h hbare hns ih =>
    refine st (enc_variant hG (fun x => encTy L env .inner q x) (xs := xs) hp (hrt.enum p d hp) htag hv hs (.inr ⟨q, rfl⟩) ?_ ?_ ?_)
    · intro pl; rw [encVariant.eq_def, hs]; exact encVariantItems_map L env _ _ _ (fun _ => rfl) xs
    · cases xs with
      | nil => exact absurd rfl hne
      | cons x xs => exact .items _ x xs
    · intro y hy sc hsc hsG
      exact variantItem_struct rfl ((ih y hy).item.enc q rfl) (hbare y hy) (hns y hy) hsc hsG
  | payloadNone p d i vd t hp htag hv hs ht hd =>
    refine st (enc_variant hG (fun _ => []) (xs := []) hp (hrt.enum p d hp) htag hv hs ht ?_ ?_ ?_)
    · intro pl; rw [encVariant.eq_def, hs]
      rcases ht with ⟨s, rfl⟩ | ⟨q, rfl⟩ <;> rfl
    · rw [← hd]; exact .none _
    · intro y hy; cases hy
  | payloadEmpty p d i vd t hp htag hv hs ht hd =>
    refine st (enc_variant hG (fun _ => []) (xs := []) hp (hrt.enum p d hp) htag hv hs ht ?_ ?_ ?_)
    · intro pl; rw [encVariant.eq_def, hs]
      dsimp only
      rw [encVariantItems.eq_def]; rfl
    · rw [← hd]; exact .none _
    · intro y hy; cases hy
  | prim p d v hp hb hc h => exact st (enc_prim hp hb hc h)

end Yaserde
