import Verif.Proofs.RoundTrip
import Verif.Proofs.Scalars
/-
Simple programs meet the conditions for round trips.
-/

set_option autoImplicit false

namespace Yaserde

theorem struct_simple {env : Env} (h : SimpleProgram env) {p : Path} {d : StructDef} (hp : env p = some (.struct d)) :
    SimpleStruct env d := by
  rcases h p _ hp with ⟨e, he, hs⟩ | ⟨e, he, hs⟩ | ⟨e, he⟩ <;> cases he
  exact hs

theorem enum_simple {env : Env} (h : SimpleProgram env) {p : Path} {d : EnumDef} (hp : env p = some (.enum d)) :
    SimpleEnum env d := by
  rcases h p _ hp with ⟨e, he, hs⟩ | ⟨e, he, hs⟩ | ⟨e, he⟩ <;> cases he
  exact hs

theorem fits_name {env : Env} (h : SimpleProgram env) {q : Path} {td : TypeDef} (htd : env q = some td) {n : Name}
    (hf : NameFits env q n.loc) (hn : n.ns = none) : Fits env q n := by
  cases td with
  | struct e =>
    have hs := struct_simple h htd
    have hno : ∀ g ∈ e.fields, ¬ g.isFlat := fun g hg hfl => by
      have := (hs.fields g hg).2.1
      rw [hfl.2] at this
      cases this
    refine .struct q e n htd ?_ (fun g hg hfl => (hno g hg hfl).elim) (fun g hg hfl => (hno g hg hfl).elim)
    rcases hf.1 e htd with h1 | h1
    · left
      rw [hn, hs.noNs.1]
      exact ⟨h1, rfl⟩
    · right
      unfold StructDef.fieldFor
      rw [List.findIdx?_eq_none_iff]
      intro g hg
      simp only [decide_eq_false_iff_not]
      rintro ⟨ha, -, hl⟩
      refine h1 g hg ?_ hl
      unfold FieldDef.isElem at ha
      simp at ha
      exact ha.1
  | enum e =>
    have hs := enum_simple h htd
    refine .enum q e n htd (fun u hu => by rw [hn] at hu; cases hu) fun _ => ?_
    unfold EnumDef.variantFor
    rw [List.findIdx?_eq_none_iff]
    intro v hv
    simp only [decide_eq_false_iff_not]
    rintro ⟨-, hl⟩
    exact hf.2 e htd v hv hl
  | prim e => exact .prim q e n htd

theorem structRt_simple {env : Env} (h : SimpleProgram env) {d : StructDef} (hd : SimpleStruct env d) : StructRt env [] d := by
  have hno : ∀ g ∈ d.fields, ¬ g.isFlat := fun g hg hfl => by
    have := (hd.fields g hg).2.1
    rw [hfl.2] at this
    cases this
  have helem : ∀ f : FieldDef, f.isElem = true → f.attrs.isAttr = false := by
    intro f hf
    unfold FieldDef.isElem at hf
    simp at hf
    exact hf.1
  constructor
  · exact hd.types
  · exact hd.noNs.2.2
  · intro e he
    rw [Attrs.decls, hd.noNs.1] at he
    simp at he
  · intro f hf
    exact ⟨(hd.fields f hf).2.2, fun ha => (hd.attr f hf ha).2⟩
  · intro f hf _ p hp
    rw [(hd.fields f hf).1] at hp
    cases hp
  · intro f hf ha q hq
    obtain ⟨h1, h2, h3⟩ := hd.attrTypes f hf ha q hq
    obtain ⟨td, htd⟩ := hd.defined f hf q hq
    exact ⟨h1, fits_name h htd h2 rfl⟩
  · intro f hf _
    rw [(hd.fields f hf).1]
    intro e he
    simp at he
  · intro f hf ht
    refine ⟨?_, (hd.fields f hf).2.1⟩
    cases ha : f.attrs.isAttr with
    | false => rfl
    | true => have := (hd.attr f hf ha).1; rw [ht] at this; cases this
  · intro f hf hfl
    exact (hno f hf hfl).elim
  · intro i j f g it hf hg htf htg
    have hfm := List.mem_of_getElem? hf
    have hgm := List.mem_of_getElem? hg
    rcases htf with htf | ⟨hfl, -⟩
    · rcases htg with htg | ⟨hfl, -⟩
      · cases it with
        | attr l =>
          obtain ⟨a1, a2⟩ := htf
          obtain ⟨b1, b2⟩ := htg
          exact hd.distinct i j f g hf hg (.inl ⟨by rw [a1, b1], by rw [a2, b2]⟩)
        | text => exact hd.distinct i j f g hf hg (.inr ⟨htf, htg⟩)
        | elem n =>
          obtain ⟨a1, -, a2⟩ := htf
          obtain ⟨b1, -, b2⟩ := htg
          exact hd.distinct i j f g hf hg (.inl ⟨by rw [helem f a1, helem g b1], by rw [FieldDef.label, FieldDef.label, a2, b2]⟩)
      · exact (hno g hgm hfl).elim
    · exact (hno f hfm hfl).elim
  · intro f hf he q hq n hn
    obtain ⟨td, htd⟩ := hd.defined f hf q hq
    refine fits_name h htd ?_ (by rw [hn.2, hd.noNs.1]; rfl)
    rw [hn.1]
    exact hd.names f hf (helem f he) q hq
  · rintro ⟨f, hf, h1, h2⟩
    exact (hno f hf ⟨h1, h2⟩).elim

theorem enumRt_simple {env : Env} (h : SimpleProgram env) {d : EnumDef} (hd : SimpleEnum env d) : EnumRt env [] d := by
  constructor
  · exact hd.noNs.2.2.1
  · intro t ht; rw [hd.noNs.2.2.2] at ht; cases ht
  · intro e he
    rw [Attrs.decls, hd.noNs.1] at he
    simp at he
  · exact fun v hv => (hd.variants v hv).2.2
  · intro i v hv hs
    unfold EnumDef.variantFor
    obtain ⟨hlt, hget⟩ := List.getElem?_eq_some_iff.mp hv
    rw [List.findIdx?_eq_some_iff_getElem]
    refine ⟨hlt, ?_, ?_⟩
    · rw [hget]; exact decide_eq_true ⟨hs, rfl⟩
    · intro j hj hc
      have := of_decide_eq_true hc
      have e := hd.distinct j i _ v (List.getElem?_eq_getElem (by omega)) hv this.2
      omega
  · exact fun v hv _ => .inl (hd.variants v hv).1
  · intro v hv _
    rw [(hd.variants v hv).1]
    intro e he
    simp at he
  · exact fun v hv => (hd.variants v hv).2.1
  · intro v hv t q hs hq n hn
    have hns : n.ns = none := by rw [hn.2, hd.noNs.1]; rfl
    rcases hd.shapes v hv with h1 | ⟨t', h1⟩ | ⟨q', td, h1, h2, h3, h4⟩
    · rw [hs] at h1; cases h1
    · rw [hs] at h1; cases h1; cases hq
    · rw [hs] at h1; cases h1; cases hq
      exact fits_name h h2 (by rw [hn.1]; exact h4) hns

theorem rtOk_simple {env : Env} (h : SimpleProgram env) : RtOk env [] :=
  ⟨⟨by simp, by simp, by simp⟩, fun _ _ hp => structRt_simple h (struct_simple h hp),
    fun _ _ hp => enumRt_simple h (enum_simple h hp)⟩

theorem rootOk_simple {env : Env} (h : SimpleProgram env) {p : Path} (hr : SimpleRoot env p) : RootOk env [] p := by
  obtain ⟨td, hp, hname, hfit⟩ := hr
  unfold RootOk
  rw [hp]
  cases td with
  | struct d =>
    have hs := struct_simple h hp
    refine ⟨hname, ?_, ?_⟩
    · rw [hs.noNs.2.1]; intro e he; simp at he
    · intro n hn
      exact fits_name h hp (by rw [hn.1]; exact hfit) (by rw [hn.2, hs.noNs.1]; rfl)
  | enum d =>
    have hs := enum_simple h hp
    refine ⟨hname, ?_, ?_⟩
    · rw [hs.noNs.2.1]; intro e he; simp at he
    · intro n hn
      exact fits_name h hp (by rw [hn.1]; exact hfit) (by rw [hn.2, hs.noNs.1]; rfl)
  | prim d => exact hname

/-! ### Values of simple programs -/

theorem tameL_get {L : Lib} : ∀ {vs : List Val}, TameL L vs → ∀ v ∈ vs, v.Tame L
  | [], _, v, hv => by cases hv
  | a :: vs, h, v, hv => by
    rw [TameL] at h
    rcases List.mem_cons.mp hv with rfl | hv
    · exact h.1
    · exact tameL_get h.2 v hv

/-- Visible ASCII characters. -/
theorem clean_of_visible {s : Str} (hne : s ≠ []) (h : ∀ c ∈ s, 33 ≤ c.toNat ∧ c.toNat ≤ 126) :
    CleanText s ∧ isAttrText s = true := by
  have key : ∀ c ∈ s, isDocChar c = true ∧ isXmlSpace c = false := by
    intro c hc
    obtain ⟨h1, h2⟩ := h c hc
    constructor
    · simp only [isDocChar, Bool.or_eq_true, Bool.and_eq_true, decide_eq_true_eq, beq_iff_eq]
      omega
    · by_contra hx
      simp only [isXmlSpace, Bool.not_eq_false, Bool.or_eq_true, beq_iff_eq] at hx
      rcases hx with ((rfl | rfl) | rfl) | rfl <;> revert h1 <;> decide
  have hr : ∀ c ∈ s, (c != '\r') = true ∧ (c != '\t') = true := by
    intro c hc
    have := (key c hc).2
    simp only [isXmlSpace, Bool.or_eq_false_iff, beq_eq_false_iff_ne] at this
    simp [this.2, this.1.1.2]
  refine ⟨⟨?_, trimSpace_of_noSpace fun c hc => (key c hc).2, hne⟩, ?_⟩
  · unfold isText
    rw [List.all_eq_true]
    intro c hc
    simp only [(key c hc).1, (hr c hc).1, Bool.and_self]
  · unfold isAttrText
    rw [List.all_eq_true]
    intro c hc
    simp only [(key c hc).1, (hr c hc).1, (hr c hc).2, Bool.and_self]

theorem showNat_visible (n : Nat) : ∀ c ∈ showNat n, 33 ≤ c.toNat ∧ c.toNat ≤ 126 := by
  intro c hc
  have := showNat_digits n c hc
  unfold IsDigit at this
  have h1 : '0'.toNat ≤ c.toNat := this.1
  have h2 : c.toNat ≤ '9'.toNat := this.2
  have e1 : '0'.toNat = 48 := rfl
  have e2 : '9'.toNat = 57 := rfl
  omega

theorem showInt_clean (z : Int) : CleanText (showInt z) ∧ isAttrText (showInt z) = true := by
  cases z with
  | ofNat n => exact clean_of_visible (showNat_ne n) (showNat_visible n)
  | negSucc n =>
    refine clean_of_visible (by simp [showInt]) ?_
    intro c hc
    rcases List.mem_cons.mp hc with rfl | hc
    · decide
    · exact showNat_visible _ c hc

theorem showBool_clean (b : Bool) : CleanText (showBool b) ∧ isAttrText (showBool b) = true := by
  refine clean_of_visible (by cases b <;> decide) ?_
  cases b <;> decide

/-- Scalars of a tame value are read back, from text and from attributes. -/
theorem scalar_of_tame {L : Lib} {env : Env} {t : STy} {v : Val} (hv : HasTy env (.simple t) v) (ht : v.Tame L) :
    ScalarOk L t v ∧ AttrScalarOk L t v := by
  cases hv with
  | str s => exact ⟨⟨ht.1, rfl⟩, ⟨ht.2, rfl⟩⟩
  | bool b =>
    have := showBool_clean b
    have hp : visitS L .bool (showS L (.bool b)) = .ok (.bool b) := by cases b <;> rfl
    exact ⟨⟨this.1, hp⟩, ⟨this.2, hp⟩⟩
  | int t z fits =>
    have := showInt_clean z
    have hp : visitS L (.int t) (showS L (.int z)) = .ok (.int z) := by
      show (parseInt t (showInt z)).map Val.int = _
      rw [parseInt_showInt t z fits]
      rfl
    exact ⟨⟨this.1, hp⟩, ⟨this.2, hp⟩⟩
  | f32 b =>
    rw [Val.Tame] at ht
    have hp : visitS L .f32 (showS L (.f32 b)) = .ok (.f32 b) := by
      show (L.parseF32 (L.showF32 b)).map Val.f32 = _
      rw [ht.2.2]
      rfl
    exact ⟨⟨ht.1, hp⟩, ⟨ht.2.1, hp⟩⟩
  | f64 b =>
    rw [Val.Tame] at ht
    have hp : visitS L .f64 (showS L (.f64 b)) = .ok (.f64 b) := by
      show (L.parseF64 (L.showF64 b)).map Val.f64 = _
      rw [ht.2.2]
      rfl
    exact ⟨⟨ht.1, hp⟩, ⟨ht.2.1, hp⟩⟩

theorem payload_of_tame {L : Lib} {env : Env} {t : STy} {v : Val} (hv : HasTy env (.simple t) v) (ht : v.Tame L) :
    PayloadOk L t v := by
  obtain ⟨h, -⟩ := scalar_of_tame hv ht
  refine ⟨h.clean.chars, ?_⟩
  rw [h.clean.trimmed]
  have := h.parses
  unfold visitS at this
  split at this
  · rename_i hb
    subst hb
    cases hv with
    | bool b => cases b <;> rfl
  · exact this

theorem inherited_nil {L : Lib} {env : Env} : ∀ (fds : List FieldDef) (vs : List Val), (∀ f ∈ fds, f.attrs.flatten = false) →
    encInherited L env fds vs = [] ∧ encInheritedDecls env fds vs = []
  | [], vs, _ => by rw [encInherited.eq_def, encInheritedDecls.eq_def]; exact ⟨rfl, rfl⟩
  | f :: fds, [], _ => by rw [encInherited.eq_def, encInheritedDecls.eq_def]; exact ⟨rfl, rfl⟩
  | f :: fds, v :: vs, h => by
    obtain ⟨h1, h2⟩ := inherited_nil fds vs fun g hg => h g (List.mem_cons_of_mem _ hg)
    rw [encInherited.eq_def, encInheritedDecls.eq_def]
    dsimp only
    rw [h1, h2, h f List.mem_cons_self, Bool.and_false]
    exact ⟨rfl, rfl⟩

theorem own_nil {L : Lib} {env : Env} {root : Attrs} {self : Val} : ∀ (fds : List FieldDef) (vs : List Val),
    (∀ f ∈ fds, f.attrs.isAttr = false) → encOwn L env root self fds vs = []
  | [], vs, _ => by rw [encOwn.eq_def]
  | f :: fds, [], _ => by rw [encOwn.eq_def]
  | f :: fds, v :: vs, h => by
    have h1 := own_nil (L := L) (env := env) (root := root) (self := self) fds vs fun g hg => h g (List.mem_cons_of_mem _ hg)
    rw [encOwn.eq_def]
    dsimp only
    rw [h1, h f List.mem_cons_self, Bool.false_and]
    rfl

theorem bare_simple {L : Lib} {env : Env} (h : SimpleProgram env) {q : Path} {td : TypeDef} (hq : env q = some td)
    (hb : BareType env q) (x : Val) : encTyAttrs L env q x = [] ∧ encTyDecls env q x = [] := by
  cases td with
  | struct d =>
    have hs := struct_simple h hq
    rw [encTyAttrs.eq_def, encTyDecls.eq_def, hq]
    cases x with
    | struct fs =>
      dsimp only
      obtain ⟨h1, h2⟩ := inherited_nil (L := L) (env := env) d.fields fs fun f hf => (hs.fields f hf).2.1
      rw [h1, h2, own_nil _ _ (hb d hq), Attrs.decls, hs.noNs.1]
      exact ⟨rfl, rfl⟩
    | _ => exact ⟨rfl, rfl⟩
  | enum d =>
    have hs := enum_simple h hq
    rw [encTyDecls_enum hq, Attrs.decls, hs.noNs.1]
    refine ⟨?_, rfl⟩
    cases x with
    | enum i pay => exact encTyAttrs_enum hq hs.noNs.2.2.2 i pay
    | _ => rw [encTyAttrs.eq_def, hq]
  | prim d =>
    rw [encTyAttrs.eq_def, encTyDecls.eq_def, hq]
    exact ⟨rfl, rfl⟩

theorem restores_of_writesAll {env : Env} (hw : WritesAll env) : Restores env := by
  intro p d hp f hf
  obtain ⟨h1, h2, h3, h4, h5⟩ := hw p d hp f hf
  refine ⟨?_, h4, h5⟩
  rintro - self v - (h | h)
  · rw [h3] at h; cases h
  · refine (h ⟨fun g hg => ?_, fun g hg => ?_⟩).elim
    · rw [h2] at hg; cases hg
    · rw [h1] at hg; cases hg

/-- Types with `Display` and `FromStr` are written as text. -/
theorem encTy_prim_inner {L : Lib} {env : Env} {q : Path} {d : PrimDef} (hp : env q = some (.prim d)) (v : Val) :
    encTy L env .inner q v = [.text (d.toStr v)] := by
  rw [encTy.eq_def, hp]
  simp [Place.inner, wrap]

/-- What is written without its start tag. -/
theorem bare_in {L : Lib} {env : Env} {decls : NsMap} {q : Path} (h : BareIn env decls q) (x : Val) :
    encTyAttrs L env q x = [] ∧ ∀ e ∈ encTyDecls env q x, e ∈ decls := by
  rw [encTyAttrs.eq_def, encTyDecls.eq_def]
  cases hq : env q with
  | none => exact ⟨rfl, by simp⟩
  | some td =>
    cases td with
    | struct d =>
      obtain ⟨h1, h2⟩ := h.1 d hq
      cases x with
      | struct fs =>
        dsimp only
        obtain ⟨a, b⟩ := inherited_nil (L := L) (env := env) d.fields fs fun f hf => (h1 f hf).2
        rw [a, b, own_nil _ _ fun f hf => (h1 f hf).1]
        exact ⟨rfl, by simpa using h2⟩
      | _ => exact ⟨rfl, by simp⟩
    | enum d =>
      obtain ⟨h1, h2⟩ := h.2 d hq
      cases x with
      | enum i pay =>
        dsimp only
        refine ⟨?_, h2⟩
        split
        · simp [tagAttrs, h1]
        · rfl
      | _ => exact ⟨rfl, h2⟩
    | prim d => exact ⟨rfl, by simp⟩

/-- Simple programs are of the larger class. -/
theorem carries_simple {env : Env} (h : SimpleProgram env) : Carries env where
  attr := by
    intro p d hp f hf ha q hq
    rcases ((struct_simple h hp).attrTypes f hf ha q hq).2.2 with ⟨e, he, hu⟩ | hu
    · exact .inl ⟨e, he, (enum_simple h he).noNs.1, (enum_simple h he).noNs.2.2.2, hu⟩
    · exact .inr hu
  flat := by
    intro p d hp f hf _ hfl
    rw [((struct_simple h hp).fields f hf).2.1] at hfl
    cases hfl
  payload := by
    intro p d hp v hv t ht
    refine ⟨(enum_simple h hp).noNs.2.2.2, ?_⟩
    rcases (enum_simple h hp).shapes v hv with h1 | ⟨t', h1⟩ | ⟨q, td, h1, h2, h3, -⟩
    · rw [ht] at h1; cases h1
    · rw [ht] at h1; cases h1; exact .inl ⟨_, rfl⟩
    · rw [ht] at h1; cases h1
      refine .inr ⟨q, rfl, fun e he => ⟨fun f hf => ⟨h3 e he f hf, ((struct_simple h he).fields f hf).2.1⟩, ?_⟩, fun e he => ⟨(enum_simple h he).noNs.2.2.2, ?_⟩⟩
      · rw [Attrs.decls, (struct_simple h he).noNs.1]; simp
      · rw [Attrs.decls, (enum_simple h he).noNs.1]; simp

theorem plainPayloads_simple {env : Env} (h : SimpleProgram env) : PlainPayloads env := by
  intro p d hp v hv
  rcases (enum_simple h hp).shapes v hv with h1 | ⟨t', h1⟩ | ⟨q, td, h1, -⟩
  · exact .inl h1
  · exact .inr (.inl ⟨t', h1⟩)
  · exact .inr (.inr ⟨q, h1⟩)

/-- Values of these types as attribute values. -/
theorem attrUser_carried {L : Lib} (hL : XmlLaw L) {env : Env} {G : NsMap} (hR : RtOk env G)
    (hpr : ∀ p d, env p = some (.prim d) → Inverts d) {q : Path} (hq : AttrType env q) {x : Val}
    (hx : HasTy env (.struct q) x) : AttrUserOk L env q x := by
  rcases hq with ⟨e, he, hns, htag, hu⟩ | ⟨e, he, hu⟩
  · have hrt := hR.enum q e he
    have b2 : encTyDecls env q x = [] := by rw [encTyDecls_enum he, Attrs.decls, hns]; rfl
    cases hx with
    | struct _ d fs hp' => rw [he] at hp'; cases hp'
    | newtype _ d i vd t y hp' hv hsh =>
      rw [he] at hp'; cases hp'
      rw [hu vd (List.mem_of_getElem? hv)] at hsh; cases hsh
    | named _ d i vd fds fs hp' hv hsh =>
      rw [he] at hp'; cases hp'
      rw [hu vd (List.mem_of_getElem? hv)] at hsh; cases hsh
    | prim _ d v hp' => rw [he] at hp'; cases hp'
    | unit _ d i vd hp' hv hsh =>
      rw [he] at hp'; cases hp'
      refine ⟨encTyAttrs_enum he htag i [], b2, ?_⟩
      have hE := (enc_unit (L := L) (G := G) he hrt hv hsh).content [] (by rw [b2]; simp) (by simp)
      refine hL.chars _ _ hE.ok ?_ rfl
      rw [encUnit_inner he hrt htag hv hsh]
      exact ⟨attrText_ncName (hrt.key vd (List.mem_of_getElem? hv)), trivial⟩
  · refine ⟨by rw [encTyAttrs.eq_def, he], by rw [encTyDecls.eq_def, he], ?_⟩
    cases hx with
    | struct _ d fs hp' => rw [he] at hp'; cases hp'
    | newtype _ d i vd t y hp' hv hsh => rw [he] at hp'; cases hp'
    | named _ d i vd fds fs hp' hv hsh => rw [he] at hp'; cases hp'
    | unit _ d i vd hp' hv hsh => rw [he] at hp'; cases hp'
    | prim _ d v hp' hd =>
      rw [he] at hp'; cases hp'
      refine hL.chars _ _ ?_ ?_ rfl
      · rw [encTy_prim_inner he]; exact ⟨((hpr q e he).2 x hd).1, trivial⟩
      · rw [encTy_prim_inner he]; exact ⟨hu x hd, trivial⟩

theorem attr_not_text {env : Env} {G : NsMap} {d : StructDef} (hd : StructRt env G d) {f : FieldDef} (hf : f ∈ d.fields)
    (ha : f.attrs.isAttr = true) : f.attrs.text = false := by
  cases ht : f.attrs.text with
  | false => rfl
  | true =>
    have := (hd.text f hf ht).1
    rw [ha] at this
    cases this

/-- Only fields that are not flattened are left out. -/
theorem flat_omitted {f : FieldDef} {self v : Val}
    (h : f.attrs.flatten = true → f.dflt = none ∧ f.skipIf = none ∧ f.attrs.skipSer = false) (ho : f.omitted self v) :
    f.attrs.flatten = false := by
  cases hfl : f.attrs.flatten with
  | false => rfl
  | true =>
    obtain ⟨h1, h2, h3⟩ := h hfl
    rcases ho with ho | ho
    · rw [h3] at ho; cases ho
    · refine (ho ⟨fun g hg => ?_, fun g hg => ?_⟩).elim
      · rw [h2] at hg; cases hg
      · rw [h1] at hg; cases hg

theorem canon_attrUser {L : Lib} {env : Env} (hpr : ∀ p d, env p = some (.prim d) → Inverts d) {q : Path}
    (hq : AttrType env q) {x : Val}
    (hx : HasTy env (.struct q) x) : Canon L env (.struct q) x := by
  cases hx with
  | struct _ d fs hp' => rcases hq with ⟨e, he, -⟩ | ⟨e, he, -⟩ <;> rw [he] at hp' <;> cases hp'
  | newtype _ d i vd t y hp' hv hsh =>
    rcases hq with ⟨e, he, -, -, hu⟩ | ⟨e, he, -⟩ <;> rw [he] at hp' <;> cases hp'
    rw [hu vd (List.mem_of_getElem? hv)] at hsh; cases hsh
  | named _ d i vd fds fs hp' hv hsh =>
    rcases hq with ⟨e, he, -, -, hu⟩ | ⟨e, he, -⟩ <;> rw [he] at hp' <;> cases hp'
    rw [hu vd (List.mem_of_getElem? hv)] at hsh; cases hsh
  | unit _ d i vd hp' hv hsh => exact .unit q d i vd hp' hv hsh
  | prim _ d v hp' hd => exact .prim q d x hp' (hpr q d hp').1 ((hpr q d hp').2 x hd).1 ((hpr q d hp').2 x hd).2

/-- Tame values survive. -/
theorem canon_of_tame {L : Lib} (hL : XmlLaw L) {env : Env} {G : NsMap} (hR : RtOk env G) (hC : Carries env)
    (hP : PlainPayloads env) (hw : Restores env) (hpr : ∀ p d, env p = some (.prim d) → Inverts d)
    {t : FTy} {v : Val} (hv : HasTy env t v) : v.Tame L → Canon L env t v := by
  induction hv with
  | str s => exact fun ht => .scalar _ _ (scalar_of_tame (env := env) (.str s) ht).1
  | bool b => exact fun ht => .scalar _ _ (scalar_of_tame (env := env) (.bool b) ht).1
  | int t z fits => exact fun ht => .scalar _ _ (scalar_of_tame (env := env) (.int t z fits) ht).1
  | f32 b => exact fun ht => .scalar _ _ (scalar_of_tame (env := env) (.f32 b) ht).1
  | f64 b => exact fun ht => .scalar _ _ (scalar_of_tame (env := env) (.f64 b) ht).1
  | none t => exact fun _ => .none t
  | some t v h ih => exact fun ht => .some t v (ih (by rwa [Val.Tame] at ht))
  | vec t vs h ih => exact fun ht => .vec t vs fun v hm => ih v hm (tameL_get (by rwa [Val.Tame] at ht) v hm)
  | struct p d fs hp hlen h ih =>
    intro ht
    rw [Val.Tame] at ht
    have htame : ∀ (i : Nat) (v : Val), fs[i]? = some v → v.Tame L := fun i v hi => tameL_get ht v (List.mem_of_getElem? hi)
    have hd := hR.struct p d hp
    refine .struct p d fs hp hlen ?_ ?_ ?_ ?_ ?_ ?_
    · intro i f v hf hv ha
      have hm := List.mem_of_getElem? hf
      have hty := h i f v hf hv
      by_cases hsel : f.selected (.struct fs) v
      swap
      · exact .absent _ (.inl hsel) ((hw p d hp f hm).1 (attr_not_text hd hm ha) _ v hty (.inr hsel))
      cases hft : f.ty with
      | simple t' =>
        rw [hft] at hty
        exact .plain t' v hft hsel (scalar_of_tame hty (htame i v hv)).2
      | opt t' =>
        rw [hft] at hty
        cases hty with
        | none => exact .absent _ (.inr (.inl ⟨_, hft, rfl⟩)) (by unfold FieldDef.absent; rw [hft])
        | some _ x hx =>
          have := htame i _ hv
          rw [Val.Tame] at this
          rcases hd.plain.elemTy f hm with ⟨t, htc⟩ | ⟨q, htc⟩
          all_goals
            have htc' := htc
            rw [hft] at htc
            rw [show (FTy.opt t').core = t' from rfl] at htc
            subst htc
          · exact .some t x hft hsel (scalar_of_tame hx this).2
          · exact .userSome q x hft hsel (attrUser_carried hL hR hpr (hC.attr p d hp f hm ha q htc') hx)
      | vec t' => exact ((hw p d hp f hm).2.2 ha t' hft).elim
      | struct q =>
        rw [hft] at hty
        exact .user q v hft hsel (attrUser_carried hL hR hpr (hC.attr p d hp f hm ha q (by rw [hft]; rfl)) hty)
    · intro i f v q x hf hv ha hor hsel
      have hi := ih i f v hf hv (htame i v hv)
      rcases hor with ⟨h1, rfl⟩ | ⟨h1, rfl⟩
      · rw [h1] at hi; exact hi
      · rw [h1] at hi; cases hi with | some _ _ h => exact h
    · intro i f v hf hv ha htx
      have hm := List.mem_of_getElem? hf
      have hty := h i f v hf hv
      rcases hd.plain.textTy f hm htx with hft | hft
      · rw [hft] at hty
        cases hty with
        | str s =>
          have := htame i _ hv
          rw [Val.Tame] at this
          exact .str s hft this.1
      · rw [hft] at hty
        cases hty with
        | none => exact .absent _ rfl (by unfold FieldDef.absent; rw [hft])
        | some _ x hx =>
          cases hx with
          | str s =>
            have := htame i _ hv
            rw [Val.Tame, Val.Tame] at this
            exact .some s hft this.1
    · intro i f v hf hv ha htx ho
      have hm := List.mem_of_getElem? hf
      exact ⟨flat_omitted (hC.flat p d hp f hm ha) ho, (hw p d hp f hm).1 htx _ v (h i f v hf hv) ho⟩
    · intro i f v hf hv ha htx ho hc
      rw [(hw p d hp f (List.mem_of_getElem? hf)).2.1] at hc
      cases hc
    · intro i f v hf hv ha htx ho hc
      exact ih i f v hf hv (htame i v hv)
  | unit p d i vd hp hv hsh => exact fun _ => .unit p d i vd hp hv hsh
  | newtype p d i vd t x hp hv hsh h ih =>
    intro ht
    rw [Val.Tame, TameL] at ht
    obtain ⟨htag, hpay⟩ := hC.payload p d hp vd (List.mem_of_getElem? hv) t hsh
    rcases hP p d hp vd (List.mem_of_getElem? hv) with h1 | ⟨t', h1⟩ | ⟨q, h1⟩
    · rw [hsh] at h1; cases h1
    · rw [hsh] at h1; cases h1
      exact .payload p d i vd t' x hp htag hv hsh (payload_of_tame h ht.1)
    · rw [hsh] at h1; cases h1
      rcases hpay with ⟨_, hpay⟩ | ⟨q', hpay, hb⟩ <;> cases hpay
      obtain ⟨b1, b2⟩ := bare_in (L := L) hb x
      exact .payloadStruct p d i vd q x hp htag hv hsh (ih ht.1) b1 b2
  | named p d i vd fds fs hp hv hsh =>
    rcases hP p d hp vd (List.mem_of_getElem? hv) with h1 | ⟨t', h1⟩ | ⟨q, h1⟩ <;>
      rw [hsh] at h1 <;> cases h1
  | prim p d v hp hd => exact fun _ => .prim p d v hp (hpr p d hp).1 ((hpr p d hp).2 v hd).1 ((hpr p d hp).2 v hd).2

/-- The serializer macro accepts simple programs. -/
theorem serOk_simple {env : Env} (hs : SimpleProgram env) (hw : Restores env) : SerOk env := by
  refine ⟨?_, ?_, ?_⟩
  rotate_left
  · intro p d hp v hv t ht
    rcases (enum_simple hs hp).shapes v hv with h1 | ⟨t', h1⟩ | ⟨q, td, h1, -⟩ <;> rw [ht] at h1 <;> cases h1 <;> trivial
  · intro p d hp v hv t ht
    rcases (enum_simple hs hp).shapes v hv with h1 | ⟨t', h1⟩ | ⟨q, td, h1, -⟩ <;> rw [ht] at h1 <;> cases h1
  intro p d hp f hf
  have hd := struct_simple hs hp
  have hc := (hw p d hp f hf).2.1
  have ht := hd.types.textTy f hf
  have he := hd.types.elemTy f hf
  unfold FieldDef.SerOk
  cases hia : f.attrs.isAttr with
  | true =>
    cases hft : f.ty with
    | simple t => simp
    | struct q => simp
    | vec t => simp
    | opt t => rcases he with ⟨t, he⟩ | ⟨t, he⟩ <;> rw [hft] at he <;> cases he <;> simp
  | false =>
    cases htx : f.attrs.text with
    | true => simpa using ht htx
    | false =>
      rw [hc]
      rcases he with ⟨t, he⟩ | ⟨t, he⟩ <;> cases hft : f.ty <;> rw [hft] at he <;> cases he <;> simp

end Yaserde
