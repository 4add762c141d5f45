import Verif.Spec.Within
import Verif.Proofs.Fields
/-
Changes somewhere inside a document: congruence.
-/

set_option autoImplicit false

namespace Yaserde

/-- A relation between outcomes that sequencing respects. -/
structure ResRel where
  rel : {α : Type} → Res α → Res α → Prop
  refl : ∀ {α : Type} (r : Res α), rel r r
  bind : ∀ {α β : Type} {a b : Res α} {f g : α → Res β}, rel a b → (∀ v, rel (f v) (g v)) →
    rel (a.bind f) (b.bind g)

/-- Same outcome. -/
def ResRel.eq : ResRel where
  rel a b := a = b
  refl _ := rfl
  bind h hf := by subst h; congr; funext v; exact hf v

/-- Same success. -/
def ResRel.okEq : ResRel where
  rel a b := ∀ v, a = .ok v ↔ b = .ok v
  refl _ _ := Iff.rfl
  bind h hf v := by
    rw [Res.bind_eq_ok, Res.bind_eq_ok]
    constructor
    · rintro ⟨a, h1, h2⟩; exact ⟨a, (h a).mp h1, (hf a v).mp h2⟩
    · rintro ⟨a, h1, h2⟩; exact ⟨a, (h a).mpr h1, (hf a v).mpr h2⟩

section
variable (E : ResRel)

theorem ResRel.collect_mid {α : Type} (pre post : List (Res α)) {a b : Res α} (h : E.rel a b) :
    E.rel (Res.collect (pre ++ a :: post)) (Res.collect (pre ++ b :: post)) := by
  induction pre with
  | nil =>
    simp only [List.nil_append, collect_cons]
    exact E.bind h fun v => E.refl _
  | cons r pre ih =>
    simp only [List.cons_append, collect_cons]
    exact E.bind (E.refl _) fun v => E.bind ih fun _ => E.refl _

theorem kidContribs_mid (L : Lib) (dec : Node → Path → Res Val) (d : StructDef) {cn : Name}
    {cas cas' : List Attr} {cm cm' : NsMap} {cks cks' : List Node} {pre post : List Node} {i : Nat}
    {f : FieldDef} {q : Path} (hi : d.fieldFor cn = some i) (hf : d.fields[i]? = some f)
    (hq : f.ty.core = .struct q)
    (h : E.rel (dec (.elem cn cas cm cks) q) (dec (.elem cn cas' cm' cks') q)) :
    E.rel (kidContribs L d (pre ++ .elem cn cas cm cks :: post) ((pre ++ .elem cn cas cm cks :: post).map dec))
      (kidContribs L d (pre ++ .elem cn cas' cm' cks' :: post) ((pre ++ .elem cn cas' cm' cks' :: post).map dec)) := by
  unfold kidContribs
  rw [zip_map_self, zip_map_self]
  simp only [List.map_map, List.map_append, List.map_cons]
  refine E.bind ?_ fun _ => E.refl _
  refine E.collect_mid _ _ ?_
  simp only [Function.comp_apply, kidContrib, hi, hf, hq]
  exact E.bind h fun _ => E.refl _

theorem variantKids_mid (L : Lib) (d : EnumDef) (dec : Node → Path → Res Val) {cn : Name}
    {cas cas' : List Attr} {cm cm' : NsMap} {cks cks' : List Node} {pre post : List Node} {i : Nat}
    {v : VariantDef} {t : FTy} {q : Path} (hi : d.variantFor cn.loc = some i)
    (hv : d.variants[i]? = some v) (hs : v.shape = .newtype t) (hq : t.core = .struct q)
    (h : E.rel (dec (.elem cn cas cm cks) q) (dec (.elem cn cas' cm' cks') q)) (cur : Option Val) :
    E.rel (variantKids L d ((pre ++ .elem cn cas cm cks :: post).map fun a => (a, dec a)) cur)
      (variantKids L d ((pre ++ .elem cn cas' cm' cks' :: post).map fun a => (a, dec a)) cur) := by
  induction pre generalizing cur with
  | nil =>
    obtain ⟨vi, va, vs⟩ := v
    simp only at hs
    subst hs
    simp only [List.nil_append, List.map_cons, variantKids, variantKid, hi, hv, hq]
    exact E.bind (E.bind h fun _ => E.refl _) fun _ => E.refl _
  | cons k pre ih =>
    simp only [List.cons_append, List.map_cons, variantKids]
    exact E.bind (E.refl _) fun _ => E.bind (E.refl _) fun cur' => ih cur'

end

theorem unitByText_elem (d : EnumDef) (pre post : List Node) (n : Name) (as : List Attr) (m : NsMap)
    (ks : List Node) : unitByText d (pre ++ .elem n as m ks :: post) = none := by
  match pre, post with
  | [], [] => rfl
  | [], _ :: _ => rfl
  | [.text _], _ => rfl
  | [.elem ..], _ => rfl
  | .text _ :: _ :: _, _ => rfl
  | .elem .. :: _ :: _, _ => rfl

theorem flatContribs_conf0 {d : StructDef} (h : ∀ f ∈ d.fields, f.attrs.isAttr = false →
    f.attrs.flatten = true → ∀ q, f.ty.core = .struct q → False) (hp : d.Plain) : d.hasFlat = false := by
  unfold StructDef.hasFlat
  rw [List.any_eq_false]
  intro f hf hc
  simp at hc
  rcases hp.flatTy f hf hc.1 hc.2 with ⟨q, hq⟩ | ⟨q, hq⟩
  · exact h f hf hc.1 hc.2 q (by rw [hq]; rfl)
  · exact h f hf hc.1 hc.2 q (by rw [hq]; rfl)

/-- Conformance for attributes of derived types, with up to `k` levels. -/
def attrConf (L : Lib) (env : Env) : Nat → Node → Path → Prop
  | 0 => fun _ _ => False
  | k + 1 => fun x q =>
    match x with
    | .text s => ∃ y, IsDoc (L.parse (attrDoc q s)) y ∧ y.events.length ≤ k + 3 ∧ ConfN L env k y q
    | .elem .. => False

theorem conf_eq (L : Lib) (env : Env) (k : Nat) : Conf L env k = ConfWith L env (attrConf L env k) := by
  cases k <;> rfl

theorem attrConf_elem {L : Lib} {env : Env} {k : Nat} {n : Name} {as : List Attr} {m : NsMap} {ks : List Node} {q : Path}
    (h : attrConf L env k (.elem n as m ks) q) : False := by
  cases k <;> exact h

mutual
  theorem confWith_mono {L : Lib} {env : Env} {fc fc' : Node → Path → Prop} (h : ∀ x q, fc x q → fc' x q) (x : Node)
      (p : Path) (hc : ConfWith L env fc x p) : ConfWith L env fc' x p := by
    cases x with
    | text s => rw [ConfWith] at hc; exact hc.elim
    | elem n as m ks =>
      rw [ConfWith] at hc ⊢
      split at hc
      · obtain ⟨h1, h2, h3, h4, h5⟩ := hc
        exact ⟨h1, h2, confKids_mono h _ ks h3, fun f hf ha hb q hq => h _ _ (h4 f hf ha hb q hq),
          fun f hf ha q hq a hm hl s hs => h _ _ (h5 f hf ha q hq a hm hl s hs)⟩
      · obtain ⟨h2, h⟩ := hc
        rcases h with ⟨h1, h3, h4⟩ | h
        · refine ⟨h2, .inl ⟨h1, h3, ?_⟩⟩
          rcases h4 with h4 | h4
          · exact .inl h4
          · exact .inr (confVariants_mono (by assumption) _ ks h4)
        · exact ⟨h2, .inr h⟩
      · exact hc
      · exact hc
  theorem confKids_mono {L : Lib} {env : Env} {fc fc' : Node → Path → Prop} (h : ∀ x q, fc x q → fc' x q)
      (d : StructDef) (ks : List Node) (hc : ConfKids L env fc d ks) : ConfKids L env fc' d ks := by
    cases ks with
    | nil => rw [ConfKids]; trivial
    | cons k ks =>
      rw [ConfKids] at hc ⊢
      refine ⟨?_, confKids_mono h d ks hc.2⟩
      have hk := hc.1
      cases k with
      | text s => rw [ConfKid] at hk ⊢; exact hk
      | elem n as m kids =>
        rw [ConfKid] at hk ⊢
        refine ⟨hk.1, fun i f hi hf => ⟨(hk.2 i f hi hf).1, fun q hq => ?_⟩⟩
        obtain ⟨h1, h2⟩ := (hk.2 i f hi hf).2 q hq
        exact ⟨confWith_mono h (.elem n as m kids) q h1, h2⟩
  theorem confVariants_mono {L : Lib} {env : Env} {fc fc' : Node → Path → Prop} (h : ∀ x q, fc x q → fc' x q)
      (d : EnumDef) (ks : List Node) (hc : ConfVariants L env fc d ks) : ConfVariants L env fc' d ks := by
    cases ks with
    | nil => rw [ConfVariants]; trivial
    | cons k ks =>
      rw [ConfVariants] at hc ⊢
      refine ⟨?_, confVariants_mono h d ks hc.2⟩
      have hk := hc.1
      cases k with
      | text s => rw [ConfVariant] at hk ⊢; exact hk
      | elem n as m kids =>
        rw [ConfVariant] at hk ⊢
        rcases hk with hk | ⟨i, v, t, h1, h2, h3, h4⟩
        · exact .inl hk
        · refine .inr ⟨i, v, t, h1, h2, h3, ?_⟩
          rcases h4 with h4 | ⟨q, hq, h4⟩
          · exact .inl h4
          · exact .inr ⟨q, hq, confWith_mono h (.elem n as m kids) q h4⟩
end

/-- Without flattened fields is a special case. -/
theorem Conf.confN {L : Lib} {env : Env} {k : Nat} {x : Node} {p : Path} (h : Conf L env k x p) : ConfN L env k x p := by
  rw [conf_eq] at h
  rw [confN_eq]
  refine confWith_mono ?_ x p h
  intro x q hx
  cases k with
  | zero => exact hx.elim
  | succ k =>
    cases x with
    | text s => exact hx
    | elem => exact hx.elim

/-- A type without flattened fields: what `Conf` gives. -/
theorem conf_struct {L : Lib} {env : Env} {k : Nat} {p : Path} {d : StructDef} (hp : env p = some (.struct d))
    {n : Name} {as : List Attr} {m : NsMap} {ks : List Node} :
    Conf L env k (.elem n as m ks) p ↔ d.Plain ∧
        ((n.loc = d.attrs.rename.getD d.name ∧
            n.ns.getD [] = (d.attrs.namespaces.find d.attrs.pfx).getD []) ∨ d.fieldFor n = none) ∧
        ConfKids L env (attrConf L env k) d ks ∧ d.hasFlat = false ∧
        (∀ f ∈ d.fields, f.attrs.isAttr = true → ∀ q, f.ty.core = .struct q →
          ∀ a ∈ as, a.name.loc = f.label → ∀ s ∈ f.ty.attrTexts a.value, attrConf L env k (.text s) q) := by
  rw [conf_eq, ConfWith, hp]
  dsimp only
  constructor
  · rintro ⟨h1, h2, h3, h4, h5⟩
    exact ⟨h1, h2, h3, flatContribs_conf0 (fun f hf ha hb q hq => attrConf_elem (h4 f hf ha hb q hq)) h1, h5⟩
  · rintro ⟨h1, h2, h3, h4, h5⟩
    refine ⟨h1, h2, h3, fun f hf ha hb => ?_, h5⟩
    unfold StructDef.hasFlat at h4
    rw [List.any_eq_false] at h4
    exact (h4 f hf (by simp [ha, hb])).elim

theorem confKids_append {L : Lib} {env : Env} {fc : Node → Path → Prop} {d : StructDef} {a b : List Node} :
    ConfKids L env fc d (a ++ b) ↔ ConfKids L env fc d a ∧ ConfKids L env fc d b := by
  induction a with
  | nil => simp [ConfKids]
  | cons k a ih => simp only [List.cons_append, ConfKids, ih, and_assoc]

theorem confKids_iff {L : Lib} {env : Env} {fc : Node → Path → Prop} {d : StructDef} {ks : List Node} :
    ConfKids L env fc d ks ↔ ∀ k ∈ ks, ConfKid L env fc d k := by
  induction ks with
  | nil => simp [ConfKids]
  | cons k ks ih => simp only [ConfKids, ih, List.forall_mem_cons]

theorem confVariants_iff {L : Lib} {env : Env} {fc : Node → Path → Prop} {d : EnumDef} {ks : List Node} :
    ConfVariants L env fc d ks ↔ ∀ k ∈ ks, ConfVariant L env fc d k := by
  induction ks with
  | nil => simp [ConfVariants]
  | cons k ks ih => simp only [ConfVariants, ih, List.forall_mem_cons]

theorem decode_struct {L : Lib} {env : Env} {k : Nat} {p : Path} {d : StructDef} (hp : env p = some (.struct d))
    (n : Name) (as : List Attr) (m : NsMap) (ks : List Node) (hnf : d.hasFlat = false) :
    decodeN L env k (.elem n as m ks) p = (attrContribs L (userAttr (flatN L env k)) d as).bind fun ca =>
      (kidContribs L d ks (ks.map (decodeN L env k))).bind fun ck => assemble d (ca ++ ck) := by
  rw [decodeN_eq, decodeWith, hp, ← decodeN_eq]
  dsimp only
  rw [decodeL_map, ← decodeN_eq]
  unfold decodeStruct
  rw [flatContribs_noFlat hnf]
  simp only [Res.bind_ok, List.append_nil]

/-- Replacing an element somewhere in a document by one that is read the same way. -/
theorem within_congr (E : ResRel) {L : Lib} {env : Env} {k : Nat} {R : StructDef → Node → Node → Prop}
    (hR : ∀ p d x y, env p = some (.struct d) → R d x y → Conf L env k x p →
      Conf L env k y p ∧ E.rel (decodeN L env k x p) (decodeN L env k y p))
    {p : Path} {x y : Node} (h : Within env R p x y) (hc : Conf L env k x p) :
    Conf L env k y p ∧ E.rel (decodeN L env k x p) (decodeN L env k y p) := by
  induction h with
  | here hp h => exact hR _ _ _ _ hp h hc
  | @field p q d i f n cn as m cas cas' cm cm' cks cks' pre post hp hi hf hq _ ih =>
    obtain ⟨h1, h2, h3, h4, h5⟩ := (conf_struct hp).mp hc
    rw [confKids_append, ConfKids] at h3
    obtain ⟨h3a, h3b, h3c⟩ := h3
    have hck := h3b
    rw [ConfKid] at hck
    obtain ⟨hns, hck⟩ := hck
    have hcq := ((hck i f hi hf).2 q hq).1
    rw [← conf_eq] at hcq
    obtain ⟨ihc, ihe⟩ := ih hcq
    rw [conf_eq] at ihc
    refine ⟨(conf_struct hp).mpr ⟨h1, h2, ?_, h4, h5⟩, ?_⟩
    · rw [confKids_append, ConfKids]
      refine ⟨h3a, ?_, h3c⟩
      rw [ConfKid]
      refine ⟨hns, fun i' f' hi' hf' => ?_⟩
      rw [hi] at hi'
      cases hi'
      rw [hf] at hf'
      cases hf'
      refine ⟨fun t ht => (by rw [hq] at ht; cases ht), fun q' hq' => ?_⟩
      rw [hq] at hq'
      cases hq'
      refine ⟨ihc, fun hflat => ?_⟩
      obtain ⟨g, hg, hga, hgb⟩ := hflat
      unfold StructDef.hasFlat at h4
      rw [List.any_eq_false] at h4
      exact (h4 g hg (by simp [hga, hgb])).elim
    · rw [decode_struct hp _ _ _ _ h4, decode_struct hp _ _ _ _ h4]
      refine E.bind (E.refl _) fun ca => E.bind ?_ fun ck => E.refl _
      exact kidContribs_mid E L (decodeN L env k) d hi hf hq ihe
  | @variant p q d i v t n cn as m cas cas' cm cm' cks cks' pre post hp hi hv hs hq _ ih =>
    have hnfor : ∀ as m ks, ¬ (Node.elem cn as m ks).foreign d := by
      intro as m ks h
      rw [Node.foreign, hi] at h
      cases h.1
    rw [conf_eq, ConfWith, hp] at hc
    obtain ⟨h2, ⟨h1, h3, h4⟩ | ⟨h4, -⟩⟩ := hc
    rotate_left
    · simp at h4
    have hof : d.variantOf n as = none := by simp [EnumDef.variantOf, EnumDef.keyOf, h1, h3]
    rcases h4 with ⟨i', v', h4, -⟩ | h4
    · rw [unitByText_elem] at h4; cases h4
    have hcq : Conf L env k (.elem cn cas cm cks) q := by
      have := confVariants_iff.mp h4 (.elem cn cas cm cks) (by simp)
      rw [ConfVariant] at this
      rcases this with h | ⟨i', v', t', hi', hv', hs', h⟩
      · exact (hnfor _ _ _ h).elim
      rw [hi] at hi'; cases hi'
      rw [hv] at hv'; cases hv'
      rw [hs] at hs'; cases hs'
      rcases h with ⟨s, hs', -⟩ | ⟨q', hq', h⟩
      · rw [hq] at hs'; cases hs'
      · rw [hq] at hq'; cases hq'; rw [conf_eq]; exact h
    obtain ⟨ihc, ihe⟩ := ih hcq
    constructor
    · rw [conf_eq, ConfWith, hp]
      refine ⟨h2, .inl ⟨h1, h3, .inr ?_⟩⟩
      rw [confVariants_iff] at h4 ⊢
      intro k hk
      rcases List.mem_append.mp hk with hk | hk
      · exact h4 k (by simp [hk])
      rcases List.mem_cons.mp hk with rfl | hk
      · rw [ConfVariant]
        rw [conf_eq] at ihc
        exact .inr ⟨i, v, t, hi, hv, hs, .inr ⟨q, hq, ihc⟩⟩
      · exact h4 k (by simp [hk])
    · rw [decodeN_eq] at ihe ⊢
      rw [decodeWith, decodeWith, hp]
      dsimp only
      unfold decodeEnum
      rw [unitByText_elem, unitByText_elem, hof]
      dsimp only
      refine E.bind ?_ fun _ => E.refl _
      simp only [decodeL_map, zip_map_self]
      exact variantKids_mid E L d _ hi hv hs hq ihe none

/-! ### Local changes -/

theorem fieldFor_none {d : StructDef} {n : Name} (h : ∀ f ∈ d.fields, ¬ f.claims d.attrs n) :
    d.fieldFor n = none := by
  unfold StructDef.fieldFor
  rw [List.findIdx?_eq_none_iff]
  intro f hf
  simpa using h f hf

theorem kidContribs_insert (L : Lib) (dec : Node → Path → Res Val) (d : StructDef) (pre post : List Node)
    (k : Node) (hk : kidContrib L d (dec k) k = .ok []) :
    kidContribs L d (pre ++ k :: post) ((pre ++ k :: post).map dec)
      = kidContribs L d (pre ++ post) ((pre ++ post).map dec) := by
  rw [kidContribs_raw, kidContribs_raw]
  have hr : rawKid L dec d k = [] := by
    have h1 := kidContrib_raw L dec d k
    rw [hk] at h1
    have := collectRaw_iff.mp h1.symm
    simpa using this
  simp [rawKids, hr]

theorem insertUnknown_dec (L : Lib) (env : Env) (k : Nat) (p : Path) (d : StructDef) (x y : Node)
    (hp : env p = some (.struct d)) (h : InsertUnknown d x y) (h4 : d.hasFlat = false) :
    decodeN L env k x p = decodeN L env k y p := by
  obtain ⟨n, as, m, pre, post, un, uas, um, uks, rfl, rfl, hun, hns⟩ := h
  have hff := fieldFor_none hun
  rw [decode_struct hp _ _ _ _ h4, decode_struct hp _ _ _ _ h4, kidContribs_insert]
  simp [kidContrib, hff]

theorem insertUnknown_local (L : Lib) (env : Env) (k : Nat) (p : Path) (d : StructDef) (x y : Node)
    (hp : env p = some (.struct d)) (h : InsertUnknown d x y) (hc : Conf L env k x p) :
    Conf L env k y p ∧ decodeN L env k x p = decodeN L env k y p := by
  obtain ⟨n, as, m, pre, post, un, uas, um, uks, rfl, rfl, hun, hns⟩ := h
  obtain ⟨h1, h2, h3, h4, h5⟩ := (conf_struct hp).mp hc
  have hff := fieldFor_none hun
  constructor
  · refine (conf_struct hp).mpr ⟨h1, h2, ?_, h4, h5⟩
    rw [confKids_append] at h3 ⊢
    refine ⟨h3.1, ?_⟩
    rw [ConfKids, ConfKid]
    exact ⟨⟨hns, fun i f hi => by rw [hff] at hi; cases hi⟩, h3.2⟩
  · exact insertUnknown_dec L env k p d _ _ hp ⟨n, as, m, pre, post, un, uas, um, uks, rfl, rfl, hun, hns⟩ h4

theorem removeMalformed_dec (L : Lib) (env : Env) (k : Nat) (p : Path) (d : StructDef) (x y : Node)
    (hp : env p = some (.struct d)) (h : RemoveMalformed L d x y) (h4 : d.hasFlat = false) :
    decodeN L env k x p = decodeN L env k y p := by
  obtain ⟨n, as, m, pre, post, cn, cas, cm, cks, i, f, t, rfl, rfl, hi, hf, ht, hbad⟩ := h
  rw [decode_struct hp _ _ _ _ h4, decode_struct hp _ _ _ _ h4, kidContribs_insert]
  simp only [kidContrib, hi, hf, ht]
  have : scalarContent L t cks = none := by
    rcases hbad with rfl | ⟨s, e, rfl, he⟩
    · rfl
    · simp [scalarContent, he]
  rw [this]
  rfl

theorem removeMalformed_local (L : Lib) (env : Env) (k : Nat) (p : Path) (d : StructDef) (x y : Node)
    (hp : env p = some (.struct d)) (h : RemoveMalformed L d x y) (hc : Conf L env k x p) :
    Conf L env k y p ∧ decodeN L env k x p = decodeN L env k y p := by
  obtain ⟨n, as, m, pre, post, cn, cas, cm, cks, i, f, t, rfl, rfl, hi, hf, ht, hbad⟩ := h
  obtain ⟨h1, h2, h3, h4, h5⟩ := (conf_struct hp).mp hc
  constructor
  · refine (conf_struct hp).mpr ⟨h1, h2, ?_, h4, h5⟩
    rw [confKids_append] at h3 ⊢
    rw [ConfKids] at h3
    exact ⟨h3.1, h3.2.2⟩
  · exact removeMalformed_dec L env k p d _ _ hp
      ⟨n, as, m, pre, post, cn, cas, cm, cks, i, f, t, rfl, rfl, hi, hf, ht, hbad⟩ h4

theorem flatMap_filter {α β : Type} (g : α → List β) (p : α → Bool) (as : List α)
    (h : ∀ a ∈ as, p a = false → g a = []) : as.flatMap g = (as.filter p).flatMap g := by
  induction as with
  | nil => rfl
  | cons a as ih =>
    have ih := ih fun a ha => h a (List.mem_cons_of_mem _ ha)
    rw [List.filter_cons]
    split
    · simp [ih]
    · rename_i hp
      rw [List.flatMap_cons, h a (List.mem_cons_self ..) (by simpa using hp), ih]
      rfl

theorem permuted_inputs (L : Lib) (dec : Node → Path → Res Val) (d : StructDef) {ks ks' : List Node}
    (hperm : ks.Perm ks')
    (hlab : ∀ l, ks.filter (fun k => k.label = l) = ks'.filter (fun k => k.label = l))
    (htext : ∀ cn cas cm cks, Node.elem cn cas cm cks ∈ ks → ∀ f ∈ d.fields, f.attrs.text = true →
      ¬ f.claims d.attrs cn) (i : Nat) (f : FieldDef) (hf : d.fields[i]? = some f) :
    ks.flatMap (kidInputs L dec d i f) = ks'.flatMap (kidInputs L dec d i f) := by
  have hclaim : ∀ {n : Name}, d.fieldFor n = some i → f.claims d.attrs n := by
    intro n h
    obtain ⟨g, hg, -, hc⟩ := fieldFor_some h
    rw [hf] at hg
    cases hg
    exact hc
  by_cases ht : f.attrs.text = true
  · -- only texts count
    have key : ∀ l : List Node, (∀ k ∈ l, k ∈ ks) →
        l.flatMap (kidInputs L dec d i f) = (l.filter fun k => k.label = none).flatMap (kidInputs L dec d i f) := by
      intro l hl
      refine flatMap_filter _ _ _ fun k hk hlk => ?_
      cases k with
      | text s => simp [Node.label] at hlk
      | elem n as m kids =>
        simp only [kidInputs]
        rw [if_neg]
        intro hfi
        exact htext n as m kids (hl _ hk) f (List.mem_of_getElem? hf) ht (hclaim hfi)
    rw [key ks (fun k h => h), key ks' (fun k h => hperm.mem_iff.mpr h), hlab]
  · -- only the elements with the field's name count
    let l : Option (Str × Str) := some (f.attrs.rename.getD f.ident, (d.attrs.namespaces.find f.attrs.pfx).getD [])
    have key : ∀ ks : List Node,
        ks.flatMap (kidInputs L dec d i f) = (ks.filter fun k => k.label = l).flatMap (kidInputs L dec d i f) := by
      intro ks
      refine flatMap_filter _ _ _ fun k hk hlk => ?_
      cases k with
      | text s => simp [kidInputs, ht]
      | elem n as m kids =>
        simp only [kidInputs]
        rw [if_neg]
        intro hfi
        obtain ⟨-, hns, hloc⟩ := hclaim hfi
        simp [Node.label, l, hns, hloc] at hlk
    rw [key ks, key ks', hlab]

theorem permuted_dec (L : Lib) (env : Env) (k : Nat) (p : Path) (d : StructDef) (x y : Node)
    (hp : env p = some (.struct d)) (h : Permuted d x y) (h4 : d.hasFlat = false) :
    ∀ v, decodeN L env k x p = .ok v ↔ decodeN L env k y p = .ok v := by
  obtain ⟨n, as, m, ks, ks', rfl, rfl, hperm, hlab, htext⟩ := h
  intro v
  rw [decodeN_struct_ok_iff L env k p d hp, decodeN_struct_ok_iff L env k p d hp]
  have hfl : ∀ f ∈ d.fields, ∀ g : Path → Res Val, flatInputs g f = [] := by
    intro f hf g
    unfold StructDef.hasFlat at h4
    rw [List.any_eq_false] at h4
    unfold flatInputs
    rw [if_neg (h4 f hf)]
  have : ∀ (i : Nat) (f : FieldDef), d.fields[i]? = some f →
      fieldInputs L (decodeN L env k) (flatN L env k) d n as m ks i f
        = fieldInputs L (decodeN L env k) (flatN L env k) d n as m ks' i f := by
    intro i f hf
    unfold fieldInputs
    rw [hfl f (List.mem_of_getElem? hf), hfl f (List.mem_of_getElem? hf),
      permuted_inputs L _ d hperm hlab htext i f hf]
  constructor
  · rintro ⟨vs, hv, hl, h⟩
    exact ⟨vs, hv, hl, fun i f v hf hv => by rw [← this i f hf]; exact h i f v hf hv⟩
  · rintro ⟨vs, hv, hl, h⟩
    exact ⟨vs, hv, hl, fun i f v hf hv => by rw [this i f hf]; exact h i f v hf hv⟩

theorem permuted_local (L : Lib) (env : Env) (k : Nat) (p : Path) (d : StructDef) (x y : Node)
    (hp : env p = some (.struct d)) (h : Permuted d x y) (hc : Conf L env k x p) :
    Conf L env k y p ∧ ∀ v, decodeN L env k x p = .ok v ↔ decodeN L env k y p = .ok v := by
  obtain ⟨n, as, m, ks, ks', rfl, rfl, hperm, hlab, htext⟩ := h
  obtain ⟨h1, h2, h3, h4, h5⟩ := (conf_struct hp).mp hc
  constructor
  · refine (conf_struct hp).mpr ⟨h1, h2, ?_, h4, h5⟩
    rw [confKids_iff] at h3 ⊢
    exact fun k hk => h3 k (hperm.mem_iff.mpr hk)
  · exact permuted_dec L env k p d _ _ hp ⟨n, as, m, ks, ks', rfl, rfl, hperm, hlab, htext⟩ h4

end Yaserde
