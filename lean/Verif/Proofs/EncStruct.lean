import Verif.Proofs.EncField
/-
The encoding of a struct that survives a round trip.
-/

set_option autoImplicit false

namespace Yaserde

open Classical

theorem zip_get {α β γ : Type} {g : α → β → γ} {as : List α} {bs : List β} {i : Nat} {c : γ}
    (h : (List.zipWith g as bs)[i]? = some c) : ∃ a b, as[i]? = some a ∧ bs[i]? = some b ∧ g a b = c := by
  rw [List.getElem?_zipWith] at h
  cases ha : as[i]? with
  | none => rw [ha] at h; simp at h
  | some a =>
    cases hb : bs[i]? with
    | none => rw [ha, hb] at h; simp at h
    | some b => rw [ha, hb] at h; exact ⟨a, b, rfl, rfl, by simpa using h⟩

theorem get_zip {α β γ : Type} (g : α → β → γ) {as : List α} {bs : List β} {i : Nat} {a : α} {b : β}
    (ha : as[i]? = some a) (hb : bs[i]? = some b) : (List.zipWith g as bs)[i]? = some (g a b) := by
  rw [List.getElem?_zipWith, ha, hb]

theorem mem_zip_flatten {α β γ : Type} {g : α → β → List γ} {as : List α} {bs : List β} {x : γ}
    (h : x ∈ (List.zipWith g as bs).flatten) : ∃ (i : Nat) (a : α) (b : β), as[i]? = some a ∧ bs[i]? = some b ∧ x ∈ g a b := by
  obtain ⟨l, hl, hx⟩ := List.mem_flatten.mp h
  obtain ⟨i, hi⟩ := List.getElem?_of_mem hl
  obtain ⟨a, b, ha, hb, rfl⟩ := zip_get hi
  exact ⟨i, a, b, ha, hb, hx⟩

/-- Of what all fields contribute, only one field's part is selected. -/
theorem filter_zip_unique {α β γ : Type} (g : α → β → List γ) (R : γ → Bool) (as : List α) (bs : List β) (i : Nat) (a : α) (b : β)
    (ha : as[i]? = some a) (hb : bs[i]? = some b)
    (h : ∀ (j : Nat) (a' : α) (b' : β) (x : γ), as[j]? = some a' → bs[j]? = some b' → x ∈ g a' b' → R x = true → j = i) :
    (List.zipWith g as bs).flatten.filter R = (g a b).filter R := by
  rw [filter_flatten_unique R _ i, get_zip g ha hb]
  · rfl
  · intro j c x hj hx hR
    obtain ⟨a', b', ha', hb', rfl⟩ := zip_get hj
    exact h j a' b' x ha' hb' hx hR

theorem fieldFor_of_claims {env : Env} {d : StructDef} {G : NsMap} (hrt : StructRt env G d) {i : Nat} {f : FieldDef} {n : Name}
    (hf : d.fields[i]? = some f) (hc : f.claims d.attrs n) : d.fieldFor n = some i := by
  cases h : d.fieldFor n with
  | none =>
    unfold StructDef.fieldFor at h
    rw [List.findIdx?_eq_none_iff] at h
    have := h f (List.mem_of_getElem? hf)
    simp [hc] at this
  | some j =>
    obtain ⟨g, hg, -, hgc⟩ := fieldFor_some h
    rw [hrt.disjoint i j f g (.elem n) hf hg (.inl hc) (.inl hgc)]

/-- All fields of a struct. -/
structure AllFieldsOk (L : Lib) (env : Env) (G sc : NsMap) (d : StructDef) (fs : List Val) : Prop where
  rt : StructRt env G d
  len : fs.length = d.fields.length
  field : ∀ (i : Nat) (f : FieldDef) (v : Val), d.fields[i]? = some f → fs[i]? = some v →
    FieldOk L env G sc d (.struct fs) f v

section

variable {L : Lib} {env : Env} {G sc : NsMap} {d : StructDef} {fs : List Val}

/-- The attributes of the element. -/
def allAttrs (L : Lib) (env : Env) (d : StructDef) (fs : List Val) : List Attr :=
  encOwn L env d.attrs (.struct fs) d.fields fs ++ encInherited L env d.fields fs

theorem AllFieldsOk.attrs_mem (h : AllFieldsOk L env G sc d fs) {a : Attr} (ha : a ∈ allAttrs L env d fs) :
    ∃ (i : Nat) (f : FieldDef) (v : Val), d.fields[i]? = some f ∧ fs[i]? = some v ∧
      a ∈ encOwn L env d.attrs (.struct fs) [f] [v] ++ encInherited L env [f] [v] := by
  unfold allAttrs at ha
  rw [encOwn_zip, encInherited_zip] at ha
  rcases List.mem_append.mp ha with ha | ha
  · obtain ⟨i, f, v, hf, hv, hx⟩ := mem_zip_flatten ha
    exact ⟨i, f, v, hf, hv, List.mem_append_left _ hx⟩
  · obtain ⟨i, f, v, hf, hv, hx⟩ := mem_zip_flatten ha
    exact ⟨i, f, v, hf, hv, List.mem_append_right _ hx⟩

theorem AllFieldsOk.attrs_filter (h : AllFieldsOk L env G sc d fs) (R : Str → Bool) (i : Nat) (f : FieldDef) (v : Val)
    (hf : d.fields[i]? = some f) (hv : fs[i]? = some v)
    (hR : ∀ (j : Nat) (g : FieldDef) (l : Str), d.fields[j]? = some g → FieldTakes env d g (.attr l) → R l = true → j = i) :
    (allAttrs L env d fs).filter (fun a => R (attrLoc sc a)) =
      (encOwn L env d.attrs (.struct fs) [f] [v] ++ encInherited L env [f] [v]).filter (fun a => R (attrLoc sc a)) := by
  unfold allAttrs
  rw [List.filter_append, List.filter_append, encOwn_zip, encInherited_zip]
  rw [filter_zip_unique _ _ _ _ i f v hf hv, filter_zip_unique _ _ _ _ i f v hf hv]
  · intro j g w a hg hw ha hRa
    exact hR j g _ hg ((h.field j g w hg hw).attrs a (List.mem_append_right _ ha)).2.2 hRa
  · intro j g w a hg hw ha hRa
    exact hR j g _ hg ((h.field j g w hg hw).attrs a (List.mem_append_left _ ha)).2.2 hRa

theorem AllFieldsOk.locs (h : AllFieldsOk L env G sc d fs) : ((allAttrs L env d fs).map (attrLoc sc)).Nodup := by
  have key : ∀ l, ((allAttrs L env d fs).filter (fun a => decide (attrLoc sc a = l))).length ≤ 1 := by
    intro l
    by_cases hex : ∃ a ∈ allAttrs L env d fs, attrLoc sc a = l
    · obtain ⟨a, ha, hl⟩ := hex
      obtain ⟨i, f, v, hf, hv, hm⟩ := h.attrs_mem ha
      have hF := h.field i f v hf hv
      have htk := (hF.attrs a hm).2.2
      rw [hl] at htk
      rw [h.attrs_filter (fun x => decide (x = l)) i f v hf hv]
      · have hnd := hF.locs
        have : ((encOwn L env d.attrs (.struct fs) [f] [v] ++ encInherited L env [f] [v]).filter
            (fun a => decide (attrLoc sc a = l))).map (attrLoc sc) =
            (((encOwn L env d.attrs (.struct fs) [f] [v] ++ encInherited L env [f] [v]).map (attrLoc sc)).filter
              (fun x => decide (x = l))) := by
          rw [List.filter_map]; rfl
        rw [← List.length_map (attrLoc sc), this]
        have hn2 := hnd.filter (fun x => decide (x = l))
        have hall : ∀ x ∈ (((encOwn L env d.attrs (.struct fs) [f] [v] ++ encInherited L env [f] [v]).map (attrLoc sc)).filter
              (fun x => decide (x = l))), x = l := by
          intro x hx; simpa using (List.mem_filter.mp hx).2
        revert hn2 hall
        generalize (((encOwn L env d.attrs (.struct fs) [f] [v] ++ encInherited L env [f] [v]).map (attrLoc sc)).filter
              (fun x => decide (x = l))) = ls
        intro hn2 hall
        match ls with
        | [] => simp
        | [x] => simp
        | x :: y :: r =>
          have h1 := hall x (by simp)
          have h2 := hall y (by simp)
          simp [h1, h2] at hn2
      · intro j g l' hg ht hl'
        have : l' = l := by simpa using hl'
        subst this
        exact h.rt.disjoint j i g f _ hg hf ht htk
    · have : (allAttrs L env d fs).filter (fun a => decide (attrLoc sc a = l)) = [] := by
        rw [List.filter_eq_nil_iff]
        intro a ha hl
        exact hex ⟨a, ha, by simpa using hl⟩
      rw [this]; simp
  revert key
  generalize allAttrs L env d fs = as
  intro key
  induction as with
  | nil => simp
  | cons a as ih =>
    rw [List.map_cons, List.nodup_cons]
    refine ⟨?_, ih ?_⟩
    · intro hm
      obtain ⟨b, hb, hbl⟩ := List.mem_map.mp hm
      have := key (attrLoc sc a)
      rw [List.filter_cons_of_pos (by simp)] at this
      have h2 : b ∈ as.filter (fun x => decide (attrLoc sc x = attrLoc sc a)) := List.mem_filter.mpr ⟨hb, by simp [hbl]⟩
      have h3 := List.length_pos_of_mem h2
      simp only [List.length_cons] at this
      omega
    · intro l
      have := key l
      rw [List.filter_cons] at this
      split at this
      · simp only [List.length_cons] at this; omega
      · exact this

theorem AllFieldsOk.attrsOk (h : AllFieldsOk L env G sc d fs) : AttrsOk sc (allAttrs L env d fs) := by
  refine ⟨?_, ?_, ?_⟩
  · intro a ha
    obtain ⟨i, f, v, hf, hv, hm⟩ := h.attrs_mem ha
    exact ((h.field i f v hf hv).attrs a hm).1
  · intro a ha
    obtain ⟨i, f, v, hf, hv, hm⟩ := h.attrs_mem ha
    exact ((h.field i f v hf hv).attrs a hm).2.1
  · have := h.locs
    have e : (allAttrs L env d fs).map (attrLoc sc) =
        ((allAttrs L env d fs).map fun a => a.name.raw).map fun r => (readAttrName sc r).loc := by
      rw [List.map_map]; rfl
    rw [e] at this
    exact List.Pairwise.of_map _ (fun a b hab e => hab (by rw [e])) this

theorem AllFieldsOk.kids_mem (h : AllFieldsOk L env G sc d fs) {k : WNode}
    (hk : k ∈ encFields L env d.attrs (.struct fs) d.fields fs) :
    ∃ (i : Nat) (f : FieldDef) (v : Val), d.fields[i]? = some f ∧ fs[i]? = some v ∧ k ∈ encFields L env d.attrs (.struct fs) [f] [v] := by
  rw [encFields_zip] at hk
  exact mem_zip_flatten hk

theorem backs_zip (L : Lib) (env : Env) (sc : NsMap) (d : StructDef) (fs : List Val) :
    backs sc (encFields L env d.attrs (.struct fs) d.fields fs) =
      (List.zipWith (fun f v => backs sc (encFields L env d.attrs (.struct fs) [f] [v])) d.fields fs).flatten := by
  rw [encFields_zip, backs_flatten, List.map_zipWith]

theorem AllFieldsOk.backs_mem (h : AllFieldsOk L env G sc d fs) {k : Node}
    (hk : k ∈ backs sc (encFields L env d.attrs (.struct fs) d.fields fs)) :
    ∃ (i : Nat) (f : FieldDef) (v : Val), d.fields[i]? = some f ∧ fs[i]? = some v ∧ k ∈ backs sc (encFields L env d.attrs (.struct fs) [f] [v]) := by
  rw [backs_zip] at hk
  exact mem_zip_flatten hk

theorem AllFieldsOk.backs_filter (h : AllFieldsOk L env G sc d fs) (R : Node → Bool) (i : Nat) (f : FieldDef) (v : Val)
    (hf : d.fields[i]? = some f) (hv : fs[i]? = some v)
    (hR : ∀ (j : Nat) (g : FieldDef) (k : Node), d.fields[j]? = some g → FieldTakes env d g k.item → R k = true → j = i) :
    (backs sc (encFields L env d.attrs (.struct fs) d.fields fs)).filter R =
      (backs sc (encFields L env d.attrs (.struct fs) [f] [v])).filter R := by
  rw [backs_zip, filter_zip_unique _ _ _ _ i f v hf hv]
  intro j g w k hg hw hk hRk
  exact hR j g k hg ((h.field j g w hg hw).takesKid k hk) hRk

theorem AllFieldsOk.one (h : AllFieldsOk L env G sc d fs) :
    (wtexts (encFields L env d.attrs (.struct fs) d.fields fs)).length ≤ 1 := by
  rw [encFields_zip, wtexts_flatten, List.map_zipWith]
  refine flatten_le_one _ ?_ ?_
  · intro b hb
    obtain ⟨i, hi⟩ := List.getElem?_of_mem hb
    obtain ⟨f, v, hf, hv, rfl⟩ := zip_get hi
    exact (h.field i f v hf hv).one
  · intro i j b c hi hj hb hc
    obtain ⟨f, v, hf, hv, rfl⟩ := zip_get hi
    obtain ⟨g, w, hg, hw, rfl⟩ := zip_get hj
    exact h.rt.disjoint i j f g .text hf hg ((h.field i f v hf hv).takesText hb) ((h.field j g w hg hw).takesText hc)

theorem AllFieldsOk.takesText (h : AllFieldsOk L env G sc d fs) {p : Path} (hp : env p = some (.struct d))
    (hne : wtexts (encFields L env d.attrs (.struct fs) d.fields fs) ≠ []) : ∃ f ∈ d.fields, FieldTakes env d f .text := by
  rw [encFields_zip, wtexts_flatten, List.map_zipWith] at hne
  obtain ⟨x, hx⟩ := List.exists_mem_of_ne_nil _ hne
  obtain ⟨i, f, v, hf, hv, hm⟩ := mem_zip_flatten hx
  exact ⟨f, List.mem_of_getElem? hf, (h.field i f v hf hv).takesText (List.ne_nil_of_mem hm)⟩

theorem takes_of_field {p : Path} (hp : env p = some (.struct d)) {f : FieldDef} (hf : f ∈ d.fields) {it : Item}
    (h : FieldTakes env d f it) : Takes env p it := by
  rcases h with h | ⟨hfl, q, hty, h⟩
  · exact .own p d f it hp hf h
  · exact .flat p d f q it hp hf hfl hty h

theorem ntexts_filter (ks : List Node) : ntexts ks = ntexts (ks.filter fun k => match k with | .text _ => true | _ => false) := by
  induction ks with
  | nil => rfl
  | cons k ks ih =>
    rw [List.filter_cons, ntexts_cons, ih]
    cases k with
    | text s => simp only [if_true]; rw [← ntexts_cons]
    | elem => simp; rfl

theorem matching_none (d : StructDef) (i : Nat) (ks : List Node) (h : ∀ k ∈ ks, k.item = .text) : matching d i ks = [] := by
  unfold matching
  rw [List.filter_eq_nil_iff]
  intro k hk
  have := h k hk
  cases k with
  | text => simp
  | elem => simp [Node.item] at this

theorem AllFieldsOk.matching (h : AllFieldsOk L env G sc d fs) (i : Nat) (f : FieldDef) (v : Val)
    (hf : d.fields[i]? = some f) (hv : fs[i]? = some v) :
    matching d i (backs sc (encFields L env d.attrs (.struct fs) d.fields fs)) =
      Yaserde.matching d i (backs sc (encFields L env d.attrs (.struct fs) [f] [v])) := by
  refine h.backs_filter _ i f v hf hv ?_
  intro j g k hg ht hR
  cases k with
  | text => simp at hR
  | elem n as m kk =>
    have hR' : d.fieldFor n = some i := by simpa using hR
    obtain ⟨f', hf', -, hc⟩ := fieldFor_some hR'
    exact h.rt.disjoint j i g f' (.elem n) hg hf' ht (.inl hc)

theorem matching_kids (hrt : StructRt env G d) {i : Nat} {f : FieldDef} (hf : d.fields[i]? = some f) {ks : List Node} {ws : List Val}
    (hk : List.Forall₂ (KidOf L env d f) ks ws) : matching d i ks = ks := by
  unfold Yaserde.matching
  rw [List.filter_eq_self]
  intro k hm
  obtain ⟨j, hj⟩ := List.getElem?_of_mem hm
  obtain ⟨hlt, e⟩ := List.getElem?_eq_some_iff.mp hj
  have hlt2 : j < ws.length := by rw [← hk.length_eq]; exact hlt
  have hkid := List.Forall₂.get hk hlt hlt2
  obtain ⟨n, as, m, kk, e2, hc⟩ := hkid.claimed
  have e3 : k = .elem n as m kk := by rw [← e2, ← e]; rfl
  subst e3
  simp only [decide_eq_true_eq]
  exact fieldFor_of_claims hrt hf hc

/-- The element of a struct shows its value. -/
theorem AllFieldsOk.view (h : AllFieldsOk L env G sc d fs) {p : Path} (hp : env p = some (.struct d)) (n : Name) (m : NsMap)
    (hn : Fits env p n) :
    View L env p (.struct fs)
      (.elem n (readAttrs sc (allAttrs L env d fs)) m (backs sc (encFields L env d.attrs (.struct fs) d.fields fs))) := by
  -- what each field is made from
  have hex : ∀ i : Nat, ∃ wt : List Val × (Str → Node) × (Str → Val), ∀ (f : FieldDef) (v : Val),
      d.fields[i]? = some f → fs[i]? = some v →
      fieldValue d.name f wt.1 = .ok v ∧
      (f.attrs.isAttr = true → encFields L env d.attrs (.struct fs) [f] [v] = [] ∧
        ((encOwn L env d.attrs (.struct fs) [f] [v] ++ encInherited L env [f] [v]).flatMap
          fun a => attrWords L (fun _ s => .ok (wt.2.2 s)) f.ty a.value) = wt.1.map .ok ∧
        AttrDocs L env f (encOwn L env d.attrs (.struct fs) [f] [v] ++ encInherited L env [f] [v]) wt.2.1 wt.2.2) ∧
      (f.attrs.text = true → (ntexts (backs sc (encFields L env d.attrs (.struct fs) [f] [v]))).map Val.str = wt.1 ∧
        ∀ k ∈ backs sc (encFields L env d.attrs (.struct fs) [f] [v]), k.item = .text) ∧
      (f.isElem = true → f.attrs.text = false →
        List.Forall₂ (KidOf L env d f) (backs sc (encFields L env d.attrs (.struct fs) [f] [v])) wt.1) ∧
      (f.isFlat → wt.1 = [v] ∧ ∀ q, f.ty = .struct q →
        encOwn L env d.attrs (.struct fs) [f] [v] ++ encInherited L env [f] [v] = encTyAttrs L env q v ∧
        encFields L env d.attrs (.struct fs) [f] [v] = encTy L env .inner q v ∧ EncIn L env G sc q v) := by
    intro i
    cases hf : d.fields[i]? with
    | none => exact ⟨⟨[], fun _ => .text [], fun _ => .none⟩, by intro f v h; cases h⟩
    | some f =>
      cases hv : fs[i]? with
      | none => exact ⟨⟨[], fun _ => .text [], fun _ => .none⟩, by intro f v _ h; cases h⟩
      | some v =>
        obtain ⟨ws, ya, wa, hws⟩ := (h.field i f v hf hv).reads
        refine ⟨⟨ws, ya, wa⟩, ?_⟩
        intro f' v' e1 e2
        cases e1; cases e2; exact hws
  obtain ⟨tri, hins⟩ := Classical.axiomOfChoice hex
  have hlab : ∀ (i : Nat) (f : FieldDef) (v : Val), d.fields[i]? = some f → fs[i]? = some v → f.attrs.isAttr = true →
      (readAttrs sc (allAttrs L env d fs)).filter (fun a => decide (a.name.loc = f.label)) =
        (encOwn L env d.attrs (.struct fs) [f] [v] ++ encInherited L env [f] [v]).map
          (fun a => ⟨readAttrName sc a.name.raw, a.value⟩) := by
    intro i f v hf hv ha
    have e1 : (readAttrs sc (allAttrs L env d fs)).filter (fun a => decide (a.name.loc = f.label)) =
        ((allAttrs L env d fs).filter (fun a => decide (attrLoc sc a = f.label))).map
          (fun a => ⟨readAttrName sc a.name.raw, a.value⟩) := by
      unfold readAttrs
      rw [List.filter_map]; rfl
    rw [e1, h.attrs_filter (fun l => decide (l = f.label)) i f v hf hv, List.filter_eq_self.mpr]
    · intro a hm
      have := ((h.field i f v hf hv).attrs a hm).2.2
      rcases this with h3 | ⟨h3, -⟩
      · simp [h3.2]
      · have := h3.1; rw [ha] at this; cases this
    · intro j g l hg ht hl
      have : l = f.label := by simpa using hl
      subst this
      exact h.rt.disjoint j i g f _ hg hf ht (.inl ⟨ha, rfl⟩)
  have hdocs : ∀ (i : Nat) (f : FieldDef) (q : Path) (a : Attr) (s : Str), d.fields[i]? = some f →
      f.attrs.isAttr = true → f.ty.core = .struct q → a ∈ readAttrs sc (allAttrs L env d fs) → a.name.loc = f.label →
      s ∈ f.ty.attrTexts a.value →
      (∃ y, IsDoc (L.parse (attrDoc q s)) y ∧ y.strip = ((tri i).2.1 s).strip ∧ (∃ G, NsTable G ∧ y.Clean G) ∧
        ∀ d', env q = some (.struct d') → nsOk d'.attrs y.name) ∧ View L env q ((tri i).2.2 s) ((tri i).2.1 s) := by
    intro i f q a s hf ha hq hm hl hs
    obtain ⟨v, hv⟩ : ∃ v, fs[i]? = some v :=
      ⟨_, List.getElem?_eq_getElem (by rw [h.len]; exact (List.getElem?_eq_some_iff.mp hf).1)⟩
    have hm2 : a ∈ (readAttrs sc (allAttrs L env d fs)).filter (fun a => decide (a.name.loc = f.label)) := by
      simp [hm, hl]
    rw [hlab i f v hf hv ha, List.mem_map] at hm2
    obtain ⟨b, hb, rfl⟩ := hm2
    exact ((hins i f v hf hv).2.1 ha).2.2 q hq b hb s hs
  have hget : ∀ (i : Nat) (f : FieldDef), d.fields[i]? = some f → ∃ v, fs[i]? = some v := by
    intro i f hf
    have : i < fs.length := by rw [h.len]; exact (List.getElem?_eq_some_iff.mp hf).1
    exact ⟨_, List.getElem?_eq_getElem this⟩
  obtain ⟨hname, hnsf, hfits⟩ : ((n.loc = d.attrs.rename.getD d.name ∧
          n.ns.getD [] = (d.attrs.namespaces.find d.attrs.pfx).getD []) ∨ d.fieldFor n = none) ∧
      (∀ f ∈ d.fields, f.isFlat → ∀ q d', f.ty = .struct q → env q = some (.struct d') → nsOk d'.attrs n) ∧
      (∀ f ∈ d.fields, f.isFlat → ∀ q, f.ty = .struct q → Fits env q n) := by
    cases hn with
    | struct _ d2 _ hp' h1 h2 h3 => rw [hp] at hp'; cases hp'; exact ⟨h1, h2, h3⟩
    | enum _ d2 _ hp' => rw [hp] at hp'; cases hp'
    | prim _ d2 _ hp' => rw [hp] at hp'; cases hp'
  refine View.struct p d n _ m _ fs (fun i => (tri i).1)
    (fun i => match d.fields[i]?, fs[i]? with
      | some f, some v =>
        match f.ty with
        | .struct q => .elem n (readAttrs sc (encTyAttrs L env q v)) m (backs sc (encTy L env .inner q v))
        | _ => .text []
      | _, _ => .text [])
    (fun i s => (tri i).2.1 s) (fun i s => (tri i).2.2 s)
    hp h.rt.plain h.len hname ?_ ?_ ?_ ?_ ?_ ?_ ?_ ?_ ?_
    (fun i f q a s hf ha hq hm hl hs => (hdocs i f q a s hf ha hq hm hl hs).1)
    (fun i f q a s hf ha hq hm hl hs => (hdocs i f q a s hf ha hq hm hl hs).2)
  · -- values
    intro i f v hf hv
    exact (hins i f v hf hv).1
  · -- attributes
    intro i f hf ha
    obtain ⟨v, hv⟩ := hget i f hf
    refine ⟨?_, ?_⟩
    · by_contra ht
      have := (h.rt.text f (List.mem_of_getElem? hf) (by simpa using ht)).1
      rw [ha] at this; cases this
    · obtain ⟨-, h2, -⟩ := (hins i f v hf hv).2.1 ha
      rw [← h2, hlab i f v hf hv ha, List.flatMap_map]
  · -- text
    intro i f hf ht
    obtain ⟨v, hv⟩ := hget i f hf
    obtain ⟨h1, h2⟩ := (hins i f v hf hv).2.2.1 ht
    have ht2 := h.rt.text f (List.mem_of_getElem? hf) ht
    refine ⟨by simp [FieldDef.isElem, ht2.1, ht2.2], ?_, ?_⟩
    · rw [← h1]
      congr 1
      rw [ntexts_filter, h.backs_filter _ i f v hf hv, ← ntexts_filter]
      intro j g k hg htk hR
      cases k with
      | elem => simp at hR
      | text s => exact h.rt.disjoint j i g f .text hg hf htk (.inl ht)
    · rw [h.matching i f v hf hv]
      exact matching_none _ _ _ h2
  · -- number of children
    intro i f hf he ht
    obtain ⟨v, hv⟩ := hget i f hf
    have hk := (hins i f v hf hv).2.2.2.1 he ht
    rw [h.matching i f v hf hv, matching_kids h.rt hf hk]
    exact hk.length_eq
  · -- scalars
    intro i f t j kid w hf he ht hcore hkid hw
    obtain ⟨v, hv⟩ := hget i f hf
    have hk := (hins i f v hf hv).2.2.2.1 he ht
    rw [h.matching i f v hf hv, matching_kids h.rt hf hk] at hkid
    obtain ⟨l1, e1⟩ := List.getElem?_eq_some_iff.mp hkid
    obtain ⟨l2, e2⟩ := List.getElem?_eq_some_iff.mp hw
    have := List.Forall₂.get hk l1 l2
    rw [← e1, ← e2]
    exact this.scalar t hcore
  · -- structs
    intro i f q j kid w hf he ht hcore hkid hw
    obtain ⟨v, hv⟩ := hget i f hf
    have hk := (hins i f v hf hv).2.2.2.1 he ht
    rw [h.matching i f v hf hv, matching_kids h.rt hf hk] at hkid
    obtain ⟨l1, e1⟩ := List.getElem?_eq_some_iff.mp hkid
    obtain ⟨l2, e2⟩ := List.getElem?_eq_some_iff.mp hw
    have := List.Forall₂.get hk l1 l2
    rw [← e1, ← e2]
    exact this.view q hcore
  · -- not by their text
    intro hflat i f q kid hf he hcore hkid
    obtain ⟨v, hv⟩ := hget i f hf
    by_cases ht : f.attrs.text = true
    · rw [h.matching i f v hf hv, matching_none _ _ _ ((hins i f v hf hv).2.2.1 ht).2] at hkid
      cases hkid
    · have hk := (hins i f v hf hv).2.2.2.1 he (by simpa using ht)
      rw [h.matching i f v hf hv, matching_kids h.rt hf hk] at hkid
      obtain ⟨j, hj⟩ := List.getElem?_of_mem hkid
      obtain ⟨l1, e1⟩ := List.getElem?_eq_some_iff.mp hj
      have l2 : j < ((tri i).1).length := by rw [← hk.length_eq]; exact l1
      have := List.Forall₂.get hk l1 l2
      rw [← e1]
      obtain ⟨b1, b2⟩ := h.rt.byText hflat f (List.mem_of_getElem? hf) he q hcore
      exact this.byText q hcore b1 b2
  · -- flattened fields look only at their part
    intro i f v hf hv hfl
    have hm := List.mem_of_getElem? hf
    obtain ⟨q, d', hty, hq⟩ := h.rt.flat f hm hfl
    obtain ⟨h1, h2⟩ := (hins i f v hf hv).2.2.2.2 hfl
    obtain ⟨h3, h4, h5⟩ := h2 q hty
    refine ⟨?_, h1, q, d', hty, hq, hnsf f hm hfl q d' hty hq, ?_, ?_⟩
    · by_contra ht
      have := (h.rt.text f hm (by simpa using ht)).2
      rw [hfl.2] at this; cases this
    · simp only [hf, hv, hty]
      have mine : ∀ it, Takes env q it → FieldTakes env d f it := fun it ht => .inr ⟨hfl, q, hty, ht⟩
      refine .seen d' n _ _ _ _ _ _ hq ?_ ?_
      · unfold seesAttrs readAttrs
        rw [List.filter_map, List.filter_map]
        congr 1
        have := h.attrs_filter (fun l => decide (Takes env q (.attr l))) i f v hf hv (by
          intro j g l hg ht hR
          exact h.rt.disjoint j i g f _ hg hf ht (mine _ (by simpa using hR)))
        rw [h3] at this
        exact this.symm
      · congr 1
        have := h.backs_filter (fun k => decide (Takes env q k.item)) i f v hf hv (by
          intro j g k hg ht hR
          exact h.rt.disjoint j i g f _ hg hf ht (mine _ (by simpa using hR)))
        rw [h4] at this
        exact this.symm
    · intro n' ht
      cases hff : d.fieldFor n' with
      | none => rfl
      | some j =>
        obtain ⟨g, hg, -, hgc⟩ := fieldFor_some hff
        have := h.rt.disjoint i j f g (.elem n') hf hg (.inr ⟨hfl, q, hty, ht⟩) (.inl hgc)
        subst this
        rw [hf] at hg; cases hg
        have := hgc.1
        simp [FieldDef.isElem, hfl.2] at this
  · intro i f v q hf hv hfl hty
    obtain ⟨h1, h2⟩ := (hins i f v hf hv).2.2.2.2 hfl
    obtain ⟨h3, h4, h5⟩ := h2 q hty
    simp only [hf, hv, hty]
    exact h5.view n m (hfits f (List.mem_of_getElem? hf) hfl q hty)

end

theorem encTyAttrs_struct {L : Lib} {env : Env} {p : Path} {d : StructDef} (hp : env p = some (.struct d)) (fs : List Val) :
    encTyAttrs L env p (.struct fs) = allAttrs L env d fs := by
  rw [encTyAttrs.eq_def, hp]; rfl

theorem encTyDecls_struct {env : Env} {p : Path} {d : StructDef} (hp : env p = some (.struct d)) (fs : List Val) :
    encTyDecls env p (.struct fs) = d.attrs.decls ++ encInheritedDecls env d.fields fs := by
  rw [encTyDecls.eq_def, hp]

theorem encTy_struct {L : Lib} {env : Env} {p : Path} {d : StructDef} (hp : env p = some (.struct d)) (pl : Place) (fs : List Val) :
    encTy L env pl p (.struct fs) = wrap d.attrs pl (d.attrs.written d.name) (encTyAttrs L env p (.struct fs))
      (firstDecls (encTyDecls env p (.struct fs))) (encFields L env d.attrs (.struct fs) d.fields fs) := by
  rw [encTyAttrs_struct hp, encTyDecls_struct hp, encTy.eq_def, hp]; rfl

theorem encTy_inner_struct {L : Lib} {env : Env} {p : Path} {d : StructDef} (hp : env p = some (.struct d)) (fs : List Val) :
    encTy L env .inner p (.struct fs) = encFields L env d.attrs (.struct fs) d.fields fs := by
  rw [encTy_struct hp]; simp [wrap, Place.inner]

/-- Structs. -/
theorem enc_struct {L : Lib} (hL : XmlLaw L) {env : Env} {G : NsMap} (hG : NsTable G) {p : Path} {d : StructDef} {fs : List Val}
    (hp : env p = some (.struct d)) (hrt : StructRt env G d) (hlen : fs.length = d.fields.length)
    (hc : ∀ (i : Nat) (f : FieldDef) (v : Val), d.fields[i]? = some f → fs[i]? = some v →
      FieldCanon L env G (.struct fs) f v) : Enc L env G p (.struct fs) := by
  have hdecl : ∀ e ∈ encTyDecls env p (.struct fs), e ∈ G := by
    rw [encTyDecls_struct hp]
    intro e he
    rcases List.mem_append.mp he with he | he
    · exact hrt.decls e he
    · rw [encInheritedDecls_zip] at he
      obtain ⟨i, f, v, hf, hv, hm⟩ := mem_zip_flatten he
      by_cases hfl : f.isFlat
      · have hmf := List.mem_of_getElem? hf
        obtain ⟨q, d', hty, hq⟩ := hrt.flat f hmf hfl
        rw [decls_flat env f v q hfl hty] at hm
        have hcf := hc i f v hf hv
        have ht : f.attrs.text = false := by
          by_contra h
          have := (hrt.text f hmf (by simpa using h)).2
          rw [hfl.2] at this; cases this
        have ho : ¬ f.omitted (.struct fs) v := fun h => by
          have := (hcf.left hfl.1 ht h).1; rw [hfl.2] at this; cases this
        have hcd : f.attrs.cdata = false := by
          by_contra h
          have := (hcf.cdata hfl.1 ht ho (by simpa using h)).1
          rw [hty] at this; cases this
        have := hcf.items hfl.1 ht ho hcd
        rw [hty] at this
        exact (this.item.enc q rfl).decls e hm
      · rw [decls_one env f v hfl] at hm; cases hm
  refine ⟨hdecl, ?_, ?_⟩
  · intro pl hpl
    rw [encTy_inner_struct hp, encTy_struct hp]
    simp [wrap, hrt.own, hpl, ownName, hp]
  · intro sc hsc hs
    rw [encTyDecls_struct hp] at hsc
    have hF : AllFieldsOk L env G sc d fs := by
      refine ⟨hrt, hlen, ?_⟩
      intro i f v hf hv
      refine fieldOk hL hG hrt (List.mem_of_getElem? hf) (fun e he => hsc e (List.mem_append_left _ he)) hs ?_ (hc i f v hf hv)
      intro e he
      refine hsc e (List.mem_append_right _ ?_)
      rw [encInheritedDecls_zip]
      exact List.mem_flatten.mpr ⟨_, List.mem_of_getElem? (get_zip _ hf hv), he⟩
    refine ⟨?_, ?_, ?_, ?_, ?_, ?_, ?_, ?_, ?_, ?_⟩
    · rw [encTy_inner_struct hp, okL_iff]
      intro k hk
      obtain ⟨i, f, v, hf, hv, hm⟩ := hF.kids_mem hk
      exact okL_iff.mp (hF.field i f v hf hv).ok k hm
    · rw [encTy_inner_struct hp, tidyL_iff]
      intro k hk
      obtain ⟨i, f, v, hf, hv, hm⟩ := hF.kids_mem hk
      exact tidyL_iff.mp (hF.field i f v hf hv).tidy k hm
    · rw [encTy_inner_struct hp]; exact hF.one
    · rw [encTyAttrs_struct hp]; exact hF.attrsOk
    · rw [encTyAttrs_struct hp]; exact hF.locs
    · rw [encTyAttrs_struct hp]
      intro _ _ a ha
      obtain ⟨i, f, v, hf, hv, hm⟩ := hF.attrs_mem ha
      exact takes_of_field hp (List.mem_of_getElem? hf) ((hF.field i f v hf hv).attrs a hm).2.2
    · rw [encTy_inner_struct hp]
      intro _ _ k hk
      obtain ⟨i, f, v, hf, hv, hm⟩ := hF.backs_mem hk
      exact takes_of_field hp (List.mem_of_getElem? hf) ((hF.field i f v hf hv).takesKid k hm)
    · rw [encTy_inner_struct hp]
      intro _ _ hne
      obtain ⟨f, hf, ht⟩ := hF.takesText hp hne
      exact takes_of_field hp hf ht
    · intro n m hn
      rw [encTyAttrs_struct hp, encTy_inner_struct hp]
      exact hF.view hp n m hn
    · intro _ _ _ _ _ hb
      unfold byText at hb
      rw [hp] at hb
      exact hb

end Yaserde
