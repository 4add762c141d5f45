import Mathlib.Data.List.Nodup
import Verif.Spec.WellFormed
import Verif.Proofs.EncEnum
/-
The tree written for a value is well formed.
-/

set_option autoImplicit false

namespace Yaserde

open Classical
open XmlText (scopeUri_mem scopeUri_none splitColon_colon splitColon_none ncName_noColon)

theorem charsL_iff {ks : List WNode} : WNode.CharsL ks ↔ ∀ k ∈ ks, k.Chars := by
  induction ks with
  | nil => simp [WNode.CharsL]
  | cons k ks ih => simp [WNode.CharsL, ih]

theorem charsL_append {a b : List WNode} : WNode.CharsL (a ++ b) ↔ WNode.CharsL a ∧ WNode.CharsL b := by
  simp only [charsL_iff, List.forall_mem_append]

/-! ### Names -/

theorem name_ok {G sc : NsMap} {root : Attrs} (hG : NsTable G) (hd : ∀ e ∈ root.decls, e ∈ sc) (hs : ∀ e ∈ sc, e ∈ G)
    {pfx : Option Str} {label : Str} (hp : PfxIn root pfx) (hl : isNCName label = true) :
    isQName (qualify root.defaultNs pfx label) = true ∧ Bound sc (qualify root.defaultNs pfx label) := by
  have hsp := splitColon_none (ncName_noColon hl)
  have plain : isQName label = true ∧ Bound sc label := by
    unfold isQName Bound; rw [hsp]; exact ⟨hl, trivial⟩
  cases pfx with
  | none => exact plain
  | some p =>
    by_cases hc : root.defaultNs = some p
    · have : qualify root.defaultNs (some p) label = label := by simp [qualify, hc]
      rw [this]; exact plain
    · rcases hp p rfl with h | ⟨hne, u, hu⟩
      · exact absurd h hc
      · obtain ⟨u', h1, h2⟩ := declared hG hd hs hu
        rw [if_neg hc] at h2
        have hn := (pfx_name hG hd hs hu hne hc).1
        have hsp' : splitColon (p ++ c!":" ++ label) = some (p, label) := splitColon_colon (ncName_noColon hn)
        simp only [qualify, hc, if_false, isQName, Bound, hsp', hl, hn, h2, Bool.and_self, Option.isSome_some, and_self]

theorem attr_name_ok {G sc : NsMap} {root : Attrs} (hG : NsTable G) (hd : ∀ e ∈ root.decls, e ∈ sc) (hs : ∀ e ∈ sc, e ∈ G)
    {pfx : Option Str} {label : Str} (hp : PfxIn root pfx) (hl : isNCName label = true) (hx : label ≠ c!"xmlns") :
    AttrNameOk sc (qualify root.defaultNs pfx label) := by
  by_cases hc : pfx = root.defaultNs
  · have : qualify root.defaultNs pfx label = qualify root.defaultNs none label := by
      cases pfx with
      | none => rfl
      | some p => simp [qualify, ← hc]
    rw [this]
    exact (attrName_ok hG hd hs (pfx := none) (by simp) hl hx).1
  · refine (attrName_ok hG hd hs (fun p h => ?_) hl hx).1
    rcases hp p h with h1 | h1
    · exact absurd (h.trans h1.symm) hc
    · exact h1

theorem bound_mono {sc nss : NsMap} {nm : Str} (h : Bound sc nm) : Bound (nss ++ sc) nm := by
  unfold Bound at *
  split
  · trivial
  · rename_i p l hs
    rw [hs] at h
    simp only [scopeUri, Option.isSome_map] at h ⊢
    rw [List.find?_append]
    cases hf : List.find? (fun e => e.1 == p) nss with
    | none => simpa using h
    | some _ => rfl

theorem leaf_okT {sc : NsMap} {nm s : Str} (hq : isQName nm = true) (hb : Bound sc nm) (hs : isText s = true) :
    (leaf nm s).Ok sc :=
  ⟨hq, hb, declsOk_nil sc, attrsOk_nil _, hs, trivial⟩

/-! ### Declarations -/

theorem inheritedDecls_mem {env : Env} {fds : List FieldDef} {vs : List Val} {e : Str × Str}
    (h : e ∈ encInheritedDecls env fds vs) : ∃ (i : Nat) (f : FieldDef) (v : Val), fds[i]? = some f ∧ vs[i]? = some v ∧ f.isFlat ∧
      ∃ q, f.ty = .struct q ∧ e ∈ encTyDecls env q v := by
  rw [encInheritedDecls_zip] at h
  obtain ⟨i, f, v, hf, hv, hx⟩ := mem_zip_flatten h
  refine ⟨i, f, v, hf, hv, ?_⟩
  rw [encInheritedDecls.eq_def] at hx
  dsimp only at hx
  rw [encInheritedDecls.eq_def env [] [], List.append_nil] at hx
  split at hx
  · rename_i hfl
    simp only [Bool.and_eq_true, Bool.not_eq_true'] at hfl
    refine ⟨hfl, ?_⟩
    split at hx
    · exact ⟨_, by assumption, hx⟩
    · cases hx
  · cases hx

theorem declares_of_mem {env : Env} {t : FTy} {v : Val} (h : HasTy env t v) :
    ∀ p, t = .struct p → ∀ e ∈ encTyDecls env p v, Declares env p e := by
  induction h with
  | struct p d fs hp hlen h ih =>
    intro p' hp' e he
    cases hp'
    rw [encTyDecls_struct hp] at he
    rcases List.mem_append.mp he with he | he
    · exact .struct p d e hp he
    · obtain ⟨i, f, v, hf, hv, hfl, q, hq, hx⟩ := inheritedDecls_mem he
      exact .flat p d f q e hp (List.mem_of_getElem? hf) hfl hq (ih i f v hf hv q hq e hx)
  | unit p d i vd hp => intro p' hp' e he; cases hp'; rw [encTyDecls_enum hp] at he; exact .enum p d e hp he
  | newtype p d i vd t x hp => intro p' hp' e he; cases hp'; rw [encTyDecls_enum hp] at he; exact .enum p d e hp he
  | named p d i vd fds fs hp => intro p' hp' e he; cases hp'; rw [encTyDecls_enum hp] at he; exact .enum p d e hp he
  | prim p d v hp => intro p' hp' e he; cases hp'; rw [encTyDecls.eq_def, hp] at he; cases he
  | _ => intro p hp; cases hp

theorem declares_in {env : Env} {G : NsMap} (hN : NamesOk env G) {p : Path} {e : Str × Str} (h : Declares env p e) : e ∈ G := by
  induction h with
  | struct p d e hp h => exact (hN.struct p d hp).decls e h
  | enum p d e hp h => exact (hN.enum p d hp).decls e h
  | flat p d f q e hp hf hfl hty h ih => exact ih

/-! ### What is shown -/

/-- A value of the type, in any place. -/
structure WfTy (L : Lib) (env : Env) (G : NsMap) (p : Path) (v : Val) : Prop where
  decls : ∀ e ∈ encTyDecls env p v, Declares env p e
  inner : ∀ sc, (∀ e ∈ encTyDecls env p v, e ∈ sc) → (∀ e ∈ sc, e ∈ G) → WNode.CharsL (encTy L env .inner p v) →
    WNode.OkL sc (encTy L env .inner p v)
  attrs : ∀ sc, (∀ e ∈ encTyDecls env p v, e ∈ sc) → (∀ e ∈ sc, e ∈ G) → ∀ a ∈ encTyAttrs L env p v,
    AttrNameOk sc a.name.raw ∧ WritesAttr env p a.name.raw
  nodup : ((encTyAttrs L env p v).map fun a => a.name.raw).Nodup
  elem : ∀ (pl : Place) (sc : NsMap), pl.bare = false → (∀ nm, pl.name = some nm → isQName nm = true ∧ Bound sc nm) →
    (∀ e ∈ sc, e ∈ G) → WNode.CharsL (encTy L env pl p v) → WNode.OkL sc (encTy L env pl p v)

def WfVal (L : Lib) (env : Env) (G : NsMap) : FTy → Val → Prop
  | .struct q, v => WfTy L env G q v
  | .opt t, .some x => WfVal L env G t x
  | .vec t, .vec xs => ∀ x ∈ xs, WfVal L env G t x
  | _, _ => True

/-- Once the content is all right in every scope, the element is. -/
theorem wrap_ok {L : Lib} {env : Env} {G : NsMap} (hG : NsTable G) {p : Path} {v : Val} {a : Attrs} {pl : Place} {nm : Str}
    {kids : List WNode} {sc : NsMap} (hdG : ∀ e ∈ encTyDecls env p v, e ∈ G) (hs : ∀ e ∈ sc, e ∈ G)
    (hown : a.flatten = false) (hb : pl.bare = false)
    (hnm : ∀ x, pl.name = some x → isQName x = true ∧ Bound sc x)
    (hdef : ∀ sc', (∀ e ∈ encTyDecls env p v, e ∈ sc') → (∀ e ∈ sc', e ∈ G) → isQName nm = true ∧ Bound sc' nm)
    (hattr : ∀ sc', (∀ e ∈ encTyDecls env p v, e ∈ sc') → (∀ e ∈ sc', e ∈ G) → ∀ a ∈ encTyAttrs L env p v, AttrNameOk sc' a.name.raw)
    (hnd : ((encTyAttrs L env p v).map fun a => a.name.raw).Nodup)
    (hkids : ∀ sc', (∀ e ∈ sc, e ∈ sc') → (∀ nm, Bound sc nm → Bound sc' nm) → (∀ e ∈ encTyDecls env p v, e ∈ sc') →
      (∀ e ∈ sc', e ∈ G) → WNode.CharsL kids → WNode.OkL sc' kids)
    (hch : WNode.CharsL (wrap a pl nm (encTyAttrs L env p v) (firstDecls (encTyDecls env p v)) kids)) :
    WNode.OkL sc (wrap a pl nm (encTyAttrs L env p v) (firstDecls (encTyDecls env p v)) kids) := by
  have hw : wrap a pl nm (encTyAttrs L env p v) (firstDecls (encTyDecls env p v)) kids
      = [.elem (pl.name.getD nm) (encTyAttrs L env p v) (firstDecls (encTyDecls env p v)) kids] := by
    unfold wrap; simp [hown, hb]
  rw [hw] at hch ⊢
  have h1 : ∀ e ∈ encTyDecls env p v, e ∈ firstDecls (encTyDecls env p v) ++ sc :=
    fun e he => List.mem_append_left _ (mem_firstDecls_of hG hdG he)
  have h2 : ∀ e ∈ firstDecls (encTyDecls env p v) ++ sc, e ∈ G := by
    intro e he
    rcases List.mem_append.mp he with h | h
    · exact hdG e (mem_firstDecls h)
    · exact hs e h
  have hname : isQName (pl.name.getD nm) = true ∧ Bound (firstDecls (encTyDecls env p v) ++ sc) (pl.name.getD nm) := by
    cases hn : pl.name with
    | none => exact hdef _ h1 h2
    | some x => exact ⟨(hnm x hn).1, bound_mono (hnm x hn).2⟩
  exact ⟨⟨hname.1, hname.2, declsOk_first hG hdG hs, ⟨hattr _ h1 h2, hch.1.1, hnd⟩,
    hkids _ (fun e he => List.mem_append_right _ he) (fun _ => bound_mono) h1 h2 hch.1.2⟩, trivial⟩

/-! ### Items -/

section
variable {L : Lib} {env : Env} {G : NsMap}

theorem items_ok {q : Path} {xs : List Val} {pl : Place} {sc : NsMap}
    (h : ∀ x ∈ xs, WNode.CharsL (encTy L env pl q x) → WNode.OkL sc (encTy L env pl q x))
    (hc : WNode.CharsL (encItems L env pl q xs)) : WNode.OkL sc (encItems L env pl q xs) := by
  induction xs with
  | nil => rw [encItems]; trivial
  | cons x xs ih =>
    rw [encItems] at hc ⊢
    obtain ⟨h1, h2⟩ := charsL_append.mp hc
    exact okL_append.mpr ⟨h x (by simp) h1, ih (fun y hy => h y (by simp [hy])) h2⟩

theorem leaves_ok {sc : NsMap} {nm : Str} (hq : isQName nm = true) (hb : Bound sc nm) {xs : List Str}
    (hc : WNode.CharsL (xs.map (leaf nm))) : WNode.OkL sc (xs.map (leaf nm)) := by
  rw [okL_iff]
  rw [charsL_iff] at hc
  intro k hk
  obtain ⟨s, hs, rfl⟩ := List.mem_map.mp hk
  exact leaf_okT hq hb (hc _ hk).2.1

theorem optItems_ok {t : FTy} {xs : List Val} {sc : NsMap} (hs : ∀ e ∈ sc, e ∈ G) (h : ∀ x ∈ xs, WfVal L env G (.opt t) x)
    (hc : WNode.CharsL (encOptItems L env t xs)) : WNode.OkL sc (encOptItems L env t xs) := by
  induction xs with
  | nil => rw [encOptItems]; trivial
  | cons x xs ih =>
    have ih' := fun hc => ih (fun y hy => h y (by simp [hy])) hc
    cases x with
    | some x =>
      rw [encOptItems.eq_def L env t (.some x :: xs)] at hc ⊢
      dsimp only at hc ⊢
      obtain ⟨h1, h2⟩ := charsL_append.mp hc
      refine okL_append.mpr ⟨?_, ih' h2⟩
      have hx := h (.some x) (by simp)
      cases t with
      | struct q => exact WfTy.elem hx .root sc rfl (by simp [Place.root]) hs h1
      | _ => exact ⟨h1.1, trivial⟩
    | _ =>
      rw [encOptItems.eq_def L env t (_ :: xs)] at hc ⊢
      exact ih' hc

/-- The content of one field. -/
theorem field_okL {d : StructDef} (hG : NsTable G) (hd : StructNames env G d) {self : Val} {f : FieldDef} (hf : f ∈ d.fields)
    {v : Val} (hv : HasTy env f.ty v) (hgood : WfVal L env G f.ty v) {sc : NsMap} (hsd : ∀ e ∈ d.attrs.decls, e ∈ sc)
    (hinh : ∀ e ∈ encInheritedDecls env [f] [v], e ∈ sc) (hs : ∀ e ∈ sc, e ∈ G)
    (hc : WNode.CharsL (encFields L env d.attrs self [f] [v])) : WNode.OkL sc (encFields L env d.attrs self [f] [v]) := by
  obtain ⟨hl, hp, -⟩ := hd.label f hf
  obtain ⟨hq, hb⟩ : isQName (f.written d.attrs) = true ∧ Bound sc (f.written d.attrs) := name_ok hG hsd hs hp hl
  rw [encFields.eq_def] at hc ⊢
  dsimp only at hc ⊢
  rw [encFields.eq_def L env d.attrs self [] [], List.append_nil] at hc ⊢
  by_cases h1 : f.attrs.isAttr = true
  · rw [if_pos h1]; trivial
  rw [if_neg h1] at hc ⊢
  by_cases h2 : f.attrs.text = true
  · rw [if_pos h2] at hc ⊢; exact ⟨hc.1, trivial⟩
  rw [if_neg h2] at hc ⊢
  by_cases h3 : (f.attrs.skipSer || !decide (f.selected self v)) = true
  · rw [if_pos h3]; trivial
  rw [if_neg h3] at hc ⊢
  by_cases h4 : f.attrs.cdata = true
  · rw [if_pos h4] at hc ⊢
    split
    · exact ⟨⟨hq, hb, declsOk_nil sc, attrsOk_nil _, hc.1.2.1, trivial⟩, trivial⟩
    · trivial
  rw [if_neg h4] at hc ⊢
  -- a value of the type of the field, in its place
  have inplace : ∀ q x, f.ty.core = .struct q → WfTy L env G q x → (∀ e ∈ encTyDecls env q x, f.attrs.flatten = true → e ∈ sc) →
      WNode.CharsL (encTy L env (f.place d.attrs) q x) → WNode.OkL sc (encTy L env (f.place d.attrs) q x) := by
    intro q x hq' hx he hch
    by_cases hfl : f.attrs.flatten = true
    · have : f.place d.attrs = .inner := by simp [FieldDef.place, hfl]
      rw [this] at hch ⊢
      exact hx.inner sc (fun e h => he e h hfl) hs hch
    · have : f.place d.attrs = ⟨some (f.written d.attrs), false⟩ := by simp [FieldDef.place, hfl]
      rw [this] at hch ⊢
      exact hx.elem _ sc rfl (by intro nm h; cases h; exact ⟨hq, hb⟩) hs hch
  have hna : f.attrs.isAttr = false := by simpa using h1
  have inbare : ∀ q x, f.ty ≠ .struct q → f.ty.core = .struct q → WfTy L env G q x →
      ∀ e ∈ encTyDecls env q x, f.attrs.flatten = true → e ∈ sc := by
    intro q x hne hq' hx e he hfl
    exact hsd e (hd.bare f hf ⟨hna, hfl⟩ q hne hq' e (hx.decls e he))
  split at hc
  · exact ⟨leaf_okT hq hb hc.1.2.1, trivial⟩
  · exact ⟨leaf_okT hq hb hc.1.2.1, trivial⟩
  · rename_i t xs heq
    have e : (xs.map fun x => leaf (f.written d.attrs) (showS L x)) = (xs.map (showS L)).map (leaf (f.written d.attrs)) := by
      rw [List.map_map]; rfl
    rw [e] at hc ⊢
    exact leaves_ok hq hb hc
  · rename_i q x heq
    rw [heq] at hgood
    exact inplace q x (by rw [heq]; rfl) hgood (inbare q x (by rw [heq]; simp) (by rw [heq]; rfl) hgood) hc
  · rename_i q heq
    rw [heq] at hgood
    refine inplace q _ (by rw [heq]; rfl) hgood (fun e he hfl => hinh e ?_) hc
    rw [encInheritedDecls.eq_def]
    simp only [hna, hfl, Bool.not_false, Bool.and_self, if_true, heq]
    exact List.mem_append_left _ he
  · rename_i t xs heq
    have e : (xs.map fun x => leaf (f.written d.attrs) (showS L x)) = (xs.map (showS L)).map (leaf (f.written d.attrs)) := by
      rw [List.map_map]; rfl
    rw [e] at hc ⊢
    exact leaves_ok hq hb hc
  · rename_i t xs heq
    rw [heq] at hgood
    exact optItems_ok hs hgood hc
  · rename_i q xs heq
    rw [heq] at hgood
    exact items_ok (fun x hx => inplace q x (by rw [heq]; rfl) (hgood x hx)
      (inbare q x (by rw [heq]; simp) (by rw [heq]; rfl) (hgood x hx))) hc
  · trivial

/-- One attribute field, or one flattened struct. -/
theorem field_attrs {d : StructDef} (hG : NsTable G) (hd : StructNames env G d) {self : Val} {f : FieldDef} (hf : f ∈ d.fields)
    {v : Val} (hgood : WfVal L env G f.ty v) {sc : NsMap} (hsd : ∀ e ∈ d.attrs.decls, e ∈ sc)
    (hinh : ∀ e ∈ encInheritedDecls env [f] [v], e ∈ sc) (hs : ∀ e ∈ sc, e ∈ G) :
    ∀ a ∈ encOwn L env d.attrs self [f] [v] ++ encInherited L env [f] [v],
      AttrNameOk sc a.name.raw ∧ FieldWritesAttr env d f a.name.raw := by
  obtain ⟨hl, hp, hx⟩ := hd.label f hf
  intro a ha
  rcases List.mem_append.mp ha with ha | ha
  · rw [encOwn.eq_def] at ha
    dsimp only at ha
    rw [encOwn.eq_def L env d.attrs self [] [], List.append_nil] at ha
    split at ha
    · rename_i hat
      have hat' : f.attrs.isAttr = true := by
        simp only [Bool.and_eq_true] at hat; exact hat.1
      have key : a.name.raw = f.written d.attrs := by
        split at ha <;> simp only [List.mem_singleton, List.not_mem_nil] at ha <;> rw [ha] <;> exact raw_ofStr _
      rw [key]
      exact ⟨attr_name_ok hG hsd hs hp hl (hx hat'), .inl ⟨hat', rfl⟩⟩
    · cases ha
  · rw [encInherited.eq_def] at ha
    dsimp only at ha
    rw [encInherited.eq_def L env [] [], List.append_nil] at ha
    split at ha
    · rename_i hfl
      have hfl2 : f.isFlat := by simpa [FieldDef.isFlat] using hfl
      split at ha
      · rename_i q heq _
        rw [heq] at hgood
        have := WfTy.attrs hgood sc (fun e he => hinh e (by
          rw [encInheritedDecls.eq_def]
          dsimp only
          rw [if_pos hfl, heq]
          exact List.mem_append_left _ he)) hs a ha
        exact ⟨this.1, .inr ⟨hfl2, q, heq, this.2⟩⟩
      · cases ha
    · cases ha

theorem nodup_zip {α β γ : Type} {g : α → β → List γ} {as : List α} {bs : List β}
    (h1 : ∀ (i : Nat) (a : α) (b : β), as[i]? = some a → bs[i]? = some b → (g a b).Nodup)
    (h2 : ∀ (i j : Nat) (a a' : α) (b b' : β) (x : γ), as[i]? = some a → bs[i]? = some b → as[j]? = some a' → bs[j]? = some b' →
      x ∈ g a b → x ∈ g a' b' → i = j) : (List.zipWith g as bs).flatten.Nodup := by
  rw [List.nodup_flatten]
  constructor
  · intro l hl
    obtain ⟨i, hi⟩ := List.getElem?_of_mem hl
    obtain ⟨a, b, ha, hb, rfl⟩ := zip_get hi
    exact h1 i a b ha hb
  · rw [List.pairwise_iff_getElem]
    intro i j hi hj hlt x hx hx'
    obtain ⟨a, b, ha, hb, e⟩ := zip_get (List.getElem?_eq_getElem hi)
    obtain ⟨a', b', ha', hb', e'⟩ := zip_get (List.getElem?_eq_getElem hj)
    rw [← e] at hx
    rw [← e'] at hx'
    have := h2 i j a a' b b' x ha hb ha' hb' hx hx'
    omega

theorem field_nodup {d : StructDef} {self : Val} {f : FieldDef} {v : Val} (hgood : WfVal L env G f.ty v) :
    ((encOwn L env d.attrs self [f] [v]).map fun a => a.name.raw).Nodup ∧
    ((encInherited L env [f] [v]).map fun a => a.name.raw).Nodup := by
  constructor
  · rw [encOwn.eq_def]
    dsimp only
    rw [encOwn.eq_def L env d.attrs self [] [], List.append_nil]
    split
    · split <;> simp
    · simp
  · rw [encInherited.eq_def]
    dsimp only
    rw [encInherited.eq_def L env [] [], List.append_nil]
    split
    · split
      · rename_i q heq
        rw [heq] at hgood
        exact WfTy.nodup hgood
      · simp
    · simp

theorem field_own_or {d : StructDef} {self : Val} {f : FieldDef} {v : Val} :
    encOwn L env d.attrs self [f] [v] = [] ∨ encInherited L env [f] [v] = [] := by
  by_cases h : f.attrs.isAttr = true
  · right
    rw [encInherited.eq_def]
    simp only [h, Bool.not_true, Bool.false_and, Bool.false_eq_true, if_false, List.nil_append]
    rw [encInherited.eq_def]
  · left
    rw [encOwn.eq_def]
    simp only [h, Bool.false_and, Bool.false_eq_true, if_false, List.nil_append]
    rw [encOwn.eq_def]

/-! ### Structs -/

theorem struct_wf (hN : NamesOk env G) {p : Path} {d : StructDef} (hp : env p = some (.struct d)) {fs : List Val}
    (hlen : fs.length = d.fields.length)
    (hty : ∀ (i : Nat) (f : FieldDef) (v : Val), d.fields[i]? = some f → fs[i]? = some v → HasTy env f.ty v)
    (hg : ∀ (i : Nat) (f : FieldDef) (v : Val), d.fields[i]? = some f → fs[i]? = some v → WfVal L env G f.ty v) :
    WfTy L env G p (.struct fs) := by
  have hG := hN.table
  have hd := hN.struct p d hp
  have hdec := declares_of_mem (HasTy.struct p d fs hp hlen hty) p rfl
  have hown : ∀ sc : NsMap, (∀ e ∈ encTyDecls env p (.struct fs), e ∈ sc) → (∀ e ∈ d.attrs.decls, e ∈ sc) := by
    intro sc h e he
    exact h e (by rw [encTyDecls_struct hp]; exact List.mem_append_left _ he)
  have hinh : ∀ sc : NsMap, (∀ e ∈ encTyDecls env p (.struct fs), e ∈ sc) → ∀ (i : Nat) (f : FieldDef) (v : Val), d.fields[i]? = some f →
      fs[i]? = some v → ∀ e ∈ encInheritedDecls env [f] [v], e ∈ sc := by
    intro sc h i f v hf hv e he
    refine h e ?_
    rw [encTyDecls_struct hp, encInheritedDecls_zip]
    refine List.mem_append_right _ (List.mem_flatten.mpr ⟨_, List.mem_of_getElem? (get_zip _ hf hv), he⟩)
  have hkids : ∀ sc : NsMap, (∀ e ∈ encTyDecls env p (.struct fs), e ∈ sc) → (∀ e ∈ sc, e ∈ G) →
      WNode.CharsL (encFields L env d.attrs (.struct fs) d.fields fs) → WNode.OkL sc (encFields L env d.attrs (.struct fs) d.fields fs) := by
    intro sc h1 h2 hc
    rw [okL_iff]
    rw [charsL_iff] at hc
    intro k hk
    have hk' := hk
    rw [encFields_zip] at hk'
    obtain ⟨i, f, v, hf, hv, hm⟩ := mem_zip_flatten hk'
    have := field_okL (self := .struct fs) hG hd (List.mem_of_getElem? hf) (hty i f v hf hv) (hg i f v hf hv) (hown sc h1)
      (hinh sc h1 i f v hf hv) h2 (charsL_iff.mpr fun k' hk' => hc k' (by
        rw [encFields_zip]
        exact List.mem_flatten.mpr ⟨_, List.mem_of_getElem? (get_zip _ hf hv), hk'⟩))
    exact okL_iff.mp this k hm
  have hattr : ∀ sc : NsMap, (∀ e ∈ encTyDecls env p (.struct fs), e ∈ sc) → (∀ e ∈ sc, e ∈ G) → ∀ a ∈ encTyAttrs L env p (.struct fs),
      AttrNameOk sc a.name.raw ∧ ∃ (i : Nat) (f : FieldDef), d.fields[i]? = some f ∧ FieldWritesAttr env d f a.name.raw := by
    intro sc h1 h2 a ha
    rw [encTyAttrs_struct hp, allAttrs, encOwn_zip, encInherited_zip] at ha
    have : ∃ (i : Nat) (f : FieldDef) (v : Val), d.fields[i]? = some f ∧ fs[i]? = some v ∧
        a ∈ encOwn L env d.attrs (.struct fs) [f] [v] ++ encInherited L env [f] [v] := by
      rcases List.mem_append.mp ha with ha | ha
      · obtain ⟨i, f, v, hf, hv, hm⟩ := mem_zip_flatten ha
        exact ⟨i, f, v, hf, hv, List.mem_append_left _ hm⟩
      · obtain ⟨i, f, v, hf, hv, hm⟩ := mem_zip_flatten ha
        exact ⟨i, f, v, hf, hv, List.mem_append_right _ hm⟩
    obtain ⟨i, f, v, hf, hv, hm⟩ := this
    have := field_attrs hG hd (List.mem_of_getElem? hf) (hg i f v hf hv) (hown sc h1) (hinh sc h1 i f v hf hv) h2 a hm
    exact ⟨this.1, i, f, hf, this.2⟩
  have hfw : ∀ (i : Nat) (f : FieldDef) (v : Val), d.fields[i]? = some f → fs[i]? = some v →
      ∀ a ∈ encOwn L env d.attrs (.struct fs) [f] [v] ++ encInherited L env [f] [v], FieldWritesAttr env d f a.name.raw := by
    intro i f v hf hv a ha
    refine (field_attrs hG hd (List.mem_of_getElem? hf) (hg i f v hf hv) hd.decls (fun e he => ?_) (fun e he => he) a ha).2
    exact hinh G (fun e he => declares_in hN (hdec e he)) i f v hf hv e he
  have hnd : ((encTyAttrs L env p (.struct fs)).map fun a => a.name.raw).Nodup := by
    rw [encTyAttrs_struct hp, allAttrs, encOwn_zip, encInherited_zip, List.map_append, List.map_flatten, List.map_flatten,
      List.map_zipWith, List.map_zipWith, List.nodup_append]
    have mem : ∀ (i : Nat) (f : FieldDef) (v : Val) (x : Str), d.fields[i]? = some f → fs[i]? = some v →
        x ∈ (encOwn L env d.attrs (.struct fs) [f] [v]).map (fun a => a.name.raw) ∨
          x ∈ (encInherited L env [f] [v]).map (fun a => a.name.raw) → FieldWritesAttr env d f x := by
      intro i f v x hf hv hx
      rcases hx with hx | hx
      · obtain ⟨a, ha, rfl⟩ := List.mem_map.mp hx
        exact hfw i f v hf hv a (List.mem_append_left _ ha)
      · obtain ⟨a, ha, rfl⟩ := List.mem_map.mp hx
        exact hfw i f v hf hv a (List.mem_append_right _ ha)
    refine ⟨?_, ?_, ?_⟩
    · refine nodup_zip (fun i f v hf hv => (field_nodup (hg i f v hf hv)).1) ?_
      intro i j f g v w x hf hv hg' hw hx hx'
      exact hd.distinct i j f g x hf hg' (mem i f v x hf hv (.inl hx)) (mem j g w x hg' hw (.inl hx'))
    · refine nodup_zip (fun i f v hf hv => (field_nodup (d := d) (self := .struct fs) (hg i f v hf hv)).2) ?_
      intro i j f g v w x hf hv hg' hw hx hx'
      exact hd.distinct i j f g x hf hg' (mem i f v x hf hv (.inr hx)) (mem j g w x hg' hw (.inr hx'))
    · intro x hx y hy e
      subst e
      obtain ⟨i, f, v, hf, hv, hx⟩ := mem_zip_flatten hx
      obtain ⟨j, g, w, hg', hw, hy⟩ := mem_zip_flatten hy
      have := hd.distinct i j f g x hf hg' (mem i f v x hf hv (.inl hx)) (mem j g w x hg' hw (.inr hy))
      subst this
      rw [hf] at hg'; cases hg'
      rw [hv] at hw; cases hw
      rcases field_own_or (L := L) (env := env) (d := d) (self := .struct fs) (f := f) (v := v) with h | h
      · rw [h] at hx; cases hx
      · rw [h] at hy; cases hy
  refine ⟨hdec, ?_, ?_, hnd, ?_⟩
  · intro sc h1 h2 hc
    rw [encTy_inner_struct hp] at hc ⊢
    exact hkids sc h1 h2 hc
  · intro sc h1 h2 a ha
    obtain ⟨h3, i, f, hf, h4⟩ := hattr sc h1 h2 a ha
    refine ⟨h3, ?_⟩
    rcases h4 with ⟨h4, h5⟩ | ⟨h4, q, h5, h6⟩
    · rw [h5]; exact .own p d f hp (List.mem_of_getElem? hf) h4
    · exact .flat p d f q _ hp (List.mem_of_getElem? hf) h4 h5 h6
  · intro pl sc hb hnm hs hc
    rw [encTy_struct hp] at hc ⊢
    exact wrap_ok hG (fun e he => declares_in hN (hdec e he)) hs hd.own hb hnm
      (fun sc' h1 h2 => name_ok hG (hown sc' h1) h2 hd.name.2 hd.name.1) (fun sc' h1 h2 a ha => (hattr sc' h1 h2 a ha).1) hnd
      (fun sc' _ _ h1 h2 h3 => hkids sc' h1 h2 h3) hc

/-! ### Enums -/

theorem elem_ok {sc : NsMap} {nm : Str} (hq : isQName nm = true) (hb : Bound sc nm) {kids : List WNode} (h : WNode.OkL sc kids) :
    WNode.Ok sc (.elem nm [] [] kids) := ⟨hq, hb, declsOk_nil sc, attrsOk_nil _, h⟩

theorem variantItems_ok {t : FTy} {xs : List Val} {sc : NsMap} {nm : Str} (hq : isQName nm = true) (hb : Bound sc nm)
    (h : ∀ x ∈ xs, ∀ q, t = .struct q → WNode.CharsL (encTy L env .inner q x) → WNode.OkL sc (encTy L env .inner q x))
    (hc : WNode.CharsL (encVariantItems L env nm t xs)) : WNode.OkL sc (encVariantItems L env nm t xs) := by
  induction xs with
  | nil => rw [encVariantItems]; trivial
  | cons x xs ih =>
    rw [encVariantItems.eq_def L env nm t (x :: xs)] at hc ⊢
    dsimp only at hc ⊢
    refine ⟨?_, ih (fun y hy => h y (by simp [hy])) hc.2⟩
    have h1 := hc.1
    cases t with
    | struct q => exact elem_ok hq hb (h x (by simp) q rfl h1.2)
    | _ => exact leaf_okT hq hb h1.2.1

theorem named_ok {root : Attrs} (hG : NsTable G) {sc : NsMap} (hsd : ∀ e ∈ root.decls, e ∈ sc) (hs : ∀ e ∈ sc, e ∈ G) :
    ∀ (fds : List FieldDef) (vs : List Val), (∀ f ∈ fds, isNCName f.label = true ∧ PfxIn root f.attrs.pfx) →
      (∀ (j : Nat) (f : FieldDef) (v : Val), fds[j]? = some f → vs[j]? = some v → WfVal L env G f.ty v) →
      WNode.CharsL (encNamed L env root fds vs) → WNode.OkL sc (encNamed L env root fds vs) := by
  intro fds
  induction fds with
  | nil => intro vs _ _ _; rw [encNamed.eq_def]; cases vs <;> trivial
  | cons f fds ih =>
    intro vs hl hg hc
    cases vs with
    | nil => rw [encNamed.eq_def]; trivial
    | cons v vs =>
      rw [encNamed.eq_def L env root (f :: fds)] at hc ⊢
      dsimp only at hc ⊢
      obtain ⟨h1, h2⟩ := charsL_append.mp hc
      obtain ⟨hl1, hl2⟩ := hl f (by simp)
      obtain ⟨hq, hb⟩ : isQName (f.written root) = true ∧ Bound sc (f.written root) := name_ok hG hsd hs hl2 hl1
      have hgood := hg 0 f v rfl rfl
      refine okL_append.mpr ⟨?_, ih vs (fun g hg' => hl g (by simp [hg'])) (fun j g w h3 h4 => hg (j + 1) g w h3 h4) h2⟩
      have pl : ∀ nm, (⟨some (f.written root), false⟩ : Place).name = some nm → isQName nm = true ∧ Bound sc nm := by
        intro nm h; cases h; exact ⟨hq, hb⟩
      split at h1
      · exact ⟨leaf_okT hq hb h1.1.2.1, trivial⟩
      · rename_i q heq
        rw [heq] at hgood
        exact WfTy.elem hgood _ sc rfl pl hs h1
      · rename_i q xs heq
        rw [heq] at hgood
        exact items_ok (fun x hx => WfTy.elem (hgood x hx) _ sc rfl pl hs) h1
      · rename_i t xs hns heq
        rw [okL_iff]
        rw [charsL_iff] at h1
        intro k hk
        obtain ⟨x, hx, rfl⟩ := List.mem_map.mp hk
        exact h1 _ hk
      · trivial

theorem enum_wf (hN : NamesOk env G) {p : Path} {d : EnumDef} (hp : env p = some (.enum d)) {i : Nat} {vd : VariantDef}
    (hv : d.variants[i]? = some vd) {pay : List Val}
    (hnew : ∀ t, vd.shape = .newtype t → ∀ x ∈ pay, WfVal L env G t x)
    (hnamed : ∀ fds, vd.shape = .named fds → ∀ (j : Nat) (f : FieldDef) (v : Val), fds[j]? = some f → pay[j]? = some v →
      WfVal L env G f.ty v) :
    WfTy L env G p (.enum i pay) := by
  have hG := hN.table
  have hd := hN.enum p d hp
  have hmem := List.mem_of_getElem? hv
  have hdec : ∀ e ∈ encTyDecls env p (.enum i pay), e ∈ d.attrs.decls := by
    intro e he; rw [encTyDecls_enum hp] at he; exact he
  have hattrs : encTyAttrs L env p (.enum i pay) = tagAttrs d vd := by
    rw [encTyAttrs.eq_def, hp]
    dsimp only
    rw [hv]
  have henc : ∀ pl, encTy L env pl p (.enum i pay) = wrap d.attrs pl (d.attrs.written d.name) (encTyAttrs L env p (.enum i pay))
      (firstDecls (encTyDecls env p (.enum i pay)))
      (match vd.shape with
        | .named fds => encNamed L env d.attrs fds pay
        | _ => encVariant L env pl d.attrs vd pay) := by
    intro pl
    rw [hattrs, encTyDecls_enum hp, encTy.eq_def, hp]
    dsimp only
    rw [hv]
    dsimp only
    cases vd.shape <;> rfl
  -- the content
  have hkids : ∀ (pl : Place) (sc : NsMap), (∀ e ∈ d.attrs.decls, e ∈ sc) → (∀ e ∈ sc, e ∈ G) →
      (pl.bare = false → ∀ nm, pl.name = some nm → isQName nm = true ∧ Bound sc nm) →
      (pl.bare = true → pl = .inner) →
      WNode.CharsL (match vd.shape with
        | .named fds => encNamed L env d.attrs fds pay
        | _ => encVariant L env pl d.attrs vd pay) →
      WNode.OkL sc (match vd.shape with
        | .named fds => encNamed L env d.attrs fds pay
        | _ => encVariant L env pl d.attrs vd pay) := by
    intro pl sc h1 h2 hpl hinner hc
    obtain ⟨hl, hpf⟩ := hd.variant vd hmem
    obtain ⟨hq, hb⟩ : isQName (vd.written d.attrs) = true ∧ Bound sc (vd.written d.attrs) := name_ok hG h1 h2 hpf hl
    have hbare : ∀ t q, vd.shape = .newtype t → t.core = .struct q → ∀ x, WfTy L env G q x →
        WNode.CharsL (encTy L env .inner q x) → WNode.OkL sc (encTy L env .inner q x) := by
      intro t q hs ht x hx
      exact hx.inner sc (fun e he => h1 e (hd.bare vd hmem t q hs ht e (hx.decls e he))) h2
    have hvar : (∀ fds, vd.shape ≠ .named fds) → WNode.CharsL (encVariant L env pl d.attrs vd pay) →
        WNode.OkL sc (encVariant L env pl d.attrs vd pay) := by
      clear hc
      intro hnn hc
      rw [encVariant.eq_def] at hc ⊢
      split at hc
      · split at hc
        · simp_all [WNode.OkL]
        · rename_i ht
          simp only [ht]
          exact ⟨hc.1, trivial⟩
      · exact ⟨leaf_okT hq hb hc.1.2.1, trivial⟩
      · exact ⟨leaf_okT hq hb hc.1.2.1, trivial⟩
      · rename_i q x r hs
        exact ⟨elem_ok hq hb (hbare _ q hs rfl x (hnew _ hs (.some x) (by simp)) hc.1.2), trivial⟩
      · trivial
      · rename_i t xs r hs
        refine variantItems_ok hq hb (fun x hx q ht => ?_) hc
        subst ht
        exact hbare _ q hs rfl x (hnew _ hs (.vec xs) (by simp) x hx)
      · rename_i q x r hs
        have hx : WfTy L env G q x := hnew _ hs x (by simp)
        split at hc
        · rename_i hfl
          simp only [hfl, if_true]
          by_cases hbr : pl.bare = true
          · rw [hinner hbr] at hc ⊢
            exact hbare _ q hs rfl x hx hc
          · exact hx.elem pl sc (by simpa using hbr) (hpl (by simpa using hbr)) h2 hc
        · rename_i hfl
          simp only [hfl]
          exact ⟨elem_ok hq hb (hbare _ q hs rfl x hx hc.1.2), trivial⟩
      · trivial
    cases hs : vd.shape with
    | named fds =>
      rw [hs] at hc
      exact named_ok hG h1 h2 fds pay (hd.named vd hmem fds hs) (hnamed fds hs) hc
    | unit => rw [hs] at hc; exact hvar (by rw [hs]; simp) hc
    | newtype t => rw [hs] at hc; exact hvar (by rw [hs]; simp) hc
  have hattr : ∀ sc : NsMap, ∀ a ∈ encTyAttrs L env p (.enum i pay), AttrNameOk sc a.name.raw ∧ WritesAttr env p a.name.raw := by
    intro sc a ha
    rw [hattrs] at ha
    unfold tagAttrs at ha
    split at ha
    · rename_i t ht
      simp only [List.mem_singleton] at ha
      subst ha
      obtain ⟨h1, h2⟩ := hd.tag t ht
      have hsp := splitColon_none (ncName_noColon h1)
      refine ⟨?_, .tag p d t hp ht⟩
      show AttrNameOk sc t
      unfold AttrNameOk isQName
      rw [hsp]
      exact ⟨h1, h2, trivial⟩
    · cases ha
  have hnd : ((encTyAttrs L env p (.enum i pay)).map fun a => a.name.raw).Nodup := by
    rw [hattrs]
    unfold tagAttrs
    split <;> simp
  refine ⟨fun e he => .enum p d e hp (hdec e he), ?_, fun sc _ _ => hattr sc, hnd, ?_⟩
  · intro sc h1 h2 hc
    rw [henc] at hc ⊢
    simp only [wrap, Place.inner, Bool.or_true, if_true] at hc ⊢
    exact hkids .inner sc (fun e he => h1 e (by rw [encTyDecls_enum hp]; exact he)) h2 (by intro h; cases h) (fun _ => rfl) hc
  · intro pl sc hb hnm hs hc
    rw [henc] at hc ⊢
    refine wrap_ok hG (fun e he => hd.decls e (hdec e he)) hs hd.own hb hnm ?_ (fun sc' _ _ a ha => (hattr sc' a ha).1) hnd ?_ hc
    · intro sc' h1 h2
      exact name_ok hG (fun e he => h1 e (by rw [encTyDecls_enum hp]; exact he)) h2 hd.name.2 hd.name.1
    · intro sc' h0 h0' h1 h2 h3
      exact hkids pl sc' (fun e he => h1 e (by rw [encTyDecls_enum hp]; exact he)) h2
        (fun _ nm hn => ⟨(hnm nm hn).1, h0' _ (hnm nm hn).2⟩) (by intro h; rw [hb] at h; cases h) h3

theorem prim_wf (hN : NamesOk env G) {p : Path} {d : PrimDef} (hp : env p = some (.prim d)) (v : Val) : WfTy L env G p v := by
  have h1 : encTyDecls env p v = [] := by rw [encTyDecls.eq_def, hp]
  have h2 : encTyAttrs L env p v = [] := by rw [encTyAttrs.eq_def, hp]
  have h3 : ∀ pl, encTy L env pl p v = wrap { flatten := d.bare } pl d.name [] [] [.text (d.toStr v)] := by
    intro pl; rw [encTy.eq_def, hp]
  refine ⟨by rw [h1]; simp, ?_, by rw [h2]; simp, by rw [h2]; simp, ?_⟩
  · intro sc _ _ hc
    rw [h3] at hc ⊢
    simp only [wrap, Place.inner, Bool.or_true, if_true] at hc ⊢
    exact ⟨hc.1, trivial⟩
  · intro pl sc hb hnm _ hc
    rw [h3] at hc ⊢
    cases hd : d.bare with
    | true =>
      rw [hd] at hc
      simp only [wrap, Bool.true_or, if_true] at hc ⊢
      exact ⟨hc.1, trivial⟩
    | false =>
    rw [hd] at hc
    have hw : wrap { flatten := false } pl d.name [] [] [.text (d.toStr v)] = [.elem (pl.name.getD d.name) [] [] [.text (d.toStr v)]] := by
      unfold wrap; simp [hb]
    rw [hw] at hc ⊢
    have : isQName (pl.name.getD d.name) = true ∧ Bound sc (pl.name.getD d.name) := by
      cases hn : pl.name with
      | some x => exact hnm x hn
      | none =>
        have h := hN.prim p d hp
        have hsp := splitColon_none (ncName_noColon h)
        simp only [Option.getD_none]
        unfold isQName Bound
        rw [hsp]
        exact ⟨h, trivial⟩
    exact ⟨elem_ok this.1 this.2 ⟨hc.1.2.1, trivial⟩, trivial⟩

/-- Every value is written well-formed. -/
theorem good_of_hasTy (hN : NamesOk env G) {t : FTy} {v : Val} (h : HasTy env t v) : WfVal L env G t v := by
  induction h with
  | str | bool | int | f32 | f64 => trivial
  | none t => trivial
  | some t v h ih => exact ih
  | vec t vs h ih => exact ih
  | struct p d fs hp hlen h ih => exact struct_wf hN hp hlen h ih
  | unit p d i vd hp hv hs =>
    exact enum_wf hN hp hv (by rw [hs]; intro t h; cases h) (by rw [hs]; intro t h; cases h)
  | newtype p d i vd t x hp hv hs h ih =>
    refine enum_wf hN hp hv ?_ (by rw [hs]; intro t h; cases h)
    rw [hs]
    intro t' h x' hx'
    cases h
    simp only [List.mem_singleton] at hx'
    rw [hx']
    exact ih
  | named p d i vd fds fs hp hv hs hlen h ih =>
    refine enum_wf hN hp hv (by rw [hs]; intro t h; cases h) ?_
    rw [hs]
    intro fds' h
    cases h
    exact ih
  | prim p d v hp hd => exact prim_wf hN hp v

theorem doc_ok (hN : NamesOk env G) {p : Path} {v : Val} (h : HasTy env (.struct p) v)
    (hc : WNode.CharsL (encTy L env .root p v)) : WNode.OkL [] (encTy L env .root p v) :=
  WfTy.elem (good_of_hasTy (L := L) hN h) .root [] rfl (by simp [Place.root]) (by simp) hc

/-- The document is one element. -/
theorem doc_one (hN : NamesOk env G) {p : Path} (he : HasElement env p) {v : Val} (h : HasTy env (.struct p) v) :
    ∃ n as nss ks, encTy L env .root p v = [.elem n as nss ks] := by
  cases h with
  | struct p d fs hp hlen h =>
    rw [encTy_struct hp]
    unfold wrap
    simp [(hN.struct p d hp).own, Place.root]
  | unit p d i vd hp hv hs =>
    rw [encTy.eq_def, hp]; dsimp only; rw [hv]; dsimp only
    unfold wrap
    simp [(hN.enum p d hp).own, Place.root]
  | newtype p d i vd t x hp hv hs h =>
    rw [encTy.eq_def, hp]; dsimp only; rw [hv]; dsimp only
    unfold wrap
    simp [(hN.enum p d hp).own, Place.root]
  | named p d i vd fds fs hp hv hs hlen h =>
    rw [encTy.eq_def, hp]; dsimp only; rw [hv]; dsimp only
    unfold wrap
    simp [(hN.enum p d hp).own, Place.root]
  | prim p d v hp hd =>
    rw [encTy.eq_def, hp]; dsimp only
    unfold wrap
    simp [he d hp, Place.root]

end

end Yaserde
