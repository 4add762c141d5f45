import Verif.Proofs.WellFormed
/-
Legal values are written with legal characters.
-/

set_option autoImplicit false

namespace Yaserde

open Classical
open XmlText (splitColon_some)

/-! ### Names are legal texts -/

theorem namePart_ok {c : Char} (h : isNamePart c = true) : isDocChar c = true ∧ c ≠ '\r' ∧ c ≠ '\t' := by
  refine ⟨?_, ?_, ?_⟩
  · simp only [isNamePart, isNameStart, isDocChar, Bool.or_eq_true, Bool.and_eq_true, decide_eq_true_eq, beq_iff_eq] at h ⊢
    omega
  · rintro rfl; revert h; decide
  · rintro rfl; revert h; decide

theorem ncName_text {s : Str} (h : isNCName s = true) : isAttrText s = true := by
  cases s with
  | nil => rfl
  | cons c cs =>
    simp only [isNCName, Bool.and_eq_true, List.all_eq_true] at h
    unfold isAttrText
    rw [List.all_eq_true]
    intro x hx
    have hp : isNamePart x = true := by
      rcases List.mem_cons.mp hx with rfl | hx
      · simp [isNamePart, h.1]
      · exact h.2 x hx
    obtain ⟨h1, h2, h3⟩ := namePart_ok hp
    simp [h1, h2, h3]

theorem text_of_attrText {s : Str} (h : isAttrText s = true) : isText s = true := by
  unfold isText
  unfold isAttrText at h
  rw [List.all_eq_true] at h ⊢
  intro x hx
  have := h x hx
  simp only [Bool.and_eq_true] at this ⊢
  exact this.1

theorem isText_append {a b : Str} : isText (a ++ b) = true ↔ isText a = true ∧ isText b = true := by
  simp [isText, List.all_append]

theorem text_written {root : Attrs} {pfx : Option Str} {label : Str} (hp : PfxIn root pfx) (hl : isNCName label = true) {G : NsMap}
    (hG : NsTable G) (hd : ∀ e ∈ root.decls, e ∈ G) : isText (qualify root.defaultNs pfx label) = true := by
  have hq := (name_ok hG hd (fun e he => he) hp hl).1
  unfold isQName at hq
  split at hq
  · exact text_of_attrText (ncName_text hq)
  · rename_i p l hs
    simp only [Bool.and_eq_true] at hq
    rw [splitColon_some hs]
    simp only [isText_append]
    exact ⟨⟨text_of_attrText (ncName_text hq.1), by decide⟩, text_of_attrText (ncName_text hq.2)⟩

section
variable {L : Lib} {env : Env} {G : NsMap}

/-- What is written for a value of the type has legal characters. -/
def ChTy (L : Lib) (env : Env) (p : Path) (v : Val) : Prop :=
  (∀ pl, WNode.CharsL (encTy L env pl p v)) ∧ ∀ a ∈ encTyAttrs L env p v, isAttrText a.value = true

def ChGood (L : Lib) (env : Env) : FTy → Val → Prop
  | .simple _, v => isText (showS L v) = true
  | .struct q, v => ChTy L env q v
  | .opt t, .some x => ChGood L env t x
  | .vec t, .vec xs => ∀ x ∈ xs, ChGood L env t x
  | _, _ => True

theorem wrap_chars {a : Attrs} {pl : Place} {nm : Str} {as : List Attr} {nss : NsMap} {kids : List WNode}
    (h1 : ∀ a ∈ as, isAttrText a.value = true) (h2 : WNode.CharsL kids) : WNode.CharsL (wrap a pl nm as nss kids) := by
  unfold wrap
  split
  · exact h2
  · exact ⟨⟨h1, h2⟩, trivial⟩

theorem leaf_chars {nm s : Str} (h : isText s = true) : (leaf nm s).Chars := ⟨by simp, h, trivial⟩

theorem items_chars {q : Path} {xs : List Val} {pl : Place} (h : ∀ x ∈ xs, ChTy L env q x) :
    WNode.CharsL (encItems L env pl q xs) := by
  induction xs with
  | nil => rw [encItems]; trivial
  | cons x xs ih =>
    rw [encItems]
    exact charsL_append.mpr ⟨(h x (by simp)).1 pl, ih fun y hy => h y (by simp [hy])⟩

/-- Texts of the values of scalar types; other types are not written as text. -/
theorem optItems_chars {t : FTy} {xs : List Val} (ht : (∃ s, t = .simple s) ∨ ∃ q, t = .struct q)
    (h : ∀ x ∈ xs, ChGood L env (.opt t) x) : WNode.CharsL (encOptItems L env t xs) := by
  induction xs with
  | nil => rw [encOptItems]; trivial
  | cons x xs ih =>
    have ih' := ih (fun y hy => h y (by simp [hy]))
    cases x with
    | some x =>
      rw [encOptItems.eq_def L env t (.some x :: xs)]
      dsimp only
      refine charsL_append.mpr ⟨?_, ih'⟩
      have hx := h (.some x) (by simp)
      rcases ht with ⟨s, rfl⟩ | ⟨q, rfl⟩
      · exact ⟨hx, trivial⟩
      · exact hx.1 .root
    | _ =>
      rw [encOptItems.eq_def L env t (_ :: xs)]
      exact ih'

theorem variantItems_chars {nm : Str} {t : FTy} {xs : List Val} (ht : (∃ s, t = .simple s) ∨ ∃ q, t = .struct q)
    (h : ∀ x ∈ xs, ChGood L env t x) : WNode.CharsL (encVariantItems L env nm t xs) := by
  induction xs with
  | nil => rw [encVariantItems]; trivial
  | cons x xs ih =>
    have ih' := ih (fun y hy => h y (by simp [hy]))
    rw [encVariantItems.eq_def L env nm t (x :: xs)]
    dsimp only
    have hx := h x (by simp)
    rcases ht with ⟨s, rfl⟩ | ⟨q, rfl⟩
    · exact ⟨leaf_chars hx, ih'⟩
    · exact ⟨⟨by simp, hx.1 .inner⟩, ih'⟩

theorem field_chars {f : FieldDef} {root : Attrs} {self v : Val} (hf : f.SerOk) (hg : ChGood L env f.ty v)
    (hcd : ∀ s, v = .str s → f.attrs.cdata = true → isCdata s)
    (htx : f.attrs.text = true → isText (fieldText v) = true) : WNode.CharsL (encFields L env root self [f] [v]) := by
  rw [encFields.eq_def]
  dsimp only
  rw [encFields.eq_def L env root self [] [], List.append_nil]
  by_cases h1 : f.attrs.isAttr = true
  · rw [if_pos h1]; trivial
  rw [if_neg h1]
  unfold FieldDef.SerOk at hf
  rw [if_neg h1] at hf
  by_cases h2 : f.attrs.text = true
  · rw [if_pos h2] at hf ⊢
    exact ⟨htx h2, trivial⟩
  rw [if_neg h2] at hf ⊢
  by_cases h3 : (f.attrs.skipSer || !decide (f.selected self v)) = true
  · rw [if_pos h3]; trivial
  rw [if_neg h3]
  by_cases h4 : f.attrs.cdata = true
  · rw [if_pos h4]
    split
    · exact ⟨⟨by simp, hcd _ rfl h4, trivial⟩, trivial⟩
    · trivial
  rw [if_neg h4] at hf ⊢
  split
  · rename_i heq; rw [heq] at hg; exact ⟨leaf_chars hg, trivial⟩
  · rename_i heq; rw [heq] at hg; exact ⟨leaf_chars hg, trivial⟩
  · rename_i heq
    rw [heq] at hg
    rw [charsL_iff]
    intro k hk
    obtain ⟨x, hx, rfl⟩ := List.mem_map.mp hk
    exact leaf_chars (hg x hx)
  · rename_i heq; rw [heq] at hg; exact hg.1 _
  · rename_i heq; rw [heq] at hg; exact hg.1 _
  · rename_i heq
    rw [heq] at hg
    rw [charsL_iff]
    intro k hk
    obtain ⟨x, hx, rfl⟩ := List.mem_map.mp hk
    exact leaf_chars (hg x hx)
  · rename_i t xs heq
    rw [heq] at hg hf
    refine optItems_chars ?_ hg
    cases t with
    | simple s => exact .inl ⟨s, rfl⟩
    | struct q => exact .inr ⟨q, rfl⟩
    | _ => exact absurd hf (by simp)
  · rename_i heq; rw [heq] at hg; exact items_chars hg
  · trivial

theorem own_chars {f : FieldDef} {root : Attrs} {self v : Val} (h : f.attrs.isAttr = true → AttrLegal L env f.ty v) :
    ∀ a ∈ encOwn L env root self [f] [v], isAttrText a.value = true := by
  intro a ha
  rw [encOwn.eq_def] at ha
  dsimp only at ha
  rw [encOwn.eq_def L env root self [] [], List.append_nil] at ha
  split at ha
  · rename_i hat
    simp only [Bool.and_eq_true] at hat
    have hl := h hat.1
    split at ha
    · rename_i heq; rw [heq] at hl; simp only [List.mem_singleton] at ha; rw [ha]; exact hl
    · rename_i heq; rw [heq] at hl; simp only [List.mem_singleton] at ha; rw [ha]; exact hl
    · rename_i heq; rw [heq] at hl; simp only [List.mem_singleton] at ha; rw [ha]; exact hl
    · rename_i heq; rw [heq] at hl; simp only [List.mem_singleton] at ha; rw [ha]; exact hl
    · cases ha
  · cases ha

theorem inherited_chars {f : FieldDef} {v : Val} (hg : ChGood L env f.ty v) :
    ∀ a ∈ encInherited L env [f] [v], isAttrText a.value = true := by
  intro a ha
  rw [encInherited.eq_def] at ha
  dsimp only at ha
  rw [encInherited.eq_def L env [] [], List.append_nil] at ha
  split at ha
  · split at ha
    · rename_i heq; rw [heq] at hg; exact hg.2 a ha
    · cases ha
  · cases ha

theorem named_chars {root : Attrs} : ∀ (fds : List FieldDef) (vs : List Val), (∀ f ∈ fds, f.ty.NamedOk) →
      (∀ (j : Nat) (f : FieldDef) (v : Val), fds[j]? = some f → vs[j]? = some v → ChGood L env f.ty v) →
      WNode.CharsL (encNamed L env root fds vs) := by
  intro fds
  induction fds with
  | nil => intro vs _ _; rw [encNamed.eq_def]; cases vs <;> trivial
  | cons f fds ih =>
    intro vs hok hg
    cases vs with
    | nil => rw [encNamed.eq_def]; trivial
    | cons v vs =>
      rw [encNamed.eq_def L env root (f :: fds)]
      dsimp only
      refine charsL_append.mpr ⟨?_, ih vs (fun g hg' => hok g (by simp [hg'])) (fun j g w h3 h4 => hg (j + 1) g w h3 h4)⟩
      have hgood := hg 0 f v rfl rfl
      have hf := hok f (by simp)
      split
      · rename_i heq; rw [heq] at hgood; exact ⟨leaf_chars hgood, trivial⟩
      · rename_i heq; rw [heq] at hgood; exact hgood.1 _
      · rename_i heq; rw [heq] at hgood; exact items_chars hgood
      · rename_i t xs hns heq
        rw [heq] at hgood hf
        rw [charsL_iff]
        intro k hk
        obtain ⟨x, hx, rfl⟩ := List.mem_map.mp hk
        cases t with
        | simple s => exact hgood x hx
        | struct q => exact absurd rfl (hns q)
        | _ => exact absurd hf (by simp [FTy.NamedOk])
      · trivial

theorem chars_of_legal (hN : NamesOk env G) (hok : SerOk env) {t : FTy} {v : Val} (h : Legal L env t v) : ChGood L env t v := by
  induction h with
  | simple t v h => exact h
  | none t => trivial
  | some t v h ih => exact ih
  | vec t vs h ih => exact ih
  | struct p d fs hp h attr cdata text ih =>
    have hattr : ∀ a ∈ encOwn L env d.attrs (.struct fs) d.fields fs ++ encInherited L env d.fields fs, isAttrText a.value = true := by
      intro a ha
      rw [encOwn_zip, encInherited_zip] at ha
      rcases List.mem_append.mp ha with ha | ha
      · obtain ⟨i, f, v, hf, hv, hm⟩ := mem_zip_flatten ha
        exact own_chars (attr i f v hf hv) a hm
      · obtain ⟨i, f, v, hf, hv, hm⟩ := mem_zip_flatten ha
        exact inherited_chars (ih i f v hf hv) a hm
    constructor
    · intro pl
      rw [encTy.eq_def, hp]
      dsimp only
      refine wrap_chars hattr ?_
      rw [charsL_iff]
      intro k hk
      rw [encFields_zip] at hk
      obtain ⟨i, f, v, hf, hv, hm⟩ := mem_zip_flatten hk
      exact charsL_iff.mp (field_chars (hok.fields p d hp f (List.mem_of_getElem? hf)) (ih i f v hf hv)
        (fun s hs hcd => cdata i f s hf (hs ▸ hv) hcd) (text i f v hf hv)) k hm
    · rw [encTyAttrs.eq_def, hp]; exact hattr
  | enum p d i pay vd hp hv new named ihn ihf =>
    have hd := hN.enum p d hp
    have hmem := List.mem_of_getElem? hv
    obtain ⟨hl, hpf⟩ := hd.variant vd hmem
    have htag : ∀ a ∈ tagAttrs d vd, isAttrText a.value = true := by
      intro a ha
      unfold tagAttrs at ha
      split at ha
      · simp only [List.mem_singleton] at ha; rw [ha]; exact ncName_text hl
      · cases ha
    have hwr : isText (vd.written d.attrs) = true := text_written hpf hl hN.table hd.decls
    constructor
    · intro pl
      rw [encTy.eq_def, hp]
      dsimp only
      rw [hv]
      dsimp only
      refine wrap_chars htag ?_
      cases hs : vd.shape with
      | named fds => exact named_chars fds pay (hok.named p d hp vd hmem fds hs) (ihf fds hs)
      | unit =>
        dsimp only
        rw [encVariant.eq_def, hs]
        dsimp only
        split
        · trivial
        · exact ⟨hwr, trivial⟩
      | newtype t =>
        dsimp only
        have ht := hok.variants p d hp vd hmem t hs
        have hx := ihn t hs
        rw [encVariant.eq_def, hs]
        split
        · rename_i heq; cases heq
        · rename_i heq; cases heq; exact ⟨leaf_chars (hx _ (by simp)), trivial⟩
        · rename_i x _ heq; cases heq; exact ⟨leaf_chars (hx (.some x) (by simp)), trivial⟩
        · rename_i x _ heq; cases heq; exact ⟨⟨by simp, (hx (.some x) (by simp)).1 _⟩, trivial⟩
        · trivial
        · rename_i t xs _ heq
          cases heq
          refine variantItems_chars ?_ (hx (.vec xs) (by simp))
          cases t with
          | simple s => exact .inl ⟨s, rfl⟩
          | struct q => exact .inr ⟨q, rfl⟩
          | _ => exact absurd ht (by simp [FTy.VariantOk])
        · rename_i q x _ heq
          cases heq
          have := hx x (by simp)
          split
          · exact this.1 pl
          · exact ⟨⟨by simp, this.1 _⟩, trivial⟩
        · trivial
    · rw [encTyAttrs.eq_def, hp]
      dsimp only
      rw [hv]
      exact htag
  | prim p d v hp h =>
    constructor
    · intro pl
      rw [encTy.eq_def, hp]
      exact wrap_chars (by simp) ⟨h, trivial⟩
    · rw [encTyAttrs.eq_def, hp]; simp

end

end Yaserde
