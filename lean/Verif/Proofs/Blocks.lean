import Verif.Proofs.Encode
import Mathlib.Data.List.Forall2
import Verif.Spec.Blocks
/-
The encoding of a struct, field by field; invariance of the encoding under changes of the value.
-/

set_option autoImplicit false

namespace Yaserde

variable {L : Lib} {env : Env}

theorem encItems_flatMap (pl : Place) (p : Path) (xs : List Val) :
    encItems L env pl p xs = xs.flatMap fun x => encTy L env pl p x := by
  induction xs with
  | nil => rw [encItems.eq_def]; rfl
  | cons x xs ih => rw [encItems.eq_def]; dsimp only; rw [ih, List.flatMap_cons]

theorem encOptItems_struct (p : Path) (xs : List Val) :
    encOptItems L env (.struct p) xs = xs.flatMap fun
      | .some x => encTy L env .root p x
      | _ => [] := by
  induction xs with
  | nil => rw [encOptItems.eq_def]; rfl
  | cons x xs ih =>
    rw [encOptItems.eq_def, List.flatMap_cons, ← ih]
    cases x <;> rfl

theorem encOptItems_simple (t : STy) (xs : List Val) :
    encOptItems L env (.simple t) xs = xs.flatMap fun
      | .some x => [.text (showS L x)]
      | _ => [] := by
  induction xs with
  | nil => rw [encOptItems.eq_def]; rfl
  | cons x xs ih =>
    rw [encOptItems.eq_def, List.flatMap_cons, ← ih]
    cases x <;> rfl

theorem Blocks.cons {α : Type} {R : FieldDef → Val → List α → Prop} {f : FieldDef} {v : Val} {b : List α}
    {fds : List FieldDef} {vs : List Val} {bs : List (List α)} (h : R f v b) (hs : Blocks R fds vs bs) :
    Blocks R (f :: fds) (v :: vs) (b :: bs) := by
  refine ⟨by simp [hs.1], ?_⟩
  intro i g w c hg hw hc
  cases i with
  | zero => simp at hg hw hc; subst hg hw hc; exact h
  | succ i => exact hs.2 i g w c hg hw hc

theorem omitted_iff (f : FieldDef) (self v : Val) :
    (f.attrs.skipSer || !decide (f.selected self v)) = true ↔ f.omitted self v := by
  unfold FieldDef.omitted; simp

/-- The children of a struct's element are the blocks of its fields. -/
theorem encFields_blocks (root : Attrs) (self : Val) (fds : List FieldDef) (vs : List Val)
    (hlen : vs.length = fds.length)
    (h : ∀ (i : Nat) (f : FieldDef) (v : Val), fds[i]? = some f → vs[i]? = some v → f.SerOk ∧ HasTy env f.ty v) :
    ∃ bs, encFields L env root self fds vs = bs.flatten ∧ Blocks (Block L env root self) fds vs bs := by
  induction fds generalizing vs with
  | nil =>
    refine ⟨[], ?_, rfl, by simp⟩
    rw [encFields.eq_def]; rfl
  | cons f fds ih =>
  cases vs with
  | nil => simp at hlen
  | cons v vs =>
  obtain ⟨bs, e, hbs⟩ := ih vs (by simpa using hlen) fun i g w hg hw => h (i + 1) g w hg hw
  obtain ⟨hs, ht⟩ := h 0 f v rfl rfl
  rw [encFields.eq_def]
  dsimp only
  rw [e]
  suffices H : ∀ b, Block L env root self f v b → ∃ bs', b ++ bs.flatten = bs'.flatten ∧ Blocks (Block L env root self) (f :: fds) (v :: vs) bs' by
    apply H
    clear H ih h e hbs
    unfold FieldDef.SerOk at hs
    by_cases ha : f.attrs.isAttr = true
    · rw [if_pos ha]; exact .attr _ _ ha
    rw [if_neg ha] at hs ⊢
    have ha : f.attrs.isAttr = false := by simpa using ha
    by_cases htx : f.attrs.text = true
    · rw [if_pos htx] at hs ⊢
      rcases hs with hs | hs
      all_goals
        rw [hs] at ht
        cases ht
      · exact .text _ _ ha htx
      · exact .textNone _ ha htx
      · rename_i ht; cases ht
        exact .textSome _ _ ha htx
    rw [if_neg htx] at hs ⊢
    have htx : f.attrs.text = false := by simpa using htx
    by_cases hsk : (f.attrs.skipSer || !decide (f.selected self v)) = true
    · rw [if_pos hsk]; exact .omitted _ _ ha htx ((omitted_iff ..).1 hsk)
    rw [if_neg hsk]
    have hw : f.Written self v := ⟨ha, htx, fun ho => hsk ((omitted_iff ..).2 ho)⟩
    by_cases hcd : f.attrs.cdata = true
    · rw [if_pos hcd] at hs ⊢
      rw [hs] at ht
      cases ht
      exact .cdata _ _ hw hcd
    rw [if_neg hcd] at hs ⊢
    have hcd : f.attrs.cdata = false := by simpa using hcd
    cases hty : f.ty with
    | simple t => exact .scalar _ _ _ hty hw hcd
    | struct p => exact .struct _ _ _ hty hw hcd
    | opt t =>
      rw [hty] at hs ht
      cases t with
      | simple t =>
        cases ht with
        | none => exact .none _ _ hty hw hcd
        | some _ x hx => exact .some _ _ _ hty hw hcd
      | struct p =>
        cases ht with
        | none => exact .none _ _ hty hw hcd
        | some _ x hx => exact .someStruct _ _ _ hty hw hcd
      | vec t =>
        cases t with
        | simple t =>
          cases ht with
          | none => exact .none _ _ hty hw hcd
          | some _ x hx => cases hx; exact .someItems _ _ _ hty hw hcd
        | _ => exact hs.elim
      | opt t => exact hs.elim
    | vec t =>
      rw [hty] at hs ht
      cases ht with
      | vec _ xs hx =>
      cases t with
      | simple t => exact .items _ _ _ hty hw hcd
      | struct p => dsimp only; rw [encItems_flatMap]; exact .structs _ _ _ hty hw hcd
      | vec t => exact hs.elim
      | opt t =>
        cases t with
        | simple t => dsimp only; rw [encOptItems_simple]; exact .optItems _ _ _ hty hw hcd
        | struct p => dsimp only; rw [encOptItems_struct]; exact .optStructs _ _ _ hty hw hcd
        | _ => exact hs.elim
  intro b hb
  exact ⟨b :: bs, rfl, .cons hb hbs⟩

/-- The attributes of a struct's own fields. -/
theorem encOwn_blocks (hok : SerOk env) (root : Attrs) (self : Val) (fds : List FieldDef) (vs : List Val)
    (hlen : vs.length = fds.length)
    (h : ∀ (i : Nat) (f : FieldDef) (v : Val), fds[i]? = some f → vs[i]? = some v → f.SerOk ∧ HasTy env f.ty v) :
    ∃ bs, encOwn L env root self fds vs = bs.flatten ∧ Blocks (AttrBlock L env root self) fds vs bs := by
  induction fds generalizing vs with
  | nil =>
    refine ⟨[], ?_, rfl, by simp⟩
    rw [encOwn.eq_def]; rfl
  | cons f fds ih =>
  cases vs with
  | nil => simp at hlen
  | cons v vs =>
  obtain ⟨bs, e, hbs⟩ := ih vs (by simpa using hlen) fun i g w hg hw => h (i + 1) g w hg hw
  obtain ⟨hs, ht⟩ := h 0 f v rfl rfl
  rw [encOwn.eq_def]
  dsimp only
  rw [e]
  suffices H : ∀ b, AttrBlock L env root self f v b → ∃ bs', b ++ bs.flatten = bs'.flatten ∧ Blocks (AttrBlock L env root self) (f :: fds) (v :: vs) bs' by
    apply H
    clear H ih h e hbs
    unfold FieldDef.SerOk at hs
    by_cases ha : f.attrs.isAttr = true
    · rw [if_pos ha] at hs
      by_cases hsel : f.selected self v
      · rw [if_pos (by simp [ha, hsel])]
        cases hty : f.ty with
        | simple t => exact .plain _ _ _ ha hty hsel
        | struct p =>
          rw [hty] at ht
          exact .struct _ _ _ _ ha hty hsel (encOk hok ht).content
        | opt t =>
          rw [hty] at hs ht
          cases t with
          | simple t =>
            cases ht with
            | none => exact .none _ _ ha hty
            | some _ x hx => exact .some _ _ _ ha hty hsel
          | struct p =>
            cases ht with
            | none => exact .none _ _ ha hty
            | some _ x hx => exact .someStruct _ _ _ _ ha hty hsel (encOk hok hx).content
          | _ => exact hs.elim
        | vec t => exact .vec _ _ _ ha hty
      · rw [if_neg (by simp [hsel])]
        exact .suppressed _ _ ha hsel
    · rw [if_neg (by simp [ha])]
      exact .element _ _ (by simpa using ha)
  intro b hb
  exact ⟨b :: bs, rfl, .cons hb hbs⟩

/-! ### Invariance -/

mutual
  /-- Apply `g` to every text and attribute value. -/
  def WNode.mapText (g : Str → Str) : WNode → WNode
    | .elem n as m ks => .elem n (as.map fun a => ⟨a.name, g a.value⟩) m (WNode.mapTextL g ks)
    | .text s => .text (g s)
    | .cdata s => .cdata (g s)
  def WNode.mapTextL (g : Str → Str) : List WNode → List WNode
    | [] => []
    | k :: ks => k.mapText g :: WNode.mapTextL g ks
end

def mapAttrs (g : Str → Str) (as : List Attr) : List Attr := as.map fun a => ⟨a.name, g a.value⟩

theorem WNode.mapTextL_append (g : Str → Str) (a b : List WNode) :
    WNode.mapTextL g (a ++ b) = WNode.mapTextL g a ++ WNode.mapTextL g b := by
  induction a with
  | nil => rfl
  | cons k a ih => rw [List.cons_append, WNode.mapTextL, WNode.mapTextL, ih]; rfl

mutual
  theorem WNode.mapText_id : ∀ x : WNode, x.mapText id = x
    | .elem n as m ks => by
      rw [WNode.mapText, WNode.mapTextL_id ks]
      simp
    | .text s => rfl
    | .cdata s => rfl
  theorem WNode.mapTextL_id : ∀ xs : List WNode, WNode.mapTextL id xs = xs
    | [] => rfl
    | k :: ks => by rw [WNode.mapTextL, WNode.mapText_id k, WNode.mapTextL_id ks]
end

mutual
  theorem WNode.skel_mapText (g : Str → Str) : ∀ x : WNode, (x.mapText g).skel = x.skel
    | .elem n as m ks => by
      rw [WNode.mapText, WNode.skel, WNode.skel, WNode.skelL_mapText g ks]
      simp [Function.comp_def]
    | .text s => rfl
    | .cdata s => rfl
  theorem WNode.skelL_mapText (g : Str → Str) : ∀ xs : List WNode, WNode.skelL (WNode.mapTextL g xs) = WNode.skelL xs
    | [] => rfl
    | k :: ks => by rw [WNode.mapTextL, WNode.skelL, WNode.skelL, WNode.skel_mapText g k, WNode.skelL_mapText g ks]
end

theorem mapAttrs_append (g : Str → Str) (a b : List Attr) : mapAttrs g (a ++ b) = mapAttrs g a ++ mapAttrs g b :=
  List.map_append

theorem mapText_wrap (g : Str → Str) (a : Attrs) (pl : Place) (name : Str) (as as' : List Attr) (nss : NsMap) (k k' : List WNode)
    (ha : mapAttrs g as = mapAttrs g as') (hk : WNode.mapTextL g k = WNode.mapTextL g k') :
    WNode.mapTextL g (wrap a pl name as nss k) = WNode.mapTextL g (wrap a pl name as' nss k') := by
  unfold wrap
  split
  · exact hk
  · unfold mapAttrs at ha
    simp only [WNode.mapTextL, WNode.mapText, ha, hk]

/-- Written alike, up to `g` on texts. -/
def Alike (g : Str → Str) (L : Lib) (env : Env) : FTy → Val → Val → Prop
  | .simple t, a, b => a = b ∨ HasTy env (.simple t) a ∧ HasTy env (.simple t) b ∧ g (showS L a) = g (showS L b)
  | .opt t, a, b => a = b ∨ ∃ x y, a = .some x ∧ b = .some y ∧ Alike g L env t x y
  | .vec t, a, b => a = b ∨ ∃ xs ys, a = .vec xs ∧ b = .vec ys ∧ List.Forall₂ (Alike g L env t) xs ys
  | .struct p, a, b => (∀ pl, WNode.mapTextL g (encTy L env pl p a) = WNode.mapTextL g (encTy L env pl p b)) ∧
      mapAttrs g (encTyAttrs L env p a) = mapAttrs g (encTyAttrs L env p b) ∧ encTyDecls env p a = encTyDecls env p b

theorem Alike.refl {g : Str → Str} (t : FTy) (a : Val) : Alike g L env t a a := by
  cases t with
  | struct p => exact ⟨fun _ => rfl, rfl, rfl⟩
  | _ => exact .inl rfl

theorem Alike.show_ {g : Str → Str} {t : STy} {a b : Val} (h : Alike g L env (.simple t) a b) :
    g (showS L a) = g (showS L b) := by
  rcases h with rfl | h
  · rfl
  · exact h.2.2

theorem mapText_leaf {g : Str → Str} (n : Str) {s s' : Str} (h : g s = g s') : (leaf n s).mapText g = (leaf n s').mapText g := by
  simp only [leaf, WNode.mapText, WNode.mapTextL, h]

theorem mapText_leaves {g : Str → Str} (n : Str) {t : STy} {xs ys : List Val}
    (h : List.Forall₂ (Alike g L env (.simple t)) xs ys) :
    WNode.mapTextL g (xs.map fun x => leaf n (showS L x)) = WNode.mapTextL g (ys.map fun x => leaf n (showS L x)) := by
  induction h with
  | nil => rfl
  | cons h _ ih =>
    rw [List.map_cons, List.map_cons, WNode.mapTextL, WNode.mapTextL, ih, mapText_leaf n h.show_]

theorem mapText_texts {g : Str → Str} {t : STy} {xs ys : List Val}
    (h : List.Forall₂ (Alike g L env (.simple t)) xs ys) :
    WNode.mapTextL g (xs.map fun x => .text (showS L x)) = WNode.mapTextL g (ys.map fun x => .text (showS L x)) := by
  induction h with
  | nil => rfl
  | cons h _ ih =>
    rw [List.map_cons, List.map_cons, WNode.mapTextL, WNode.mapTextL, ih, WNode.mapText, WNode.mapText, h.show_]

theorem mapText_items {g : Str → Str} {p : Path} (pl : Place) {xs ys : List Val}
    (h : List.Forall₂ (Alike g L env (.struct p)) xs ys) :
    WNode.mapTextL g (encItems L env pl p xs) = WNode.mapTextL g (encItems L env pl p ys) := by
  rw [encItems_flatMap, encItems_flatMap]
  induction h with
  | nil => rfl
  | cons h _ ih =>
    rw [List.flatMap_cons, List.flatMap_cons, WNode.mapTextL_append, WNode.mapTextL_append, ih, h.1 pl]

theorem mapText_optItems {g : Str → Str} {t : FTy} (ht : (∃ s, t = .simple s) ∨ ∃ p, t = .struct p) {xs ys : List Val}
    (h : List.Forall₂ (Alike g L env (.opt t)) xs ys) :
    WNode.mapTextL g (encOptItems L env t xs) = WNode.mapTextL g (encOptItems L env t ys) := by
  rcases ht with ⟨s, rfl⟩ | ⟨p, rfl⟩
  · rw [encOptItems_simple, encOptItems_simple]
    induction h with
    | nil => rfl
    | cons h _ ih =>
      rw [List.flatMap_cons, List.flatMap_cons, WNode.mapTextL_append, WNode.mapTextL_append, ih]
      congr 1
      rcases h with rfl | ⟨x, y, rfl, rfl, h⟩
      · rfl
      · simp only [WNode.mapTextL, WNode.mapText, h.show_]
  · rw [encOptItems_struct, encOptItems_struct]
    induction h with
    | nil => rfl
    | cons h _ ih =>
      rw [List.flatMap_cons, List.flatMap_cons, WNode.mapTextL_append, WNode.mapTextL_append, ih]
      congr 1
      rcases h with rfl | ⟨x, y, rfl, rfl, h⟩
      · rfl
      · exact h.1 _

theorem mapText_variantItems {g : Str → Str} {t : FTy} (n : Str) (ht : (∃ s, t = .simple s) ∨ ∃ p, t = .struct p) {xs ys : List Val}
    (h : List.Forall₂ (Alike g L env t) xs ys) :
    WNode.mapTextL g (encVariantItems L env n t xs) = WNode.mapTextL g (encVariantItems L env n t ys) := by
  induction h with
  | nil => rfl
  | cons h _ ih =>
    rw [encVariantItems.eq_def, encVariantItems.eq_def L env n t (_ :: _)]
    dsimp only
    rw [WNode.mapTextL, WNode.mapTextL, ih]
    congr 1
    rcases ht with ⟨s, rfl⟩ | ⟨p, rfl⟩
    · exact mapText_leaf n h.show_
    · dsimp only
      rw [WNode.mapText, WNode.mapText, h.1]

/-- Fields pairwise alike, except hidden ones. -/
def FieldsAlike (g : Str → Str) (L : Lib) (env : Env) (self self' : Val) (fds : List FieldDef) (as bs : List Val) : Prop :=
  as.length = bs.length ∧ ∀ (i : Nat) (f : FieldDef) (a b : Val), fds[i]? = some f → as[i]? = some a → bs[i]? = some b →
    f.SerOk ∧ (f.hidden ∨ (f.selected self a ↔ f.selected self' b) ∧ Alike g L env f.ty a b)

theorem FieldsAlike.tail {g : Str → Str} {self self' : Val} {f : FieldDef} {fds : List FieldDef} {a b : Val} {as bs : List Val}
    (h : FieldsAlike g L env self self' (f :: fds) (a :: as) (b :: bs)) : FieldsAlike g L env self self' fds as bs :=
  ⟨by simpa using h.1, fun i f a b hf ha hb => h.2 (i + 1) f a b hf ha hb⟩

section
variable {g : Str → Str} {self self' : Val} {fds : List FieldDef} {as bs : List Val}

theorem FieldsAlike.fields (root : Attrs) (h : FieldsAlike g L env self self' fds as bs) :
    WNode.mapTextL g (encFields L env root self fds as) = WNode.mapTextL g (encFields L env root self' fds bs) := by
  induction fds generalizing as bs with
  | nil => rw [encFields.eq_def, encFields.eq_def L env root self']
  | cons f fds ih =>
  cases as with
  | nil => cases bs with
    | nil => rw [encFields.eq_def, encFields.eq_def L env root self']
    | cons => exact absurd h.1 (by simp)
  | cons a as =>
  cases bs with
  | nil => exact absurd h.1 (by simp)
  | cons b bs =>
  rw [encFields.eq_def, encFields.eq_def L env root self']
  dsimp only
  rw [WNode.mapTextL_append, WNode.mapTextL_append, ih h.tail]
  congr 1
  have h' := h.2 0 f a b rfl rfl rfl
  clear h
  obtain ⟨hs, h⟩ := h'
  unfold FieldDef.SerOk at hs
  rcases h with ⟨h1, h2, h3, -⟩ | ⟨hsel, h⟩
  · simp [h1, h2, h3]
  by_cases ha : f.attrs.isAttr = true
  · rw [if_pos ha, if_pos ha]
  rw [if_neg ha, if_neg ha]
  rw [if_neg ha] at hs
  by_cases htx : f.attrs.text = true
  · rw [if_pos htx, if_pos htx]
    rw [if_pos htx] at hs
    simp only [WNode.mapTextL, WNode.mapText]
    congr 2
    rcases hs with hs | hs <;> rw [hs] at h
    · rcases h with rfl | ⟨ha, hb, e⟩
      · rfl
      · cases ha; cases hb; exact e
    · rcases h with rfl | ⟨x, y, rfl, rfl, h⟩
      · rfl
      · rcases h with rfl | ⟨ha, hb, e⟩
        · rfl
        · cases ha; cases hb; exact e
  rw [if_neg htx, if_neg htx]
  rw [if_neg htx] at hs
  have hd : decide (f.selected self a) = decide (f.selected self' b) := decide_eq_decide.2 hsel
  rw [hd]
  by_cases hsk : (f.attrs.skipSer || !decide (f.selected self' b)) = true
  · rw [if_pos hsk, if_pos hsk]
  rw [if_neg hsk, if_neg hsk]
  by_cases hcd : f.attrs.cdata = true
  · rw [if_pos hcd, if_pos hcd]
    rw [if_pos hcd] at hs
    rw [hs] at h
    rcases h with rfl | ⟨ha, hb, e⟩
    · rfl
    · cases ha; cases hb
      simp only [WNode.mapTextL, WNode.mapText]
      congr 4
  rw [if_neg hcd, if_neg hcd]
  rw [if_neg hcd] at hs
  generalize f.ty = ty at *
  split at hs
  · simp only [WNode.mapTextL]
    rw [mapText_leaf _ h.show_]
  · rcases h with rfl | ⟨x, y, rfl, rfl, h⟩
    · rfl
    · simp only [WNode.mapTextL]
      rw [mapText_leaf _ h.show_]
  · rcases h with rfl | ⟨x, y, rfl, rfl, h⟩
    · rfl
    · rcases h with rfl | ⟨xs, ys, rfl, rfl, h⟩
      · rfl
      · exact mapText_leaves _ h
  · rcases h with rfl | ⟨x, y, rfl, rfl, h⟩
    · rfl
    · exact h.1 _
  · exact h.1 _
  · rcases h with rfl | ⟨xs, ys, rfl, rfl, h⟩
    · rfl
    · exact mapText_leaves _ h
  · rcases h with rfl | ⟨xs, ys, rfl, rfl, h⟩
    · rfl
    · exact mapText_optItems (.inl ⟨_, rfl⟩) h
  · rcases h with rfl | ⟨xs, ys, rfl, rfl, h⟩
    · rfl
    · exact mapText_optItems (.inr ⟨_, rfl⟩) h
  · rcases h with rfl | ⟨xs, ys, rfl, rfl, h⟩
    · rfl
    · exact mapText_items _ h
  · cases hs

theorem FieldsAlike.own (hg : (∀ s t, g s = g t) ∨ g = id) (root : Attrs) (h : FieldsAlike g L env self self' fds as bs) :
    mapAttrs g (encOwn L env root self fds as) = mapAttrs g (encOwn L env root self' fds bs) := by
  have hcontent : ∀ p x y, Alike g L env (.struct p) x y →
      g (L.emit { decl := false } (WNode.eventsL (encTy L env .inner p x)))
        = g (L.emit { decl := false } (WNode.eventsL (encTy L env .inner p y))) := by
    intro p x y h
    rcases hg with hg | rfl
    · exact hg _ _
    · have := h.1 .inner
      rw [WNode.mapTextL_id, WNode.mapTextL_id] at this
      rw [this]
  induction fds generalizing as bs with
  | nil => rw [encOwn.eq_def, encOwn.eq_def L env root self']
  | cons f fds ih =>
  cases as with
  | nil => cases bs with
    | nil => rw [encOwn.eq_def, encOwn.eq_def L env root self']
    | cons => exact absurd h.1 (by simp)
  | cons a as =>
  cases bs with
  | nil => exact absurd h.1 (by simp)
  | cons b bs =>
  rw [encOwn.eq_def, encOwn.eq_def L env root self']
  dsimp only
  rw [mapAttrs_append, mapAttrs_append, ih h.tail]
  congr 1
  have h' := h.2 0 f a b rfl rfl rfl
  clear h
  obtain ⟨hs, h⟩ := h'
  unfold FieldDef.SerOk at hs
  rcases h with ⟨h1, h2, h3, -⟩ | ⟨hsel, h⟩
  · simp [h2]
  by_cases ha : f.attrs.isAttr = true
  · rw [if_pos ha] at hs
    have hd : decide (f.selected self a) = decide (f.selected self' b) := decide_eq_decide.2 hsel
    rw [hd]
    by_cases hsl : (f.attrs.isAttr && decide (f.selected self' b)) = true
    · rw [if_pos hsl, if_pos hsl]
      generalize f.ty = ty at *
      split at hs
      · simp only [mapAttrs, List.map_cons, List.map_nil, h.show_]
      · rcases h with rfl | ⟨x, y, rfl, rfl, h⟩
        · rfl
        · simp only [mapAttrs, List.map_cons, List.map_nil, h.show_]
      · rcases h with rfl | ⟨x, y, rfl, rfl, h⟩
        · rfl
        · simp only [mapAttrs, List.map_cons, List.map_nil, hcontent _ _ _ h]
      · simp only [mapAttrs, List.map_cons, List.map_nil, hcontent _ _ _ h]
      · rfl
      · cases hs
    · rw [if_neg hsl, if_neg hsl]
  · rw [if_neg (by simp [ha]), if_neg (by simp [ha])]

theorem FieldsAlike.inherited (h : FieldsAlike g L env self self' fds as bs) :
    mapAttrs g (encInherited L env fds as) = mapAttrs g (encInherited L env fds bs) := by
  induction fds generalizing as bs with
  | nil => rw [encInherited.eq_def, encInherited.eq_def L env _ bs]
  | cons f fds ih =>
  cases as with
  | nil => cases bs with
    | nil => rfl
    | cons => exact absurd h.1 (by simp)
  | cons a as =>
  cases bs with
  | nil => exact absurd h.1 (by simp)
  | cons b bs =>
  rw [encInherited.eq_def, encInherited.eq_def L env _ (b :: bs)]
  dsimp only
  rw [mapAttrs_append, mapAttrs_append, ih h.tail]
  congr 1
  have h' := h.2 0 f a b rfl rfl rfl
  clear h
  obtain ⟨hs, h⟩ := h'
  by_cases hc : (!f.attrs.isAttr && f.attrs.flatten) = true
  · rw [if_pos hc, if_pos hc]
    have hfl : f.attrs.flatten = true := by
      rw [Bool.and_eq_true] at hc; exact hc.2
    rcases h with ⟨h1, h2, h3, h4⟩ | ⟨hsel, h⟩
    · cases hty : f.ty with
      | struct p => exact (h4 hfl p hty).elim
      | _ => rfl
    · cases hty : f.ty with
      | struct p => rw [hty] at h; exact h.2.1
      | _ => rfl
  · rw [if_neg hc, if_neg hc]

theorem FieldsAlike.decls (h : FieldsAlike g L env self self' fds as bs) :
    encInheritedDecls env fds as = encInheritedDecls env fds bs := by
  induction fds generalizing as bs with
  | nil => rw [encInheritedDecls.eq_def, encInheritedDecls.eq_def env _ bs]
  | cons f fds ih =>
  cases as with
  | nil => cases bs with
    | nil => rfl
    | cons => exact absurd h.1 (by simp)
  | cons a as =>
  cases bs with
  | nil => exact absurd h.1 (by simp)
  | cons b bs =>
  rw [encInheritedDecls.eq_def, encInheritedDecls.eq_def env _ (b :: bs)]
  dsimp only
  rw [ih h.tail]
  congr 1
  have h' := h.2 0 f a b rfl rfl rfl
  clear h
  obtain ⟨hs, h⟩ := h'
  by_cases hc : (!f.attrs.isAttr && f.attrs.flatten) = true
  · rw [if_pos hc, if_pos hc]
    have hfl : f.attrs.flatten = true := by
      rw [Bool.and_eq_true] at hc; exact hc.2
    rcases h with ⟨h1, h2, h3, h4⟩ | ⟨hsel, h⟩
    · cases hty : f.ty with
      | struct p => exact (h4 hfl p hty).elim
      | _ => rfl
    · cases hty : f.ty with
      | struct p => rw [hty] at h; exact h.2.2
      | _ => rfl
  · rw [if_neg hc, if_neg hc]

theorem FieldsAlike.struct (hg : (∀ s t, g s = g t) ∨ g = id) {p : Path} {d : StructDef} (hp : env p = some (.struct d))
    (h : FieldsAlike g L env (.struct as) (.struct bs) d.fields as bs) :
    Alike g L env (.struct p) (.struct as) (.struct bs) := by
  have ha : mapAttrs g (encOwn L env d.attrs (.struct as) d.fields as ++ encInherited L env d.fields as)
      = mapAttrs g (encOwn L env d.attrs (.struct bs) d.fields bs ++ encInherited L env d.fields bs) := by
    rw [mapAttrs_append, mapAttrs_append, h.own hg, h.inherited]
  refine ⟨fun pl => ?_, ?_, ?_⟩
  · rw [encTy.eq_def, encTy.eq_def L env pl p (.struct bs), hp]
    dsimp only
    rw [h.decls]
    exact mapText_wrap _ _ _ _ _ _ _ _ _ ha (h.fields _)
  · rw [encTyAttrs.eq_def, encTyAttrs.eq_def L env p (.struct bs), hp]
    exact ha
  · rw [encTyDecls.eq_def, encTyDecls.eq_def env p (.struct bs), hp]
    dsimp only
    rw [h.decls]

end

theorem Alike.enum {g : Str → Str} {p : Path} {d : EnumDef} {i : Nat} {vd : VariantDef} {as bs : List Val}
    (hp : env p = some (.enum d)) (hv : d.variants[i]? = some vd)
    (h : ∀ pl, WNode.mapTextL g (match vd.shape with
            | .named fds => encNamed L env d.attrs fds as
            | _ => encVariant L env pl d.attrs vd as)
        = WNode.mapTextL g (match vd.shape with
            | .named fds => encNamed L env d.attrs fds bs
            | _ => encVariant L env pl d.attrs vd bs)) :
    Alike g L env (.struct p) (.enum i as) (.enum i bs) := by
  refine ⟨fun pl => ?_, ?_, ?_⟩
  · rw [encTy.eq_def, encTy.eq_def L env pl p (.enum i bs), hp]
    dsimp only
    rw [hv]
    exact mapText_wrap _ _ _ _ _ _ _ _ _ rfl (h pl)
  · rw [encTyAttrs.eq_def, encTyAttrs.eq_def L env p (.enum i bs), hp]
  · rw [encTyDecls.eq_def, encTyDecls.eq_def env p (.enum i bs), hp]

theorem Alike.newtype {g : Str → Str} {p : Path} {d : EnumDef} {i : Nat} {vd : VariantDef} {t : FTy} {a b : Val}
    (hok : SerOk env) (hp : env p = some (.enum d)) (hv : d.variants[i]? = some vd) (hs : vd.shape = .newtype t)
    (h : Alike g L env t a b) : Alike g L env (.struct p) (.enum i [a]) (.enum i [b]) := by
  refine .enum hp hv fun pl => ?_
  rw [hs]
  dsimp only
  rw [encVariant.eq_def, encVariant.eq_def L env pl d.attrs vd [b], hs]
  have hok := hok.variants p d hp vd (List.mem_of_getElem? hv) t hs
  unfold FTy.VariantOk at hok
  split at hok
  · simp only [WNode.mapTextL]
    rw [mapText_leaf _ h.show_]
  · rcases h with rfl | ⟨x, y, rfl, rfl, h⟩
    · rfl
    · simp only [WNode.mapTextL]
      rw [mapText_leaf _ h.show_]
  · rcases h with rfl | ⟨x, y, rfl, rfl, h⟩
    · rfl
    · simp only [WNode.mapTextL, WNode.mapText, h.1 .inner]
  · dsimp only
    split
    · exact h.1 _
    · simp only [WNode.mapTextL, WNode.mapText, h.1 .inner]
  · rcases h with rfl | ⟨xs, ys, rfl, rfl, h⟩
    · rfl
    · exact mapText_variantItems _ (.inl ⟨_, rfl⟩) h
  · rcases h with rfl | ⟨xs, ys, rfl, rfl, h⟩
    · rfl
    · exact mapText_variantItems _ (.inr ⟨_, rfl⟩) h
  · cases hok

/-- `Option` fields of a variant are not written. -/
theorem Alike.named_plain {g : Str → Str} {p : Path} {d : EnumDef} {i : Nat} {vd : VariantDef} {fds : List FieldDef} {as bs : List Val}
    (hok : SerOk env) (hp : env p = some (.enum d)) (hv : d.variants[i]? = some vd) (hs : vd.shape = .named fds)
    (hlen : as.length = bs.length)
    (h : ∀ (j : Nat) (f : FieldDef) (a b : Val), fds[j]? = some f → as[j]? = some a → bs[j]? = some b →
      (∀ t, f.ty ≠ .opt t) → Alike g L env f.ty a b) : Alike g L env (.struct p) (.enum i as) (.enum i bs) := by
  refine .enum hp hv fun pl => ?_
  rw [hs]
  dsimp only
  have hok := hok.named p d hp vd (List.mem_of_getElem? hv) fds hs
  clear hs hv hp
  induction fds generalizing as bs with
  | nil => rw [encNamed.eq_def, encNamed.eq_def L env d.attrs _ bs]
  | cons f fds ih =>
  cases as with
  | nil => cases bs with
    | nil => rfl
    | cons => simp at hlen
  | cons a as =>
  cases bs with
  | nil => simp at hlen
  | cons b bs =>
  rw [encNamed.eq_def, encNamed.eq_def L env d.attrs _ (b :: bs)]
  dsimp only
  rw [WNode.mapTextL_append, WNode.mapTextL_append, ih (by simpa using hlen)
    (fun j f a b hf ha hb => h (j + 1) f a b hf ha hb) (fun f hf => hok f (List.mem_cons_of_mem _ hf))]
  congr 1
  replace h := h 0 f a b rfl rfl rfl
  replace hok := hok f (List.mem_cons_self ..)
  generalize f.ty = ty at *
  unfold FTy.NamedOk at hok
  split at hok
  · replace h := h (by intro t ht; cases ht)
    simp only [WNode.mapTextL]
    rw [mapText_leaf _ h.show_]
  · exact (h (by intro t ht; cases ht)).1 _
  · replace h := h (by intro t ht; cases ht)
    rcases h with rfl | ⟨xs, ys, rfl, rfl, h⟩
    · rfl
    · exact mapText_items _ h
  · replace h := h (by intro t ht; cases ht)
    rcases h with rfl | ⟨xs, ys, rfl, rfl, h⟩
    · rfl
    · exact mapText_texts h
  · rfl
  · cases hok

theorem Alike.named {g : Str → Str} {p : Path} {d : EnumDef} {i : Nat} {vd : VariantDef} {fds : List FieldDef} {as bs : List Val}
    (hok : SerOk env) (hp : env p = some (.enum d)) (hv : d.variants[i]? = some vd) (hs : vd.shape = .named fds)
    (hlen : as.length = bs.length)
    (h : ∀ (j : Nat) (f : FieldDef) (a b : Val), fds[j]? = some f → as[j]? = some a → bs[j]? = some b →
      Alike g L env f.ty a b) : Alike g L env (.struct p) (.enum i as) (.enum i bs) :=
  .named_plain hok hp hv hs hlen fun j f a b hf ha hb _ => h j f a b hf ha hb

theorem forall₂_of_getElem? {α β : Type} {R : α → β → Prop} {as : List α} {bs : List β} (hlen : as.length = bs.length)
    (h : ∀ (i : Nat) (a : α) (b : β), as[i]? = some a → bs[i]? = some b → R a b) : List.Forall₂ R as bs := by
  induction as generalizing bs with
  | nil => cases bs with
    | nil => exact .nil
    | cons => simp at hlen
  | cons a as ih => cases bs with
    | nil => simp at hlen
    | cons b bs => exact .cons (h 0 a b rfl rfl) (ih (by simpa using hlen) fun i a b ha hb => h (i + 1) a b ha hb)

theorem SameShape.alike (hok : SerOk env) {t : FTy} {a b : Val} (h : SameShape env t a b) :
    Alike (fun _ => []) L env t a b := by
  induction h with
  | scalar t a b ha hb => exact .inr ⟨ha, hb, rfl⟩
  | none => exact .inl rfl
  | some t a b h ih => exact .inr ⟨a, b, rfl, rfl, ih⟩
  | vec t as bs hlen h ih => exact .inr ⟨as, bs, rfl, rfl, forall₂_of_getElem? hlen ih⟩
  | struct p d as bs hp hlen hsel h ih =>
    refine FieldsAlike.struct (.inl fun _ _ => rfl) hp ⟨hlen, fun i f a b hf ha hb => ⟨?_, .inr ⟨?_, ?_⟩⟩⟩
    · exact hok.fields p d hp f (List.mem_of_getElem? hf)
    · exact hsel i f a b hf ha hb
    · exact ih i f a b hf ha hb
  | unit => exact .refl _ _
  | newtype p d i vd t a b hp hv hs h ih => exact .newtype hok hp hv hs ih
  | named p d i vd fds as bs hp hv hs hlen h ih => exact .named hok hp hv hs hlen ih
  | prim p d a b hp =>
    refine ⟨fun pl => ?_, ?_, ?_⟩
    · rw [encTy.eq_def, encTy.eq_def L env pl p b, hp]
      exact mapText_wrap _ _ _ _ _ _ _ _ _ rfl rfl
    · rw [encTyAttrs.eq_def, encTyAttrs.eq_def L env p b, hp]
    · rw [encTyDecls.eq_def, encTyDecls.eq_def env p b, hp]

open Classical in
theorem SameVisible.alike (hok : SerOk env) {t : FTy} {a b : Val} (h : SameVisible env t a b) :
    Alike id L env t a b := by
  induction h with
  | refl => exact .refl _ _
  | some t a b h ih => exact .inr ⟨a, b, rfl, rfl, ih⟩
  | vec t as bs hlen h ih => exact .inr ⟨as, bs, rfl, rfl, forall₂_of_getElem? hlen ih⟩
  | struct p d as bs hp hlen hsel h ih =>
    refine FieldsAlike.struct (.inr rfl) hp ⟨hlen, fun i f a b hf ha hb => ⟨?_, ?_⟩⟩
    · exact hok.fields p d hp f (List.mem_of_getElem? hf)
    · by_cases hh : f.hidden
      · exact .inl hh
      · exact .inr ⟨hsel i f a b hf ha hb hh, ih i f a b hf ha hb hh⟩
  | newtype p d i vd t a b hp hv hs h ih => exact .newtype hok hp hv hs ih
  | named p d i vd fds as bs hp hv hs hlen h ih => exact .named hok hp hv hs hlen ih

end Yaserde
