import Verif.Spec.UserSer
import Verif.Proofs.Encode
/-
The generated serializers write the encoding, around hand-written implementations.
-/

set_option autoImplicit false

namespace Yaserde

/-- What is to be shown of a value of each type. -/
def EncOkBy (B : WriteMode) (R : SerRec) (W : Encoding) : FTy → Val → Prop
  | .struct p, v =>
    (∀ pl, Writes B pl.Set (R.ser p v) (WNode.eventsL (W.tree pl p v))) ∧
      R.attrs p v = .ok (W.attrs p v, firstDecls (W.decls p v))
  | .opt t, v => ∀ x, v = .some x → EncOkBy B R W t x
  | .vec t, v => ∀ xs, v = .vec xs → ∀ x ∈ xs, EncOkBy B R W t x
  | .simple _, _ => True

/-- … and of the code of one type. -/
def LevelOk (B : WriteMode) (L : Lib) (env : Env) (R : SerRec) (W : Encoding) (p : Path) (v : Val) : Prop :=
  (∀ pl, Writes B pl.Set (serTyBy L env R p v) (WNode.eventsL (encTyBy L env W pl p v))) ∧
    attrsOfBy L env R p v = .ok (encTyAttrsBy L env W p v, firstDecls (encTyDeclsBy env W p v))

namespace EncOkBy
variable {B : WriteMode} {L : Lib} {env : Env} {R : SerRec} {W : Encoding} {F : Option Str → Bool → Prop}

theorem items {p : Path} {xs : List Val} (pl : Place) (h : ∀ x ∈ xs, EncOkBy B R W (.struct p) x) :
    Writes B F (serItemsBy L R p (setFlags pl.name pl.bare) xs) (WNode.eventsL (encItemsBy L W pl p xs)) := by
  induction xs generalizing F with
  | nil => simp only [serItemsBy, encItemsBy, WNode.eventsL]; exact .pure_
  | cons x xs ih =>
    simp only [serItemsBy, encItemsBy, WNode.eventsL_append]
    rw [bind_assoc']
    exact (((h x (List.mem_cons_self ..)).1 pl).flags pl).seq (ih fun y hy => h y (List.mem_cons_of_mem _ hy))

theorem optItems {t : FTy} {xs : List Val} (ht : (∃ s, t = .simple s ∧ ¬ B.reports) ∨ ∃ p, t = .struct p)
    (hv : ∀ x ∈ xs, ∀ y, x = .some y → EncOkBy B R W t y) :
    Writes B F (serOptItemsBy L R t xs) (WNode.eventsL (encOptItemsBy L W t xs)) := by
  induction xs generalizing F with
  | nil => simp only [serOptItemsBy, encOptItemsBy, WNode.eventsL]; exact .pure_
  | cons x xs ih =>
    have ih := @ih
    have ih' := fun F => @ih F fun y hy => hv y (List.mem_cons_of_mem _ hy)
    cases x
    case some x =>
      simp only [serOptItemsBy, encOptItemsBy, WNode.eventsL_append]
      rw [bind_assoc']
      refine Writes.seq ?_ (ih' _)
      refine Writes.flags .root ?_
      rcases ht with ⟨s, rfl, hB⟩ | ⟨p, rfl⟩
      · dsimp only
        rw [WNode.eventsL_single, WNode.events]
        exact .builtin L x hB
      · exact (hv _ (List.mem_cons_self ..) x rfl).1 _
    all_goals
      simp only [serOptItemsBy, encOptItemsBy]
      exact ih' _

theorem content {p : Path} {x : Val} (h : EncOkBy B R W (.struct p) x) :
    contentOf L (R.ser p x) = .ok (L.emit { decl := false } (WNode.eventsL (W.tree .inner p x))) := by
  unfold contentOf
  rcases (h.1 .inner).run { writer := {}, skip := true, startName := none } ⟨rfl, rfl⟩ (.inr fun _ => rfl) with
    ⟨s', e, o, -⟩ | ⟨j, m, s', e, hj, o, ⟨e', he⟩, -⟩
  · rw [e]
    dsimp only
    rw [o]
    rfl
  · cases he

end EncOkBy

/-- All fields. -/
def FieldsOkBy (B : WriteMode) (env : Env) (R : SerRec) (W : Encoding) (fds : List FieldDef) (vs : List Val) : Prop :=
  ∀ (i : Nat) (f : FieldDef) (v : Val), fds[i]? = some f → vs[i]? = some v →
    f.SerOk ∧ HasTy env f.ty v ∧ EncOkBy B R W f.ty v ∧ (B.reports → ∀ t, f.ty ≠ .vec (.opt (.simple t)))

theorem FieldsOkBy.tail {B : WriteMode} {env : Env} {R : SerRec} {W : Encoding} {f : FieldDef} {fds : List FieldDef} {v : Val} {vs : List Val}
    (h : FieldsOkBy B env R W (f :: fds) (v :: vs)) : FieldsOkBy B env R W fds vs :=
  fun i g w hg hw => h (i + 1) g w hg hw

theorem Writes.fieldsBy {B : WriteMode} {L : Lib} {env : Env} {R : SerRec} {W : Encoding} {F : Option Str → Bool → Prop} (root : Attrs) (self : Val)
    (fds : List FieldDef) (vs : List Val) (h : FieldsOkBy B env R W fds vs) :
    Writes B F (serFieldsBy L R root self fds vs) (WNode.eventsL (encFieldsBy L W root self fds vs)) := by
  induction fds generalizing vs F with
  | nil => rw [serFieldsBy, encFieldsBy]; exact .pure_; all_goals simp
  | cons f fds ih =>
  cases vs with
  | nil => rw [serFieldsBy, encFieldsBy]; exact .pure_; all_goals simp
  | cons v vs =>
  rw [serFieldsBy.eq_def, encFieldsBy.eq_def]
  dsimp only
  rw [WNode.eventsL_append]
  refine Writes.seq ?_ (ih vs h.tail)
  obtain ⟨hs, ht, he, hb⟩ := h 0 f v rfl rfl
  clear ih h
  by_cases ha : f.attrs.isAttr = true
  · rw [if_pos ha, if_pos ha]; exact .pure_
  rw [if_neg ha, if_neg ha]
  unfold FieldDef.SerOk at hs
  rw [if_neg ha] at hs
  by_cases htx : f.attrs.text = true
  · rw [if_pos htx, if_pos htx]
    rw [if_pos htx] at hs
    rcases hs with hs | hs
    all_goals
      rw [hs] at ht
      cases ht
    · exact .write_text _ (.inl ⟨_, rfl⟩)
    · exact .write_text _ (.inl ⟨_, rfl⟩)
    · rename_i ht; cases ht
      exact .write_text _ (.inl ⟨_, rfl⟩)
  rw [if_neg htx, if_neg htx, serCondition_eq]
  rw [if_neg htx] at hs
  by_cases hsk : (f.attrs.skipSer || !decide (f.selected self v)) = true
  · rw [if_pos hsk, if_pos hsk]; exact .pure_
  rw [if_neg hsk, if_neg hsk]
  by_cases hcd : f.attrs.cdata = true
  · rw [if_pos hcd, if_pos hcd]
    rw [if_pos hcd] at hs
    rw [hs] at ht
    cases ht
    dsimp only
    rw [WNode.eventsL_single, renamedLabel_eq]
    exact .encloseCdata_ _ _
  rw [if_neg hcd, if_neg hcd]
  rw [if_neg hcd] at hs
  rw [placeFlags, renamedLabel_eq]
  generalize hty : f.ty = ty at *
  split at hs
  · -- scalar
    dsimp only
    rw [WNode.eventsL_single]
    exact .encloseChars_ _ _
  · cases ht with
    | none => exact .pure_
    | some _ x h =>
      dsimp only
      rw [WNode.eventsL_single]
      exact .encloseChars_ _ _
  · cases ht with
    | none => exact .pure_
    | some _ x h =>
      cases h
      exact .leaves L _ _
  · cases ht with
    | none => exact .pure_
    | some _ x h => exact ((he x rfl).1 _).flags _
  · exact (he.1 _).flags _
  · cases ht
    exact .leaves L _ _
  · rename_i t
    cases ht with
    | vec _ vs h =>
      refine EncOkBy.optItems (.inl ⟨_, rfl, fun hB => hb hB t rfl⟩) ?_
      intro x hx y hy; exact he vs rfl x hx y hy
  · cases ht with
    | vec _ vs h =>
      refine EncOkBy.optItems (.inr ⟨_, rfl⟩) ?_
      intro x hx y hy; exact he vs rfl x hx y hy
  · cases ht with
    | vec _ vs h => exact EncOkBy.items _ (he vs rfl)
  · cases hs

theorem structAttrsBy_eq {B : WriteMode} {L : Lib} {env : Env} {R : SerRec} {W : Encoding} (root : Attrs) (self : Val)
    (fds : List FieldDef) (vs : List Val) (h : FieldsOkBy B env R W fds vs) :
    structAttrsBy L R root self fds vs
      = .ok ⟨encOwnBy L W root self fds vs, encInheritedBy W fds vs, firstDecls (encInheritedDeclsBy W fds vs)⟩ := by
  induction fds generalizing vs with
  | nil => rw [structAttrsBy.eq_def, encOwnBy.eq_def, encInheritedBy.eq_def, encInheritedDeclsBy.eq_def]; rfl
  | cons f fds ih =>
  cases vs with
  | nil => rw [structAttrsBy.eq_def, encOwnBy.eq_def, encInheritedBy.eq_def, encInheritedDeclsBy.eq_def]; rfl
  | cons v vs =>
  rw [structAttrsBy.eq_def, encOwnBy.eq_def, encInheritedBy.eq_def, encInheritedDeclsBy.eq_def]
  dsimp only
  obtain ⟨hs, ht, he, -⟩ := h 0 f v rfl rfl
  have ih := ih vs h.tail
  unfold FieldDef.SerOk at hs
  by_cases ha : f.attrs.isAttr = true
  · rw [if_pos ha] at hs ⊢
    have hsel := attrCondition_eq f self v
    rw [ha]
    simp only [Bool.true_and, Bool.not_true, Bool.false_and, Bool.false_eq_true, if_false, List.nil_append]
    generalize hty : f.ty = ty at *
    have key : ∀ text, (addOwn root f (attrCondition f self v) text
        ⟨encOwnBy L W root self fds vs, encInheritedBy W fds vs, firstDecls (encInheritedDeclsBy W fds vs)⟩)
        = ⟨(if decide (f.selected self v) = true then [⟨Name.ofStr (f.written root), text⟩] else []) ++ encOwnBy L W root self fds vs,
            encInheritedBy W fds vs, firstDecls (encInheritedDeclsBy W fds vs)⟩ := by
      intro text
      unfold addOwn
      rw [hsel, renamedLabel_eq]
      split <;> rfl
    split at hs
    · dsimp only
      rw [ih]
      simp only [Res.bind, key]
    · cases ht with
      | none => dsimp only; rw [ih]; simp
      | some _ x hx =>
        dsimp only
        rw [ih]
        simp only [Res.bind, key]
    · cases ht with
      | none => dsimp only; rw [ih]; simp
      | some _ x hx =>
        dsimp only
        rw [ih, (he x rfl).content]
        simp only [Res.bind, key]
    · dsimp only
      rw [ih, EncOkBy.content he]
      simp only [Res.bind, key]
    · dsimp only
      rw [ih]; simp
    · cases hs
  · rw [if_neg ha]
    have ha : f.attrs.isAttr = false := by simpa using ha
    rw [ha]
    simp only [Bool.false_and, Bool.false_eq_true, if_false, List.nil_append, Bool.not_false, Bool.true_and]
    by_cases hfl : f.attrs.flatten = true
    · rw [if_pos hfl, if_pos hfl, if_pos hfl]
      generalize hty : f.ty = ty at *
      cases ty
      case struct p =>
        dsimp only
        rw [he.2, ih]
        simp only [Res.bind]
        congr 2
        unfold firstDecls
        rw [NsMap.extend_extend, NsMap.extend_extend, NsMap.extend_append]
        rfl
      all_goals
        dsimp only
        rw [ih]; rfl
    · rw [if_neg hfl, if_neg hfl, if_neg hfl, ih]; rfl

namespace EncOkBy
variable {B : WriteMode} {L : Lib} {env : Env} {R : SerRec} {W : Encoding} {F : Option Str → Bool → Prop}

theorem named (root : Attrs) (fds : List FieldDef) (vs : List Val)
    (h : ∀ (i : Nat) (f : FieldDef) (v : Val), fds[i]? = some f → vs[i]? = some v →
      f.ty.NamedOk ∧ HasTy env f.ty v ∧ EncOkBy B R W f.ty v ∧ (B.reports → ∀ t, f.ty ≠ .vec (.simple t))) :
    Writes B F (serNamedBy L R root fds vs) (WNode.eventsL (encNamedBy L W root fds vs)) := by
  induction fds generalizing vs F with
  | nil => rw [serNamedBy.eq_def, encNamedBy.eq_def]; exact .pure_
  | cons f fds ih =>
  cases vs with
  | nil => rw [serNamedBy.eq_def, encNamedBy.eq_def]; exact .pure_
  | cons v vs =>
  rw [serNamedBy.eq_def, encNamedBy.eq_def]
  dsimp only
  rw [WNode.eventsL_append]
  refine Writes.seq ?_ (ih vs fun i g w hg hw => h (i + 1) g w hg hw)
  obtain ⟨hs, ht, he, hb⟩ := h 0 f v rfl rfl
  clear ih h
  rw [renamedLabel_eq]
  generalize hty : f.ty = ty at *
  unfold FTy.NamedOk at hs
  split at hs
  · dsimp only
    rw [WNode.eventsL_single]
    exact .encloseChars_ _ _
  · exact (he.1 ⟨some _, false⟩).flags ⟨some _, false⟩
  · cases ht with
    | vec _ xs hx => exact items ⟨some _, false⟩ (he xs rfl)
  · rename_i t
    have hB : ¬ B.reports := fun hB => hb hB t rfl
    cases ht with
    | vec _ xs hx =>
      dsimp only
      clear hx hty he
      induction xs generalizing F with
      | nil => exact .pure_
      | cons x xs ih =>
        rw [List.foldr_cons, List.map_cons, WNode.eventsL, WNode.events, bind_assoc']
        exact (Writes.flags ⟨some _, false⟩ (.builtin L x hB)).seq ih
  · exact .pure_
  · cases hs

theorem variantItems (name : Str) (t : FTy) (xs : List Val)
    (ht : (∃ s, t = .simple s ∧ (s = .string ∨ ¬ B.reports)) ∨ ∃ p, t = .struct p)
    (hv : ∀ x ∈ xs, EncOkBy B R W t x) :
    Writes B F (serVariantItemsBy L R name t xs) (WNode.eventsL (encVariantItemsBy L W name t xs)) := by
  induction xs generalizing F with
  | nil => rw [serVariantItemsBy.eq_def, encVariantItemsBy.eq_def]; exact .pure_
  | cons x xs ih =>
    rw [serVariantItemsBy.eq_def, encVariantItemsBy.eq_def]
    dsimp only
    have ih := @ih AnyFlags fun y hy => hv y (List.mem_cons_of_mem _ hy)
    rw [WNode.eventsL, bind_assoc', bind_assoc', ← bind_assoc' (swrite _)]
    refine Writes.seq ?_ ih
    rcases ht with ⟨s, rfl, hs⟩ | ⟨p, rfl⟩
    · dsimp only
      rw [leaf, WNode.events, WNode.eventsL_single, WNode.events]
      refine Writes.enclose _ _ _ ?_
      split
      · exact .write_text _ (.inl ⟨_, rfl⟩)
      · rename_i heq; cases heq
      · rename_i h1 h2
        refine Writes.flags .inner (.builtin L x ?_)
        rcases hs with rfl | hs
        · exact (h1 rfl).elim
        · exact hs
    · dsimp only
      rw [WNode.events]
      exact Writes.enclose _ _ _ (((hv x (List.mem_cons_self ..)).1 .inner).flags .inner)

theorem variant (pl : Place) (root : Attrs) (vd : VariantDef) (t : FTy) (x : Val) (hs : vd.shape = .newtype t)
    (hok : t.VariantOk) (ht : HasTy env t x) (he : EncOkBy B R W t x)
    (hb : B.reports → ∀ s, s ≠ .string → t ≠ .opt (.simple s) ∧ t ≠ .vec (.simple s)) :
    Writes B pl.Set (serVariantBy L R root vd [x]) (WNode.eventsL (encVariantBy L W pl root vd [x])) := by
  rw [serVariantBy.eq_def, encVariantBy.eq_def, hs, buildLabelName_eq]
  unfold FTy.VariantOk at hok
  split at hok
  · dsimp only
    rw [WNode.eventsL_single]
    exact .encloseChars_ _ _
  · rename_i s
    cases ht with
    | none => cases s <;> exact .pure_
    | some _ y hy =>
      by_cases hstr : s = .string
      · subst hstr
        dsimp only
        rw [WNode.eventsL_single]
        exact .encloseChars_ _ _
      · have hB : ¬ B.reports := fun hB => (hb hB s hstr).1 rfl
        cases s
        case string => exact (hstr rfl).elim
        all_goals
          dsimp only
          rw [WNode.eventsL_single, leaf, WNode.events, WNode.eventsL_single, WNode.events]
          rw [bind_assoc' (setFlags _ _)]
          exact Writes.enclose _ _ _ (Writes.flags .inner (.builtin L y hB))
  · cases ht with
    | none => exact .pure_
    | some _ y hy =>
      dsimp only
      rw [WNode.eventsL_single, WNode.events, bind_assoc' (setFlags _ _)]
      exact Writes.enclose _ _ _ (((he y rfl).1 .inner).flags .inner)
  · dsimp only
    split
    · exact he.1 pl
    · rw [WNode.eventsL_single, WNode.events, bind_assoc' (setFlags _ _)]
      exact Writes.enclose _ _ _ ((he.1 .inner).flags .inner)
  · rename_i s
    cases ht with
    | vec _ xs hx =>
      refine variantItems _ _ xs (.inl ⟨s, rfl, ?_⟩) (he xs rfl)
      by_cases hstr : s = .string
      · exact .inl hstr
      · exact .inr fun hB => (hb hB s hstr).2 rfl
  · cases ht with
    | vec _ xs hx => exact variantItems _ _ xs (.inr ⟨_, rfl⟩) (he xs rfl)
  · cases hok

theorem enum {p : Path} {d : EnumDef} {i : Nat} {vd : VariantDef} {pay : List Val} (hp : env p = some (.enum d))
    (hv : d.variants[i]? = some vd)
    (h : ∀ pl : Place, Writes B pl.Set
      (match vd.shape with
        | .named fds => serNamedBy L R d.attrs fds pay
        | _ => serVariantBy L R d.attrs vd pay)
      (WNode.eventsL (match vd.shape with
        | .named fds => encNamedBy L W d.attrs fds pay
        | _ => encVariantBy L W pl d.attrs vd pay))) :
    LevelOk B L env R W p (.enum i pay) := by
  constructor
  · intro pl
    rw [serTyBy.eq_def, encTyBy.eq_def, hp]
    dsimp only
    rw [hv]
    dsimp only
    refine .wrap_ (L := L) _ _ _ _ _ _ _ _ _ (serRootName_eq _ _) ?_ ?_ (h pl)
    · exact EncOk.enumAttrs_eq d vd
    · rw [EncOk.enumAttrs_childNs, namespacesDef_eq]; rfl
  · rw [attrsOfBy.eq_def, encTyAttrsBy.eq_def, encTyDeclsBy.eq_def, hp]
    dsimp only
    rw [hv]
    dsimp only
    unfold serializeAttributes
    simp only [Res.bind]
    rw [EncOk.enumAttrs_eq, EncOk.enumAttrs_childNs, namespacesDef_eq]
    unfold firstDecls
    rw [NsMap.extend_extend]
    rfl

theorem prim {p : Path} {d : PrimDef} (hp : env p = some (.prim d)) (hB : d.bare = true → ¬ B.reports) (v : Val) :
    LevelOk B L env R W p v := by
  constructor
  · intro pl
    rw [serTyBy.eq_def, encTyBy.eq_def, hp]
    dsimp only
    unfold serPrim wrap
    dsimp only
    cases hd : d.bare with
    | true =>
      rw [if_pos rfl, Bool.true_or, if_pos rfl, WNode.eventsL_single, WNode.events]
      exact .dropped _ (hB hd)
    | false =>
    rw [if_neg (by simp), Bool.false_or]
    refine Writes.of_eq (fun s hf => by rw [bind_get, hf.1, hf.2]) ?_
    cases hb : pl.bare with
    | true =>
      have := ((Writes.write_text (B := B) (F := pl.Set) (.chars (d.toStr v)) (.inl ⟨_, rfl⟩)).mapErr_
        (c!"Element value " ++ L.dbgStr (pl.name.getD d.name) ++ c!" write failed")).seq (Writes.pure_ (F := AnyFlags))
      rw [List.append_nil] at this
      have e : WNode.eventsL (if true = true then [WNode.text (d.toStr v)] else
          [.elem (pl.name.getD d.name) [] [] [.text (d.toStr v)]]) = [.chars (d.toStr v)] := by
        rw [if_pos rfl, WNode.eventsL_single, WNode.events]
      rw [e]
      exact this
    | false =>
      have e : WNode.eventsL (if false = true then [WNode.text (d.toStr v)] else
          [.elem (pl.name.getD d.name) [] [] [.text (d.toStr v)]])
          = .start (Name.ofStr (pl.name.getD d.name)) [] [] :: ([.chars (d.toStr v)] ++ [.endE none]) := by
        rw [if_neg (by simp), WNode.eventsL_single, WNode.events, WNode.eventsL_single, WNode.events]
      rw [e]
      have h := Writes.enclose (B := B) (F := pl.Set) (Name.ofStr (pl.name.getD d.name)) [] []
        (Writes.write_text (.chars (d.toStr v)) (.inl ⟨_, rfl⟩))
      refine Writes.congr ?_ h
      refine SameUpTo.bind (SameUpTo.mapErr_ _ _) (SameUpTo.bind (SameUpTo.mapErr_ _ _) (SameUpTo.mapErr_ _ _))
  · rw [attrsOfBy.eq_def, encTyAttrsBy.eq_def, encTyDeclsBy.eq_def, hp]
    rfl

end EncOkBy

/-- A number from which on something holds of all values. -/
theorem eventually_all {α : Type} {P : Nat → α → Prop} (xs : List α) (h : ∀ x ∈ xs, ∃ N, ∀ n, N ≤ n → P n x) :
    ∃ N, ∀ n, N ≤ n → ∀ x ∈ xs, P n x := by
  induction xs with
  | nil => exact ⟨0, fun n _ x hx => by cases hx⟩
  | cons x xs ih =>
    obtain ⟨N, hN⟩ := h x (List.mem_cons_self ..)
    obtain ⟨M, hM⟩ := ih fun y hy => h y (List.mem_cons_of_mem _ hy)
    refine ⟨max N M, fun n hn y hy => ?_⟩
    rcases List.mem_cons.mp hy with rfl | hy
    · exact hN n (by omega)
    · exact hM n (by omega) y hy

theorem eventually_fields {P : Nat → FTy → Val → Prop} (fds : List FieldDef) (vs : List Val)
    (h : ∀ (i : Nat) (f : FieldDef) (v : Val), fds[i]? = some f → vs[i]? = some v → ∃ N, ∀ n, N ≤ n → P n f.ty v) :
    ∃ N, ∀ n, N ≤ n → ∀ (i : Nat) (f : FieldDef) (v : Val), fds[i]? = some f → vs[i]? = some v → P n f.ty v := by
  obtain ⟨N, hN⟩ := eventually_all (P := fun n (x : FieldDef × Val) => P n x.1.ty x.2) (fds.zip vs) (by
    rintro ⟨f, v⟩ hx
    obtain ⟨i, hi⟩ := List.getElem?_of_mem hx
    rw [List.getElem?_zip_eq_some] at hi
    exact h i f v hi.1 hi.2)
  refine ⟨N, fun n hn i f v hf hv => hN n hn (f, v) (List.mem_of_getElem? (i := i) ?_)⟩
  rw [List.getElem?_zip_eq_some]
  exact ⟨hf, hv⟩

/-- **The serializers write the encoding.**  (`B`: also if the writer can fail.) -/
theorem encOkU {B : WriteMode} {L : Lib} {env : Env} {user : SerImpls} {W : Encoding} (hB : B.reports → NoBuiltin env) (hok : SerOk env)
    (hW : W.Derived L env user)
    (hU : ∀ p f v, user p = some f → HasTy env (.struct p) v →
      ∃ N, ∀ n, N ≤ n → EncOkBy B (serU L env user n) W (.struct p) v)
    {t : FTy} {v : Val} (h : HasTy env t v) :
    ∃ N, ∀ n, N ≤ n → EncOkBy B (serU L env user n) W t v := by
  -- one more call
  have up : ∀ p v, user p = none → (∃ N, ∀ n, N ≤ n → LevelOk B L env (serU L env user n) W p v) →
      ∃ N, ∀ n, N ≤ n → EncOkBy B (serU L env user n) W (.struct p) v := by
    rintro p v hu ⟨N, hN⟩
    refine ⟨N + 1, fun n hn => ?_⟩
    obtain ⟨n, rfl⟩ : ∃ k, n = k + 1 := ⟨n - 1, by omega⟩
    obtain ⟨h1, h2⟩ := hN n (by omega)
    have e1 : (serU L env user (n + 1)).ser p v = serTyBy L env (serU L env user n) p v := by
      simp only [serU, serB, hu]
    have e2 : (serU L env user (n + 1)).attrs p v = attrsOfBy L env (serU L env user n) p v := by
      simp only [serU, serB, hu]
    refine ⟨fun pl => ?_, ?_⟩
    · rw [e1, hW.tree pl p v hu]; exact h1 pl
    · rw [e2, hW.attrs p v hu, hW.decls p v hu]; exact h2
  have key : ∀ p v, HasTy env (.struct p) v → (user p = none → ∃ N, ∀ n, N ≤ n → LevelOk B L env (serU L env user n) W p v) →
      ∃ N, ∀ n, N ≤ n → EncOkBy B (serU L env user n) W (.struct p) v := by
    intro p v hv h
    cases hu : user p with
    | some f => exact hU p f v hu hv
    | none => exact up p v hu (h hu)
  induction h with
  | str | bool | int | f32 | f64 => exact ⟨0, fun _ _ => trivial⟩
  | none t => exact ⟨0, fun _ _ x hx => by cases hx⟩
  | some t v h ih =>
    obtain ⟨N, hN⟩ := ih
    exact ⟨N, fun n hn x hx => by cases hx; exact hN n hn⟩
  | vec t vs h ih =>
    obtain ⟨N, hN⟩ := eventually_all vs ih
    exact ⟨N, fun n hn xs hx => by cases hx; exact hN n hn⟩
  | struct p d fs hp hlen h ih =>
    refine key p _ (.struct p d fs hp hlen h) fun _ => ?_
    obtain ⟨N, hN⟩ := eventually_fields d.fields fs ih
    refine ⟨N, fun n hn => ?_⟩
    have hfs : FieldsOkBy B env (serU L env user n) W d.fields fs := by
      intro i f v hf hv
      have hm := List.mem_of_getElem? hf
      exact ⟨hok.fields p d hp f hm, h i f v hf hv, hN n hn i f v hf hv, fun hb => (hB hb).fields p d hp f hm⟩
    have hat := structAttrsBy_eq (L := L) d.attrs (.struct fs) d.fields fs hfs
    constructor
    · intro pl
      rw [serTyBy.eq_def, encTyBy.eq_def, hp]
      dsimp only
      rw [hat]
      refine .wrap_ (L := L) _ _ _ _ _ _ _ _ _ (serRootName_eq _ _) rfl ?_ (.fieldsBy _ _ _ _ hfs)
      exact allDecls_eq _ _
    · rw [attrsOfBy.eq_def, encTyAttrsBy.eq_def, encTyDeclsBy.eq_def, hp]
      dsimp only
      unfold serializeAttributes
      rw [hat]
      simp only [Res.bind]
      rw [allDecls_eq']
  | unit p d i vd hp hv hs =>
    refine key p _ (.unit p d i vd hp hv hs) fun _ => ⟨0, fun n _ => EncOkBy.enum hp hv fun pl => ?_⟩
    rw [hs]
    dsimp only
    rw [serVariantBy.eq_def, encVariantBy.eq_def, hs]
    dsimp only
    split
    · exact .pure_
    · rw [WNode.eventsL_single, WNode.events, buildLabelName_eq]
      exact .write_text _ (.inl ⟨_, rfl⟩)
  | newtype p d i vd t x hp hv hs h ih =>
    refine key p _ (.newtype p d i vd t x hp hv hs h) fun _ => ?_
    obtain ⟨N, hN⟩ := ih
    refine ⟨N, fun n hn => ?_⟩
    have hm := List.mem_of_getElem? hv
    refine EncOkBy.enum hp hv fun pl => ?_
    rw [hs]
    dsimp only
    refine EncOkBy.variant pl d.attrs vd t x hs (hok.variants p d hp vd hm t hs) h (hN n hn) fun hb s hne => ?_
    have := (hB hb).variants p d hp vd hm s hne
    rw [hs] at this
    exact ⟨fun e => this.1 (by rw [e]), fun e => this.2 (by rw [e])⟩
  | named p d i vd fds fs hp hv hs hlen h ih =>
    refine key p _ (.named p d i vd fds fs hp hv hs hlen h) fun _ => ?_
    obtain ⟨N, hN⟩ := eventually_fields fds fs ih
    refine ⟨N, fun n hn => ?_⟩
    have hm := List.mem_of_getElem? hv
    refine EncOkBy.enum hp hv fun pl => ?_
    rw [hs]
    dsimp only
    refine EncOkBy.named (env := env) _ _ _ fun j f v hf hw => ?_
    have hmf := List.mem_of_getElem? hf
    exact ⟨hok.named p d hp vd hm fds hs f hmf, h j f v hf hw, hN n hn j f v hf hw, fun hb => (hB hb).named p d hp vd hm fds hs f hmf⟩
  | prim p d v hp hd =>
    exact key p v (.prim p d v hp hd) fun _ => ⟨0, fun n _ => EncOkBy.prim hp (fun hb b => by rw [(hB b).prims p d hp] at hb; cases hb) v⟩

end Yaserde
