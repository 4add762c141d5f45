import Verif.Spec.Mixed
import Verif.Proofs.Levels
import Verif.Proofs.Frames
import Verif.Proofs.EncEnum
import Verif.Props.User
/-
A part of a program whose types are derived and contain only types of that part is written and read as if it were a program of its own.
-/

set_option autoImplicit false

namespace Yaserde

namespace Part

/-! ### Writing -/

/-- The same trees for these types. -/
structure Same (P : Path → Prop) (W W' : Encoding) : Prop where
  tree : ∀ pl q x, P q → W.tree pl q x = W'.tree pl q x
  attrs : ∀ q x, P q → W.attrs q x = W'.attrs q x
  decls : ∀ q x, P q → W.decls q x = W'.decls q x

section
variable {P : Path → Prop} {W W' : Encoding} (h : Same P W W') (L : Lib)
include h

theorem items (pl : Place) (q : Path) (hq : P q) (xs : List Val) : encItemsBy L W pl q xs = encItemsBy L W' pl q xs := by
  induction xs with
  | nil => rfl
  | cons x xs ih => rw [encItemsBy, encItemsBy, ih, h.tree _ _ _ hq]

theorem optItems (t : FTy) (ht : ∀ q, t.Leads q → P q) (xs : List Val) : encOptItemsBy L W t xs = encOptItemsBy L W' t xs := by
  induction xs with
  | nil => rfl
  | cons x xs ih =>
    rw [encOptItemsBy.eq_def, encOptItemsBy.eq_def]
    cases x
    case some x =>
      dsimp only
      rw [ih]
      cases t
      case struct q => dsimp only; rw [h.tree _ _ _ (ht q .here)]
      all_goals rfl
    all_goals exact ih

theorem fields (root : Attrs) (sv : Val) (fds : List FieldDef) (hf : ∀ f ∈ fds, ∀ q, f.ty.Leads q → P q) (vs : List Val) :
    encFieldsBy L W root sv fds vs = encFieldsBy L W' root sv fds vs := by
  induction fds generalizing vs with
  | nil => rw [encFieldsBy.eq_def, encFieldsBy.eq_def]
  | cons f fds ih =>
  cases vs with
  | nil => rw [encFieldsBy.eq_def, encFieldsBy.eq_def]
  | cons v vs =>
  rw [encFieldsBy.eq_def, encFieldsBy.eq_def]
  dsimp only
  rw [ih (fun g hg => hf g (List.mem_cons_of_mem _ hg)) vs]
  have hf := hf f (List.mem_cons_self ..)
  congr 1
  refine ite_congr rfl (fun _ => rfl) fun _ => ite_congr rfl (fun _ => rfl) fun _ => ite_congr rfl (fun _ => rfl) fun _ =>
    ite_congr rfl (fun _ => rfl) fun _ => ?_
  generalize hty : f.ty = ty at hf
  clear hty
  split
  all_goals first
    | rfl
    | rw [h.tree _ _ _ (hf _ .here)]
    | rw [h.tree _ _ _ (hf _ (.opt .here))]
    | exact optItems h L _ (fun q hq => hf q (.vec (.opt hq))) _
    | exact items h L _ _ (hf _ (.vec .here)) _

theorem own (root : Attrs) (sv : Val) (fds : List FieldDef) (hf : ∀ f ∈ fds, ∀ q, f.ty.Leads q → P q) (vs : List Val) :
    encOwnBy L W root sv fds vs = encOwnBy L W' root sv fds vs := by
  induction fds generalizing vs with
  | nil => rw [encOwnBy.eq_def, encOwnBy.eq_def]
  | cons f fds ih =>
  cases vs with
  | nil => rw [encOwnBy.eq_def, encOwnBy.eq_def]
  | cons v vs =>
  rw [encOwnBy.eq_def, encOwnBy.eq_def]
  dsimp only
  rw [ih (fun g hg => hf g (List.mem_cons_of_mem _ hg)) vs]
  have hf := hf f (List.mem_cons_self ..)
  congr 1
  refine ite_congr rfl (fun _ => ?_) fun _ => rfl
  generalize hty : f.ty = ty at hf
  clear hty
  split
  all_goals first
    | rfl
    | rw [h.tree _ _ _ (hf _ .here)]
    | rw [h.tree _ _ _ (hf _ (.opt .here))]

omit L in
theorem inherited (fds : List FieldDef) (hf : ∀ f ∈ fds, ∀ q, f.ty.Leads q → P q) (vs : List Val) :
    encInheritedBy W fds vs = encInheritedBy W' fds vs ∧ encInheritedDeclsBy W fds vs = encInheritedDeclsBy W' fds vs := by
  induction fds generalizing vs with
  | nil => exact ⟨by rw [encInheritedBy.eq_def, encInheritedBy.eq_def], by rw [encInheritedDeclsBy.eq_def, encInheritedDeclsBy.eq_def]⟩
  | cons f fds ih =>
  cases vs with
  | nil => exact ⟨by rw [encInheritedBy.eq_def, encInheritedBy.eq_def], by rw [encInheritedDeclsBy.eq_def, encInheritedDeclsBy.eq_def]⟩
  | cons v vs =>
  rw [encInheritedBy.eq_def, encInheritedBy.eq_def, encInheritedDeclsBy.eq_def, encInheritedDeclsBy.eq_def]
  dsimp only
  obtain ⟨h1, h2⟩ := ih (fun g hg => hf g (List.mem_cons_of_mem _ hg)) vs
  rw [h1, h2]
  have hf := hf f (List.mem_cons_self ..)
  generalize hty : f.ty = ty at hf
  clear hty
  constructor
  · congr 1
    refine ite_congr rfl (fun _ => ?_) fun _ => rfl
    split
    · exact h.attrs _ _ (hf _ .here)
    · rfl
  · congr 1
    refine ite_congr rfl (fun _ => ?_) fun _ => rfl
    split
    · exact h.decls _ _ (hf _ .here)
    · rfl

theorem variantItems (label : Str) (t : FTy) (ht : ∀ q, t.Leads q → P q) (xs : List Val) :
    encVariantItemsBy L W label t xs = encVariantItemsBy L W' label t xs := by
  induction xs with
  | nil => rfl
  | cons x xs ih =>
    rw [encVariantItemsBy.eq_def, encVariantItemsBy.eq_def]
    dsimp only
    rw [ih]
    cases t
    case struct => dsimp only; rw [h.tree _ _ x (ht _ .here)]
    all_goals rfl

theorem variant (pl : Place) (root : Attrs) (vd : VariantDef) (ht : ∀ t, vd.shape = .newtype t → ∀ q, t.Leads q → P q) (vs : List Val) :
    encVariantBy L W pl root vd vs = encVariantBy L W' pl root vd vs := by
  rw [encVariantBy.eq_def, encVariantBy.eq_def]
  generalize vd.shape = sh at ht
  split
  all_goals first
    | rfl
    | rw [h.tree _ _ _ (ht _ rfl _ .here), h.tree _ _ _ (ht _ rfl _ .here)]
    | rw [h.tree _ _ _ (ht _ rfl _ (.opt .here))]
    | exact variantItems h L _ _ (fun q hq => ht _ rfl q (.vec hq)) _

theorem named (root : Attrs) (fds : List FieldDef) (hf : ∀ f ∈ fds, ∀ q, f.ty.Leads q → P q) (vs : List Val) :
    encNamedBy L W root fds vs = encNamedBy L W' root fds vs := by
  induction fds generalizing vs with
  | nil => rw [encNamedBy.eq_def, encNamedBy.eq_def]
  | cons f fds ih =>
  cases vs with
  | nil => rw [encNamedBy.eq_def, encNamedBy.eq_def]
  | cons v vs =>
  rw [encNamedBy.eq_def, encNamedBy.eq_def]
  dsimp only
  rw [ih (fun g hg => hf g (List.mem_cons_of_mem _ hg)) vs]
  have hf := hf f (List.mem_cons_self ..)
  congr 1
  generalize hty : f.ty = ty at hf
  clear hty
  split
  all_goals first
    | rfl
    | rw [h.tree _ _ _ (hf _ .here)]
    | exact items h L _ _ (hf _ (.vec .here)) _

end

/-- The encoding of a value refers to the types its type contains. -/
theorem ty {P : Path → Prop} {W W' : Encoding} (h : Same P W W') (L : Lib) {env env' : Env} {p : Path} {t : TypeDef} (hp : env p = some t)
    (hp' : env' p = some t) (hc : ∀ q, t.Contains q → P q) (v : Val) :
    (∀ pl, encTyBy L env W pl p v = encTyBy L env' W' pl p v) ∧ encTyAttrsBy L env W p v = encTyAttrsBy L env' W' p v ∧
      encTyDeclsBy env W p v = encTyDeclsBy env' W' p v := by
  simp only [encTyBy.eq_def, encTyAttrsBy.eq_def, encTyDeclsBy.eq_def, hp, hp']
  cases t with
  | prim d => exact ⟨fun _ => rfl, rfl, rfl⟩
  | struct d =>
    have hf : ∀ f ∈ d.fields, ∀ q, f.ty.Leads q → P q := fun f hf q hq => hc q ⟨f, hf, hq⟩
    cases v with
    | struct fs =>
      dsimp only
      rw [own h L _ _ _ hf, (inherited h _ hf fs).1, (inherited h _ hf fs).2, fields h L _ _ _ hf]
      exact ⟨fun _ => rfl, rfl, rfl⟩
    | _ => exact ⟨fun _ => rfl, rfl, rfl⟩
  | enum d =>
    cases v with
    | enum i fs =>
      dsimp only
      cases hv : d.variants[i]? with
      | none => exact ⟨fun _ => rfl, rfl, rfl⟩
      | some vd =>
        have hm := List.mem_of_getElem? hv
        refine ⟨fun pl => ?_, rfl, rfl⟩
        dsimp only
        congr 1
        cases hs : vd.shape with
        | named fds =>
          exact named h L _ _ (fun f hf q hq => hc q ⟨vd, hm, .inr ⟨fds, hs, f, hf, hq⟩⟩) _
        | newtype t => exact variant h L _ _ _ (fun t ht q hq => hc q ⟨vd, hm, .inl ⟨t, ht, hq⟩⟩) _
        | unit => exact variant h L _ _ _ (fun t ht q hq => hc q ⟨vd, hm, .inl ⟨t, ht, hq⟩⟩) _
    | _ => exact ⟨fun _ => rfl, rfl, rfl⟩

/-- Written as in the program of its own. -/
theorem tree {part env : Env} {ser : SerImpls} {de : Impls} (h : PartOf part env ser de) {L : Lib} {W : Encoding}
    (hW : W.Derived L env ser) (n : Nat) : ∀ (p : Path) (v : Val), v.levels < n → part p ≠ none →
      (∀ pl, W.tree pl p v = encTy L part pl p v) ∧ W.attrs p v = encTyAttrs L part p v ∧ W.decls p v = encTyDecls part p v := by
  induction n with
  | zero => intro p v h; omega
  | succ n ih =>
    intro p v hv hne
    obtain ⟨t, hp⟩ := Option.ne_none_iff_exists'.mp hne
    -- for smaller values both agree on the part
    let W' : Encoding :=
      { tree := fun pl q x => if x.levels < v.levels ∧ part q ≠ none then encTy L part pl q x else W.tree pl q x
        attrs := fun q x => if x.levels < v.levels ∧ part q ≠ none then encTyAttrs L part q x else W.attrs q x
        decls := fun q x => if x.levels < v.levels ∧ part q ≠ none then encTyDecls part q x else W.decls q x }
    have h1 : Encoding.Agree (fun x => x.levels < v.levels) W W' := by
      refine ⟨fun pl q x hx => ?_, fun q x hx => ?_, fun q x hx => ?_⟩
      · show _ = ite _ _ _
        split
        · rename_i hc; exact (ih q x (by omega) hc.2).1 pl
        · rfl
      · show _ = ite _ _ _
        split
        · rename_i hc; exact (ih q x (by omega) hc.2).2.1
        · rfl
      · show _ = ite _ _ _
        split
        · rename_i hc; exact (ih q x (by omega) hc.2).2.2
        · rfl
    let W2 : Encoding :=
      { tree := fun pl q x => if part q ≠ none then encTy L part pl q x else W.tree pl q x
        attrs := fun q x => if part q ≠ none then encTyAttrs L part q x else W.attrs q x
        decls := fun q x => if part q ≠ none then encTyDecls part q x else W.decls q x }
    have h2 : Encoding.Agree (fun x => x.levels < v.levels) W' W2 := by
      refine ⟨fun pl q x hx => ?_, fun q x hx => ?_, fun q x hx => ?_⟩ <;>
      · show ite _ _ _ = ite _ _ _
        simp [hx]
    have h3 : Same (fun q => part q ≠ none) W2 (derivedEnc L part) := by
      refine ⟨fun pl q x hx => ?_, fun q x hx => ?_, fun q x hx => ?_⟩ <;>
      · show ite _ _ _ = _
        rw [if_pos hx]; rfl
    obtain ⟨a1, a2, a3⟩ := encTyBy_congr L env p v h1
    obtain ⟨b1, b2, b3⟩ := encTyBy_congr L env p v h2
    obtain ⟨c1, c2, c3⟩ := ty h3 L (h.same p t hp) hp (h.closed p t hp) v
    have hd := derivedEnc_derived L part (fun _ => none)
    have hs := h.ser p t hp
    refine ⟨fun pl => ?_, ?_, ?_⟩
    · rw [hW.tree pl p v hs, a1, b1, c1]; exact (hd.tree pl p v rfl).symm
    · rw [hW.attrs p v hs, a2, b2, c2]; exact (hd.attrs p v rfl).symm
    · rw [hW.decls p v hs, a3, b3, c3]; exact (hd.decls p v rfl).symm

/-- The code that writes it is that of the program of its own. -/
theorem ser {part env : Env} {ser : SerImpls} {de : Impls} (h : PartOf part env ser de) (L : Lib) (n : Nat) :
    SerRec.Agree (fun p _ => part p ≠ none) (serU L env ser n) (serU L part (fun _ => none) n) := by
  induction n with
  | zero => exact ⟨fun _ _ _ => rfl, fun _ _ _ => rfl⟩
  | succ n ih =>
    have key : ∀ p v, part p ≠ none → serTyBy L env (serU L env ser n) p v = serTyBy L part (serU L part (fun _ => none) n) p v ∧
        attrsOfBy L env (serU L env ser n) p v = attrsOfBy L part (serU L part (fun _ => none) n) p v := by
      intro p v hne
      obtain ⟨t, hp⟩ := Option.ne_none_iff_exists'.mp hne
      have := serTyBy_congr L part p v ih (fun t' q x ht hb => h.closed p t' ht q (below_contains hb))
      rw [← this.1, ← this.2]
      simp only [serTyBy.eq_def, attrsOfBy.eq_def, hp, h.same p t hp]
      exact ⟨trivial, trivial⟩
    refine ⟨fun p v hne => ?_, fun p v hne => ?_⟩
    · obtain ⟨t, hp⟩ := Option.ne_none_iff_exists'.mp hne
      have := (key p v hne).1
      unfold serU at this ⊢
      simpa only [serB, h.ser p t hp] using this
    · obtain ⟨t, hp⟩ := Option.ne_none_iff_exists'.mp hne
      have := (key p v hne).2
      unfold serU at this ⊢
      simpa only [serB, h.ser p t hp] using this

/-! ### Reading -/

theorem leads_core {t : FTy} {q : Path} (h : t.core = .struct q) : t.Leads q := by
  cases t with
  | simple s => cases h
  | struct q' => cases h; exact .here
  | opt t => simp only [FTy.core] at h; subst h; exact .opt .here
  | vec t => simp only [FTy.core] at h; subst h; exact .vec .here

/-- Read as in the program of its own. -/
theorem deser {part env : Env} {ser : SerImpls} {de : Impls} (h : PartOf part env ser de) (L : Lib) (n : Nat) :
    ∀ p, part p ≠ none → deserU L env de n p = Yaserde.deser L part n p := by
  have hQ : Steady fun _ => True := ⟨fun _ _ => trivial, fun _ _ => trivial⟩
  have eq : ∀ {x y : D Val}, Rel (fun _ => True) (fun _ => True) x y → x = y := fun h => funext fun rd => (h rd trivial).1
  induction n with
  | zero => intro p _; rfl
  | succ n ih =>
    intro p hne
    obtain ⟨t, hp⟩ := Option.ne_none_iff_exists'.mp hne
    have hc := h.closed p t hp
    unfold deserU Yaserde.deser
    simp only [h.de p t hp, h.same p t hp, hp]
    cases t with
    | prim d => rfl
    | struct d =>
      dsimp only
      have hr : ∀ f ∈ d.fields, ∀ q, f.ty.core = .struct q → deserU L env de n q = Yaserde.deser L part n q :=
        fun f hf q hq => ih q (hc q ⟨f, hf, leads_core hq⟩)
      have hs : StrSame L (deserU L env de n) (Yaserde.deser L part n) d := by
        intro f hf _ q hq s
        unfold fromStr
        rw [hr f hf q hq]
      exact eq (structDeser_rel hQ n d hs fun named sd st _ =>
        structLoop_rel hQ n d (fun f hf _ _ q hq => by rw [hr f hf q hq]; exact .same fun _ _ => trivial) hs named sd n st)
    | enum d =>
      dsimp only
      refine eq (enumDeser_rel hQ n d fun v hv t ht q hq => ?_)
      rw [ih q (hc q ⟨v, hv, .inl ⟨t, ht, leads_core hq⟩⟩)]
      exact .same fun _ _ => trivial

end Part

end Yaserde
