import Verif.Spec.Frames
import Verif.Spec.UserSer
/-
The generated serializers call others on what is inside the value only.
-/

set_option autoImplicit false

namespace Yaserde

theorem levels_mem {x : Val} {xs : List Val} (h : x ∈ xs) : x.levels ≤ Val.levelsL xs := by
  induction xs with
  | nil => cases h
  | cons y ys ih =>
    rw [Val.levelsL]
    rcases List.mem_cons.mp h with rfl | h
    · omega
    · have := ih h; omega

/-- Closed under options and vectors. -/
structure Through (P : Val → Prop) : Prop where
  some : ∀ x, P (.some x) → P x
  vec : ∀ xs, P (.vec xs) → ∀ x ∈ xs, P x

theorem through_levels (k : Nat) : Through fun v => v.levels ≤ k where
  some x h := by rw [Val.levels] at h; exact h
  vec xs h x hx := by
    have := levels_mem hx
    rw [Val.levels] at h; omega

/-- The same implementations where `P` holds. -/
structure SerRec.Agree (P : Path → Val → Prop) (R R' : SerRec) : Prop where
  ser : ∀ p x, P p x → R.ser p x = R'.ser p x
  attrs : ∀ p x, P p x → R.attrs p x = R'.attrs p x

section
variable {P : Path → Val → Prop} {R R' : SerRec} (h : SerRec.Agree P R R') (L : Lib)
include h

theorem serItemsBy_congr (p : Path) (flags : S Unit) (xs : List Val) (hx : ∀ x ∈ xs, P p x) :
    serItemsBy L R p flags xs = serItemsBy L R' p flags xs := by
  induction xs with
  | nil => rfl
  | cons x xs ih =>
    rw [serItemsBy, serItemsBy, ih fun y hy => hx y (List.mem_cons_of_mem _ hy), h.ser p x (hx x (List.mem_cons_self ..))]

theorem serOptItemsBy_congr (t : FTy) (xs : List Val) (hx : ∀ x ∈ xs, ∀ q y, Reach (.opt t) x q y → P q y) :
    serOptItemsBy L R t xs = serOptItemsBy L R' t xs := by
  induction xs with
  | nil => rfl
  | cons x xs ih =>
    have ih := ih fun y hy => hx y (List.mem_cons_of_mem _ hy)
    cases x
    case some x =>
      rw [serOptItemsBy.eq_def, serOptItemsBy.eq_def]
      dsimp only
      rw [ih]
      cases t
      case struct => dsimp only; rw [h.ser _ x (hx _ (List.mem_cons_self ..) _ _ (.some .here))]
      all_goals rfl
    all_goals rw [serOptItemsBy.eq_def, serOptItemsBy.eq_def]; exact ih

/-- Where the fields of a struct or variant lead. -/
def FieldsReach (P : Path → Val → Prop) (fds : List FieldDef) (vs : List Val) : Prop :=
  ∀ (i : Nat) (f : FieldDef) (v : Val), fds[i]? = some f → vs[i]? = some v → ∀ q x, Reach f.ty v q x → P q x

omit h in
theorem FieldsReach.tail {f : FieldDef} {fds : List FieldDef} {v : Val} {vs : List Val} (h : FieldsReach P (f :: fds) (v :: vs)) :
    FieldsReach P fds vs := fun i g w hg hw => h (i + 1) g w hg hw

theorem serFieldsBy_congr (root : Attrs) (self : Val) (fds : List FieldDef) (vs : List Val) (hv : FieldsReach P fds vs) :
    serFieldsBy L R root self fds vs = serFieldsBy L R' root self fds vs := by
  induction fds generalizing vs with
  | nil => rw [serFieldsBy.eq_def, serFieldsBy.eq_def]
  | cons f fds ih =>
  cases vs with
  | nil => rw [serFieldsBy.eq_def, serFieldsBy.eq_def]
  | cons v vs =>
  rw [serFieldsBy.eq_def, serFieldsBy.eq_def]
  dsimp only
  rw [ih vs hv.tail]
  have hv := hv 0 f v rfl rfl
  congr 1
  split
  · rfl
  split
  · rfl
  split
  · rfl
  split
  · rfl
  generalize f.ty = ty at hv
  split
  all_goals first
    | rfl
    | rw [h.ser _ _ (hv _ _ .here)]
    | rw [h.ser _ _ (hv _ _ (.some .here))]
    | exact serOptItemsBy_congr h L _ _ fun x hx q y hr => hv q y (.vec hx hr)
    | exact serItemsBy_congr h L _ _ _ fun x hx => hv _ _ (.vec hx .here)

theorem structAttrsBy_congr (root : Attrs) (self : Val) (fds : List FieldDef) (vs : List Val) (hv : FieldsReach P fds vs) :
    structAttrsBy L R root self fds vs = structAttrsBy L R' root self fds vs := by
  induction fds generalizing vs with
  | nil => rw [structAttrsBy.eq_def, structAttrsBy.eq_def]
  | cons f fds ih =>
  cases vs with
  | nil => rw [structAttrsBy.eq_def, structAttrsBy.eq_def]
  | cons v vs =>
  rw [structAttrsBy.eq_def, structAttrsBy.eq_def]
  dsimp only
  rw [ih vs hv.tail]
  have hv := hv 0 f v rfl rfl
  generalize f.ty = ty at hv
  split
  · split
    all_goals first
      | rfl
      | rw [h.ser _ _ (hv _ _ .here)]
      | rw [h.ser _ _ (hv _ _ (.some .here))]
  split
  · split
    · rw [h.attrs _ _ (hv _ _ .here)]
    · rfl
  · rfl

theorem serVariantItemsBy_congr (label : Str) (t : FTy) (xs : List Val) (hx : ∀ x ∈ xs, ∀ q y, Reach t x q y → P q y) :
    serVariantItemsBy L R label t xs = serVariantItemsBy L R' label t xs := by
  induction xs with
  | nil => rfl
  | cons x xs ih =>
    have ih := ih fun y hy => hx y (List.mem_cons_of_mem _ hy)
    rw [serVariantItemsBy.eq_def, serVariantItemsBy.eq_def]
    dsimp only
    rw [ih]
    cases t
    case struct => dsimp only; rw [h.ser _ x (hx x (List.mem_cons_self ..) _ _ .here)]
    case simple s _ => cases s <;> rfl
    all_goals rfl

theorem serVariantBy_congr (root : Attrs) (vd : VariantDef) (vs : List Val)
    (hv : ∀ t x, vd.shape = .newtype t → vs.head? = some x → ∀ q y, Reach t x q y → P q y) :
    serVariantBy L R root vd vs = serVariantBy L R' root vd vs := by
  rw [serVariantBy.eq_def, serVariantBy.eq_def]
  generalize vd.shape = sh at hv
  split
  all_goals first
    | rfl
    | rw [h.ser _ _ (hv _ _ rfl rfl _ _ .here)]
    | rw [h.ser _ _ (hv _ _ rfl rfl _ _ (.some .here))]
    | exact serVariantItemsBy_congr h L _ _ _ fun x hx q y hr => hv _ _ rfl rfl q y (.vec hx hr)

theorem serNamedBy_congr (root : Attrs) (fds : List FieldDef) (vs : List Val) (hv : FieldsReach P fds vs) :
    serNamedBy L R root fds vs = serNamedBy L R' root fds vs := by
  induction fds generalizing vs with
  | nil => rw [serNamedBy.eq_def, serNamedBy.eq_def]
  | cons f fds ih =>
  cases vs with
  | nil => rw [serNamedBy.eq_def, serNamedBy.eq_def]
  | cons v vs =>
  rw [serNamedBy.eq_def, serNamedBy.eq_def]
  dsimp only
  rw [ih vs hv.tail]
  have hv := hv 0 f v rfl rfl
  congr 1
  generalize f.ty = ty at hv
  split
  all_goals first
    | rfl
    | rw [h.ser _ _ (hv _ _ .here)]
    | exact serItemsBy_congr h L _ _ _ fun x hx => hv _ _ (.vec hx .here)

end

/-- The code of a type calls others on what its fields or payload lead to. -/
theorem serTyBy_congr {P : Path → Val → Prop} {R R' : SerRec} (L : Lib) (env : Env) (p : Path) (v : Val)
    (h : SerRec.Agree P R R') (hP : ∀ t q x, env p = some t → Below t v q x → P q x) :
    serTyBy L env R p v = serTyBy L env R' p v ∧ attrsOfBy L env R p v = attrsOfBy L env R' p v := by
  rw [serTyBy.eq_def, serTyBy.eq_def, attrsOfBy.eq_def, attrsOfBy.eq_def]
  cases hp : env p with
  | none => exact ⟨rfl, rfl⟩
  | some td =>
    have hP := fun q x => hP td q x hp
    cases td with
    | struct d =>
      cases v with
      | struct fs =>
        have hr : FieldsReach P d.fields fs := fun i f v hf hv q x hr => hP q x (.field hf hv hr)
        dsimp only
        rw [structAttrsBy_congr h L _ _ _ _ hr, serFieldsBy_congr h L _ _ _ _ hr]
        exact ⟨rfl, rfl⟩
      | _ => exact ⟨rfl, rfl⟩
    | enum d =>
      cases v with
      | enum i fs =>
        dsimp only
        cases hd : d.variants[i]? with
        | none => exact ⟨rfl, rfl⟩
        | some vd =>
          refine ⟨?_, rfl⟩
          dsimp only
          congr 1
          cases hs : vd.shape with
          | named fds => exact serNamedBy_congr h L _ _ _ fun j f v hf hv q x hr => hP q x (.named hd hs hf hv hr)
          | unit =>
            refine serVariantBy_congr h L _ _ _ fun t x ht => ?_
            rw [hs] at ht; cases ht
          | newtype t =>
            refine serVariantBy_congr h L _ _ _ fun t' x ht hx q y hr => hP q y (.payload hd ?_ hx hr)
            exact ht
      | _ => exact ⟨rfl, rfl⟩
    | prim d => exact ⟨rfl, rfl⟩

theorem reach_levels {t : FTy} {v : Val} {q : Path} {x : Val} (h : Reach t v q x) : x.levels ≤ v.levels := by
  induction h with
  | here => exact Nat.le_refl _
  | some _ ih => rw [Val.levels]; exact ih
  | vec hm _ ih =>
    have := levels_mem hm
    rw [Val.levels]; omega

theorem below_levels {t : TypeDef} {v : Val} {q : Path} {x : Val} (h : Below t v q x) : x.levels < v.levels := by
  cases h with
  | field hf hv hr =>
    have := levels_mem (List.mem_of_getElem? hv)
    have := reach_levels hr
    rw [Val.levels]; omega
  | payload hd hs hx hr =>
    have := levels_mem (List.mem_of_mem_head? hx)
    have := reach_levels hr
    rw [Val.levels]; omega
  | named hd hs hf hv hr =>
    have := levels_mem (List.mem_of_getElem? hv)
    have := reach_levels hr
    rw [Val.levels]; omega

/-- The same encodings of the values of `P`. -/
structure Encoding.Agree (P : Val → Prop) (W W' : Encoding) : Prop where
  tree : ∀ pl p x, P x → W.tree pl p x = W'.tree pl p x
  attrs : ∀ p x, P x → W.attrs p x = W'.attrs p x
  decls : ∀ p x, P x → W.decls p x = W'.decls p x

section
variable {P : Val → Prop} (hP : Through P) {W W' : Encoding} (h : Encoding.Agree P W W') (L : Lib)
include hP h

theorem encItemsBy_congr (pl : Place) (p : Path) (xs : List Val) (hx : ∀ x ∈ xs, P x) :
    encItemsBy L W pl p xs = encItemsBy L W' pl p xs := by
  induction xs with
  | nil => rfl
  | cons x xs ih =>
    rw [encItemsBy, encItemsBy, ih fun y hy => hx y (List.mem_cons_of_mem _ hy), h.tree pl p x (hx x (List.mem_cons_self ..))]

theorem encOptItemsBy_congr (t : FTy) (xs : List Val) (hx : ∀ x ∈ xs, P x) :
    encOptItemsBy L W t xs = encOptItemsBy L W' t xs := by
  induction xs with
  | nil => rfl
  | cons x xs ih =>
    have ih := ih fun y hy => hx y (List.mem_cons_of_mem _ hy)
    cases x
    case some x =>
      rw [encOptItemsBy.eq_def, encOptItemsBy.eq_def]
      dsimp only
      rw [ih]
      cases t
      case struct => dsimp only; rw [h.tree _ _ x (hP.some x (hx _ (List.mem_cons_self ..)))]
      all_goals rfl
    all_goals rw [encOptItemsBy.eq_def, encOptItemsBy.eq_def]; exact ih

theorem encFieldsBy_congr (root : Attrs) (self : Val) (fds : List FieldDef) (vs : List Val) (hv : ∀ v ∈ vs, P v) :
    encFieldsBy L W root self fds vs = encFieldsBy L W' root self fds vs := by
  induction fds generalizing vs with
  | nil => rw [encFieldsBy.eq_def, encFieldsBy.eq_def]
  | cons f fds ih =>
  cases vs with
  | nil => rw [encFieldsBy.eq_def, encFieldsBy.eq_def]
  | cons v vs =>
  rw [encFieldsBy.eq_def, encFieldsBy.eq_def]
  dsimp only
  rw [ih vs fun w hw => hv w (List.mem_cons_of_mem _ hw)]
  have hv := hv v (List.mem_cons_self ..)
  congr 1
  split
  · rfl
  split
  · rfl
  split
  · rfl
  split
  · rfl
  split
  all_goals first
    | rfl
    | rw [h.tree _ _ _ hv]
    | rw [h.tree _ _ _ (hP.some _ hv)]
    | exact encOptItemsBy_congr hP h L _ _ (hP.vec _ hv)
    | exact encItemsBy_congr hP h L _ _ _ (hP.vec _ hv)

theorem encOwnBy_congr (root : Attrs) (self : Val) (fds : List FieldDef) (vs : List Val) (hv : ∀ v ∈ vs, P v) :
    encOwnBy L W root self fds vs = encOwnBy L W' root self fds vs := by
  induction fds generalizing vs with
  | nil => rw [encOwnBy.eq_def, encOwnBy.eq_def]
  | cons f fds ih =>
  cases vs with
  | nil => rw [encOwnBy.eq_def, encOwnBy.eq_def]
  | cons v vs =>
  rw [encOwnBy.eq_def, encOwnBy.eq_def]
  dsimp only
  rw [ih vs fun w hw => hv w (List.mem_cons_of_mem _ hw)]
  have hv := hv v (List.mem_cons_self ..)
  congr 1
  split
  · split
    all_goals first
      | rfl
      | rw [h.tree _ _ _ hv]
      | rw [h.tree _ _ _ (hP.some _ hv)]
  · rfl

theorem encInheritedBy_congr (fds : List FieldDef) (vs : List Val) (hv : ∀ v ∈ vs, P v) :
    encInheritedBy W fds vs = encInheritedBy W' fds vs := by
  induction fds generalizing vs with
  | nil => rw [encInheritedBy.eq_def, encInheritedBy.eq_def]
  | cons f fds ih =>
  cases vs with
  | nil => rw [encInheritedBy.eq_def, encInheritedBy.eq_def]
  | cons v vs =>
  rw [encInheritedBy.eq_def, encInheritedBy.eq_def]
  dsimp only
  rw [ih vs fun w hw => hv w (List.mem_cons_of_mem _ hw)]
  have hv := hv v (List.mem_cons_self ..)
  congr 1
  split
  · split
    · rw [h.attrs _ _ hv]
    · rfl
  · rfl

theorem encInheritedDeclsBy_congr (fds : List FieldDef) (vs : List Val) (hv : ∀ v ∈ vs, P v) :
    encInheritedDeclsBy W fds vs = encInheritedDeclsBy W' fds vs := by
  induction fds generalizing vs with
  | nil => rw [encInheritedDeclsBy.eq_def, encInheritedDeclsBy.eq_def]
  | cons f fds ih =>
  cases vs with
  | nil => rw [encInheritedDeclsBy.eq_def, encInheritedDeclsBy.eq_def]
  | cons v vs =>
  rw [encInheritedDeclsBy.eq_def, encInheritedDeclsBy.eq_def]
  dsimp only
  rw [ih vs fun w hw => hv w (List.mem_cons_of_mem _ hw)]
  have hv := hv v (List.mem_cons_self ..)
  congr 1
  split
  · split
    · rw [h.decls _ _ hv]
    · rfl
  · rfl

theorem encVariantItemsBy_congr (label : Str) (t : FTy) (xs : List Val) (hx : ∀ x ∈ xs, P x) :
    encVariantItemsBy L W label t xs = encVariantItemsBy L W' label t xs := by
  induction xs with
  | nil => rfl
  | cons x xs ih =>
    have ih := ih fun y hy => hx y (List.mem_cons_of_mem _ hy)
    rw [encVariantItemsBy.eq_def, encVariantItemsBy.eq_def]
    dsimp only
    rw [ih]
    cases t
    case struct => dsimp only; rw [h.tree _ _ x (hx x (List.mem_cons_self ..))]
    all_goals rfl

theorem encVariantBy_congr (pl : Place) (root : Attrs) (vd : VariantDef) (vs : List Val) (hv : ∀ v ∈ vs, P v) :
    encVariantBy L W pl root vd vs = encVariantBy L W' pl root vd vs := by
  rw [encVariantBy.eq_def, encVariantBy.eq_def]
  split
  all_goals first
    | rfl
    | rw [h.tree _ _ _ (hv _ (List.mem_cons_self ..)), h.tree _ _ _ (hv _ (List.mem_cons_self ..))]
    | rw [h.tree _ _ _ (hP.some _ (hv _ (List.mem_cons_self ..)))]
    | exact encVariantItemsBy_congr hP h L _ _ _ (hP.vec _ (hv _ (List.mem_cons_self ..)))

theorem encNamedBy_congr (root : Attrs) (fds : List FieldDef) (vs : List Val) (hv : ∀ v ∈ vs, P v) :
    encNamedBy L W root fds vs = encNamedBy L W' root fds vs := by
  induction fds generalizing vs with
  | nil => rw [encNamedBy.eq_def, encNamedBy.eq_def]
  | cons f fds ih =>
  cases vs with
  | nil => rw [encNamedBy.eq_def, encNamedBy.eq_def]
  | cons v vs =>
  rw [encNamedBy.eq_def, encNamedBy.eq_def]
  dsimp only
  rw [ih vs fun w hw => hv w (List.mem_cons_of_mem _ hw)]
  have hv := hv v (List.mem_cons_self ..)
  congr 1
  split
  all_goals first
    | rfl
    | rw [h.tree _ _ _ hv]
    | exact encItemsBy_congr hP h L _ _ _ (hP.vec _ hv)

end

/-- The encoding of a value refers to values that are inside it. -/
theorem encTyBy_congr {W W' : Encoding} (L : Lib) (env : Env) (p : Path) (v : Val)
    (h : Encoding.Agree (fun x => x.levels < v.levels) W W') :
    (∀ pl, encTyBy L env W pl p v = encTyBy L env W' pl p v) ∧ encTyAttrsBy L env W p v = encTyAttrsBy L env W' p v ∧
      encTyDeclsBy env W p v = encTyDeclsBy env W' p v := by
  have key : ∀ fs, v.levels = 1 + Val.levelsL fs → Encoding.Agree (fun x => x.levels ≤ Val.levelsL fs) W W' := by
    intro fs e
    exact ⟨fun pl q x hx => h.tree pl q x (by omega), fun q x hx => h.attrs q x (by omega), fun q x hx => h.decls q x (by omega)⟩
  simp only [encTyBy.eq_def, encTyAttrsBy.eq_def, encTyDeclsBy.eq_def]
  cases v with
  | struct fs =>
    have hk := key fs (by rw [Val.levels])
    cases env p with
    | none => exact ⟨fun _ => rfl, rfl, rfl⟩
    | some td =>
      cases td with
      | struct d =>
        dsimp only
        rw [encOwnBy_congr (through_levels _) hk L _ _ _ _ fun x hx => levels_mem hx,
          encInheritedBy_congr (through_levels _) hk _ _ fun x hx => levels_mem hx,
          encInheritedDeclsBy_congr (through_levels _) hk _ _ fun x hx => levels_mem hx,
          encFieldsBy_congr (through_levels _) hk L _ _ _ _ fun x hx => levels_mem hx]
        exact ⟨fun _ => rfl, rfl, rfl⟩
      | _ => exact ⟨fun _ => rfl, rfl, rfl⟩
  | enum i fs =>
    have hk := key fs (by rw [Val.levels])
    cases env p with
    | none => exact ⟨fun _ => rfl, rfl, rfl⟩
    | some td =>
      cases td with
      | enum d =>
        dsimp only
        cases d.variants[i]? with
        | none => exact ⟨fun _ => rfl, rfl, rfl⟩
        | some vd =>
          refine ⟨fun pl => ?_, rfl, rfl⟩
          dsimp only
          congr 1
          cases vd.shape with
          | named fds =>
            exact encNamedBy_congr (through_levels _) hk L _ _ _ fun x hx => levels_mem hx
          | _ => exact encVariantBy_congr (through_levels _) hk L _ _ _ _ fun x hx => levels_mem hx
      | _ => exact ⟨fun _ => rfl, rfl, rfl⟩
  | _ =>
    cases env p with
    | none => exact ⟨fun _ => rfl, rfl, rfl⟩
    | some td => cases td <;> exact ⟨fun _ => rfl, rfl, rfl⟩

/-! ### Programs without hand-written types -/

/-- The implementations of the types of a program without hand-written ones. -/
def derived (L : Lib) (env : Env) : SerRec := ⟨serTy L env, attrsOf L env⟩

section
variable (L : Lib) (env : Env)

theorem serItemsBy_derived (p : Path) (flags : S Unit) (xs : List Val) :
    serItemsBy L (derived L env) p flags xs = serItems L env p flags xs := by
  induction xs with
  | nil => rw [serItemsBy, serItems]
  | cons x xs ih => rw [serItemsBy, serItems, ih]; rfl

theorem serOptItemsBy_derived (t : FTy) (xs : List Val) :
    serOptItemsBy L (derived L env) t xs = serOptItems L env t xs := by
  induction xs with
  | nil => rw [serOptItemsBy, serOptItems]
  | cons x xs ih =>
    rw [serOptItemsBy.eq_def, serOptItems.eq_def]
    cases x
    case some x =>
      dsimp only
      rw [ih]
      cases t <;> rfl
    all_goals exact ih

theorem serFieldsBy_derived (root : Attrs) (self : Val) (fds : List FieldDef) (vs : List Val) :
    serFieldsBy L (derived L env) root self fds vs = serFields L env root self fds vs := by
  induction fds generalizing vs with
  | nil => rw [serFieldsBy.eq_def, serFields.eq_def]
  | cons f fds ih =>
  cases vs with
  | nil => rw [serFieldsBy.eq_def, serFields.eq_def]
  | cons v vs =>
  rw [serFieldsBy.eq_def, serFields.eq_def]
  dsimp only
  rw [ih vs]
  congr 1
  simp only [serOptItemsBy_derived, serItemsBy_derived]
  rfl

theorem structAttrsBy_derived (root : Attrs) (self : Val) (fds : List FieldDef) (vs : List Val) :
    structAttrsBy L (derived L env) root self fds vs = structAttrs L env root self fds vs := by
  induction fds generalizing vs with
  | nil => rw [structAttrsBy.eq_def, structAttrs.eq_def]
  | cons f fds ih =>
  cases vs with
  | nil => rw [structAttrsBy.eq_def, structAttrs.eq_def]
  | cons v vs =>
  rw [structAttrsBy.eq_def, structAttrs.eq_def]
  dsimp only
  rw [ih vs]
  rfl

theorem serVariantItemsBy_derived (label : Str) (t : FTy) (xs : List Val) :
    serVariantItemsBy L (derived L env) label t xs = serVariantItems L env label t xs := by
  induction xs with
  | nil => rw [serVariantItemsBy, serVariantItems]
  | cons x xs ih =>
    rw [serVariantItemsBy.eq_def, serVariantItems.eq_def]
    dsimp only
    rw [ih]
    rfl

theorem serVariantBy_derived (root : Attrs) (vd : VariantDef) (vs : List Val) :
    serVariantBy L (derived L env) root vd vs = serVariant L env root vd vs := by
  rw [serVariantBy.eq_def, serVariant.eq_def]
  simp only [serVariantItemsBy_derived]
  rfl

theorem serNamedBy_derived (root : Attrs) (fds : List FieldDef) (vs : List Val) :
    serNamedBy L (derived L env) root fds vs = serNamed L env root fds vs := by
  induction fds generalizing vs with
  | nil => rw [serNamedBy.eq_def, serNamed.eq_def]
  | cons f fds ih =>
  cases vs with
  | nil => rw [serNamedBy.eq_def, serNamed.eq_def]
  | cons v vs =>
  rw [serNamedBy.eq_def, serNamed.eq_def]
  dsimp only
  rw [ih vs]
  congr 1
  simp only [serItemsBy_derived]
  rfl

/-- `Model/Ser.lean` is the generated code in terms of itself. -/
theorem serTyBy_derived (p : Path) (v : Val) :
    serTyBy L env (derived L env) p v = serTy L env p v ∧ attrsOfBy L env (derived L env) p v = attrsOf L env p v := by
  rw [serTyBy.eq_def, serTy.eq_def, attrsOfBy.eq_def, attrsOf.eq_def]
  simp only [structAttrsBy_derived, serFieldsBy_derived, serVariantBy_derived, serNamedBy_derived]
  exact ⟨rfl, rfl⟩

end

/-- Without hand-written types, the bottom is not reached where the chains of values inside each other are short enough. -/
theorem serB_nests (L : Lib) (env : Env) (base : SerRec) (n : Nat) :
    SerRec.Agree (Nests env n) (serB L env (fun _ => none) base n) (derived L env) := by
  induction n with
  | zero => exact ⟨fun p x hx => hx.elim, fun p x hx => hx.elim⟩
  | succ n ih =>
    have h := fun p x (hx : Nests env (n + 1) p x) => serTyBy_congr L env p x ih hx
    refine ⟨fun p x hx => ?_, fun p x hx => ?_⟩
    · show serTyBy L env _ p x = serTy L env p x
      rw [← (serTyBy_derived L env p x).1]
      exact (h p x hx).1
    · show attrsOfBy L env _ p x = attrsOf L env p x
      rw [← (serTyBy_derived L env p x).2]
      exact (h p x hx).2

theorem nests_levels (env : Env) (n : Nat) (p : Path) (v : Val) (h : v.levels < n) : Nests env n p v := by
  induction n generalizing p v with
  | zero => omega
  | succ n ih =>
    intro t q x _ hb
    have := below_levels hb
    exact ih q x (by omega)

theorem reach_leads {t : FTy} {v : Val} {q : Path} {x : Val} (h : Reach t v q x) : t.Leads q := by
  induction h with
  | here => exact .here
  | some _ ih => exact .opt ih
  | vec _ _ ih => exact .vec ih

theorem below_contains {t : TypeDef} {v : Val} {q : Path} {x : Val} (h : Below t v q x) : t.Contains q := by
  cases h with
  | field hf hv hr => exact ⟨_, List.mem_of_getElem? hf, reach_leads hr⟩
  | payload hd hs hx hr => exact ⟨_, List.mem_of_getElem? hd, .inl ⟨_, hs, reach_leads hr⟩⟩
  | named hd hs hf hv hr => exact ⟨_, List.mem_of_getElem? hd, .inr ⟨_, hs, _, List.mem_of_getElem? hf, reach_leads hr⟩⟩

theorem nests_rank {env : Env} {rank : Path → Nat} (h : ∀ p t q, env p = some t → t.Contains q → rank q < rank p) (n : Nat) (p : Path) (v : Val)
    (hn : rank p < n) : Nests env n p v := by
  induction n generalizing p v with
  | zero => omega
  | succ n ih =>
    intro t q x ht hb
    have := h p t q ht (below_contains hb)
    exact ih q x (by omega)

/-- The encodings of a program without hand-written types. -/
def derivedEnc (L : Lib) (env : Env) : Encoding := ⟨encTy L env, encTyAttrs L env, encTyDecls env⟩

section
variable (L : Lib) (env : Env)

theorem encItemsBy_derived (pl : Place) (p : Path) (xs : List Val) :
    encItemsBy L (derivedEnc L env) pl p xs = encItems L env pl p xs := by
  induction xs with
  | nil => rw [encItemsBy, encItems]
  | cons x xs ih => rw [encItemsBy, encItems, ih]; rfl

theorem encOptItemsBy_derived (t : FTy) (xs : List Val) :
    encOptItemsBy L (derivedEnc L env) t xs = encOptItems L env t xs := by
  induction xs with
  | nil => rw [encOptItemsBy, encOptItems]
  | cons x xs ih =>
    rw [encOptItemsBy.eq_def, encOptItems.eq_def]
    cases x
    case some x =>
      dsimp only
      rw [ih]
      cases t <;> rfl
    all_goals exact ih

theorem encFieldsBy_derived (root : Attrs) (self : Val) (fds : List FieldDef) (vs : List Val) :
    encFieldsBy L (derivedEnc L env) root self fds vs = encFields L env root self fds vs := by
  induction fds generalizing vs with
  | nil => rw [encFieldsBy.eq_def, encFields.eq_def]
  | cons f fds ih =>
  cases vs with
  | nil => rw [encFieldsBy.eq_def, encFields.eq_def]
  | cons v vs =>
  rw [encFieldsBy.eq_def, encFields.eq_def]
  dsimp only
  rw [ih vs]
  congr 1
  simp only [encOptItemsBy_derived, encItemsBy_derived]
  rfl

theorem encOwnBy_derived (root : Attrs) (self : Val) (fds : List FieldDef) (vs : List Val) :
    encOwnBy L (derivedEnc L env) root self fds vs = encOwn L env root self fds vs := by
  induction fds generalizing vs with
  | nil => rw [encOwnBy.eq_def, encOwn.eq_def]
  | cons f fds ih =>
  cases vs with
  | nil => rw [encOwnBy.eq_def, encOwn.eq_def]
  | cons v vs =>
  rw [encOwnBy.eq_def, encOwn.eq_def]
  dsimp only
  rw [ih vs]
  rfl

theorem encInheritedBy_derived (fds : List FieldDef) (vs : List Val) :
    encInheritedBy (derivedEnc L env) fds vs = encInherited L env fds vs := by
  induction fds generalizing vs with
  | nil => rw [encInheritedBy.eq_def, encInherited.eq_def]
  | cons f fds ih =>
  cases vs with
  | nil => rw [encInheritedBy.eq_def, encInherited.eq_def]
  | cons v vs =>
  rw [encInheritedBy.eq_def, encInherited.eq_def]
  dsimp only
  rw [ih vs]
  rfl

theorem encInheritedDeclsBy_derived (fds : List FieldDef) (vs : List Val) :
    encInheritedDeclsBy (derivedEnc L env) fds vs = encInheritedDecls env fds vs := by
  induction fds generalizing vs with
  | nil => rw [encInheritedDeclsBy.eq_def, encInheritedDecls.eq_def]
  | cons f fds ih =>
  cases vs with
  | nil => rw [encInheritedDeclsBy.eq_def, encInheritedDecls.eq_def]
  | cons v vs =>
  rw [encInheritedDeclsBy.eq_def, encInheritedDecls.eq_def]
  dsimp only
  rw [ih vs]
  rfl

theorem encVariantItemsBy_derived (label : Str) (t : FTy) (xs : List Val) :
    encVariantItemsBy L (derivedEnc L env) label t xs = encVariantItems L env label t xs := by
  induction xs with
  | nil => rw [encVariantItemsBy, encVariantItems]
  | cons x xs ih =>
    rw [encVariantItemsBy.eq_def, encVariantItems.eq_def]
    dsimp only
    rw [ih]
    rfl

theorem encVariantBy_derived (pl : Place) (root : Attrs) (vd : VariantDef) (vs : List Val) :
    encVariantBy L (derivedEnc L env) pl root vd vs = encVariant L env pl root vd vs := by
  rw [encVariantBy.eq_def, encVariant.eq_def]
  simp only [encVariantItemsBy_derived]
  rfl

theorem encNamedBy_derived (root : Attrs) (fds : List FieldDef) (vs : List Val) :
    encNamedBy L (derivedEnc L env) root fds vs = encNamed L env root fds vs := by
  induction fds generalizing vs with
  | nil => rw [encNamedBy.eq_def, encNamed.eq_def]
  | cons f fds ih =>
  cases vs with
  | nil => rw [encNamedBy.eq_def, encNamed.eq_def]
  | cons v vs =>
  rw [encNamedBy.eq_def, encNamed.eq_def]
  dsimp only
  rw [ih vs]
  congr 1
  simp only [encItemsBy_derived]
  rfl

/-- `Spec/Encode.lean` is the encoding of derived types in terms of itself. -/
theorem derivedEnc_derived (user : SerImpls) : (derivedEnc L env).Derived L env user := by
  refine ⟨fun pl p v _ => ?_, fun p v _ => ?_, fun p v _ => ?_⟩
  · show encTy L env pl p v = _
    rw [encTyBy.eq_def, encTy.eq_def]
    simp only [encOwnBy_derived, encInheritedBy_derived, encInheritedDeclsBy_derived, encFieldsBy_derived, encVariantBy_derived, encNamedBy_derived]
    rfl
  · show encTyAttrs L env p v = _
    rw [encTyAttrsBy.eq_def, encTyAttrs.eq_def]
    simp only [encOwnBy_derived, encInheritedBy_derived]
    rfl
  · show encTyDecls env p v = _
    rw [encTyDeclsBy.eq_def, encTyDecls.eq_def]
    simp only [encInheritedDeclsBy_derived]
    rfl

end

/-- There is at most one encoding with given encodings of the hand-written types. -/
theorem Encoding.Derived.unique {L : Lib} {env : Env} {user : SerImpls} {W W' : Encoding} (h : W.Derived L env user) (h' : W'.Derived L env user)
    (hu : ∀ p f v, user p = some f → (∀ pl, W.tree pl p v = W'.tree pl p v) ∧ W.attrs p v = W'.attrs p v ∧ W.decls p v = W'.decls p v)
    (n : Nat) : Encoding.Agree (fun v => v.levels < n) W W' := by
  have all : ∀ p (v : Val), v.levels < n →
      (∀ pl, W.tree pl p v = W'.tree pl p v) ∧ W.attrs p v = W'.attrs p v ∧ W.decls p v = W'.decls p v := by
    induction n with
    | zero => intro p v hv; omega
    | succ n ih =>
      intro p v hv
      cases hup : user p with
      | some f => exact hu p f v hup
      | none =>
        have := encTyBy_congr (W := W) (W' := W') L env p v ⟨fun pl q x hx => (ih q x (by omega)).1 pl, fun q x hx => (ih q x (by omega)).2.1,
          fun q x hx => (ih q x (by omega)).2.2⟩
        refine ⟨fun pl => ?_, ?_, ?_⟩
        · rw [h.tree pl p v hup, h'.tree pl p v hup, this.1]
        · rw [h.attrs p v hup, h'.attrs p v hup, this.2.1]
        · rw [h.decls p v hup, h'.decls p v hup, this.2.2]
  exact ⟨fun pl p v hv => (all p v hv).1 pl, fun p v hv => (all p v hv).2.1, fun p v hv => (all p v hv).2.2⟩

/-! ### The encoding of a program with hand-written types -/

/-- The encodings, given those of the hand-written types. -/
def encB (L : Lib) (env : Env) (user : SerImpls) (U : Encoding) : Nat → Encoding
  | 0 => U
  | n + 1 => {
    tree := fun pl p v => if (user p).isSome then U.tree pl p v else encTyBy L env (encB L env user U n) pl p v
    attrs := fun p v => if (user p).isSome then U.attrs p v else encTyAttrsBy L env (encB L env user U n) p v
    decls := fun p v => if (user p).isSome then U.decls p v else encTyDeclsBy env (encB L env user U n) p v }

theorem encB_stable (L : Lib) (env : Env) (user : SerImpls) (U : Encoding) (n : Nat) :
    Encoding.Agree (fun x => x.levels ≤ n) (encB L env user U (n + 1)) (encB L env user U (n + 2)) := by
  have step : ∀ m, (∀ x : Val, x.levels ≤ m → Encoding.Agree (fun y => y.levels < x.levels) (encB L env user U m) (encB L env user U (m + 1))) →
      Encoding.Agree (fun x => x.levels ≤ m) (encB L env user U (m + 1)) (encB L env user U (m + 2)) := by
    intro m h
    refine ⟨fun pl p x hx => ?_, fun p x hx => ?_, fun p x hx => ?_⟩
    · simp only [encB]
      split
      · rfl
      · exact (encTyBy_congr L env p x (h x hx)).1 pl
    · simp only [encB]
      split
      · rfl
      · exact (encTyBy_congr L env p x (h x hx)).2.1
    · simp only [encB]
      split
      · rfl
      · exact (encTyBy_congr L env p x (h x hx)).2.2
  induction n with
  | zero => exact step 0 fun x hx => ⟨fun _ q y hy => by omega, fun q y hy => by omega, fun q y hy => by omega⟩
  | succ n ih =>
    exact step (n + 1) fun x hx => ⟨fun pl q y hy => ih.tree pl q y (by omega), fun q y hy => ih.attrs q y (by omega),
      fun q y hy => ih.decls q y (by omega)⟩

theorem encB_agree (L : Lib) (env : Env) (user : SerImpls) (U : Encoding) (n m : Nat) (h : n ≤ m) :
    Encoding.Agree (fun x => x.levels ≤ n) (encB L env user U (n + 1)) (encB L env user U (m + 1)) := by
  induction m with
  | zero =>
    obtain rfl : n = 0 := by omega
    exact ⟨fun _ _ _ _ => rfl, fun _ _ _ => rfl, fun _ _ _ => rfl⟩
  | succ m ih =>
    by_cases hn : n = m + 1
    · subst hn; exact ⟨fun _ _ _ _ => rfl, fun _ _ _ => rfl, fun _ _ _ => rfl⟩
    · have ih := ih (by omega)
      have st := encB_stable L env user U m
      exact ⟨fun pl p x hx => (ih.tree pl p x hx).trans (st.tree pl p x (by omega)),
        fun p x hx => (ih.attrs p x hx).trans (st.attrs p x (by omega)),
        fun p x hx => (ih.decls p x hx).trans (st.decls p x (by omega))⟩

/-- The encoding: with as many steps as the value has levels. -/
def encU (L : Lib) (env : Env) (user : SerImpls) (U : Encoding) : Encoding where
  tree pl p v := (encB L env user U (v.levels + 1)).tree pl p v
  attrs p v := (encB L env user U (v.levels + 1)).attrs p v
  decls p v := (encB L env user U (v.levels + 1)).decls p v

theorem encU_agree (L : Lib) (env : Env) (user : SerImpls) (U : Encoding) (n : Nat) :
    Encoding.Agree (fun x => x.levels ≤ n) (encU L env user U) (encB L env user U (n + 1)) :=
  ⟨fun pl p x hx => (encB_agree L env user U x.levels n hx).tree pl p x (Nat.le_refl _),
    fun p x hx => (encB_agree L env user U x.levels n hx).attrs p x (Nat.le_refl _),
    fun p x hx => (encB_agree L env user U x.levels n hx).decls p x (Nat.le_refl _)⟩

theorem encU_derived (L : Lib) (env : Env) (user : SerImpls) (U : Encoding) : (encU L env user U).Derived L env user := by
  have h : ∀ v : Val, Encoding.Agree (fun x => x.levels < v.levels) (encB L env user U v.levels) (encU L env user U) := by
    intro v
    cases hv : v.levels with
    | zero => exact ⟨fun _ q y hy => by omega, fun q y hy => by omega, fun q y hy => by omega⟩
    | succ k =>
      have := encU_agree L env user U k
      exact ⟨fun pl q y hy => (this.tree pl q y (by omega)).symm, fun q y hy => (this.attrs q y (by omega)).symm,
        fun q y hy => (this.decls q y (by omega)).symm⟩
  refine ⟨fun pl p v hu => ?_, fun p v hu => ?_, fun p v hu => ?_⟩
  · simp only [encU, encB, hu, Option.isSome_none, Bool.false_eq_true, if_false]
    exact (encTyBy_congr L env p v (h v)).1 pl
  · simp only [encU, encB, hu, Option.isSome_none, Bool.false_eq_true, if_false]
    exact (encTyBy_congr L env p v (h v)).2.1
  · simp only [encU, encB, hu, Option.isSome_none, Bool.false_eq_true, if_false]
    exact (encTyBy_congr L env p v (h v)).2.2

theorem encU_user (L : Lib) (env : Env) (user : SerImpls) (U : Encoding) (p : Path) (f : SerImpl) (hu : user p = some f) (v : Val) :
    (∀ pl, (encU L env user U).tree pl p v = U.tree pl p v) ∧ (encU L env user U).attrs p v = U.attrs p v ∧
      (encU L env user U).decls p v = U.decls p v := by
  simp [encU, encB, hu]

end Yaserde
