import Verif.Proofs.StrLt
import Verif.Spec.Macro
/-
The front end of the macros refines `Spec/Macro.lean`.
-/

set_option autoImplicit false

namespace Yaserde

/-! ### Types -/

theorem ite_some_left {α : Type} {p : Prop} [Decidable p] {a t : α} {r : Option α} (h : (if p then some a else r) = some t) :
    (p ∧ a = t) ∨ r = some t := by
  by_cases hp : p
  · rw [if_pos hp] at h; injection h with h; exact .inl ⟨hp, h⟩
  · rw [if_neg hp] at h; exact .inr h

theorem scalarNamed_iff (x : Str) (t : STy) : scalarNamed x = some t ↔ (x, t) ∈ scalarTable := by
  constructor
  · intro h
    unfold scalarNamed at h
    iterate 12
      rcases ite_some_left h with ⟨rfl, rfl⟩ | h
      · simp [scalarTable]
    cases h
  · intro h
    simp only [scalarTable, List.mem_cons, Prod.mk.injEq, List.not_mem_nil, or_false] at h
    rcases h with h | h | h | h | h | h | h | h | h | h | h | h <;> obtain ⟨rfl, rfl⟩ := h <;> rfl

theorem scalarNamed_none (x : Str) : scalarNamed x = none ↔ ∀ t, (x, t) ∉ scalarTable := by
  constructor
  · intro h t ht
    rw [← scalarNamed_iff, h] at ht
    cases ht
  · intro h
    cases hx : scalarNamed x with
    | none => rfl
    | some t => exact absurd ((scalarNamed_iff x t).mp hx) (h t)

/-- Whether a type is a path. -/
def SynTy.isPath : SynTy → Prop
  | .path .. => True
  | _ => False

mutual
  theorem fieldFromTy_sound (t : SynTy) (f : FTy) (h : fieldFromTy t = .ok f) : Denotes t f := by
    cases t with
    | path init last args =>
      unfold fieldFromTy at h
      cases hs : scalarNamed last with
      | some t =>
        rw [hs] at h
        injection h with h
        subst h
        exact .scalar _ _ _ _ ((scalarNamed_iff _ _).mp hs)
      | none =>
        rw [hs] at h
        dsimp only at h
        split at h
        · rename_i ho
          subst ho
          cases hg : fieldFromSegment args with
          | error e => rw [hg] at h; cases h
          | ok g =>
            rw [hg] at h
            injection h with h
            subst h
            obtain ⟨i, x, a, r, h1, h2⟩ := fieldFromSegment_sound args g hg
            rcases h1 with rfl | rfl
            · exact .opt _ _ _ _ _ _ h2
            · exact .optGroup _ _ _ _ _ _ h2
        · split at h
          · rename_i ho
            subst ho
            cases hg : fieldFromSegment args with
            | error e => rw [hg] at h; cases h
            | ok g =>
              rw [hg] at h
              injection h with h
              subst h
              obtain ⟨i, x, a, r, h1, h2⟩ := fieldFromSegment_sound args g hg
              rcases h1 with rfl | rfl
              · exact .vec _ _ _ _ _ _ h2
              · exact .vecGroup _ _ _ _ _ _ h2
          · injection h with h
            subst h
            exact .user _ _ _ ((scalarNamed_none _).mp hs) (by assumption) (by assumption)
    | group t => unfold fieldFromTy at h; cases h
    | other => unfold fieldFromTy at h; cases h
  theorem fieldFromSegment_sound (as : SynArgs) (f : FTy) (h : fieldFromSegment as = .ok f) :
      ∃ i x a r, (as = .angleTy (.path i x a) r ∨ as = .angleTy (.group (.path i x a)) r) ∧ Denotes (.path i x a) f := by
    cases as with
    | angleTy t rest =>
      cases t with
      | path i x a =>
        unfold fieldFromSegment at h
        exact ⟨i, x, a, rest, .inl rfl, fieldFromTy_sound _ _ h⟩
      | group t =>
        cases t with
        | path i x a =>
          unfold fieldFromSegment at h
          exact ⟨i, x, a, rest, .inr rfl, fieldFromTy_sound _ _ h⟩
        | group t => simp [fieldFromSegment] at h
        | other => simp [fieldFromSegment] at h
      | other => simp [fieldFromSegment] at h
    | none => simp [fieldFromSegment] at h
    | paren => simp [fieldFromSegment] at h
    | angleNil => simp [fieldFromSegment] at h
    | angleOther r => simp [fieldFromSegment] at h
end

theorem denotes_complete (t : SynTy) (f : FTy) (h : Denotes t f) : fieldFromField t = .ok f := by
  unfold fieldFromField
  induction h with
  | scalar init x args t h =>
    rw [SynTy.ungroup, fieldFromTy, (scalarNamed_iff _ _).mpr h]
    all_goals simp
  | opt init i x a rest f h ih =>
    rw [SynTy.ungroup, fieldFromTy]
    · rw [SynTy.ungroup] at ih
      · have : scalarNamed c!"Option" = none := by decide +kernel
        rw [this, fieldFromSegment, ih]
        rfl
      · simp
    · simp
  | optGroup init i x a rest f h ih =>
    rw [SynTy.ungroup, fieldFromTy]
    · rw [SynTy.ungroup] at ih
      · have : scalarNamed c!"Option" = none := by decide +kernel
        rw [this, fieldFromSegment, ih]
        rfl
      · simp
    · simp
  | vec init i x a rest f h ih =>
    rw [SynTy.ungroup, fieldFromTy]
    · rw [SynTy.ungroup] at ih
      · have : scalarNamed c!"Vec" = none := by decide +kernel
        have h2 : ¬ (c!"Vec" = c!"Option") := by decide +kernel
        rw [this, fieldFromSegment, ih]
        dsimp only
        rw [if_neg h2, if_pos rfl]
        rfl
      · simp
    · simp
  | vecGroup init i x a rest f h ih =>
    rw [SynTy.ungroup, fieldFromTy]
    · rw [SynTy.ungroup] at ih
      · have : scalarNamed c!"Vec" = none := by decide +kernel
        have h2 : ¬ (c!"Vec" = c!"Option") := by decide +kernel
        rw [this, fieldFromSegment, ih]
        dsimp only
        rw [if_neg h2, if_pos rfl]
        rfl
      · simp
    · simp
  | user init x args h ho hv =>
    rw [SynTy.ungroup, fieldFromTy, (scalarNamed_none _).mpr h]
    · dsimp only
      rw [if_neg ho, if_neg hv]
    · simp
  | group t f h ih =>
    rw [SynTy.ungroup]
    exact ih

theorem denotes_group (t : SynTy) (f : FTy) (h : Denotes t.ungroup f) : Denotes t f := by
  induction t using SynTy.rec (motive_2 := fun _ => True) with
  | group t ih => exact .group _ _ (ih (by rwa [SynTy.ungroup] at h))
  | path => rwa [SynTy.ungroup] at h; simp
  | other => rwa [SynTy.ungroup] at h; simp
  | _ => trivial

theorem denotes_iff (t : SynTy) (f : FTy) : fieldFromField t = .ok f ↔ Denotes t f :=
  ⟨fun h => denotes_group _ _ (fieldFromTy_sound _ _ h), denotes_complete t f⟩

/-! ### Attributes -/

/-- All keys are above `k`. -/
theorem sorted_cons (e : Str × Str) (m : NsMap) : Sorted (e :: m) ↔ (∀ x ∈ m, strLt e.1 x.1 = true) ∧ Sorted m := by
  induction m generalizing e with
  | nil => simp [Sorted]
  | cons a m ih =>
    simp only [Sorted, List.mem_cons, forall_eq_or_imp]
    constructor
    · rintro ⟨h1, h2⟩
      exact ⟨⟨h1, fun x hx => strLt_trans _ _ _ h1 (((ih a).mp h2).1 x hx)⟩, h2⟩
    · rintro ⟨⟨h1, -⟩, h2⟩
      exact ⟨h1, h2⟩

theorem btInsert_mem (k v : Str) (m : NsMap) (hm : Sorted m) (a b : Str) :
    (a, b) ∈ btInsert k v m ↔ (a = k ∧ b = v) ∨ (a ≠ k ∧ (a, b) ∈ m) := by
  induction m with
  | nil => simp [btInsert]
  | cons e m ih =>
    obtain ⟨h1, h2⟩ := (sorted_cons e m).mp hm
    unfold btInsert
    split
    · rename_i hk
      subst hk
      simp only [List.mem_cons, Prod.mk.injEq]
      constructor
      · rintro (h | h)
        · exact .inl h
        · refine .inr ⟨?_, .inr h⟩
          rintro rfl
          have := h1 _ h
          rw [strLt_irrefl] at this
          cases this
      · rintro (h | ⟨h, h' | h'⟩)
        · exact .inl h
        · exact absurd (by rw [← h']) h
        · exact .inr h'
    · rename_i hk
      split
      · rename_i hlt
        simp only [List.mem_cons, Prod.mk.injEq]
        constructor
        · rintro (h | h | h)
          · exact .inl h
          · refine .inr ⟨?_, .inl h⟩
            rintro rfl
            exact hk (by rw [← h])
          · refine .inr ⟨?_, .inr h⟩
            rintro rfl
            have := strLt_trans _ _ _ hlt (h1 _ h)
            rw [strLt_irrefl] at this
            cases this
        · rintro (h | ⟨-, h⟩)
          · exact .inl h
          · exact .inr h
      · simp only [List.mem_cons, ih h2]
        constructor
        · rintro (h | h | h)
          · refine .inr ⟨?_, .inl h⟩
            rintro rfl
            exact hk (by rw [← h])
          · exact .inl h
          · exact .inr ⟨h.1, .inr h.2⟩
        · rintro (h | ⟨h, h' | h'⟩)
          · exact .inr (.inl h)
          · exact .inl h'
          · exact .inr (.inr ⟨h, h'⟩)

theorem btInsert_sorted (k v : Str) (m : NsMap) (hm : Sorted m) : Sorted (btInsert k v m) := by
  induction m with
  | nil => trivial
  | cons e m ih =>
    obtain ⟨h1, h2⟩ := (sorted_cons e m).mp hm
    unfold btInsert
    split
    · rename_i hk
      subst hk
      exact (sorted_cons _ _).mpr ⟨h1, h2⟩
    · rename_i hk
      split
      · rename_i hlt
        refine (sorted_cons _ _).mpr ⟨?_, hm⟩
        intro x hx
        rcases List.mem_cons.mp hx with rfl | hx
        · exact hlt
        · exact strLt_trans _ _ _ hlt (h1 _ hx)
      · rename_i hlt
        refine (sorted_cons _ _).mpr ⟨?_, ih h2⟩
        rintro ⟨a, b⟩ hx
        rcases (btInsert_mem k v m h2 a b).mp hx with ⟨rfl, -⟩ | ⟨-, hx⟩
        · exact strLt_total _ _ hk (by simpa using hlt)
        · exact h1 _ hx

theorem btOf_map (es : List (Str × Str)) : MapOf es (btOf es) := by
  have key : ∀ r : List (Str × Str), MapOf r.reverse (btOf r.reverse) := by
    intro r
    induction r with
    | nil => exact ⟨trivial, by simp [btOf]⟩
    | cons e r ih =>
      have : btOf (e :: r).reverse = btInsert e.1 e.2 (btOf r.reverse) := by
        unfold btOf
        rw [List.reverse_cons, List.foldl_append]
        rfl
      rw [this]
      refine ⟨btInsert_sorted _ _ _ ih.1, fun k v => ?_⟩
      rw [btInsert_mem _ _ _ ih.1, ih.2, List.reverse_reverse, List.reverse_reverse, List.find?_cons]
      by_cases hk : e.1 = k
      · subst hk
        simp [eq_comm]
      · have hk' : (e.1 == k) = false := by simpa using hk
        rw [hk']
        have : k ≠ e.1 := fun h => hk h.symm
        simp [this]
  have := key es.reverse
  rwa [List.reverse_reverse] at this

theorem sorted_ext (m m' : NsMap) (h : Sorted m) (h' : Sorted m') (e : ∀ k v, (k, v) ∈ m ↔ (k, v) ∈ m') : m = m' := by
  induction m generalizing m' with
  | nil =>
    cases m' with
    | nil => rfl
    | cons x m' => exact absurd ((e x.1 x.2).mpr (by simp)) (by simp)
  | cons a m ih =>
    cases m' with
    | nil => exact absurd ((e a.1 a.2).mp (by simp)) (by simp)
    | cons b m' =>
      obtain ⟨h1, h2⟩ := (sorted_cons a m).mp h
      obtain ⟨h3, h4⟩ := (sorted_cons b m').mp h'
      have hab : a = b := by
        rcases List.mem_cons.mp ((e a.1 a.2).mp (by simp)) with hh | hh
        · exact hh
        · rcases List.mem_cons.mp ((e b.1 b.2).mpr (by simp)) with hg | hg
          · exact hg.symm
          · have := strLt_trans _ _ _ (h3 _ hh) (h1 _ hg)
            rw [strLt_irrefl] at this
            cases this
      subst hab
      have : m = m' := by
        refine ih m' h2 h4 fun k v => ⟨fun hk => ?_, fun hk => ?_⟩
        · rcases List.mem_cons.mp ((e k v).mp (List.mem_cons_of_mem _ hk)) with hh | hh
          · subst hh
            have := h1 _ hk
            rw [strLt_irrefl] at this
            cases this
          · exact hh
        · rcases List.mem_cons.mp ((e k v).mpr (List.mem_cons_of_mem _ hk)) with hh | hh
          · subst hh
            have := h3 _ hk
            rw [strLt_irrefl] at this
            cases this
          · exact hh
      rw [this]

theorem mapOf_unique (es : List (Str × Str)) (m : NsMap) (h : MapOf es m) : m = btOf es :=
  sorted_ext _ _ h.1 (btOf_map es).1 fun k v => (h.2 k v).trans ((btOf_map es).2 k v).symm

/-! #### Reading the keys -/

theorem boolVal_iff (v : AVal) (b : Bool) : boolVal v = some b ↔ v = .bool b := by
  cases v <;> simp [boolVal]

theorem strVal_iff (v : AVal) (s : Str) : strVal v = some s ↔ v = .str s := by
  cases v <;> simp [strVal]

theorem mapVal_iff (v : AVal) (m : NsMap) : mapVal v = some m ↔ ∃ es, v = .map es ∧ m = btOf es := by
  cases v <;> simp [mapVal, eq_comm]

theorem ite_cases {α : Type} {p : Prop} [Decidable p] {a r : Option α} {t : α} (h : (if p then a else r) = some t) :
    (p ∧ a = some t) ∨ (¬ p ∧ r = some t) := by
  by_cases hp : p
  · rw [if_pos hp] at h; exact .inl ⟨hp, h⟩
  · rw [if_neg hp] at h; exact .inr ⟨hp, h⟩

theorem boolVal_map {v : AVal} {f : Bool → YAttr} {y' : YAttr} (h : (boolVal v).map f = some y') : ∃ b, v = .bool b ∧ y' = f b := by
  cases v <;> simp_all [boolVal, eq_comm]

theorem strVal_map {v : AVal} {f : Str → YAttr} {y' : YAttr} (h : (strVal v).map f = some y') : ∃ b, v = .str b ∧ y' = f b := by
  cases v <;> simp_all [strVal, eq_comm]

theorem mapVal_map {v : AVal} {f : NsMap → YAttr} {y' : YAttr} (h : (mapVal v).map f = some y') :
    ∃ b, v = .map b ∧ y' = f (btOf b) := by
  cases v <;> simp_all [mapVal, eq_comm]

theorem setKey_cases (y : YAttr) (k : Str) (v : AVal) (y' : YAttr) (h : setKey y k v = some y') :
    (k = c!"attribute" ∧ ∃ b, v = .bool b ∧ y' = { y with attrs := { y.attrs with isAttr := b } }) ∨
    (k = c!"default" ∧ ∃ s, v = .str s ∧ y' = { y with dflt := some s }) ∨
    (k = c!"default_namespace" ∧ ∃ s, v = .str s ∧ y' = { y with attrs := { y.attrs with defaultNs := some s } }) ∨
    (k = c!"flatten" ∧ ∃ b, v = .bool b ∧ y' = { y with attrs := { y.attrs with flatten := b } }) ∨
    (k = c!"namespaces" ∧ ∃ m, v = .map m ∧ y' = { y with attrs := { y.attrs with namespaces := btOf m } }) ∨
    (k = c!"prefix" ∧ ∃ s, v = .str s ∧ y' = { y with attrs := { y.attrs with pfx := some s } }) ∨
    (k = c!"rename" ∧ ∃ s, v = .str s ∧ y' = { y with attrs := { y.attrs with rename := some s } }) ∨
    (k = c!"tag" ∧ ∃ s, v = .str s ∧ y' = { y with attrs := { y.attrs with tag := some s } }) ∨
    (k = c!"skip_serializing" ∧ ∃ b, v = .bool b ∧ y' = { y with attrs := { y.attrs with skipSer := b } }) ∨
    (k = c!"skip_serializing_if" ∧ ∃ s, v = .str s ∧ y' = { y with skipIf := some s }) ∨
    (k = c!"text" ∧ ∃ b, v = .bool b ∧ y' = { y with attrs := { y.attrs with text := b } }) ∨
    (k = c!"cdata" ∧ ∃ b, v = .bool b ∧ y' = { y with attrs := { y.attrs with cdata := b } }) ∨
    (k ∉ attrKeys ∧ y' = y) := by
  unfold setKey at h
  rcases ite_cases h with ⟨h0, h⟩ | ⟨h1, h⟩
  · exact .inl ⟨h0, boolVal_map h⟩
  rcases ite_cases h with ⟨h0, h⟩ | ⟨h2, h⟩
  · exact .inr (.inl ⟨h0, strVal_map h⟩)
  rcases ite_cases h with ⟨h0, h⟩ | ⟨h3, h⟩
  · exact .inr (.inr (.inl ⟨h0, strVal_map h⟩))
  rcases ite_cases h with ⟨h0, h⟩ | ⟨h4, h⟩
  · exact .inr (.inr (.inr (.inl ⟨h0, boolVal_map h⟩)))
  rcases ite_cases h with ⟨h0, h⟩ | ⟨h5, h⟩
  · exact .inr (.inr (.inr (.inr (.inl ⟨h0, mapVal_map h⟩))))
  rcases ite_cases h with ⟨h0, h⟩ | ⟨h6, h⟩
  · exact .inr (.inr (.inr (.inr (.inr (.inl ⟨h0, strVal_map h⟩)))))
  rcases ite_cases h with ⟨h0, h⟩ | ⟨h7, h⟩
  · exact .inr (.inr (.inr (.inr (.inr (.inr (.inl ⟨h0, strVal_map h⟩))))))
  rcases ite_cases h with ⟨h0, h⟩ | ⟨h8, h⟩
  · exact .inr (.inr (.inr (.inr (.inr (.inr (.inr (.inl ⟨h0, strVal_map h⟩)))))))
  rcases ite_cases h with ⟨h0, h⟩ | ⟨h9, h⟩
  · exact .inr (.inr (.inr (.inr (.inr (.inr (.inr (.inr (.inl ⟨h0, boolVal_map h⟩))))))))
  rcases ite_cases h with ⟨h0, h⟩ | ⟨h10, h⟩
  · exact .inr (.inr (.inr (.inr (.inr (.inr (.inr (.inr (.inr (.inl ⟨h0, strVal_map h⟩)))))))))
  rcases ite_cases h with ⟨h0, h⟩ | ⟨h11, h⟩
  · exact .inr (.inr (.inr (.inr (.inr (.inr (.inr (.inr (.inr (.inr (.inl ⟨h0, boolVal_map h⟩))))))))))
  rcases ite_cases h with ⟨h0, h⟩ | ⟨h12, h⟩
  · exact .inr (.inr (.inr (.inr (.inr (.inr (.inr (.inr (.inr (.inr (.inr (.inl ⟨h0, boolVal_map h⟩)))))))))))
  refine .inr (.inr (.inr (.inr (.inr (.inr (.inr (.inr (.inr (.inr (.inr (.inr (⟨?_, by injection h with h; exact h.symm⟩))))))))))))
  simp only [attrKeys, List.mem_cons, List.not_mem_nil, or_false, not_or]
  exact ⟨h1, h2, h3, h4, h5, h6, h7, h8, h9, h10, h11, h12⟩

/-- A key and the option it sets. -/
def Lens {β : Type} (k : Str) (dec : AVal → Option β) (g : YAttr → β) : Prop :=
  k ∈ attrKeys ∧ ∀ y j v y', setKey y j v = some y' → (j = k → dec v = some (g y')) ∧ (j ≠ k → g y' = g y)


theorem lens_isAttr : Lens c!"attribute" (boolVal) (fun y => y.attrs.isAttr) := by
  refine ⟨by decide +kernel, fun y j v y' h => ?_⟩
  rcases setKey_cases y j v y' h with ⟨rfl, x, rfl, rfl⟩ | ⟨rfl, x, rfl, rfl⟩ | ⟨rfl, x, rfl, rfl⟩ | ⟨rfl, x, rfl, rfl⟩ | ⟨rfl, x, rfl, rfl⟩ | ⟨rfl, x, rfl, rfl⟩ | ⟨rfl, x, rfl, rfl⟩ | ⟨rfl, x, rfl, rfl⟩ | ⟨rfl, x, rfl, rfl⟩ | ⟨rfl, x, rfl, rfl⟩ | ⟨rfl, x, rfl, rfl⟩ | ⟨rfl, x, rfl, rfl⟩ | ⟨hn, rfl⟩
  all_goals first
    | exact ⟨fun _ => rfl, fun e => absurd rfl e⟩
    | exact ⟨fun e => absurd e (by decide +kernel), fun _ => rfl⟩
    | exact ⟨fun e => absurd (show j ∈ attrKeys by rw [e]; decide +kernel) hn, fun _ => rfl⟩

theorem lens_dflt : Lens c!"default" (fun v => (strVal v).map some) (fun y => y.dflt) := by
  refine ⟨by decide +kernel, fun y j v y' h => ?_⟩
  rcases setKey_cases y j v y' h with ⟨rfl, x, rfl, rfl⟩ | ⟨rfl, x, rfl, rfl⟩ | ⟨rfl, x, rfl, rfl⟩ | ⟨rfl, x, rfl, rfl⟩ | ⟨rfl, x, rfl, rfl⟩ | ⟨rfl, x, rfl, rfl⟩ | ⟨rfl, x, rfl, rfl⟩ | ⟨rfl, x, rfl, rfl⟩ | ⟨rfl, x, rfl, rfl⟩ | ⟨rfl, x, rfl, rfl⟩ | ⟨rfl, x, rfl, rfl⟩ | ⟨rfl, x, rfl, rfl⟩ | ⟨hn, rfl⟩
  all_goals first
    | exact ⟨fun _ => rfl, fun e => absurd rfl e⟩
    | exact ⟨fun e => absurd e (by decide +kernel), fun _ => rfl⟩
    | exact ⟨fun e => absurd (show j ∈ attrKeys by rw [e]; decide +kernel) hn, fun _ => rfl⟩

theorem lens_defaultNs : Lens c!"default_namespace" (fun v => (strVal v).map some) (fun y => y.attrs.defaultNs) := by
  refine ⟨by decide +kernel, fun y j v y' h => ?_⟩
  rcases setKey_cases y j v y' h with ⟨rfl, x, rfl, rfl⟩ | ⟨rfl, x, rfl, rfl⟩ | ⟨rfl, x, rfl, rfl⟩ | ⟨rfl, x, rfl, rfl⟩ | ⟨rfl, x, rfl, rfl⟩ | ⟨rfl, x, rfl, rfl⟩ | ⟨rfl, x, rfl, rfl⟩ | ⟨rfl, x, rfl, rfl⟩ | ⟨rfl, x, rfl, rfl⟩ | ⟨rfl, x, rfl, rfl⟩ | ⟨rfl, x, rfl, rfl⟩ | ⟨rfl, x, rfl, rfl⟩ | ⟨hn, rfl⟩
  all_goals first
    | exact ⟨fun _ => rfl, fun e => absurd rfl e⟩
    | exact ⟨fun e => absurd e (by decide +kernel), fun _ => rfl⟩
    | exact ⟨fun e => absurd (show j ∈ attrKeys by rw [e]; decide +kernel) hn, fun _ => rfl⟩

theorem lens_flatten : Lens c!"flatten" (boolVal) (fun y => y.attrs.flatten) := by
  refine ⟨by decide +kernel, fun y j v y' h => ?_⟩
  rcases setKey_cases y j v y' h with ⟨rfl, x, rfl, rfl⟩ | ⟨rfl, x, rfl, rfl⟩ | ⟨rfl, x, rfl, rfl⟩ | ⟨rfl, x, rfl, rfl⟩ | ⟨rfl, x, rfl, rfl⟩ | ⟨rfl, x, rfl, rfl⟩ | ⟨rfl, x, rfl, rfl⟩ | ⟨rfl, x, rfl, rfl⟩ | ⟨rfl, x, rfl, rfl⟩ | ⟨rfl, x, rfl, rfl⟩ | ⟨rfl, x, rfl, rfl⟩ | ⟨rfl, x, rfl, rfl⟩ | ⟨hn, rfl⟩
  all_goals first
    | exact ⟨fun _ => rfl, fun e => absurd rfl e⟩
    | exact ⟨fun e => absurd e (by decide +kernel), fun _ => rfl⟩
    | exact ⟨fun e => absurd (show j ∈ attrKeys by rw [e]; decide +kernel) hn, fun _ => rfl⟩

theorem lens_namespaces : Lens c!"namespaces" (mapVal) (fun y => y.attrs.namespaces) := by
  refine ⟨by decide +kernel, fun y j v y' h => ?_⟩
  rcases setKey_cases y j v y' h with ⟨rfl, x, rfl, rfl⟩ | ⟨rfl, x, rfl, rfl⟩ | ⟨rfl, x, rfl, rfl⟩ | ⟨rfl, x, rfl, rfl⟩ | ⟨rfl, x, rfl, rfl⟩ | ⟨rfl, x, rfl, rfl⟩ | ⟨rfl, x, rfl, rfl⟩ | ⟨rfl, x, rfl, rfl⟩ | ⟨rfl, x, rfl, rfl⟩ | ⟨rfl, x, rfl, rfl⟩ | ⟨rfl, x, rfl, rfl⟩ | ⟨rfl, x, rfl, rfl⟩ | ⟨hn, rfl⟩
  all_goals first
    | exact ⟨fun _ => rfl, fun e => absurd rfl e⟩
    | exact ⟨fun e => absurd e (by decide +kernel), fun _ => rfl⟩
    | exact ⟨fun e => absurd (show j ∈ attrKeys by rw [e]; decide +kernel) hn, fun _ => rfl⟩

theorem lens_pfx : Lens c!"prefix" (fun v => (strVal v).map some) (fun y => y.attrs.pfx) := by
  refine ⟨by decide +kernel, fun y j v y' h => ?_⟩
  rcases setKey_cases y j v y' h with ⟨rfl, x, rfl, rfl⟩ | ⟨rfl, x, rfl, rfl⟩ | ⟨rfl, x, rfl, rfl⟩ | ⟨rfl, x, rfl, rfl⟩ | ⟨rfl, x, rfl, rfl⟩ | ⟨rfl, x, rfl, rfl⟩ | ⟨rfl, x, rfl, rfl⟩ | ⟨rfl, x, rfl, rfl⟩ | ⟨rfl, x, rfl, rfl⟩ | ⟨rfl, x, rfl, rfl⟩ | ⟨rfl, x, rfl, rfl⟩ | ⟨rfl, x, rfl, rfl⟩ | ⟨hn, rfl⟩
  all_goals first
    | exact ⟨fun _ => rfl, fun e => absurd rfl e⟩
    | exact ⟨fun e => absurd e (by decide +kernel), fun _ => rfl⟩
    | exact ⟨fun e => absurd (show j ∈ attrKeys by rw [e]; decide +kernel) hn, fun _ => rfl⟩

theorem lens_rename : Lens c!"rename" (fun v => (strVal v).map some) (fun y => y.attrs.rename) := by
  refine ⟨by decide +kernel, fun y j v y' h => ?_⟩
  rcases setKey_cases y j v y' h with ⟨rfl, x, rfl, rfl⟩ | ⟨rfl, x, rfl, rfl⟩ | ⟨rfl, x, rfl, rfl⟩ | ⟨rfl, x, rfl, rfl⟩ | ⟨rfl, x, rfl, rfl⟩ | ⟨rfl, x, rfl, rfl⟩ | ⟨rfl, x, rfl, rfl⟩ | ⟨rfl, x, rfl, rfl⟩ | ⟨rfl, x, rfl, rfl⟩ | ⟨rfl, x, rfl, rfl⟩ | ⟨rfl, x, rfl, rfl⟩ | ⟨rfl, x, rfl, rfl⟩ | ⟨hn, rfl⟩
  all_goals first
    | exact ⟨fun _ => rfl, fun e => absurd rfl e⟩
    | exact ⟨fun e => absurd e (by decide +kernel), fun _ => rfl⟩
    | exact ⟨fun e => absurd (show j ∈ attrKeys by rw [e]; decide +kernel) hn, fun _ => rfl⟩

theorem lens_tag : Lens c!"tag" (fun v => (strVal v).map some) (fun y => y.attrs.tag) := by
  refine ⟨by decide +kernel, fun y j v y' h => ?_⟩
  rcases setKey_cases y j v y' h with ⟨rfl, x, rfl, rfl⟩ | ⟨rfl, x, rfl, rfl⟩ | ⟨rfl, x, rfl, rfl⟩ | ⟨rfl, x, rfl, rfl⟩ | ⟨rfl, x, rfl, rfl⟩ | ⟨rfl, x, rfl, rfl⟩ | ⟨rfl, x, rfl, rfl⟩ | ⟨rfl, x, rfl, rfl⟩ | ⟨rfl, x, rfl, rfl⟩ | ⟨rfl, x, rfl, rfl⟩ | ⟨rfl, x, rfl, rfl⟩ | ⟨rfl, x, rfl, rfl⟩ | ⟨hn, rfl⟩
  all_goals first
    | exact ⟨fun _ => rfl, fun e => absurd rfl e⟩
    | exact ⟨fun e => absurd e (by decide +kernel), fun _ => rfl⟩
    | exact ⟨fun e => absurd (show j ∈ attrKeys by rw [e]; decide +kernel) hn, fun _ => rfl⟩

theorem lens_skipSer : Lens c!"skip_serializing" (boolVal) (fun y => y.attrs.skipSer) := by
  refine ⟨by decide +kernel, fun y j v y' h => ?_⟩
  rcases setKey_cases y j v y' h with ⟨rfl, x, rfl, rfl⟩ | ⟨rfl, x, rfl, rfl⟩ | ⟨rfl, x, rfl, rfl⟩ | ⟨rfl, x, rfl, rfl⟩ | ⟨rfl, x, rfl, rfl⟩ | ⟨rfl, x, rfl, rfl⟩ | ⟨rfl, x, rfl, rfl⟩ | ⟨rfl, x, rfl, rfl⟩ | ⟨rfl, x, rfl, rfl⟩ | ⟨rfl, x, rfl, rfl⟩ | ⟨rfl, x, rfl, rfl⟩ | ⟨rfl, x, rfl, rfl⟩ | ⟨hn, rfl⟩
  all_goals first
    | exact ⟨fun _ => rfl, fun e => absurd rfl e⟩
    | exact ⟨fun e => absurd e (by decide +kernel), fun _ => rfl⟩
    | exact ⟨fun e => absurd (show j ∈ attrKeys by rw [e]; decide +kernel) hn, fun _ => rfl⟩

theorem lens_skipIf : Lens c!"skip_serializing_if" (fun v => (strVal v).map some) (fun y => y.skipIf) := by
  refine ⟨by decide +kernel, fun y j v y' h => ?_⟩
  rcases setKey_cases y j v y' h with ⟨rfl, x, rfl, rfl⟩ | ⟨rfl, x, rfl, rfl⟩ | ⟨rfl, x, rfl, rfl⟩ | ⟨rfl, x, rfl, rfl⟩ | ⟨rfl, x, rfl, rfl⟩ | ⟨rfl, x, rfl, rfl⟩ | ⟨rfl, x, rfl, rfl⟩ | ⟨rfl, x, rfl, rfl⟩ | ⟨rfl, x, rfl, rfl⟩ | ⟨rfl, x, rfl, rfl⟩ | ⟨rfl, x, rfl, rfl⟩ | ⟨rfl, x, rfl, rfl⟩ | ⟨hn, rfl⟩
  all_goals first
    | exact ⟨fun _ => rfl, fun e => absurd rfl e⟩
    | exact ⟨fun e => absurd e (by decide +kernel), fun _ => rfl⟩
    | exact ⟨fun e => absurd (show j ∈ attrKeys by rw [e]; decide +kernel) hn, fun _ => rfl⟩

theorem lens_text : Lens c!"text" (boolVal) (fun y => y.attrs.text) := by
  refine ⟨by decide +kernel, fun y j v y' h => ?_⟩
  rcases setKey_cases y j v y' h with ⟨rfl, x, rfl, rfl⟩ | ⟨rfl, x, rfl, rfl⟩ | ⟨rfl, x, rfl, rfl⟩ | ⟨rfl, x, rfl, rfl⟩ | ⟨rfl, x, rfl, rfl⟩ | ⟨rfl, x, rfl, rfl⟩ | ⟨rfl, x, rfl, rfl⟩ | ⟨rfl, x, rfl, rfl⟩ | ⟨rfl, x, rfl, rfl⟩ | ⟨rfl, x, rfl, rfl⟩ | ⟨rfl, x, rfl, rfl⟩ | ⟨rfl, x, rfl, rfl⟩ | ⟨hn, rfl⟩
  all_goals first
    | exact ⟨fun _ => rfl, fun e => absurd rfl e⟩
    | exact ⟨fun e => absurd e (by decide +kernel), fun _ => rfl⟩
    | exact ⟨fun e => absurd (show j ∈ attrKeys by rw [e]; decide +kernel) hn, fun _ => rfl⟩

theorem lens_cdata : Lens c!"cdata" (boolVal) (fun y => y.attrs.cdata) := by
  refine ⟨by decide +kernel, fun y j v y' h => ?_⟩
  rcases setKey_cases y j v y' h with ⟨rfl, x, rfl, rfl⟩ | ⟨rfl, x, rfl, rfl⟩ | ⟨rfl, x, rfl, rfl⟩ | ⟨rfl, x, rfl, rfl⟩ | ⟨rfl, x, rfl, rfl⟩ | ⟨rfl, x, rfl, rfl⟩ | ⟨rfl, x, rfl, rfl⟩ | ⟨rfl, x, rfl, rfl⟩ | ⟨rfl, x, rfl, rfl⟩ | ⟨rfl, x, rfl, rfl⟩ | ⟨rfl, x, rfl, rfl⟩ | ⟨rfl, x, rfl, rfl⟩ | ⟨hn, rfl⟩
  all_goals first
    | exact ⟨fun _ => rfl, fun e => absurd rfl e⟩
    | exact ⟨fun e => absurd e (by decide +kernel), fun _ => rfl⟩
    | exact ⟨fun e => absurd (show j ∈ attrKeys by rw [e]; decide +kernel) hn, fun _ => rfl⟩

theorem setKeys_lens {β : Type} {k : Str} {dec : AVal → Option β} {g : YAttr → β} (hl : Lens k dec g) (items : List (Str × AVal))
    (h1 : (items.filter fun e => e.1 == k).length ≤ 1) (y y' : YAttr) (h : setKeys y items = some y') :
    match given items k with
    | none => g y' = g y
    | some v => dec v = some (g y') := by
  induction items generalizing y with
  | nil =>
    simp only [setKeys, Option.some.injEq] at h
    subst h
    rfl
  | cons e es ih =>
    unfold setKeys at h
    cases hk : setKey y e.1 e.2 with
    | none => rw [hk] at h; cases h
    | some z =>
      rw [hk] at h
      dsimp only at h
      obtain ⟨ha, hb⟩ := hl.2 _ _ _ _ hk
      by_cases he : e.1 = k
      · have he' : (e.1 == k) = true := by simpa using he
        rw [List.filter_cons_of_pos (by exact he')] at h1
        have h2 : es.filter (fun e => e.1 == k) = [] := by
          apply List.eq_nil_of_length_eq_zero
          simp at h1
          simpa using h1
        have h3 := ih (by rw [h2]; simp) z h
        have h4 : given es k = none := by
          unfold given
          rw [Option.map_eq_none_iff, List.find?_eq_none]
          intro x hx
          exact List.filter_eq_nil_iff.mp h2 x hx
        rw [h4] at h3
        have h5 : given (e :: es) k = some e.2 := by
          unfold given
          rw [List.find?_cons_of_pos (by exact he')]
          rfl
        rw [h5]
        dsimp only at h3 ⊢
        rw [h3]
        exact ha he
      · have he' : ¬ (e.1 == k) = true := by simpa using he
        rw [List.filter_cons_of_neg (by exact he')] at h1
        have h3 := ih h1 z h
        have h5 : given (e :: es) k = given es k := by
          unfold given
          rw [List.find?_cons_of_neg (by exact he')]
        rw [h5]
        cases hg : given es k with
        | none => rw [hg] at h3; dsimp only at h3 ⊢; rw [h3, hb he]
        | some v => rw [hg] at h3; exact h3

theorem once_iff (items : List (Str × AVal)) : ((items.filter fun e => attrKeys.contains e.1).map Prod.fst).Nodup ↔
    ∀ k ∈ attrKeys, (items.filter fun e => e.1 == k).length ≤ 1 := by
  rw [List.nodup_iff_count]
  have key : ∀ k, List.count k ((items.filter fun e => attrKeys.contains e.1).map Prod.fst) =
      if k ∈ attrKeys then (items.filter fun e => e.1 == k).length else 0 := by
    intro k
    induction items with
    | nil => simp
    | cons e es ih =>
      simp only [List.filter_cons]
      by_cases hk : e.1 = k
      · subst hk
        by_cases hm : e.1 ∈ attrKeys
        · simp only [List.contains_eq_mem, hm, decide_true, if_true, List.map_cons, List.count_cons_self, beq_self_eq_true,
            List.length_cons]
          simp only [hm, if_true] at ih
          simpa using ih
        · simp only [List.contains_eq_mem, hm, decide_false, Bool.false_eq_true, if_false]
          simp only [hm, if_false] at ih
          simpa using ih
      · have hk' : (e.1 == k) = false := by simpa using hk
        rw [hk']
        simp only [Bool.false_eq_true, if_false]
        by_cases hm : e.1 ∈ attrKeys
        · simp only [List.contains_eq_mem, hm, decide_true, if_true, List.map_cons]
          rw [List.count_cons_of_ne hk]
          simpa using ih
        · simp only [List.contains_eq_mem, hm, decide_false, Bool.false_eq_true, if_false]
          simpa using ih
  constructor
  · intro h k hk
    have := h k
    rw [key, if_pos hk] at this
    exact this
  · intro h k
    rw [key]
    split
    · exact h k (by assumption)
    · omega

theorem flag_of_lens {items : List (Str × AVal)} {k : Str} {g : YAttr → Bool} (hl : Lens k boolVal g) (hg : g {} = false)
    (h1 : ∀ k ∈ attrKeys, (items.filter fun e => e.1 == k).length ≤ 1) {y : YAttr} (h : setKeys {} items = some y) :
    FlagOf items k (g y) := by
  have := setKeys_lens hl items (h1 _ hl.1) {} y h
  unfold FlagOf
  cases hk : given items k with
  | none => rw [hk] at this; exact .inr ⟨rfl, by rw [this, hg]⟩
  | some v => rw [hk] at this; exact .inl (by rw [(boolVal_iff _ _).mp this])

theorem text_of_lens {items : List (Str × AVal)} {k : Str} {g : YAttr → Option Str}
    (hl : Lens k (fun v => (strVal v).map some) g) (hg : g {} = none)
    (h1 : ∀ k ∈ attrKeys, (items.filter fun e => e.1 == k).length ≤ 1) {y : YAttr} (h : setKeys {} items = some y) :
    Text items k (g y) := by
  have := setKeys_lens hl items (h1 _ hl.1) {} y h
  unfold Text
  cases hk : given items k with
  | none => rw [hk] at this; exact .inr ⟨rfl, by rw [this, hg]⟩
  | some v =>
    rw [hk] at this
    dsimp only at this
    cases v with
    | str x => simp only [strVal, Option.map_some, Option.some.injEq] at this; exact .inl ⟨x, this.symm, rfl⟩
    | bool => simp [strVal] at this
    | map => simp [strVal] at this
    | other => simp [strVal] at this

theorem setKeys_means {items : List (Str × AVal)} (h1 : ∀ k ∈ attrKeys, (items.filter fun e => e.1 == k).length ≤ 1) {y : YAttr}
    (h : setKeys {} items = some y) : Means items y where
  once := h1
  namespaces := by
    have := setKeys_lens lens_namespaces items (h1 _ lens_namespaces.1) {} y h
    cases hk : given items c!"namespaces" with
    | none => rw [hk] at this; exact .inr ⟨rfl, by rw [this]⟩
    | some v =>
      rw [hk] at this
      obtain ⟨es, h2, h3⟩ := (mapVal_iff _ _).mp this
      subst h2
      refine .inl ⟨es, rfl, ?_⟩
      rw [h3]
      exact btOf_map es
  isAttr := flag_of_lens lens_isAttr rfl h1 h
  flatten := flag_of_lens lens_flatten rfl h1 h
  skipSer := flag_of_lens lens_skipSer rfl h1 h
  text := flag_of_lens lens_text rfl h1 h
  cdata := flag_of_lens lens_cdata rfl h1 h
  dflt := text_of_lens lens_dflt rfl h1 h
  defaultNs := text_of_lens lens_defaultNs rfl h1 h
  pfx := text_of_lens lens_pfx rfl h1 h
  rename := text_of_lens lens_rename rfl h1 h
  tag := text_of_lens lens_tag rfl h1 h
  skipIf := text_of_lens lens_skipIf rfl h1 h

theorem flag_unique {items : List (Str × AVal)} {k : Str} {a b : Bool} (ha : FlagOf items k a) (hb : FlagOf items k b) : a = b := by
  unfold FlagOf at ha hb
  rcases ha with h | ⟨h, rfl⟩ <;> rcases hb with h' | ⟨h', rfl⟩ <;> rw [h] at h' <;> simp_all

theorem text_unique {items : List (Str × AVal)} {k : Str} {a b : Option Str} (ha : Text items k a) (hb : Text items k b) :
    a = b := by
  unfold Text at ha hb
  rcases ha with ⟨x, rfl, h⟩ | ⟨h, rfl⟩ <;> rcases hb with ⟨x', rfl, h'⟩ | ⟨h', rfl⟩ <;> rw [h] at h' <;> simp_all

theorem means_unique {items : List (Str × AVal)} {y y' : YAttr} (h : Means items y) (h' : Means items y') : y = y' := by
  have hn : y.attrs.namespaces = y'.attrs.namespaces := by
    rcases h.namespaces with ⟨es, h1, h2⟩ | ⟨h1, h2⟩ <;> rcases h'.namespaces with ⟨es', h1', h2'⟩ | ⟨h1', h2'⟩ <;>
      rw [h1] at h1' <;> simp at h1'
    · subst h1'
      rw [mapOf_unique _ _ h2, mapOf_unique _ _ h2']
    · rw [h2, h2']
  have e_isAttr := flag_unique h.isAttr h'.isAttr
  have e_flatten := flag_unique h.flatten h'.flatten
  have e_skipSer := flag_unique h.skipSer h'.skipSer
  have e_text := flag_unique h.text h'.text
  have e_cdata := flag_unique h.cdata h'.cdata
  have e_dflt := text_unique h.dflt h'.dflt
  have e_defaultNs := text_unique h.defaultNs h'.defaultNs
  have e_pfx := text_unique h.pfx h'.pfx
  have e_rename := text_unique h.rename h'.rename
  have e_tag := text_unique h.tag h'.tag
  have e_skipIf := text_unique h.skipIf h'.skipIf
  obtain ⟨⟨a1, a2, a3, a4, a5, a6, a7, a8, a9, a10⟩, a11, a12⟩ := y
  obtain ⟨⟨b1, b2, b3, b4, b5, b6, b7, b8, b9, b10⟩, b11, b12⟩ := y'
  dsimp only at *
  subst_vars
  rfl

theorem given_of_mem {items : List (Str × AVal)} {e : Str × AVal} (he : e ∈ items)
    (h1 : (items.filter fun x => x.1 == e.1).length ≤ 1) : given items e.1 = some e.2 := by
  induction items with
  | nil => cases he
  | cons a es ih =>
    rcases List.mem_cons.mp he with rfl | he
    · simp [given]
    · by_cases hk : a.1 = e.1
      · have hk' : (a.1 == e.1) = true := by simpa using hk
        rw [List.filter_cons_of_pos (by exact hk')] at h1
        have : e ∈ es.filter fun x => x.1 == e.1 := List.mem_filter.mpr ⟨he, by simp⟩
        have h2 : 0 < (es.filter fun x => x.1 == e.1).length := List.length_pos_of_mem this
        simp only [List.length_cons] at h1
        omega
      · have hk' : ¬ (a.1 == e.1) = true := by simpa using hk
        rw [List.filter_cons_of_neg (by exact hk')] at h1
        have := ih he h1
        unfold given at this ⊢
        rw [List.find?_cons_of_neg (by exact hk')]
        exact this

theorem setKeys_total (items : List (Str × AVal)) (h : ∀ e ∈ items, ∀ y, ∃ z, setKey y e.1 e.2 = some z) (y : YAttr) :
    ∃ z, setKeys y items = some z := by
  induction items generalizing y with
  | nil => exact ⟨y, rfl⟩
  | cons e es ih =>
    obtain ⟨z, hz⟩ := h e (by simp) y
    unfold setKeys
    rw [hz]
    exact ih (fun e he => h e (List.mem_cons_of_mem _ he)) z

theorem flag_val {items : List (Str × AVal)} {k : Str} {b : Bool} {v : AVal} (h : FlagOf items k b) (hg : given items k = some v) :
    v = .bool b := by
  unfold FlagOf at h
  rw [hg] at h
  simpa using h

theorem text_val {items : List (Str × AVal)} {k : Str} {s : Option Str} {v : AVal} (h : Text items k s)
    (hg : given items k = some v) : ∃ x, v = .str x := by
  unfold Text at h
  rw [hg] at h
  rcases h with ⟨x, -, h⟩ | ⟨h, -⟩
  · exact ⟨x, by simpa using h⟩
  · cases h

theorem setKey_total {items : List (Str × AVal)} {y : YAttr} (hm : Means items y) (e : Str × AVal) (he : e ∈ items) (z : YAttr) :
    ∃ w, setKey z e.1 e.2 = some w := by
  by_cases hk : e.1 ∈ attrKeys
  · have hg := given_of_mem he (hm.once _ hk)
    obtain ⟨k, v⟩ := e
    dsimp only at hk hg ⊢
    simp only [attrKeys, List.mem_cons, List.not_mem_nil, or_false] at hk
    rcases hk with rfl | rfl | rfl | rfl | rfl | rfl | rfl | rfl | rfl | rfl | rfl | rfl
    · rw [flag_val hm.isAttr hg]; exact ⟨_, rfl⟩
    · obtain ⟨x, rfl⟩ := text_val hm.dflt hg; exact ⟨_, rfl⟩
    · obtain ⟨x, rfl⟩ := text_val hm.defaultNs hg; exact ⟨_, rfl⟩
    · rw [flag_val hm.flatten hg]; exact ⟨_, rfl⟩
    · rcases hm.namespaces with ⟨es, h, -⟩ | ⟨h, -⟩
      · rw [hg] at h
        injection h with h
        subst h
        exact ⟨_, rfl⟩
      · rw [hg] at h; cases h
    · obtain ⟨x, rfl⟩ := text_val hm.pfx hg; exact ⟨_, rfl⟩
    · obtain ⟨x, rfl⟩ := text_val hm.rename hg; exact ⟨_, rfl⟩
    · obtain ⟨x, rfl⟩ := text_val hm.tag hg; exact ⟨_, rfl⟩
    · rw [flag_val hm.skipSer hg]; exact ⟨_, rfl⟩
    · obtain ⟨x, rfl⟩ := text_val hm.skipIf hg; exact ⟨_, rfl⟩
    · rw [flag_val hm.text hg]; exact ⟨_, rfl⟩
    · rw [flag_val hm.cdata hg]; exact ⟨_, rfl⟩
  · refine ⟨z, ?_⟩
    simp only [attrKeys, List.mem_cons, List.not_mem_nil, or_false, not_or] at hk
    obtain ⟨h1, h2, h3, h4, h5, h6, h7, h8, h9, h10, h11, h12⟩ := hk
    unfold setKey
    rw [if_neg h1, if_neg h2, if_neg h3, if_neg h4, if_neg h5, if_neg h6, if_neg h7, if_neg h8, if_neg h9, if_neg h10,
      if_neg h11, if_neg h12]

theorem fromTokens_iff (items : List (Str × AVal)) (y : YAttr) : fromTokens items = some y ↔ Means items y := by
  unfold fromTokens
  constructor
  · intro h
    split at h
    · rename_i hn
      exact setKeys_means ((once_iff items).mp hn) h
    · cases h
  · intro h
    rw [if_pos ((once_iff items).mpr h.once)]
    obtain ⟨z, hz⟩ := setKeys_total items (setKey_total h) {}
    rw [hz, means_unique (setKeys_means h.once hz) h]

theorem attrFrom_iff (as : List SynAttr) (y : YAttr) : attrFrom as = .ok y ↔ Options as y := by
  induction as with
  | nil =>
    simp only [attrFrom, Except.ok.injEq, Options]
    constructor
    · rintro rfl; exact .inl ⟨by simp, rfl⟩
    · rintro (⟨-, rfl⟩ | ⟨pre, a, post, items, h, -⟩)
      · rfl
      · simp at h
  | cons a as ih =>
    unfold attrFrom attrTryFrom
    by_cases ha : a.path = [c!"yaserde"]
    · rw [if_pos ha]
      have hno : ¬ ∀ b ∈ a :: as, ¬ b.Ours := fun h => h a (by simp) ha
      have hopt : Options (a :: as) y ↔ ∃ items, a.content = .list (some items) ∧ Means items y := by
        unfold Options
        constructor
        · rintro (⟨h, -⟩ | ⟨pre, b, post, items, h1, h2, h3, h4, h5⟩)
          · exact absurd h hno
          · cases pre with
            | nil =>
              simp only [List.nil_append, List.cons.injEq] at h1
              obtain ⟨rfl, rfl⟩ := h1
              exact ⟨items, h4, h5⟩
            | cons c pre =>
              simp only [List.cons_append, List.cons.injEq] at h1
              obtain ⟨rfl, rfl⟩ := h1
              exact absurd ha (h2 _ (by simp))
        · rintro ⟨items, h1, h2⟩
          exact .inr ⟨[], a, as, items, rfl, by simp, ha, h1, h2⟩
      rw [hopt]
      cases hc : a.content with
      | path => simp
      | nameValue => simp
      | list o =>
        cases o with
        | none => simp
        | some items =>
          dsimp only
          cases hf : fromTokens items with
          | none =>
            simp only [SynMeta.list.injEq, Option.some.injEq, exists_eq_left', reduceCtorEq, false_iff]
            intro h
            rw [← fromTokens_iff, hf] at h
            cases h
          | some z =>
            simp only [SynMeta.list.injEq, Option.some.injEq, exists_eq_left', Except.ok.injEq]
            rw [← fromTokens_iff, hf]
            simp
    · rw [if_neg ha]
      dsimp only
      rw [ih]
      unfold Options
      constructor
      · rintro (⟨h, rfl⟩ | ⟨pre, b, post, items, h1, h2, h3⟩)
        · refine .inl ⟨?_, rfl⟩
          intro b hb
          rcases List.mem_cons.mp hb with rfl | hb
          · exact ha
          · exact h b hb
        · refine .inr ⟨a :: pre, b, post, items, by rw [h1]; rfl, ?_, h3⟩
          intro c hc
          rcases List.mem_cons.mp hc with rfl | hc
          · exact ha
          · exact h2 c hc
      · rintro (⟨h, rfl⟩ | ⟨pre, b, post, items, h1, h2, h3⟩)
        · exact .inl ⟨fun b hb => h b (List.mem_cons_of_mem _ hb), rfl⟩
        · cases pre with
          | nil =>
            simp only [List.nil_append, List.cons.injEq] at h1
            obtain ⟨rfl, rfl⟩ := h1
            exact absurd h3.1 ha
          | cons c pre =>
            simp only [List.cons_append, List.cons.injEq] at h1
            obtain ⟨rfl, rfl⟩ := h1
            exact .inr ⟨pre, b, post, items, rfl, fun d hd => h2 d (List.mem_cons_of_mem _ hd), h3⟩

end Yaserde
