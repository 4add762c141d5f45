import Verif.Proofs.Macro
/-
Which items the derive macros accept.
-/

set_option autoImplicit false
set_option linter.unusedSimpArgs false

namespace Yaserde

theorem mac_bind {α β : Type} (x : Mac α) (f : α → Mac β) (b : β) : (x >>= f) = .ok b ↔ ∃ a, x = .ok a ∧ f a = .ok b := by
  cases x with
  | error e => simp [bind, Except.bind]
  | ok a => simp [bind, Except.bind]

theorem mac_seq {β : Type} (x : Mac Unit) (k : Mac β) (b : β) : (x >>= fun _ => k) = .ok b ↔ x = .ok () ∧ k = .ok b := by
  cases x with
  | error e => simp [bind, Except.bind]
  | ok a => simp [bind, Except.bind]

theorem mac_map {α β : Type} (x : Mac α) (f : α → β) (b : β) : (x.map f) = .ok b ↔ ∃ a, x = .ok a ∧ f a = b := by
  cases x with
  | error e => simp [Except.map]
  | ok a => simp [Except.map]

theorem checkAll_iff {α : Type} (g : α → Mac Unit) (l : List α) : checkAll g l = .ok () ↔ ∀ a ∈ l, g a = .ok () := by
  induction l with
  | nil => simp [checkAll]
  | cons a l ih =>
    unfold checkAll
    cases h : g a with
    | error e => simp [h]
    | ok u => simp [h, ih]

theorem mapAll_cons {α β : Type} (g : α → Mac β) (a : α) (l : List α) (bs : List β) :
    mapAll g (a :: l) = .ok bs ↔ ∃ b cs, g a = .ok b ∧ mapAll g l = .ok cs ∧ bs = b :: cs := by
  rw [mapAll.eq_def]
  dsimp only
  cases h : g a with
  | error e => simp
  | ok b =>
    dsimp only
    rw [mac_map]
    constructor
    · rintro ⟨cs, h1, rfl⟩; exact ⟨b, cs, rfl, h1, rfl⟩
    · rintro ⟨b', cs, h1, h2, rfl⟩
      injection h1 with h1
      subst h1
      exact ⟨cs, h2, rfl⟩

theorem mapAll_mem {α β : Type} {g : α → Mac β} {l : List α} {bs : List β} (h : mapAll g l = .ok bs) (b : β) :
    b ∈ bs ↔ ∃ a ∈ l, g a = .ok b := by
  induction l generalizing bs with
  | nil => simp only [mapAll, Except.ok.injEq] at h; subst h; simp
  | cons a l ih =>
    obtain ⟨c, cs, h1, h2, rfl⟩ := (mapAll_cons _ _ _ _).mp h
    simp only [List.mem_cons, ih h2, exists_eq_or_imp, h1, Except.ok.injEq]
    rw [eq_comm]

theorem mapAll_ok {α β : Type} {g : α → Mac β} {l : List α} (h : ∀ a ∈ l, ∃ b, g a = .ok b) : ∃ bs, mapAll g l = .ok bs := by
  induction l with
  | nil => exact ⟨[], rfl⟩
  | cons a l ih =>
    obtain ⟨b, hb⟩ := h a (by simp)
    obtain ⟨bs, hbs⟩ := ih fun a ha => h a (by simp [ha])
    exact ⟨b :: bs, (mapAll_cons _ _ _ _).mpr ⟨b, bs, hb, hbs, rfl⟩⟩

theorem mapAll_each {α β : Type} {g : α → Mac β} {l : List α} {bs : List β} (h : mapAll g l = .ok bs) :
    ∀ a ∈ l, ∃ b, g a = .ok b := by
  induction l generalizing bs with
  | nil => simp
  | cons a l ih =>
    obtain ⟨c, cs, h1, h2, rfl⟩ := (mapAll_cons _ _ _ _).mp h
    intro x hx
    rcases List.mem_cons.mp hx with rfl | hx
    · exact ⟨c, h1⟩
    · exact ih h2 x hx

theorem mapAll_length {α β : Type} {g : α → Mac β} {l : List α} {bs : List β} (h : mapAll g l = .ok bs) :
    bs.length = l.length := by
  induction l generalizing bs with
  | nil => simp only [mapAll, Except.ok.injEq] at h; subst h; rfl
  | cons a l ih =>
    obtain ⟨c, cs, h1, h2, rfl⟩ := (mapAll_cons _ _ _ _).mp h
    simp [ih h2]

/-- Checks after a `map`. -/
theorem mapAll_check {α β : Type} (g : α → Mac β) (c : List β → Mac Unit) (P : β → Prop) (l : List α)
    (hc : ∀ bs, c bs = .ok () ↔ ∀ b ∈ bs, P b) :
    (mapAll g l >>= c) = .ok () ↔ ∀ a ∈ l, ∃ b, g a = .ok b ∧ P b := by
  rw [mac_bind]
  constructor
  · rintro ⟨bs, h1, h2⟩ a ha
    obtain ⟨b, hb⟩ := mapAll_each h1 a ha
    exact ⟨b, hb, (hc bs).mp h2 b ((mapAll_mem h1 b).mpr ⟨a, ha, hb⟩)⟩
  · intro h
    obtain ⟨bs, hbs⟩ := mapAll_ok (g := g) (l := l) fun a ha => by
      obtain ⟨b, hb, -⟩ := h a ha; exact ⟨b, hb⟩
    refine ⟨bs, hbs, (hc bs).mpr fun b hb => ?_⟩
    obtain ⟨a, ha, hab⟩ := (mapAll_mem hbs b).mp hb
    obtain ⟨b', hb', hp⟩ := h a ha
    rw [hab] at hb'
    injection hb' with hb'
    subst hb'
    exact hp

theorem new_iff (f : SynField) (b : YField) : f.new = .ok b ↔ ∃ y, Options f.attrs y ∧ b = ⟨f.ident, f.ty, y⟩ := by
  unfold SynField.new
  cases h : attrFrom f.attrs with
  | error e =>
    simp only [reduceCtorEq, false_iff, not_exists, not_and]
    intro y hy
    rw [← attrFrom_iff, h] at hy
    cases hy
  | ok y =>
    simp only [Except.ok.injEq]
    constructor
    · rintro rfl
      exact ⟨y, (attrFrom_iff _ _).mp h, rfl⟩
    · rintro ⟨y', h1, rfl⟩
      rw [← attrFrom_iff, h] at h1
      injection h1 with h1
      rw [h1]

theorem getType_iff (f : YField) (t : FTy) : f.getType = .ok t ↔ Denotes f.ty t := denotes_iff f.ty t

theorem labelled_iff (f : YField) : f.labelled = .ok () ↔ f.y.attrs.rename ≠ none ∨ f.ident ≠ none := by
  unfold YField.labelled
  split
  · rename_i h; simp [h.1, h.2]
  · rename_i h
    simp only [true_iff]
    by_cases h1 : f.y.attrs.rename = none
    · exact .inr fun h2 => h ⟨h1, h2⟩
    · exact .inl h1

theorem identOk_iff (s : Str) : identOk s = true ↔ IsIdent s := by
  unfold IsIdent
  cases s with
  | nil => simp [identOk]
  | cons c cs =>
    simp only [identOk, identOk.identStart, Bool.and_eq_true, Bool.or_eq_true, beq_iff_eq, decide_eq_true_eq, List.all_eq_true,
      ne_eq, reduceCtorEq, not_false_eq_true, List.mem_cons, forall_eq_or_imp, List.head?_cons, Option.some.injEq,
      forall_eq', true_and]
    constructor
    · rintro ⟨h1, h2⟩
      refine ⟨⟨by grind, fun a ha => by have := h2 a ha; grind⟩, ?_⟩
      rcases h1 with (h1 | h1) | h1
      · rw [Bool.eq_false_iff]
        intro hd
        simp only [Char.isDigit, Char.isAlpha, Char.isUpper, Char.isLower, Bool.and_eq_true, Bool.or_eq_true, decide_eq_true_eq, ge_iff_le, UInt32.le_iff_toNat_le] at hd h1
        have e1 : ('0'.val.toNat) = 48 := rfl
        have e2 : ('9'.val.toNat) = 57 := rfl
        have e3 : ('A'.val.toNat) = 65 := rfl
        have e4 : ('a'.val.toNat) = 97 := rfl
        have e5 : ('Z'.val.toNat) = 90 := rfl
        have e6 : ('z'.val.toNat) = 122 := rfl
        omega
      · subst h1; rfl
      · rw [Bool.eq_false_iff]
        intro hd
        simp only [Char.isDigit, Bool.and_eq_true, decide_eq_true_eq, ge_iff_le, UInt32.le_iff_toNat_le] at hd
        have e2 : ('9'.val.toNat) = 57 := rfl
        have e3 : c.toNat = c.val.toNat := rfl
        omega
    · rintro ⟨⟨h1, h2⟩, h3⟩
      rw [h3] at h1
      refine ⟨by simpa [or_assoc] using h1, fun a ha => ?_⟩
      have := h2 a ha
      grind

theorem defaultFn_iff (f : YField) : f.defaultFn = .ok () ↔ FnOk f.y.dflt := by
  unfold YField.defaultFn FnOk
  cases h : f.y.dflt with
  | none => simp
  | some s =>
    dsimp only
    simp only [Option.some.injEq, forall_eq', ← identOk_iff]
    split <;> simp_all

theorem skipIfFn_iff (f : YField) : f.skipIfFn = .ok () ↔ FnOk f.y.skipIf := by
  unfold YField.skipIfFn FnOk
  cases h : f.y.skipIf with
  | none => simp
  | some s =>
    simp only [Option.some.injEq, forall_eq', ← identOk_iff]
    split <;> simp_all

/-! ### `YaDeserialize` -/

/-- All passes over the fields. -/
def DePasses (f : YField) : Prop :=
  deVariables f = .ok () ∧ deFieldVisitors f = .ok () ∧ deCallVisitors f = .ok () ∧ deFlatten f = .ok () ∧
    deAttributes f = .ok () ∧ deBuilder f = .ok () ∧ deTypes f = .ok ()

theorem oneLevel_iff (t : FTy) : OneLevel t ↔
    match t with
    | .opt u | .vec u => u.isNested = false
    | _ => True := by
  constructor
  · intro h; cases h <;> simp [FTy.isNested]
  · intro h
    cases t with
    | simple => constructor
    | struct => constructor
    | opt u => cases u <;> simp [FTy.isNested] at h <;> constructor
    | vec u => cases u <;> simp [FTy.isNested] at h <;> constructor

theorem mac_ok_bind {α β : Type} (a : α) (f : α → Mac β) : ((Except.ok a : Mac α) >>= f) = f a := rfl

theorem mac_err_bind {α β : Type} (e : Reject) (f : α → Mac β) : ((Except.error e : Mac α) >>= f) = .error e := rfl

theorem dePasses_iff (f : YField) : DePasses f ↔
    ∃ t x, Denotes f.ty t ∧ f.ident = some x ∧ OneLevel t ∧
    (f.y.attrs.isAttr = false → f.y.attrs.flatten = true → (∃ q, t = .struct q) ∨ ∃ q, t = .opt (.struct q)) ∧
    (f.y.attrs.text = true → ∀ s, t = .simple s → s = .string) ∧
    ((∃ s, t = .simple s) ∨ (∃ q, t = .struct q) → FnOk f.y.dflt) := by
  unfold DePasses
  simp only [← getType_iff]
  cases ht : f.getType with
  | error e => simp [deVariables, ht, mac_err_bind]
  | ok t =>
    cases hi : f.ident with
    | none => simp [deTypes, hi]
    | some x =>
      have hl : f.labelled = .ok () := (labelled_iff f).mpr (.inr (by rw [hi]; simp))
      simp only [Except.ok.injEq, exists_and_left, exists_eq_left', Option.some.injEq]
      simp only [deVariables, deFieldVisitors, deCallVisitors, deFlatten, deAttributes, deBuilder, deTypes, ht, mac_ok_bind, hl, hi,
        oneLevel_iff, ← defaultFn_iff]
      cases ha : f.y.attrs.isAttr <;> cases hf : f.y.attrs.flatten <;> cases hx : f.y.attrs.text <;>
        (rcases t with t | t | t | t
         · simp [mac_ok_bind, hl] <;> grind
         · rcases t with t | t | t | t <;> simp [FTy.isNested, mac_ok_bind]
         · rcases t with t | t | t | t <;> simp [FTy.isNested, mac_ok_bind, hl]
         · simp [mac_ok_bind, hl])

theorem deStruct_iff (fs : List SynField) : deStruct fs = .ok () ↔ ∀ f ∈ fs, DeField f := by
  unfold deStruct
  rw [mapAll_check SynField.new _ DePasses]
  · simp only [new_iff]
    refine forall_congr' fun f => forall_congr' fun _ => ?_
    constructor
    · rintro ⟨b, ⟨y, h1, rfl⟩, h2⟩
      obtain ⟨t, x, h⟩ := (dePasses_iff _).mp h2
      exact ⟨y, t, x, h1, h⟩
    · rintro ⟨y, t, x, h1, h⟩
      exact ⟨_, ⟨y, h1, rfl⟩, (dePasses_iff _).mpr ⟨t, x, h⟩⟩
  · intro bs
    simp only [mac_seq, checkAll_iff]
    constructor
    · rintro ⟨h1, h2, h3, h4, h5, h6, h7⟩ b hb
      exact ⟨h1 b hb, h2 b hb, h3 b hb, h4 b hb, h5 b hb, h6 b hb, h7 b hb⟩
    · intro h
      exact ⟨fun b hb => (h b hb).1, fun b hb => (h b hb).2.1, fun b hb => (h b hb).2.2.1,
        fun b hb => (h b hb).2.2.2.1, fun b hb => (h b hb).2.2.2.2.1, fun b hb => (h b hb).2.2.2.2.2.1,
        fun b hb => (h b hb).2.2.2.2.2.2⟩

theorem deUnnamed_iff (f : SynField) : deUnnamed f = .ok () ↔ ∃ y t, Options f.attrs y ∧ Denotes f.ty t ∧ OneLevel t := by
  unfold deUnnamed
  simp only [mac_bind, new_iff, getType_iff]
  constructor
  · rintro ⟨b, ⟨y, h1, rfl⟩, t, h2, h3⟩
    refine ⟨y, t, h1, h2, (oneLevel_iff t).mpr ?_⟩
    rcases t with t | t | t | t <;> simp at h3 ⊢ <;> exact h3
  · rintro ⟨y, t, h1, h2, h3⟩
    refine ⟨_, ⟨y, h1, rfl⟩, t, h2, ?_⟩
    rw [oneLevel_iff] at h3
    rcases t with t | t | t | t <;> simp at h3 ⊢ <;> exact h3

theorem deVariant_iff (v : SynVariant) : deVariant v = .ok () ↔ DeVariantOk v := by
  unfold deVariant DeVariantOk
  simp only [mac_bind, attrFrom_iff]
  constructor
  · rintro ⟨y, h1, h2⟩
    refine ⟨⟨y, h1⟩, fun fs hfs => ?_⟩
    rw [hfs] at h2
    dsimp only at h2
    obtain ⟨_, h3, h4⟩ := (mac_bind _ _ _).mp h2
    rw [checkAll_iff] at h3
    split at h4
    · cases h4
    · rename_i hlen
      cases fs with
      | nil => exact .inl rfl
      | cons f fs =>
        cases fs with
        | nil =>
          obtain ⟨y, t, h⟩ := (deUnnamed_iff f).mp (h3 f (by simp))
          exact .inr ⟨f, y, t, rfl, h⟩
        | cons => simp at hlen
  · rintro ⟨⟨y, h1⟩, h2⟩
    refine ⟨y, h1, ?_⟩
    cases hfs : v.fields with
    | unit => rfl
    | named => rfl
    | unnamed fs =>
      rcases h2 fs hfs with rfl | ⟨f, y, t, rfl, h⟩
      · rfl
      · dsimp only
        rw [mac_bind]
        refine ⟨(), (checkAll_iff _ _).mpr ?_, by simp⟩
        simp only [List.mem_cons, List.not_mem_nil, or_false, forall_eq]
        exact (deUnnamed_iff f).mpr ⟨y, t, h⟩

theorem deAccepts_iff (i : DeriveInput) : deAccepts i = .ok () ↔ Deserializable i := by
  unfold deAccepts Deserializable
  simp only [mac_bind, attrFrom_iff]
  cases i.data with
  | struct fs => simp only [deStruct_iff, exists_and_right]
  | enum vs => simp only [checkAll_iff, deVariant_iff, exists_and_right]
  | union => simp

/-! ### `YaSerialize` -/

/-- All passes over the fields. -/
def SerPasses (f : YField) : Prop :=
  serAttributes f = .ok () ∧ serInspector f = .ok () ∧ serTypes f = .ok ()

theorem serShape_iff (a : Attrs) (t : FTy) : SerShape a t ↔
    if a.isAttr then
      match t with
      | .simple _ | .opt (.simple _) | .opt (.struct _) | .struct _ | .vec _ => True
      | _ => False
    else if a.text then t = .simple .string ∨ t = .opt (.simple .string)
    else if a.cdata then t = .simple .string
    else
      match t with
      | .simple _ | .opt (.simple _) | .opt (.vec (.simple _)) | .opt (.struct _) | .struct _ | .vec (.simple _)
      | .vec (.opt (.struct _)) | .vec (.struct _) => True
      | .vec (.opt (.simple s)) => s ≠ .string
      | _ => False := by
  constructor
  · intro h
    cases h <;> simp_all <;> rename_i hs <;> cases hs <;> simp_all
  · intro h
    split at h
    · rename_i ha
      split at h <;> first | exact .attrVec _ ha | (exact .attr _ ha (by constructor)) | cases h
    · rename_i ha
      simp only [Bool.not_eq_true] at ha
      split at h
      · rename_i hx
        rcases h with rfl | rfl
        · exact .text ha hx
        · exact .textOpt ha hx
      · rename_i hx
        simp only [Bool.not_eq_true] at hx
        split at h
        · rename_i hc
          subst h
          exact .cdata ha hx hc
        · rename_i hc
          simp only [Bool.not_eq_true] at hc
          split at h <;> first | exact .optVec _ ha hx hc | exact .vecOptStruct _ ha hx hc | exact .vecOpt _ ha hx hc h |
            (exact .elem _ ha hx hc (by constructor)) | cases h

theorem serPasses_iff (f : YField) : SerPasses f ↔
    ∃ t x, Denotes f.ty t ∧ f.ident = some x ∧ SerShape f.y.attrs t ∧
    (f.y.attrs.isAttr = true ∧ (∀ u, t ≠ .vec u) ∨ f.y.attrs.isAttr = false ∧ f.y.attrs.text = false →
      FnOk f.y.dflt ∧ FnOk f.y.skipIf) := by
  unfold SerPasses
  simp only [← getType_iff]
  cases ht : f.getType with
  | error e =>
    simp only [reduceCtorEq, false_and, exists_false, iff_false]
    rintro ⟨-, -, h⟩
    unfold serTypes at h
    simp only [ht, mac_err_bind] at h
    split at h
    · cases h
    · split at h
      · cases h
      · split at h
        · cases h
        · split at h <;> cases h
  | ok t =>
    cases hi : f.ident with
    | none => simp [serTypes, hi]
    | some x =>
      have hl : f.labelled = .ok () := (labelled_iff f).mpr (.inr (by rw [hi]; simp))
      simp only [Except.ok.injEq, exists_and_left, exists_eq_left', Option.some.injEq]
      simp only [serAttributes, serInspector, serTypes, ht, mac_ok_bind, hl, hi, serShape_iff, ← defaultFn_iff, ← skipIfFn_iff]
      cases hd : f.defaultFn <;> cases hs : f.skipIfFn <;>
      cases ha : f.y.attrs.isAttr <;> cases hf : f.y.attrs.flatten <;> cases hx : f.y.attrs.text <;>
        cases hc : f.y.attrs.cdata <;>
        (rcases t with t | t | t | t
         · simp [mac_ok_bind, mac_err_bind, pure, Except.pure] <;> grind
         · rcases t with t | t | t | t
           · simp [mac_ok_bind, mac_err_bind, pure, Except.pure] <;> grind
           · simp [mac_ok_bind, mac_err_bind, pure, Except.pure]
           · rcases t with t | t | t | t <;> simp [mac_ok_bind, mac_err_bind, pure, Except.pure]
           · simp [mac_ok_bind, mac_err_bind, pure, Except.pure]
         · rcases t with t | t | t | t
           · simp [mac_ok_bind, mac_err_bind, pure, Except.pure]
           · rcases t with t | t | t | t <;> simp [mac_ok_bind, mac_err_bind, pure, Except.pure] <;> grind
           · simp [mac_ok_bind, mac_err_bind, pure, Except.pure]
           · simp [mac_ok_bind, mac_err_bind, pure, Except.pure]
         · simp [mac_ok_bind, mac_err_bind, pure, Except.pure])

theorem serStruct_iff (fs : List SynField) : serStruct fs = .ok () ↔ ∀ f ∈ fs, SerField f := by
  unfold serStruct
  rw [mapAll_check SynField.new _ SerPasses]
  · simp only [new_iff]
    refine forall_congr' fun f => forall_congr' fun _ => ?_
    constructor
    · rintro ⟨b, ⟨y, h1, rfl⟩, h2⟩
      obtain ⟨t, x, h⟩ := (serPasses_iff _).mp h2
      exact ⟨y, t, x, h1, h⟩
    · rintro ⟨y, t, x, h1, h⟩
      exact ⟨_, ⟨y, h1, rfl⟩, (serPasses_iff _).mpr ⟨t, x, h⟩⟩
  · intro bs
    simp only [mac_seq, checkAll_iff]
    constructor
    · rintro ⟨h1, h2, h3⟩ b hb
      exact ⟨h1 b hb, h2 b hb, h3 b hb⟩
    · intro h
      exact ⟨fun b hb => (h b hb).1, fun b hb => (h b hb).2.1, fun b hb => (h b hb).2.2⟩

def NamedPasses (root : Attrs) (f : YField) : Prop :=
  serVariantMatches f = .ok () ∧ serInnerNamed f = .ok () ∧ serVariantTypes root f = .ok () ∧ serNamedTypes f = .ok ()

theorem namedPasses_iff (root : Attrs) (f : YField) : NamedPasses root f ↔
    ∃ t, Denotes f.ty t ∧ f.y.attrs.isAttr = false ∧ f.y.attrs.text = false ∧
    (f.y.attrs.rename ≠ none ∨ f.ident ≠ none) ∧
    ((∃ s, t = .simple s) ∨ (∃ q, t = .struct q) ∨ (∃ q, t = .vec (.struct q)) ∨ (∃ s, s ≠ .string ∧ t = .vec (.simple s)) ∨
      ∃ u, t = .opt u) ∧
    (f.y.attrs.flatten = true → ∀ q, t = .struct q → root.flatten = false ∧ (f.ident = none → f.ty.ungroup.oneIdent = true)) := by
  unfold NamedPasses
  simp only [← getType_iff, ← labelled_iff]
  cases ht : f.getType with
  | error e =>
    simp only [reduceCtorEq, false_and, exists_false, iff_false]
    rintro ⟨-, -, -, h⟩
    unfold serNamedTypes at h
    simp only [ht, mac_err_bind] at h
    split at h <;> cases h
  | ok t =>
    simp only [Except.ok.injEq, exists_eq_left']
    simp only [serVariantMatches, serInnerNamed, serVariantTypes, serNamedTypes, ht, mac_ok_bind]
    cases hl : f.labelled <;> cases hr : root.flatten <;> cases ho : f.ty.ungroup.oneIdent <;>
    cases ha : f.y.attrs.isAttr <;> cases hf : f.y.attrs.flatten <;> cases hx : f.y.attrs.text <;>
      (rcases t with t | t | t | t
       · simp [mac_ok_bind, mac_err_bind, pure, Except.pure]
       · simp [mac_ok_bind, mac_err_bind, pure, Except.pure]
       · rcases t with t | t | t | t <;> simp [mac_ok_bind, mac_err_bind, pure, Except.pure]
       · simp [mac_ok_bind, mac_err_bind, pure, Except.pure])

def UnnamedPasses (root : Attrs) (f : YField) : Prop :=
  serVariantMatches f = .ok () ∧ serInnerUnnamed f = .ok () ∧ serVariantTypes root f = .ok () ∧ serUnnamedTypes f = .ok ()

theorem unnamedPasses_iff (root : Attrs) (f : YField) : UnnamedPasses root f ↔
    ∃ t, Denotes f.ty t ∧ f.y.attrs.isAttr = false ∧ OneLevel t ∧
    (f.y.attrs.flatten = true → ∀ q, t = .struct q → root.flatten = false ∧ (f.ident = none → f.ty.ungroup.oneIdent = true)) := by
  unfold UnnamedPasses
  simp only [← getType_iff]
  cases ht : f.getType with
  | error e =>
    simp only [reduceCtorEq, false_and, exists_false, iff_false]
    rintro ⟨-, -, -, h⟩
    unfold serUnnamedTypes at h
    simp only [ht, mac_err_bind] at h
    cases h
  | ok t =>
    simp only [Except.ok.injEq, exists_eq_left', oneLevel_iff]
    simp only [serVariantMatches, serInnerUnnamed, serVariantTypes, serUnnamedTypes, ht, mac_ok_bind]
    cases hr : root.flatten <;> cases ho : f.ty.ungroup.oneIdent <;>
    cases ha : f.y.attrs.isAttr <;> cases hf : f.y.attrs.flatten <;>
      (rcases t with t | t | t | t
       · simp [mac_ok_bind, mac_err_bind, pure, Except.pure]
       · simp [mac_ok_bind, mac_err_bind, pure, Except.pure]
       · simp [mac_ok_bind, mac_err_bind, pure, Except.pure]
       · simp [mac_ok_bind, mac_err_bind, pure, Except.pure])

theorem serVariantOk_iff (root : Attrs) (v : SynVariant) : serVariantOk root v = .ok () ↔ SerVariantOk root v := by
  unfold serVariantOk SerVariantOk
  rw [mac_bind]
  simp only [attrFrom_iff, exists_and_right]
  refine and_congr_right fun _ => ?_
  cases hv : v.fields with
  | unit => simp [SynFields.list, mapAll, mac_ok_bind, checkAll]
  | named fs =>
    simp only [SynFields.list]
    rw [mapAll_check SynField.new _ (NamedPasses root)]
    · simp only [new_iff]
      refine forall_congr' fun f => forall_congr' fun _ => ?_
      constructor
      · rintro ⟨b, ⟨y, h1, rfl⟩, h2⟩
        obtain ⟨t, h3, h⟩ := (namedPasses_iff _ _).mp h2
        exact ⟨y, t, h1, h3, h⟩
      · rintro ⟨y, t, h1, h3, h⟩
        exact ⟨_, ⟨y, h1, rfl⟩, (namedPasses_iff _ _).mpr ⟨t, h3, h⟩⟩
    · intro bs
      simp only [mac_seq, checkAll_iff]
      constructor
      · rintro ⟨h1, h2, h3, h4⟩ b hb
        exact ⟨h1 b hb, h2 b hb, h3 b hb, h4 b hb⟩
      · intro h
        exact ⟨fun b hb => (h b hb).1, fun b hb => (h b hb).2.1, fun b hb => (h b hb).2.2.1, fun b hb => (h b hb).2.2.2⟩
  | unnamed fs =>
    simp only [SynFields.list]
    have key : (mapAll SynField.new fs >>= fun fs => do
        checkAll serVariantMatches fs
        checkAll serInnerUnnamed fs
        checkAll (serVariantTypes root) fs
        checkAll serUnnamedTypes fs) = .ok () ↔ ∀ f ∈ fs, SerUnnamed root f := by
      rw [mapAll_check SynField.new _ (UnnamedPasses root)]
      · simp only [new_iff]
        refine forall_congr' fun f => forall_congr' fun _ => ?_
        constructor
        · rintro ⟨b, ⟨y, h1, rfl⟩, h2⟩
          obtain ⟨t, h3, h⟩ := (unnamedPasses_iff _ _).mp h2
          exact ⟨y, t, h1, h3, h⟩
        · rintro ⟨y, t, h1, h3, h⟩
          exact ⟨_, ⟨y, h1, rfl⟩, (unnamedPasses_iff _ _).mpr ⟨t, h3, h⟩⟩
      · intro bs
        simp only [mac_seq, checkAll_iff]
        constructor
        · rintro ⟨h1, h2, h3, h4⟩ b hb
          exact ⟨h1 b hb, h2 b hb, h3 b hb, h4 b hb⟩
        · intro h
          exact ⟨fun b hb => (h b hb).1, fun b hb => (h b hb).2.1, fun b hb => (h b hb).2.2.1, fun b hb => (h b hb).2.2.2⟩
    constructor
    · intro h
      obtain ⟨bs, h1, h2⟩ := (mac_bind _ _ _).mp h
      simp only [mac_seq] at h2
      have h3 := key.mp ((mac_bind _ _ _).mpr ⟨bs, h1, by simp only [mac_seq]; exact ⟨h2.1, h2.2.1, h2.2.2.1, h2.2.2.2.1⟩⟩)
      have h4 := h2.2.2.2.2
      rw [mapAll_length h1] at h4
      cases fs with
      | nil => exact .inl rfl
      | cons f fs =>
        cases fs with
        | nil => exact .inr ⟨f, rfl, h3 f (by simp)⟩
        | cons => simp at h4
    · intro h
      have h5 : (∀ f ∈ fs, SerUnnamed root f) ∧ fs.length ≤ 1 := by
        rcases h with rfl | ⟨f, rfl, h⟩
        · simp
        · simpa using h
      obtain ⟨bs, h1, h2⟩ := (mac_bind _ _ _).mp (key.mpr h5.1)
      simp only [mac_seq] at h2
      refine (mac_bind _ _ _).mpr ⟨bs, h1, ?_⟩
      simp only [mac_seq]
      refine ⟨h2.1, h2.2.1, h2.2.2.1, h2.2.2.2, ?_⟩
      rw [mapAll_length h1, if_neg (by omega)]

theorem serAccepts_iff (i : DeriveInput) : serAccepts i = .ok () ↔ Serializable i := by
  unfold serAccepts Serializable
  simp only [mac_bind, attrFrom_iff]
  refine exists_congr fun y => and_congr_right fun _ => ?_
  cases i.data with
  | struct fs => simp only [serStruct_iff]
  | enum vs => simp only [checkAll_iff, serVariantOk_iff]
  | union => simp

end Yaserde
