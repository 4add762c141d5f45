import Verif.Proofs.OutSize
import Verif.Spec.OutSize
/-
C87: the tree written for a value costs at most linear, but for attributes of derived types.
-/

set_option autoImplicit false

namespace Yaserde
open XmlText

theorem size_pos (v : Val) : 1 ≤ v.size := by
  cases v <;> simp only [Val.size] <;> omega

theorem showNatF_length (k : Nat) : ∀ (fuel n : Nat), n < 10 ^ k → (showNatF fuel n).length ≤ k + 1 := by
  induction k with
  | zero =>
    intro fuel n h
    cases fuel with
    | zero => simp [showNatF]
    | succ fuel => simp only [showNatF]; rw [if_pos (by omega)]; simp
  | succ k ih =>
    intro fuel n h
    cases fuel with
    | zero => simp [showNatF]
    | succ fuel =>
      simp only [showNatF]
      split
      · simp
      · have := ih fuel (n / 10) (by rw [Nat.pow_succ] at h; omega)
        rw [List.length_append, List.length_cons, List.length_nil]
        omega

theorem showInt_length {t : IntTy} {z : Int} (h : t.Fits z) : (showInt z).length ≤ 22 := by
  have hz : -(10 ^ 20) < z ∧ z < 10 ^ 20 := by
    cases t <;> simp [IntTy.Fits, IntTy.hasSign, IntTy.bits] at h <;> omega
  unfold showInt
  split
  · rename_i n
    have := showNatF_length 20 (n + 1) n (by have := hz.2; simp at this; omega)
    unfold showNat; omega
  · rename_i n
    have := showNatF_length 20 (n + 1 + 1) (n + 1) (by have := hz.1; omega)
    unfold showNat
    rw [List.length_cons]; omega

section
variable {L : Lib} {env : Env} {c D : Nat} {E : Str → Nat}

theorem showS_length (ht : Terse L env c) {t : STy} {v : Val} (h : HasTy env (.simple t) v) : (showS L v).length ≤ (c + 22) * v.size := by
  cases h with
  | str s =>
    simp only [showS, Val.size]
    have := Nat.le_mul_of_pos_left (1 + s.length) (show 0 < c + 22 by omega)
    omega
  | bool b => cases b <;> simp [showS, showBool, Val.size] <;> omega
  | int t z h => simp only [showS, Val.size]; have := showInt_length h; omega
  | f32 b => simp only [showS, Val.size]; have := ht.f32 b; omega
  | f64 b => simp only [showS, Val.size]; have := ht.f64 b; omega

/-- What a value of size `n` may cost. -/
def budget (c D n : Nat) : Nat := (12 * c + 172) * n + D * (n * n)

theorem budget_add (c D x y : Nat) : budget c D x + budget c D y ≤ budget c D (x + y) := by
  unfold budget
  have : (x + y) * (x + y) = x * x + y * y + (x * y + y * x) := by rw [Nat.add_mul, Nat.mul_add, Nat.mul_add]; omega
  rw [this, Nat.mul_add, Nat.mul_add D, Nat.mul_add D]
  omega

theorem budget_succ (c D n : Nat) : budget c D n + D * n + (12 * c + 172) ≤ budget c D (1 + n) := by
  unfold budget
  have : (1 + n) * (1 + n) = n * n + n + n + 1 := by rw [Nat.add_mul, Nat.mul_add, Nat.mul_add]; omega
  rw [this, Nat.mul_add (12 * c + 172), Nat.mul_add D, Nat.mul_add D, Nat.mul_add D]
  omega

theorem budget_mono {c D m n : Nat} (h : m ≤ n) : budget c D m ≤ budget c D n :=
  Nat.add_le_add (Nat.mul_le_mul_left _ h) (Nat.mul_le_mul_left _ (Nat.mul_le_mul h h))

theorem budget_ge (c D n : Nat) : (12 * c + 172) * n ≤ budget c D n := Nat.le_add_right _ _

theorem budget_zero (c D : Nat) : budget c D 0 = 0 := by simp [budget]

/-- What escaping costs: six times the length at most, and for the attributes of derived types what their tree costs. -/
structure Escapes (L : Lib) (env : Env) (E : Str → Nat) (D : Nat) : Prop where
  six : ∀ s, E s ≤ 6 * s.length
  attr : ∀ p x, HasTy env (.struct p) x → AttrOf env p →
    E (L.emit { decl := false } (WNode.eventsL (encTy L env .inner p x))) ≤ costL E (encTy L env .inner p x) + D * x.size

/-- A place with a name that is not too long. -/
def Place.Short (c : Nat) (pl : Place) : Prop := ∀ n, pl.name = some n → n.length ≤ c

/-- The claim for one value: its tree, and its content with its attributes and declarations. -/
structure Budgeted (L : Lib) (env : Env) (E : Str → Nat) (c D : Nat) (p : Path) (x : Val) : Prop where
  tree : ∀ pl, Place.Short c pl → costL E (encTy L env pl p x) ≤ budget c D x.size
  all : costL E (encTy L env .inner p x) + attrsCost E (encTyAttrs L env p x) + declsCost (encTyDecls env p x) + (10 + 2 * c)
    ≤ budget c D x.size

theorem inner_short : Place.Short c .inner := by intro n h; cases h
theorem root_short : Place.Short c .root := by intro n h; cases h
theorem place_short {root : Attrs} {f : FieldDef} (h : (f.written root).length ≤ c) : Place.Short c (f.place root) := by
  intro n hn
  unfold FieldDef.place at hn
  split at hn
  · cases hn
  · cases hn; exact h

theorem cost_leaf (hE : Escapes L env E D) (ht : Terse L env c) {n : Str} (hn : n.length ≤ c) {t : STy} {v : Val} (hv : HasTy env (.simple t) v) :
    costL E [leaf n (showS L v)] + (4 * c + 29) ≤ (12 * c + 172) * v.size := by
  have h1 := hE.six (showS L v)
  have h2 := showS_length ht hv
  have h3 := size_pos v
  have h4 : (12 * c + 172) * v.size = 6 * ((c + 22) * v.size) + (6 * c + 40) * v.size := by
    rw [← Nat.mul_assoc, ← Nat.add_mul]; congr 1; omega
  have h5 := Nat.mul_le_mul_left (6 * c + 40) h3
  simp only [costL, leaf, cost, attrsCost, declsCost, List.map_nil, List.sum_nil]
  omega

theorem cost_showS (hE : Escapes L env E D) (ht : Terse L env c) {t : STy} {v : Val} (hv : HasTy env (.simple t) v) :
    E (showS L v) + (6 * c + 40) ≤ (12 * c + 172) * v.size := by
  have h1 := hE.six (showS L v)
  have h2 := showS_length ht hv
  have h3 := size_pos v
  have h4 : (12 * c + 172) * v.size = 6 * ((c + 22) * v.size) + (6 * c + 40) * v.size := by
    rw [← Nat.mul_assoc, ← Nat.add_mul]; congr 1; omega
  have h5 := Nat.mul_le_mul_left (6 * c + 40) h3
  omega

theorem cost_leaves (hE : Escapes L env E D) (ht : Terse L env c) {n : Str} (hn : n.length ≤ c) {t : STy} (vs : List Val)
    (hv : ∀ v ∈ vs, HasTy env (.simple t) v) : costL E (vs.map fun x => leaf n (showS L x)) ≤ (12 * c + 172) * Val.sizeL vs := by
  induction vs with
  | nil => simp [costL]
  | cons v vs ih =>
    have h1 := cost_leaf hE ht hn (hv v List.mem_cons_self)
    have h2 := ih fun v h => hv v (List.mem_cons_of_mem _ h)
    simp only [costL, Nat.add_zero] at h1
    simp only [List.map_cons, costL, Val.sizeL, Nat.mul_add]
    omega

theorem cost_texts (hE : Escapes L env E D) (ht : Terse L env c) {t : STy} (vs : List Val)
    (hv : ∀ v ∈ vs, HasTy env (.simple t) v) : costL E (vs.map fun x => .text (showS L x)) ≤ (12 * c + 172) * Val.sizeL vs := by
  induction vs with
  | nil => simp [costL]
  | cons v vs ih =>
    have h1 := cost_showS hE ht (hv v List.mem_cons_self)
    have h2 := ih fun v h => hv v (List.mem_cons_of_mem _ h)
    simp only [List.map_cons, costL, cost, Val.sizeL, Nat.mul_add]
    omega

/-! ### One after the other -/

/-- Everything smaller is within its budget. -/
def BudgetedBelow (L : Lib) (env : Env) (E : Str → Nat) (c D N : Nat) : Prop :=
  ∀ x : Val, x.size < N → ∀ p, HasTy env (.struct p) x → Budgeted L env E c D p x

theorem cost_items {N : Nat} (hb : BudgetedBelow L env E c D N) {pl : Place} (hpl : Place.Short c pl) {p : Path} (vs : List Val) (hN : Val.sizeL vs < N)
    (hv : ∀ v ∈ vs, HasTy env (.struct p) v) : costL E (encItems L env pl p vs) ≤ budget c D (Val.sizeL vs) := by
  induction vs with
  | nil => rw [encItems.eq_def]; simp [costL]
  | cons v vs ih =>
    simp only [Val.sizeL] at hN
    have h1 := (hb v (by omega) p (hv v List.mem_cons_self)).tree pl hpl
    have h2 := ih (by omega) fun v h => hv v (List.mem_cons_of_mem _ h)
    rw [encItems.eq_def]
    simp only [costL_append, Val.sizeL]
    have := budget_add c D v.size (Val.sizeL vs)
    omega

theorem cost_optItems {N : Nat} (hE : Escapes L env E D) (ht : Terse L env c) (hb : BudgetedBelow L env E c D N) {t : FTy} (htt : (∃ s, t = .simple s) ∨ ∃ p, t = .struct p)
    (vs : List Val) (hN : Val.sizeL vs < N)
    (hv : ∀ v ∈ vs, HasTy env (.opt t) v) : costL E (encOptItems L env t vs) ≤ budget c D (Val.sizeL vs) := by
  induction vs with
  | nil => rw [encOptItems.eq_def]; simp [costL]
  | cons v vs ih =>
    simp only [Val.sizeL] at hN
    have h2 := ih (by omega) fun v h => hv v (List.mem_cons_of_mem _ h)
    have hv1 := hv v List.mem_cons_self
    have hadd := budget_add c D v.size (Val.sizeL vs)
    cases hv1 with
    | none =>
      rw [encOptItems.eq_def]
      simp only [Val.sizeL]
      omega
    | some _ x hx =>
      rw [encOptItems.eq_def]
      simp only [costL_append, Val.sizeL]
      simp only [Val.size] at hN hadd
      have hs := budget_succ c D x.size
      rcases htt with ⟨s, rfl⟩ | ⟨p, rfl⟩
      · have h1 := cost_showS hE ht hx
        have := budget_ge c D x.size
        simp only [costL, cost, Val.size]
        omega
      · have h1 := (hb x (by omega) p hx).tree .root root_short
        simp only [Val.size]
        omega

theorem cost_variantItems {N : Nat} (hE : Escapes L env E D) (ht : Terse L env c) (hb : BudgetedBelow L env E c D N) {n : Str} (hn : n.length ≤ c) {t : FTy}
    (htt : (∃ s, t = .simple s) ∨ ∃ p, t = .struct p) (vs : List Val) (hN : Val.sizeL vs < N)
    (hv : ∀ v ∈ vs, HasTy env t v) : costL E (encVariantItems L env n t vs) ≤ budget c D (Val.sizeL vs) := by
  induction vs with
  | nil => rw [encVariantItems.eq_def]; simp [costL]
  | cons v vs ih =>
    simp only [Val.sizeL] at hN
    have h2 := ih (by omega) fun v h => hv v (List.mem_cons_of_mem _ h)
    have hv1 := hv v List.mem_cons_self
    have hadd := budget_add c D v.size (Val.sizeL vs)
    rw [encVariantItems.eq_def]
    simp only [costL, Val.sizeL]
    rcases htt with ⟨s, rfl⟩ | ⟨p, rfl⟩
    · have h1 := cost_leaf hE ht hn hv1
      have := budget_ge c D v.size
      simp only [costL, Nat.add_zero] at h1
      dsimp only
      omega
    · have h1 := (hb v (by omega) p hv1).all
      simp only [cost, attrsCost, declsCost, List.map_nil, List.sum_nil] at h1 ⊢
      omega

/-! ### Fields -/

theorem encFields_cons (root : Attrs) (self : Val) (f : FieldDef) (fs : List FieldDef) (v : Val) (vs : List Val) :
    encFields L env root self (f :: fs) (v :: vs) = encFields L env root self [f] [v] ++ encFields L env root self fs vs := by
  rw [encFields.eq_def]
  simp only
  rw [encFields.eq_def L env root self [f]]
  simp only
  rw [encFields.eq_def L env root self []]
  simp only [List.append_nil]

theorem encOwn_cons (root : Attrs) (self : Val) (f : FieldDef) (fs : List FieldDef) (v : Val) (vs : List Val) :
    encOwn L env root self (f :: fs) (v :: vs) = encOwn L env root self [f] [v] ++ encOwn L env root self fs vs := by
  rw [encOwn.eq_def]
  simp only
  rw [encOwn.eq_def L env root self [f]]
  simp only
  rw [encOwn.eq_def L env root self []]
  simp only [List.append_nil]

theorem encInherited_cons (f : FieldDef) (fs : List FieldDef) (v : Val) (vs : List Val) :
    encInherited L env (f :: fs) (v :: vs) = encInherited L env [f] [v] ++ encInherited L env fs vs := by
  rw [encInherited.eq_def]
  simp only
  rw [encInherited.eq_def L env [f]]
  simp only
  rw [encInherited.eq_def L env []]
  simp only [List.append_nil]

theorem encInheritedDecls_cons (f : FieldDef) (fs : List FieldDef) (v : Val) (vs : List Val) :
    encInheritedDecls env (f :: fs) (v :: vs) = encInheritedDecls env [f] [v] ++ encInheritedDecls env fs vs := by
  rw [encInheritedDecls.eq_def]
  simp only
  rw [encInheritedDecls.eq_def env [f]]
  simp only
  rw [encInheritedDecls.eq_def env []]
  simp only [List.append_nil]

theorem encNamed_cons (root : Attrs) (f : FieldDef) (fs : List FieldDef) (v : Val) (vs : List Val) :
    encNamed L env root (f :: fs) (v :: vs) = encNamed L env root [f] [v] ++ encNamed L env root fs vs := by
  rw [encNamed.eq_def]
  simp only
  rw [encNamed.eq_def L env root [f]]
  simp only
  rw [encNamed.eq_def L env root []]
  simp only [List.append_nil]

/-- One field: what it adds to the content, the attributes and the declarations. -/
def fieldCost (L : Lib) (env : Env) (E : Str → Nat) (root : Attrs) (self : Val) (fs : List FieldDef) (vs : List Val) : Nat :=
  costL E (encFields L env root self fs vs) + attrsCost E (encOwn L env root self fs vs) + attrsCost E (encInherited L env fs vs) +
    declsCost (encInheritedDecls env fs vs)

theorem fieldCost_cons (root : Attrs) (self : Val) (f : FieldDef) (fs : List FieldDef) (v : Val) (vs : List Val) :
    fieldCost L env E root self (f :: fs) (v :: vs) = fieldCost L env E root self [f] [v] + fieldCost L env E root self fs vs := by
  unfold fieldCost
  rw [encFields_cons, encOwn_cons, encInherited_cons, encInheritedDecls_cons, costL_append, attrsCost_append, attrsCost_append, declsCost_append]
  omega

theorem fieldText_length (v : Val) : (fieldText v).length ≤ v.size := by
  unfold fieldText
  split <;> simp only [Val.size, List.length_nil] <;> omega

theorem encOwn_none {root : Attrs} {self : Val} {f : FieldDef} {v : Val} (h : f.attrs.isAttr = false) : encOwn L env root self [f] [v] = [] := by
  rw [encOwn.eq_def]
  simp only [h, Bool.false_and]
  rw [encOwn.eq_def]
  rfl

theorem encFields_attr {root : Attrs} {self : Val} {f : FieldDef} {v : Val} (h : f.attrs.isAttr = true) : encFields L env root self [f] [v] = [] := by
  rw [encFields.eq_def]
  simp only [h]
  rw [encFields.eq_def]
  rfl

theorem encInherited_none {f : FieldDef} {v : Val} (h : f.attrs.isAttr = true ∨ f.attrs.flatten = false ∨ ∀ p, f.ty ≠ .struct p) :
    encInherited L env [f] [v] = [] ∧ encInheritedDecls env [f] [v] = [] := by
  rw [encInherited.eq_def, encInheritedDecls.eq_def]
  simp only
  rw [encInherited.eq_def, encInheritedDecls.eq_def]
  rcases h with h | h | h
  · simp [h]
  · simp [h]
  · simp only [List.append_nil]
    constructor <;> split <;> first | rfl | (split <;> first | rfl | (rename_i hp _ _ _; exact absurd hp (h _)) | (rename_i hp; exact absurd hp (h _)))

theorem encInherited_one {f : FieldDef} {v : Val} {p : Path} (h1 : f.attrs.isAttr = false) (h2 : f.attrs.flatten = true) (h3 : f.ty = .struct p) :
    encInherited L env [f] [v] = encTyAttrs L env p v ∧ encInheritedDecls env [f] [v] = encTyDecls env p v := by
  rw [encInherited.eq_def, encInheritedDecls.eq_def]
  simp only
  rw [encInherited.eq_def, encInheritedDecls.eq_def]
  simp [h1, h2, h3]

/-- The attribute of an attribute field. -/
theorem own_cost {N : Nat} (hE : Escapes L env E D) (ht : Terse L env c) (hb : BudgetedBelow L env E c D N) {root : Attrs} {self : Val} {f : FieldDef} {v : Val}
    (ha : f.attrs.isAttr = true) (hn : (f.written root).length ≤ c) (hattr : ∀ p, f.ty.core = .struct p → AttrOf env p)
    (hN : v.size < N) (hv : HasTy env f.ty v) :
    attrsCost E (encOwn L env root self [f] [v]) ≤ budget c D v.size + D * v.size := by
  have hge := budget_ge c D v.size
  rw [encOwn.eq_def]
  simp only
  rw [encOwn.eq_def]
  simp only [List.append_nil]
  have h0 : attrsCost E [] = 0 := rfl
  have h1 : ∀ s, attrsCost E [⟨Name.ofStr (f.written root), s⟩] = 4 + (f.written root).length + E s := by
    intro s; simp [attrsCost, qname_ofStr]
  by_cases hc : (f.attrs.isAttr && decide (f.selected self v)) = true
  · rw [if_pos hc]
    clear hc
    split
    · rename_i t hty
      rw [hty] at hv
      have := cost_showS hE ht hv
      rw [h1]; omega
    · rename_i t x hty
      rw [hty] at hv
      cases hv with
      | some _ _ hx =>
        have := cost_showS hE ht hx
        simp only [Val.size, Nat.mul_add] at hge ⊢
        rw [h1]; omega
    · rename_i p x hty
      rw [hty] at hv
      cases hv with
      | some _ _ hx =>
        simp only [Val.size] at hN ⊢
        have h2 := hE.attr p x hx (hattr p (by rw [hty]; rfl))
        have h3 := (hb x (by omega) p hx).all
        have h4 := budget_succ c D x.size
        rw [h1, Nat.mul_add]; omega
    · rename_i x p hty
      rw [hty] at hv
      have h2 := hE.attr p _ hv (hattr p (by rw [hty]; rfl))
      have h3 := (hb _ hN p hv).all
      rw [h1]; omega
    · rw [h0]; exact Nat.zero_le _
  · rw [if_neg hc, h0]; exact Nat.zero_le _

/-- The content from a field, if it is not flattened, or what comes with it if it is. -/
theorem kids_cost {N : Nat} (hE : Escapes L env E D) (ht : Terse L env c) (hb : BudgetedBelow L env E c D N) {root : Attrs} {self : Val} {f : FieldDef} {v : Val}
    (ha : f.attrs.isAttr = false) (hok : f.SerOk) (hn : (f.written root).length ≤ c) (hN : v.size < N) (hv : HasTy env f.ty v) :
    costL E (encFields L env root self [f] [v]) + attrsCost E (encInherited L env [f] [v]) + declsCost (encInheritedDecls env [f] [v])
      ≤ budget c D v.size := by
  have hge := budget_ge c D v.size
  have hz : costL E [] = 0 := rfl
  have h0 : attrsCost E [] = 0 := rfl
  have hd0 : declsCost [] = 0 := rfl
  have hpl : Place.Short c (f.place root) := place_short hn
  have hpos := size_pos v
  have hmul := Nat.mul_le_mul_left (12 * c + 172) hpos
  unfold FieldDef.SerOk at hok
  rw [if_neg (by simp [ha])] at hok
  by_cases hflat : f.attrs.flatten = true ∧ ∃ p, f.ty = .struct p
  · obtain ⟨hfl, p, hty⟩ := hflat
    rw [hty] at hv
    have hall := (hb v hN p hv).all
    rw [(encInherited_one (L := L) (env := env) (v := v) ha hfl hty).1, (encInherited_one (L := L) (env := env) (v := v) ha hfl hty).2]
    rw [encFields.eq_def]
    simp only [ha, Bool.false_eq_true, if_false]
    rw [encFields.eq_def L env root self [] [], List.append_nil]
    split
    · rename_i htx
      rw [if_pos htx, hty] at hok
      rcases hok with h | h <;> cases h
    · split
      · rw [hz]; omega
      · split
        · rename_i htx _ hcd
          rw [if_neg htx, if_pos hcd, hty] at hok
          cases hok
        · rw [hty]
          simp only
          have : f.place root = .inner := by unfold FieldDef.place; rw [if_pos hfl]
          rw [this]
          omega
  · rw [(encInherited_none (f := f) (v := v) (by
      by_cases hfl : f.attrs.flatten = true
      · exact .inr (.inr fun p hp => hflat ⟨hfl, p, hp⟩)
      · exact .inr (.inl (by simpa using hfl)))).1,
      (encInherited_none (L := L) (f := f) (v := v) (by
      by_cases hfl : f.attrs.flatten = true
      · exact .inr (.inr fun p hp => hflat ⟨hfl, p, hp⟩)
      · exact .inr (.inl (by simpa using hfl)))).2, h0, hd0, Nat.add_zero]
    rw [encFields.eq_def]
    simp only [ha, Bool.false_eq_true, if_false]
    rw [encFields.eq_def L env root self [] [], List.append_nil]
    split
    · have h1 := fieldText_length v
      have h2 := hE.six (fieldText v)
      have h3 : (12 * c + 172) * v.size = (12 * c + 166) * v.size + 6 * v.size := by rw [← Nat.add_mul]
      have h4 := Nat.mul_le_mul_left (12 * c + 166) hpos
      simp only [costL, cost]
      omega
    · split
      · rw [hz]; exact Nat.zero_le _
      · rename_i htx hsk
        rw [if_neg htx] at hok
        clear hsk htx
        split
        · rename_i hcd
          clear hcd
          split
          · rename_i s
            have h3 : (12 * c + 172) * (1 + s.length) = (12 * c + 172) + (12 * c + 171) * s.length + s.length := by
              rw [Nat.mul_add, Nat.add_assoc, ← Nat.succ_mul, Nat.mul_one]
            simp only [Val.size] at hge ⊢
            simp only [costL, cost, attrsCost, declsCost, List.map_nil, List.sum_nil]
            omega
          · rw [hz]; exact Nat.zero_le _
        · rename_i hcd
          rw [if_neg hcd] at hok
          clear hcd
          split
          · rename_i t hty
            rw [hty] at hv
            have := cost_leaf hE ht hn hv
            omega
          · rename_i t x hty
            rw [hty] at hv
            cases hv with
            | some _ _ hx =>
              have := cost_leaf hE ht hn hx
              simp only [Val.size, Nat.mul_add] at hge ⊢
              omega
          · rename_i t xs hty
            rw [hty] at hv
            cases hv with
            | some _ _ hx =>
              cases hx with
              | vec _ _ hx =>
                have := cost_leaves hE ht hn xs hx
                simp only [Val.size, Nat.mul_add] at hge ⊢
                omega
          · rename_i p x hty
            rw [hty] at hv
            cases hv with
            | some _ _ hx =>
              simp only [Val.size] at hN ⊢
              have := (hb x (by omega) p hx).tree _ hpl
              have := budget_succ c D x.size
              omega
          · rename_i x p hty
            rw [hty] at hv
            exact (hb _ hN p hv).tree _ hpl
          · rename_i t xs hty
            rw [hty] at hv
            cases hv with
            | vec _ _ hx =>
              have := cost_leaves hE ht hn xs hx
              simp only [Val.size, Nat.mul_add] at hge ⊢
              omega
          · rename_i t xs hty
            rw [hty] at hv hok
            cases hv with
            | vec _ _ hx =>
              simp only [Val.size] at hN ⊢
              have := cost_optItems hE ht hb (by
                cases t with
                | simple s => exact .inl ⟨s, rfl⟩
                | struct p => exact .inr ⟨p, rfl⟩
                | opt t => exact hok.elim
                | vec t => exact hok.elim) xs (by omega) hx
              have := budget_succ c D (Val.sizeL xs)
              omega
          · rename_i p xs hty
            rw [hty] at hv
            cases hv with
            | vec _ _ hx =>
              simp only [Val.size] at hN ⊢
              have := cost_items hb hpl xs (by omega) hx
              have := budget_succ c D (Val.sizeL xs)
              omega
          · rw [hz]; exact Nat.zero_le _

/-- All fields. -/
theorem fields_cost {N : Nat} (hE : Escapes L env E D) (ht : Terse L env c) (hb : BudgetedBelow L env E c D N) {root : Attrs} {self : Val}
    (fs : List FieldDef) (hok : ∀ f ∈ fs, f.SerOk) (hn : ∀ f ∈ fs, (f.written root).length ≤ c)
    (hattr : ∀ f ∈ fs, f.attrs.isAttr = true → ∀ p, f.ty.core = .struct p → AttrOf env p) :
    ∀ (vs : List Val), Val.sizeL vs < N →
      (∀ (i : Nat) (f : FieldDef) (v : Val), fs[i]? = some f → vs[i]? = some v → HasTy env f.ty v) →
      fieldCost L env E root self fs vs ≤ budget c D (Val.sizeL vs) + D * Val.sizeL vs := by
  induction fs with
  | nil =>
    intro vs _ _
    unfold fieldCost
    rw [encFields.eq_def, encOwn.eq_def, encInherited.eq_def, encInheritedDecls.eq_def]
    simp [costL, attrsCost, declsCost]
  | cons f fs ih =>
    intro vs hN hv
    cases vs with
    | nil =>
      unfold fieldCost
      rw [encFields.eq_def, encOwn.eq_def, encInherited.eq_def, encInheritedDecls.eq_def]
      simp [costL, attrsCost, declsCost]
    | cons v vs =>
      simp only [Val.sizeL] at hN ⊢
      have h1 := ih (fun f h => hok f (List.mem_cons_of_mem _ h)) (fun f h => hn f (List.mem_cons_of_mem _ h))
        (fun f h => hattr f (List.mem_cons_of_mem _ h)) vs (by omega) (fun i f v h1 h2 => hv (i + 1) f v (by simpa using h1) (by simpa using h2))
      have hv0 := hv 0 f v rfl rfl
      have hadd := budget_add c D v.size (Val.sizeL vs)
      rw [fieldCost_cons, Nat.mul_add]
      have h2 : fieldCost L env E root self [f] [v] ≤ budget c D v.size + D * v.size := by
        unfold fieldCost
        cases ha : f.attrs.isAttr with
        | true =>
          rw [encFields_attr ha, (encInherited_none (L := L) (f := f) (v := v) (.inl ha)).1, (encInherited_none (L := L) (f := f) (v := v) (.inl ha)).2]
          have := own_cost (self := self) hE ht hb ha (hn f List.mem_cons_self) (hattr f List.mem_cons_self ha) (by omega) hv0
          simp only [costL, attrsCost, declsCost, List.map_nil, List.sum_nil] at this ⊢
          omega
        | false =>
          rw [encOwn_none ha]
          have := kids_cost (self := self) hE ht hb ha (hok f List.mem_cons_self) (hn f List.mem_cons_self) (by omega) hv0
          have h0 : attrsCost E [] = 0 := rfl
          omega
      omega

/-- The named fields of a variant. -/
theorem named_cost {N : Nat} (hE : Escapes L env E D) (ht : Terse L env c) (hb : BudgetedBelow L env E c D N) {root : Attrs}
    (fs : List FieldDef) (hok : ∀ f ∈ fs, f.ty.NamedOk) (hn : ∀ f ∈ fs, (f.written root).length ≤ c) :
    ∀ (vs : List Val), Val.sizeL vs < N →
      (∀ (i : Nat) (f : FieldDef) (v : Val), fs[i]? = some f → vs[i]? = some v → HasTy env f.ty v) →
      costL E (encNamed L env root fs vs) ≤ budget c D (Val.sizeL vs) := by
  induction fs with
  | nil =>
    intro vs _ _
    rw [encNamed.eq_def]
    simp [costL]
  | cons f fs ih =>
    intro vs hN hv
    cases vs with
    | nil =>
      rw [encNamed.eq_def]
      simp [costL]
    | cons v vs =>
      simp only [Val.sizeL] at hN ⊢
      have h1 := ih (fun f h => hok f (List.mem_cons_of_mem _ h)) (fun f h => hn f (List.mem_cons_of_mem _ h))
        vs (by omega) (fun i f v h1 h2 => hv (i + 1) f v (by simpa using h1) (by simpa using h2))
      have hv0 := hv 0 f v rfl rfl
      have hn0 := hn f List.mem_cons_self
      have hok0 := hok f List.mem_cons_self
      have hpl : Place.Short c ⟨some (f.written root), false⟩ := by intro n h; cases h; exact hn0
      have hadd := budget_add c D v.size (Val.sizeL vs)
      have hge := budget_ge c D v.size
      have hz : costL E [] = 0 := rfl
      rw [encNamed.eq_def]
      simp only
      rw [costL_append]
      refine Nat.le_trans (Nat.add_le_add (?_ : _ ≤ budget c D v.size) h1) hadd
      split
      · rename_i t hty
        rw [hty] at hv0
        have := cost_leaf hE ht hn0 hv0
        omega
      · rename_i x p hty
        rw [hty] at hv0
        exact (hb _ (by omega) p hv0).tree _ hpl
      · rename_i p xs hty
        rw [hty] at hv0
        cases hv0 with
        | vec _ _ hx =>
          simp only [Val.size] at hN ⊢
          have := cost_items hb hpl xs (by omega) hx
          have := budget_succ c D (Val.sizeL xs)
          omega
      · rename_i t xs hns hty
        rw [hty] at hv0 hok0
        cases hv0 with
        | vec _ _ hx =>
          cases t with
          | simple s =>
            have := cost_texts hE ht xs hx
            simp only [Val.size, Nat.mul_add] at hge ⊢
            omega
          | struct p => exact absurd rfl (hns p)
          | opt t => exact hok0.elim
          | vec t => exact hok0.elim
      · rw [hz]; exact Nat.zero_le _

end
end Yaserde
