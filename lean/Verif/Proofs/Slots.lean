import Verif.Spec.Decode
import Verif.Proofs.Reader
/-
The generated code's local variables (`Slot`s) as functions of the contributions received.
-/

set_option autoImplicit false

namespace Yaserde

/-! ### Res -/

section
variable {α β γ : Type}

@[simp] theorem Res.bind_ok (a : α) (f : α → Res β) : (Res.ok a).bind f = f a := rfl
@[simp] theorem Res.bind_err (m : Str) (f : α → Res β) : (Res.err m).bind f = .err m := rfl
@[simp] theorem Res.bind_panic (m : Str) (f : α → Res β) : (Res.panic m).bind f = .panic m := rfl
@[simp] theorem Res.bind_diverge (f : α → Res β) : (Res.diverge).bind f = .diverge := rfl

theorem Res.bind_ok_right {α : Type} (r : Res α) : (r.bind fun a => .ok a) = r := by cases r <;> rfl

theorem Res.bind_assoc (r : Res α) (f : α → Res β) (g : β → Res γ) :
    (r.bind f).bind g = r.bind fun a => (f a).bind g := by cases r <;> rfl

theorem Res.bind_congr {r : Res α} {f g : α → Res β} (h : ∀ a, r = .ok a → f a = g a) :
    r.bind f = r.bind g := by
  cases r with
  | ok a => exact h a rfl
  | _ => rfl

theorem Res.bind_eq_ok {r : Res α} {f : α → Res β} {b : β} :
    r.bind f = .ok b ↔ ∃ a, r = .ok a ∧ f a = .ok b := by
  cases r <;> simp

@[simp] theorem collect_nil : Res.collect ([] : List (Res α)) = .ok [] := rfl
theorem collect_cons (r : Res α) (rs : List (Res α)) :
    Res.collect (r :: rs) = r.bind fun a => (Res.collect rs).bind fun as => .ok (a :: as) := rfl

theorem collect_append (rs ss : List (Res α)) :
    Res.collect (rs ++ ss) = (Res.collect rs).bind fun a => (Res.collect ss).bind fun b => .ok (a ++ b) := by
  induction rs with
  | nil => simp only [List.nil_append, collect_nil, Res.bind_ok]; cases Res.collect ss <;> rfl
  | cons r rs ih =>
    simp only [List.cons_append, collect_cons, ih, Res.bind_assoc, Res.bind_ok, List.cons_append]

theorem collect_map_ok (as : List α) : Res.collect (as.map Res.ok) = .ok as := by
  induction as with
  | nil => rfl
  | cons a as ih => simp [collect_cons, ih]

theorem collect_ok_iff {rs : List (Res α)} {as : List α} :
    Res.collect rs = .ok as ↔ rs = as.map Res.ok := by
  induction rs generalizing as with
  | nil => cases as <;> simp
  | cons r rs ih =>
    rw [collect_cons, Res.bind_eq_ok]
    constructor
    · rintro ⟨a, rfl, h⟩
      rw [Res.bind_eq_ok] at h
      obtain ⟨bs, h1, h2⟩ := h
      simp only [Res.ok.injEq] at h2
      subst h2
      rw [ih.mp h1]; rfl
    · intro h
      cases as with
      | nil => simp at h
      | cons a as =>
        simp only [List.map_cons, List.cons.injEq] at h
        exact ⟨a, h.1, by rw [ih.mpr h.2]; rfl⟩

end

/-! ### valuesOf -/

theorem valuesOf_append (a b : List Contrib) (i : Nat) :
    valuesOf (a ++ b) i = valuesOf a i ++ valuesOf b i := by
  simp [valuesOf]

@[simp] theorem valuesOf_nil (i : Nat) : valuesOf [] i = [] := rfl

theorem valuesOf_map_same (vs : List Val) (i : Nat) : valuesOf (vs.map fun v => (i, v)) i = vs := by
  induction vs with
  | nil => rfl
  | cons v vs ih => simpa [valuesOf] using ih

theorem valuesOf_none {cs : List Contrib} {i : Nat} (h : ∀ c ∈ cs, c.1 ≠ i) : valuesOf cs i = [] := by
  simp only [valuesOf, List.map_eq_nil_iff, List.filter_eq_nil_iff]
  intro c hc
  simpa using h c hc

/-! ### Slots -/

/-- The local variable of a field after the values `vs` have been stored into it. -/
def slotOf (f : FieldDef) (vs : List Val) : Slot :=
  match f.ty with
  | .vec _ => .many vs
  | _ => .one vs.getLast?

def slotsFrom (cs : List Contrib) : List FieldDef → Nat → List Slot
  | [], _ => []
  | f :: fs, i => slotOf f (valuesOf cs i) :: slotsFrom cs fs (i + 1)

theorem put_slotOf (f : FieldDef) (vs : List Val) (v : Val) :
    (slotOf f vs).put v = slotOf f (vs ++ [v]) := by
  unfold slotOf
  split <;> simp [Slot.put]

theorem slotsFrom_congr {cs cs' : List Contrib} (fs : List FieldDef) :
    ∀ i, (∀ j, i ≤ j → valuesOf cs j = valuesOf cs' j) → slotsFrom cs fs i = slotsFrom cs' fs i := by
  induction fs with
  | nil => intros; rfl
  | cons f fs ih =>
    intro i h
    simp only [slotsFrom]
    rw [h i (Nat.le_refl _), ih (i + 1) fun j hj => h j (by omega)]

theorem slotsFrom_init (fs : List FieldDef) (i : Nat) :
    fs.map (fun f => Slot.init f.ty) = slotsFrom [] fs i := by
  induction fs generalizing i with
  | nil => rfl
  | cons f fs ih =>
    simp only [List.map_cons, slotsFrom, ← ih]
    unfold Slot.init slotOf
    cases f.ty <;> rfl

theorem modify_slotsFrom (cs : List Contrib) (v : Val) (fs : List FieldDef) :
    ∀ (i j : Nat), (slotsFrom cs fs i).modify j (Slot.put v) = slotsFrom (cs ++ [(i + j, v)]) fs i := by
  induction fs with
  | nil => intro i j; cases j <;> rfl
  | cons f fs ih =>
    intro i j
    cases j with
    | zero =>
      simp only [slotsFrom, List.modify_zero_cons, Nat.add_zero, put_slotOf, valuesOf_append]
      congr 1
      · congr 1
        simp [valuesOf]
      · apply slotsFrom_congr
        intro j hj
        rw [valuesOf_append, valuesOf_none (cs := [(i, v)]) (by simp; omega), List.append_nil]
    | succ j =>
      simp only [slotsFrom, List.modify_succ_cons, ih, valuesOf_append]
      rw [valuesOf_none (cs := [(i + (j + 1), v)]) (by simp), List.append_nil]
      rw [show i + 1 + j = i + (j + 1) by omega]

/-! ### Text -/

def textContribFrom (fs : List FieldDef) (i : Nat) (s : Str) : List Contrib :=
  ((fs.zipIdx i).filter fun p => p.1.attrs.text).map fun p => (p.2, .str s)

theorem textContrib_eq (d : StructDef) (s : Str) : textContrib d s = textContribFrom d.fields 0 s := rfl

theorem textContribFrom_ge (fs : List FieldDef) (s : Str) :
    ∀ i, ∀ c ∈ textContribFrom fs i s, i ≤ c.1 := by
  intro i c hc
  simp only [textContribFrom, List.mem_map, List.mem_filter] at hc
  obtain ⟨p, ⟨hp, -⟩, rfl⟩ := hc
  exact List.le_snd_of_mem_zipIdx hp

theorem setText_slotsFrom (cs : List Contrib) (s : Str) (hs : s ≠ []) (fs : List FieldDef)
    (ht : ∀ f ∈ fs, f.attrs.text = true → f.ty = .simple .string ∨ f.ty = .opt (.simple .string)) :
    ∀ i, setText fs s (slotsFrom cs fs i) = slotsFrom (cs ++ textContribFrom fs i s) fs i := by
  induction fs with
  | nil => intro i; rfl
  | cons f fs ih =>
    intro i
    have ih := ih (fun g hg => ht g (List.mem_cons_of_mem _ hg)) (i + 1)
    simp only [slotsFrom, setText]
    by_cases htx : f.attrs.text = true
    · have he : textContribFrom (f :: fs) i s = (i, .str s) :: textContribFrom fs (i + 1) s := by
        simp [textContribFrom, List.zipIdx_cons, htx]
      rw [he, ih, if_pos htx]
      congr 1
      · have hv : valuesOf (cs ++ (i, Val.str s) :: textContribFrom fs (i + 1) s) i
            = valuesOf cs i ++ [.str s] := by
          rw [valuesOf_append, show (i, Val.str s) :: textContribFrom fs (i + 1) s
            = [(i, Val.str s)] ++ textContribFrom fs (i + 1) s from rfl, valuesOf_append,
            valuesOf_none (cs := textContribFrom fs (i + 1) s) (fun c hc => by
              have := textContribFrom_ge fs s (i + 1) c hc; omega)]
          simp [valuesOf]
        rw [hv]
        rcases ht f (List.mem_cons_self ..) htx with h | h
        · simp [slotOf, h]
        · cases s with
          | nil => exact absurd rfl hs
          | cons c s => simp [slotOf, h]
      · apply slotsFrom_congr
        intro j hj
        rw [valuesOf_append, valuesOf_append, show (i, Val.str s) :: textContribFrom fs (i + 1) s
            = [(i, Val.str s)] ++ textContribFrom fs (i + 1) s from rfl, valuesOf_append,
            valuesOf_none (cs := [(i, Val.str s)]) (by simp; omega), List.nil_append]
    · have he : textContribFrom (f :: fs) i s = textContribFrom fs (i + 1) s := by
        simp [textContribFrom, List.zipIdx_cons, htx]
      rw [he, ih, if_neg htx, valuesOf_append, valuesOf_none (cs := textContribFrom fs (i + 1) s)
        (fun c hc => by have := textContribFrom_ge fs s (i + 1) c hc; omega), List.append_nil]

/-! ### Building the value -/

theorem buildField_slotOf (name : Str) (f : FieldDef) (vs : List Val) :
    buildField name f (slotOf f vs) = fieldValue name f vs := by
  unfold buildField slotOf fieldValue
  cases h : f.ty with
  | vec t => rfl
  | opt t => cases h2 : vs.getLast? <;> simp
  | simple t => cases h2 : vs.getLast? <;> cases h3 : f.dflt <;> rfl
  | struct q => cases h2 : vs.getLast? <;> cases h3 : f.dflt <;> rfl

theorem buildFields_slotsFrom (name : Str) (cs : List Contrib) (fs : List FieldDef) :
    ∀ i, buildFields name fs (slotsFrom cs fs i) =
      Res.collect ((fs.zipIdx i).map fun p => fieldValue name p.1 (valuesOf cs p.2)) := by
  induction fs with
  | nil => intro i; rfl
  | cons f fs ih =>
    intro i
    simp only [slotsFrom, buildFields, List.zipIdx_cons, List.map_cons, collect_cons, ih,
      buildField_slotOf]

/-! ### Attributes -/

theorem foldRes_collect {α : Type} (f : FieldDef) (g : α → Res (List Val)) (as : List α) :
    ∀ vs, foldRes (fun slot a => (g a).bind fun ws => .ok (ws.foldl (fun s v => s.put v) slot))
        (slotOf f vs) as =
      (Res.collect (as.map g)).bind fun wss => .ok (slotOf f (vs ++ wss.flatten)) := by
  have hfold : ∀ (ws vs : List Val), ws.foldl (fun s v => Slot.put v s) (slotOf f vs) = slotOf f (vs ++ ws) := by
    intro ws
    induction ws with
    | nil => intro vs; simp
    | cons w ws ih => intro vs; rw [List.foldl_cons, put_slotOf, ih]; simp
  induction as with
  | nil => intro vs; simp [foldRes]
  | cons a as ih =>
    intro vs
    simp only [foldRes, List.map_cons, collect_cons, Res.bind_assoc, Res.bind_ok, hfold, ih]
    congr 1; funext ws; congr 1; funext wss; simp

theorem foldRes_congr {α β : Type} {f g : β → α → Res β} (as : List α) (h : ∀ b, ∀ a ∈ as, f b a = g b a) :
    ∀ b, foldRes f b as = foldRes g b as := by
  induction as with
  | nil => intro b; rfl
  | cons a as ih =>
    intro b
    simp only [foldRes]
    rw [h b a (List.mem_cons_self ..)]
    congr 1; funext b'
    exact ih (fun b a ha => h b a (List.mem_cons_of_mem _ ha)) b'

theorem collect_filter {α β : Type} (p : α → Bool) (g : α → Res (List β)) (as : List α) :
    (Res.collect ((as.filter p).map g)).bind (fun wss => Res.ok wss.flatten) =
      (Res.collect (as.map fun a => if p a then g a else .ok [])).bind fun wss => .ok wss.flatten := by
  induction as with
  | nil => rfl
  | cons a as ih =>
    by_cases h : p a = true
    · simp only [List.filter_cons, h, if_true, List.map_cons, collect_cons, Res.bind_assoc, Res.bind_ok,
        List.flatten_cons]
      congr 1; funext b
      have : ∀ r : Res (List (List β)), (r.bind fun a => Res.ok (b ++ a.flatten))
          = (r.bind fun wss => Res.ok wss.flatten).bind fun x => Res.ok (b ++ x) := by
        intro r; cases r <;> rfl
      rw [this, this, ih]
    · simp only [Bool.not_eq_true] at h
      simp only [List.filter_cons, h, Bool.false_eq_true, if_false, List.map_cons, collect_cons,
        Res.bind_ok, Res.bind_assoc, List.flatten_cons, List.nil_append]
      exact ih

/-- Attributes of derived types are read by `user`. -/
def AttrsAgree (L : Lib) (rec : Path → D Val) (user : Path → Str → Res Val) (f : FieldDef) (attrs : List Attr) : Prop :=
  ∀ q, f.ty.core = .struct q → ∀ a ∈ attrs, a.name.loc = f.label → ∀ s ∈ f.ty.attrTexts a.value,
    visitStructStr L rec q s = user q s

theorem foldRes_words {f : Str → Res Val} (ws : List Str) : ∀ slot : Slot,
    foldRes (fun slot w => (f w).bind fun v => Res.ok (slot.put v)) slot ws =
      (Res.collect (ws.map f)).bind fun vs => .ok (vs.foldl (fun s v => Slot.put v s) slot) := by
  induction ws with
  | nil => intro slot; rfl
  | cons w ws ih =>
    intro slot
    simp only [foldRes, List.map_cons, collect_cons]
    cases f w with
    | ok v =>
      simp only [Res.bind_ok, Res.bind_assoc]
      rw [ih]
      rfl
    | _ => rfl

theorem loadAttrField_slotOf (L : Lib) (rec : Path → D Val) (user : Path → Str → Res Val) (f : FieldDef)
    (hty : (∃ t, f.ty.core = .simple t) ∨ ∃ q, f.ty.core = .struct q) (attrs : List Attr)
    (hu : AttrsAgree L rec user f attrs) (vs : List Val) :
    loadAttrField L rec f attrs (slotOf f vs) =
      ((Res.collect ((attrs.filter fun a => a.name.loc = f.label).map fun a =>
        attrValues L user f.ty a.value)).bind fun wss => .ok wss.flatten).bind fun ws =>
          .ok (slotOf f (vs ++ ws)) := by
  rw [collect_filter (fun a : Attr => decide (a.name.loc = f.label)) (fun a : Attr => attrValues L user f.ty a.value)]
  rw [Res.bind_assoc]
  simp only [Res.bind_ok]
  rw [← foldRes_collect]
  unfold loadAttrField
  apply foldRes_congr
  intro slot a ha
  by_cases hl : a.name.loc = f.label
  · simp only [hl, if_true, decide_true]
    rcases hty with ⟨t, ht⟩ | ⟨q, hq⟩
    · have hsimple : ∀ s, visitAttr L rec (.simple t) s
          = match visitS L t s with | .ok v => Res.ok v | .error m => .err m := fun s => rfl
      cases hf : f.ty with
      | simple s =>
        have : s = t := by simpa [hf, FTy.core] using ht
        subst this
        simp only [FTy.core, hsimple, attrValues]
        cases visitS L s a.value <;> rfl
      | opt s =>
        have : s = .simple t := by simpa [hf, FTy.core] using ht
        subst this
        simp only [FTy.core, hsimple, attrValues]
        cases visitS L t a.value <;> rfl
      | vec s =>
        have : s = .simple t := by simpa [hf, FTy.core] using ht
        subst this
        simp only [attrValues]
        exact foldRes_words _ _
      | struct q => simp [hf, FTy.core] at ht
    · have hs := hu q hq a ha hl
      have hstr : ∀ s, visitAttr L rec (.struct q) s = visitStructStr L rec q s := fun s => rfl
      cases hf : f.ty with
      | simple s => simp [hf, FTy.core] at hq
      | opt s =>
        have : s = .struct q := by simpa [hf, FTy.core] using hq
        subst this
        rw [hf] at hs
        simp only [FTy.core, hstr, attrValues, hs a.value (by simp [FTy.attrTexts])]
        cases user q a.value <;> rfl
      | vec s =>
        have : s = .struct q := by simpa [hf, FTy.core] using hq
        subst this
        rw [hf] at hs
        simp only [attrValues]
        rw [← foldRes_words]
        apply foldRes_congr
        intro b w hw
        rw [hstr, hs w hw]
      | struct q' =>
        have : q' = q := by simpa [hf, FTy.core] using hq
        subst this
        rw [hf] at hs
        simp only [FTy.core, hstr, attrValues, hs a.value (by simp [FTy.attrTexts])]
        cases user q' a.value <;> rfl
  · simp [hl]

theorem attrContrib_idx {L : Lib} {user : Path → Str → Res Val} {i : Nat} {f : FieldDef} {attrs : List Attr} {cs : List Contrib}
    (h : attrContrib L user i f attrs = .ok cs) : ∀ c ∈ cs, c.1 = i := by
  unfold attrContrib at h
  split at h
  · rw [Res.bind_eq_ok] at h
    obtain ⟨vs, -, h⟩ := h
    simp only [Res.ok.injEq] at h
    subst h
    intro c hc
    simp only [List.mem_map] at hc
    obtain ⟨v, -, rfl⟩ := hc
    rfl
  · simp only [Res.ok.injEq] at h
    subst h
    simp

theorem attrContribs_ge {L : Lib} {user : Path → Str → Res Val} {attrs : List Attr} (fs : List FieldDef) :
    ∀ i css, Res.collect ((fs.zipIdx i).map fun p => attrContrib L user p.2 p.1 attrs) = .ok css →
      ∀ c ∈ css.flatten, i ≤ c.1 := by
  intro i css h c hc
  rw [collect_ok_iff] at h
  rw [List.mem_flatten] at hc
  obtain ⟨cs, hcs, hc⟩ := hc
  have : Res.ok cs ∈ css.map Res.ok := List.mem_map_of_mem hcs
  rw [← h] at this
  obtain ⟨p, hp, he⟩ := List.mem_map.mp this
  have := attrContrib_idx he c hc
  rw [this]
  exact List.le_snd_of_mem_zipIdx hp

theorem loadAttrs_slotsFrom (L : Lib) (rec : Path → D Val) (user : Path → Str → Res Val) (attrs : List Attr)
    (cs : List Contrib) (fs : List FieldDef)
    (hty : ∀ f ∈ fs, (∃ t, f.ty.core = .simple t) ∨ ∃ q, f.ty.core = .struct q)
    (hu : ∀ f ∈ fs, f.attrs.isAttr = true → AttrsAgree L rec user f attrs) :
    ∀ i, loadAttrs L rec fs attrs (slotsFrom cs fs i) =
      (Res.collect ((fs.zipIdx i).map fun p => attrContrib L user p.2 p.1 attrs)).bind fun css =>
        .ok (slotsFrom (cs ++ css.flatten) fs i) := by
  induction fs with
  | nil => intro i; rfl
  | cons f fs ih =>
    intro i
    have ih := ih (fun g hg => hty g (List.mem_cons_of_mem _ hg)) (fun g hg => hu g (List.mem_cons_of_mem _ hg)) (i + 1)
    simp only [slotsFrom, loadAttrs, ih, List.zipIdx_cons, List.map_cons, collect_cons]
    by_cases ha : f.attrs.isAttr = true
    · rw [if_pos ha, loadAttrField_slotOf L rec user f (hty f (List.mem_cons_self ..)) attrs (hu f (List.mem_cons_self ..) ha)]
      simp only [attrContrib, ha, if_true, Res.bind_assoc, Res.bind_ok]
      apply Res.bind_congr
      intro vss _
      apply Res.bind_congr
      intro css hcss
      have hge := attrContribs_ge fs (i + 1) css hcss
      congr 1
      simp only [List.flatten_cons]
      congr 1
      · rw [valuesOf_append, valuesOf_append, valuesOf_map_same,
          valuesOf_none (cs := css.flatten) (fun c hc => by have := hge c hc; omega), List.append_nil]
      · apply slotsFrom_congr
        intro j hj
        rw [valuesOf_append, valuesOf_append, valuesOf_append,
          valuesOf_none (cs := List.map (fun v => (i, v)) vss.flatten) (by simp; omega), List.nil_append]
    · rw [if_neg ha]
      simp only [attrContrib, ha, Res.bind_ok, Res.bind_assoc]
      apply Res.bind_congr
      intro css hcss
      have hge := attrContribs_ge fs (i + 1) css hcss
      simp only [Res.bind_ok, List.flatten_cons, List.nil_append, valuesOf_append]
      rw [valuesOf_none (cs := css.flatten) (fun c hc => by have := hge c hc; omega), List.append_nil]

/-! ### Arms -/

theorem findArm_eq (d : StructDef) (n : Name) :
    findArm d.attrs (n.ns.getD []) n.loc d.fields = d.fieldFor n := by
  unfold findArm StructDef.fieldFor
  congr 1
  funext f
  rw [Bool.eq_iff_iff]
  simp only [FieldDef.claims, FieldDef.isElem, FieldDef.prefixNs, FieldDef.label, Bool.and_eq_true,
    beq_iff_eq, decide_eq_true_eq]
  constructor
  · rintro ⟨⟨⟨h1, h2⟩, h3⟩, h4⟩; exact ⟨⟨h1, h2⟩, h3, h4⟩
  · rintro ⟨⟨h1, h2⟩, h3, h4⟩; exact ⟨⟨⟨h1, h2⟩, h3⟩, h4⟩

theorem fieldFor_some {d : StructDef} {n : Name} {i : Nat} (h : d.fieldFor n = some i) :
    ∃ f, d.fields[i]? = some f ∧ f ∈ d.fields ∧ f.claims d.attrs n := by
  unfold StructDef.fieldFor at h
  rw [List.findIdx?_eq_some_iff_getElem] at h
  obtain ⟨hlt, h1, -⟩ := h
  exact ⟨d.fields[i], List.getElem?_eq_getElem hlt, List.getElem_mem _, of_decide_eq_true h1⟩

/-- The namespace check of a scalar visitor is implied by the arm having matched. -/
theorem nsMatching_of_claims {root : Attrs} {f : FieldDef} {n : Name} (h : f.claims root n)
    (hn : n.ns ≠ some []) (m : Str) : nsMatching root.namespaces f.attrs.pfx n.ns m = .ok () := by
  unfold nsMatching
  cases hns : n.ns with
  | none => rfl
  | some u =>
    obtain ⟨-, h2, -⟩ := h
    rw [hns] at h2
    simp only [Option.getD_some] at h2
    have hu : u ≠ [] := by intro hc; exact hn (by rw [hns, hc])
    unfold NsMap.find at h2
    cases hf : List.find? (fun e => f.attrs.pfx == some e.1) root.namespaces with
    | none => rw [hf] at h2; exact absurd h2.symm hu
    | some e =>
      rw [hf] at h2
      simp only [Option.map_some, Option.getD_some] at h2
      have h3 := List.find?_some hf
      have h4 := List.mem_of_find?_eq_some hf
      have : root.namespaces.any (fun e => f.attrs.pfx == some e.1 && e.2 == u) = true := by
        rw [List.any_eq_true]
        exact ⟨e, h4, by simp [h2]; simpa using h3⟩
      simp [this]

end Yaserde
