import Verif.Proofs.Open
/-
Elements of recursive types that are read right (for C94).
-/

set_option autoImplicit false

namespace Yaserde

/-- The same successes. -/
def SameOk {α : Type} (a b : Res α) : Prop := ∀ v, a = .ok v ↔ b = .ok v

theorem SameOk.of_eq {α : Type} {a b : Res α} (h : a = b) : SameOk a b := by subst h; exact fun _ => Iff.rfl

theorem SameOk.trans {α : Type} {a b c : Res α} (h : SameOk a b) (h' : SameOk b c) : SameOk a c :=
  fun v => (h v).trans (h' v)

theorem SameOk.bind {α β : Type} {a b : Res α} {f g : α → Res β} (h : SameOk a b)
    (hf : ∀ x, a = .ok x → SameOk (f x) (g x)) : SameOk (a.bind f) (b.bind g) := by
  intro v
  rw [Res.bind_eq_ok, Res.bind_eq_ok]
  constructor
  · rintro ⟨x, h1, h2⟩; exact ⟨x, (h x).mp h1, (hf x h1 v).mp h2⟩
  · rintro ⟨x, h1, h2⟩; exact ⟨x, (h x).mpr h1, (hf x ((h x).mpr h1) v).mpr h2⟩

theorem SameOk.comm {α β γ : Type} (a : Res α) (b : Res β) (f : α → β → Res γ) :
    SameOk (a.bind fun x => b.bind fun y => f x y) (b.bind fun y => a.bind fun x => f x y) := by
  intro v
  simp only [Res.bind_eq_ok]
  constructor
  · rintro ⟨x, h1, y, h2, h3⟩; exact ⟨y, h2, x, h1, h3⟩
  · rintro ⟨y, h2, x, h1, h3⟩; exact ⟨x, h1, y, h2, h3⟩

theorem collect_mem {α : Type} {rs : List (Res α)} {vs : List α} (h : Res.collect rs = .ok vs) :
    ∀ v ∈ vs, .ok v ∈ rs := by
  induction rs generalizing vs with
  | nil => simp only [Res.collect, Res.ok.injEq] at h; subst h; simp
  | cons r rs ih =>
    simp only [Res.collect, Res.bind_eq_ok] at h
    obtain ⟨x, h1, xs, h2, h3⟩ := h
    cases h3
    intro v hv
    rcases List.mem_cons.mp hv with rfl | hv
    · rw [h1]; exact List.mem_cons_self ..
    · exact List.mem_cons_of_mem _ (ih h2 v hv)

/-- Attributes contribute to attribute fields only. -/
theorem attrContribs_attr {L : Lib} {user : Path → Str → Res Val} {d : StructDef} {as : List Attr} {ca : List Contrib}
    (h : attrContribs L user d as = .ok ca) {i : Nat} {f : FieldDef} (hfi : d.fields[i]? = some f)
    (hna : f.attrs.isAttr = false) : valuesOf ca i = [] := by
  refine valuesOf_none ?_
  rintro ⟨j, v⟩ hc rfl
  unfold attrContribs at h
  rw [Res.bind_eq_ok] at h
  obtain ⟨css, h1, h2⟩ := h
  cases h2
  obtain ⟨cs, hcs, hc⟩ := List.mem_flatten.mp hc
  obtain ⟨⟨g, l⟩, hp, he⟩ := List.mem_map.mp (collect_mem h1 cs hcs)
  have hg := List.mem_zipIdx_iff_getElem?.mp hp
  dsimp only at he hg
  unfold attrContrib at he
  split at he
  · rename_i hatt
    rw [Res.bind_eq_ok] at he
    obtain ⟨vs, -, h4⟩ := he
    cases h4
    obtain ⟨w, -, hw⟩ := List.mem_map.mp hc
    cases hw
    dsimp only at hfi
    rw [hfi] at hg
    cases hg
    rw [hna] at hatt
    cases hatt
  · cases he; cases hc

theorem assemble_congr {d : StructDef} {a b : List Contrib} (h : ∀ i, valuesOf a i = valuesOf b i) :
    assemble d a = assemble d b := by
  unfold assemble
  simp only [h]

section
variable (L : Lib) (env : Env) (flat : Node → Path → Res Val) (fc : Node → Path → Prop)

/-- What is to be shown of a child, and of children. -/
def TreeKidOk (d : StructDef) (x : Node) : Prop :=
  openFitsKid L env fc d x ∧ (∀ c : Int, 1 ≤ c → ∃ c', c ≤ c' ∧ floatKid L env d x c = some c') ∧
    SameOk (openKid L env flat d x) (kidContrib L d (decodeWith L env flat x) x)

def TreeKidsOk (d : StructDef) (ks : List Node) : Prop :=
  openFits L env fc d ks ∧ (∀ c : Int, 1 ≤ c → ∃ c', c ≤ c' ∧ floatKids L env d ks c = some c') ∧
    SameOk (openKids L env flat d ks) (kidsBy L (decodeWith L env flat) d ks)

theorem TreeKidsOk.cons {d : StructDef} {k : Node} {ks : List Node} (h1 : TreeKidOk L env flat fc d k)
    (h2 : TreeKidsOk L env flat fc d ks) : TreeKidsOk L env flat fc d (k :: ks) := by
  obtain ⟨a1, a2, a3⟩ := h1
  obtain ⟨b1, b2, b3⟩ := h2
  refine ⟨by rw [openFits]; exact ⟨a1, b1⟩, ?_, ?_⟩
  · intro c hc
    obtain ⟨c1, h5, h6⟩ := a2 c hc
    obtain ⟨c2, h7, h8⟩ := b2 c1 (by omega)
    exact ⟨c2, by omega, by rw [floatKids, h6]; exact h8⟩
  · rw [openKids, kidsBy_cons]
    exact a3.bind fun a _ => b3.bind fun b _ => .of_eq rfl

theorem treeStruct {d : StructDef} (hff : d.hasFlat = false) {n : Name} {as : List Attr} {m : NsMap} {ks : List Node}
    (hplain : d.Plain) (hattr : AttrsFit fc d as) (hsound : soundFirst env d n ks)
    (hk : ks = [] ∨ ∃ k more, ks = k :: more ∧ TreeKidOk L env flat fc d k ∧ TreeKidsOk L env flat fc d more) :
    openFitsStruct L env fc d n as ks ∧ floatStruct L env d n ks = true ∧
      SameOk (openStruct L env flat d n as ks) (decodeStruct L flat d n as m ks (decodeL L env flat ks)) := by
  have hall : TreeKidsOk L env flat fc d ks := by
    rcases hk with rfl | ⟨k, more, rfl, h1, h2⟩
    · exact ⟨trivial, fun c _ => ⟨c, Int.le_refl c, by rw [floatKids]⟩, .of_eq rfl⟩
    · exact TreeKidsOk.cons L env flat fc h1 h2
  have hdec : decodeStruct L flat d n as m ks (decodeL L env flat ks) =
      (attrContribs L (userAttr flat) d as).bind fun ca =>
        (kidsBy L (decodeWith L env flat) d ks).bind fun ck => assemble d (ca ++ ck) := by
    unfold decodeStruct
    rw [flatContribs_noFlat hff, decodeL_eq]
    simp only [Res.bind_ok, List.append_nil]
    rfl
  rw [hdec]
  have hname : d.isOwn n = true ∨ d.fieldFor n = none ∨ (d.takes n).isSome = true := by
    rcases hsound with h | h | ⟨i, q, h, -⟩
    · exact .inl h
    · exact .inr (.inl h)
    · exact .inr (.inr (by rw [h]; rfl))
  have hordinary : openList L env flat d n as ks = ((attrContribs L (userAttr flat) d as).bind fun ca =>
      (openKids L env flat d ks).bind fun ck => .ok (ca ++ ck)) →
      SameOk (openStruct L env flat d n as ks) ((attrContribs L (userAttr flat) d as).bind fun ca =>
        (kidsBy L (decodeWith L env flat) d ks).bind fun ck => assemble d (ca ++ ck)) := by
    intro h
    rw [openStruct_eq, h]
    simp only [Res.bind_assoc, Res.bind_ok]
    exact SameOk.bind (.of_eq rfl) fun ca _ => hall.2.2.bind fun ck _ => .of_eq rfl
  rcases hk with rfl | ⟨k, more, rfl, h1, h2⟩
  · refine ⟨by rw [openFitsStruct]; exact ⟨hplain, hattr, hname⟩, by rw [floatStruct], hordinary rfl⟩
  · cases k with
    | text s =>
      refine ⟨?_, ?_, hordinary rfl⟩
      · rw [openFitsStruct]
        have := h1.1
        rw [openFitsKid] at this
        exact ⟨hplain, hattr, h2.1, this, hname⟩
      · rw [floatStruct]
        obtain ⟨c', -, h⟩ := h2.2.1 1 (Int.le_refl 1)
        rw [h]; rfl
    | elem n1 as1 m1 ks1 =>
      cases ht : d.takes n with
      | none =>
        refine ⟨?_, ?_, hordinary (by unfold openList; rw [ht])⟩
        · rw [openFitsStruct, ht]
          refine ⟨⟨hplain, hattr, h2.1⟩, ?_, h1.1⟩
          rcases hname with h | h | h
          · exact .inl h
          · exact .inr h
          · rw [ht] at h; cases h
        · rw [floatStruct, ht]
          obtain ⟨c', -, h⟩ := hall.2.1 1 (Int.le_refl 1)
          rw [floatKids] at h
          dsimp only
          rw [h]; rfl
      | some iq =>
        obtain ⟨i, q⟩ := iq
        obtain ⟨hno, hf, f, hfi, hty⟩ := takes_some ht
        have hfirst : d.fieldFor n1 = some i ∧ standsIn env (.elem n1 as1 m1 ks1) q = false := by
          rcases hsound with h | h | ⟨i', q', h, h'⟩
          · rw [hno] at h; cases h
          · rw [hf] at h; cases h
          · rw [ht] at h; cases h; exact h' _ _ _ _ _ rfl
        obtain ⟨hf1, hst⟩ := hfirst
        have hcl : d.claim n1 = some (i, .struct q) := by rw [claim_of hf1 hfi, hty]
        obtain ⟨a1, a2, a3⟩ := h1
        rw [openFitsKid, hcl] at a1
        obtain ⟨c1, -, hc1⟩ := a2 1 (Int.le_refl 1)
        rw [floatKid, if_neg (by omega), hcl] at hc1
        obtain ⟨c2, -, hc2⟩ := h2.2.1 1 (Int.le_refl 1)
        refine ⟨?_, ?_, ?_⟩
        · rw [openFitsStruct, ht]
          exact ⟨⟨hplain, hattr, h2.1⟩, a1.2⟩
        · rw [floatStruct, ht]
          dsimp only at hc1 ⊢
          cases hu : env.unflat q with
          | none => dsimp only; rw [hst, if_neg (by simp), hc2]; rfl
          | some d1 =>
            rw [hu] at hc1
            dsimp only at hc1 ⊢
            rw [hc2]
            split at hc1
            · rename_i h; rw [h]; rfl
            · cases hc1
        · rw [openStruct_eq]
          unfold openList
          rw [ht]
          simp only [Res.bind_assoc, Res.bind_ok, kidsBy_cons]
          refine (SameOk.comm _ _ _).trans ?_
          refine SameOk.bind (.of_eq rfl) fun ca hca => ?_
          have ho : openKid L env flat d (.elem n1 as1 m1 ks1) =
              (openNode L env flat (.elem n1 as1 m1 ks1) q).bind fun v => .ok [(i, v)] := by
            rw [openKid, hcl]; rfl
          rw [ho] at a3
          have hna : f.attrs.isAttr = false := by
            obtain ⟨f', hfi', -, hclm⟩ := fieldFor_some hf1
            rw [hfi] at hfi'
            cases hfi'
            have := hclm.1
            simp [FieldDef.isElem] at this
            exact this.1
          have hv := attrContribs_attr hca hfi hna
          refine SameOk.trans (b := ((openNode L env flat (.elem n1 as1 m1 ks1) q).bind fun v => .ok [(i, v)]).bind fun a =>
            (openKids L env flat d more).bind fun ck => assemble d (ca ++ (a ++ ck))) ?_ ?_
          · rw [Res.bind_assoc]
            refine SameOk.bind (.of_eq rfl) fun v _ => ?_
            rw [Res.bind_ok]
            refine SameOk.bind (.of_eq rfl) fun ck _ => .of_eq (assemble_congr fun j => ?_)
            simp only [valuesOf_append]
            by_cases hj : j = i
            · subst hj; rw [hv]; simp
            · rw [show valuesOf [(i, v)] j = [] from valuesOf_none (by simpa using fun h => hj h.symm)]; simp
          · exact a3.bind fun a _ => h2.2.2.bind fun b _ => .of_eq rfl

mutual
  theorem treeKid_ok (d : StructDef) (x : Node) (h : treeKid L env fc d x) : TreeKidOk L env flat fc d x := by
    match x, h with
    | .text s, h =>
      rw [treeKid] at h
      exact ⟨by rw [openFitsKid]; exact h, fun c _ => ⟨c, Int.le_refl c, by rw [floatKid]⟩, .of_eq (by rw [openKid]; rfl)⟩
    | .elem n as m ks, h =>
      rw [treeKid] at h
      obtain ⟨hns, h⟩ := h
      have hpos : ∀ c : Int, 1 ≤ c → ¬ c ≤ 0 := fun c hc => by omega
      cases hf : d.fieldFor n with
      | none =>
        have hcl := claim_none hf
        refine ⟨by rw [openFitsKid, hcl]; exact ⟨hns, trivial⟩, fun c hc => ⟨c + 1, by omega, ?_⟩, .of_eq ?_⟩
        · rw [floatKid, if_neg (hpos c hc), hcl]
        · rw [openKid, hcl]; simp only [kidContrib, hf]
      | some i =>
        obtain ⟨f, hfi, -, -⟩ := fieldFor_some hf
        have hcl := claim_of hf hfi
        cases hty : f.ty.core with
        | simple t =>
          rw [hty] at hcl
          rw [hcl] at h
          match ks, h with
          | [], _ =>
            refine ⟨by rw [openFitsKid, hcl]; exact ⟨hns, by simp [openFitsScalar]⟩, fun c hc => ⟨c, by omega, ?_⟩, .of_eq ?_⟩
            · rw [floatKid, if_neg (hpos c hc), hcl]; simp [floatScalar]
            · rw [openKid, hcl]; simp only [openScalar, kidContrib, hf, hfi, hty]; rfl
          | [.text s], _ =>
            refine ⟨by rw [openFitsKid, hcl]; exact ⟨hns, by simp [openFitsScalar, openFitsAfter, openFits]⟩, fun c hc => ?_, .of_eq ?_⟩
            · rw [floatKid, if_neg (hpos c hc), hcl]
              dsimp only
              rw [floatScalar]
              split
              · exact ⟨c + 1, by omega, by simp⟩
              · exact ⟨c, by omega, by simp [floatKids]⟩
            · rw [openKid, hcl]
              simp only [openScalar, kidContrib, hf, hfi, hty]
              cases scalarContent L t [.text s] with
              | none => simp [openKids]
              | some v => simp
        | struct q =>
          rw [hty] at hcl
          rw [hcl] at h
          dsimp only at h
          cases hu : env.unflat q with
          | none =>
            rw [hu] at h
            refine ⟨by rw [openFitsKid, hcl]; refine ⟨hns, ?_⟩; dsimp only; rw [hu]; exact h, fun c hc => ?_, .of_eq ?_⟩
            · rw [floatKid, if_neg (hpos c hc), hcl]
              dsimp only
              rw [hu]
              refine ⟨_, ?_, rfl⟩
              split <;> omega
            · rw [openKid, hcl]
              dsimp only
              rw [hu]
              simp only [kidContrib, hf, hfi, hty]
          | some d' =>
            rw [hu] at h
            obtain ⟨h1, h2, h3, h4⟩ := h
            obtain ⟨he, hff⟩ := unflat_struct hu
            have hs := treeStruct L env flat fc hff (m := m) h1 h2 h3 (by
              match ks, h4 with
              | [], _ => exact .inl rfl
              | k1 :: more, h4 =>
                rw [treeKids] at h4
                exact .inr ⟨k1, more, rfl, treeKid_ok d' k1 h4.1, treeKids_ok d' more h4.2⟩)
            obtain ⟨i1, i2, i3⟩ := hs
            refine ⟨by rw [openFitsKid, hcl]; refine ⟨hns, ?_⟩; dsimp only; rw [hu]; exact i1,
              fun c hc => ⟨c + 1, by omega, ?_⟩, ?_⟩
            · rw [floatKid, if_neg (hpos c hc), hcl]
              dsimp only
              rw [hu]
              dsimp only
              rw [if_pos i2]
            · rw [openKid, hcl]
              dsimp only
              rw [hu]
              simp only [kidContrib, hf, hfi, hty]
              refine SameOk.bind ?_ fun v _ => .of_eq rfl
              rw [decodeWith, he]
              exact i3
        | opt t =>
          rw [hty] at hcl
          refine ⟨by rw [openFitsKid, hcl]; exact ⟨hns, trivial⟩, fun c hc => ⟨c + 1, by omega, ?_⟩, .of_eq ?_⟩
          · rw [floatKid, if_neg (hpos c hc), hcl]
          · rw [openKid, hcl]; simp only [kidContrib, hf, hfi, hty]
        | vec t =>
          rw [hty] at hcl
          refine ⟨by rw [openFitsKid, hcl]; exact ⟨hns, trivial⟩, fun c hc => ⟨c + 1, by omega, ?_⟩, .of_eq ?_⟩
          · rw [floatKid, if_neg (hpos c hc), hcl]
          · rw [openKid, hcl]; simp only [kidContrib, hf, hfi, hty]
  theorem treeKids_ok (d : StructDef) (ks : List Node) (h : treeKids L env fc d ks) : TreeKidsOk L env flat fc d ks := by
    match ks, h with
    | [], _ => exact ⟨trivial, fun c _ => ⟨c, Int.le_refl c, by rw [floatKids]⟩, .of_eq rfl⟩
    | k :: ks, h =>
      rw [treeKids] at h
      exact TreeKidsOk.cons L env flat fc (treeKid_ok d k h.1) (treeKids_ok d ks h.2)
end

theorem treeNode_ok (x : Node) (p : Path) (h : treeNode L env fc x p) :
    openFitsNode L env fc x p ∧ floatNode L env x p = true ∧
      SameOk (openNode L env flat x p) (decodeWith L env flat x p) := by
  cases x with
  | text s => exact h.elim
  | elem n as m ks =>
    unfold treeNode at h
    unfold openFitsNode floatNode openNode
    dsimp only at h ⊢
    cases hu : env.unflat p with
    | none => rw [hu] at h; exact ⟨h, rfl, .of_eq rfl⟩
    | some d =>
      rw [hu] at h
      obtain ⟨h1, h2, h3, h4⟩ := h
      obtain ⟨he, hff⟩ := unflat_struct hu
      have hs := treeStruct L env flat fc hff (m := m) h1 h2 h3 (by
        cases ks with
        | nil => exact .inl rfl
        | cons k1 more =>
          rw [treeKids] at h4
          exact .inr ⟨k1, more, rfl, treeKid_ok L env flat fc d k1 h4.1, treeKids_ok L env flat fc d more h4.2⟩)
      dsimp only
      rw [decodeWith, he]
      exact hs

end

end Yaserde
