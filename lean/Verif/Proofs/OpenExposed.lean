import Verif.Proofs.Open
/-
Elements that conform once the elements inside scalars have been moved out, as a special case (for C94).
-/

set_option autoImplicit false

namespace Yaserde

theorem takes_none {d : StructDef} {n : Name} (h : d.isOwn n = true ∨ d.fieldFor n = none) : d.takes n = none := by
  unfold StructDef.takes
  rcases h with h | h
  · rw [if_pos h]
  · rw [claim_none h]; simp

theorem claimedTy_eq (d : StructDef) (n : Name) : d.claimedTy n = (d.claim n).map Prod.snd := by
  cases hf : d.fieldFor n with
  | none => rw [claimedTy_none hf, claim_none hf]; rfl
  | some i =>
    obtain ⟨f, hfi, -, -⟩ := fieldFor_some hf
    rw [claimedTy_of hf hfi, claim_of hf hfi]; rfl

section
variable (L : Lib) (env : Env) (flat : Node → Path → Res Val) (fc : Node → Path → Prop)

theorem kidsBy_one (d : StructDef) (x : Node) :
    kidsBy L (decodeWith L env flat) d [x] = kidContrib L d (decodeWith L env flat x) x := by
  rw [kidsBy_cons]
  show ((kidContrib L d (decodeWith L env flat x) x).bind fun a => (Res.ok ([] : List Contrib)).bind _) = _
  simp only [Res.bind_ok, List.append_nil]
  exact Res.bind_ok_right _

/-- What is to be shown of a child, and of children. -/
def SameKids (d : StructDef) (F : Prop) (fl afl : Int → Option Int) (o : Res (List Contrib)) (out : List Node) : Prop :=
  ConfKids L env fc d out → F ∧ (∀ c c', afl c = some c' → fl c = some c') ∧
    o = kidsBy L (decodeWith L env flat) d out

theorem sameStruct {d : StructDef} (hff : d.hasFlat = false) {n : Name} {as : List Attr} {m : NsMap} {ks out : List Node}
    (hplain : d.Plain) (hname : d.isOwn n = true ∨ d.fieldFor n = none) (hattr : AttrsFit fc d as)
    (hfits : openFits L env fc d ks) (hfl : ∀ c c', afloatKids L env d ks c = some c' → floatKids L env d ks c = some c')
    (ho : openKids L env flat d ks = kidsBy L (decodeWith L env flat) d out) :
    openFitsStruct L env fc d n as ks ∧ ((afloatKids L env d ks 1).isSome = true → floatStruct L env d n ks = true) ∧
      openStruct L env flat d n as ks = decodeStruct L flat d n as m out (decodeL L env flat out) := by
  have ht := takes_none hname
  have hname' : d.isOwn n = true ∨ d.fieldFor n = none ∨ (d.takes n).isSome = true := by
    rcases hname with h | h
    · exact .inl h
    · exact .inr (.inl h)
  refine ⟨?_, ?_, ?_⟩
  · cases ks with
    | nil => rw [openFitsStruct]; exact ⟨hplain, hattr, hname'⟩
    | cons k more =>
      rw [openFits] at hfits
      cases k with
      | text s =>
        rw [openFitsStruct]
        rw [openFitsKid] at hfits
        exact ⟨hplain, hattr, hfits.2, hfits.1, hname'⟩
      | elem n1 as1 m1 ks1 =>
        rw [openFitsStruct, ht]
        exact ⟨⟨hplain, hattr, hfits.2⟩, hname, hfits.1⟩
  · intro h
    obtain ⟨c', hc⟩ := Option.isSome_iff_exists.mp h
    have := hfl 1 c' hc
    cases ks with
    | nil => rw [floatStruct]
    | cons k more =>
      rw [floatKids] at this
      cases k with
      | text s => rw [floatStruct]; rw [floatKid] at this; simp only [Option.bind_some] at this; rw [this]; rfl
      | elem n1 as1 m1 ks1 => rw [floatStruct, ht]; dsimp only; rw [this]; rfl
  · have hl : openList L env flat d n as ks = (attrContribs L (userAttr flat) d as).bind fun ca =>
        (openKids L env flat d ks).bind fun ck => .ok (ca ++ ck) := by
      unfold openList
      rw [ht]
      cases ks with
      | nil => rfl
      | cons k more => cases k <;> rfl
    rw [openStruct_eq, hl, ho]
    unfold decodeStruct
    rw [flatContribs_noFlat hff, decodeL_eq]
    simp only [Res.bind_assoc, Res.bind_ok, List.append_nil]
    rfl

theorem same_node {n : Name} {as : List Attr} {m : NsMap} {ks : List Node} {q : Path}
    (hkids : ∀ d, SameKids L env flat fc d (openFits L env fc d ks) (floatKids L env d ks) (afloatKids L env d ks)
      (openKids L env flat d ks) (exposedKids L env d ks))
    (hc : ConfWith L env fc ((Node.elem n as m ks).exposed L env q) q) :
    openFitsNode L env fc (.elem n as m ks) q ∧
      ((Node.elem n as m ks).afloat L env q → floatNode L env (.elem n as m ks) q = true) ∧
      openNode L env flat (.elem n as m ks) q = decodeWith L env flat ((Node.elem n as m ks).exposed L env q) q := by
  unfold openFitsNode floatNode openNode Node.exposed Node.afloat at *
  dsimp only at hc ⊢
  cases hu : env.unflat q with
  | none =>
    rw [hu] at hc
    exact ⟨hc, fun _ => rfl, rfl⟩
  | some d =>
    rw [hu] at hc
    obtain ⟨he, hff⟩ := unflat_struct hu
    dsimp only at hc ⊢
    rw [ConfWith, he] at hc
    obtain ⟨h1, h2, h3, -, h5⟩ := hc
    obtain ⟨g1, g2, g3⟩ := hkids d h3
    obtain ⟨i1, i2, i3⟩ := sameStruct L env flat fc hff (m := m) (out := exposedKids L env d ks) h1
      (h2.imp_left fun h => decide_eq_true h) h5 g1 g2 g3
    refine ⟨i1, fun h => i2 (h d rfl), ?_⟩
    rw [decodeWith, he]
    exact i3

mutual
  theorem openKids_exposed (d : StructDef) (ks : List Node) : SameKids L env flat fc d (openFits L env fc d ks)
      (floatKids L env d ks) (afloatKids L env d ks) (openKids L env flat d ks) (exposedKids L env d ks) := by
    intro hc
    match ks, hc with
    | [], _ =>
      refine ⟨trivial, fun c c' h => ?_, rfl⟩
      rw [afloatKids] at h; rw [floatKids]; exact h
    | k :: ks, hc =>
      rw [exposedKids, confKids_append] at hc
      obtain ⟨a1, a2, a3⟩ := openKid_exposed d k hc.1
      obtain ⟨b1, b2, b3⟩ := openKids_exposed d ks hc.2
      refine ⟨by rw [openFits]; exact ⟨a1, b1⟩, fun c c' h => ?_, by rw [openKids, exposedKids, kidsBy_append, a3, b3]⟩
      rw [afloatKids, Option.bind_eq_some_iff] at h
      obtain ⟨c1, h1, h2⟩ := h
      rw [floatKids, a2 c c1 h1]
      exact b2 c1 c' h2
  theorem openKid_exposed (d : StructDef) (x : Node) : SameKids L env flat fc d (openFitsKid L env fc d x)
      (floatKid L env d x) (afloatKid L env d x) (openKid L env flat d x) (exposedKid L env d x) := by
    intro hc
    match x, hc with
    | .text s, hc =>
      rw [exposedKid, ConfKids, ConfKid] at hc
      refine ⟨by rw [openFitsKid]; exact hc.1, fun c c' h => ?_, by rw [exposedKid, kidsBy_one, openKid]; rfl⟩
      rw [afloatKid] at h; rw [floatKid]; exact h
    | .elem n as m ks, hc =>
      cases hf : d.fieldFor n with
      | none =>
        have hcl := claim_none hf
        have hct := claimedTy_none hf
        rw [exposedKid, hct, ConfKids, ConfKid] at hc
        refine ⟨by rw [openFitsKid, hcl]; exact ⟨hc.1.1, trivial⟩, fun c c' h => ?_, ?_⟩
        · rw [afloatKid, hct] at h; rw [floatKid, hcl]; exact h
        · rw [exposedKid, hct]; dsimp only; rw [kidsBy_one, openKid, hcl]; simp only [kidContrib, hf]
      | some i =>
        obtain ⟨f, hfi, -, -⟩ := fieldFor_some hf
        have hcl := claim_of hf hfi
        have hct := claimedTy_of hf hfi
        cases hty : f.ty.core with
        | simple t =>
          rw [hty] at hcl hct
          rw [exposedKid, hct] at hc ⊢
          dsimp only at hc ⊢
          by_cases hns : n.ns = some []
          · rw [if_pos hns, ConfKids, ConfKid] at hc
            exact (hc.1.1 hns).elim
          · rw [if_neg hns] at hc ⊢
            obtain ⟨g1, g2, g3⟩ := openScalar_exposed d i f t [.elem n as m ks] ks hfi hty ⟨n, as, m, hf, rfl⟩ hc
            refine ⟨by rw [openFitsKid, hcl]; exact ⟨hns, g1⟩, fun c c' h => ?_, by rw [openKid, hcl]; exact g3⟩
            rw [afloatKid, hct] at h
            rw [floatKid, hcl]
            split at h
            · cases h
            · rename_i hpos
              rw [if_neg hpos]
              dsimp only at h ⊢
              rw [Option.map_eq_some_iff] at h ⊢
              obtain ⟨c1, h1, h2⟩ := h
              exact ⟨c1, g2 _ _ h1, h2⟩
        | struct q =>
          rw [hty] at hcl hct
          have hex : exposedKid L env d (.elem n as m ks) = [(Node.elem n as m ks).exposed L env q] := by
            rw [exposedKid, hct]
            unfold Node.exposed
            dsimp only
            split <;> rfl
          obtain ⟨kids', hxe⟩ : ∃ kids', (Node.elem n as m ks).exposed L env q = .elem n as m kids' := by
            unfold Node.exposed
            dsimp only
            split
            · exact ⟨_, rfl⟩
            · exact ⟨_, rfl⟩
          rw [hex, hxe, ConfKids, ConfKid] at hc
          obtain ⟨⟨hns, hc⟩, -⟩ := hc
          obtain ⟨hcw, -⟩ := (hc i f hf hfi).2 q hty
          rw [← hxe] at hcw
          obtain ⟨g1, g2, g3⟩ := same_node L env flat fc (fun d' => openKids_exposed d' ks) hcw
          refine ⟨by rw [openFitsKid, hcl]; exact ⟨hns, g1⟩, fun c c' h => ?_, ?_⟩
          · rw [afloatKid, hct] at h
            rw [floatKid, hcl]
            split at h
            · cases h
            · rename_i hpos
              rw [if_neg hpos]
              dsimp only at h ⊢
              unfold Node.afloat floatNode at g2
              dsimp only at g2
              cases hu : env.unflat q with
              | none => rw [hu] at h; exact h
              | some d' =>
                rw [hu] at h g2
                dsimp only at h g2 ⊢
                rw [Option.bind_eq_some_iff] at h
                obtain ⟨c1, h1, h2⟩ := h
                rw [if_pos (g2 (by intro d2 hd; cases hd; simp [Node.content, h1]))]
                exact h2
          · rw [hex, kidsBy_one, hxe]
            simp only [kidContrib, hf, hfi, hty]
            rw [← hxe, ← g3, openKid, hcl]
            rfl
        | opt t =>
          rw [hty] at hcl hct
          rw [exposedKid, hct, ConfKids, ConfKid] at hc
          refine ⟨by rw [openFitsKid, hcl]; exact ⟨hc.1.1, trivial⟩, fun c c' h => ?_, ?_⟩
          · rw [afloatKid, hct] at h; rw [floatKid, hcl]; exact h
          · rw [exposedKid, hct]; dsimp only; rw [kidsBy_one, openKid, hcl]; simp only [kidContrib, hf, hfi, hty]
        | vec t =>
          rw [hty] at hcl hct
          rw [exposedKid, hct, ConfKids, ConfKid] at hc
          refine ⟨by rw [openFitsKid, hcl]; exact ⟨hc.1.1, trivial⟩, fun c c' h => ?_, ?_⟩
          · rw [afloatKid, hct] at h; rw [floatKid, hcl]; exact h
          · rw [exposedKid, hct]; dsimp only; rw [kidsBy_one, openKid, hcl]; simp only [kidContrib, hf, hfi, hty]
  theorem openScalar_exposed (d : StructDef) (i : Nat) (f : FieldDef) (t : STy) (whole : List Node) (ks : List Node)
      (hfi : d.fields[i]? = some f)
      (hty : f.ty.core = .simple t)
      (hw : ∃ n as m, d.fieldFor n = some i ∧ whole = [.elem n as m ks]) :
      SameKids L env flat fc d (openFitsScalar L env fc d t ks) (floatScalar L env d t ks) (afloatScalar L env d t ks)
        (openScalar L env flat d i t ks) (exposedScalar L env d t whole ks) := by
    intro hc
    have hwhole : kidsBy L (decodeWith L env flat) d whole =
        .ok ((scalarContent L t ks).toList.map fun v => (i, v)) := by
      obtain ⟨n, as, m, hfn, rfl⟩ := hw
      rw [kidsBy_one]
      simp only [kidContrib, hfn, hfi, hty]
    match ks, hc, hwhole with
    | [], hc, hwhole =>
      refine ⟨by rw [openFitsScalar]; trivial, fun c c' h => ?_, ?_⟩
      · rw [afloatScalar] at h; rw [floatScalar]; exact h
      · rw [exposedScalar, hwhole, openScalar]; rfl
    | .elem n as m ks :: more, hc, _ =>
      rw [exposedScalar, confKids_append] at hc
      obtain ⟨a1, a2, a3⟩ := openKid_exposed d (.elem n as m ks) hc.1
      obtain ⟨b1, b2, b3⟩ := openKids_exposed d more hc.2
      refine ⟨by rw [openFitsScalar]; exact ⟨a1, b1⟩, fun c c' h => ?_,
        by rw [openScalar, exposedScalar, kidsBy_append, a3, b3]⟩
      rw [afloatScalar, Option.bind_eq_some_iff] at h
      obtain ⟨c1, h1, h2⟩ := h
      rw [floatScalar, a2 c c1 h1]
      exact b2 c1 c' h2
    | .text s :: more, hc, hwhole =>
      rw [exposedScalar] at hc ⊢
      cases hv : scalarContent L t [.text s] with
      | none =>
        rw [hv] at hc
        cases more with
        | nil =>
          refine ⟨by rw [openFitsScalar, hv]; simp [openFits], fun c c' h => ?_, ?_⟩
          · rw [afloatScalar, hv] at h; rw [floatScalar, hv]
            simp only [Option.isSome_none, Bool.false_eq_true, if_false, afloatKids] at h
            simp only [Option.isSome_none, Bool.false_eq_true, if_false, floatKids]; exact h
          · rw [openScalar, hv]; simp only [List.isEmpty_nil, if_true]; rw [hwhole, hv, openKids]; rfl
        | cons x more =>
          simp only [List.isEmpty_cons, Bool.false_eq_true, if_false, Option.isSome_none] at hc ⊢
          obtain ⟨b1, b2, b3⟩ := openKids_exposed d (x :: more) hc
          refine ⟨by rw [openFitsScalar, hv]; exact b1, fun c c' h => ?_, by rw [openScalar, hv]; exact b3⟩
          rw [afloatScalar, hv] at h; rw [floatScalar, hv]
          exact b2 c c' h
      | some v =>
        rw [hv] at hc
        cases more with
        | nil =>
          refine ⟨by rw [openFitsScalar, hv]; simp [openFitsAfter], fun c c' h => ?_, ?_⟩
          · rw [afloatScalar, hv] at h; rw [floatScalar, hv]; exact h
          · rw [openScalar, hv]; simp only [List.isEmpty_nil, if_true]; rw [hwhole, hv]; rfl
        | cons x more =>
          simp only [List.isEmpty_cons, Bool.false_eq_true, if_false, Option.isSome_some, if_true] at hc ⊢
          obtain ⟨b1, b2, b3⟩ := openAfter_exposed d (x :: more) hc
          refine ⟨by rw [openFitsScalar, hv]; exact b1, fun c c' h => ?_, by rw [openScalar, hv]; exact b3⟩
          rw [afloatScalar, hv] at h; rw [floatScalar, hv]
          exact b2 c c' h
  theorem openAfter_exposed (d : StructDef) (ks : List Node) : SameKids L env flat fc d (openFitsAfter L env fc d ks)
      (floatAfter L env d ks) (afloatAfter L env d ks) (openAfter L env flat d ks) (exposedAfter L env d ks) := by
    intro hc
    match ks, hc with
    | [], _ =>
      refine ⟨trivial, fun c c' h => ?_, rfl⟩
      rw [afloatAfter] at h; rw [floatAfter]; exact h
    | .text s :: more, hc =>
      rw [exposedAfter] at hc
      obtain ⟨b1, b2, b3⟩ := openKids_exposed d more hc
      refine ⟨by rw [openFitsAfter]; exact b1, fun c c' h => ?_, by rw [openAfter, exposedAfter]; exact b3⟩
      rw [afloatAfter] at h; rw [floatAfter]
      exact b2 c c' h
    | .elem n as m ks :: more, hc =>
      rw [exposedAfter, confKids_append] at hc
      obtain ⟨a1, a2, a3⟩ := openKids_exposed d ks hc.1
      obtain ⟨b1, b2, b3⟩ := openKids_exposed d more hc.2
      refine ⟨by rw [openFitsAfter]; exact ⟨a1, b1⟩, fun c c' h => ?_,
        by rw [openAfter, exposedAfter, kidsBy_append, a3, b3]⟩
      rw [afloatAfter, Option.bind_eq_some_iff] at h
      obtain ⟨c1, h1, h2⟩ := h
      rw [floatAfter, a2 c c1 h1]
      exact b2 _ c' h2
end

theorem openNode_exposed (x : Node) (p : Path) (hc : ConfWith L env fc (x.exposed L env p) p) (hf : x.afloat L env p) :
    openFitsNode L env fc x p ∧ floatNode L env x p = true ∧
      openNode L env flat x p = decodeWith L env flat (x.exposed L env p) p := by
  cases x with
  | text s => simp only [Node.exposed, ConfWith] at hc
  | elem n as m ks =>
    obtain ⟨h1, h2, h3⟩ := same_node L env flat fc (fun d => openKids_exposed L env flat fc d ks) hc
    exact ⟨h1, h2 hf, h3⟩

end

end Yaserde
