import Verif.Proofs.Evolve
import Verif.Proofs.Readable
/-
Documents of recursive types, and added fields (C73).
-/

set_option autoImplicit false

namespace Yaserde

/-- What the second struct claims of elements named `n` the first one claims too, for a field that claims no more. -/
structure Follows (Q : Path → Prop) (d1 d2 : StructDef) (n : Name) : Prop where
  own : d2.isOwn n = d1.isOwn n
  claim : ∀ i2 t, d2.claim n = some (i2, t) → (∀ q, t = .struct q → Q q) ∧
    ∃ i1, d1.claim n = some (i1, t) ∧ ∀ n', d1.fieldFor n' = some i1 → d2.fieldFor n' = some i2

/-- The second program reads trees like the first one, of elements as `S` has them. -/
structure TreeRel (L : Lib) (env1 env2 : Env) (fc1 fc2 : Node → Path → Prop) (Q : Path → Prop) (S : Node → Prop) : Prop where
  kids : ∀ n as m ks, S (.elem n as m ks) → ∀ x ∈ ks, S x
  structs : ∀ q d1, Q q → env1 q = some (.struct d1) → ∃ d2, env2 q = some (.struct d2) ∧ d2.Plain ∧ d1.hasFlat = false ∧
    d2.hasFlat = false ∧ ∀ n as m ks, S (.elem n as m ks) → Follows Q d1 d2 n ∧ (AttrsFit fc1 d1 as → AttrsFit fc2 d2 as)
  other : ∀ q, Q q → env1.unflat q = none → env2.unflat q = none
  conf : ∀ x q, Q q → S x → ConfWith L env1 fc1 x q → ConfWith L env2 fc2 x q
  stands : ∀ x q, Q q → standsIn env2 x q = standsIn env1 x q

theorem claim_iff {d : StructDef} {n : Name} {i : Nat} {t : FTy} :
    d.claim n = some (i, t) ↔ d.fieldFor n = some i ∧ ∃ f, d.fields[i]? = some f ∧ f.ty.core = t := by
  simp only [StructDef.claim, Option.bind_eq_some_iff, Option.map_eq_some_iff, Prod.mk.injEq]
  constructor
  · rintro ⟨i', h1, f, h2, rfl, rfl⟩
    exact ⟨h1, f, h2, rfl⟩
  · rintro ⟨h1, f, h2, h3⟩
    exact ⟨i, h1, f, h2, rfl, h3⟩

section
variable {L : Lib} {env1 env2 : Env} {fc1 fc2 : Node → Path → Prop} {Q : Path → Prop} {S : Node → Prop}

theorem soundFirst_follows (hr : TreeRel L env1 env2 fc1 fc2 Q S) {d1 d2 : StructDef} {n : Name} {ks : List Node}
    (hf : Follows Q d1 d2 n) (h : soundFirst env1 d1 n ks) : soundFirst env2 d2 n ks := by
  by_cases hown : d2.isOwn n = true
  · exact .inl hown
  cases hn : d2.fieldFor n with
  | none => exact .inr (.inl hn)
  | some i2 =>
    obtain ⟨f2, hf2, -⟩ := fieldFor_claims hn
    obtain ⟨hq, i1, h1, h2⟩ := hf.claim i2 f2.ty.core (claim_iff.mpr ⟨hn, f2, hf2, rfl⟩)
    rcases h with h | h | ⟨i, q, ht, h⟩
    · rw [hf.own] at hown; exact absurd h hown
    · rw [(claim_iff.mp h1).1] at h; cases h
    · have ho1 : d1.isOwn n = false := by rw [hf.own] at hown; simpa using hown
      have ht' : f2.ty.core = .struct q ∧ i = i1 := by
        unfold StructDef.takes at ht
        rw [ho1, h1] at ht
        simp only [Bool.false_eq_true, if_false] at ht
        split at ht
        · rename_i i' q' he
          cases ht
          obtain ⟨rfl, he2⟩ := Prod.mk.inj (Option.some.inj he)
          exact ⟨he2, rfl⟩
        · cases ht
      obtain ⟨hc, rfl⟩ := ht'
      refine .inr (.inr ⟨i2, q, ?_, fun n1 as1 m1 ks1 more hks => ?_⟩)
      · unfold StructDef.takes
        rw [claim_iff.mpr ⟨hn, f2, hf2, hc⟩, if_neg hown]
      · obtain ⟨h3, h4⟩ := h n1 as1 m1 ks1 more hks
        exact ⟨h2 n1 h3, by rw [hr.stands _ q (hq q hc)]; exact h4⟩

theorem treeKids_follows (hr : TreeRel L env1 env2 fc1 fc2 Q S) :
    ∀ (N : Nat) (d1 d2 : StructDef) (ks : List Node), sizeOf ks ≤ N → (∀ x ∈ ks, S x) →
      (∀ n as m cks, S (.elem n as m cks) → Follows Q d1 d2 n) → treeKids L env1 fc1 d1 ks → treeKids L env2 fc2 d2 ks := by
  intro N
  induction N with
  | zero => intro d1 d2 ks hN; cases ks <;> simp at hN
  | succ N ih =>
    intro d1 d2 ks hN hS hf h
    cases ks with
    | nil => rw [treeKids]; trivial
    | cons x ks =>
      rw [treeKids] at h ⊢
      simp only [List.cons.sizeOf_spec] at hN
      refine ⟨?_, ih d1 d2 ks (by omega) (fun x hx => hS x (List.mem_cons_of_mem _ hx)) hf h.2⟩
      have h := h.1
      have hSx := hS x (List.mem_cons_self ..)
      cases x with
      | text s => rw [treeKid] at h ⊢; exact h
      | elem n as m cks =>
        simp only [Node.elem.sizeOf_spec] at hN
        rw [treeKid] at h ⊢
        refine ⟨h.1, ?_⟩
        have h := h.2
        cases hc : d2.claim n with
        | none => trivial
        | some it =>
          obtain ⟨i2, t⟩ := it
          obtain ⟨hq, i1, h1, -⟩ := (hf n as m cks hSx).claim i2 t hc
          rw [h1] at h
          cases t with
          | simple t => exact h
          | opt t => trivial
          | vec t => trivial
          | struct q =>
            dsimp only at h ⊢
            have hQ := hq q rfl
            cases hu : env1.unflat q with
            | none =>
              rw [hu] at h
              rw [hr.other q hQ hu]
              exact hr.conf _ q hQ hSx h
            | some e1 =>
              rw [hu] at h
              obtain ⟨h1, h2, h3, h4⟩ := h
              obtain ⟨e2, he2, hp2, hf1, hf2, hfo⟩ := hr.structs q e1 hQ (unflat_struct hu).1
              have hu2 : env2.unflat q = some e2 := by simp [Env.unflat, he2, hf2]
              rw [hu2]
              obtain ⟨g1, g2⟩ := hfo n as m cks hSx
              exact ⟨hp2, g2 h2, soundFirst_follows hr g1 h3,
                ih e1 e2 cks (by omega) (hr.kids n as m cks hSx) (fun n as m cks h => (hfo n as m cks h).1) h4⟩

theorem treeNode_follows (hr : TreeRel L env1 env2 fc1 fc2 Q S) {x : Node} {p : Path} (hp : Q p) (hS : S x)
    (h : treeNode L env1 fc1 x p) : treeNode L env2 fc2 x p := by
  cases x with
  | text s => exact h.elim
  | elem n as m ks =>
    simp only [treeNode] at h ⊢
    cases hu : env1.unflat p with
    | none =>
      rw [hu] at h
      rw [hr.other p hp hu]
      exact hr.conf _ p hp hS h
    | some e1 =>
      rw [hu] at h
      obtain ⟨h1, h2, h3, h4⟩ := h
      obtain ⟨e2, he2, hp2, hf1, hf2, hfo⟩ := hr.structs p e1 hp (unflat_struct hu).1
      have hu2 : env2.unflat p = some e2 := by simp [Env.unflat, he2, hf2]
      rw [hu2]
      obtain ⟨g1, g2⟩ := hfo n as m ks hS
      exact ⟨hp2, g2 h2, soundFirst_follows hr g1 h3,
        treeKids_follows hr _ e1 e2 ks (Nat.le_refl _) (hr.kids n as m ks hS) (fun n as m cks h => (hfo n as m cks h).1) h4⟩

end

section
variable {env env' : Env}

theorem noFlatten_false {d : StructDef} {p : Path} (hnf : NoFlatten env) (hp : env p = some (.struct d)) : d.hasFlat = false := by
  unfold StructDef.hasFlat
  rw [List.any_eq_false]
  intro f hf hc
  simp only [Bool.and_eq_true, Bool.not_eq_true'] at hc
  exact hnf.hasFlat hp ⟨f, hf, hc.1, hc.2⟩

theorem grow_stands (hg : Grow env env') (x : Node) (q : Path) (hq : env q ≠ none) : standsIn env x q = standsIn env' x q := by
  unfold standsIn
  cases he : env q with
  | none => exact absurd he hq
  | some td =>
    cases td with
    | struct d => obtain ⟨d', h, -⟩ := hg.structs q d he; rw [h]
    | enum d => obtain ⟨w, h, -⟩ := hg.enums q d he; rw [h]; rfl
    | prim d => rw [hg.prims q d he]

theorem grow_own {d d' : StructDef} (h : GrowStruct env env' d d') (n : Name) : d'.isOwn n = d.isOwn n := by
  unfold StructDef.isOwn
  rw [h.attrs, h.name]

/-- The older program. -/
theorem treeRel_down {L : Lib} (hg : Grow env env') (hnf : NoFlatten env') {fc fc' : Node → Path → Prop}
    (hfc : ∀ s q, env q ≠ none → fc' (.text s) q → fc (.text s) q) :
    TreeRel L env' env fc' fc (fun q => env q ≠ none) (fun _ => True) where
  kids _ _ _ _ _ _ _ := trivial
  stands x q hq := grow_stands hg x q hq
  conf x q hq _ h := confWith_down hg hnf hfc x q hq h
  other q hq h := by
    cases he : env q with
    | none => exact absurd he hq
    | some td =>
      cases td with
      | struct d =>
        obtain ⟨d', hp', -⟩ := hg.structs q d he
        simp [Env.unflat, hp', noFlatten_false hnf hp'] at h
      | enum d => simp [Env.unflat, he]
      | prim d => simp [Env.unflat, he]
  structs q d' hq hp' := by
    cases he : env q with
    | none => exact absurd he hq
    | some td =>
      cases td with
      | enum d => obtain ⟨w, h, -⟩ := hg.enums q d he; rw [hp'] at h; cases h
      | prim d => have h := hg.prims q d he; rw [hp'] at h; cases h
      | struct d =>
        obtain ⟨d2, hp2, h⟩ := hg.structs q d he
        rw [hp'] at hp2
        cases hp2
        refine ⟨d, rfl, h.plainOld, noFlatten_false hnf hp', noFlatten_false (hnf.older hg) he, fun n as m ks _ => ⟨?_, ?_⟩⟩
        · refine ⟨(grow_own h n).symm, fun i t hc => ?_⟩
          obtain ⟨h1, f, hf, rfl⟩ := claim_iff.mp hc
          obtain ⟨f', hf', hk⟩ := h.kept f (List.mem_of_getElem? hf)
          obtain ⟨j, hj⟩ := List.mem_iff_getElem?.mp hf'
          refine ⟨fun q' hq' => hg.fieldTys q d he f (List.mem_of_getElem? hf) q' hq', j, ?_, fun n' h' => (h.fieldFor hf hj hk n').mp h'⟩
          exact claim_iff.mpr ⟨(h.fieldFor hf hj hk n).mpr h1, f', hj, by rw [hk.ty]⟩
        · intro h5 f hf h6 q' hq' a ha hl s hs
          obtain ⟨f', hf', hk⟩ := h.kept f hf
          refine hfc s q' (hg.fieldTys q d he f hf q' hq') ?_
          refine h5 f' hf' (by rw [hk.attrs]; exact h6) q' (by rw [hk.ty]; exact hq') a ha ?_ s (by rw [hk.ty]; exact hs)
          rw [hl]; unfold FieldDef.label; rw [hk.ident, hk.attrs]

/-- A field of the newer version that is in the older one. -/
theorem grow_kept {d d' : StructDef} (h : GrowStruct env env' d d') {f' : FieldDef} (hf' : f' ∈ d'.fields)
    (hkept : ∃ f ∈ d.fields, f.ident = f'.ident) : ∃ f ∈ d.fields, KeptField env env' f f' := by
  obtain ⟨f, hf, hid⟩ := hkept
  obtain ⟨g', hg', hk⟩ := h.kept f hf
  obtain ⟨j2, hj2⟩ := List.mem_iff_getElem?.mp hg'
  obtain ⟨j, hj⟩ := List.mem_iff_getElem?.mp hf'
  have := h.idents' j2 j g' f' hj2 hj (by rw [hk.ident, hid])
  subst this
  rw [hj] at hj2; cases hj2
  exact ⟨f, hf, hk⟩

/-- The newer program. -/
theorem treeRel_up {L : Lib} (hg : Grow env env') (hnf : NoFlatten env') :
    TreeRel L env env' (fun _ _ => False) (fun _ _ => False) (fun q => env q ≠ none)
      (fun x => x.silent (AddedName env env')) where
  kids n as m ks h x hx := by
    rw [Node.silent] at h
    exact silentL_mem h.2.2 hx
  stands x q hq := (grow_stands hg x q hq).symm
  conf x q hq hs h := confWith_up hg hnf x q hs h
  other q hq h := by
    cases he : env q with
    | none => exact absurd he hq
    | some td =>
      cases td with
      | struct d => simp [Env.unflat, he, noFlatten_false (hnf.older hg) he] at h
      | enum d => obtain ⟨w, h, -⟩ := hg.enums q d he; simp [Env.unflat, h]
      | prim d => simp [Env.unflat, hg.prims q d he]
  structs q d hq he := by
    obtain ⟨d', hp', h⟩ := hg.structs q d he
    refine ⟨d', hp', h.plain, noFlatten_false (hnf.older hg) he, noFlatten_false hnf hp', fun n as m ks hs => ?_⟩
    rw [Node.silent] at hs
    refine ⟨⟨grow_own h n, fun j t hc => ?_⟩, ?_⟩
    · obtain ⟨h1, f', hf', rfl⟩ := claim_iff.mp hc
      have hm := List.mem_of_getElem? hf'
      by_cases hkept : ∃ f ∈ d.fields, f.ident = f'.ident
      · obtain ⟨f, hf, hk⟩ := grow_kept h hm hkept
        obtain ⟨i, hi⟩ := List.mem_iff_getElem?.mp hf
        refine ⟨fun q' hq' => hg.fieldTys q d he f hf q' (by rw [← hk.ty]; exact hq'), i, ?_, fun n' h' => (h.fieldFor hi hf' hk n').mpr h'⟩
        exact claim_iff.mpr ⟨(h.fieldFor hi hf' hk n).mp h1, f, hi, by rw [hk.ty]⟩
      · obtain ⟨g, hg', hcl⟩ := fieldFor_claims h1
        rw [hf'] at hg'; cases hg'
        exact absurd ⟨f', ⟨q, d, d', he, hp', hm, fun f hf he => hkept ⟨f, hf, he⟩⟩, hcl.2.2⟩ hs.1
    · intro h5 f' hf' h6 q' hq' a ha hl s hs'
      by_cases hkept : ∃ f ∈ d.fields, f.ident = f'.ident
      · obtain ⟨f, hf, hk⟩ := grow_kept h hf' hkept
        refine h5 f hf (by rw [← hk.attrs]; exact h6) q' (by rw [← hk.ty]; exact hq') a ha ?_ s (by rw [← hk.ty]; exact hs')
        rw [hl]; unfold FieldDef.label; rw [hk.ident, hk.attrs]
      · exact hs.2.1 a ha ⟨f', ⟨q, d, d', he, hp', hf', fun f hf he => hkept ⟨f, hf, he⟩⟩, hl.symm⟩

theorem readable_known {L : Lib} {k : Nat} {x : Node} {p : Path} (h : Readable L env k x p) : env p ≠ none := by
  intro he
  rcases h with h | h
  · rw [confN_eq] at h
    cases x with
    | text => rw [ConfWith] at h; exact h
    | elem => rw [ConfWith, he] at h; exact h
  · cases x with
    | text => exact h
    | elem =>
      simp only [treeNode, Env.unflat, he] at h
      rw [ConfWith, he] at h
      exact h

theorem readable_down {L : Lib} (hg : Grow env env') (hnf : NoFlatten env') (k : Nat) (x : Node) (p : Path)
    (hp : env p ≠ none) (h : Readable L env' k x p) : Readable L env k x p := by
  rcases h with h | h
  · exact .inl (confN_down hg hnf k x p hp h)
  · refine .inr (treeNode_follows (treeRel_down hg hnf ?_) hp trivial h)
    intro s q hq hf
    cases k with
    | zero => exact hf
    | succ k =>
      obtain ⟨y, h1, h2, h3⟩ := hf
      exact ⟨y, h1, h2, confN_down hg hnf k y q hq h3⟩

theorem readable_up {L : Lib} (hg : Grow env env') (hnf : NoFlatten env') (x : Node) (p : Path) (hp : env p ≠ none)
    (hx : x.silent (AddedName env env')) (h : Readable L env 0 x p) : Readable L env' 0 x p := by
  rcases h with h | h
  · exact .inl (confWith_up hg hnf x p hx h)
  · exact .inr (treeNode_follows (treeRel_up hg hnf) hp hx h)

end

end Yaserde
