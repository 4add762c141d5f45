import Verif.Spec.Namesake
import Verif.Proofs.Simple
import Verif.Proofs.OpenTree
import Verif.Proofs.RoundTrip
import Verif.Proofs.Leaf
/-
Structs written under the name of one of their fields (for C50).
-/

set_option autoImplicit false

namespace Yaserde

/-! ### Programs that differ in the names of the structs' own elements -/

structure OwnOnly (env env' : Env) : Prop where
  struct : ∀ p d, env p = some (.struct d) → ∃ r, env' p = some (.struct (d.ownedBy r))
  other : ∀ p td, env p = some td → (∀ d, td ≠ .struct d) → env' p = some td
  none : ∀ p, env p = none → env' p = none

theorem OwnOnly.symm {env env' : Env} (h : OwnOnly env env') : OwnOnly env' env := by
  constructor
  · intro p d hp
    cases he : env p with
    | none => rw [h.none p he] at hp; cases hp
    | some td =>
      cases td with
      | struct e =>
        obtain ⟨r, hr⟩ := h.struct p e he
        rw [hr] at hp
        cases hp
        exact ⟨e.attrs.rename, rfl⟩
      | enum e => rw [h.other p _ he (by simp)] at hp; cases hp
      | prim e => rw [h.other p _ he (by simp)] at hp; cases hp
  · intro p td hp hn
    cases he : env p with
    | none => rw [h.none p he] at hp; cases hp
    | some td' =>
      cases td' with
      | struct e =>
        obtain ⟨r, hr⟩ := h.struct p e he
        rw [hr] at hp
        cases hp
        exact (hn _ rfl).elim
      | enum e => rw [← hp, h.other p _ he (by simp)]
      | prim e => rw [← hp, h.other p _ he (by simp)]
  · intro p hp
    cases he : env p with
    | none => rfl
    | some td =>
      cases td with
      | struct e => obtain ⟨r, hr⟩ := h.struct p e he; rw [hr] at hp; cases hp
      | enum e => rw [h.other p _ he (by simp)] at hp; cases hp
      | prim e => rw [h.other p _ he (by simp)] at hp; cases hp

theorem ownOnly_owned (env : Env) (own : Path → Option Str) : OwnOnly env (env.owned own) := by
  constructor
  · intro p d hp; exact ⟨_, by unfold Env.owned; rw [hp]⟩
  · intro p td hp hn
    unfold Env.owned
    rw [hp]
    cases td with
    | struct d => exact (hn d rfl).elim
    | enum d => rfl
    | prim d => rfl
  · intro p hp; unfold Env.owned; rw [hp]

theorem OwnOnly.hasTy {env env' : Env} (h : OwnOnly env env') {t : FTy} {v : Val} (hv : HasTy env t v) : HasTy env' t v := by
  induction hv with
  | str s => exact .str s
  | bool b => exact .bool b
  | int t z fits => exact .int t z fits
  | f32 b => exact .f32 b
  | f64 b => exact .f64 b
  | none t => exact .none t
  | some t v _ ih => exact .some t v ih
  | vec t vs _ ih => exact .vec t vs ih
  | struct p d fs hp hlen _ ih =>
    obtain ⟨r, hr⟩ := h.struct p d hp
    exact .struct p _ fs hr hlen ih
  | unit p d i vd hp hv hs => exact .unit p d i vd (h.other p _ hp (by simp)) hv hs
  | newtype p d i vd t x hp hv hs _ ih => exact .newtype p d i vd t x (h.other p _ hp (by simp)) hv hs ih
  | named p d i vd fds fs hp hv hs hlen _ ih => exact .named p d i vd fds fs (h.other p _ hp (by simp)) hv hs hlen ih
  | prim p d v hp hd => exact .prim p d v (h.other p _ hp (by simp)) hd

theorem OwnOnly.restores {env env' : Env} (h : OwnOnly env env') (hw : Restores env) : Restores env' := by
  intro p d hp f hf
  obtain ⟨r, hr⟩ := h.symm.struct p d hp
  obtain ⟨h1, h2, h3⟩ := hw p _ hr f hf
  exact ⟨fun ht self v hv ho => h1 ht self v (h.symm.hasTy hv) ho, h2, h3⟩

/-! ### Reading -/

mutual
  theorem decodeWith_own {L : Lib} {env env' : Env} (h : OwnOnly env env') (flat : Node → Path → Res Val) :
      ∀ (x : Node) (p : Path), decodeWith L env flat x p = decodeWith L env' flat x p
    | .text s, p => by rw [decodeWith, decodeWith]
    | .elem n as m ks, p => by
      rw [decodeWith, decodeWith, decodeL_own h flat ks]
      cases hp : env p with
      | none => rw [h.none p hp]
      | some td =>
        cases td with
        | struct d => obtain ⟨r, hr⟩ := h.struct p d hp; rw [hr]; rfl
        | enum d => rw [h.other p _ hp (by simp)]
        | prim d => rw [h.other p _ hp (by simp)]
  theorem decodeL_own {L : Lib} {env env' : Env} (h : OwnOnly env env') (flat : Node → Path → Res Val) :
      ∀ ks : List Node, decodeL L env flat ks = decodeL L env' flat ks
    | [] => by rw [decodeL, decodeL]
    | k :: ks => by
      rw [decodeL, decodeL, decodeL_own h flat ks]
      congr 1
      funext p
      exact decodeWith_own h flat k p
end

theorem decodeDoc_own {env env' : Env} (h : OwnOnly env env') (dec : Node → Path → Res Val) (x : Node) (p : Path) :
    decodeDocWith env dec x p = decodeDocWith env' dec x p := by
  unfold decodeDocWith
  cases hp : env p with
  | none => rw [h.none p hp]
  | some td =>
    cases td with
    | struct d => obtain ⟨r, hr⟩ := h.struct p d hp; rw [hr]; rfl
    | enum d => rw [h.other p _ hp (by simp)]
    | prim d => rw [h.other p _ hp (by simp)]

theorem decodeN_own {L : Lib} {env env' : Env} (h : OwnOnly env env') (k : Nat) : decodeN L env k = decodeN L env' k := by
  induction k with
  | zero => funext x p; exact decodeWith_own h _ x p
  | succ k ih =>
    rw [decodeN_eq, decodeN_eq]
    have hf : flatN L env (k + 1) = flatN L env' (k + 1) := by
      funext x q
      cases x with
      | text s =>
        simp only [flatN, ih]
        split
        · exact decodeDoc_own h _ _ _
        · rfl
      | elem n as m ks => simp only [flatN, ih]; exact decodeDoc_own h _ _ _
    rw [hf]
    funext x p
    exact decodeWith_own h _ x p

/-! ### Writing -/

theorem zipWith_at {α β γ : Type} {f g : α → β → γ} : ∀ {as : List α} {bs : List β},
    (∀ (i : Nat) (a : α) (b : β), as[i]? = some a → bs[i]? = some b → f a b = g a b) → List.zipWith f as bs = List.zipWith g as bs
  | [], _, _ => by simp
  | _ :: _, [], _ => by simp
  | a :: as, b :: bs, h => by
    simp only [List.zipWith_cons_cons]
    rw [h 0 a b (by simp) (by simp), zipWith_at fun i a b ha hb => h (i + 1) a b (by simpa using ha) (by simpa using hb)]

theorem encOwn_congr {L : Lib} {env env' : Env} {root root' : Attrs} {self : Val} {f : FieldDef} {v : Val}
    (hr : f.written root = f.written root')
    (h : ∀ q x, f.ty.core = .struct q → x ∈ itemsOf f.ty v → encTy L env .inner q x = encTy L env' .inner q x) :
    encOwn L env root self [f] [v] = encOwn L env' root' self [f] [v] := by
  rw [encOwn.eq_def, encOwn.eq_def L env']
  dsimp only
  rw [encOwn.eq_def L env root self [] [], encOwn.eq_def L env' root' self [] [], hr]
  simp only [List.append_nil]
  cases f.attrs.isAttr && decide (f.selected self v) with
  | false => rfl
  | true =>
    cases hty : f.ty with
    | simple t => cases v <;> rfl
    | vec t => cases v <;> rfl
    | struct q =>
      have := h q v (by rw [hty]; rfl) (by rw [hty]; simp [itemsOf])
      cases v <;> simp only [this]
    | opt t =>
      cases t with
      | simple t => cases v <;> rfl
      | vec t => cases v <;> rfl
      | opt t => cases v <;> rfl
      | struct q =>
        cases v with
        | some x => simp only [h q x (by rw [hty]; rfl) (by rw [hty]; simp [itemsOf])]
        | _ => rfl

/-- Everything in the value is written the same. -/
theorem encTy_own {L : Lib} {env env' : Env} (h : OwnOnly env env') (hs : SimpleProgram env') (hw : Restores env)
    (hle : LeafEnums env) {t : FTy} {v : Val} (hv : HasTy env t v) :
    ∀ q x, t.core = .struct q → x ∈ itemsOf t v → ∀ pl : Place, pl.bare = true ∨ pl.name.isSome = true →
      encTy L env pl q x = encTy L env' pl q x := by
  induction hv with
  | str | bool | int | f32 | f64 => intro q x hq; cases hq
  | none t => intro q x _ hx; simp [itemsOf] at hx
  | some t v _ ih =>
    intro q x hq hx
    simp only [FTy.core] at hq
    subst hq
    simp only [itemsOf, List.mem_singleton] at hx
    subst hx
    exact ih q x rfl (by simp [itemsOf])
  | vec t vs _ ih =>
    intro q x hq hx
    simp only [FTy.core] at hq
    subst hq
    simp only [itemsOf] at hx
    exact ih x hx q x rfl (by simp [itemsOf])
  | struct p d fs hp hlen hf ih =>
    intro q x hq hx pl hpl
    cases hq
    simp only [itemsOf, List.mem_singleton] at hx
    subst hx
    obtain ⟨r, hr⟩ := h.struct p d hp
    have hd := struct_simple hs hr
    have hnf : ∀ g ∈ d.fields, ¬ g.isFlat := fun g hg hfl => by
      have := (hd.fields g hg).2.1
      rw [hfl.2] at this
      cases this
    have hwr : ∀ g : FieldDef, g.written (d.ownedBy r).attrs = g.written d.attrs := fun _ => rfl
    have hpc : ∀ g : FieldDef, g.place (d.ownedBy r).attrs = g.place d.attrs := fun _ => rfl
    have e1 : encTyAttrs L env p (.struct fs) = encTyAttrs L env' p (.struct fs) := by
      rw [encTyAttrs_struct hp, encTyAttrs_struct hr]
      unfold allAttrs
      rw [(inherited_nil (L := L) (env := env) d.fields fs fun f hf => (hd.fields f hf).2.1).1,
        (inherited_nil (L := L) (env := env') (d.ownedBy r).fields fs fun f hf => (hd.fields f hf).2.1).1]
      congr 1
      rw [encOwn_zip, encOwn_zip L env']
      congr 1
      refine zipWith_at fun i f v hfi hvi => ?_
      simp only [encOwn_congr (hwr f).symm fun q x hq hx => ih i f v hfi hvi q x hq hx .inner (.inl rfl)]
    have e2 : encFields L env d.attrs (.struct fs) d.fields fs =
        encFields L env' (d.ownedBy r).attrs (.struct fs) (d.ownedBy r).fields fs := by
      rw [encFields_zip, encFields_zip L env']
      congr 1
      refine zipWith_at fun i f v hfi hvi => ?_
      have hm := List.mem_of_getElem? hfi
      cases hat : f.attrs.isAttr with
      | true => rw [blk_attr _ _ _ _ _ _ hat, blk_attr _ _ _ _ _ _ hat]
      | false =>
        cases htx : f.attrs.text with
        | true => rw [blk_text _ _ _ _ _ _ hat htx, blk_text _ _ _ _ _ _ hat htx]
        | false =>
          by_cases ho : f.omitted (.struct fs) v
          · rw [blk_omitted _ _ _ _ _ _ hat htx ho, blk_omitted _ _ _ _ _ _ hat htx ho]
          · have hcd := (hw p d hp f hm).2.1
            rw [blk_items _ _ _ _ _ _ hat htx ho hcd (hd.types.elemTy f hm), blk_items _ _ _ _ _ _ hat htx ho hcd (hd.types.elemTy f hm)]
            rw [List.flatMap_def, List.flatMap_def]
            congr 1
            refine List.map_congr_left fun x hx => ?_
            unfold itemNodes
            split
            · rfl
            · rename_i q hq
              rw [hpc]
              refine ih i f v hfi hvi q x hq hx _ (.inr ?_)
              simp [FieldDef.place, (hd.fields f hm).2.1]
            · rfl
    have e3 : encTyDecls env p (.struct fs) = encTyDecls env' p (.struct fs) := by
      rw [encTyDecls_struct hp, encTyDecls_struct hr, (inherited_nil (L := L) (env := env) d.fields fs fun f hf => (hd.fields f hf).2.1).2,
        (inherited_nil (L := L) (env := env') (d.ownedBy r).fields fs fun f hf => (hd.fields f hf).2.1).2]
      rfl
    rw [encTy_struct hp, encTy_struct hr, e1, e2, e3]
    unfold wrap
    show (if (d.attrs.flatten || pl.bare) = true then _ else _) = (if (d.attrs.flatten || pl.bare) = true then _ else _)
    split
    · rfl
    · rename_i hb
      rcases hpl with hpl | hpl
      · simp [hpl] at hb
      · obtain ⟨nm, hnm⟩ := Option.isSome_iff_exists.mp hpl
        simp [hnm]
  | unit p d i vd hp hv hsh =>
    intro q x hq hx pl _
    cases hq
    simp only [itemsOf, List.mem_singleton] at hx
    subst hx
    rw [encTy.eq_def, encTy.eq_def L env', hp, h.other p _ hp (by simp)]
    dsimp only
    rw [hv]
    dsimp only
    rw [hsh]
    dsimp only
    rw [encVariant.eq_def, encVariant.eq_def L env', hsh]
  | newtype p d i vd t x hp hv hsh _ ih =>
    intro q y hq hy pl _
    cases hq
    simp only [itemsOf, List.mem_singleton] at hy
    subst hy
    rw [encTy.eq_def, encTy.eq_def L env', hp, h.other p _ hp (by simp)]
    dsimp only
    rw [hv]
    dsimp only
    rcases hle p d hp vd (List.mem_of_getElem? hv) with h1 | ⟨s, h1⟩
    · rw [h1] at hsh; cases hsh
    · rw [h1] at hsh; cases hsh
      rw [h1]
      dsimp only
      rw [encVariant.eq_def, encVariant.eq_def L env', h1]
  | named p d i vd fds fs hp hv hsh hlen _ ih =>
    rcases hle p d hp vd (List.mem_of_getElem? hv) with h1 | ⟨s, h1⟩ <;> rw [h1] at hsh <;> cases hsh
  | prim p d v hp hd =>
    intro q x hq hx pl _
    cases hq
    simp only [itemsOf, List.mem_singleton] at hx
    subst hx
    rw [encTy.eq_def, encTy.eq_def L env', hp, h.other p _ hp (by simp)]

/-! ### Documents -/

/-- The element is the struct's own or unknown to it; or it is named like a field that holds structs, and an element that
comes first in it belongs to that field. -/
def headFirst (env : Env) (d : StructDef) (n : Name) (ks : List Node) : Prop :=
  d.isOwn n = true ∨ d.fieldFor n = none ∨
    ∃ i q e, d.takes n = some (i, q) ∧ env q = some (.struct e) ∧
      ∀ n1 as1 m1 ks1 more, ks = .elem n1 as1 m1 ks1 :: more → d.fieldFor n1 = some i

mutual
  def headKids (env : Env) : StructDef → List Node → Prop
    | _, [] => True
    | d, k :: ks => headKid env d k ∧ headKids env d ks
  def headKid (env : Env) : StructDef → Node → Prop
    | _, .text _ => True
    | d, .elem n _ _ ks =>
      match d.claim n with
      | some (_, .struct q) =>
        (match env.unflat q with
        | some d' => headFirst env d' n ks ∧ headKids env d' ks
        | none => True)
      | _ => True
end

theorem headKids_iff (env : Env) (d : StructDef) : ∀ ks : List Node, headKids env d ks ↔ ∀ k ∈ ks, headKid env d k
  | [] => by simp [headKids]
  | k :: ks => by rw [headKids, headKids_iff env d ks]; simp

theorem headFirst_strip {env : Env} {d : StructDef} {n : Name} {ks : List Node} :
    headFirst env d n (Node.stripL ks) ↔ headFirst env d n ks := by
  unfold headFirst
  refine or_congr_right (or_congr_right ⟨?_, ?_⟩)
  · rintro ⟨i, q, e, h1, h2, h3⟩
    refine ⟨i, q, e, h1, h2, ?_⟩
    rintro n1 as1 m1 ks1 more rfl
    exact h3 n1 as1 _ _ _ (by rw [Node.stripL, Node.strip])
  · rintro ⟨i, q, e, h1, h2, h3⟩
    refine ⟨i, q, e, h1, h2, ?_⟩
    intro n1 as1 m1 ks1 more h
    cases ks with
    | nil => rw [Node.stripL] at h; cases h
    | cons k ks =>
      rw [Node.stripL] at h
      cases k with
      | text s => rw [Node.strip] at h; cases h
      | elem n2 as2 m2 ks2 => rw [Node.strip] at h; cases h; exact h3 _ _ _ _ _ rfl

mutual
  theorem headKids_strip {env : Env} : ∀ (d : StructDef) (ks : List Node), headKids env d (Node.stripL ks) ↔ headKids env d ks
    | _, [] => by rw [Node.stripL]
    | d, k :: ks => by
      rw [Node.stripL, headKids, headKids, headKid_strip d k, headKids_strip d ks]
  theorem headKid_strip {env : Env} : ∀ (d : StructDef) (k : Node), headKid env d k.strip ↔ headKid env d k
    | _, .text _ => by rw [Node.strip]
    | d, .elem n as m ks => by
      rw [Node.strip, headKid, headKid]
      split
      · split
        · rename_i d' hu
          rw [headFirst_strip, headKids_strip d' ks]
        · rfl
      · rfl
end

/-! Conformance to the program with other names. -/

/-- Enums without structs inside, and primitives. -/
theorem conf_leaf {L : Lib} {env env' : Env} (h : OwnOnly env env') (hle : LeafEnums env) {fc fc' : Node → Path → Prop} {x : Node}
    {q : Path} (hq : ∀ d, env q ≠ some (.struct d)) (hc : ConfWith L env' fc' x q) : ConfWith L env fc x q := by
  cases x with
  | text s => rw [ConfWith] at hc; exact hc.elim
  | elem n as m ks =>
    rw [ConfWith] at hc ⊢
    cases hp : env q with
    | none => rw [h.none q hp] at hc; exact hc.elim
    | some td =>
      cases td with
      | struct d => exact (hq d hp).elim
      | prim d => rw [h.other q _ hp (by simp)] at hc; exact hc
      | enum d =>
        rw [h.other q _ hp (by simp)] at hc
        dsimp only at hc ⊢
        refine ⟨hc.1, ?_⟩
        rcases hc.2 with ⟨h1, h2, h3⟩ | h3
        · refine .inl ⟨h1, h2, ?_⟩
          rcases h3 with h3 | h3
          · exact .inl h3
          · refine .inr ?_
            clear hc
            induction ks with
            | nil => rw [ConfVariants]; trivial
            | cons k ks ih =>
              rw [ConfVariants] at h3 ⊢
              refine ⟨?_, ih h3.2⟩
              have h4 := h3.1
              cases k with
              | text s => rw [ConfVariant] at h4 ⊢; exact h4
              | elem n1 as1 m1 ks1 =>
                rw [ConfVariant] at h4 ⊢
                rcases h4 with h4 | ⟨i, v, t, a1, a2, a3, a4⟩
                · exact .inl h4
                · refine .inr ⟨i, v, t, a1, a2, a3, ?_⟩
                  rcases a4 with a4 | ⟨q', a4, -⟩
                  · exact .inl a4
                  · rcases hle q d hp v (List.mem_of_getElem? a2) with b | ⟨t', b⟩
                    · rw [b] at a3; cases a3
                    · rw [b] at a3; cases a3; cases a4
        · exact .inr h3

theorem confN_leaf {L : Lib} {env env' : Env} (h : OwnOnly env env') (hle : LeafEnums env) {q : Path}
    (hq : ∀ d, env q ≠ some (.struct d)) (k : Nat) (s : Str) (hc : flatConfN L env' k (.text s) q) :
    flatConfN L env k (.text s) q := by
  cases k with
  | zero => exact hc
  | succ k =>
    obtain ⟨y, h1, h2, h3⟩ := hc
    refine ⟨y, h1, h2, ?_⟩
    rw [confN_eq] at h3 ⊢
    exact conf_leaf h hle hq h3

theorem unflat_simple {env env' : Env} (h : OwnOnly env env') (hs : SimpleProgram env') {q : Path} {d : StructDef}
    (hq : env q = some (.struct d)) : env.unflat q = some d := by
  obtain ⟨r, hr⟩ := h.struct q d hq
  have hd := struct_simple hs hr
  unfold Env.unflat
  rw [hq]
  dsimp only
  rw [if_neg]
  intro hf
  unfold StructDef.hasFlat at hf
  rw [List.any_eq_true] at hf
  obtain ⟨f, hf, hff⟩ := hf
  have := (hd.fields f hf).2.1
  simp [this] at hff

theorem attrsFit_own {L : Lib} {env env' : Env} (h : OwnOnly env env') (hs : SimpleProgram env') (hle : LeafEnums env) {k : Nat}
    {p : Path} {d : StructDef} {r : Option Str} (hp : env' p = some (.struct (d.ownedBy r))) {as : List Attr}
    (hc : AttrsFit (flatConfN L env' k) (d.ownedBy r) as) : AttrsFit (flatConfN L env k) d as := by
  intro f hf ha q hq a haa hl s hs'
  refine confN_leaf h hle ?_ k s (hc f hf ha q hq a haa hl s hs')
  intro e he
  obtain ⟨r', hr'⟩ := h.struct q e he
  rcases ((struct_simple hs hp).attrTypes f hf ha q hq).2.2 with ⟨e', he', -⟩ | ⟨e', he', -⟩ <;> rw [he'] at hr' <;> cases hr'

theorem soundFirst_of_head {env : Env} {d : StructDef} {n : Name} {ks : List Node} (h : headFirst env d n ks) :
    soundFirst env d n ks := by
  rcases h with h | h | ⟨i, q, e, h1, h2, h3⟩
  · exact .inl h
  · exact .inr (.inl h)
  · refine .inr (.inr ⟨i, q, h1, fun n1 as1 m1 ks1 more hk => ⟨h3 _ _ _ _ _ hk, ?_⟩⟩)
    simp [standsIn, h2]

mutual
  theorem treeKids_own {L : Lib} {env env' : Env} (h : OwnOnly env env') (hs : SimpleProgram env') (hle : LeafEnums env) {k : Nat} :
      ∀ (d : StructDef) (r : Option Str) (ks : List Node), ConfKids L env' (flatConfN L env' k) (d.ownedBy r) ks → headKids env d ks →
        treeKids L env (flatConfN L env k) d ks
    | _, _, [], _, _ => by rw [treeKids]; trivial
    | d, r, x :: xs, hc, hh => by
      rw [ConfKids] at hc
      rw [headKids] at hh
      rw [treeKids]
      exact ⟨treeKid_own h hs hle d r x hc.1 hh.1, treeKids_own h hs hle d r xs hc.2 hh.2⟩
  theorem treeKid_own {L : Lib} {env env' : Env} (h : OwnOnly env env') (hs : SimpleProgram env') (hle : LeafEnums env) {k : Nat} :
      ∀ (d : StructDef) (r : Option Str) (x : Node), ConfKid L env' (flatConfN L env' k) (d.ownedBy r) x → headKid env d x →
        treeKid L env (flatConfN L env k) d x
    | _, _, .text s, hc, _ => by rw [ConfKid] at hc; rw [treeKid]; exact hc
    | d, r, .elem n as m ks, hc, hh => by
      rw [ConfKid] at hc
      rw [headKid] at hh
      rw [treeKid]
      refine ⟨hc.1, ?_⟩
      have key : ∀ i t, d.claim n = some (i, t) → ∃ f, d.fieldFor n = some i ∧ d.fields[i]? = some f ∧ f.ty.core = t := by
        intro i t hcl
        unfold StructDef.claim at hcl
        rw [Option.bind_eq_some_iff] at hcl
        obtain ⟨j, h1, h2⟩ := hcl
        rw [Option.map_eq_some_iff] at h2
        obtain ⟨f, h2, h3⟩ := h2
        cases h3
        exact ⟨f, h1, h2, rfl⟩
      split
      · rename_i i t hcl
        obtain ⟨f, h1, h2, h3⟩ := key i _ hcl
        exact ((hc.2 i f h1 h2).1 t h3).1
      · rename_i i q hcl
        obtain ⟨f, h1, h2, h3⟩ := key i _ hcl
        have hq := ((hc.2 i f h1 h2).2 q h3).1
        rw [hcl] at hh
        dsimp only at hh
        split
        · rename_i e hu
          rw [hu] at hh
          dsimp only at hh
          obtain ⟨r', hr'⟩ := h.struct q e (unflat_struct hu).1
          rw [ConfWith, hr'] at hq
          dsimp only at hq
          exact ⟨⟨hq.1.1, hq.1.2, hq.1.3⟩, attrsFit_own h hs hle hr' hq.2.2.2.2, soundFirst_of_head hh.1, treeKids_own h hs hle e r' ks hq.2.2.1 hh.2⟩
        · rename_i hu
          refine conf_leaf h hle (fun e he => ?_) hq
          rw [unflat_simple h hs he] at hu
          cases hu
      · trivial
end

/-- A document that conforms to the program with other names. -/
theorem treeNode_own {L : Lib} {env env' : Env} (h : OwnOnly env env') (hs : SimpleProgram env') (hle : LeafEnums env) {k : Nat}
    {y : Node} {p : Path} (hc : ConfN L env' k y p)
    (hh : ∀ d n as m ks, env p = some (.struct d) → y = .elem n as m ks → headFirst env d n ks ∧ headKids env d ks) :
    treeNode L env (flatConfN L env k) y p := by
  rw [confN_eq] at hc
  cases y with
  | text s => rw [ConfWith] at hc; exact hc.elim
  | elem n as m ks =>
    simp only [treeNode]
    split
    · rename_i d hu
      have hp := (unflat_struct hu).1
      obtain ⟨r, hr⟩ := h.struct p d hp
      rw [ConfWith, hr] at hc
      dsimp only at hc
      obtain ⟨h1, h2⟩ := hh d n as m ks hp rfl
      exact ⟨⟨hc.1.1, hc.1.2, hc.1.3⟩, attrsFit_own h hs hle hr hc.2.2.2.2, soundFirst_of_head h1, treeKids_own h hs hle d r ks hc.2.2.1 h2⟩
    · rename_i hu
      refine conf_leaf h hle (fun e he => ?_) hc
      rw [unflat_simple h hs he] at hu
      cases hu

/-! ### Trees that are written -/

theorem flatten_split {α : Type} {w : α} : ∀ (bs : List (List α)) (pre post : List α), bs.flatten = pre ++ w :: post →
    ∃ (j : Nat) (b : List α), bs[j]? = some b ∧ w ∈ b ∧ ∀ (i : Nat) (b' : List α), i < j → bs[i]? = some b' → ∀ x ∈ b', x ∈ pre
  | [], pre, post, h => by simp at h
  | b :: bs, pre, post, h => by
    rw [List.flatten_cons] at h
    rcases List.append_eq_append_iff.mp h with ⟨a, h1, h2⟩ | ⟨c, h1, h2⟩
    · obtain ⟨j, b1, g1, g2, g3⟩ := flatten_split bs a post h2
      refine ⟨j + 1, b1, by simpa using g1, g2, ?_⟩
      intro i b' hi hb x hx
      subst h1
      cases i with
      | zero => simp only [List.getElem?_cons_zero, Option.some.injEq] at hb; subst hb; exact List.mem_append_left _ hx
      | succ i => exact List.mem_append_right _ (g3 i b' (by omega) (by simpa using hb) x hx)
    · cases c with
      | nil =>
        simp only [List.append_nil] at h1
        obtain ⟨j, b1, g1, g2, g3⟩ := flatten_split bs [] post (by simpa using h2.symm)
        refine ⟨j + 1, b1, by simpa using g1, g2, ?_⟩
        intro i b' hi hb x hx
        cases i with
        | zero => simp only [List.getElem?_cons_zero, Option.some.injEq] at hb; subst hb; rw [← h1]; exact hx
        | succ i => exact absurd (g3 i b' (by omega) (by simpa using hb) x hx) (by simp)
      | cons c cs =>
        simp only [List.cons_append, List.cons.injEq] at h2
        refine ⟨0, b, rfl, ?_, fun i _ hi => absurd hi (by omega)⟩
        rw [h1, h2.1]
        simp

/-- The first element that is read back is the first one that was written. -/
theorem backL_head {sc : NsMap} {n : Name} {as : List Attr} {m : NsMap} {ks more : List Node} :
    ∀ (ws : List WNode) (run : Str), WNode.backL sc run ws = .elem n as m ks :: more →
      ∃ pre nn aa nss kk post, ws = pre ++ WNode.elem nn aa nss kk :: post ∧ (∀ x ∈ pre, ∀ a b c e, x ≠ WNode.elem a b c e) ∧
        n = readElemName (nss ++ sc) nn
  | [], run, h => by
    rw [WNode.backL] at h
    unfold textRun at h
    split at h <;> simp at h
  | w :: ws, run, h => by
    rw [WNode.backL.eq_def] at h
    dsimp only at h
    cases w with
    | text s =>
      obtain ⟨pre, nn, aa, nss, kk, post, h1, h2, h3⟩ := backL_head ws _ h
      exact ⟨.text s :: pre, nn, aa, nss, kk, post, by rw [h1]; rfl, by
        intro x hx a b c e
        rcases List.mem_cons.mp hx with rfl | hx
        · simp
        · exact h2 x hx a b c e, h3⟩
    | cdata s =>
      obtain ⟨pre, nn, aa, nss, kk, post, h1, h2, h3⟩ := backL_head ws _ h
      exact ⟨.cdata s :: pre, nn, aa, nss, kk, post, by rw [h1]; rfl, by
        intro x hx a b c e
        rcases List.mem_cons.mp hx with rfl | hx
        · simp
        · exact h2 x hx a b c e, h3⟩
    | elem nn aa nss kk =>
      dsimp only at h
      unfold textRun at h
      split at h
      · rw [WNode.back] at h
        simp only [List.nil_append, List.cons.injEq, Node.elem.injEq] at h
        exact ⟨[], nn, aa, nss, kk, ws, rfl, by simp, h.1.1.symm⟩
      · simp at h

theorem mem_backL {sc : NsMap} {x : Node} : ∀ (ws : List WNode) (run : Str), x ∈ WNode.backL sc run ws →
    (∃ s, x = .text s) ∨ ∃ nn aa nss kk, WNode.elem nn aa nss kk ∈ ws ∧ x = WNode.back sc (.elem nn aa nss kk)
  | [], run, h => by
    rw [WNode.backL] at h
    unfold textRun at h
    split at h
    · simp at h
    · simp only [List.mem_singleton] at h; exact .inl ⟨_, h⟩
  | w :: ws, run, h => by
    rw [WNode.backL.eq_def] at h
    dsimp only at h
    have up : ∀ run', x ∈ WNode.backL sc run' ws →
        (∃ s, x = .text s) ∨ ∃ nn aa nss kk, WNode.elem nn aa nss kk ∈ w :: ws ∧ x = WNode.back sc (.elem nn aa nss kk) := by
      intro run' h
      rcases mem_backL ws run' h with h | ⟨nn, aa, nss, kk, h1, h2⟩
      · exact .inl h
      · exact .inr ⟨nn, aa, nss, kk, List.mem_cons_of_mem _ h1, h2⟩
    cases w with
    | text s => exact up _ h
    | cdata s => exact up _ h
    | elem nn aa nss kk =>
      dsimp only at h
      rcases List.mem_append.mp h with h | h
      · unfold textRun at h
        split at h
        · simp at h
        · simp only [List.mem_singleton] at h; exact .inl ⟨_, h⟩
      · rcases List.mem_cons.mp h with h | h
        · exact .inr ⟨nn, aa, nss, kk, List.mem_cons_self .., h⟩
        · exact up _ h

theorem readElemName_nc {nm : Str} (h : isNCName nm = true) : readElemName [] nm = ⟨nm, none, none⟩ := by
  unfold readElemName
  rw [XmlText.splitColon_none (XmlText.ncName_noColon h)]
  rfl

/-- A value written as an element of a given name. -/
theorem enc_place_simple {L : Lib} {env : Env} (hs : SimpleProgram env) (hb : ∀ p d, env p = some (.prim d) → d.bare = false)
    {q : Path} {x : Val} (hv : HasTy env (.struct q) x) (nm : Str) :
    ∃ as ks, encTy L env ⟨some nm, false⟩ q x = [.elem nm as [] ks] := by
  have he : ∀ (d : EnumDef) (i : Nat) (vd : VariantDef) (pay : List Val), env q = some (.enum d) → d.variants[i]? = some vd →
      ∃ as ks, encTy L env ⟨some nm, false⟩ q (.enum i pay) = [.elem nm as [] ks] := by
    intro d i vd pay hp hi
    have hd := enum_simple hs hp
    rw [encTy.eq_def, hp]
    dsimp only
    rw [hi]
    dsimp only
    unfold wrap
    rw [hd.noNs.2.2.1, show d.attrs.decls = [] by unfold Attrs.decls; rw [hd.noNs.1]; rfl]
    exact ⟨_, _, rfl⟩
  cases hv with
  | struct _ d fs hp hlen hf =>
    have hd := struct_simple hs hp
    rw [encTy_struct hp, encTyDecls_struct hp,
      (inherited_nil (L := L) (env := env) d.fields fs fun f hf => (hd.fields f hf).2.1).2,
      show d.attrs.decls = [] by unfold Attrs.decls; rw [hd.noNs.1]; rfl]
    unfold wrap
    rw [hd.noNs.2.2]
    exact ⟨_, _, rfl⟩
  | unit _ d i vd hp hv hsh => exact he d i vd _ hp hv
  | newtype _ d i vd t x hp hv hsh _ => exact he d i vd _ hp hv
  | named _ d i vd fds fs hp hv hsh hlen _ => exact he d i vd _ hp hv
  | prim _ d v hp hd =>
    rw [encTy.eq_def, hp]
    dsimp only
    unfold wrap
    rw [hb q d hp]
    exact ⟨_, _, rfl⟩

theorem claims_label {d : StructDef} {env : Env} (hd : SimpleStruct env d) {f : FieldDef} (hf : f ∈ d.fields) (he : f.isElem = true) :
    f.claims d.attrs ⟨f.label, none, none⟩ := by
  refine ⟨he, ?_, rfl⟩
  rw [hd.noNs.1]
  rfl

theorem hasTy_item {env : Env} {t : FTy} {v x : Val} {q : Path} (hv : HasTy env t v) (hq : t.core = .struct q)
    (hx : x ∈ itemsOf t v) : HasTy env (.struct q) x := by
  cases hv with
  | str | bool | int | f32 | f64 => cases hq
  | none t => simp [itemsOf] at hx
  | some t v h =>
    simp only [FTy.core] at hq
    simp only [itemsOf, List.mem_singleton] at hx
    rw [hx, ← hq]; exact h
  | vec t vs h =>
    simp only [FTy.core] at hq
    simp only [itemsOf] at hx
    rw [← hq]; exact h x hx
  | struct p d fs hp hlen hf =>
    cases hq
    simp only [itemsOf, List.mem_singleton] at hx
    rw [hx]; exact .struct q d fs hp hlen hf
  | unit p d i vd hp hv hs =>
    cases hq
    simp only [itemsOf, List.mem_singleton] at hx
    rw [hx]; exact .unit q d i vd hp hv hs
  | newtype p d i vd t y hp hv hs h =>
    cases hq
    simp only [itemsOf, List.mem_singleton] at hx
    rw [hx]; exact .newtype q d i vd t y hp hv hs h
  | named p d i vd fds fs hp hv hs hlen h =>
    cases hq
    simp only [itemsOf, List.mem_singleton] at hx
    rw [hx]; exact .named q d i vd fds fs hp hv hs hlen h
  | prim p d v hp hd =>
    cases hq
    simp only [itemsOf, List.mem_singleton] at hx
    rw [hx]; exact .prim q d v hp hd

/-- In the element of a struct that is named like one of its fields, an element that comes first belongs to that field. -/
theorem enc_heads {L : Lib} {env env' : Env} (h : OwnOnly env env') (hs : SimpleProgram env')
    (hb : ∀ p d, env' p = some (.prim d) → d.bare = false) (hcd : ∀ p d, env' p = some (.struct d) → ∀ f ∈ d.fields, f.attrs.cdata = false)
    (hhead : ∀ p d r, env p = some (.struct d) → env' p = some (.struct (d.ownedBy r)) →
      r.getD d.name = d.attrs.rename.getD d.name ∨ d.Headed env (r.getD d.name)) {t : FTy} {v : Val} (hv : HasTy env' t v) :
    ∀ q x, t.core = .struct q → x ∈ itemsOf t v → ∀ d, env q = some (.struct d) → ∀ nm, NameFits env' q nm →
      ∀ n as nss ks, .elem n as nss ks ∈ encTy L env' ⟨some nm, false⟩ q x →
        headFirst env d ⟨nm, none, none⟩ (WNode.backL [] [] ks) ∧ headKids env d (WNode.backL [] [] ks) := by
  induction hv with
  | str | bool | int | f32 | f64 => intro q x hq; cases hq
  | none t => intro q x _ hx; simp [itemsOf] at hx
  | some t v _ ih =>
    intro q x hq hx
    simp only [FTy.core] at hq
    subst hq
    simp only [itemsOf, List.mem_singleton] at hx
    subst hx
    exact ih q x rfl (by simp [itemsOf])
  | vec t vs _ ih =>
    intro q x hq hx
    simp only [FTy.core] at hq
    subst hq
    simp only [itemsOf] at hx
    exact ih x hx q x rfl (by simp [itemsOf])
  | struct p d' fs hp' hlen hf ih =>
    intro q x hq hx d hp nm hnm n as nss ks hw
    cases hq
    simp only [itemsOf, List.mem_singleton] at hx
    subst hx
    obtain ⟨r, hr⟩ := h.struct p d hp
    rw [hr] at hp'
    cases hp'
    have hd := struct_simple hs hr
    have hrt := structRt_simple hs hd
    rw [encTy_struct hr] at hw
    unfold wrap at hw
    rw [hd.noNs.2.2] at hw
    simp only [Bool.or_self, Bool.false_eq_true, if_false, List.mem_singleton, WNode.elem.injEq] at hw
    obtain ⟨-, -, -, rfl⟩ := hw
    -- the element of a field
    have kid : ∀ (j : Nat) (f : FieldDef) (v : Val), d.fields[j]? = some f → fs[j]? = some v → ∀ nn aa ns kk,
        .elem nn aa ns kk ∈ encFields L env' (d.ownedBy r).attrs (.struct fs) [f] [v] →
        f.isElem = true ∧ f.attrs.text = false ∧ nn = f.label ∧ ns = [] ∧ ∀ q e, f.ty.core = .struct q → env q = some (.struct e) →
          headFirst env e ⟨f.label, none, none⟩ (WNode.backL [] [] kk) ∧ headKids env e (WNode.backL [] [] kk) := by
      intro j f v hfj hvj nn aa ns kk hm
      have hfm : f ∈ (d.ownedBy r).fields := List.mem_of_getElem? hfj
      have hfl := (hd.fields f hfm).2.1
      have hwr : f.written (d.ownedBy r).attrs = f.label := by
        unfold FieldDef.written; rw [(hd.fields f hfm).1]; rfl
      cases hat : f.attrs.isAttr with
      | true => rw [blk_attr _ _ _ _ _ _ hat] at hm; cases hm
      | false =>
        have hel : f.isElem = true := by unfold FieldDef.isElem; rw [hat, hfl]; rfl
        cases htx : f.attrs.text with
        | true => rw [blk_text _ _ _ _ _ _ hat htx] at hm; simp at hm
        | false =>
          by_cases ho : f.omitted (.struct fs) v
          · rw [blk_omitted _ _ _ _ _ _ hat htx ho] at hm; cases hm
          · rw [blk_items _ _ _ _ _ _ hat htx ho (hcd p _ hr f hfm) (hd.types.elemTy f hfm)] at hm
            obtain ⟨x, hx, hm⟩ := List.mem_flatMap.mp hm
            unfold itemNodes at hm
            rw [hwr] at hm
            split at hm
            · rename_i t ht
              simp only [leaf, List.mem_singleton, WNode.elem.injEq] at hm
              obtain ⟨rfl, -, rfl, -⟩ := hm
              exact ⟨hel, rfl, rfl, rfl, fun q e hq => by rw [ht] at hq; cases hq⟩
            · rename_i q hq
              rw [show f.place (d.ownedBy r).attrs = ⟨some f.label, false⟩ by unfold FieldDef.place; rw [hfl, hwr]; rfl] at hm
              obtain ⟨as', ks', he⟩ := enc_place_simple (L := L) hs hb (hasTy_item (hf j f v hfj hvj) hq hx) f.label
              refine ⟨hel, rfl, ?_⟩
              have hm' := hm
              rw [he] at hm'
              simp only [List.mem_singleton, WNode.elem.injEq] at hm'
              refine ⟨hm'.1, hm'.2.2.1, ?_⟩
              intro q' e hq' he'
              rw [hq] at hq'
              cases hq'
              exact ih j f v hfj hvj q x hq hx e he' f.label (hd.names f hfm hat q hq) nn aa ns kk hm
            · cases hm
    have hblk : ∀ b (j : Nat), (List.zipWith (fun f v => encFields L env' (d.ownedBy r).attrs (.struct fs) [f] [v]) (d.ownedBy r).fields fs)[j]? =
        some b → ∃ f v, d.fields[j]? = some f ∧ fs[j]? = some v ∧ b = encFields L env' (d.ownedBy r).attrs (.struct fs) [f] [v] := by
      intro b j hj
      rw [List.getElem?_zipWith_eq_some] at hj
      obtain ⟨f, v, h1, h2, h3⟩ := hj
      exact ⟨f, v, h1, h2, h3.symm⟩
    have hff : ∀ (j : Nat) (f : FieldDef), d.fields[j]? = some f → f.isElem = true → d.fieldFor ⟨f.label, none, none⟩ = some j := by
      intro j f hfj hel
      exact fieldFor_of_claims (d := d.ownedBy r) hrt hfj (claims_label hd (List.mem_of_getElem? hfj) hel)
    constructor
    · have hfits := fits_name hs hr (n := ⟨nm, none, none⟩) hnm rfl
      cases hfits with
      | enum _ e _ he => rw [hr] at he; cases he
      | prim _ e _ he => rw [hr] at he; cases he
      | struct _ e _ he hn =>
        rw [hr] at he
        cases he
        rcases hn with hn | hn
        · have hown : d.attrs.rename.getD d.name = nm → d.isOwn ⟨nm, none, none⟩ = true := by
            intro hnn
            unfold StructDef.isOwn
            exact decide_eq_true ⟨hnn.symm, hn.2⟩
          rcases hhead p d r hp hr with h1 | h1
          · exact .inl (hown (h1.symm.trans hn.1.symm))
          · have hnr : r.getD d.name = nm := hn.1.symm
            rw [hnr] at h1
            by_cases hio : d.isOwn ⟨nm, none, none⟩ = true
            · exact .inl hio
            · cases hfi : d.fieldFor ⟨nm, none, none⟩ with
              | none => exact .inr (.inl hfi)
              | some i =>
                obtain ⟨f, hf1, hf2, hf3⟩ := fieldFor_some hfi
                obtain ⟨q, e, h2, h3, h4⟩ := h1 i f hfi hf1
                refine .inr (.inr ⟨i, q, e, ?_, h3, ?_⟩)
                · unfold StructDef.takes
                  rw [if_neg hio]
                  unfold StructDef.claim
                  rw [hfi]
                  simp only [Option.bind_some, hf1, Option.map_some, h2]
                · intro n1 as1 m1 ks1 more hk
                  obtain ⟨pre, nn, aa, ns, kk, post, g1, g2, g3⟩ := backL_head _ _ hk
                  rw [encFields_zip] at g1
                  obtain ⟨j, b, b1, b2, b3⟩ := flatten_split _ _ _ g1
                  obtain ⟨g, v, c1, c2, rfl⟩ := hblk b j b1
                  obtain ⟨k1, k2, k3, k4, -⟩ := kid j g v c1 c2 _ _ _ _ b2
                  have hji : j = i := by
                    rcases h4 j g c1 k1 k2 with h5 | ⟨h5, h6, h7, h8, h9, h10⟩
                    · exact h5
                    · exfalso
                      have hil : i < fs.length := by
                        have := (List.getElem?_eq_some_iff.mp c2).1
                        omega
                      have hfm : f ∈ (d.ownedBy r).fields := hf2
                      have hfl := (hd.fields f hfm).2.1
                      have hat : f.attrs.isAttr = false := by
                        have := hf3.1
                        unfold FieldDef.isElem at this
                        simp at this
                        exact this.1
                      have ho : ¬ f.omitted (.struct fs) fs[i] := by
                        rintro (ho | ho)
                        · rw [h10] at ho; cases ho
                        · exact ho ⟨fun g hg => (by rw [h9] at hg; cases hg), fun g hg => (by rw [h8] at hg; cases hg)⟩
                      have hvi : fs[i]? = some fs[i] := List.getElem?_eq_getElem hil
                      have e1 := blk_items L env' (d.ownedBy r).attrs (.struct fs) f fs[i] hat h7 ho (hcd p _ hr f hfm)
                        (hd.types.elemTy f hfm)
                      have hty := hf i f fs[i] hf1 hvi
                      rw [h6] at hty
                      obtain ⟨as', ks', he⟩ := enc_place_simple (L := L) hs hb hty (f.written (d.ownedBy r).attrs)
                      have e2 : encFields L env' (d.ownedBy r).attrs (.struct fs) [f] [fs[i]] =
                          [.elem (f.written (d.ownedBy r).attrs) as' [] ks'] := by
                        rw [e1, h6]
                        simp only [itemsOf, List.flatMap_cons, List.flatMap_nil, List.append_nil]
                        unfold itemNodes
                        rw [h2]
                        dsimp only
                        rw [show f.place (d.ownedBy r).attrs = ⟨some (f.written (d.ownedBy r).attrs), false⟩ by
                          unfold FieldDef.place; rw [hfl]; rfl, he]
                      have b4 := b3 i (encFields L env' (d.ownedBy r).attrs (.struct fs) [f] [fs[i]]) h5 (by
                        rw [List.getElem?_zipWith_eq_some]
                        exact ⟨f, fs[i], hf1, hvi, rfl⟩)
                      rw [e2] at b4
                      exact g2 _ (b4 _ (List.mem_singleton.mpr rfl)) _ _ _ _ rfl
                  rw [g3, k3, k4, List.append_nil, readElemName_nc (hd.fields g (List.mem_of_getElem? c1)).2.2, ← hji]
                  exact hff j g c1 k1
        · exact .inr (.inl hn)
    · rw [headKids_iff]
      intro x hx
      rcases mem_backL _ _ hx with ⟨s, rfl⟩ | ⟨nn, aa, ns, kk, h1, rfl⟩
      · rw [headKid]; trivial
      · rw [encFields_zip] at h1
        obtain ⟨b, hb1, hb2⟩ := List.mem_flatten.mp h1
        obtain ⟨j, hj⟩ := List.getElem?_of_mem hb1
        obtain ⟨g, v, c1, c2, rfl⟩ := hblk b j hj
        obtain ⟨k1, k2, k3, k4, k5⟩ := kid j g v c1 c2 _ _ _ _ hb2
        subst k3 k4
        rw [WNode.back, List.append_nil, readElemName_nc (hd.fields g (List.mem_of_getElem? c1)).2.2, headKid]
        have hcl : d.claim ⟨g.label, none, none⟩ = some (j, g.ty.core) := by
          unfold StructDef.claim
          rw [hff j g c1 k1]
          simp only [Option.bind_some, c1, Option.map_some]
        rw [hcl]
        split
        · rename_i i q hq
          simp only [Option.some.injEq, Prod.mk.injEq] at hq
          split
          · rename_i e hu
            exact k5 q e hq.2 (unflat_struct hu).1
          · trivial
        · trivial
  | unit p d i vd hp hv hsh =>
    intro q x hq _ d' hd'
    cases hq
    obtain ⟨r, hr⟩ := h.struct p d' hd'
    rw [hp] at hr; cases hr
  | newtype p d i vd t x hp hv hsh _ ih =>
    intro q x hq _ d' hd'
    cases hq
    obtain ⟨r, hr⟩ := h.struct p d' hd'
    rw [hp] at hr; cases hr
  | named p d i vd fds fs hp hv hsh hlen _ ih =>
    intro q x hq _ d' hd'
    cases hq
    obtain ⟨r, hr⟩ := h.struct p d' hd'
    rw [hp] at hr; cases hr
  | prim p d v hp hd =>
    intro q x hq _ d' hd'
    cases hq
    obtain ⟨r, hr⟩ := h.struct p d' hd'
    rw [hp] at hr; cases hr

/-! ### The whole document -/

theorem OwnOnly.serOk {env env' : Env} (h : OwnOnly env env') (hok : SerOk env') : SerOk env := by
  refine ⟨?_, ?_, ?_⟩
  · intro p d hp f hf
    obtain ⟨r, hr⟩ := h.struct p d hp
    exact hok.fields p _ hr f hf
  · intro p d hp
    exact hok.variants p d (h.other p _ hp (by simp))
  · intro p d hp
    exact hok.named p d (h.other p _ hp (by simp))

/-- At top level the element has the name of the type. -/
theorem root_named {L : Lib} {env env' : Env} (h : OwnOnly env env') (hs : SimpleProgram env') {p : Path} {td : TypeDef}
    (hp : env p = some td) (hle : LeafEnums env) {v : Val} (hv : HasTy env (.struct p) v) :
    encTy L env .root p v = encTy L env ⟨some td.elementName, false⟩ p v := by
  have he : ∀ (d : EnumDef) (i : Nat) (vd : VariantDef) (pay : List Val), env p = some (.enum d) → d.variants[i]? = some vd →
      encTy L env .root p (.enum i pay) = encTy L env ⟨some td.elementName, false⟩ p (.enum i pay) := by
    intro d i vd pay hpe hi
    rw [hpe] at hp
    cases hp
    have hd := enum_simple hs (h.other p _ hpe (by simp))
    have hw : d.attrs.written d.name = TypeDef.elementName (.enum d) := by
      unfold Attrs.written; rw [hd.noNs.2.1]; rfl
    rw [encTy.eq_def, encTy.eq_def L env ⟨some _, false⟩, hpe]
    dsimp only
    rw [hi]
    dsimp only
    rw [hw]
    unfold wrap
    rw [hd.noNs.2.2.1]
    rcases hle p d hpe vd (List.mem_of_getElem? hi) with h1 | ⟨t, h1⟩
    · rw [h1]
      dsimp only
      rw [encVariant.eq_def, encVariant.eq_def L env ⟨some _, false⟩, h1]
      rfl
    · rw [h1]
      dsimp only
      rw [encVariant.eq_def, encVariant.eq_def L env ⟨some _, false⟩, h1]
      cases pay <;> rfl
  cases hv with
  | struct _ d fs hpe hlen hf =>
    rw [hpe] at hp
    cases hp
    obtain ⟨r, hr⟩ := h.struct p d hpe
    have hd := struct_simple hs hr
    have hw : d.attrs.written d.name = TypeDef.elementName (.struct d) := by
      unfold Attrs.written; rw [show d.attrs.pfx = none from hd.noNs.2.1]; rfl
    rw [encTy_struct hpe, encTy_struct hpe, hw]
    rfl
  | unit _ d i vd hpe hv hsh => exact he d i vd _ hpe hv
  | newtype _ d i vd t x hpe hv hsh _ => exact he d i vd _ hpe hv
  | named _ d i vd fds fs hpe hv hsh hlen _ => exact he d i vd _ hpe hv
  | prim _ d v hpe hd =>
    rw [hpe] at hp
    cases hp
    rw [encTy.eq_def, encTy.eq_def L env ⟨some _, false⟩, hpe]
    rfl

/-- The document that is written: conforming to the program with other names, and sound. -/
theorem recursive_doc {L : Lib} (hx : XmlLaw L) {env env' : Env} (h : OwnOnly env env') (hs : SimpleProgram env')
    (hw : Restores env) (hpr : ∀ p d, env p = some (.prim d) → Inverts d) (hle : LeafEnums env)
    (hhead : ∀ p d r, env p = some (.struct d) → env' p = some (.struct (d.ownedBy r)) →
      r.getD d.name = d.attrs.rename.getD d.name ∨ d.Headed env (r.getD d.name))
    {p : Path} {td : TypeDef} (hp : env p = some td) (hn : isNCName td.elementName = true)
    (hfit : NameFits env' p td.elementName) {v : Val} (hv : HasTy env (.struct p) v) (ht : v.Tame L) (c : Config)
    (hcfg : c.emitCfg.Blank) :
    ∃ s y k, toStringWithConfig L env c p v = .ok s ∧ IsDoc (L.parse s) y ∧ treeNode L env (flatConfN L env k) y p ∧
      decodeDocN L env k y p = .ok v := by
  have hw' := h.restores hw
  have hv' := h.hasTy hv
  have hpr' : ∀ p d, env' p = some (.prim d) → Inverts d := fun p d hp => hpr p d (h.symm.other p _ hp (by simp))
  have hcan := canon_of_tame hx (rtOk_simple hs) (carries_simple hs) (plainPayloads_simple hs) hw' hpr' hv' ht
  have henc : Enc L env' [] p v := (canon_enc hx (rtOk_simple hs) hcan).item.enc p rfl
  have hG := (rtOk_simple hs).table
  have hdecl : encTyDecls env' p v = [] := List.eq_nil_iff_forall_not_mem.mpr fun e he => by simpa using henc.decls e he
  have hfd : firstDecls (encTyDecls env' p v) ++ [] = [] := by rw [hdecl]; rfl
  have hsp := XmlText.splitColon_none (XmlText.ncName_noColon hn)
  obtain ⟨td', hp'⟩ : ∃ td', env' p = some td' := by
    cases hp' : env' p with
    | none => rw [h.symm.none p hp'] at hp; cases hp
    | some td' => exact ⟨td', rfl⟩
  obtain ⟨as, nss, ks, e1, e2, e3, e4, -⟩ := henc.elem hG (sc := []) (nm := td.elementName) (by simp)
    (by unfold isQName; rw [hsp]; exact hn) (by unfold Bound; rw [hsp]; trivial)
    (by rw [hfd, readElemName_nc hn]; exact fits_name hs hp' hfit rfl)
  have henc2 : encTy L env .root p v = [.elem td.elementName as nss ks] := by
    rw [root_named h hs hp hle hv, ← e1]
    exact encTy_own h hs hw hle hv p v rfl (by simp [itemsOf]) _ (.inr rfl)
  have hnss : nss = [] := by
    have := henc.place ⟨some td.elementName, false⟩ rfl
    rw [e1, hdecl] at this
    simp only [List.cons.injEq, WNode.elem.injEq] at this
    exact this.1.2.2.1
  obtain ⟨y, hlike, hparse⟩ := hx.doc td.elementName as nss ks (WNode.elem td.elementName as nss ks).events e2 rfl
  have hclean := (clean_of_like hG _ [] (by simp) e2 e3 y _ as nss ks rfl hlike).1
  obtain ⟨k0, hk0⟩ := e4.reads hx hG
  obtain ⟨hconf, hdec⟩ := hk0 k0 (Nat.le_refl _) y (.strip _ _ (like_strip _ _ hlike).symm) hclean
  have hstrip := like_strip _ _ hlike
  subst hnss
  have hy : ∃ as' m' ks', y = .elem ⟨td.elementName, none, none⟩ as' m' ks' ∧ Node.stripL ks' = Node.stripL (WNode.backL [] [] ks) := by
    cases y with
    | text s => simp [WNode.back, Node.strip] at hstrip
    | elem n' as' m' ks' =>
      simp only [WNode.back, Node.strip, Node.elem.injEq, List.append_nil] at hstrip
      rw [readElemName_nc hn] at hstrip
      exact ⟨as', m', ks', by rw [hstrip.1], hstrip.2.2.2⟩
  obtain ⟨as', m', ks', rfl, hks⟩ := hy
  refine ⟨L.emit c.emitCfg (WNode.elem td.elementName as [] ks).events, _, k0, ?_, ⟨[], ?_⟩, treeNode_own h hs hle hconf ?_, ?_⟩
  · rw [toString_eq (L := L) (h.serOk (serOk_simple hs hw')) hv c, henc2]
    simp [WNode.eventsL]
  · rw [hparse c.emitCfg hcfg, List.append_nil]
    exact content_doc _
  · intro d n as m ks1 hpd hyy
    cases hyy
    obtain ⟨g1, g2⟩ := enc_heads (L := L) h hs (fun p d hp => (hpr' p d hp).1) (fun p d hp f hf => (hw' p d hp f hf).2.1) hhead hv' p v rfl
      (by simp [itemsOf]) d hpd td.elementName hfit _ _ _ _ (by rw [e1]; exact List.mem_singleton.mpr rfl)
    refine ⟨headFirst_strip.mp ?_, (headKids_strip _ _).mp ?_⟩
    · rw [hks]; exact headFirst_strip.mpr g1
    · rw [hks]; exact (headKids_strip _ _).mpr g2
  · unfold decodeDocN
    rw [decodeN_own h, decodeDoc_own h]
    unfold decodeDocWith
    rw [hdec]
    split
    · rw [if_pos]
      intro u hu
      cases hu
    · rfl

end Yaserde
