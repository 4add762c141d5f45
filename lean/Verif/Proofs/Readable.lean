import Verif.Proofs.OpenTree
import Verif.Proofs.Within
import Verif.Props.Runtime
/-
Documents that are read as they should be: those that conform (`ConfN`), and those of recursive types
(`treeNode`: structs may be named like one of their own fields).
-/

set_option autoImplicit false

namespace Yaserde

/-- What the generated code makes of a document (`openNode`), both successes and failures. -/
theorem returns_open (L : Lib) (env : Env) (k : Nat) (p : Path) (s : Str) (x : Node) (hdoc : IsDoc (L.parse s) x)
    (hfits : openFitsNode L env (flatConfN L env k) x p) (hfloat : floatNode L env x p = true) (r : Res Val) :
    Returns L env p s r ↔ r = decodeDocWith env (openNode L env (flatN L env k)) x p := by
  obtain ⟨post, hpost⟩ := hdoc
  have hat := at_new' (L.parse s)
  rw [hpost] at hat
  have hrun := deser_open L env (x.events.length + levelFuel k + 1) k x p hfits hfloat (by omega) 0 post _ _ hat
  obtain ⟨h1, h2⟩ := hrun.doc
  have h3 : openAt L env k 0 x p = decodeDocWith env (openNode L env (flatN L env k)) x p := by
    simp only [openAt, if_true]
  rw [h3] at h1 h2
  have hret : Returns L env p s (decodeDocWith env (openNode L env (flatN L env k)) x p) := ⟨h2, _, h1⟩
  constructor
  · intro h; exact (C27_budget_irrelevant L env p s).2 _ _ h hret
  · rintro rfl; exact hret

/-- Documents of recursive types. -/
theorem returns_tree (L : Lib) (env : Env) (k : Nat) (p : Path) (s : Str) (x : Node) (hdoc : IsDoc (L.parse s) x)
    (htree : treeNode L env (flatConfN L env k) x p) (v : Val) :
    Returns L env p s (.ok v) ↔ decodeDocN L env k x p = .ok v := by
  obtain ⟨h1, h2, h3⟩ := treeNode_ok L env (flatN L env k) _ x p htree
  rw [returns_open L env k p s x hdoc h1 h2]
  have h4 : SameOk (decodeDocWith env (openNode L env (flatN L env k)) x p) (decodeDocN L env k x p) := by
    intro v
    have h5 := h3 v
    rw [← decodeN_eq] at h5
    unfold decodeDocN decodeDocWith
    split
    · split
      · exact h5
      · exact Iff.rfl
    · exact h5
  exact ⟨fun h => (h4 v).mp h.symm, fun h => ((h4 v).mpr h).symm⟩

/-- A conforming document, of any type and with any number of levels of embedding (flattened fields,
attributes of derived types), is read as the
declarative reading says — both successes and failures. -/
theorem returns_iff (L : Lib) (env : Env) (k : Nat) (p : Path) (s : Str) (x : Node)
    (hdoc : IsDoc (L.parse s) x) (hconf : ConfN L env k x p) (r : Res Val) :
    Returns L env p s r ↔ r = decodeDocN L env k x p := by
  obtain ⟨post, hpost⟩ := hdoc
  have hat := at_new' (L.parse s)
  rw [hpost] at hat
  have hrun := deser_tree L env (x.events.length + levelFuel k + 1) k x p hconf (by omega) 0 post _ _ hat
  obtain ⟨h1, h2⟩ := hrun.doc
  have h3 : decodeAt L env k 0 x p = decodeDocN L env k x p := by
    simp only [decodeAt, if_true, decodeDocN]
  rw [h3] at h1 h2
  have hret : Returns L env p s (decodeDocN L env k x p) := ⟨h2, _, h1⟩
  constructor
  · intro h; exact (C27_budget_irrelevant L env p s).2 _ _ h hret
  · rintro rfl; exact hret

/-- The element conforms, or is a tree of structs each of which may be named like one of its own fields. -/
def Readable (L : Lib) (env : Env) (k : Nat) (x : Node) (p : Path) : Prop :=
  ConfN L env k x p ∨ treeNode L env (flatConfN L env k) x p

section
variable {L : Lib} {env : Env} {k : Nat} {p : Path}

theorem Readable.returns {s : Str} {x : Node} (h : Readable L env k x p) (hdoc : IsDoc (L.parse s) x) (v : Val) :
    Returns L env p s (.ok v) ↔ decodeDocN L env k x p = .ok v := by
  rcases h with h | h
  · rw [returns_iff L env k p s x hdoc h, eq_comm]
  · exact returns_tree L env k p s x hdoc h v

theorem tree_struct {fc : Node → Path → Prop} {d : StructDef} {n : Name} {as : List Attr} {m : NsMap} {ks : List Node}
    (hp : env p = some (.struct d)) (h : treeNode L env fc (.elem n as m ks) p) :
    (d.hasFlat = false ∧ d.Plain ∧ AttrsFit fc d as ∧ soundFirst env d n ks ∧ treeKids L env fc d ks) ∨
      (d.hasFlat = true ∧ ConfWith L env fc (.elem n as m ks) p) := by
  simp only [treeNode, Env.unflat, hp] at h
  cases hf : d.hasFlat with
  | false => rw [hf] at h; exact .inl ⟨rfl, h⟩
  | true => rw [hf] at h; exact .inr ⟨rfl, h⟩

theorem Readable.plain {d : StructDef} {n : Name} {as : List Attr} {m : NsMap} {ks : List Node}
    (h : Readable L env k (.elem n as m ks) p) (hp : env p = some (.struct d)) : d.Plain := by
  rcases h with h | h
  · rw [confN_eq, ConfWith, hp] at h
    exact h.1
  · rcases tree_struct hp h with h | ⟨-, h⟩
    · exact h.2.1
    · rw [ConfWith, hp] at h
      exact h.1

theorem Readable.attrs {d : StructDef} {n : Name} {as : List Attr} {m : NsMap} {ks : List Node}
    (h : Readable L env k (.elem n as m ks) p) (hp : env p = some (.struct d)) : AttrsFit (flatConfN L env k) d as := by
  rcases h with h | h
  · rw [confN_eq, ConfWith, hp] at h
    exact h.2.2.2.2
  · rcases tree_struct hp h with h | ⟨-, h⟩
    · exact h.2.2.1
    · rw [ConfWith, hp] at h
      exact h.2.2.2.2

theorem Readable.conf {d : StructDef} {n : Name} {as : List Attr} {m : NsMap} {ks : List Node}
    (h : Readable L env k (.elem n as m ks) p) (hp : env p = some (.struct d)) (hf : d.hasFlat = true) :
    ConfN L env k (.elem n as m ks) p := by
  rcases h with h | h
  · exact h
  · rcases tree_struct hp h with ⟨h, -⟩ | ⟨-, h⟩
    · rw [hf] at h; cases h
    · rw [confN_eq]; exact h

end

/-! ### Changes inside a document -/

section
variable {L : Lib} {env : Env} {fc : Node → Path → Prop}

theorem treeKids_mem {d : StructDef} {ks : List Node} (h : treeKids L env fc d ks) : ∀ x ∈ ks, treeKid L env fc d x := by
  induction ks with
  | nil => simp
  | cons k ks ih =>
    rw [treeKids] at h
    intro x hx
    rcases List.mem_cons.mp hx with rfl | hx
    · exact h.1
    · exact ih h.2 x hx

theorem treeKid_node {d : StructDef} {n : Name} {as : List Attr} {m : NsMap} {ks : List Node} {i : Nat} {f : FieldDef}
    {q : Path} (h : treeKid L env fc d (.elem n as m ks)) (hi : d.fieldFor n = some i) (hf : d.fields[i]? = some f)
    (hq : f.ty.core = .struct q) : treeNode L env fc (.elem n as m ks) q := by
  have hc : d.claim n = some (i, .struct q) := by simp [StructDef.claim, hi, hf, hq]
  rw [treeKid, hc] at h
  dsimp only at h
  simp only [treeNode]
  cases hu : env.unflat q with
  | none => rw [hu] at h; exact h.2
  | some d' => rw [hu] at h; exact h.2

theorem treeNode_mono {fc' : Node → Path → Prop} (hm : ∀ x q, fc x q → fc' x q) :
    ∀ (x : Node) (p : Path), treeNode L env fc x p → treeNode L env fc' x p := by
  have hattr : ∀ (d : StructDef) (as : List Attr), AttrsFit fc d as → AttrsFit fc' d as :=
    fun d as h f hf ha q hq a hmem hl s hs => hm _ _ (h f hf ha q hq a hmem hl s hs)
  have key : ∀ (N : Nat) (d : StructDef) (ks : List Node), sizeOf ks ≤ N → treeKids L env fc d ks → treeKids L env fc' d ks := by
    intro N
    induction N with
    | zero => intro d ks hN; cases ks <;> simp at hN
    | succ N ih =>
      intro d ks hN h
      cases ks with
      | nil => rw [treeKids]; trivial
      | cons x ks =>
        rw [treeKids] at h ⊢
        simp only [List.cons.sizeOf_spec] at hN
        refine ⟨?_, ih d ks (by omega) h.2⟩
        have h := h.1
        cases x with
        | text s => rw [treeKid] at h ⊢; exact h
        | elem n as m cks =>
          simp only [Node.elem.sizeOf_spec] at hN
          rw [treeKid] at h ⊢
          refine ⟨h.1, ?_⟩
          have h := h.2
          split at h
          · exact h
          · cases hu : env.unflat _ with
            | none => rw [hu] at h; exact confWith_mono hm _ _ h
            | some d' =>
              rw [hu] at h
              obtain ⟨h1, h2, h3, h4⟩ := h
              exact ⟨h1, hattr _ _ h2, h3, ih d' cks (by omega) h4⟩
          · trivial
  intro x p h
  cases x with
  | text s => exact h.elim
  | elem n as m ks =>
    simp only [treeNode] at h ⊢
    cases hu : env.unflat p with
    | none => rw [hu] at h; exact confWith_mono hm _ _ h
    | some d =>
      rw [hu] at h
      obtain ⟨h1, h2, h3, h4⟩ := h
      exact ⟨h1, hattr _ _ h2, h3, key _ d ks (Nat.le_refl _) h4⟩

end

section
variable {L : Lib} {env : Env} {k : Nat}

/-- Without flattened fields (compare `Conf.confN`). -/
theorem tree_readable {x : Node} {p : Path} (h : treeNode L env (attrConf L env k) x p) : Readable L env k x p := by
  refine .inr (treeNode_mono ?_ x p h)
  intro x q hx
  cases k with
  | zero => exact hx.elim
  | succ k =>
    cases x with
    | text s => exact hx
    | elem => exact hx.elim

theorem tree_noflat {p : Path} {d : StructDef} {n : Name} {as : List Attr} {m : NsMap} {ks : List Node}
    (hp : env p = some (.struct d)) (h : treeNode L env (attrConf L env k) (.elem n as m ks) p) :
    d.hasFlat = false ∧ treeKids L env (attrConf L env k) d ks := by
  rcases tree_struct hp h with h | ⟨hf, h⟩
  · exact ⟨h.1, h.2.2.2.2⟩
  · rw [← conf_eq, conf_struct hp] at h
    rw [h.2.2.2.1] at hf
    cases hf

/-- Replacing an element somewhere in a document of a recursive type by one that is read the same way. -/
theorem within_tree (E : ResRel) {R : StructDef → Node → Node → Prop}
    (hE : ∀ d x y, R d x y → ∃ n as m ks, x = .elem n as m ks)
    (hC : ∀ p d x y, env p = some (.struct d) → R d x y → Conf L env k x p → Conf L env k y p)
    (hR : ∀ p d x y, env p = some (.struct d) → R d x y → d.hasFlat = false →
      E.rel (decodeN L env k x p) (decodeN L env k y p))
    {p : Path} {x y : Node} (h : Within env R p x y) (ht : treeNode L env (attrConf L env k) x p) :
    E.rel (decodeN L env k x p) (decodeN L env k y p) := by
  induction h with
  | here hp h =>
    obtain ⟨n, as, m, ks, rfl⟩ := hE _ _ _ h
    exact hR _ _ _ _ hp h (tree_noflat hp ht).1
  | @field p q d i f n cn as m cas cas' cm cm' cks cks' pre post hp hi hf hq _ ih =>
    obtain ⟨h1, h2⟩ := tree_noflat hp ht
    have h3 := treeKid_node (treeKids_mem h2 (.elem cn cas cm cks) (by simp)) hi hf hq
    rw [decode_struct hp _ _ _ _ h1, decode_struct hp _ _ _ _ h1]
    refine E.bind (E.refl _) fun ca => E.bind ?_ fun ck => E.refl _
    exact kidContribs_mid E L (decodeN L env k) d hi hf hq (ih h3)
  | @variant p q d i v t n cn as m cas cas' cm cm' cks cks' pre post hp hi hv hs hq h _ =>
    have hc : Conf L env k (.elem n as m (pre ++ .elem cn cas cm cks :: post)) p := by
      simp only [treeNode, Env.unflat, hp] at ht
      rw [conf_eq]; exact ht
    have hR' : ∀ p d x y, env p = some (.struct d) → R d x y → Conf L env k x p →
        Conf L env k y p ∧ E.rel (decodeN L env k x p) (decodeN L env k y p) := by
      intro p d x y hp h hc
      refine ⟨hC p d x y hp h hc, hR p d x y hp h ?_⟩
      obtain ⟨n, as, m, ks, rfl⟩ := hE _ _ _ h
      exact ((conf_struct hp).mp hc).2.2.2.1
    exact (within_congr E hR' (.variant (pre := pre) (post := post) hp hi hv hs hq h) hc).2

theorem treeKids_iff {fc : Node → Path → Prop} {d : StructDef} {ks : List Node} :
    treeKids L env fc d ks ↔ ∀ x ∈ ks, treeKid L env fc d x := by
  refine ⟨treeKids_mem, fun h => ?_⟩
  induction ks with
  | nil => rw [treeKids]; trivial
  | cons k ks ih =>
    rw [treeKids]
    exact ⟨h k (List.mem_cons_self ..), ih fun x hx => h x (List.mem_cons_of_mem _ hx)⟩

/-- An element inside which something changes (not its name, nor its attributes if it is an enum's). -/
theorem within_stands {R : StructDef → Node → Node → Prop} {q : Path} {x y : Node} (h : Within env R q x y)
    (hs : standsIn env x q = false) : standsIn env y q = false := by
  cases h with
  | here hp => simp [standsIn, hp]
  | field hp => simp [standsIn, hp]
  | variant hp =>
    simp only [standsIn, hp, Node.content, Node.name, Node.attrs, unitByText_elem] at hs ⊢
    exact hs

theorem takes_field {d : StructDef} {n : Name} {i : Nat} {q : Path} (h : d.takes n = some (i, q)) :
    ∃ f, d.fields[i]? = some f ∧ f.ty.core = .struct q := by
  unfold StructDef.takes at h
  split at h
  · cases h
  · split at h
    · rename_i i' q' hc
      cases h
      simp only [StructDef.claim, Option.bind_eq_some_iff, Option.map_eq_some_iff] at hc
      obtain ⟨i'', hi'', f, hf, he⟩ := hc
      obtain ⟨rfl, he2⟩ := Prod.mk.inj he
      exact ⟨f, hf, he2⟩
    · cases h

/-- The changed document is still one of a recursive type. -/
theorem within_tree_conf {R : StructDef → Node → Node → Prop}
    (hC : ∀ p d x y, env p = some (.struct d) → R d x y → Conf L env k x p → Conf L env k y p)
    (hT : ∀ p d x y, env p = some (.struct d) → R d x y → treeNode L env (attrConf L env k) x p →
      treeNode L env (attrConf L env k) y p)
    {p : Path} {x y : Node} (h : Within env R p x y) (ht : treeNode L env (attrConf L env k) x p) :
    treeNode L env (attrConf L env k) y p := by
  induction h with
  | here hp h => exact hT _ _ _ _ hp h ht
  | @field p q d i f n cn as m cas cas' cm cm' cks cks' pre post hp hi hf hq hw ih =>
    have hnf := (tree_noflat hp ht).1
    rcases tree_struct hp ht with ⟨-, h1, h2, h3, h4⟩ | ⟨h, -⟩
    rotate_left
    · rw [hnf] at h; cases h
    have hu : env.unflat p = some d := by simp [Env.unflat, hp, hnf]
    simp only [treeNode, hu]
    have h4' := treeKids_mem h4
    have hkid := h4' (.elem cn cas cm cks) (by simp)
    refine ⟨h1, h2, ?_, treeKids_iff.mpr fun x hx => ?_⟩
    · rcases h3 with h3 | h3 | ⟨i1, q1, ht1, h3⟩
      · exact .inl h3
      · exact .inr (.inl h3)
      · refine .inr (.inr ⟨i1, q1, ht1, fun n1 as1 m1 ks1 more he => ?_⟩)
        cases pre with
        | cons a pre =>
          rw [List.cons_append, List.cons.injEq] at he
          obtain ⟨rfl, -⟩ := he
          exact h3 n1 as1 m1 ks1 (pre ++ .elem cn cas cm cks :: post) rfl
        | nil =>
          rw [List.nil_append, List.cons.injEq, Node.elem.injEq] at he
          obtain ⟨⟨rfl, rfl, rfl, rfl⟩, -⟩ := he
          obtain ⟨h5, h6⟩ := h3 cn cas cm cks post rfl
          refine ⟨h5, ?_⟩
          obtain ⟨f1, hf1, hq1⟩ := takes_field ht1
          rw [hi] at h5
          cases h5
          rw [hf] at hf1
          cases hf1
          rw [hq] at hq1
          cases hq1
          exact within_stands hw h6
    · rcases List.mem_append.mp hx with hx | hx
      · exact h4' x (by simp [hx])
      rcases List.mem_cons.mp hx with rfl | hx
      · have h5 := ih (treeKid_node hkid hi hf hq)
        have hc : d.claim cn = some (i, .struct q) := by simp [StructDef.claim, hi, hf, hq]
        rw [treeKid, hc] at hkid ⊢
        refine ⟨hkid.1, ?_⟩
        simp only [treeNode] at h5
        exact h5
      · exact h4' x (by simp [hx])
  | @variant p q d i v t n cn as m cas cas' cm cm' cks cks' pre post hp hi hv hs hq h _ =>
    have hc : Conf L env k (.elem n as m (pre ++ .elem cn cas cm cks :: post)) p := by
      simp only [treeNode, Env.unflat, hp] at ht
      rw [conf_eq]; exact ht
    have := (within_congr ⟨fun _ _ => True, fun _ => trivial, fun _ _ => trivial⟩
      (fun p d x y hp h hc => ⟨hC p d x y hp h hc, trivial⟩)
      (.variant (pre := pre) (post := post) hp hi hv hs hq h) hc).1
    simp only [treeNode, Env.unflat, hp]
    rw [← conf_eq]; exact this

/-- Inserting an unknown child, not as the first one of an element that is taken for one of its own children. -/
theorem insertLater_tree (p : Path) (d : StructDef) (x y : Node) (hp : env p = some (.struct d)) (h : InsertLater d x y)
    (ht : treeNode L env (attrConf L env k) x p) : treeNode L env (attrConf L env k) y p := by
  obtain ⟨n, as, m, pre, post, un, uas, um, uks, rfl, rfl, hun, hns, hpre⟩ := h
  have hnf := (tree_noflat hp ht).1
  rcases tree_struct hp ht with ⟨-, h1, h2, h3, h4⟩ | ⟨h, -⟩
  rotate_left
  · rw [hnf] at h; cases h
  have hu : env.unflat p = some d := by simp [Env.unflat, hp, hnf]
  simp only [treeNode, hu]
  refine ⟨h1, h2, ?_, treeKids_iff.mpr fun x hx => ?_⟩
  · rcases h3 with h3 | h3 | ⟨i1, q1, ht1, h3⟩
    · exact .inl h3
    · exact .inr (.inl h3)
    · rcases hpre with hpre | hpre
      · refine .inr (.inr ⟨i1, q1, ht1, fun n1 as1 m1 ks1 more he => ?_⟩)
        cases pre with
        | nil => exact absurd rfl hpre
        | cons a pre =>
          rw [List.cons_append, List.cons.injEq] at he
          obtain ⟨rfl, -⟩ := he
          exact h3 n1 as1 m1 ks1 (pre ++ post) rfl
      · rw [hpre] at ht1; cases ht1
  · have hff := fieldFor_none hun
    rcases List.mem_append.mp hx with hx | hx
    · exact treeKids_mem h4 x (by simp [hx])
    rcases List.mem_cons.mp hx with rfl | hx
    · rw [treeKid]
      refine ⟨hns, ?_⟩
      simp [StructDef.claim, hff]
    · exact treeKids_mem h4 x (by simp [hx])

theorem removeMalformed_tree (p : Path) (d : StructDef) (x y : Node) (hp : env p = some (.struct d))
    (h : RemoveMalformed L d x y) (ht : treeNode L env (attrConf L env k) x p) : treeNode L env (attrConf L env k) y p := by
  obtain ⟨n, as, m, pre, post, cn, cas, cm, cks, i, f, t, rfl, rfl, hi, hf, hty, hbad⟩ := h
  have hnf := (tree_noflat hp ht).1
  rcases tree_struct hp ht with ⟨-, h1, h2, h3, h4⟩ | ⟨h, -⟩
  rotate_left
  · rw [hnf] at h; cases h
  have hu : env.unflat p = some d := by simp [Env.unflat, hp, hnf]
  simp only [treeNode, hu]
  refine ⟨h1, h2, ?_, treeKids_iff.mpr fun x hx => treeKids_mem h4 x ?_⟩
  · rcases h3 with h3 | h3 | ⟨i1, q1, ht1, h3⟩
    · exact .inl h3
    · exact .inr (.inl h3)
    · refine .inr (.inr ⟨i1, q1, ht1, fun n1 as1 m1 ks1 more he => ?_⟩)
      cases pre with
      | cons a pre =>
        rw [List.cons_append, List.cons.injEq] at he
        obtain ⟨rfl, -⟩ := he
        exact h3 n1 as1 m1 ks1 (pre ++ .elem cn cas cm cks :: post) rfl
      | nil =>
        obtain ⟨h5, -⟩ := h3 cn cas cm cks post rfl
        obtain ⟨f1, hf1, hq1⟩ := takes_field ht1
        rw [hi] at h5
        cases h5
        rw [hf] at hf1
        cases hf1
        rw [hty] at hq1
        cases hq1
  · rcases List.mem_append.mp hx with hx | hx <;> simp [hx]

end

end Yaserde
