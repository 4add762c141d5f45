import Verif.Tests.Check
import Verif.Spec.RoundTrip
import Verif.Props.Sample
/-
Decision procedures used to discharge the hypotheses of the round-trip theorems for concrete programs and values.
-/

set_option autoImplicit false

namespace Yaserde

/-! ### Programs -/

/-- An `Item`, reduced to what fields compare. -/
inductive ItemKey where
  | attr (label : Str)
  | text
  | elem (loc ns : Str)
  deriving DecidableEq

def Item.slot : Item → ItemKey
  | .attr l => .attr l
  | .text => .text
  | .elem n => .elem n.loc (n.ns.getD [])

def FieldDef.ownSlots (root : Attrs) (f : FieldDef) : List ItemKey :=
  (if f.attrs.isAttr then [.attr f.label] else []) ++ (if f.attrs.text then [.text] else []) ++
    (if f.isElem then [.elem (f.attrs.rename.getD f.ident) ((root.namespaces.find f.attrs.pfx).getD [])] else [])

theorem FieldDef.ownSlots_mem {root : Attrs} {f : FieldDef} {it : Item} (h : f.takesOwn root it) :
    it.slot ∈ f.ownSlots root := by
  cases it with
  | attr l => obtain ⟨h1, h2⟩ := h; simp [ownSlots, h1, h2, Item.slot]
  | text => have h : f.attrs.text = true := h; simp [ownSlots, h, Item.slot]
  | elem n => obtain ⟨h1, h2, h3⟩ := h; simp [ownSlots, h1, h2, h3, Item.slot]

def fieldSlots (sub : Path → Option (List ItemKey)) (root : Attrs) (f : FieldDef) : Option (List ItemKey) :=
  if !f.attrs.isAttr && f.attrs.flatten then
    match f.ty with
    | .struct q => (sub q).map fun l => f.ownSlots root ++ l
    | _ => some (f.ownSlots root)
  else some (f.ownSlots root)

def allSlots (sub : Path → Option (List ItemKey)) (root : Attrs) : List FieldDef → Option (List (List ItemKey))
  | [] => some []
  | f :: fs =>
    match fieldSlots sub root f, allSlots sub root fs with
    | some a, some b => some (a :: b)
    | _, _ => none

theorem allSlots_get {sub : Path → Option (List ItemKey)} {root : Attrs} : ∀ {fs : List FieldDef} {ls : List (List ItemKey)},
    allSlots sub root fs = some ls → ∀ (i : Nat) (f : FieldDef), fs[i]? = some f →
      ∃ l, ls[i]? = some l ∧ fieldSlots sub root f = some l
  | [], _, _, i, f, hf => by simp at hf
  | g :: fs, ls, h, i, f, hf => by
    unfold allSlots at h
    split at h
    · rename_i a b ha hb
      simp only [Option.some.injEq] at h
      subst h
      cases i with
      | zero => simp at hf; subst hf; exact ⟨a, rfl, ha⟩
      | succ i => exact allSlots_get hb i f (by simpa using hf)
    · cases h

/-- All slots of a struct, including those of flattened structs; `none` if the budget does not suffice. -/
def slotsN (env : Env) : Nat → Path → Option (List ItemKey)
  | 0, _ => none
  | k + 1, p =>
    match env p with
    | some (.struct d) => (allSlots (slotsN env k) d.attrs d.fields).map List.flatten
    | _ => some []

theorem takes_slot {env : Env} {p : Path} {it : Item} (h : Takes env p it) :
    ∀ (k : Nat) (l : List ItemKey), slotsN env k p = some l → it.slot ∈ l := by
  induction h with
  | own p d f it hp hf h =>
    intro k l hl
    cases k with
    | zero => cases hl
    | succ k =>
      simp only [slotsN, hp, Option.map_eq_some_iff] at hl
      obtain ⟨ls, h1, rfl⟩ := hl
      obtain ⟨i, hi⟩ := List.mem_iff_getElem?.1 hf
      obtain ⟨l, h2, h3⟩ := allSlots_get h1 i f hi
      refine List.mem_flatten.2 ⟨l, List.mem_of_getElem? h2, ?_⟩
      have := FieldDef.ownSlots_mem h
      unfold fieldSlots at h3
      split at h3
      · split at h3
        · rw [Option.map_eq_some_iff] at h3
          obtain ⟨_, -, rfl⟩ := h3
          exact List.mem_append_left _ this
        · cases h3; exact this
      · cases h3; exact this
  | flat p d f q it hp hf hfl hty h ih =>
    intro k l hl
    cases k with
    | zero => cases hl
    | succ k =>
      simp only [slotsN, hp, Option.map_eq_some_iff] at hl
      obtain ⟨ls, h1, rfl⟩ := hl
      obtain ⟨i, hi⟩ := List.mem_iff_getElem?.1 hf
      obtain ⟨l, h2, h3⟩ := allSlots_get h1 i f hi
      refine List.mem_flatten.2 ⟨l, List.mem_of_getElem? h2, ?_⟩
      unfold fieldSlots at h3
      rw [if_pos (by simp [hfl.1, hfl.2]), hty] at h3
      simp only [Option.map_eq_some_iff] at h3
      obtain ⟨l', h4, rfl⟩ := h3
      exact List.mem_append_right _ (ih k l' h4)

theorem fieldTakes_slot {env : Env} {d : StructDef} {f : FieldDef} {it : Item} (h : FieldTakes env d f it) (k : Nat)
    (l : List ItemKey) (hl : fieldSlots (slotsN env k) d.attrs f = some l) : it.slot ∈ l := by
  unfold fieldSlots at hl
  rcases h with h | ⟨hfl, q, hty, h⟩
  · have := FieldDef.ownSlots_mem h
    split at hl
    · split at hl
      · rw [Option.map_eq_some_iff] at hl
        obtain ⟨_, -, rfl⟩ := hl
        exact List.mem_append_left _ this
      · cases hl; exact this
    · cases hl; exact this
  · rw [if_pos (by simp [hfl.1, hfl.2]), hty] at hl
    simp only [Option.map_eq_some_iff] at hl
    obtain ⟨l', h4, rfl⟩ := hl
    exact List.mem_append_right _ (takes_slot h k l' h4)

/-- Pairwise disjoint lists. -/
def disjointB : List (List ItemKey) → Bool
  | [] => true
  | l :: ls => ls.all (fun m => l.all fun a => !m.contains a) && disjointB ls

theorem disjoint_of_check : ∀ (ls : List (List ItemKey)), disjointB ls = true → ∀ (i j : Nat) (a b : List ItemKey) (x : ItemKey),
    ls[i]? = some a → ls[j]? = some b → x ∈ a → x ∈ b → i = j
  | [], _, i, _, _, _, _, ha, _, _, _ => by simp at ha
  | l :: ls, h, i, j, a, b, x, ha, hb, hxa, hxb => by
    rw [disjointB, Bool.and_eq_true, List.all_eq_true] at h
    have key : ∀ (m : List ItemKey), m ∈ ls → x ∈ l → x ∈ m → False := by
      intro m hm h1 h2
      have := h.1 m hm
      rw [List.all_eq_true] at this
      have := this x h1
      simp [h2] at this
    cases i with
    | zero =>
      cases j with
      | zero => rfl
      | succ j =>
        simp at ha hb; subst ha
        exact (key b (List.mem_of_getElem? hb) hxa hxb).elim
    | succ i =>
      cases j with
      | zero =>
        simp at ha hb; subst hb
        exact (key a (List.mem_of_getElem? ha) hxb hxa).elim
      | succ j =>
        simp at ha hb
        rw [disjoint_of_check ls h.2 i j a b x ha hb hxa hxb]

def pfxOkB (G : NsMap) (root : Attrs) : Option Str → Bool
  | none => List.all G fun e => e.1 != []
  | some p => p != [] && root.namespaces.any fun e => e.1 == p

theorem pfxOk_of_check {G : NsMap} {root : Attrs} {p : Option Str} (h : pfxOkB G root p = true) : PfxOk G root p := by
  cases p with
  | none => intro e he; have := List.all_eq_true.1 h e he; simpa using this
  | some p =>
    simp only [pfxOkB, Bool.and_eq_true, bne_iff_ne, ne_eq, List.any_eq_true, beq_iff_eq] at h
    obtain ⟨h1, e, h2, rfl⟩ := h
    exact ⟨h1, e.2, h2⟩

def fitsB (env : Env) : Nat → Path → Str → Option Str → Bool
  | 0, _, _, _ => false
  | k + 1, p, loc, ns =>
    match env p with
    | some (.struct d) =>
      (decide (loc = d.attrs.rename.getD d.name ∧ ns.getD [] = (d.attrs.namespaces.find d.attrs.pfx).getD []) ||
        (d.fieldFor { loc := loc, ns := ns, pfx := none }).isNone) &&
      d.fields.all fun f =>
        if !f.attrs.isAttr && f.attrs.flatten then
          match f.ty with
          | .struct q =>
            (match env q with
              | some (.struct d') => decide (nsOk d'.attrs { loc := loc, ns := ns, pfx := none })
              | _ => true) && fitsB env k q loc ns
          | _ => true
        else true
    | some (.enum d) => decide (nsOk d.attrs { loc := loc, ns := ns, pfx := none }) &&
        (d.attrs.tag.isSome || (d.variantFor loc).isNone)
    | some (.prim _) => true
    | none => false

theorem fits_of_check {env : Env} : ∀ (k : Nat) (p : Path) (n : Name), fitsB env k p n.loc n.ns = true → Fits env p n
  | 0, _, _, h => by cases h
  | k + 1, p, n, h => by
    unfold fitsB at h
    split at h
    · rename_i d hp
      rw [Bool.and_eq_true, List.all_eq_true] at h
      obtain ⟨h1, h2⟩ := h
      refine .struct p d n hp ?_ ?_ ?_
      · rw [Bool.or_eq_true] at h1
        rcases h1 with h1 | h1
        · exact .inl (of_decide_eq_true h1)
        · exact .inr (Option.isNone_iff_eq_none.1 h1)
      · intro f hf hfl q d' hty hq
        have := h2 f hf
        rw [if_pos (by simp [hfl.1, hfl.2]), hty] at this
        simp only [Bool.and_eq_true, hq] at this
        exact of_decide_eq_true this.1
      · intro f hf hfl q hty
        have := h2 f hf
        rw [if_pos (by simp [hfl.1, hfl.2]), hty] at this
        simp only [Bool.and_eq_true] at this
        exact fits_of_check k q n this.2
    · rename_i d hp
      simp only [Bool.and_eq_true, Bool.or_eq_true, Option.isNone_iff_eq_none] at h
      refine .enum p d n hp (of_decide_eq_true h.1) ?_
      intro ht
      rcases h.2 with h2 | h2
      · rw [ht] at h2; cases h2
      · exact h2
    · rename_i d hp
      exact .prim p d n hp
    · cases h

def FTy.corePath (t : FTy) : Option Path :=
  match t.core with | .struct q => some q | _ => none

def FTy.coreSimple (t : FTy) : Bool :=
  match t.core with | .simple _ => true | _ => false

theorem FTy.corePath_eq {t : FTy} {q : Path} (h : t.core = .struct q) : t.corePath = some q := by
  unfold corePath; rw [h]

theorem FTy.of_corePath {t : FTy} (h : t.corePath.isSome = true) : ∃ q, t.core = .struct q := by
  unfold corePath at h
  split at h
  · exact ⟨_, by assumption⟩
  · cases h

theorem FTy.of_coreSimple {t : FTy} (h : t.coreSimple = true) : ∃ s, t.core = .simple s := by
  unfold coreSimple at h
  split at h
  · exact ⟨_, by assumption⟩
  · cases h

def FieldDef.plainB (f : FieldDef) : Bool :=
  (f.ty.coreSimple || f.ty.corePath.isSome) &&
    (!f.attrs.text || (f.ty == .simple .string || f.ty == .opt (.simple .string))) &&
    (!(!f.attrs.isAttr && f.attrs.flatten) || (match f.ty with | .struct _ => true | .opt (.struct _) => true | _ => false))

theorem plain_of_check {d : StructDef} (h : d.fields.all FieldDef.plainB = true) : d.Plain := by
  rw [List.all_eq_true] at h
  constructor <;> intro f hf
  all_goals
    have := h f hf
    unfold FieldDef.plainB at this
    simp only [Bool.and_eq_true] at this
    obtain ⟨⟨h2, h3⟩, h4⟩ := this
  · rw [Bool.or_eq_true] at h2
    rcases h2 with h2 | h2
    · exact .inl (FTy.of_coreSimple h2)
    · exact .inr (FTy.of_corePath h2)
  · intro ht
    rw [ht] at h3
    simpa using h3
  · intro ha hfl
    simp only [ha, hfl, Bool.not_false, Bool.and_true, Bool.not_true, Bool.false_or] at h4
    split at h4
    · rename_i q hq; exact .inl ⟨q, hq⟩
    · rename_i q hq; exact .inr ⟨q, hq⟩
    · cases h4

def StructDef.flatB (d : StructDef) : Bool := d.fields.any fun f => !f.attrs.isAttr && f.attrs.flatten

theorem flatB_iff (d : StructDef) : d.flatB = true ↔ d.HasFlat := by
  simp [StructDef.flatB, StructDef.HasFlat]

/-- No values of the type are read by their text alone. -/
def notByTextB (env : Env) (q : Path) : Bool :=
  match env q with
  | some (.prim _) => false
  | some (.enum e) => e.variants.all fun v => match v.shape with | .unit => false | _ => true
  | _ => true

def FieldDef.rtB (env : Env) (G : NsMap) (k : Nat) (d : StructDef) (f : FieldDef) : Bool :=
  f.plainB && isNCName f.label && (!f.attrs.isAttr || f.label != c!"xmlns") &&
  (!f.attrs.isAttr || (match f.attrs.pfx with | some p => p != [] && d.attrs.namespaces.any fun e => e.1 == p | none => true)) &&
  (!f.isElem || pfxOkB G d.attrs f.attrs.pfx) &&
  (!f.attrs.text || (!f.attrs.isAttr && !f.attrs.flatten)) &&
  (!(!f.attrs.isAttr && f.attrs.flatten) ||
    (match f.ty with | .struct q => (match env q with | some (.struct _) => true | _ => false) | _ => false)) &&
  (!f.isElem || (match f.ty.corePath with
    | some q => fitsB env k q f.label (d.attrs.namespaces.find f.attrs.pfx)
    | none => true)) &&
  (!(d.flatB && f.isElem) || (match f.ty.corePath with | some q => notByTextB env q | none => true)) &&
  (!f.attrs.isAttr || (match f.ty.corePath with
    | some q => isNCName q.flatten && fitsB env k q q.flatten none
    | none => true))

def structRtB (env : Env) (G : NsMap) (k : Nat) (d : StructDef) : Bool :=
  !d.attrs.flatten && d.attrs.decls.all (fun e => G.contains e) && d.fields.all (FieldDef.rtB env G k d) &&
  (match allSlots (slotsN env k) d.attrs d.fields with | some ls => disjointB ls | none => false)

theorem structRt_of_check {env : Env} {G : NsMap} {k : Nat} {d : StructDef} (h : structRtB env G k d = true) :
    StructRt env G d := by
  unfold structRtB at h
  simp only [Bool.and_eq_true] at h
  obtain ⟨⟨⟨h1, h2⟩, h3⟩, h4⟩ := h
  rw [List.all_eq_true] at h3
  have key : ∀ f ∈ d.fields, f.plainB = true ∧ isNCName f.label = true ∧ (!f.attrs.isAttr || f.label != c!"xmlns") = true ∧
      (!f.attrs.isAttr || (match f.attrs.pfx with | some p => p != [] && d.attrs.namespaces.any fun e => e.1 == p | none => true)) = true ∧
      (!f.isElem || pfxOkB G d.attrs f.attrs.pfx) = true ∧
      (!f.attrs.text || (!f.attrs.isAttr && !f.attrs.flatten)) = true ∧
      (!(!f.attrs.isAttr && f.attrs.flatten) ||
        (match f.ty with | .struct q => (match env q with | some (.struct _) => true | _ => false) | _ => false)) = true ∧
      (!f.isElem || (match f.ty.corePath with
        | some q => fitsB env k q f.label (d.attrs.namespaces.find f.attrs.pfx)
        | none => true)) = true ∧
      (!(d.flatB && f.isElem) || (match f.ty.corePath with | some q => notByTextB env q | none => true)) = true ∧
      (!f.attrs.isAttr || (match f.ty.corePath with
        | some q => isNCName q.flatten && fitsB env k q q.flatten none
        | none => true)) = true := by
    intro f hf
    have := h3 f hf
    unfold FieldDef.rtB at this
    rw [Bool.and_eq_true, Bool.and_eq_true, Bool.and_eq_true, Bool.and_eq_true, Bool.and_eq_true, Bool.and_eq_true,
      Bool.and_eq_true, Bool.and_eq_true, Bool.and_eq_true] at this
    obtain ⟨⟨⟨⟨⟨⟨⟨⟨⟨a1, a2⟩, a3⟩, a4⟩, a5⟩, a6⟩, a7⟩, a8⟩, a9⟩, a10⟩ := this
    exact ⟨a1, a2, a3, a4, a5, a6, a7, a8, a9, a10⟩
  constructor
  · exact plain_of_check (List.all_eq_true.2 fun f hf => (key f hf).1)
  · simpa using h1
  · intro e he
    have := List.all_eq_true.1 h2 e he
    simpa using this
  · intro f hf
    obtain ⟨-, a2, a3, -⟩ := key f hf
    refine ⟨a2, ?_⟩
    intro ha
    rw [ha] at a3
    simpa using a3
  · intro f hf ha p hp
    obtain ⟨-, -, -, a4, -⟩ := key f hf
    rw [ha, hp] at a4
    simp only [Bool.not_true, Bool.false_or, Bool.and_eq_true, bne_iff_ne, ne_eq, List.any_eq_true, beq_iff_eq] at a4
    obtain ⟨h1, e, h2, rfl⟩ := a4
    exact ⟨h1, e.2, h2⟩
  · intro f hf ha q hq
    obtain ⟨-, -, -, -, -, -, -, -, -, a10⟩ := key f hf
    rw [ha, FTy.corePath_eq hq] at a10
    simp only [Bool.not_true, Bool.false_or, Bool.and_eq_true] at a10
    exact ⟨a10.1, fits_of_check k q _ a10.2⟩
  · intro f hf he
    obtain ⟨-, -, -, -, a5, -⟩ := key f hf
    rw [he] at a5
    exact pfxOk_of_check (by simpa using a5)
  · intro f hf ht
    obtain ⟨-, -, -, -, -, a6, -⟩ := key f hf
    rw [ht] at a6
    simpa using a6
  · intro f hf hfl
    obtain ⟨-, -, -, -, -, -, a7, -⟩ := key f hf
    rw [hfl.1, hfl.2] at a7
    simp only [Bool.not_false, Bool.and_true, Bool.not_true, Bool.false_or] at a7
    split at a7
    · rename_i q hq
      split at a7
      · rename_i d' hd'; exact ⟨q, d', hq, hd'⟩
      · cases a7
    · cases a7
  · intro i j f g it hf hg htf htg
    split at h4
    · rename_i ls hls
      obtain ⟨a, ha, ha'⟩ := allSlots_get hls i f hf
      obtain ⟨b, hb, hb'⟩ := allSlots_get hls j g hg
      exact disjoint_of_check ls h4 i j a b it.slot ha hb (fieldTakes_slot htf k a ha') (fieldTakes_slot htg k b hb')
    · cases h4
  · intro f hf he q hq n hn
    obtain ⟨-, -, -, -, -, -, -, a8, -⟩ := key f hf
    rw [he, FTy.corePath_eq hq] at a8
    refine fits_of_check k q n ?_
    rw [hn.1, hn.2]
    simpa using a8
  · intro hfl f hf he q hq
    obtain ⟨-, -, -, -, -, -, -, -, a9, -⟩ := key f hf
    rw [he, FTy.corePath_eq hq, (flatB_iff d).2 hfl] at a9
    simp only [Bool.and_true, Bool.not_true, Bool.false_or] at a9
    unfold notByTextB at a9
    constructor
    · intro e he
      rw [he] at a9
      cases a9
    · intro e he v hv hs
      rw [he] at a9
      have := List.all_eq_true.1 a9 v hv
      rw [hs] at this
      cases this

def VShape.isUnit : VShape → Bool
  | .unit => true
  | _ => false

def VShape.isNamed : VShape → Bool
  | .named _ => true
  | _ => false

def VariantDef.key (v : VariantDef) : Str := v.attrs.rename.getD v.ident

def variantRtB (env : Env) (G : NsMap) (k : Nat) (d : EnumDef) (v : VariantDef) (i : Nat) : Bool :=
  isNCName v.key && (v.shape.isNamed || d.variantFor v.key == some i) &&
  (!v.shape.isUnit || (v.attrs.pfx == none || v.attrs.pfx == d.attrs.defaultNs)) &&
  (v.shape.isUnit || pfxOkB G d.attrs v.attrs.pfx) && !v.attrs.flatten &&
  (match v.shape with
    | .newtype t => (match t.corePath with
      | some q => fitsB env k q v.key (d.attrs.namespaces.find v.attrs.pfx)
      | none => true)
    | _ => true)

def variantsRtB (env : Env) (G : NsMap) (k : Nat) (d : EnumDef) : Nat → List VariantDef → Bool
  | _, [] => true
  | i, v :: vs => variantRtB env G k d v i && variantsRtB env G k d (i + 1) vs

theorem variantsRt_get {env : Env} {G : NsMap} {k : Nat} {d : EnumDef} : ∀ (vs : List VariantDef) (i : Nat),
    variantsRtB env G k d i vs = true → ∀ (j : Nat) (v : VariantDef), vs[j]? = some v → variantRtB env G k d v (i + j) = true
  | [], _, _, _, _, hv => by simp at hv
  | w :: vs, i, h, j, v, hv => by
    rw [variantsRtB, Bool.and_eq_true] at h
    cases j with
    | zero => simp at hv; subst hv; exact h.1
    | succ j =>
      have := variantsRt_get vs (i + 1) h.2 j v (by simpa using hv)
      rwa [show i + 1 + j = i + (j + 1) by omega] at this

def enumRtB (env : Env) (G : NsMap) (k : Nat) (d : EnumDef) : Bool :=
  !d.attrs.flatten && (match d.attrs.tag with | some t => isNCName t && t != c!"xmlns" | none => true) &&
    d.attrs.decls.all (fun e => G.contains e) && variantsRtB env G k d 0 d.variants

theorem enumRt_of_check {env : Env} {G : NsMap} {k : Nat} {d : EnumDef} (h : enumRtB env G k d = true) : EnumRt env G d := by
  unfold enumRtB at h
  simp only [Bool.and_eq_true] at h
  obtain ⟨⟨⟨h1, h2⟩, h3⟩, h4⟩ := h
  have key : ∀ (i : Nat) (v : VariantDef), d.variants[i]? = some v → variantRtB env G k d v i = true := by
    intro i v hv
    have := variantsRt_get _ 0 h4 i v hv
    rwa [Nat.zero_add] at this
  have key2 : ∀ v ∈ d.variants, ∃ i, variantRtB env G k d v i = true := by
    intro v hv
    obtain ⟨i, hi⟩ := List.mem_iff_getElem?.1 hv
    exact ⟨i, key i v hi⟩
  constructor
  · simpa using h1
  · intro t ht
    rw [ht] at h2
    simpa using h2
  · intro e he
    have := List.all_eq_true.1 h3 e he
    simpa using this
  · intro v hv
    obtain ⟨i, hi⟩ := key2 v hv
    simp only [variantRtB, Bool.and_eq_true] at hi
    exact hi.1.1.1.1.1
  · intro i v hv hs
    have hi := key i v hv
    simp only [variantRtB, Bool.and_eq_true, Bool.or_eq_true] at hi
    rcases hi.1.1.1.1.2 with h | h
    · unfold VShape.isNamed at h
      split at h
      · rename_i fs hfs; exact (hs fs hfs).elim
      · cases h
    · simpa [VariantDef.key] using h
  · intro v hv hs
    obtain ⟨i, hi⟩ := key2 v hv
    simp only [variantRtB, Bool.and_eq_true] at hi
    have := hi.1.1.1.2
    rw [hs] at this
    simpa [VShape.isUnit] using this
  · intro v hv hs
    obtain ⟨i, hi⟩ := key2 v hv
    simp only [variantRtB, Bool.and_eq_true, Bool.or_eq_true] at hi
    rcases hi.1.1.2 with h | h
    · unfold VShape.isUnit at h
      split at h
      · rename_i hu; exact (hs hu).elim
      · cases h
    · exact pfxOk_of_check h
  · intro v hv
    obtain ⟨i, hi⟩ := key2 v hv
    simp only [variantRtB, Bool.and_eq_true] at hi
    simpa using hi.1.2
  · intro v hv t q hs hq n hn
    obtain ⟨i, hi⟩ := key2 v hv
    unfold variantRtB at hi
    rw [Bool.and_eq_true] at hi
    have := hi.2
    rw [hs] at this
    simp only [FTy.corePath_eq hq] at this
    refine fits_of_check k q n ?_
    rw [hn.1, hn.2]
    exact this

def nsTableB (G : NsMap) : Bool :=
  (List.all G fun d => (d.1 == [] || (isNCName d.1 && d.1 != c!"xml" && d.1 != c!"xmlns")) && isUri d.2) &&
  List.all G fun d => List.all G fun e => d.1 != e.1 || d.2 == e.2

theorem nsTable_of_check {G : NsMap} (h : nsTableB G = true) : NsTable G := by
  unfold nsTableB at h
  rw [Bool.and_eq_true, List.all_eq_true, List.all_eq_true] at h
  constructor
  · intro d hd
    have := h.1 d hd
    simp only [Bool.and_eq_true, Bool.or_eq_true, beq_iff_eq, bne_iff_ne] at this
    rcases this.1 with h | h
    · exact .inl h
    · exact .inr ⟨h.1.1, h.1.2, h.2⟩
  · intro d hd
    have := h.1 d hd
    rw [Bool.and_eq_true] at this
    exact this.2
  · intro d hd e he heq
    have := List.all_eq_true.1 (h.2 d hd) e he
    simp only [Bool.or_eq_true, bne_iff_ne, beq_iff_eq] at this
    exact this.resolve_left (fun h => h heq)

namespace Tests

def rtB (G : NsMap) (l : List (Path × TypeDef)) : Bool :=
  nsTableB G && l.all fun e =>
    match e.2 with
    | .struct d => structRtB (envOf l) G (l.length + 1) d
    | .enum d => enumRtB (envOf l) G (l.length + 1) d
    | .prim _ => true

theorem rtOk_of_check (G : NsMap) (l : List (Path × TypeDef)) (h : rtB G l = true) : RtOk (envOf l) G := by
  unfold rtB at h
  rw [Bool.and_eq_true, List.all_eq_true] at h
  refine ⟨nsTable_of_check h.1, ?_, ?_⟩
  · intro p d hp
    exact structRt_of_check (h.2 _ (mem_envOf hp))
  · intro p d hp
    exact enumRt_of_check (h.2 _ (mem_envOf hp))

def rootB (env : Env) (G : NsMap) (k : Nat) (p : Path) : Bool :=
  match env p with
  | some (.struct d) =>
    isNCName (d.attrs.rename.getD d.name) && pfxOkB G d.attrs d.attrs.pfx &&
      fitsB env k p (d.attrs.rename.getD d.name) (d.attrs.namespaces.find d.attrs.pfx)
  | some (.enum d) =>
    isNCName (d.attrs.rename.getD d.name) && pfxOkB G d.attrs d.attrs.pfx &&
      fitsB env k p (d.attrs.rename.getD d.name) (d.attrs.namespaces.find d.attrs.pfx)
  | some (.prim d) => isNCName d.name
  | none => false

theorem rootOk_of_check {env : Env} {G : NsMap} (k : Nat) {p : Path} (h : rootB env G k p = true) : RootOk env G p := by
  unfold rootB at h
  unfold RootOk
  split at h
  · rename_i d hp
    rw [hp]
    simp only [Bool.and_eq_true] at h
    refine ⟨h.1.1, pfxOk_of_check h.1.2, ?_⟩
    intro n hn
    refine fits_of_check k p n ?_
    rw [hn.1, hn.2]
    exact h.2
  · rename_i d hp
    rw [hp]
    simp only [Bool.and_eq_true] at h
    refine ⟨h.1.1, pfxOk_of_check h.1.2, ?_⟩
    intro n hn
    refine fits_of_check k p n ?_
    rw [hn.1, hn.2]
    exact h.2
  · rename_i d hp
    rw [hp]
    exact h
  · cases h

/-! ### Values -/

def cleanB (s : Str) : Bool := isText s && trimSpace s == s && !s.isEmpty

theorem clean_of_check {s : Str} (h : cleanB s = true) : CleanText s := by
  unfold cleanB at h
  simp only [Bool.and_eq_true, beq_iff_eq, Bool.not_eq_true'] at h
  exact ⟨h.1.1, h.1.2, by intro e; rw [e] at h; exact absurd h.2 (by decide)⟩

def okB (r : Except Str Val) (v : Val) : Bool :=
  match r with
  | .ok w => w.beq v
  | .error _ => false

theorem ok_of_check {r : Except Str Val} {v : Val} (h : okB r v = true) : r = .ok v := by
  unfold okB at h
  split at h
  · rw [Val.eq_of_beq _ _ h]
  · cases h

def attrScalarB (L : Lib) (t : STy) (v : Val) : Bool := isAttrText (showS L v) && okB (visitS L t (showS L v)) v

theorem attrScalar_of_check {L : Lib} {t : STy} {v : Val} (h : attrScalarB L t v = true) : AttrScalarOk L t v := by
  unfold attrScalarB at h
  rw [Bool.and_eq_true] at h
  exact ⟨h.1, ok_of_check h.2⟩

def payloadB (L : Lib) (t : STy) (v : Val) : Bool := isText (showS L v) && okB (parseS L t (trimSpace (showS L v))) v

theorem payload_of_check {L : Lib} {t : STy} {v : Val} (h : payloadB L t v = true) : PayloadOk L t v := by
  unfold payloadB at h
  rw [Bool.and_eq_true] at h
  exact ⟨h.1, ok_of_check h.2⟩

def absentB (f : FieldDef) (v : Val) : Bool :=
  match f.absent with
  | some w => w.beq v
  | none => false

theorem absent_of_check {f : FieldDef} {v : Val} (h : absentB f v = true) : f.absent = some v := by
  unfold absentB at h
  split at h
  · rename_i w hw; rw [hw, Val.eq_of_beq _ _ h]
  · cases h

def attrUserB (L : Lib) (env : Env) (q : Path) (v : Val) : Bool :=
  (encTyAttrs L env q v).isEmpty && (encTyDecls env q v).isEmpty &&
    isAttrText (L.emit { decl := false } (WNode.eventsL (encTy L env .inner q v)))

theorem attrUser_of_check {L : Lib} {env : Env} {q : Path} {v : Val} (h : attrUserB L env q v = true) :
    AttrUserOk L env q v := by
  unfold attrUserB at h
  simp only [Bool.and_eq_true, List.isEmpty_iff] at h
  exact ⟨h.1.1, h.1.2, h.2⟩

def attrCanonB (L : Lib) (env : Env) (sub : FTy → Val → Bool) (f : FieldDef) (self v : Val) : Bool :=
  if f.selected self v then
    match f.ty, v with
    | .struct q, v => attrUserB L env q v && sub (.struct q) v
    | .opt (.struct q), .some x => attrUserB L env q x && sub (.struct q) x
    | .simple t, v => attrScalarB L t v
    | .opt (.simple t), .some x => attrScalarB L t x
    | .opt _, .none => absentB f .none
    | .vec _, v => absentB f v
    | _, _ => false
  else absentB f v

theorem attrCanon_of_check {L : Lib} {env : Env} {sub : FTy → Val → Bool} {f : FieldDef} {self v : Val}
    (h : attrCanonB L env sub f self v = true) : AttrCanon L env f self v := by
  unfold attrCanonB at h
  split at h
  · rename_i hs
    split at h
    · rename_i q hty; exact .user q _ hty hs (attrUser_of_check (Bool.and_eq_true _ _ |>.mp h).1)
    · rename_i q x hty; exact .userSome q x hty hs (attrUser_of_check (Bool.and_eq_true _ _ |>.mp h).1)
    · rename_i t hty; exact .plain t _ hty hs (attrScalar_of_check h)
    · rename_i t x hty; exact .some t x hty hs (attrScalar_of_check h)
    · rename_i t hty; exact .absent _ (.inr (.inl ⟨t, hty, rfl⟩)) (absent_of_check h)
    · rename_i t hty; exact .absent _ (.inr (.inr ⟨t, hty⟩)) (absent_of_check h)
    · cases h
  · rename_i hs; exact .absent _ (.inl hs) (absent_of_check h)

theorem attrSub_of_check {L : Lib} {env : Env} {sub : FTy → Val → Bool} {f : FieldDef} {self v : Val}
    (h : attrCanonB L env sub f self v = true) {q : Path} {x : Val}
    (hor : (f.ty = .struct q ∧ v = x) ∨ (f.ty = .opt (.struct q) ∧ v = .some x)) (hs : f.selected self v) :
    sub (.struct q) x = true := by
  unfold attrCanonB at h
  rw [if_pos hs] at h
  rcases hor with ⟨h1, rfl⟩ | ⟨h1, rfl⟩
  · rw [h1] at h; exact (Bool.and_eq_true _ _ |>.mp h).2
  · rw [h1] at h; exact (Bool.and_eq_true _ _ |>.mp h).2

def textCanonB (f : FieldDef) (v : Val) : Bool :=
  match f.ty, v with
  | .simple .string, .str s => cleanB s || (s.isEmpty && absentB f (.str s))
  | .opt (.simple .string), .some (.str s) => cleanB s
  | _, v => (fieldText v).isEmpty && absentB f v

theorem textCanon_of_check {f : FieldDef} {v : Val} (h : textCanonB f v = true) : TextCanon f v := by
  unfold textCanonB at h
  split at h
  · rename_i s hty
    rw [Bool.or_eq_true, Bool.and_eq_true] at h
    rcases h with h | h
    · exact .str s hty (clean_of_check h)
    · exact .absent _ (by simpa [fieldText] using h.1) (absent_of_check h.2)
  · rename_i s hty; exact .some s hty (clean_of_check h)
  · rw [Bool.and_eq_true] at h
    exact .absent _ (by simpa using h.1) (absent_of_check h.2)

def cdataB (f : FieldDef) : Val → Bool
  | .str s => decide (f.ty = .simple .string) && cleanB s && isText s && decide (¬ c!"]]>" <:+: s)
  | _ => false

def canonFieldsB (L : Lib) (env : Env) (sub : FTy → Val → Bool) (self : Val) : List FieldDef → List Val → Bool
  | [], [] => true
  | f :: fds, v :: vs =>
    (if f.attrs.isAttr then attrCanonB L env sub f self v
     else if f.attrs.text then textCanonB f v
     else if f.attrs.skipSer || !decide (f.selected self v) then !f.attrs.flatten && absentB f v
     else if f.attrs.cdata then cdataB f v
     else sub f.ty v) && canonFieldsB L env sub self fds vs
  | _, _ => false

/-- Is the value canonical, if `sub` says so of its parts? -/
def canonStep (L : Lib) (env : Env) (sub : FTy → Val → Bool) : FTy → Val → Bool
  | .simple t, v => cleanB (showS L v) && okB (visitS L t (showS L v)) v
  | .opt _, .none => true
  | .opt t, .some v => sub t v
  | .vec t, .vec vs => vs.all (sub t)
  | .struct p, v =>
    match env p, v with
    | some (.struct d), .struct fs => canonFieldsB L env sub (.struct fs) d.fields fs
    | some (.enum d), .enum i fs =>
      match d.variants[i]? with
      | some vd =>
        if d.attrs.tag.isSome && !fs.isEmpty then false else
        match vd.shape, fs with
        | .unit, [] => true
        | .newtype (.simple t), [x] => payloadB L t x
        | .newtype (.opt (.simple t)), [.some x] => payloadB L t x
        | .newtype (.vec (.simple t)), [.vec (x :: xs)] => (x :: xs).all (payloadB L t)
        | .newtype (.struct q), [x] =>
          sub (.struct q) x && (encTyAttrs L env q x).isEmpty &&
            (encTyDecls env q x).all fun e => d.attrs.decls.contains e
        | .newtype (.opt (.struct q)), [.some x] =>
          sub (.struct q) x && (encTyAttrs L env q x).isEmpty &&
            (encTyDecls env q x).all fun e => d.attrs.decls.contains e
        | .newtype (.vec (.struct q)), [.vec (x :: xs)] =>
          (x :: xs).all (sub (.struct q)) && (x :: xs).all (fun x => (encTyAttrs L env q x).isEmpty &&
            (encTyDecls env q x).all fun e => d.attrs.decls.contains e)
        | .newtype (.opt (.simple _)), [.none] => d.dflt.beq (.enum i [.none])
        | .newtype (.opt (.struct _)), [.none] => d.dflt.beq (.enum i [.none])
        | .newtype (.vec (.simple _)), [.vec []] => d.dflt.beq (.enum i [.vec []])
        | .newtype (.vec (.struct _)), [.vec []] => d.dflt.beq (.enum i [.vec []])
        | _, _ => false
      | none => false
    | some (.prim d), v => !d.bare && isText (d.toStr v) && okB (d.fromStr (trimSpace (d.toStr v))) v
    | _, _ => false
  | _, _ => false
/-- Is the value canonical? (`k` bounds the depth.) -/
def canonB (L : Lib) (env : Env) : Nat → FTy → Val → Bool
  | 0, _, _ => false
  | k + 1, t, v => canonStep L env (canonB L env k) t v

theorem canon_of_checkFields (L : Lib) (env : Env) {sub : FTy → Val → Bool} (hsub : ∀ t v, sub t v = true → Canon L env t v) (self : Val) : ∀ (fds : List FieldDef) (vs : List Val),
    canonFieldsB L env sub self fds vs = true →
    vs.length = fds.length ∧ ∀ (i : Nat) (f : FieldDef) (v : Val), fds[i]? = some f → vs[i]? = some v →
      (f.attrs.isAttr = true → AttrCanon L env f self v ∧ ∀ q x,
        (f.ty = .struct q ∧ v = x) ∨ (f.ty = .opt (.struct q) ∧ v = .some x) → f.selected self v →
        Canon L env (.struct q) x) ∧
      (f.attrs.isAttr = false → f.attrs.text = true → TextCanon f v) ∧
      (f.attrs.isAttr = false → f.attrs.text = false → f.omitted self v → f.attrs.flatten = false ∧ f.absent = some v) ∧
      (f.attrs.isAttr = false → f.attrs.text = false → ¬ f.omitted self v → f.attrs.cdata = true →
        f.ty = .simple .string ∧ ∃ s, v = .str s ∧ CleanText s ∧ isCdata s) ∧
      (f.attrs.isAttr = false → f.attrs.text = false → ¬ f.omitted self v → f.attrs.cdata = false → Canon L env f.ty v)
  | [], [], _ => by simp
  | [], _ :: _, h => by simp [canonFieldsB] at h
  | _ :: _, [], h => by simp [canonFieldsB] at h
  | f :: fds, v :: vs, h => by
    rw [canonFieldsB, Bool.and_eq_true] at h
    have ih := canon_of_checkFields L env hsub self fds vs h.2
    have h0 := hsub f.ty v
    refine ⟨by simp [ih.1], ?_⟩
    intro i g w hg hw
    cases i with
    | zero =>
      simp at hg hw; subst hg hw
      have h1 := h.1
      have hom : (f.attrs.skipSer || !decide (f.selected self v)) = true ↔ f.omitted self v := by
        simp [FieldDef.omitted]
      refine ⟨?_, ?_, ?_, ?_, ?_⟩
      · intro ha; rw [if_pos ha] at h1; exact ⟨attrCanon_of_check h1, fun q x h2 h3 => hsub _ _ (attrSub_of_check h1 h2 h3)⟩
      · intro ha ht; rw [if_neg (by simp [ha]), if_pos ht] at h1; exact textCanon_of_check h1
      · intro ha ht ho
        rw [if_neg (by simp [ha]), if_neg (by simp [ht]), if_pos (hom.2 ho), Bool.and_eq_true] at h1
        exact ⟨by simpa using h1.1, absent_of_check h1.2⟩
      · intro ha ht ho hc
        rw [if_neg (by simp [ha]), if_neg (by simp [ht]), if_neg (fun h => ho (hom.1 h)), if_pos hc] at h1
        unfold cdataB at h1
        split at h1
        · rename_i s
          simp only [Bool.and_eq_true] at h1
          exact ⟨of_decide_eq_true h1.1.1.1, s, rfl, clean_of_check h1.1.1.2, h1.1.2, of_decide_eq_true h1.2⟩
        · cases h1
      · intro ha ht ho hc
        rw [if_neg (by simp [ha]), if_neg (by simp [ht]), if_neg (fun h => ho (hom.1 h)), if_neg (by simp [hc])] at h1
        exact h0 h1
    | succ i => exact ih.2 i g w hg hw

theorem canonStep_of_check (L : Lib) (env : Env) {sub : FTy → Val → Bool} (hsub : ∀ t v, sub t v = true → Canon L env t v) :
    ∀ (t : FTy) (v : Val), canonStep L env sub t v = true → Canon L env t v
  | t, v, h => by
    unfold canonStep at h
    split at h
    · rw [Bool.and_eq_true] at h
      exact .scalar _ _ ⟨clean_of_check h.1, ok_of_check h.2⟩
    · exact .none _
    · exact .some _ _ (hsub _ _ h)
    · exact .vec _ _ (fun y hy => hsub _ y (List.all_eq_true.1 h y hy))
    · split at h
      · rename_i d fs hp
        have := canon_of_checkFields L env hsub (.struct fs) d.fields fs h
        refine .struct _ d fs hp this.1 ?_ ?_ ?_ ?_ ?_ ?_
        · intro i f v hf hv ha; exact ((this.2 i f v hf hv).1 ha).1
        · intro i f v q x hf hv ha h2 h3; exact ((this.2 i f v hf hv).1 ha).2 q x h2 h3
        · intro i f v hf hv ha ht; exact (this.2 i f v hf hv).2.1 ha ht
        · intro i f v hf hv ha ht ho; exact (this.2 i f v hf hv).2.2.1 ha ht ho
        · intro i f v hf hv ha ht ho hc; exact (this.2 i f v hf hv).2.2.2.1 ha ht ho hc
        · intro i f v hf hv ha ht ho hc; exact (this.2 i f v hf hv).2.2.2.2 ha ht ho hc
      · rename_i d i fs hp
        split at h
        · rename_i vd hi
          split at h
          · cases h
          rename_i htg
          have htag : fs ≠ [] → d.attrs.tag = none := by
            intro hne
            cases ht : d.attrs.tag with
            | none => rfl
            | some t =>
              rw [ht] at htg
              cases fs with
              | nil => exact absurd rfl hne
              | cons a r => simp at htg
          split at h
          · rename_i hs; exact .unit _ d i vd hp hi hs
          · rename_i t x hs; exact .payload _ d i vd t x hp (htag (by simp)) hi hs (payload_of_check h)
          · rename_i t x hs; exact .payloadSome _ d i vd t x hp (htag (by simp)) hi hs (payload_of_check h)
          · rename_i t x xs hs
            exact .payloadItems _ d i vd t _ hp (htag (by simp)) hi hs (by simp) (fun y hy => payload_of_check (List.all_eq_true.1 h y hy))
          · rename_i q x hs
            simp only [Bool.and_eq_true, List.isEmpty_iff, List.all_eq_true, List.contains_iff_mem] at h
            exact .payloadStruct _ d i vd q x hp (htag (by simp)) hi hs (hsub _ _ h.1.1) h.1.2 h.2
          · rename_i q x hs
            simp only [Bool.and_eq_true, List.isEmpty_iff, List.all_eq_true, List.contains_iff_mem] at h
            exact .payloadSomeStruct _ d i vd q x hp (htag (by simp)) hi hs (hsub _ _ h.1.1) h.1.2 h.2
          · rename_i q x xs hs
            rw [Bool.and_eq_true, List.all_eq_true, List.all_eq_true] at h
            refine .payloadStructs _ d i vd q (x :: xs) hp (htag (by simp)) hi hs (by simp) (fun y hy => hsub _ y (h.1 y hy)) ?_ ?_
            all_goals
              intro y hy
              have := h.2 y hy
              simp only [Bool.and_eq_true, List.isEmpty_iff, List.all_eq_true, List.contains_iff_mem] at this
            · exact this.1
            · exact this.2
          · rename_i t hs; exact .payloadNone _ d i vd _ hp (htag (by simp)) hi hs (.inl ⟨_, rfl⟩) (Val.eq_of_beq _ _ h)
          · rename_i t hs; exact .payloadNone _ d i vd _ hp (htag (by simp)) hi hs (.inr ⟨_, rfl⟩) (Val.eq_of_beq _ _ h)
          · rename_i t hs; exact .payloadEmpty _ d i vd _ hp (htag (by simp)) hi hs (.inl ⟨_, rfl⟩) (Val.eq_of_beq _ _ h)
          · rename_i t hs; exact .payloadEmpty _ d i vd _ hp (htag (by simp)) hi hs (.inr ⟨_, rfl⟩) (Val.eq_of_beq _ _ h)
          · cases h
        · cases h
      · rename_i d hp
        rw [Bool.and_eq_true, Bool.and_eq_true] at h
        exact .prim _ d _ hp (by simpa using h.1.1) h.1.2 (ok_of_check h.2)
      · cases h
    · cases h

theorem canon_of_check (L : Lib) (env : Env) : ∀ (k : Nat) (t : FTy) (v : Val), canonB L env k t v = true → Canon L env t v
  | 0, _, _, h => by rw [canonB] at h; cases h
  | k + 1, t, v, h => by
    rw [canonB] at h
    exact canonStep_of_check L env (canon_of_check L env k) t v h

end Tests
end Yaserde
