import Verif.Spec.WellFormed
import Verif.Spec.Blocks
import Verif.Tests.SimpleCheck
/-
Decision procedures for the conditions on names and characters of `Spec/WellFormed.lean`.
-/

set_option autoImplicit false

namespace Yaserde.Tests

/-! ### Names -/

def gather {α : Type} (g : FieldDef → Option (List α)) : List FieldDef → Option (List (List α))
  | [] => some []
  | f :: fs =>
    match g f, gather g fs with
    | some a, some b => some (a :: b)
    | _, _ => none

theorem gather_get {α : Type} {g : FieldDef → Option (List α)} : ∀ {fs : List FieldDef} {ls : List (List α)},
    gather g fs = some ls → ∀ (i : Nat) (f : FieldDef), fs[i]? = some f → ∃ l, ls[i]? = some l ∧ g f = some l
  | [], _, _, i, f, hf => by simp at hf
  | x :: fs, ls, h, i, f, hf => by
    unfold gather at h
    split at h
    · rename_i a b ha hb
      simp only [Option.some.injEq] at h
      subst h
      cases i with
      | zero => simp at hf; subst hf; exact ⟨a, rfl, ha⟩
      | succ i => exact gather_get hb i f (by simpa using hf)
    · cases h

def flatSub {α : Type} (sub : Path → Option (List α)) (f : FieldDef) : Option (List α) :=
  if !f.attrs.isAttr && f.attrs.flatten then
    match f.ty with
    | .struct q => sub q
    | _ => some []
  else some []

theorem flatSub_eq {α : Type} {sub : Path → Option (List α)} {f : FieldDef} (hf : f.isFlat) {q : Path} (hq : f.ty = .struct q) :
    flatSub sub f = sub q := by
  unfold flatSub
  rw [if_pos (by simp [hf.1, hf.2]), hq]

/-- All declarations of a type; `none` if the budget does not suffice. -/
def declsN (env : Env) : Nat → Path → Option (List (Str × Str))
  | 0, _ => none
  | k + 1, p =>
    match env p with
    | some (.struct d) => (gather (flatSub (declsN env k)) d.fields).map fun l => d.attrs.decls ++ l.flatten
    | some (.enum d) => some d.attrs.decls
    | _ => some []

theorem declares_mem {env : Env} {p : Path} {e : Str × Str} (h : Declares env p e) :
    ∀ (k : Nat) (l : List (Str × Str)), declsN env k p = some l → e ∈ l := by
  induction h with
  | struct p d e hp h =>
    intro k l hl
    cases k with
    | zero => cases hl
    | succ k =>
      simp only [declsN, hp, Option.map_eq_some_iff] at hl
      obtain ⟨ls, -, rfl⟩ := hl
      exact List.mem_append_left _ h
  | enum p d e hp h =>
    intro k l hl
    cases k with
    | zero => cases hl
    | succ k =>
      simp only [declsN, hp, Option.some.injEq] at hl
      exact hl ▸ h
  | flat p d f q e hp hf hfl hty h ih =>
    intro k l hl
    cases k with
    | zero => cases hl
    | succ k =>
      simp only [declsN, hp, Option.map_eq_some_iff] at hl
      obtain ⟨ls, h1, rfl⟩ := hl
      obtain ⟨i, hi⟩ := List.mem_iff_getElem?.1 hf
      obtain ⟨l, h2, h3⟩ := gather_get h1 i f hi
      rw [flatSub_eq hfl hty] at h3
      exact List.mem_append_right _ (List.mem_flatten.2 ⟨l, List.mem_of_getElem? h2, ih k l h3⟩)

def attrSub (sub : Path → Option (List Str)) (root : Attrs) (f : FieldDef) : Option (List Str) :=
  if f.attrs.isAttr then some [f.written root] else flatSub sub f

/-- All attributes of a type. -/
def attrsN (env : Env) : Nat → Path → Option (List Str)
  | 0, _ => none
  | k + 1, p =>
    match env p with
    | some (.struct d) => (gather (attrSub (attrsN env k) d.attrs) d.fields).map List.flatten
    | some (.enum d) => some d.attrs.tag.toList
    | _ => some []

theorem writes_mem {env : Env} {p : Path} {a : Str} (h : WritesAttr env p a) :
    ∀ (k : Nat) (l : List Str), attrsN env k p = some l → a ∈ l := by
  induction h with
  | own p d f hp hf ha =>
    intro k l hl
    cases k with
    | zero => cases hl
    | succ k =>
      simp only [attrsN, hp, Option.map_eq_some_iff] at hl
      obtain ⟨ls, h1, rfl⟩ := hl
      obtain ⟨i, hi⟩ := List.mem_iff_getElem?.1 hf
      obtain ⟨l, h2, h3⟩ := gather_get h1 i f hi
      unfold attrSub at h3
      rw [if_pos ha] at h3
      cases h3
      exact List.mem_flatten.2 ⟨_, List.mem_of_getElem? h2, by simp⟩
  | tag p d t hp h =>
    intro k l hl
    cases k with
    | zero => cases hl
    | succ k =>
      simp only [attrsN, hp, Option.some.injEq] at hl
      rw [← hl, h]
      simp
  | flat p d f q a hp hf hfl hty h ih =>
    intro k l hl
    cases k with
    | zero => cases hl
    | succ k =>
      simp only [attrsN, hp, Option.map_eq_some_iff] at hl
      obtain ⟨ls, h1, rfl⟩ := hl
      obtain ⟨i, hi⟩ := List.mem_iff_getElem?.1 hf
      obtain ⟨l, h2, h3⟩ := gather_get h1 i f hi
      unfold attrSub at h3
      rw [if_neg (by simp [hfl.1]), flatSub_eq hfl hty] at h3
      exact List.mem_flatten.2 ⟨l, List.mem_of_getElem? h2, ih k l h3⟩

theorem fieldWrites_mem {env : Env} {d : StructDef} {f : FieldDef} {a : Str} (h : FieldWritesAttr env d f a) (k : Nat) (l : List Str)
    (hl : attrSub (attrsN env k) d.attrs f = some l) : a ∈ l := by
  unfold attrSub at hl
  rcases h with ⟨h1, h2⟩ | ⟨h1, q, h2, h3⟩
  · rw [if_pos h1] at hl
    cases hl
    simp [h2]
  · rw [if_neg (by simp [h1.1]), flatSub_eq h1 h2] at hl
    exact writes_mem h3 k l hl

def pfxInB (root : Attrs) : Option Str → Bool
  | none => true
  | some p => root.defaultNs == some p || (!p.isEmpty && root.namespaces.any fun e => e.1 == p)

theorem pfxIn_of_check {root : Attrs} {pfx : Option Str} (h : pfxInB root pfx = true) : PfxIn root pfx := by
  rintro p rfl
  simp only [pfxInB, Bool.or_eq_true, beq_iff_eq, Bool.and_eq_true, List.any_eq_true] at h
  rcases h with h | ⟨h, e, he, rfl⟩
  · exact .inl h
  · exact .inr ⟨by intro hx; rw [hx] at h; exact absurd h (by decide), e.2, he⟩

def declsInB (env : Env) (k : Nat) (q : Path) (ds : NsMap) : Bool :=
  match declsN env k q with
  | some l => l.all fun e => ds.contains e
  | none => false

theorem declsIn_of_check {env : Env} {k : Nat} {q : Path} {ds : NsMap} (h : declsInB env k q ds = true) :
    ∀ e, Declares env q e → e ∈ ds := by
  intro e he
  unfold declsInB at h
  split at h
  · rename_i l hl
    have := List.all_eq_true.1 h e (declares_mem he k l hl)
    simpa using this
  · cases h

def apart {α : Type} [BEq α] : List (List α) → Bool
  | [] => true
  | l :: ls => ls.all (fun m => l.all fun a => !m.contains a) && apart ls

theorem apart_of_check {α : Type} [BEq α] [LawfulBEq α] : ∀ (ls : List (List α)), apart ls = true →
    ∀ (i j : Nat) (a b : List α) (x : α), ls[i]? = some a → ls[j]? = some b → x ∈ a → x ∈ b → i = j
  | [], _, i, _, _, _, _, ha, _, _, _ => by simp at ha
  | l :: ls, h, i, j, a, b, x, ha, hb, hxa, hxb => by
    rw [apart, Bool.and_eq_true, List.all_eq_true] at h
    have key : ∀ (m : List α), m ∈ ls → x ∈ l → x ∈ m → False := by
      intro m hm h1 h2
      have := h.1 m hm
      rw [List.all_eq_true] at this
      have := this x h1
      simp [h2] at this
    cases i with
    | zero =>
      cases j with
      | zero => rfl
      | succ j =>
        simp at ha hb; subst ha
        exact (key b (List.mem_of_getElem? hb) hxa hxb).elim
    | succ i =>
      cases j with
      | zero =>
        simp at ha hb; subst hb
        exact (key a (List.mem_of_getElem? ha) hxb hxa).elim
      | succ j =>
        simp at ha hb
        rw [apart_of_check ls h.2 i j a b x ha hb hxa hxb]

def structNamesB (env : Env) (G : NsMap) (k : Nat) (d : StructDef) : Bool :=
  !d.attrs.flatten && d.attrs.decls.all (fun e => G.contains e) && isNCName (d.attrs.rename.getD d.name) &&
  pfxInB d.attrs d.attrs.pfx &&
  d.fields.all (fun f => isNCName f.label && pfxInB d.attrs f.attrs.pfx && (!f.attrs.isAttr || f.label != c!"xmlns")) &&
  (match gather (attrSub (attrsN env k) d.attrs) d.fields with | some ls => apart ls | none => false) &&
  d.fields.all fun f => f.attrs.isAttr || !f.attrs.flatten ||
    (match f.ty with
      | .struct _ => true
      | t => match t.core with | .struct q => declsInB env k q d.attrs.decls | _ => true)

theorem structNames_of_check {env : Env} {G : NsMap} {k : Nat} {d : StructDef} (h : structNamesB env G k d = true) :
    StructNames env G d := by
  unfold structNamesB at h
  simp only [Bool.and_eq_true, List.all_eq_true, Bool.not_eq_true'] at h
  obtain ⟨⟨⟨⟨⟨⟨h1, h2⟩, h3⟩, h4⟩, h5⟩, h6⟩, h7⟩ := h
  refine ⟨h1, fun e he => by simpa using h2 e he, ⟨h3, pfxIn_of_check h4⟩, ?_, ?_, ?_⟩
  · intro f hf
    obtain ⟨⟨h8, h9⟩, h10⟩ := h5 f hf
    refine ⟨h8, pfxIn_of_check h9, fun ha => ?_⟩
    rw [ha] at h10
    simpa using h10
  · intro i j f g a hf hg ha ha'
    split at h6
    · rename_i ls hls
      obtain ⟨l, hl, hl'⟩ := gather_get hls i f hf
      obtain ⟨m, hm, hm'⟩ := gather_get hls j g hg
      exact apart_of_check ls h6 i j l m a hl hm (fieldWrites_mem ha k l hl') (fieldWrites_mem ha' k m hm')
    · cases h6
  · intro f hf hfl q hne hq e he
    have := h7 f hf
    rw [hfl.1, hfl.2] at this
    simp only [Bool.false_or, Bool.not_true] at this
    split at this
    · rename_i q' heq
      rw [heq] at hq
      cases hq
      exact absurd heq hne
    · rw [hq] at this
      exact declsIn_of_check this e he

def enumNamesB (env : Env) (G : NsMap) (k : Nat) (d : EnumDef) : Bool :=
  !d.attrs.flatten && d.attrs.decls.all (fun e => G.contains e) && isNCName (d.attrs.rename.getD d.name) &&
  pfxInB d.attrs d.attrs.pfx &&
  (match d.attrs.tag with | some t => isNCName t && t != c!"xmlns" | none => true) &&
  d.variants.all (fun v => isNCName (v.attrs.rename.getD v.ident) && pfxInB d.attrs v.attrs.pfx) &&
  d.variants.all (fun v => match v.shape with
    | .named fds => fds.all fun f => isNCName f.label && pfxInB d.attrs f.attrs.pfx
    | .newtype t => (match t.core with | .struct q => declsInB env k q d.attrs.decls | _ => true)
    | .unit => true)

theorem enumNames_of_check {env : Env} {G : NsMap} {k : Nat} {d : EnumDef} (h : enumNamesB env G k d = true) :
    EnumNames env G d := by
  unfold enumNamesB at h
  simp only [Bool.and_eq_true, List.all_eq_true, Bool.not_eq_true'] at h
  obtain ⟨⟨⟨⟨⟨⟨h1, h2⟩, h3⟩, h4⟩, h5⟩, h6⟩, h7⟩ := h
  refine ⟨h1, fun e he => by simpa using h2 e he, ⟨h3, pfxIn_of_check h4⟩, ?_, ?_, ?_, ?_⟩
  · intro t ht
    rw [ht] at h5
    simpa using h5
  · intro v hv
    exact ⟨(h6 v hv).1, pfxIn_of_check (h6 v hv).2⟩
  · intro v hv fds hs f hf
    have := h7 v hv
    rw [hs] at this
    have := List.all_eq_true.1 this f hf
    rw [Bool.and_eq_true] at this
    exact ⟨this.1, pfxIn_of_check this.2⟩
  · intro v hv t q hs hq e he
    have := h7 v hv
    rw [hs] at this
    dsimp only at this
    rw [hq] at this
    exact declsIn_of_check this e he

def namesB (G : NsMap) (l : List (Path × TypeDef)) : Bool :=
  nsTableB G && l.all fun e =>
    match e.2 with
    | .struct d => structNamesB (envOf l) G (l.length + 1) d
    | .enum d => enumNamesB (envOf l) G (l.length + 1) d
    | .prim d => isNCName d.name

theorem namesOk_of_check (G : NsMap) (l : List (Path × TypeDef)) (h : namesB G l = true) : NamesOk (envOf l) G := by
  unfold namesB at h
  rw [Bool.and_eq_true, List.all_eq_true] at h
  refine ⟨nsTable_of_check h.1, ?_, ?_, ?_⟩
  · intro p d hp
    exact structNames_of_check (h.2 _ (mem_envOf hp))
  · intro p d hp
    exact enumNames_of_check (h.2 _ (mem_envOf hp))
  · intro p d hp
    exact h.2 _ (mem_envOf hp)

/-! ### Values -/

def attrLegalB (L : Lib) : FTy → Val → Bool
  | .simple _, v => isAttrText (showS L v)
  | .opt (.simple _), .some x => isAttrText (showS L x)
  | .opt _, .none => true
  | .vec _, _ => true
  | _, _ => false

theorem attrLegal_of_check {L : Lib} {env : Env} {t : FTy} {v : Val} (h : attrLegalB L t v = true) : AttrLegal L env t v := by
  unfold attrLegalB at h
  split at h
  · exact h
  · exact h
  · rename_i t; cases t <;> trivial
  · trivial
  · cases h

def legalFieldsB (L : Lib) (sub : FTy → Val → Bool) : List FieldDef → List Val → Bool
  | f :: fds, v :: vs =>
    sub f.ty v && (!f.attrs.isAttr || attrLegalB L f.ty v) && (!f.attrs.text || isText (fieldText v)) &&
    (!f.attrs.cdata || (match v with | .str s => isText s && decide (¬ c!"]]>" <:+: s) | _ => true)) && legalFieldsB L sub fds vs
  | _, _ => true

def legalB (L : Lib) (env : Env) : Nat → FTy → Val → Bool
  | 0, _, _ => false
  | k + 1, t, v =>
    match t, v with
    | .simple _, v => isText (showS L v)
    | .opt _, .none => true
    | .opt t, .some v => legalB L env k t v
    | .vec t, .vec vs => vs.all (legalB L env k t)
    | .struct p, v =>
      match env p, v with
      | some (.struct d), .struct fs => legalFieldsB L (legalB L env k) d.fields fs
      | some (.enum d), .enum i pay =>
        match d.variants[i]? with
        | some vd =>
          match vd.shape with
          | .unit => true
          | .newtype t => pay.all (legalB L env k t)
          | .named fds => legalFieldsB L (legalB L env k) fds pay
        | none => false
      | some (.prim d), v => isText (d.toStr v)
      | _, _ => false
    | _, _ => false

theorem legalFields_of_check {L : Lib} {env : Env} {sub : FTy → Val → Bool} (hsub : ∀ t v, sub t v = true → Legal L env t v) :
    ∀ (fds : List FieldDef) (vs : List Val), legalFieldsB L sub fds vs = true → ∀ (i : Nat) (f : FieldDef) (v : Val), fds[i]? = some f →
      vs[i]? = some v → Legal L env f.ty v ∧ (f.attrs.isAttr = true → AttrLegal L env f.ty v) ∧
        (f.attrs.text = true → isText (fieldText v) = true) ∧ (f.attrs.cdata = true → ∀ s, v = .str s → isCdata s)
  | [], _, _, i, f, v, hf, _ => by simp at hf
  | _ :: _, [], _, i, f, v, _, hv => by simp at hv
  | g :: fds, w :: vs, h, i, f, v, hf, hv => by
    unfold legalFieldsB at h
    simp only [Bool.and_eq_true, Bool.or_eq_true, Bool.not_eq_true'] at h
    obtain ⟨⟨⟨⟨h1, h2⟩, h3⟩, h4⟩, h5⟩ := h
    cases i with
    | zero =>
      simp at hf hv
      subst hf hv
      refine ⟨hsub _ _ h1, fun ha => attrLegal_of_check (h2.resolve_left (by simp [ha])), fun ht => h3.resolve_left (by simp [ht]),
        fun hc s hs => ?_⟩
      have := h4.resolve_left (by simp [hc])
      rw [hs] at this
      simp only [Bool.and_eq_true, decide_eq_true_eq] at this
      exact this
    | succ i => exact legalFields_of_check hsub fds vs h5 i f v (by simpa using hf) (by simpa using hv)

theorem legal_of_check (L : Lib) (env : Env) : ∀ (k : Nat) (t : FTy) (v : Val), legalB L env k t v = true → Legal L env t v
  | 0, _, _, h => by rw [legalB] at h; cases h
  | k + 1, t, v, h => by
    have ih := legal_of_check L env k
    unfold legalB at h
    split at h
    · exact .simple _ _ h
    · exact .none _
    · exact .some _ _ (ih _ _ h)
    · exact .vec _ _ (fun x hx => ih _ _ (List.all_eq_true.1 h x hx))
    · split at h
      · rename_i d fs hp
        have := legalFields_of_check ih d.fields fs h
        exact .struct _ d fs hp (fun i f v hf hv => (this i f v hf hv).1) (fun i f v hf hv => (this i f v hf hv).2.1)
          (fun i f s hf hv hc => (this i f _ hf hv).2.2.2 hc s rfl) (fun i f v hf hv => (this i f v hf hv).2.2.1)
      · rename_i d i pay hp
        split at h
        · rename_i vd hv
          split at h
          · rename_i hs
            exact .enum _ d i pay vd hp hv (by rw [hs]; intro t h; cases h) (by rw [hs]; intro t h; cases h)
          · rename_i t hs
            refine .enum _ d i pay vd hp hv ?_ (by rw [hs]; intro t h; cases h)
            rw [hs]
            intro t' ht' x hx
            cases ht'
            exact ih _ _ (List.all_eq_true.1 h x hx)
          · rename_i fds hs
            refine .enum _ d i pay vd hp hv (by rw [hs]; intro t h; cases h) ?_
            rw [hs]
            intro fds' ht' j f v hf hv'
            cases ht'
            exact (legalFields_of_check ih fds pay h j f v hf hv').1
        · cases h
      · rename_i d hp
        exact .prim _ d _ hp h
      · cases h
    · cases h

/-! ### Shapes -/

def scalarB : STy → Val → Bool
  | .string, .str _ => true
  | .bool, .bool _ => true
  | .int t, .int z => decide (t.Fits z)
  | .f32, .f32 _ => true
  | .f64, .f64 _ => true
  | _, _ => false

theorem scalar_of_check {env : Env} {t : STy} {v : Val} (h : scalarB t v = true) : HasTy env (.simple t) v := by
  unfold scalarB at h
  split at h
  · exact .str _
  · exact .bool _
  · exact .int _ _ (of_decide_eq_true h)
  · exact .f32 _
  · exact .f64 _
  · cases h

def all2 {α : Type} (R : α → α → Bool) : List α → List α → Bool
  | [], [] => true
  | a :: as, b :: bs => R a b && all2 R as bs
  | _, _ => false

theorem all2_get {α : Type} {R : α → α → Bool} : ∀ {as bs : List α}, all2 R as bs = true → as.length = bs.length ∧
    ∀ (i : Nat) (a b : α), as[i]? = some a → bs[i]? = some b → R a b = true
  | [], [], _ => by simp
  | [], _ :: _, h => by cases h
  | _ :: _, [], h => by cases h
  | a :: as, b :: bs, h => by
    rw [all2, Bool.and_eq_true] at h
    obtain ⟨h1, h2⟩ := all2_get h.2
    refine ⟨by simp [h1], fun i x y hx hy => ?_⟩
    cases i with
    | zero => simp at hx hy; subst hx hy; exact h.1
    | succ i => exact h2 i x y (by simpa using hx) (by simpa using hy)

def shapeFieldsB (sub : FTy → Val → Val → Bool) : List FieldDef → List Val → List Val → Bool
  | f :: fds, a :: as, b :: bs => f.skipIf.isNone && f.dflt.isNone && sub f.ty a b && shapeFieldsB sub fds as bs
  | _, [], [] => true
  | _, _, _ => false

theorem shapeFields_get {sub : FTy → Val → Val → Bool} : ∀ {fds : List FieldDef} {as bs : List Val}, shapeFieldsB sub fds as bs = true →
    as.length = bs.length ∧ ∀ (i : Nat) (f : FieldDef) (a b : Val), fds[i]? = some f → as[i]? = some a → bs[i]? = some b →
      f.skipIf = none ∧ f.dflt = none ∧ sub f.ty a b = true
  | [], [], [], _ => by simp
  | f :: fds, [], [], _ => by simp
  | [], _ :: _, _, h => by simp [shapeFieldsB] at h
  | [], [], _ :: _, h => by simp [shapeFieldsB] at h
  | _ :: _, [], _ :: _, h => by simp [shapeFieldsB] at h
  | _ :: _, _ :: _, [], h => by simp [shapeFieldsB] at h
  | f :: fds, a :: as, b :: bs, h => by
    rw [shapeFieldsB] at h
    simp only [Bool.and_eq_true, Option.isNone_iff_eq_none] at h
    obtain ⟨h1, h2⟩ := shapeFields_get h.2
    refine ⟨by simp [h1], fun i g x y hg hx hy => ?_⟩
    cases i with
    | zero => simp at hg hx hy; subst hg hx hy; exact ⟨h.1.1.1, h.1.1.2, h.1.2⟩
    | succ i => exact h2 i g x y (by simpa using hg) (by simpa using hx) (by simpa using hy)

/-- Have the values the same shape? (Programs without `skip_serializing_if` and `default`.) -/
def shapeB (env : Env) : Nat → FTy → Val → Val → Bool
  | 0, _, _, _ => false
  | k + 1, t, a, b =>
    match t, a, b with
    | .simple t, a, b => scalarB t a && scalarB t b
    | .opt _, .none, .none => true
    | .opt t, .some a, .some b => shapeB env k t a b
    | .vec t, .vec as, .vec bs => all2 (shapeB env k t) as bs
    | .struct p, a, b =>
      match env p, a, b with
      | some (.struct d), .struct as, .struct bs => shapeFieldsB (shapeB env k) d.fields as bs
      | some (.enum d), .enum i as, .enum j bs =>
        i == j && match d.variants[i]? with
          | some vd =>
            match vd.shape, as, bs with
            | .unit, [], [] => true
            | .newtype t, [a], [b] => shapeB env k t a b
            | .named fds, as, bs => shapeFieldsB (shapeB env k) fds as bs
            | _, _, _ => false
          | none => false
      | some (.prim _), _, _ => true
      | _, _, _ => false
    | _, _, _ => false

theorem sameShape_of_check (env : Env) : ∀ (k : Nat) (t : FTy) (a b : Val), shapeB env k t a b = true → SameShape env t a b
  | 0, _, _, _, h => by rw [shapeB] at h; cases h
  | k + 1, t, a, b, h => by
    have ih := sameShape_of_check env k
    unfold shapeB at h
    split at h
    · rw [Bool.and_eq_true] at h; exact .scalar _ _ _ (scalar_of_check h.1) (scalar_of_check h.2)
    · exact .none _
    · exact .some _ _ _ (ih _ _ _ h)
    · exact .vec _ _ _ (all2_get h).1 (fun i a b ha hb => ih _ _ _ ((all2_get h).2 i a b ha hb))
    · split at h
      · rename_i d as bs hp
        obtain ⟨h1, h2⟩ := shapeFields_get h
        refine .struct _ d as bs hp h1 (fun i f a b hf ha hb => ?_) (fun i f a b hf ha hb => ih _ _ _ (h2 i f a b hf ha hb).2.2)
        obtain ⟨h3, h4, -⟩ := h2 i f a b hf ha hb
        simp [FieldDef.selected, h3, h4]
      · rename_i d i as j bs hp
        rw [Bool.and_eq_true, beq_iff_eq] at h
        obtain ⟨rfl, h⟩ := h
        split at h
        · rename_i vd hv
          split at h
          · rename_i hs; exact .unit _ d i vd hp hv hs
          · rename_i hs; exact .newtype _ d i vd _ _ _ hp hv hs (ih _ _ _ h)
          · rename_i hs
            obtain ⟨h1, h2⟩ := shapeFields_get h
            exact .named _ d i vd _ _ _ hp hv hs h1 (fun j f a b hf ha hb => ih _ _ _ (h2 j f a b hf ha hb).2.2)
          · cases h
        · cases h
      · rename_i hp; exact .prim _ _ _ _ hp
      · cases h
    · cases h

end Yaserde.Tests
