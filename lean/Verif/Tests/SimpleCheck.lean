import Verif.Tests.RtCheck
/-
Decision procedures for the simple class of programs.
-/

set_option autoImplicit false

namespace Yaserde.Tests

/-- No two different entries are related. -/
def pairsB {α : Type} (R : α → α → Bool) : List α → Bool
  | [] => true
  | a :: l => l.all (fun b => !R a b && !R b a) && pairsB R l

theorem pairs_of_check {α : Type} {R : α → α → Bool} : ∀ {l : List α}, pairsB R l = true →
    ∀ (i j : Nat) (a b : α), l[i]? = some a → l[j]? = some b → R a b = true → i = j
  | [], _, i, j, a, b, ha, _, _ => by simp at ha
  | x :: l, h, i, j, a, b, ha, hb, hR => by
    rw [pairsB, Bool.and_eq_true, List.all_eq_true] at h
    have hx : ∀ c ∈ l, R x c = false ∧ R c x = false := by
      intro c hc
      have := h.1 c hc
      simpa [Bool.and_eq_true] using this
    cases i with
    | zero =>
      cases j with
      | zero => rfl
      | succ j =>
        simp only [List.getElem?_cons_zero, Option.some.injEq] at ha
        simp only [List.getElem?_cons_succ] at hb
        subst ha
        rw [(hx b (List.mem_of_getElem? hb)).1] at hR
        cases hR
    | succ i =>
      cases j with
      | zero =>
        simp only [List.getElem?_cons_zero, Option.some.injEq] at hb
        simp only [List.getElem?_cons_succ] at ha
        subst hb
        rw [(hx a (List.mem_of_getElem? ha)).2] at hR
        cases hR
      | succ j =>
        simp only [List.getElem?_cons_succ] at ha hb
        rw [pairs_of_check h.2 i j a b ha hb hR]

def VariantDef.key (v : VariantDef) : Str := v.attrs.rename.getD v.ident

def nameFitsB (env : Env) (q : Path) (name : Str) : Bool :=
  match env q with
  | some (.struct e) => name == e.attrs.rename.getD e.name || e.fields.all fun g => g.attrs.isAttr || g.label != name
  | some (.enum e) => e.variants.all fun v => VariantDef.key v != name
  | _ => true

theorem nameFits_of_check {env : Env} {q : Path} {name : Str} (h : nameFitsB env q name = true) : NameFits env q name := by
  unfold nameFitsB at h
  constructor <;> intro e he <;> rw [he] at h <;> dsimp only at h
  · rw [Bool.or_eq_true, List.all_eq_true] at h
    refine h.imp (fun h => by simpa using h) fun h g hg ha => ?_
    have := h g hg
    rw [ha] at this
    simpa using this
  · rw [List.all_eq_true] at h
    intro v hv
    have := h v hv
    simpa [VariantDef.key] using this

def bareB (env : Env) (q : Path) : Bool :=
  match env q with
  | some (.struct e) => e.fields.all fun f => !f.attrs.isAttr
  | _ => true

theorem bare_of_check {env : Env} {q : Path} (h : bareB env q = true) : BareType env q := by
  intro e he f hf
  unfold bareB at h
  rw [he] at h
  have := List.all_eq_true.mp h f hf
  simpa using this

/-- An enum without payloads. -/
def attrTypeB (env : Env) (q : Path) : Bool :=
  isNCName q.flatten && nameFitsB env q q.flatten &&
  (match env q with
    | some (.enum e) => e.variants.all (fun v => match v.shape with | .unit => true | _ => false)
    | _ => false)

theorem attrType_of_check {env : Env} {q : Path} (h : attrTypeB env q = true) :
    isNCName q.flatten = true ∧ NameFits env q q.flatten ∧
      ((∃ e, env q = some (.enum e) ∧ ∀ v ∈ e.variants, v.shape = .unit) ∨
        ∃ e, env q = some (.prim e) ∧ ∀ v, e.dom v → isAttrText (e.toStr v) = true) := by
  unfold attrTypeB at h
  simp only [Bool.and_eq_true] at h
  refine ⟨h.1.1, nameFits_of_check h.1.2, .inl ?_⟩
  have h2 := h.2
  split at h2
  · rename_i e he
    refine ⟨e, he, fun v hv => ?_⟩
    have := List.all_eq_true.mp h2 v hv
    split at this
    · assumption
    · cases this
  · cases h2

def simpleStructB (env : Env) (d : StructDef) : Bool :=
  d.attrs.namespaces.isEmpty && d.attrs.pfx.isNone && !d.attrs.flatten && d.fields.all FieldDef.plainB &&
  d.fields.all (fun f => f.attrs.pfx.isNone && !f.attrs.flatten && isNCName f.label &&
    (!f.attrs.isAttr || (!f.attrs.text && f.label != c!"xmlns")) &&
    (match f.ty.corePath with | some q => (env q).isSome && (if f.attrs.isAttr then attrTypeB env q else nameFitsB env q f.label) | none => true)) &&
  pairsB (fun f g : FieldDef => (f.attrs.isAttr == g.attrs.isAttr && f.label == g.label) || (f.attrs.text && g.attrs.text)) d.fields

theorem simpleStruct_of_check {env : Env} {d : StructDef} (h : simpleStructB env d = true) : SimpleStruct env d := by
  unfold simpleStructB at h
  simp only [Bool.and_eq_true] at h
  obtain ⟨⟨⟨⟨⟨h1, h2⟩, h3⟩, h4⟩, h5⟩, h6⟩ := h
  rw [List.all_eq_true] at h5
  have key : ∀ f ∈ d.fields, f.attrs.pfx = none ∧ f.attrs.flatten = false ∧ isNCName f.label = true ∧
      (f.attrs.isAttr = true → f.attrs.text = false ∧ f.label ≠ c!"xmlns") ∧
      ∀ q, f.ty.core = .struct q → (env q).isSome = true ∧ (f.attrs.isAttr = false → nameFitsB env q f.label = true) ∧
        (f.attrs.isAttr = true → attrTypeB env q = true) := by
    intro f hf
    have := h5 f hf
    simp only [Bool.and_eq_true] at this
    obtain ⟨⟨⟨⟨a, b⟩, c⟩, e⟩, g⟩ := this
    refine ⟨by simpa using a, by simpa using b, c, ?_, ?_⟩
    · intro ha; rw [ha] at e; simpa using e
    · intro q hq
      rw [FTy.corePath_eq hq] at g
      simp only [Bool.and_eq_true] at g
      refine ⟨g.1, fun ha => ?_, fun ha => ?_⟩ <;> (rw [ha] at g; simpa using g.2)
  refine ⟨⟨by simpa using h1, by simpa using h2, by simpa using h3⟩, plain_of_check h4, ?_, ?_, ?_, ?_, ?_, ?_⟩
  · intro f hf q hq
    exact Option.isSome_iff_exists.mp ((key f hf).2.2.2.2 q hq).1
  · exact fun f hf => ⟨(key f hf).1, (key f hf).2.1, (key f hf).2.2.1⟩
  · exact fun f hf => (key f hf).2.2.2.1
  · intro i j f g hf hg hor
    refine pairs_of_check h6 i j f g hf hg ?_
    simpa [Bool.or_eq_true, Bool.and_eq_true] using hor
  · exact fun f hf ha q hq => nameFits_of_check (((key f hf).2.2.2.2 q hq).2.1 ha)
  · exact fun f hf ha q hq => attrType_of_check (((key f hf).2.2.2.2 q hq).2.2 ha)

def simpleEnumB (env : Env) (d : EnumDef) : Bool :=
  d.attrs.namespaces.isEmpty && d.attrs.pfx.isNone && !d.attrs.flatten && d.attrs.tag.isNone &&
  d.variants.all (fun v => v.attrs.pfx.isNone && !v.attrs.flatten && isNCName (VariantDef.key v) &&
    (match v.shape with
      | .unit => true
      | .newtype (.simple _) => true
      | .newtype (.struct q) => (env q).isSome && bareB env q && nameFitsB env q (VariantDef.key v)
      | _ => false)) &&
  pairsB (fun v w : VariantDef => VariantDef.key v == VariantDef.key w) d.variants

theorem simpleEnum_of_check {env : Env} {d : EnumDef} (h : simpleEnumB env d = true) : SimpleEnum env d := by
  unfold simpleEnumB at h
  simp only [Bool.and_eq_true] at h
  obtain ⟨⟨⟨⟨⟨h1, h2⟩, h3⟩, h4⟩, h5⟩, h6⟩ := h
  rw [List.all_eq_true] at h5
  refine ⟨⟨by simpa using h1, by simpa using h2, by simpa using h3, by simpa using h4⟩, ?_, ?_, ?_⟩
  · intro v hv
    have := h5 v hv
    simp only [Bool.and_eq_true] at this
    exact ⟨by simpa using this.1.1.1, by simpa using this.1.1.2, this.1.2⟩
  · intro v hv
    have := h5 v hv
    simp only [Bool.and_eq_true] at this
    have h7 := this.2
    split at h7
    · exact .inl (by assumption)
    · exact .inr (.inl ⟨_, by assumption⟩)
    · simp only [Bool.and_eq_true] at h7
      obtain ⟨td, htd⟩ := Option.isSome_iff_exists.mp h7.1.1
      exact .inr (.inr ⟨_, td, by assumption, htd, bare_of_check h7.1.2, nameFits_of_check h7.2⟩)
    · cases h7
  · intro i j v w hv hw e
    exact pairs_of_check h6 i j v w hv hw (by simpa [VariantDef.key] using e)

/-- Is the program simple? -/
def simpleB (l : List (Path × TypeDef)) : Bool :=
  l.all fun e =>
    match e.2 with
    | .struct d => simpleStructB (envOf l) d
    | .enum d => simpleEnumB (envOf l) d
    | .prim _ => true

theorem simple_of_check (l : List (Path × TypeDef)) (h : simpleB l = true) : SimpleProgram (envOf l) := by
  intro p td hp
  have := List.all_eq_true.mp h _ (mem_envOf hp)
  cases td with
  | struct d => exact .inl ⟨d, rfl, simpleStruct_of_check this⟩
  | enum d => exact .inr (.inl ⟨d, rfl, simpleEnum_of_check this⟩)
  | prim d => exact .inr (.inr ⟨d, rfl⟩)

def writesAllB (l : List (Path × TypeDef)) : Bool :=
  l.all fun e =>
    match e.2 with
    | .struct d => d.fields.all fun f => f.dflt.isNone && f.skipIf.isNone && !f.attrs.skipSer && !f.attrs.cdata &&
        (!f.attrs.isAttr || (match f.ty with | .vec _ => false | _ => true))
    | _ => true

theorem writesAll_of_check (l : List (Path × TypeDef)) (h : writesAllB l = true) : WritesAll (envOf l) := by
  intro p d hp f hf
  have := List.all_eq_true.mp h _ (mem_envOf hp)
  have := List.all_eq_true.mp this f hf
  simp only [Bool.and_eq_true] at this
  obtain ⟨⟨⟨⟨h1, h2⟩, h3⟩, h4⟩, h5⟩ := this
  refine ⟨by simpa using h1, by simpa using h2, by simpa using h3, by simpa using h4, ?_⟩
  intro ha t ht
  rw [ha, ht] at h5
  cases h5

def simpleRootB (env : Env) (p : Path) : Bool :=
  match env p with
  | some td => isNCName td.elementName && nameFitsB env p td.elementName
  | none => false

theorem simpleRoot_of_check {env : Env} {p : Path} (h : simpleRootB env p = true) : SimpleRoot env p := by
  unfold simpleRootB at h
  split at h
  · rw [Bool.and_eq_true] at h
    exact ⟨_, by assumption, h.1, nameFits_of_check h.2⟩
  · cases h

def attrEnumB (env : Env) (q : Path) : Bool :=
  match env q with
  | some (.enum e) => e.attrs.namespaces.isEmpty && e.attrs.tag.isNone &&
      e.variants.all (fun v => match v.shape with | .unit => true | _ => false)
  | _ => false

theorem attrEnum_of_check {env : Env} {q : Path} (h : attrEnumB env q = true) : AttrType env q := by
  unfold attrEnumB at h
  split at h
  · rename_i e he
    simp only [Bool.and_eq_true] at h
    refine .inl ⟨e, he, by simpa using h.1.1, by simpa using h.1.2, fun v hv => ?_⟩
    have := List.all_eq_true.mp h.2 v hv
    split at this
    · assumption
    · cases this
  · cases h

def bareInB (env : Env) (decls : NsMap) (q : Path) : Bool :=
  match env q with
  | some (.struct e) => e.fields.all (fun f => !f.attrs.isAttr && !f.attrs.flatten) && e.attrs.decls.all (fun x => decls.contains x)
  | some (.enum e) => e.attrs.tag.isNone && e.attrs.decls.all (fun x => decls.contains x)
  | _ => true

theorem bareIn_of_check {env : Env} {decls : NsMap} {q : Path} (h : bareInB env decls q = true) : BareIn env decls q := by
  unfold bareInB at h
  constructor <;> intro e he <;> rw [he] at h <;> simp only [Bool.and_eq_true] at h
  · refine ⟨fun f hf => ?_, fun x hx => ?_⟩
    · have := List.all_eq_true.mp h.1 f hf
      simpa using this
    · have := List.all_eq_true.mp h.2 x hx
      simpa using this
  · refine ⟨by simpa using h.1, fun x hx => ?_⟩
    have := List.all_eq_true.mp h.2 x hx
    simpa using this

def carriesB (l : List (Path × TypeDef)) : Bool :=
  l.all fun e =>
    match e.2 with
    | .struct d => d.fields.all fun f =>
        (!f.attrs.isAttr || (match f.ty.corePath with | some q => attrEnumB (envOf l) q | none => true)) &&
        (f.attrs.isAttr || !f.attrs.flatten || (f.dflt.isNone && f.skipIf.isNone && !f.attrs.skipSer))
    | .enum d => d.variants.all fun v =>
        match v.shape with
        | .newtype t => d.attrs.tag.isNone &&
            (t.coreSimple || (match t.corePath with | some q => bareInB (envOf l) d.attrs.decls q | none => false))
        | _ => true
    | .prim _ => true

theorem carries_of_check (l : List (Path × TypeDef)) (h : carriesB l = true) : Carries (envOf l) where
  attr := by
    intro p d hp f hf ha q hq
    have := List.all_eq_true.mp h _ (mem_envOf hp)
    have := List.all_eq_true.mp this f hf
    rw [Bool.and_eq_true, ha, FTy.corePath_eq hq] at this
    exact attrEnum_of_check (by simpa using this.1)
  flat := by
    intro p d hp f hf ha hfl
    have := List.all_eq_true.mp h _ (mem_envOf hp)
    have := List.all_eq_true.mp this f hf
    rw [Bool.and_eq_true, ha, hfl] at this
    have := this.2
    simp only [Bool.false_or, Bool.not_true, Bool.and_eq_true] at this
    exact ⟨by simpa using this.1.1, by simpa using this.1.2, by simpa using this.2⟩
  payload := by
    intro p d hp v hv t ht
    have := List.all_eq_true.mp h _ (mem_envOf hp)
    have := List.all_eq_true.mp this v hv
    rw [ht] at this
    simp only [Bool.and_eq_true, Bool.or_eq_true] at this
    refine ⟨by simpa using this.1, ?_⟩
    rcases this.2 with h1 | h1
    · exact .inl (FTy.of_coreSimple h1)
    · cases hq : t.corePath with
      | none => rw [hq] at h1; cases h1
      | some q =>
        rw [hq] at h1
        obtain ⟨q', hq'⟩ := FTy.of_corePath (t := t) (by rw [hq]; rfl)
        have := FTy.corePath_eq hq'
        rw [hq, Option.some.injEq] at this
        subst this
        exact .inr ⟨q, hq', bareIn_of_check h1⟩

def plainPayloadsB (l : List (Path × TypeDef)) : Bool :=
  l.all fun e =>
    match e.2 with
    | .enum d => d.variants.all fun v =>
        match v.shape with
        | .unit => true
        | .newtype (.simple _) => true
        | .newtype (.struct _) => true
        | _ => false
    | _ => true

theorem plainPayloads_of_check (l : List (Path × TypeDef)) (h : plainPayloadsB l = true) : PlainPayloads (envOf l) := by
  intro p d hp v hv
  have := List.all_eq_true.mp h _ (mem_envOf hp)
  have := List.all_eq_true.mp this v hv
  split at this
  · exact .inl (by assumption)
  · exact .inr (.inl ⟨_, by assumption⟩)
  · exact .inr (.inr ⟨_, by assumption⟩)
  · cases this

mutual
  def tameB (L : Lib) : Val → Bool
    | .str s => cleanB s && isAttrText s
    | .f32 b => cleanB (L.showF32 b) && isAttrText (L.showF32 b) && (match L.parseF32 (L.showF32 b) with | .ok x => x == b | _ => false)
    | .f64 b => cleanB (L.showF64 b) && isAttrText (L.showF64 b) && (match L.parseF64 (L.showF64 b) with | .ok x => x == b | _ => false)
    | .some v => tameB L v
    | .vec vs => tameAllB L vs
    | .struct fs => tameAllB L fs
    | .enum _ ps => tameAllB L ps
    | _ => true
  def tameAllB (L : Lib) : List Val → Bool
    | [] => true
    | v :: vs => tameB L v && tameAllB L vs
end

mutual
  theorem tame_of_check (L : Lib) : ∀ v : Val, tameB L v = true → v.Tame L
    | .str s, h => by
      rw [tameB, Bool.and_eq_true] at h
      rw [Val.Tame]
      exact ⟨clean_of_check h.1, h.2⟩
    | .f32 b, h => by
      rw [tameB, Bool.and_eq_true, Bool.and_eq_true] at h
      rw [Val.Tame]
      refine ⟨clean_of_check h.1.1, h.1.2, ?_⟩
      have := h.2
      split at this
      · rename_i x hx; rw [hx, eq_of_beq this]
      · cases this
    | .f64 b, h => by
      rw [tameB, Bool.and_eq_true, Bool.and_eq_true] at h
      rw [Val.Tame]
      refine ⟨clean_of_check h.1.1, h.1.2, ?_⟩
      have := h.2
      split at this
      · rename_i x hx; rw [hx, eq_of_beq this]
      · cases this
    | .some v, h => by
      rw [tameB] at h
      rw [Val.Tame]
      exact tame_of_check L v h
    | .vec vs, h => by
      rw [tameB] at h
      rw [Val.Tame]
      exact tame_of_checkAll L vs h
    | .struct vs, h => by
      rw [tameB] at h
      rw [Val.Tame]
      exact tame_of_checkAll L vs h
    | .enum _ vs, h => by
      rw [tameB] at h
      rw [Val.Tame]
      exact tame_of_checkAll L vs h
    | .bool _, _ => by simp [Val.Tame]
    | .int _, _ => by simp [Val.Tame]
    | .none, _ => by simp [Val.Tame]
  theorem tame_of_checkAll (L : Lib) : ∀ vs : List Val, tameAllB L vs = true → TameL L vs
    | [], _ => by simp [TameL]
    | v :: vs, h => by
      rw [tameAllB, Bool.and_eq_true] at h
      rw [TameL]
      exact ⟨tame_of_check L v h.1, tame_of_checkAll L vs h.2⟩
end

end Yaserde.Tests
