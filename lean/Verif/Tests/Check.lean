import Verif.Tests.Util
import Verif.Spec.Encode
/-
Decision procedures used to discharge the hypotheses of the serialization theorems for concrete programs and values.
-/

set_option autoImplicit false

namespace Yaserde

def FieldDef.serOkB (f : FieldDef) : Bool :=
  if f.attrs.isAttr then
    match f.ty with
    | .simple _ | .opt (.simple _) | .opt (.struct _) | .struct _ | .vec _ => true
    | _ => false
  else if f.attrs.text then f.ty = .simple .string || f.ty = .opt (.simple .string)
  else if f.attrs.cdata then f.ty = .simple .string
  else
    match f.ty with
    | .simple _ | .opt (.simple _) | .opt (.vec (.simple _)) | .opt (.struct _) | .struct _ | .vec (.simple _)
    | .vec (.opt (.simple _)) | .vec (.opt (.struct _)) | .vec (.struct _) => true
    | _ => false

theorem FieldDef.serOk_of_check {f : FieldDef} (h : f.serOkB = true) : f.SerOk := by
  unfold FieldDef.serOkB at h
  unfold FieldDef.SerOk
  repeat' split at h
  all_goals first | simp_all | trivial

def FTy.variantOkB : FTy → Bool
  | .simple _ | .opt (.simple _) | .opt (.struct _) | .struct _ | .vec (.simple _) | .vec (.struct _) => true
  | _ => false

def FTy.namedOkB : FTy → Bool
  | .simple _ | .struct _ | .vec (.struct _) | .vec (.simple _) | .opt _ => true
  | _ => false

theorem FTy.variantOk_of_check {t : FTy} (h : t.variantOkB = true) : t.VariantOk := by
  unfold FTy.variantOkB at h
  split at h
  all_goals first | trivial | simp at h

theorem FTy.namedOk_of_check {t : FTy} (h : t.namedOkB = true) : t.NamedOk := by
  unfold FTy.namedOkB at h
  split at h
  all_goals first | trivial | simp at h

def VariantDef.serOkB (v : VariantDef) : Bool :=
  match v.shape with
  | .unit => true
  | .newtype t => t.variantOkB
  | .named fds => fds.all fun f => f.ty.namedOkB

def TypeDef.serOkB : TypeDef → Bool
  | .struct d => d.fields.all FieldDef.serOkB
  | .enum d => d.variants.all VariantDef.serOkB
  | .prim _ => true

def FTy.isVecScalar : FTy → Bool
  | .vec (.simple _) => true
  | _ => false

def VariantDef.noBuiltinB (v : VariantDef) : Bool :=
  match v.shape with
  | .newtype (.opt (.simple t)) => t = .string
  | .newtype (.vec (.simple t)) => t = .string
  | .named fds => fds.all fun f => !f.ty.isVecScalar
  | _ => true

def TypeDef.noBuiltinB : TypeDef → Bool
  | .struct d => d.fields.all fun f => match f.ty with | .vec (.opt (.simple _)) => false | _ => true
  | .enum d => d.variants.all VariantDef.noBuiltinB
  | .prim d => !d.bare

namespace Tests

theorem mem_envOf {l : List (Path × TypeDef)} {p : Path} {td : TypeDef} (h : envOf l p = some td) : (p, td) ∈ l := by
  unfold envOf at h
  rw [Option.map_eq_some_iff] at h
  obtain ⟨e, he, rfl⟩ := h
  have h1 := List.find?_some he
  simp at h1
  subst h1
  exact List.mem_of_find?_eq_some he

theorem serOk_of_all (l : List (Path × TypeDef)) (h : l.all (fun e => e.2.serOkB) = true) : SerOk (envOf l) := by
  rw [List.all_eq_true] at h
  constructor
  · intro p d hp f hf
    have := h _ (mem_envOf hp)
    exact FieldDef.serOk_of_check (List.all_eq_true.1 this f hf)
  · intro p d hp v hv t ht
    have := h _ (mem_envOf hp)
    have := List.all_eq_true.1 this v hv
    unfold VariantDef.serOkB at this
    rw [ht] at this
    exact FTy.variantOk_of_check this
  · intro p d hp v hv fds hs f hf
    have := h _ (mem_envOf hp)
    have := List.all_eq_true.1 this v hv
    unfold VariantDef.serOkB at this
    rw [hs] at this
    exact FTy.namedOk_of_check (List.all_eq_true.1 this f hf)

theorem noBuiltin_of_all (l : List (Path × TypeDef)) (h : l.all (fun e => e.2.noBuiltinB) = true) : NoBuiltin (envOf l) := by
  rw [List.all_eq_true] at h
  constructor
  · intro p d hp f hf t ht
    have := h _ (mem_envOf hp)
    have := List.all_eq_true.1 this f hf
    rw [ht] at this
    cases this
  · intro p d hp v hv t ht
    have := h _ (mem_envOf hp)
    have := List.all_eq_true.1 this v hv
    unfold VariantDef.noBuiltinB at this
    constructor <;> intro hs <;> rw [hs] at this <;> exact ht (of_decide_eq_true this)
  · intro p d hp v hv fds hs f hf t ht
    have := h _ (mem_envOf hp)
    have := List.all_eq_true.1 this v hv
    unfold VariantDef.noBuiltinB at this
    rw [hs] at this
    have := List.all_eq_true.1 this f hf
    rw [ht] at this
    cases this
  · intro p d hp
    have := h _ (mem_envOf hp)
    simpa [TypeDef.noBuiltinB] using this

mutual
  /-- Does the value have the type? -/
  def hasTyB (env : Env) : FTy → Val → Bool
    | .simple .string, .str _ => true
    | .simple .bool, .bool _ => true
    | .simple (.int t), .int z => decide (t.Fits z)
    | .simple .f32, .f32 _ => true
    | .simple .f64, .f64 _ => true
    | .opt _, .none => true
    | .opt t, .some v => hasTyB env t v
    | .vec t, .vec vs => hasTyAllB env t vs
    | .struct p, v =>
      match env p, v with
      | some (.struct d), .struct fs => hasTyFieldsB env d.fields fs
      | some (.enum d), .enum i fs =>
        match d.variants[i]? with
        | some vd =>
          match vd.shape, fs with
          | .unit, [] => true
          | .newtype t, [x] => hasTyB env t x
          | .named fds, fs => hasTyFieldsB env fds fs
          | _, _ => false
        | none => false
      | some (.prim d), v => d.dom v
      | _, _ => false
    | _, _ => false
  def hasTyAllB (env : Env) (t : FTy) : List Val → Bool
    | [] => true
    | v :: vs => hasTyB env t v && hasTyAllB env t vs
  def hasTyFieldsB (env : Env) : List FieldDef → List Val → Bool
    | [], [] => true
    | f :: fds, v :: vs => hasTyB env f.ty v && hasTyFieldsB env fds vs
    | _, _ => false
end

mutual
  theorem hasTy_of_check (env : Env) : ∀ (t : FTy) (v : Val), hasTyB env t v = true → HasTy env t v
    | t, v, h => by
      rw [hasTyB.eq_def] at h
      split at h
      · exact .str _
      · exact .bool _
      · exact .int _ _ (of_decide_eq_true h)
      · exact .f32 _
      · exact .f64 _
      · exact .none _
      · exact .some _ _ (hasTy_of_check env _ _ h)
      · exact .vec _ _ (hasTy_of_checkAll env _ _ h)
      · split at h
        · rename_i hp
          have := hasTy_of_checkFields env _ _ h
          exact .struct _ _ _ hp this.1 this.2
        · rename_i hp
          split at h
          · rename_i hi
            split at h
            · rename_i hs; exact .unit _ _ _ _ hp hi hs
            · rename_i hs; exact .newtype _ _ _ _ _ _ hp hi hs (hasTy_of_check env _ _ h)
            · rename_i hs
              have := hasTy_of_checkFields env _ _ h
              exact .named _ _ _ _ _ _ hp hi hs this.1 this.2
            · cases h
          · cases h
        · rename_i hp; exact .prim _ _ _ hp h
        · cases h
      · cases h
  termination_by _ v => (sizeOf v, 0)
  theorem hasTy_of_checkAll (env : Env) : ∀ (t : FTy) (vs : List Val), hasTyAllB env t vs = true → ∀ v ∈ vs, HasTy env t v
    | _, [], _ => by simp
    | t, x :: xs, h => by
      rw [hasTyAllB, Bool.and_eq_true] at h
      have h0 := hasTy_of_check env t x h.1
      have ih := hasTy_of_checkAll env t xs h.2
      intro v hv
      rcases List.mem_cons.1 hv with rfl | hv
      · exact h0
      · exact ih v hv
  termination_by _ vs => (sizeOf vs, 0)
  theorem hasTy_of_checkFields (env : Env) : ∀ (fds : List FieldDef) (vs : List Val), hasTyFieldsB env fds vs = true →
      vs.length = fds.length ∧ ∀ (i : Nat) (f : FieldDef) (v : Val), fds[i]? = some f → vs[i]? = some v → HasTy env f.ty v
    | [], [], _ => by simp
    | [], _ :: _, h => by simp [hasTyFieldsB] at h
    | _ :: _, [], h => by simp [hasTyFieldsB] at h
    | f :: fds, v :: vs, h => by
      rw [hasTyFieldsB, Bool.and_eq_true] at h
      have ih := hasTy_of_checkFields env fds vs h.2
      have h0 := hasTy_of_check env f.ty v h.1
      refine ⟨by simp [ih.1], ?_⟩
      intro i g w hg hw
      cases i with
      | zero => simp at hg hw; subst hg hw; exact h0
      | succ i => exact ih.2 i g w hg hw
  termination_by _ vs => (sizeOf vs, 0)
end

end Tests
end Yaserde
