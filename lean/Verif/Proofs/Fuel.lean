import Verif.Proofs.Reader
import Verif.Model.DeEnum
/-
The step budget of the model: a run that finishes within a budget gives the same result
with any larger one.
-/

set_option autoImplicit false

namespace Yaserde

/-- `g` finishes, with the same result and state, whenever `f` finishes. -/
structure Le {α : Type} (f g : D α) : Prop where
  imp : ∀ rd, (f rd).1 ≠ .diverge → g rd = f rd

/-- The same for plain results. -/
structure RLe {α : Type} (r s : Res α) : Prop where
  imp : r ≠ .diverge → s = r

section
variable {α β : Type}

theorem RLe.refl (r : Res α) : RLe r r := ⟨fun _ => rfl⟩
theorem RLe.diverge (r : Res α) : RLe .diverge r := ⟨fun h => absurd rfl h⟩

theorem RLe.bind {r s : Res α} {f g : α → Res β} (h : RLe r s) (hf : ∀ a, RLe (f a) (g a)) :
    RLe (r.bind f) (s.bind g) := by
  constructor
  intro hn
  have hr : r ≠ .diverge := by
    intro hc; subst hc; exact hn rfl
  rw [h.imp hr]
  cases r with
  | ok a => exact (hf a).imp hn
  | err m => rfl
  | panic m => rfl
  | diverge => exact absurd rfl hr

theorem Le.refl (f : D α) : Le f f := ⟨fun _ _ => rfl⟩
theorem Le.diverge (f : D α) : Le M.diverge f := ⟨fun _ h => absurd rfl h⟩

theorem Le.trans {f g h : D α} (h₁ : Le f g) (h₂ : Le g h) : Le f h := by
  constructor
  intro rd hn
  have := h₁.imp rd hn
  rw [h₂.imp rd (by rw [this]; exact hn), this]

theorem Le.lift {r s : Res α} (h : RLe r s) : Le (M.lift r) (M.lift s) :=
  ⟨fun rd hn => by simp only [mlift_apply] at hn ⊢; rw [h.imp hn]⟩

theorem Le.bind {f f' : D α} {g g' : α → D β} (hf : Le f f') (hg : ∀ a, Le (g a) (g' a)) :
    Le (f >>= g) (f' >>= g') := by
  constructor
  intro rd hn
  cases hr : f rd with
  | mk r rd' =>
    have hr' : r ≠ .diverge := by
      intro hc; subst hc; rw [bind_diverge hr] at hn; exact hn rfl
    have hf' := hf.imp rd (by rw [hr]; exact hr')
    rw [hr] at hf'
    cases r with
    | ok a =>
      rw [bind_ok hr] at hn ⊢
      rw [bind_ok hf']
      exact (hg a).imp rd' hn
    | err m => rw [bind_err hr, bind_err hf']
    | panic m => rw [bind_panic hr, bind_panic hf']
    | diverge => exact absurd rfl hr'

theorem Le.attempt {f g : D α} (h : Le f g) : Le (M.attempt f) (M.attempt g) := by
  constructor
  intro rd hn
  have : (f rd).1 ≠ .diverge := by
    intro hc
    apply hn
    cases hr : f rd with
    | mk r rd' =>
      rw [hr] at hc
      simp only at hc
      subst hc
      simp [M.attempt, hr]
  simp only [M.attempt, h.imp rd this]

theorem Le.get {g g' : Rd → D β} (hg : ∀ rd, Le (g rd) (g' rd)) : Le (M.get >>= g) (M.get >>= g') :=
  .bind (.refl _) hg

end

theorem Le.skipLoop {n m : Nat} (h : n ≤ m) (depth : Nat) :
    ∀ acc, Le (Yaserde.skipLoop n depth acc) (Yaserde.skipLoop m depth acc) := by
  induction n generalizing m with
  | zero => intro acc; exact .diverge _
  | succ n ih =>
    intro acc
    obtain ⟨m, rfl⟩ : ∃ k, m = k + 1 := ⟨m - 1, by omega⟩
    constructor
    intro rd hn
    simp only [Yaserde.skipLoop] at hn ⊢
    split at hn
    · rename_i hd
      rw [if_pos hd]
      rw [if_pos hd]
      exact (Le.bind (.refl Yaserde.nextEvent) fun e => ih (by omega) (acc ++ [e])).imp rd hn
    · rename_i hd
      rw [if_neg hd, if_neg hd]

theorem Le.skipElement {n m : Nat} (h : n ≤ m) : Le (Yaserde.skipElement n) (Yaserde.skipElement m) :=
  ⟨fun rd hn => (Le.skipLoop h rd.depth []).imp rd hn⟩

theorem RLe.foldRes {α β : Type} {f g : β → α → Res β} (h : ∀ b a, RLe (f b a) (g b a)) (as : List α) :
    ∀ b, RLe (Yaserde.foldRes f b as) (Yaserde.foldRes g b as) := by
  induction as with
  | nil => intro b; exact .refl _
  | cons a as ih => intro b; exact .bind (h b a) fun b' => ih b'

section
variable {L : Lib} {rec rec' : Path → D Val} (hrec : ∀ p, Le (rec p) (rec' p))
include hrec

theorem RLe.fromStr (p : Path) (s : Str) : RLe (Yaserde.fromStr L rec p s) (Yaserde.fromStr L rec' p s) :=
  ⟨fun hn => by simp only [Yaserde.fromStr] at hn ⊢; rw [(hrec p).imp _ hn]⟩

theorem RLe.visitAttr (t : FTy) (v : Str) :
    RLe (Yaserde.visitAttr L rec t v) (Yaserde.visitAttr L rec' t v) := by
  unfold Yaserde.visitAttr
  split
  · exact .refl _
  · exact .fromStr hrec _ _
  · exact .refl _

theorem RLe.loadAttrField (f : FieldDef) (attrs : List Attr) (slot : Slot) :
    RLe (Yaserde.loadAttrField L rec f attrs slot) (Yaserde.loadAttrField L rec' f attrs slot) := by
  refine .foldRes (fun slot a => ?_) attrs slot
  split
  · split
    · exact .foldRes (fun slot w => .bind (.visitAttr hrec _ _) fun _ => .refl _) _ _
    · exact .bind (.visitAttr hrec _ _) fun _ => .refl _
  · exact .refl _

theorem RLe.loadAttrs (fs : List FieldDef) (attrs : List Attr) :
    ∀ ss, RLe (Yaserde.loadAttrs L rec fs attrs ss) (Yaserde.loadAttrs L rec' fs attrs ss) := by
  induction fs with
  | nil => intro ss; exact .refl _
  | cons f fs ih =>
    intro ss
    cases ss with
    | nil => exact .refl _
    | cons s ss =>
      refine .bind ?_ fun _ => .bind (ih _) fun _ => .refl _
      split
      · exact .loadAttrField hrec ..
      · exact .refl _

theorem Le.callStruct (i : Nat) (p : Path) (st : LoopSt) :
    Le (Yaserde.callStruct rec i p st) (Yaserde.callStruct rec' i p st) := by
  refine .bind (.refl _) fun _ => .bind (.refl _) fun r => ?_
  split
  · exact .bind (hrec _) fun _ => .refl _
  · exact .refl _

theorem Le.callVisitor (root : Attrs) (f : FieldDef) (i : Nat) (name : Name) (st : LoopSt) :
    Le (Yaserde.callVisitor L rec root f i name st) (Yaserde.callVisitor L rec' root f i name st) := by
  unfold Yaserde.callVisitor
  split
  · exact .callStruct hrec _ _ _
  · exact .refl _
  · exact .refl _

theorem Le.structStart {n m : Nat} (h : n ≤ m) (d : StructDef) (st : LoopSt) (name : Name)
    (attrs : List Attr) :
    Le (Yaserde.structStart L rec n d st name attrs) (Yaserde.structStart L rec' m d st name attrs) := by
  refine .bind ?_ fun st' => .bind ?_ fun st'' => .refl _
  · split
    · exact .refl _
    · split
      · split
        · exact .callVisitor hrec ..
        · exact .refl _
      · refine .bind (.refl _) fun _ => .bind (.refl _) fun _ => ?_
        split
        · exact .bind (.skipElement h) fun _ => .refl _
        · exact .refl _
  · split
    · exact .bind (.lift (.loadAttrs hrec ..)) fun _ => .refl _
    · exact .refl _

theorem Le.structStep {n m : Nat} (h : n ≤ m) (d : StructDef) (named : Str) (startDepth : Nat)
    (st : LoopSt) :
    Le (Yaserde.structStep L rec n d named startDepth st)
      (Yaserde.structStep L rec' m d named startDepth st) := by
  refine .bind (.refl _) fun e => ?_
  split
  · exact .bind (.structStart hrec h ..) fun _ => .refl _
  all_goals exact .refl _

theorem Le.structLoop {k l : Nat} (hk : k ≤ l) (d : StructDef) (named : Str) (startDepth : Nat)
    {n m : Nat} (h : n ≤ m) :
    ∀ st, Le (Yaserde.structLoop L rec k d named startDepth n st)
      (Yaserde.structLoop L rec' l d named startDepth m st) := by
  induction n generalizing m with
  | zero => intro st; exact .diverge _
  | succ n ih =>
    intro st
    obtain ⟨m, rfl⟩ : ∃ k, m = k + 1 := ⟨m - 1, by omega⟩
    refine .bind (.structStep hrec hk ..) fun r => ?_
    dsimp only
    split
    · exact ih (by omega) _
    · exact .refl _

theorem RLe.flattenField (unused : Str) (f : FieldDef) (s : Slot) :
    RLe (Yaserde.flattenField L rec unused f s) (Yaserde.flattenField L rec' unused f s) := by
  unfold Yaserde.flattenField
  split
  · split
    · exact .bind (.fromStr hrec _ _) fun _ => .refl _
    · rename_i p _
      constructor
      intro hn
      have : Yaserde.fromStr L rec p unused ≠ .diverge := by
        intro hc; rw [hc] at hn; exact hn rfl
      rw [(RLe.fromStr (L := L) hrec p unused).imp this]
    · exact .refl _
  · exact .refl _

theorem RLe.flattenFields (unused : Str) (fs : List FieldDef) :
    ∀ ss, RLe (Yaserde.flattenFields L rec unused fs ss) (Yaserde.flattenFields L rec' unused fs ss) := by
  induction fs with
  | nil => intro ss; exact .refl _
  | cons f fs ih =>
    intro ss
    cases ss with
    | nil => exact .refl _
    | cons s ss => exact .bind (.flattenField hrec ..) fun _ => .bind (ih _) fun _ => .refl _

theorem Le.structBody {n m : Nat} (h : n ≤ m) (d : StructDef) (info : Str × Option Str) (dep : Nat) :
    Le (Yaserde.structBody L rec n d info dep) (Yaserde.structBody L rec' m d info dep) := by
  refine .bind (.refl _) fun _ => .bind (.structLoop hrec h _ _ _ h _) fun st =>
    .bind ?_ fun _ => .refl _
  split
  · exact .lift (.flattenFields hrec ..)
  · exact .refl _

theorem Le.structDeser {n m : Nat} (h : n ≤ m) (d : StructDef) :
    Le (Yaserde.structDeser L rec n d) (Yaserde.structDeser L rec' m d) :=
  .bind (.refl _) fun _ => .get fun _ => .structBody hrec h ..

theorem Le.variantArm (i : Nat) (v : VariantDef) (cur : Option Val) :
    Le (Yaserde.variantArm L rec i v cur) (Yaserde.variantArm L rec' i v cur) := by
  unfold Yaserde.variantArm
  split
  · exact .refl _
  · exact .refl _
  · split
    · exact .bind (hrec _) fun _ => .refl _
    · exact .refl _
    · exact .refl _

theorem Le.enumMatch (d : EnumDef) (key : Str) (cur : Option Val) (dflt : D (Option Val × Bool)) :
    Le (Yaserde.enumMatch L rec d key cur dflt) (Yaserde.enumMatch L rec' d key cur dflt) := by
  unfold Yaserde.enumMatch
  split
  · split
    · exact .variantArm hrec ..
    · exact .refl _
  · exact .refl _

theorem Le.enumStep (d : EnumDef) (named : Str) (startDepth : Nat) (cur : Option Val) :
    Le (Yaserde.enumStep L rec d named startDepth cur)
      (Yaserde.enumStep L rec' d named startDepth cur) := by
  refine .bind (.refl _) fun e => ?_
  split
  · refine .bind (.refl _) fun key => .bind (.enumMatch hrec ..) fun r => ?_
    dsimp only
    split
    · refine .bind (.refl _) fun e' => ?_
      split
      · exact .enumMatch hrec ..
      · exact .refl _
    · exact .refl _
  all_goals exact .refl _

theorem Le.enumLoop (d : EnumDef) (named : Str) (startDepth : Nat) {n m : Nat} (h : n ≤ m) :
    ∀ cur, Le (Yaserde.enumLoop L rec d named startDepth n cur)
      (Yaserde.enumLoop L rec' d named startDepth m cur) := by
  induction n generalizing m with
  | zero => intro st; exact .diverge _
  | succ n ih =>
    intro st
    obtain ⟨m, rfl⟩ : ∃ k, m = k + 1 := ⟨m - 1, by omega⟩
    refine .bind (.enumStep hrec ..) fun r => ?_
    dsimp only
    split
    · exact ih (by omega) _
    · exact .refl _

theorem Le.enumDeser {n m : Nat} (h : n ≤ m) (d : EnumDef) :
    Le (Yaserde.enumDeser L rec n d) (Yaserde.enumDeser L rec' m d) :=
  .bind (.refl _) fun _ => .get fun _ => .bind (.refl _) fun _ =>
    .bind (.enumLoop hrec _ _ _ h _) fun _ => .refl _

end

theorem Le.deser (L : Lib) (env : Env) {n m : Nat} (h : n ≤ m) :
    ∀ p, Le (Yaserde.deser L env n p) (Yaserde.deser L env m p) := by
  induction n generalizing m with
  | zero => intro p; exact .diverge _
  | succ n ih =>
    intro p
    obtain ⟨m, rfl⟩ : ∃ k, m = k + 1 := ⟨m - 1, by omega⟩
    have hnm : n ≤ m := by omega
    unfold Yaserde.deser
    split
    · exact .structDeser (ih hnm) hnm _
    · exact .enumDeser (ih hnm) hnm _
    · exact .refl _
    · exact .refl _

end Yaserde
