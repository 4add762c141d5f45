import Verif.Model.GenDe
/-
More budget does not change the result of a printed program.
-/

set_option autoImplicit false

namespace Yaserde.Rs

/-- `y` does what `x` does, wherever `x` comes to an end. -/
def LeE {σ : Type} (x y : Exec σ) : Prop := ∀ s, (x s).1 ≠ .diverge → y s = x s

section
variable {σ : Type}

theorem LeE.refl (x : Exec σ) : LeE x x := fun _ _ => rfl

theorem LeE.bind {x y : Exec σ} {k l : RV → Exec σ} (h : LeE x y) (hk : ∀ v, LeE (k v) (l v)) : LeE (x.bind k) (y.bind l) := by
  intro s hs
  have h1 := h s
  unfold Exec.bind at hs ⊢
  rcases hx : x s with ⟨o, s'⟩
  rw [hx] at hs h1
  cases o with
  | val v => rw [h1 (by simp)]; exact hk v s' hs
  | brk => rw [h1 (by simp)]
  | ret v => rw [h1 (by simp)]
  | panic m => rw [h1 (by simp)]
  | diverge => exact absurd rfl hs

theorem LeE.inScope {x y : Exec σ} (xs : List Var) (h : LeE x y) : LeE (Exec.inScope xs x) (Exec.inScope xs y) := by
  intro s hs
  unfold Exec.inScope at hs ⊢
  rw [h s hs]

theorem LeE.called {x y : Exec σ} (h : LeE x y) : LeE (Exec.called x) (Exec.called y) := by
  intro s hs
  have h1 := h s
  unfold Exec.called at hs ⊢
  rcases hx : x s with ⟨o, s'⟩
  rw [hx] at hs h1
  cases o with
  | diverge => exact absurd rfl hs
  | _ => rw [h1 (by simp)]

theorem LeE.loopN {x y : Exec σ} (h : LeE x y) : ∀ {n m : Nat}, n ≤ m → LeE (Exec.loopN x n) (Exec.loopN y m)
  | 0, _, _ => fun _ hs => absurd rfl hs
  | n + 1, 0, hm => absurd hm (by omega)
  | n + 1, m + 1, hm => by
    intro s hs
    have h1 := h s
    unfold Exec.loopN at hs ⊢
    rcases hx : x s with ⟨o, s'⟩
    rw [hx] at hs h1
    cases o with
    | val v => rw [h1 (by simp)]; exact LeE.loopN h (by omega) s' hs
    | diverge => exact absurd rfl hs
    | _ => rw [h1 (by simp)]

theorem LeE.forL {x y : Exec σ} (v : Var) (h : LeE x y) : ∀ l : List RV, LeE (Exec.forL v x l) (Exec.forL v y l)
  | [] => LeE.refl _
  | a :: l => by
    intro s hs
    have h1 := LeE.inScope [v] (LeE.bind (LeE.refl (Exec.setVar v a)) fun _ => h) s
    unfold Exec.forL at hs ⊢
    rcases hx : Exec.inScope [v] (Exec.bind (Exec.setVar v a) fun _ => x) s with ⟨o, s'⟩
    rw [hx] at hs h1
    cases o with
    | val v => rw [h1 (by simp)]; exact LeE.forL _ h l s' hs
    | diverge => exact absurd rfl hs
    | _ => rw [h1 (by simp)]

variable (L : Lib) {ops ops' : Op → List RV → σ → Out × σ} (hops : ∀ o l t, (ops o l t).1 ≠ .diverge → ops' o l t = ops o l t)
  {n m : Nat} (hnm : n ≤ m)
include hops

theorem LeE.op (o : Op) (l : List RV) : LeE (runOp ops o l) (runOp ops' o l) := by
  intro s hs
  unfold runOp at hs ⊢
  rw [hops o l s.1 hs]

include hnm

mutual

theorem LeE.eval : ∀ e : Ex, LeE (eval L ops n e) (eval L ops' m e)
  | .lit v => by simp only [Rs.eval]; exact LeE.refl _
  | .var x => by simp only [Rs.eval]; exact LeE.refl _
  | .letE x e => by simp only [Rs.eval]; exact LeE.bind (LeE.eval e) fun _ => LeE.refl _
  | .letPair x y e => by simp only [Rs.eval]; exact LeE.bind (LeE.eval e) fun _ => LeE.refl _
  | .assign x e => by simp only [Rs.eval]; exact LeE.bind (LeE.eval e) fun _ => LeE.refl _
  | .incr x z => by simp only [Rs.eval]; exact LeE.refl _
  | .mutate x ps mu e => by simp only [Rs.eval]; exact LeE.bind (LeE.eval e) fun _ => LeE.refl _
  | .block es => by simp only [Rs.eval]; exact LeE.inScope _ (LeE.evalSeq es _)
  | .ite c a b => by
    simp only [Rs.eval]
    refine LeE.bind (LeE.eval c) fun v => ?_
    split
    · exact LeE.eval a
    · exact LeE.eval b
    · exact LeE.refl _
  | .matchE e as => by simp only [Rs.eval]; exact LeE.bind (LeE.eval e) fun v => LeE.evalArms as v
  | .loop b => by simp only [Rs.eval]; exact LeE.loopN (LeE.eval b) hnm
  | .brk => by simp only [Rs.eval]; exact LeE.refl _
  | .ret e => by simp only [Rs.eval]; exact LeE.bind (LeE.eval e) fun _ => LeE.refl _
  | .try_ e => by simp only [Rs.eval]; exact LeE.bind (LeE.eval e) fun _ => LeE.refl _
  | .forE x e b => by
    simp only [Rs.eval]
    refine LeE.bind (LeE.eval e) fun v => ?_
    split
    · exact LeE.forL _ (LeE.eval b) _
    · exact LeE.refl _
  | .unwrapOrElse e b => by
    simp only [Rs.eval]
    refine LeE.bind (LeE.eval e) fun v => ?_
    split
    · exact LeE.refl _
    · exact LeE.eval b
    · exact LeE.refl _
  | .okOrElse e b => by
    simp only [Rs.eval]
    refine LeE.bind (LeE.eval e) fun v => ?_
    split
    · exact LeE.refl _
    · exact LeE.bind (LeE.eval b) fun _ => LeE.refl _
    · exact LeE.refl _
  | .call b => by simp only [Rs.eval]; exact LeE.called (LeE.eval b)
  | .app f es => by simp only [Rs.eval]; exact LeE.evalArgs es _ fun _ => LeE.refl _
  | .op o es => by simp only [Rs.eval]; exact LeE.evalArgs es _ fun l => LeE.op hops o l

theorem LeE.evalSeq : ∀ (es : Exs) (v : RV), LeE (evalSeq L ops n v es) (evalSeq L ops' m v es)
  | .nil, v => by simp only [Rs.evalSeq]; exact LeE.refl _
  | .cons e es, v => by simp only [Rs.evalSeq]; exact LeE.bind (LeE.eval e) fun v' => LeE.evalSeq es v'

theorem LeE.evalArgs : ∀ (es : Exs) (acc : List RV) {k l : List RV → Exec σ}, (∀ x, LeE (k x) (l x)) →
    LeE (evalArgs L ops n acc es k) (evalArgs L ops' m acc es l)
  | .nil, acc, k, l, h => by simp only [Rs.evalArgs]; exact h acc
  | .cons e es, acc, k, l, h => by simp only [Rs.evalArgs]; exact LeE.bind (LeE.eval e) fun v' => LeE.evalArgs es _ h

theorem LeE.evalArms : ∀ (as : Arms) (v : RV), LeE (evalArms L ops n as v) (evalArms L ops' m as v)
  | .nil, v => by simp only [Rs.evalArms]; exact LeE.refl _
  | .cons p e as, v => by
    simp only [Rs.evalArms]
    split
    · exact LeE.inScope _ fun s hs => LeE.eval e _ hs
    · exact LeE.evalArms as v

end

end

theorem liftD_mono {α : Type} {x y : D α} (h : ∀ rd, (x rd).1 ≠ .diverge → y rd = x rd) (inj : α → RV) (rd : Rd)
    (hd : (liftD x inj rd).1 ≠ .diverge) : liftD y inj rd = liftD x inj rd := by
  have h1 := h rd
  unfold liftD at hd ⊢
  rcases hx : x rd with ⟨r, rd'⟩
  rw [hx] at hd h1
  cases r with
  | diverge => exact absurd rfl hd
  | _ => rw [h1 (by simp)]

theorem deOps_mono (L : Lib) {r r' : Path → D Val} (h : ∀ p rd, (r p rd).1 ≠ .diverge → r' p rd = r p rd) (o : Op) (l : List RV)
    (rd : Rd) (hd : (deOps L r o l rd).1 ≠ .diverge) : deOps L r' o l rd = deOps L r o l rd := by
  unfold deOps at hd ⊢
  split
  · rfl
  · rfl
  · rfl
  · exact liftD_mono (h _) _ _ hd
  · dsimp only at hd ⊢
    rw [liftD_mono (h _) _ _ hd]
  · rfl

theorem runDe_mono (L : Lib) {r r' : Path → D Val} (h : ∀ p rd, (r p rd).1 ≠ .diverge → r' p rd = r p rd) {n m : Nat} (hnm : n ≤ m)
    (b : Ex) (rd : Rd) (hd : (runDe L r n b rd).1 ≠ .diverge) : runDe L r' m b rd = runDe L r n b rd := by
  have h1 := LeE.eval L (deOps_mono L h) hnm b (rd, fun _ => .unit)
  unfold runDe at hd ⊢
  rcases hx : eval L (deOps L r) n b (rd, fun _ => .unit) with ⟨o, s⟩
  rw [hx] at hd h1
  cases o with
  | diverge => exact absurd rfl hd
  | _ => rw [h1 (by simp)]

theorem deserGen_mono (L : Lib) (env : Env) : ∀ {n m : Nat}, n ≤ m → ∀ p rd, (deserGen L env n p rd).1 ≠ .diverge →
    deserGen L env m p rd = deserGen L env n p rd
  | 0, _, _ => fun _ _ hd => absurd rfl hd
  | n + 1, 0, hm => absurd hm (by omega)
  | n + 1, m + 1, hm => by
    intro p rd hd
    have ih := deserGen_mono L env (n := n) (m := m) (by omega)
    unfold deserGen at hd ⊢
    cases he : env p with
    | none => rfl
    | some td =>
      rw [he] at hd
      cases td with
      | struct d => exact runDe_mono L ih (by omega) _ rd hd
      | enum d => exact runDe_mono L ih (by omega) _ rd hd
      | prim d => rfl

end Yaserde.Rs
