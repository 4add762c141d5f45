import Verif.Proofs.GenDe
/-
Function bodies, and the functions of the run-time library that take closures: the program against the interpreter.
-/

set_option autoImplicit false

namespace Yaserde.Rs

/-- The body `x` of a function that returns `Result<_, String>` does what `m` does. -/
def Fun {α : Type} (x : Exec Rd) (s : Store) (m : D α) (inj : α → RV) (F : Store → Prop) : Prop :=
  Sim (Exec.called x) s (M.attempt m) (IsRes inj F) Any

section fun_
variable {α β : Type} {x : Exec Rd} {s s' : Store} {m : D α} {inj : α → RV} {F F' : Store → Prop}

theorem attempt_ok (m : D α) (rd : Rd) : (∃ r rd', M.attempt m rd = (.ok r, rd')) ∨ (∃ e rd', M.attempt m rd = (.panic e, rd')) ∨
    ∃ rd', M.attempt m rd = (.diverge, rd') := by
  unfold M.attempt
  rcases m rd with ⟨r, rd'⟩
  cases r
  · exact .inl ⟨_, _, rfl⟩
  · exact .inl ⟨_, _, rfl⟩
  · exact .inr (.inl ⟨_, _, rfl⟩)
  · exact .inr (.inr ⟨_, rfl⟩)

/-- `attempt` does not end in an error. -/
theorem Sim.attempt {P : Except Str α → Out → Store → Prop} {E E' : Store → Prop} (h : Sim x s (M.attempt m) P E) :
    Sim x s (M.attempt m) P E' := by
  intro rd hp
  have h1 := h rd hp
  rcases attempt_ok m rd with ⟨r, rd', e⟩ | ⟨r, rd', e⟩ | ⟨rd', e⟩ <;> rw [e] at h1 ⊢ <;> exact h1

theorem Fun.call {L : Lib} {ops : Op → List RV → Rd → Out × Rd} {fuel : Nat} {e : Ex} {E : Store → Prop}
    (h : Fun (eval L ops fuel e) s m inj F) : Sim (eval L ops fuel (.call e)) s (M.attempt m) (IsRes inj F) E :=
  Sim.attempt h

theorem Fun.conseq (h : Fun x s m inj F) (hF : ∀ t, F t → F' t) : Fun x s m inj F' :=
  Sim.conseq h (fun _ _ _ h => ⟨h.1, hF _ h.2⟩)

theorem Fun.bind {m' : β → D α} {n : D β} {P : β → Out → Store → Prop} {k : RV → Exec Rd} (h : Sim x s n P F)
    (hk : ∀ b o s', P b o s' → ∃ v, o = .val v ∧ Fun (k v) s' (m' b) inj F) : Fun (x.bind k) s (n >>= m') inj F := by
  intro rd hp
  have h1 := h rd hp
  show After _ _ (M.attempt (M.bind n m') rd) _
  unfold M.attempt M.bind Exec.called Exec.bind
  rcases hm : n rd with ⟨r, rd'⟩
  rw [hm] at h1
  cases r with
  | ok b =>
    obtain ⟨hp', o, s1, e1, hP⟩ := h1
    obtain ⟨v, rfl, hv⟩ := hk b o s1 hP
    rw [e1]
    exact hv rd' hp'
  | err e => obtain ⟨hp', s1, e1, hE⟩ := h1; rw [e1]; exact ⟨hp', _, s1, rfl, rfl, hE⟩
  | panic e => obtain ⟨s1, e1⟩ := h1; rw [e1]; exact ⟨s1, rfl⟩
  | diverge =>
    rcases hx : x (rd, s) with ⟨o, t⟩
    rw [hx] at h1
    cases o <;> simp_all [Lost, After]

theorem Fun.scope {xs : List Var} (h : Fun x s m inj F) (hF : ∀ t, F t → F' (t.leave s xs)) :
    Fun (Exec.inScope xs x) s m inj F' := by
  have h1 : Sim (Exec.inScope xs (Exec.called x)) s (M.attempt m) (IsRes inj F') Any :=
    Sim.scope h (fun _ _ _ h => ⟨h.1, hF _ h.2⟩) fun _ _ => trivial
  refine h1.congr fun rd => ?_
  simp only [Exec.called, Exec.inScope]
  rcases x (rd, s) with ⟨o, t⟩
  cases o <;> rfl

theorem Fun.ok {a : α} (h : ∀ rd : Rd, x (rd, s) = (.val (.ok (inj a)), (rd, s'))) (hF : F s') : Fun x s (M.pure a) inj F :=
  fun rd hp => ⟨hp, _, s', by unfold Exec.called; rw [h rd]; rfl, rfl, hF⟩

theorem Fun.err {e : Str} (h : ∀ rd : Rd, x (rd, s) = (.val (.err (.str e)), (rd, s'))) (hF : F s') : Fun x s (M.throw e) inj F :=
  fun rd hp => ⟨hp, _, s', by unfold Exec.called; rw [h rd]; rfl, rfl, hF⟩

theorem Fun.panic {e : Str} (h : ∀ rd : Rd, x (rd, s) = (.panic e, (rd, s'))) : Fun x s (M.panic e) inj F :=
  fun rd _ => ⟨s', by unfold Exec.called; rw [h rd]⟩

/-- The value of the last expression. -/
theorem Fun.tail {E : Store → Prop} (h : Sim x s (M.attempt m) (IsRes inj F) E) : Fun x s m inj F := by
  intro rd hp
  have h1 := h rd hp
  unfold Exec.called
  rcases attempt_ok m rd with ⟨r, rd', e⟩ | ⟨r, rd', e⟩ | ⟨rd', e⟩ <;> rw [e] at h1 ⊢
  · obtain ⟨hp', o, t, e1, rfl, hF⟩ := h1
    rw [e1]
    exact ⟨hp', _, _, rfl, rfl, hF⟩
  · obtain ⟨t, e1⟩ := h1
    rw [e1]
    exact ⟨_, rfl⟩
  · rcases hx : x (rd, s) with ⟨o, t⟩
    rw [hx] at h1
    cases o <;> simp_all [Lost, After]

/-- `return e` -/
theorem Fun.ret {L : Lib} {ops : Op → List RV → Rd → Out × Rd} {fuel : Nat} {e : Ex} {E : Store → Prop} {k : RV → Exec Rd}
    (h : Sim (eval L ops fuel e) s (M.attempt m) (IsRes inj F) E) : Fun ((eval L ops fuel (.ret e)).bind k) s m inj F := by
  intro rd hp
  have h1 := h rd hp
  simp only [Exec.called, eval, Exec.bind, Exec.out]
  rcases attempt_ok m rd with ⟨r, rd', e⟩ | ⟨r, rd', e⟩ | ⟨rd', e⟩ <;> rw [e] at h1 ⊢
  · obtain ⟨hp', o, t, e1, rfl, hF⟩ := h1
    rw [e1]
    exact ⟨hp', _, _, rfl, rfl, hF⟩
  · obtain ⟨t, e1⟩ := h1
    rw [e1]
    exact ⟨_, rfl⟩
  · rcases hx : eval L ops fuel _ (rd, s) with ⟨o, t⟩
    rw [hx] at h1
    cases o <;> simp_all [Lost, After]

theorem Fun.step {v : RV} {k : RV → Exec Rd} (h : ∀ rd : Rd, x (rd, s) = (.val v, (rd, s'))) (hk : Fun (k v) s' m inj F) :
    Fun (x.bind k) s m inj F := by
  refine Sim.congr (y := fun q => Exec.called (k v) (q.1, s')) (fun rd hp => hk rd hp) fun rd => ?_
  simp only [Exec.called, Exec.bind, h rd]

end fun_

/-- `let x = e;` -/
theorem Sim.letE {β : Type} {L : Lib} {ops : Op → List RV → Rd → Out × Rd} {fuel : Nat} {s s' : Store} {m : D β} {e : Ex} {x : Var}
    {inj : β → RV} {E : Store → Prop} (h : Sim (eval L ops fuel e) s m (fun b o t => o = .val (inj b) ∧ t = s') E) :
    Sim (eval L ops fuel (.letE x e)) s m (fun b o t => o = .val .unit ∧ t = s'.set x (inj b)) E := by
  intro rd hp
  have h1 := h rd hp
  simp only [eval, Exec.bind, Exec.setVar]
  rcases hm : m rd with ⟨r, rd'⟩
  rw [hm] at h1
  cases r with
  | ok b => obtain ⟨hp', o, s1, e1, rfl, rfl⟩ := h1; rw [e1]; exact ⟨hp', _, _, rfl, rfl, rfl⟩
  | err e => obtain ⟨hp', s1, e1, h2⟩ := h1; rw [e1]; exact ⟨hp', _, rfl, h2⟩
  | panic e => obtain ⟨s1, e1⟩ := h1; rw [e1]; exact ⟨_, rfl⟩
  | diverge =>
    rcases hx : eval L ops fuel e (rd, s) with ⟨o, t⟩
    rw [hx] at h1
    cases o <;> simp_all [Lost, After]

section arms
variable {β : Type} {L : Lib} {ops : Op → List RV → Rd → Out × Rd} {fuel : Nat} {s : Store} {m : D β} {p : Pat} {e : Ex} {as : Arms}
  {v : RV} {bs : List (Var × RV)}

theorem Sim.arm {P P' : β → Out → Store → Prop} {E E' : Store → Prop} (h : p.matches v = some bs)
    (hb : Sim (eval L ops fuel e) (s.setAll bs) m P E) (hP : ∀ b o t, P b o t → P' b o (t.leave s p.vars))
    (hE : ∀ t, E t → E' (t.leave s p.vars)) : Sim (evalArms L ops fuel (.cons p e as) v) s m P' E' := by
  have h1 : Sim (Exec.inScope p.vars fun q => eval L ops fuel e (q.1, q.2.setAll bs)) s m P' E' :=
    Sim.scope (fun rd hp => hb rd hp) hP hE
  refine h1.congr fun rd => ?_
  simp only [evalArms, h]

theorem SimR.arm {R : Rd → Prop} {P P' : β → Out → Store → Prop} {E E' : Store → Prop} (h : p.matches v = some bs)
    (hb : SimR R (eval L ops fuel e) (s.setAll bs) m P E) (hP : ∀ b o t, P b o t → P' b o (t.leave s p.vars))
    (hE : ∀ t, E t → E' (t.leave s p.vars)) : SimR R (evalArms L ops fuel (.cons p e as) v) s m P' E' := by
  have h1 : SimR R (Exec.inScope p.vars fun q => eval L ops fuel e (q.1, q.2.setAll bs)) s m P' E' :=
    SimR.scope (fun rd hp hR => hb rd hp hR) hP hE
  refine h1.congr fun rd => ?_
  simp only [evalArms, h]

theorem Sim.arm_ne {P : β → Out → Store → Prop} {E : Store → Prop} (h : p.matches v = none)
    (hb : Sim (evalArms L ops fuel as v) s m P E) : Sim (evalArms L ops fuel (.cons p e as) v) s m P E := by
  refine hb.congr fun rd => ?_
  simp only [evalArms, h]

theorem Fun.arm {inj : β → RV} {F F' : Store → Prop} (h : p.matches v = some bs)
    (hb : Fun (eval L ops fuel e) (s.setAll bs) m inj F) (hF : ∀ t, F t → F' (t.leave s p.vars)) :
    Fun (evalArms L ops fuel (.cons p e as) v) s m inj F' := by
  have h1 : Fun (Exec.inScope p.vars fun q => eval L ops fuel e (q.1, q.2.setAll bs)) s m inj F' :=
    Fun.scope (fun rd hp => hb rd hp) hF
  refine Sim.congr h1 fun rd => ?_
  simp only [evalArms, h, Exec.called]

theorem Fun.arm_ne {inj : β → RV} {F : Store → Prop} (h : p.matches v = none)
    (hb : Fun (evalArms L ops fuel as v) s m inj F) : Fun (evalArms L ops fuel (.cons p e as) v) s m inj F := by
  refine Sim.congr hb fun rd => ?_
  simp only [evalArms, h, Exec.called]

end arms

/-- Variables other than `xs` are unchanged. -/
def Off (xs : List Var) (s t : Store) : Prop := ∀ y, y ∉ xs → t y = s y

theorem Off.refl {xs : List Var} {s : Store} : Off xs s s := fun _ _ => rfl

theorem Off.set {xs : List Var} {s t : Store} {x : Var} {v : RV} (h : Off xs s t) (hx : x ∈ xs) : Off xs s (t.set x v) := by
  intro y hy
  rw [Store.set_apply, if_neg (fun e => hy (by rw [e]; exact hx))]
  exact h y hy

theorem Off.leave {xs : List Var} {s t : Store} (h : Off xs s t) : t.leave s xs = s := by
  funext y
  rw [Store.leave_apply]
  split
  · rfl
  · exact h y ‹_›

theorem setAll_nil (s : Store) : s.setAll [] = s := rfl
theorem setAll_one (s : Store) (x : Var) (v : RV) : s.setAll [(x, v)] = s.set x v := rfl
theorem set_leave (s : Store) (x : Var) (v : RV) : (s.set x v).leave s [x] = s := (Off.refl.set (by simp)).leave

section
variable (L : Lib) (g : Path → D Val) (fuel : Nat)

/-! ### `expect_end_element`, `read_inner_value` -/

theorem sim_expectEnd {s : Store} {n : Name} {E : Store → Prop} (hn : s .rt_start_name = .name n) :
    Sim (eval L (deOps L g) fuel expectEnd) s (M.attempt (expectEndElement n)) (IsRes (fun _ => .unit) (· = s)) E := by
  refine Fun.call ?_
  unfold expectEndElement
  refine Fun.bind (Sim.try_ (sim_next L g fuel (E := Any)) fun _ h => h) ?_
  rintro e o t ⟨rfl, rfl⟩
  refine ⟨_, rfl, ?_⟩
  cases e with
  | endE n' =>
    refine Fun.arm (bs := [(.rt_name, .name n')]) rfl (F := (· = t.set .rt_name (.name n'))) ?_ (fun _ h => h ▸ set_leave ..)
    by_cases h : n' = n
    · simp only [h, if_true]
      refine Fun.ok (s' := t.set .rt_name (.name n)) (fun rd => ?_) rfl
      rs_simp
    · simp only [h, if_false]
      refine Fun.err (s' := t.set .rt_name (.name n')) (fun rd => ?_) rfl
      have hb : (n' == n) = false := beq_eq_false_iff_ne.2 h
      rs_simp
  | _ =>
    refine Fun.arm_ne rfl (Fun.arm (bs := []) rfl (F := (· = t)) ?_ (fun _ h => h ▸ Store.leave_nil ..))
    refine Fun.err (s' := t) (fun rd => ?_) rfl
    rs_simp

theorem sim_readInner {f : Ex} {m : D Val} {s : Store} {E : Store → Prop}
    (hf : ∀ n, Fun (eval L (deOps L g) fuel f) (s.set .rt_start_name (.name n)) m .val (· = s.set .rt_start_name (.name n))) :
    Sim (eval L (deOps L g) fuel (readInner f)) s (M.attempt (readInnerValue m)) (IsRes .val (· = s)) E := by
  refine Fun.call ?_
  unfold readInnerValue
  refine Fun.bind (sim_next L g fuel) ?_
  rintro r o t ⟨rfl, rfl⟩
  refine ⟨_, rfl, ?_⟩
  have other : Fun (evalArms L (deOps L g) fuel (.cons .wild (fn .err [strE c!"Internal error: Bad Event"]) .nil)
      (resRV .ev r)) t (M.throw c!"Internal error: Bad Event") RV.val (· = t) := by
    refine Fun.arm (bs := []) rfl (F := (· = t)) ?_ (fun _ h => h ▸ Store.leave_nil ..)
    refine Fun.err (s' := t) (fun rd => ?_) rfl
    rs_simp
  match r, other with
  | .ok (.start n as nss), _ =>
    refine Fun.arm (bs := [(.rt_start_name, .name n)]) rfl (F := (· = t.set .rt_start_name (.name n))) ?_
      (fun _ h => h ▸ set_leave ..)
    rw [setAll_one]
    refine Fun.scope (F := Off [.rt_result] (t.set .rt_start_name (.name n))) ?_ (fun _ h => h.leave)
    refine Fun.bind (Sim.letE (Sim.try_ (Fun.call (E := Any) (hf n)) (fun _ h => h ▸ Off.refl))) ?_
    rintro a o _ ⟨rfl, rfl⟩
    refine ⟨_, rfl, ?_⟩
    refine Fun.bind (Sim.try_ (sim_expectEnd L g fuel (n := n) (E := Any) (by simp)) fun _ h => h ▸ Off.refl.set (by simp)) ?_
    rintro _ o _ ⟨rfl, rfl⟩
    refine ⟨_, rfl, ?_⟩
    refine Fun.ok (s' := (t.set .rt_start_name (.name n)).set .rt_result (.val a)) (fun rd => ?_) (Off.refl.set (by simp))
    rs_simp
  | .error e, other => exact Fun.arm_ne rfl other
  | .ok .startDocument, other => exact Fun.arm_ne rfl other
  | .ok .endDocument, other => exact Fun.arm_ne rfl other
  | .ok (.pi ..), other => exact Fun.arm_ne rfl other
  | .ok (.endE ..), other => exact Fun.arm_ne rfl other
  | .ok (.chars ..), other => exact Fun.arm_ne rfl other
  | .ok (.comment ..), other => exact Fun.arm_ne rfl other
  | .ok (.cdata ..), other => exact Fun.arm_ne rfl other
  | .ok (.ws ..), other => exact Fun.arm_ne rfl other

end

end Yaserde.Rs
