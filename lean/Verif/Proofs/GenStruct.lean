import Verif.Proofs.GenFun
/-
The printed `deserialize` of a struct against the interpreter.
-/

set_option autoImplicit false

namespace Yaserde.Rs

/-! ### Expressions without effect -/

section evals
variable (L : Lib) (g : Path → D Val) (fuel : Nat)

def Evals (e : Ex) (s : Store) (v : RV) : Prop := ∀ rd : Rd, eval L (deOps L g) fuel e (rd, s) = (.val v, (rd, s))

variable {L g fuel} {s : Store}

theorem Evals.lit {v : RV} : Evals L g fuel (.lit v) s v := fun _ => rfl

theorem Evals.var {x : Var} : Evals L g fuel (.var x) s (s x) := fun _ => rfl

theorem Evals.var' {x : Var} {v : RV} (h : s x = v) : Evals L g fuel (.var x) s v := h ▸ Evals.var

theorem Evals.app0 {f : Fn} {v : RV} (h : f.apply L [] = .val v) : Evals L g fuel (fn f []) s v := by
  intro rd
  simp [fn, Exs.ofList, eval, evalArgs, Exec.out, h]

theorem Evals.app1 {f : Fn} {a : Ex} {x v : RV} (ha : Evals L g fuel a s x) (h : f.apply L [x] = .val v) :
    Evals L g fuel (fn f [a]) s v := by
  intro rd
  simp [fn, Exs.ofList, eval, evalArgs, Exec.out, Exec.bind, ha rd, h]

theorem Evals.app2 {f : Fn} {a b : Ex} {x y v : RV} (ha : Evals L g fuel a s x) (hb : Evals L g fuel b s y)
    (h : f.apply L [x, y] = .val v) : Evals L g fuel (fn f [a, b]) s v := by
  intro rd
  simp [fn, Exs.ofList, eval, evalArgs, Exec.out, Exec.bind, ha rd, hb rd, h]

theorem Evals.depth (rd : Rd) (s : Store) : eval L (deOps L g) fuel (meth .depth) (rd, s) = (.val (.int rd.depth), (rd, s)) := by
  rw [eval_meth0]
  rfl

theorem Evals.and {a b : Ex} {x y : Bool} (ha : Evals L g fuel a s (.bool x)) (hb : Evals L g fuel b s (.bool y)) :
    Evals L g fuel (andE a b) s (.bool (x && y)) := by
  intro rd
  cases x
  · simp [andE, eval, Exec.bind, ha rd, Exec.val, Exec.out]
  · simp [andE, eval, Exec.bind, ha rd, hb rd]

theorem Evals.eqInt {a b : Ex} {x y : Int} (ha : Evals L g fuel a s (.int x)) (hb : Evals L g fuel b s (.int y)) :
    Evals L g fuel (fn .eq [a, b]) s (.bool (x == y)) := Evals.app2 ha hb rfl

theorem Evals.eqStr {a b : Ex} {x y : Str} (ha : Evals L g fuel a s (.str x)) (hb : Evals L g fuel b s (.str y)) :
    Evals L g fuel (fn .eq [a, b]) s (.bool (x == y)) := Evals.app2 ha hb rfl

theorem Evals.locName {a : Ex} {n : Name} (ha : Evals L g fuel a s (.name n)) : Evals L g fuel (fn .locName [a]) s (.str n.loc) :=
  Evals.app1 ha rfl

theorem Evals.nsOf {a : Ex} {n : Name} (ha : Evals L g fuel a s (.name n)) : Evals L g fuel (fn .nsOf [a]) s (optStr n.ns) := by
  refine Evals.app1 ha ?_
  simp only [Fn.apply]
  cases n.ns <;> rfl

section sim
variable {β : Type} {m : D β} {P : β → Out → Store → Prop} {E : Store → Prop}

theorem Sim.ite {c a b : Ex} {x : Bool} (hc : Evals L g fuel c s (.bool x))
    (h1 : x = true → Sim (eval L (deOps L g) fuel a) s m P E) (h2 : x = false → Sim (eval L (deOps L g) fuel b) s m P E) :
    Sim (eval L (deOps L g) fuel (.ite c a b)) s m P E := by
  cases x with
  | true => exact Sim.step (k := fun v => match v with | .bool true => _ | .bool false => _ | _ => _) hc (h1 rfl)
  | false => exact Sim.step (k := fun v => match v with | .bool true => _ | .bool false => _ | _ => _) hc (h2 rfl)

theorem Sim.match_ {e : Ex} {as : Arms} {v : RV} (he : Evals L g fuel e s v) (h : Sim (evalArms L (deOps L g) fuel as v) s m P E) :
    Sim (eval L (deOps L g) fuel (.matchE e as)) s m P E :=
  Sim.step (k := evalArms L (deOps L g) fuel as) he h

/-- The last expression of a block. -/
theorem Sim.last {e : Ex} {v : RV} (h : Sim (eval L (deOps L g) fuel e) s m P E) :
    Sim (evalSeq L (deOps L g) fuel v (.ofList [e])) s m P E := by
  refine h.congr fun rd => ?_
  simp only [Exs.ofList, evalSeq, Exec.bind, Exec.val, Exec.out]
  rcases eval L (deOps L g) fuel e (rd, s) with ⟨o, t⟩
  cases o <;> rfl

theorem Sim.block {es : List Ex} {xs : List Var} {P' : β → Out → Store → Prop} {E' : Store → Prop} (hd : (Exs.ofList es).decls = xs)
    (h : Sim (evalSeq L (deOps L g) fuel .unit (.ofList es)) s m P E) (hP : ∀ b o t, P b o t → P' b o (t.leave s xs))
    (hE : ∀ t, E t → E' (t.leave s xs)) : Sim (eval L (deOps L g) fuel (blk es)) s m P' E' := by
  subst hd
  exact Sim.scope h hP hE

theorem Sim.map {γ : Type} {x : Exec Rd} {f : β → γ} {Q : γ → Out → Store → Prop} (h : Sim x s m P E)
    (hQ : ∀ b o t, P b o t → Q (f b) o t) : Sim x s (m >>= fun b => M.pure (f b)) Q E := by
  intro rd hp
  have h1 := h rd hp
  show After Q E (M.bind m _ rd) _
  unfold M.bind
  rcases hm : m rd with ⟨r, rd'⟩
  rw [hm] at h1
  cases r with
  | ok b => obtain ⟨hp', o, t, e1, h2⟩ := h1; exact ⟨hp', o, t, e1, hQ _ _ _ h2⟩
  | err e => exact h1
  | panic e => exact h1
  | diverge => exact h1

theorem Sim.skip_ {b : β} (h : P b (.val .unit) s) : Sim (eval L (deOps L g) fuel skipE) s (M.pure b) P E :=
  Sim.pure (fun _ => rfl) h

theorem Sim.evals {e : Ex} {v : RV} (h : Evals L g fuel e s v) : Sim (eval L (deOps L g) fuel e) s (M.pure ()) (fun _ o t => o = .val v ∧ t = s) E :=
  Sim.pure h ⟨rfl, rfl⟩

theorem SimR.ite {R : Rd → Prop} {c a b : Ex} {x : Bool} (hc : Evals L g fuel c s (.bool x))
    (h1 : x = true → SimR R (eval L (deOps L g) fuel a) s m P E) (h2 : x = false → SimR R (eval L (deOps L g) fuel b) s m P E) :
    SimR R (eval L (deOps L g) fuel (.ite c a b)) s m P E := by
  cases x with
  | true => exact SimR.step (k := fun v => match v with | .bool true => _ | .bool false => _ | _ => _) hc (h1 rfl)
  | false => exact SimR.step (k := fun v => match v with | .bool true => _ | .bool false => _ | _ => _) hc (h2 rfl)

theorem SimR.match_ {R : Rd → Prop} {e : Ex} {as : Arms} {v : RV} (he : Evals L g fuel e s v)
    (h : SimR R (evalArms L (deOps L g) fuel as v) s m P E) : SimR R (eval L (deOps L g) fuel (.matchE e as)) s m P E :=
  SimR.step (k := evalArms L (deOps L g) fuel as) he h

theorem SimR.last {R : Rd → Prop} {e : Ex} {v : RV} (h : SimR R (eval L (deOps L g) fuel e) s m P E) :
    SimR R (evalSeq L (deOps L g) fuel v (.ofList [e])) s m P E := by
  refine h.congr fun rd => ?_
  simp only [Exs.ofList, evalSeq, Exec.bind, Exec.val, Exec.out]
  rcases eval L (deOps L g) fuel e (rd, s) with ⟨o, t⟩
  cases o <;> rfl

theorem SimR.block {R : Rd → Prop} {es : List Ex} {xs : List Var} {P' : β → Out → Store → Prop} {E' : Store → Prop}
    (hd : (Exs.ofList es).decls = xs)
    (h : SimR R (evalSeq L (deOps L g) fuel .unit (.ofList es)) s m P E) (hP : ∀ b o t, P b o t → P' b o (t.leave s xs))
    (hE : ∀ t, E t → E' (t.leave s xs)) : SimR R (eval L (deOps L g) fuel (blk es)) s m P' E' := by
  subst hd
  exact SimR.scope h hP hE

end sim

end evals

/-! ### The variables of the function -/

/-- The variables that the loop assigns to. -/
def Var.isCore : Var → Bool
  | .depth | .writer | .value _ => true
  | _ => false

/-- A slot as a value of the program. -/
def slotRV : Slot → RV
  | .one none => .none
  | .one (some v) => .some (.val v)
  | .many vs => .vec (vs.map .val)

/-- `many` for `Vec` fields. -/
def SlotOk (ty : FTy) (sl : Slot) : Prop :=
  match ty, sl with
  | .vec _, .many _ => True
  | .vec _, .one _ => False
  | _, .one _ => True
  | _, .many _ => False

def Holds (s : Store) (f : FieldDef) (sl : Slot) : Prop := s f.slotVar = slotRV sl ∧ SlotOk f.ty sl

inductive All2 {α β : Type} (R : α → β → Prop) : List α → List β → Prop where
  | nil : All2 R [] []
  | cons {a : α} {b : β} {l : List α} {l' : List β} (h : R a b) (hs : All2 R l l') : All2 R (a :: l) (b :: l')

/-- The variables are those of the interpreter. -/
structure St (d : StructDef) (st : LoopSt) (s : Store) : Prop where
  depth : s .depth = .int st.depth
  writer : d.hasFlat = true → s .writer = optW st.writer
  slots : All2 (Holds s) d.fields st.slots

/-- Other variables are unchanged, apart from `xs`. -/
def Fr (xs : List Var) (s t : Store) : Prop := ∀ y, y.isCore = false → y ∉ xs → t y = s y

theorem Fr.refl {xs : List Var} {s : Store} : Fr xs s s := fun _ _ _ => rfl

theorem Fr.set {xs : List Var} {s t : Store} {x : Var} {v : RV} (h : Fr xs s t) (hx : x ∈ xs) : Fr xs s (t.set x v) := by
  intro y hc hy
  rw [Store.set_apply, if_neg (fun e => hy (by rw [e]; exact hx))]
  exact h y hc hy

theorem Fr.core {xs : List Var} {s t : Store} {x : Var} {v : RV} (h : Fr xs s t) (hx : x.isCore = true) : Fr xs s (t.set x v) := by
  intro y hc hy
  rw [Store.set_apply, if_neg (fun e => by rw [e, hx] at hc; cases hc)]
  exact h y hc hy

theorem Fr.trans {xs : List Var} {s t u : Store} (h : Fr xs s t) (h' : Fr xs t u) : Fr xs s u :=
  fun y hc hy => (h' y hc hy).trans (h y hc hy)

theorem Fr.mono {xs ys : List Var} {s t : Store} (h : Fr xs s t) (hs : ∀ x ∈ xs, x ∈ ys) : Fr ys s t :=
  fun y hc hy => h y hc fun hm => hy (hs y hm)

theorem Fr.leave {xs ys : List Var} {s t : Store} (h : Fr (xs ++ ys) s t) : Fr ys s (t.leave s xs) := by
  intro y hc hy
  rw [Store.leave_apply]
  split
  · rfl
  · exact h y hc (by simp [hy, ‹y ∉ xs›])

theorem Fr.leave' {xs : List Var} {s t : Store} (h : Fr xs s t) : Fr [] s (t.leave s xs) :=
  Fr.leave (by simpa using h)

theorem All2.imp_mem {α β : Type} {R S : α → β → Prop} {l : List α} {l' : List β} (h : All2 R l l')
    (hi : ∀ a ∈ l, ∀ b, R a b → S a b) : All2 S l l' := by
  induction h with
  | nil => exact .nil
  | cons h hs ih =>
    exact .cons (hi _ List.mem_cons_self _ h) (ih fun a ha b hb => hi a (List.mem_cons_of_mem _ ha) b hb)

theorem St.congr {d : StructDef} {st : LoopSt} {s t : Store} (h : St d st s) (he : ∀ y, y.isCore = true → t y = s y) : St d st t where
  depth := (he _ rfl).trans h.depth
  writer hf := (he _ rfl).trans (h.writer hf)
  slots := All2.imp_mem h.slots fun f _ _ hh => ⟨(he _ rfl).trans hh.1, hh.2⟩

theorem St.set {d : StructDef} {st : LoopSt} {s : Store} {x : Var} {v : RV} (h : St d st s) (hx : x.isCore = false) :
    St d st (s.set x v) :=
  h.congr fun y hy => by rw [Store.set_apply, if_neg]; rintro rfl; rw [hx] at hy; cases hy

theorem St.leave {d : StructDef} {st : LoopSt} {s t : Store} {xs : List Var} (h : St d st s) (hx : ∀ x ∈ xs, x.isCore = false) :
    St d st (s.leave t xs) :=
  h.congr fun y hy => by
    rw [Store.leave_apply, if_neg]
    intro hm
    rw [hx y hm] at hy
    cases hy

/-- The state after a step of the loop body. -/
def Step (d : StructDef) (xs : List Var) (s : Store) : LoopSt → Out → Store → Prop :=
  fun st o t => (∃ v, o = .val v) ∧ St d st t ∧ Fr xs s t

theorem Step.leave {d : StructDef} {xs : List Var} {s t : Store} {st : LoopSt} {o : Out} (h : Step d xs s st o t)
    (hx : ∀ x ∈ xs, x.isCore = false) : Step d [] s st o (t.leave s xs) :=
  ⟨h.1, h.2.1.leave hx, h.2.2.leave'⟩

theorem Step.scope {d : StructDef} {xs : List Var} {s s1 t : Store} {st : LoopSt} {o : Out} (h : Step d [] s1 st o t)
    (h0 : Fr xs s s1) (hx : ∀ x ∈ xs, x.isCore = false) : Step d [] s st o (t.leave s xs) :=
  ⟨h.1, h.2.1.leave hx, (h0.trans (h.2.2.mono (by simp))).leave'⟩

theorem Step.from_ {d : StructDef} {xs : List Var} {s s1 t : Store} {st : LoopSt} {o : Out} (h : Step d [] s1 st o t)
    (h0 : Fr xs s s1) : Step d xs s st o t :=
  ⟨h.1, h.2.1, h0.trans (h.2.2.mono (by simp))⟩

/-- Fields have different variables. -/
def Distinct (fs : List FieldDef) : Prop := (fs.map fun f => unraw f.ident).Nodup

theorem slotVar_ne {f f' : FieldDef} (h : unraw f.ident ≠ unraw f'.ident) : f.slotVar ≠ f'.slotVar := by
  intro he
  simp only [FieldDef.slotVar, Var.value.injEq] at he
  exact h he

/-- Assigning to the variable of one field. -/
theorem All2.setSlot {s : Store} {f : FieldDef} {h' : Slot → Slot} (hk : ∀ sl, SlotOk f.ty sl → SlotOk f.ty (h' sl)) :
    ∀ {fs : List FieldDef} {sls : List Slot}, Distinct fs → All2 (Holds s) fs sls → ∀ i, fs[i]? = some f →
      ∃ sl, sls[i]? = some sl ∧ Holds s f sl ∧
        All2 (Holds (s.set f.slotVar (slotRV (h' sl)))) fs (sls.modify i h')
  | [], _, _, _, _, hi => by simp at hi
  | f' :: fs, _ :: sls, hd, .cons h hs, 0, hi => by
    simp only [List.getElem?_cons_zero, Option.some.injEq] at hi
    subst hi
    refine ⟨_, rfl, h, ?_⟩
    simp only [List.modify_zero_cons]
    refine .cons ⟨by simp, hk _ h.2⟩ (All2.imp_mem hs fun a ha b hb => ⟨?_, hb.2⟩)
    have hn : unraw a.ident ≠ unraw f'.ident := by
      intro he
      have := (List.nodup_cons.1 hd).1
      exact this (List.mem_map.2 ⟨a, ha, he⟩)
    rw [Store.set_apply, if_neg (slotVar_ne hn)]
    exact hb.1
  | f' :: fs, sl' :: sls, hd, .cons h hs, i + 1, hi => by
    simp only [List.getElem?_cons_succ] at hi
    obtain ⟨sl, h1, h2, h3⟩ := All2.setSlot hk (List.nodup_cons.1 hd).2 hs i hi
    refine ⟨sl, by simpa using h1, h2, ?_⟩
    simp only [List.modify_succ_cons]
    refine .cons ⟨?_, h.2⟩ h3
    have hn : unraw f'.ident ≠ unraw f.ident := by
      intro he
      have := (List.nodup_cons.1 hd).1
      exact this (List.mem_map.2 ⟨f, List.mem_of_getElem? hi, he.symm⟩)
    rw [Store.set_apply, if_neg (slotVar_ne hn)]
    exact h.1

theorem St.setSlot {d : StructDef} {st : LoopSt} {s : Store} {f : FieldDef} {i : Nat} {h' : Slot → Slot} (h : St d st s)
    (hd : Distinct d.fields) (hi : d.fields[i]? = some f) (hk : ∀ sl, SlotOk f.ty sl → SlotOk f.ty (h' sl)) :
    ∃ sl, Holds s f sl ∧ St d (st.setSlot i h') (s.set f.slotVar (slotRV (h' sl))) := by
  obtain ⟨sl, _, h2, h3⟩ := All2.setSlot hk hd h.slots i hi
  refine ⟨sl, h2, ?_, ?_, h3⟩
  · rw [Store.set_apply, if_neg (by simp [FieldDef.slotVar])]; exact h.depth
  · intro hf; rw [Store.set_apply, if_neg (by simp [FieldDef.slotVar])]; exact h.writer hf

section
variable (L : Lib) (g : Path → D Val) (fuel : Nat)

/-- `= Some(value)` or `.push(value)` -/
theorem eval_action {f : FieldDef} {s : Store} {v : Val} {sl : Slot} (hv : s .value_ = .val v) (h : Holds s f sl) (rd : Rd) :
    eval L (deOps L g) fuel (genAction f) (rd, s) = (.val .unit, (rd, s.set f.slotVar (slotRV (sl.put v)))) := by
  obtain ⟨h1, h2⟩ := h
  unfold genAction
  cases hty : f.ty with
  | vec t =>
    rw [hty] at h2
    cases sl with
    | one v => exact h2.elim
    | many vs =>
      simp only [slotRV] at h1
      simp [eval, Exec.bind, h1, hv, RV.modAt, Mut.run, slotRV, Slot.put]
  | _ =>
    rw [hty] at h2
    cases sl with
    | one v => simp [eval, fn, Exs.ofList, evalArgs, Fn.apply, Exec.out, Exec.bind, hv, Exec.setVar, slotRV, Slot.put]
    | many vs => exact h2.elim

theorem decls_action (f : FieldDef) (es : Exs) : (Exs.cons (genAction f) es).decls = es.decls := by
  unfold genAction
  cases f.ty <;> rfl

theorem slotOk_put {ty : FTy} {sl : Slot} {v : Val} (h : SlotOk ty sl) : SlotOk ty (sl.put v) := by
  cases ty <;> cases sl <;> simp_all [SlotOk, Slot.put]

theorem sim_action {d : StructDef} {st : LoopSt} {s : Store} {f : FieldDef} {i : Nat} {v : Val} {E : Store → Prop} (h : St d st s)
    (hd : Distinct d.fields) (hi : d.fields[i]? = some f) (hv : s .value_ = .val v) :
    Sim (eval L (deOps L g) fuel (genAction f)) s (M.pure (st.setSlot i (Slot.put v))) (Step d [] s) E := by
  obtain ⟨sl, h1, h2⟩ := h.setSlot hd hi (h' := Slot.put v) (fun _ => slotOk_put)
  exact Sim.pure (eval_action L g fuel hv h1) ⟨⟨_, rfl⟩, h2, Fr.refl.core rfl⟩

/-! ### The visitors of scalars -/

theorem mapIfBool_eq (s : Str) : mapIfBool s = if s = c!"1" then c!"true" else if s = c!"0" then c!"false" else s := by
  rfl

theorem evals_simpleVisitor {t : STy} {s : Store} {x : Str} (hx : s .v = .str x) :
    Evals L g fuel (simpleVisitor t) s (resRV .val (visitS L t x)) := by
  unfold simpleVisitor visitS
  have hp : ∀ y, Fn.apply L (.parse t) [.str y] = .val (resRV .val (parseS L t y)) := by
    intro y
    simp only [Fn.apply]
    cases parseS L t y <;> rfl
  by_cases ht : t = .bool
  · rw [if_pos ht, if_pos ht]
    refine Evals.app1 (x := .str (mapIfBool x)) (fun rd => ?_) (hp _)
    rw [mapIfBool_eq]
    by_cases h1 : x = c!"1"
    · rs_simp
    · by_cases h0 : x = c!"0"
      · rs_simp
      · have h1' : ¬ c!"1" = x := fun h => h1 h.symm
        have h0' : ¬ c!"0" = x := fun h => h0 h.symm
        rs_simp
  · rw [if_neg ht, if_neg ht]
    exact Evals.app1 (Evals.var' hx) (hp _)

/-! ### The arms of the fields -/

theorem Sim.ok_of_eq {β : Type} {x : Exec Rd} {s : Store} {m m' : D β} {P : β → Out → Store → Prop} {E : Store → Prop}
    (h : Sim x s m P E) (he : m = m') : Sim x s m' P E := he ▸ h

theorem pureBind {α β : Type} (a : α) (k : α → D β) : (M.pure a >>= k) = k a := rfl

theorem fun_simpleInner {f : FieldDef} {t : STy} {s : Store} :
    Fun (eval L (deOps L g) fuel (ifLet (.ok (.chars (.bind .s))) (meth .peek)
      (blk [.letE .val (callVisit (simpleVisitor t) (.var .s)), .try_ (meth .next), .var .val])
      (fn .err [fn .cat [strE c!"unable to parse content for ", strE f.label]]))) s (simpleInner L f t) .val (· = s) := by
  unfold simpleInner
  refine Fun.bind (sim_peek L g fuel) ?_
  rintro r o t' ⟨rfl, rfl⟩
  refine ⟨_, rfl, ?_⟩
  have other : Fun (evalArms L (deOps L g) fuel (.cons .wild (fn .err [fn .cat [strE c!"unable to parse content for ", strE f.label]]) .nil)
      (resRV .ev r)) t' (M.throw (c!"unable to parse content for " ++ f.label)) RV.val (· = t') := by
    refine Fun.arm (bs := []) rfl (F := (· = t')) ?_ (fun _ h => h ▸ Store.leave_nil ..)
    refine Fun.err (s' := t') (fun rd => ?_) rfl
    rs_simp
  match r, other with
  | .ok (.chars x), _ =>
    refine Fun.arm (bs := [(.s, .str x)]) rfl (F := (· = t'.set .s (.str x))) ?_ (fun _ h => h ▸ set_leave ..)
    rw [setAll_one]
    refine Fun.scope (F := Off [.val] (t'.set .s (.str x))) ?_ (fun _ h => h.leave)
    have hv : ∀ rd : Rd, eval L (deOps L g) fuel (.letE .val (callVisit (simpleVisitor t) (.var .s))) (rd, t'.set .s (.str x)) =
        (.val .unit, (rd, (t'.set .s (.str x)).set .val (resRV .val (visitS L t x)))) := by
      intro rd
      have h1 := evals_simpleVisitor L g fuel (t := t) (s := (t'.set .s (.str x)).set .v (.str x)) (x := x) (by simp) rd
      have h2 : ((t'.set .s (.str x)).set .v (.str x)).leave (t'.set .s (.str x)) (Exs.decls (.cons (.letE .v (.var .s)) (.cons (simpleVisitor t) .nil)))
          = t'.set .s (.str x) := set_leave ..
      simp only [callVisit, blk, eval, Exs.ofList, Exec.called, Exec.inScope, evalSeq, Exec.bind, Exec.setVar, Store.set_apply, if_true,
        h1, Exec.val, Exec.out, h2]
    refine Fun.step hv ?_
    refine Fun.bind (Sim.try_ (sim_next L g fuel (E := Any)) fun _ h => h ▸ Off.refl.set (by simp)) ?_
    rintro e o _ ⟨rfl, rfl⟩
    refine ⟨_, rfl, ?_⟩
    cases hx : visitS L t x with
    | ok v =>
      refine Fun.ok (s' := (t'.set .s (.str x)).set .val (resRV .val (.ok v))) (fun rd => ?_) (Off.refl.set (by simp))
      simp [Exs.ofList, evalSeq, eval, Exec.bind, Exec.val, Exec.out, resRV]
    | error e =>
      refine Fun.err (s' := (t'.set .s (.str x)).set .val (resRV .val (.error e))) (fun rd => ?_) (Off.refl.set (by simp))
      simp [Exs.ofList, evalSeq, eval, Exec.bind, Exec.val, Exec.out, resRV]
  | .error e, other => exact Fun.arm_ne rfl other
  | .ok .startDocument, other => exact Fun.arm_ne rfl other
  | .ok .endDocument, other => exact Fun.arm_ne rfl other
  | .ok (.pi ..), other => exact Fun.arm_ne rfl other
  | .ok (.endE ..), other => exact Fun.arm_ne rfl other
  | .ok (.start ..), other => exact Fun.arm_ne rfl other
  | .ok (.comment ..), other => exact Fun.arm_ne rfl other
  | .ok (.cdata ..), other => exact Fun.arm_ne rfl other
  | .ok (.ws ..), other => exact Fun.arm_ne rfl other

theorem sim_callSimple {d : StructDef} {st : LoopSt} {s : Store} {f : FieldDef} {i : Nat} {t : STy} {name : Name}
    (h : St d st s) (hd : Distinct d.fields) (hi : d.fields[i]? = some f) (hn : s .name = .name name) :
    Sim (eval L (deOps L g) fuel (genVisitSimple d.attrs f t)) s (callSimple L d.attrs f i t name st) (Step d [] s) Any := by
  unfold callSimple genVisitSimple
  refine Sim.scope (P := Step d [.result] s) (E := Any) ?_ (fun _ _ _ h => h.leave (by simp [Var.isCore])) (fun _ _ => trivial)
  refine Sim.bind ((sim_nsMatching L g fuel (s := s) (elemNs := name.ns) (elemName := name.loc) (Evals.nsOf (Evals.var' hn)) ?_).conseq
    (fun _ _ _ h => h) (fun _ _ => trivial)) ?_
  · intro rd a b
    exact Evals.locName (Evals.var' (by simp [hn])) rd
  rintro _ o s ⟨rfl, rfl⟩
  refine ⟨_, rfl, ?_⟩
  refine Sim.bind (Sim.letE (sim_readInner L g fuel (E := Any) fun n => fun_simpleInner L g fuel)) ?_
  rintro r o _ ⟨rfl, rfl⟩
  refine ⟨_, rfl, ?_⟩
  have h1 : St d st (s.set .result (resRV .val r)) := h.set rfl
  refine Sim.last (Sim.match_ Evals.var ?_)
  rw [Store.set_apply, if_pos rfl]
  cases r with
  | ok v =>
    have ha := sim_action L g fuel (E := Any) (s := (s.set .result (.ok (.val v))).set .value_ (.val v)) (v := v) (h1.set rfl) hd hi
      (by simp)
    refine Sim.arm (bs := [(.value_, .val v)]) (E := Any) rfl ha ?_ (fun _ _ => trivial)
    intro b o t1 h2
    exact (h2.scope (xs := [.value_]) (Fr.refl.set (by simp)) (by simp [Var.isCore])).from_ (Fr.refl.set (by simp))
  | error e =>
    refine Sim.arm_ne rfl (Sim.arm (bs := []) rfl (P := Step d [.result] s) (E := Any) ?_ ?_ (fun _ _ => trivial))
    · exact Sim.skip_ ⟨⟨_, rfl⟩, h1, Fr.refl.set (by simp)⟩
    · rintro b o t1 ⟨h2, h3, h4⟩
      simpa [Pat.vars] using ⟨h2, h3, h4⟩

theorem sim_callStruct {rec : Path → D Val} (hrec : ∀ p, Same (g p) (rec p)) {d : StructDef} {st : LoopSt} {s : Store} {f : FieldDef}
    {i : Nat} {p : Path} (h : St d st s) (hd : Distinct d.fields) (hi : d.fields[i]? = some f) :
    Sim (eval L (deOps L g) fuel (genVisitStruct f p)) s (callStruct rec i p st) (Step d [] s) Any := by
  unfold callStruct genVisitStruct
  refine Sim.scope (P := Step d [] s) (E := Any) ?_ (fun _ _ _ h => h.leave (by simp)) (fun _ _ => trivial)
  refine Sim.bind (P := fun _ o t => (∃ v, o = .val v) ∧ t = s) ?_ ?_
  · refine Sim.ite (Evals.eqInt (Evals.var' h.depth) Evals.lit) (fun h0 => ?_) (fun h0 => ?_)
    · rw [if_pos (by simpa using h0)]
      refine Sim.scope (P := fun _ o t => (∃ v, o = .val v) ∧ t = s) (E := Any) ?_ (fun _ _ _ h => ⟨h.1, h.2 ▸ rfl⟩) (fun _ _ => trivial)
      refine Sim.bind (sim_next L g fuel) ?_
      rintro r o s ⟨rfl, rfl⟩
      exact ⟨_, rfl, Sim.pure (fun _ => rfl) ⟨⟨_, rfl⟩, rfl⟩⟩
    · rw [if_neg (by simpa using h0)]
      exact Sim.skip_ ⟨⟨_, rfl⟩, rfl⟩
  rintro _ o s ⟨⟨v, rfl⟩, rfl⟩
  refine ⟨_, rfl, Sim.last (Sim.bind (sim_peek L g fuel) ?_)⟩
  rintro r o s ⟨rfl, rfl⟩
  refine ⟨_, rfl, ?_⟩
  have other : Sim (evalArms L (deOps L g) fuel (.cons .wild skipE .nil) (resRV .ev r)) s (M.pure st) (Step d [] s) Any := by
    refine Sim.arm (bs := []) rfl (E := Any) (P := Step d [] s) ?_ (fun _ _ _ h => h.leave (by simp)) (fun _ _ => trivial)
    exact Sim.skip_ ⟨⟨_, rfl⟩, h, Fr.refl⟩
  match r, other with
  | .ok (.start n as nss), _ =>
    refine Sim.arm (bs := []) rfl (E := Any) (P := Step d [] s) ?_ (fun _ _ _ h => h.leave (by simp)) (fun _ _ => trivial)
    refine Sim.block (xs := [.value_]) (by simp only [Exs.ofList, Exs.decls, decls_action, meth]) (P := Step d [.value_] s) (E := Any) ?_
      (fun _ _ _ h => h.leave (by simp [Var.isCore])) (fun _ _ => trivial)
    refine Sim.bind (Sim.letE (Sim.try_ (sim_deserialize L g fuel p (E := Any) (hrec p)))) ?_
    rintro v o _ ⟨rfl, rfl⟩
    refine ⟨_, rfl, ?_⟩
    have h1 : St d st (s.set .value_ (.val v)) := h.set rfl
    obtain ⟨sl, h2, h3⟩ := h1.setSlot hd hi (h' := Slot.put v) (fun _ => slotOk_put)
    refine Sim.step (eval_action L g fuel (v := v) (by simp) h2) ?_
    refine Sim.bind (Sim.try_ (sim_next L g fuel (E := Any))) ?_
    rintro e o _ ⟨rfl, rfl⟩
    exact ⟨_, rfl, Sim.pure (fun _ => rfl) ⟨⟨_, rfl⟩, h3, (Fr.refl.set (by simp)).core rfl⟩⟩
  | .error e, other => exact Sim.arm_ne rfl other
  | .ok .startDocument, other => exact Sim.arm_ne rfl other
  | .ok .endDocument, other => exact Sim.arm_ne rfl other
  | .ok (.pi ..), other => exact Sim.arm_ne rfl other
  | .ok (.endE ..), other => exact Sim.arm_ne rfl other
  | .ok (.chars ..), other => exact Sim.arm_ne rfl other
  | .ok (.comment ..), other => exact Sim.arm_ne rfl other
  | .ok (.cdata ..), other => exact Sim.arm_ne rfl other
  | .ok (.ws ..), other => exact Sim.arm_ne rfl other

/-! ### Which arm -/

/-- The body of the arm of a field. -/
def armBody (root : Attrs) (f : FieldDef) : Ex :=
  match f.ty.core with
  | .struct p => genVisitStruct f p
  | .simple t => genVisitSimple root f t
  | _ => .app .unwrap .nil

theorem arms_find (root : Attrs) (ns loc : Str) (tail : List (Pat × Ex)) : ∀ (fs : List FieldDef),
    match findArm root ns loc fs with
    | some i => ∃ f, fs[i]? = some f ∧ (!f.attrs.isAttr && !f.attrs.flatten) = true ∧
        ∀ s, evalArms L (deOps L g) fuel (.ofList (genCallVisitors root fs ++ tail)) (.pair (.str ns) (.str loc)) s =
          eval L (deOps L g) fuel (armBody root f) s
    | none => evalArms L (deOps L g) fuel (.ofList (genCallVisitors root fs ++ tail)) (.pair (.str ns) (.str loc)) =
        evalArms L (deOps L g) fuel (.ofList tail) (.pair (.str ns) (.str loc))
  | [] => rfl
  | f :: fs => by
    have ih := arms_find root ns loc tail fs
    unfold findArm at ih ⊢
    rw [List.findIdx?_cons]
    by_cases hs : (!f.attrs.isAttr && !f.attrs.flatten) = true
    · have hg : genCallVisitors root (f :: fs) = (.pair (.str (f.prefixNs root)) (.str f.label), armBody root f) :: genCallVisitors root fs := by
        unfold genCallVisitors
        rw [List.filter_cons, if_pos hs]
        rfl
      rw [hg]
      by_cases hc : f.prefixNs root = ns ∧ f.label = loc
      · rw [if_pos (by simp [hc, hs])]
        refine ⟨f, rfl, hs, fun s => ?_⟩
        simp only [List.cons_append, Arms.ofList, evalArms, Pat.matches, hc.1, hc.2, if_true, Option.bind_some, Option.map_some,
          List.append_nil, Exec.inScope, Pat.vars, Store.setAll, Store.leave_nil]
      · rw [if_neg (by simpa [hs] using hc)]
        have hm : Pat.matches (.pair (.str (f.prefixNs root)) (.str f.label)) (.pair (.str ns) (.str loc)) = none := by
          simp only [Pat.matches]
          by_cases h1 : f.prefixNs root = ns
          · have h2 : f.label ≠ loc := fun h => hc ⟨h1, h⟩
            simp [h1, h2]
          · simp [h1]
        have he : evalArms L (deOps L g) fuel (.ofList ((.pair (.str (f.prefixNs root)) (.str f.label), armBody root f) :: genCallVisitors root fs ++ tail))
            (.pair (.str ns) (.str loc)) = evalArms L (deOps L g) fuel (.ofList (genCallVisitors root fs ++ tail)) (.pair (.str ns) (.str loc)) := by
          simp only [List.cons_append, Arms.ofList, evalArms, hm]
        rw [he]
        revert ih
        cases List.findIdx? _ fs with
        | none => exact fun ih => ih
        | some i => exact fun ⟨f', h1, h2, h3⟩ => ⟨f', by simpa using h1, h2, h3⟩
    · have hg : genCallVisitors root (f :: fs) = genCallVisitors root fs := by
        unfold genCallVisitors
        rw [List.filter_cons, if_neg hs]
      rw [hg, if_neg (by simp only [Bool.not_eq_true] at hs; simp [hs])]
      revert ih
      cases List.findIdx? _ fs with
      | none => exact fun ih => ih
      | some i => exact fun ⟨f', h1, h2, h3⟩ => ⟨f', by simpa using h1, h2, h3⟩

/-! ### Code that handles the fields one by one -/

/-- A step for each field. -/
def eachField (step : FieldDef → Slot → Res Slot) : List FieldDef → List Slot → Res (List Slot)
  | f :: fs, s :: ss => (step f s).bind fun s' => (eachField step fs ss).bind fun ss' => .ok (s' :: ss')
  | _, ss => .ok ss

theorem liftBind {α β : Type} (r : Res α) (k : α → Res β) : (M.lift (r.bind k) : D β) = M.lift r >>= fun a => M.lift (k a) := by
  funext rd
  show M.lift (r.bind k) rd = M.bind (M.lift r) (fun a => M.lift (k a)) rd
  unfold M.bind M.lift
  cases r <;> rfl

theorem lift_ok {α : Type} (a : α) : (M.lift (.ok a) : D α) = M.pure a := rfl

def DoesSlot (f : FieldDef) (s : Store) (sl : Slot) (o : Out) (t : Store) : Prop :=
  (∃ v, o = .val v) ∧ Holds t f sl ∧ Off [f.slotVar] s t

theorem sim_eachField {code : FieldDef → List Ex} {step : FieldDef → Slot → Res Slot} {good : FieldDef → Prop}
    {ok : Store → Prop} (hok : ∀ (s t : Store) (f : FieldDef), ok s → Off [f.slotVar] s t → ok t)
    (h1 : ∀ f sl s v, good f → ok s → Holds s f sl →
      Sim (evalSeq L (deOps L g) fuel v (.ofList (code f))) s (M.lift (step f sl)) (DoesSlot f s) Any) :
    ∀ (fs : List FieldDef) (ss : List Slot) (s : Store) (v : RV), (∀ f ∈ fs, good f) → ok s → Distinct fs → All2 (Holds s) fs ss →
      Sim (evalSeq L (deOps L g) fuel v (.ofList (fs.flatMap code))) s (M.lift (eachField step fs ss))
        (fun ss' o t => (∃ v, o = .val v) ∧ All2 (Holds t) fs ss' ∧ Off (fs.map FieldDef.slotVar) s t) Any
  | [], _, s, v, _, _, _, .nil => Sim.pure (fun _ => rfl) ⟨⟨_, rfl⟩, .nil, Off.refl⟩
  | f :: fs, sl :: ss, s, v, hg, ho, hd, .cons h hs => by
    simp only [List.flatMap_cons, evalSeq_append, eachField, liftBind]
    refine Sim.bind (h1 f sl s v (hg _ List.mem_cons_self) ho h) ?_
    rintro sl' o t ⟨⟨v', rfl⟩, h2, h3⟩
    refine ⟨v', rfl, ?_⟩
    have hdf := List.nodup_cons.1 hd
    have hs' : All2 (Holds t) fs ss := All2.imp_mem hs fun a ha b hb => ⟨by
      rw [h3 a.slotVar (by
        simp only [List.mem_singleton]
        exact slotVar_ne fun he => hdf.1 (List.mem_map.2 ⟨a, ha, he⟩))]
      exact hb.1, hb.2⟩
    refine Sim.map (sim_eachField hok h1 fs ss t v' (fun f' hf' => hg f' (List.mem_cons_of_mem _ hf')) (hok _ _ _ ho h3) hdf.2 hs') ?_
    rintro ss' o t' ⟨⟨v'', rfl⟩, h4, h5⟩
    refine ⟨⟨_, rfl⟩, .cons ⟨?_, h2.2⟩ h4, fun y hy => ?_⟩
    · rw [h5 f.slotVar, h2.1]
      intro hm
      obtain ⟨a, ha, he⟩ := List.mem_map.1 hm
      exact slotVar_ne (fun he => hdf.1 (List.mem_map.2 ⟨a, ha, he⟩)) he
    · simp only [List.map_cons, List.mem_cons, not_or] at hy
      rw [h5 y hy.2, h3 y (by simpa using hy.1)]

/-! ### Attributes -/

theorem sim_fromStr {rec : Path → D Val} (hrec : ∀ p, Same (g p) (rec p)) (hL : ∀ x, Proper (Rd.new (L.parse x))) {s : Store}
    {arg : Ex} {x : Str} {p : Path} {E : Store → Prop} (ha : Evals L g fuel arg s (.str x)) :
    Sim (eval L (deOps L g) fuel (meth (.fromStr p) [arg])) s (M.attempt (M.lift (fromStr L rec p x))) (IsRes .val (· = s)) E := by
  intro rd hp
  have h1 := hrec p _ (hL x)
  have he : eval L (deOps L g) fuel (meth (.fromStr p) [arg]) (rd, s) =
      ((liftD (g p) .val (Rd.new (L.parse x))).1, (rd, s)) := by
    simp [meth, eval, Exs.ofList, evalArgs, Exec.bind, ha rd, runOp, deOps]
  rw [he]
  simp only [M.attempt, M.lift, fromStr, liftD]
  rcases hr : rec p (Rd.new (L.parse x)) with ⟨r, rd'⟩
  rw [hr] at h1
  cases r with
  | ok b => obtain ⟨_, h1⟩ := h1; rw [h1]; exact ⟨hp, _, _, rfl, rfl, rfl⟩
  | err b => obtain ⟨_, h1⟩ := h1; rw [h1]; exact ⟨hp, _, _, rfl, rfl, rfl⟩
  | panic b => simp only [] at h1; rw [h1]; exact ⟨_, rfl⟩
  | diverge =>
    rcases hg : g p (Rd.new (L.parse x)) with ⟨q, rd2⟩
    rw [hg] at h1
    simp only [] at h1; subst h1; simp [Lost, After]

/-- The element types of fields that the macro accepts. -/
def Elem (t : FTy) : Prop := (∃ p, t = .struct p) ∨ ∃ s, t = .simple s

theorem lift_err {α : Type} (e : Str) : (M.lift (.err e) : D α) = M.throw e := rfl

theorem sim_visit {rec : Path → D Val} (hrec : ∀ p, Same (g p) (rec p)) (hL : ∀ x, Proper (Rd.new (L.parse x))) {s : Store}
    {arg : Ex} {x : Str} {t : FTy} {E : Store → Prop} (ht : Elem t) (ha : Evals L g fuel arg s (.str x)) :
    Sim (eval L (deOps L g) fuel (callVisit (visitorOf t) arg)) s (M.attempt (M.lift (visitAttr L rec t x))) (IsRes .val (· = s)) E := by
  refine Fun.call ?_
  have hd : (Exs.ofList [Ex.letE .v arg, visitorOf t]).decls = [.v] := by
    rcases ht with ⟨p, rfl⟩ | ⟨st, rfl⟩ <;> rfl
  have hs : ∀ rd : Rd, eval L (deOps L g) fuel (.letE .v arg) (rd, s) = (.val .unit, (rd, s.set .v (.str x))) := by
    intro rd
    simp only [eval, Exec.bind, ha rd, Exec.setVar]
  have hlast : ∀ {m : D Val}, Fun (eval L (deOps L g) fuel (visitorOf t)) (s.set .v (.str x)) m .val (· = s.set .v (.str x)) →
      Fun (eval L (deOps L g) fuel (blk [.letE .v arg, visitorOf t])) s m .val (· = s) := by
    intro m hm
    have h1 : Fun (Exec.inScope [.v] (evalSeq L (deOps L g) fuel .unit (.ofList [.letE .v arg, visitorOf t]))) s m .val (· = s) := by
      refine Fun.scope (F := (· = s.set .v (.str x))) (Fun.step hs ?_) (fun _ h => h ▸ set_leave ..)
      refine Sim.congr hm fun rd => ?_
      simp only [Exec.called, Exs.ofList, evalSeq, Exec.bind, Exec.val, Exec.out]
      rcases eval L (deOps L g) fuel (visitorOf t) (rd, s.set .v (.str x)) with ⟨o, q⟩
      cases o <;> rfl
    rw [← hd] at h1
    exact h1
  rcases ht with ⟨p, rfl⟩ | ⟨st, rfl⟩
  · refine hlast ?_
    refine Fun.scope (F := (· = (s.set .v (.str x)).set .content (.str (c!"<" ++ structId p ++ c!">" ++ x ++ c!"</" ++ structId p ++ c!">")))) ?_
      (fun _ h => h ▸ set_leave ..)
    refine Fun.step (v := .unit) (s' := (s.set .v (.str x)).set .content (.str (c!"<" ++ structId p ++ c!">" ++ x ++ c!"</" ++ structId p ++ c!">"))) ?_ ?_
    · intro rd
      rs_simp
    · have h2 := sim_fromStr L g fuel hrec hL (p := p) (E := Any) (arg := .var .content)
        (s := (s.set .v (.str x)).set .content (.str (c!"<" ++ structId p ++ c!">" ++ x ++ c!"</" ++ structId p ++ c!">")))
        (x := c!"<" ++ structId p ++ c!">" ++ x ++ c!"</" ++ structId p ++ c!">") (Evals.var' (by simp))
      exact Fun.tail (Sim.last h2)
  · refine hlast ?_
    have h1 := evals_simpleVisitor L g fuel (t := st) (s := s.set .v (.str x)) (x := x) (by simp)
    show Fun _ _ (M.lift (visitAttr L rec (.simple st) x)) _ _
    unfold visitAttr
    dsimp only
    cases hv : visitS L st x with
    | ok v => rw [hv] at h1; exact Fun.ok h1 rfl
    | error e => rw [hv] at h1; exact Fun.err h1 rfl

/-- A `for` loop. -/
theorem sim_for {α : Type} {inj : α → RV} {x : Var} {b : Exec Rd} {f : FieldDef} {step : Slot → α → Res Slot} {ok : Store → Prop}
    (hok : ∀ (s t : Store), ok s → Off [f.slotVar] s t → ok t)
    (h1 : ∀ sl s a, ok s → Holds s f sl →
      Sim b (s.set x (inj a)) (M.lift (step sl a))
        (fun sl' o t => (∃ v, o = .val v) ∧ Holds t f sl' ∧ Off [f.slotVar] (s.set x (inj a)) t) Any) (hx : x ≠ f.slotVar) :
    ∀ (l : List α) (sl : Slot) (s : Store), ok s → Holds s f sl →
      Sim (Exec.forL x b (l.map inj)) s (M.lift (foldRes step sl l)) (DoesSlot f s) Any
  | [], sl, s, _, h => Sim.pure (fun _ => rfl) ⟨⟨_, rfl⟩, h, Off.refl⟩
  | a :: l, sl, s, ho, h => by
    simp only [foldRes, liftBind, List.map_cons]
    have h2 : Sim (Exec.inScope [x] (Exec.bind (Exec.setVar x (inj a)) fun _ => b)) s (M.lift (step sl a)) (DoesSlot f s) Any := by
      refine Sim.scope (E := Any) (Sim.step (fun _ => rfl) (h1 sl s a ho h)) ?_ (fun _ _ => trivial)
      rintro sl' o t ⟨h3, h4, h5⟩
      refine ⟨h3, ⟨?_, h4.2⟩, fun y hy => ?_⟩
      · rw [Store.leave_apply, if_neg (by simpa using hx.symm)]; exact h4.1
      · rw [Store.leave_apply]
        split
        · rfl
        · rename_i hne
          rw [h5 y hy, Store.set_apply, if_neg (by simpa using hne)]
    intro rd hp
    have h3 := h2 rd hp
    show After _ _ (M.bind (M.lift (step sl a)) _ rd) _
    unfold M.bind Exec.forL
    rcases hm : (M.lift (step sl a) : D Slot) rd with ⟨r, rd'⟩
    rw [hm] at h3
    cases r with
    | ok sl' =>
      obtain ⟨hp', o, t, e1, ⟨v, rfl⟩, h4, h5⟩ := h3
      rw [e1]
      refine (sim_for hok h1 hx l sl' t (hok _ _ ho h5) h4 rd' hp').conseq ?_ fun _ h => h
      rintro b o t' ⟨h6, h7, h8⟩
      exact ⟨h6, h7, fun y hy => (h8 y hy).trans (h5 y hy)⟩
    | err e => obtain ⟨hp', t, e1, h4⟩ := h3; rw [e1]; exact ⟨hp', t, rfl, h4⟩
    | panic e => obtain ⟨t, e1⟩ := h3; rw [e1]; exact ⟨t, rfl⟩
    | diverge =>
      revert h3
      rcases Exec.inScope [x] (Exec.bind (Exec.setVar x (inj a)) fun _ => b) (rd, s) with ⟨o, t⟩
      cases o <;> simp [After, Lost]

theorem holds_set {s : Store} {f : FieldDef} {sl : Slot} (h : SlotOk f.ty sl) : Holds (s.set f.slotVar (slotRV sl)) f sl :=
  ⟨by simp, h⟩

/-- `let value = visitor.visit(arg)?; #action` -/
theorem sim_visitPut {rec : Path → D Val} (hrec : ∀ p, Same (g p) (rec p)) (hL : ∀ x, Proper (Rd.new (L.parse x))) {s : Store}
    {arg : Ex} {x : Str} {t : FTy} {f : FieldDef} {sl : Slot} (ht : Elem t) (ha : Evals L g fuel arg s (.str x)) (h : Holds s f sl) :
    Sim (eval L (deOps L g) fuel (blk [.letE .value_ (.try_ (callVisit (visitorOf t) arg)), genAction f])) s
      (M.lift ((visitAttr L rec t x).bind fun v => .ok (sl.put v))) (DoesSlot f s) Any := by
  rw [liftBind]
  refine Sim.block (xs := [.value_]) (by simp only [Exs.ofList, Exs.decls, decls_action]) (E := Any)
    (P := fun sl' o t => (∃ v, o = .val v) ∧ Holds t f sl' ∧ Off [.value_, f.slotVar] s t) ?_ ?_ (fun _ _ => trivial)
  · refine Sim.bind (Sim.letE (Sim.try_ (sim_visit L g fuel hrec hL (E := Any) ht ha))) ?_
    rintro v o _ ⟨rfl, rfl⟩
    refine ⟨_, rfl, Sim.last ?_⟩
    have h1 : Holds (s.set .value_ (.val v)) f sl := ⟨by rw [Store.set_apply, if_neg (by simp [FieldDef.slotVar])]; exact h.1, h.2⟩
    exact Sim.pure (eval_action L g fuel (v := v) (by simp) h1)
      ⟨⟨_, rfl⟩, holds_set (slotOk_put h.2), (Off.refl.set (by simp)).set (by simp)⟩
  · rintro sl' o t ⟨h1, h2, h3⟩
    refine ⟨h1, ⟨?_, h2.2⟩, fun y hy => ?_⟩
    · rw [Store.leave_apply, if_neg (by simp [FieldDef.slotVar])]; exact h2.1
    · rw [Store.leave_apply]
      split
      · rfl
      · exact h3 y (by simp_all)

theorem evals_attrValue {s : Store} {a : Attr} (h : s .attr = .attr a) : Evals L g fuel (fn .attrValue [.var .attr]) s (.str a.value) :=
  Evals.app1 (Evals.var' h) rfl

/-- `for attr in attributes { if … { body } }` -/
theorem sim_forAttr {f : FieldDef} {sl : Slot} {attrs : List Attr} {s : Store} {body : List Ex} {step : Slot → Attr → Res Slot}
    (hs : s .attributes = .vec (attrs.map .attr)) (h : Holds s f sl)
    (hb : ∀ sl (s : Store) (a : Attr), s .attr = .attr a → Holds s f sl →
      Sim (eval L (deOps L g) fuel (blk body)) s (M.lift (step sl a)) (DoesSlot f s) Any) :
    Sim (eval L (deOps L g) fuel (forAttr f body)) s
      (M.lift (foldRes (fun sl a => if a.name.loc = f.label then step sl a else .ok sl) sl attrs)) (DoesSlot f s) Any := by
  unfold forAttr
  refine Sim.step (k := fun v => match v.items with | some l => _ | none => _) (Evals.var' hs) ?_
  refine sim_for (f := f) (x := .attr) (ok := fun _ => True) (fun _ _ _ _ => trivial) (fun sl s a _ h => ?_) (by simp [FieldDef.slotVar]) attrs sl s trivial h
  have h1 : Holds (s.set .attr (.attr a)) f sl := ⟨by rw [Store.set_apply, if_neg (by simp [FieldDef.slotVar])]; exact h.1, h.2⟩
  refine Sim.ite (x := a.name.loc == f.label) (Evals.eqStr (Evals.locName (n := a.name) (Evals.app1 (Evals.var' (v := .attr a) (by simp)) rfl)) Evals.lit) (fun h0 => ?_) (fun h0 => ?_)
  · rw [if_pos (by simpa using h0)]
    exact hb sl _ a (by simp) h1
  · rw [if_neg (by simpa using h0)]
    exact Sim.skip_ ⟨⟨_, rfl⟩, h1, Off.refl⟩

theorem sim_loadAttr {rec : Path → D Val} (hrec : ∀ p, Same (g p) (rec p)) (hL : ∀ x, Proper (Rd.new (L.parse x))) {s : Store}
    {f : FieldDef} {sl : Slot} {attrs : List Attr} (ht : Elem f.ty.core) (hs : s .attributes = .vec (attrs.map .attr)) (h : Holds s f sl) :
    Sim (eval L (deOps L g) fuel (genLoadAttr f)) s (M.lift (loadAttrField L rec f attrs sl)) (DoesSlot f s) Any := by
  have plain : ∀ {t : FTy}, Elem t → Sim (eval L (deOps L g) fuel (forAttr f [.letE .value_ (.try_ (callVisit (visitorOf t) (fn .attrValue [.var .attr]))), genAction f])) s
      (M.lift (foldRes (fun sl (a : Attr) => if a.name.loc = f.label then (visitAttr L rec t a.value).bind fun v => .ok (sl.put v) else .ok sl) sl attrs))
      (DoesSlot f s) Any := by
    intro t ht
    exact sim_forAttr L g fuel hs h fun sl s a ha h => sim_visitPut L g fuel hrec hL ht (evals_attrValue L g fuel ha) h
  unfold genLoadAttr loadAttrField
  cases hty : f.ty with
  | vec t =>
    rw [hty] at ht
    simp only []
    refine sim_forAttr L g fuel hs h fun sl s a ha h => ?_
    refine Sim.block (xs := []) rfl (E := Any) (P := DoesSlot f s) (Sim.last ?_) (fun _ _ _ h => by rwa [Store.leave_nil]) (fun _ _ => trivial)
    refine Sim.step (k := fun v => match v.items with | some l => _ | none => _)
      (Evals.app1 (v := .vec ((splitWhitespace a.value).map .str)) (evals_attrValue L g fuel ha) rfl) ?_
    refine sim_for (f := f) (x := .value_) (ok := fun _ => True) (fun _ _ _ _ => trivial) (fun sl s w _ h => ?_) (by simp [FieldDef.slotVar]) _ sl s trivial h
    exact sim_visitPut L g fuel hrec hL ht (Evals.var' (by simp)) ⟨by rw [Store.set_apply, if_neg (by simp [FieldDef.slotVar])]; exact h.1, h.2⟩
  | simple t =>
    rw [hty] at ht
    cases t with
    | string =>
      simp only []
      refine sim_forAttr L g fuel hs h fun sl s a ha h => ?_
      refine Sim.block (xs := []) rfl (E := Any) (P := DoesSlot f s) (Sim.last ?_) (fun _ _ _ h => by rwa [Store.leave_nil]) (fun _ _ => trivial)
      have hv : visitAttr L rec (FTy.core (.simple .string)) a.value = .ok (.str a.value) := rfl
      rw [hv]
      have hsl : ∃ v, sl = .one v := by
        cases sl with
        | one v => exact ⟨v, rfl⟩
        | many vs => exact absurd h.2 (by rw [hty]; exact id)
      obtain ⟨v, rfl⟩ := hsl
      refine Sim.pure (o := .val .unit) (s' := s.set f.slotVar (slotRV (.one (some (.str a.value))))) (fun rd => ?_)
        ⟨⟨_, rfl⟩, holds_set (by rw [hty]; trivial), Off.refl.set (by simp)⟩
      have hav := Evals.app1 (f := .owned) (evals_attrValue L g fuel ha) (v := .val (.str a.value)) rfl
      have hso := Evals.app1 (f := .some) hav (v := .some (.val (.str a.value))) rfl
      simp only [eval, Exec.bind, hso rd, Exec.setVar, slotRV]
    | _ => exact plain ht
  | struct p => rw [hty] at ht; exact plain ht
  | opt t => rw [hty] at ht; exact plain ht

theorem loadAttrs_each {rec : Path → D Val} (attrs : List Attr) : ∀ (fs : List FieldDef) (ss : List Slot),
    loadAttrs L rec fs attrs ss = eachField (fun f s => if f.attrs.isAttr then loadAttrField L rec f attrs s else .ok s) fs ss
  | [], ss => by cases ss <;> rfl
  | f :: fs, [] => rfl
  | f :: fs, s :: ss => by
    simp only [loadAttrs, eachField, loadAttrs_each attrs fs ss]

theorem filter_flatMap {α β : Type} (p : α → Bool) (k : α → β) : ∀ l : List α,
    (l.filter p).map k = l.flatMap fun a => if p a then [k a] else []
  | [] => rfl
  | a :: l => by
    rw [List.filter_cons, List.flatMap_cons, ← filter_flatMap p k l]
    cases p a <;> rfl

theorem sim_loadAttrs {rec : Path → D Val} (hrec : ∀ p, Same (g p) (rec p)) (hL : ∀ x, Proper (Rd.new (L.parse x))) {d : StructDef}
    {st : LoopSt} {s : Store} {attrs : List Attr} (h : St d st s) (hd : Distinct d.fields)
    (ht : ∀ f ∈ d.fields, f.attrs.isAttr = true → Elem f.ty.core) (hs : s .attributes = .vec (attrs.map .attr)) :
    Sim (eval L (deOps L g) fuel (blk (genLoadAttrs d.fields))) s
      (M.lift (loadAttrs L rec d.fields attrs st.slots) >>= fun ss => M.pure { st with slots := ss }) (Step d [] s) Any := by
  have hdecl : ∀ fs : List FieldDef, (Exs.ofList (genLoadAttrs fs)).decls = [] := by
    intro fs
    unfold genLoadAttrs
    induction fs.filter _ with
    | nil => rfl
    | cons f fs ih =>
      have h1 : ∀ es, (Exs.cons (genLoadAttr f) es).decls = es.decls := by
        intro es
        unfold genLoadAttr forAttr
        split <;> rfl
      simp only [List.map_cons, Exs.ofList, h1, ih]
  refine Sim.map (P := fun ss' o t => (∃ v, o = .val v) ∧ All2 (Holds t) d.fields ss' ∧ Off (d.fields.map FieldDef.slotVar) s t) ?_ ?_
  · refine Sim.block (xs := []) (hdecl _) (E := Any) ?_ (fun _ _ _ h => by rwa [Store.leave_nil]) (fun _ _ => trivial)
    rw [loadAttrs_each]
    unfold genLoadAttrs
    rw [filter_flatMap]
    refine sim_eachField L g fuel (good := fun f => f.attrs.isAttr = true → Elem f.ty.core) (ok := fun s => s .attributes = .vec (attrs.map .attr))
      (fun s t f h1 h2 => (h2 _ (by simp [FieldDef.slotVar])).trans h1) (fun f sl s v hg ho hh => ?_) d.fields st.slots s _ ht hs hd h.slots
    by_cases ha : f.attrs.isAttr = true
    · simp only [ha, if_true]
      exact Sim.last (sim_loadAttr L g fuel hrec hL (hg ha) ho hh)
    · simp only [ha, if_false]
      exact Sim.pure (fun _ => rfl) ⟨⟨_, rfl⟩, hh, Off.refl⟩
  · rintro ss o t ⟨h1, h2, h3⟩
    have hn : ∀ y, (∀ l, y ≠ .value l) → t y = s y := fun y hy => h3 y (by
      intro hm
      obtain ⟨f, _, he⟩ := List.mem_map.1 hm
      exact hy _ he.symm)
    refine ⟨h1, ⟨?_, fun hf => ?_, h2⟩, fun y hc _ => hn y (by rintro l rfl; cases hc)⟩
    · rw [hn _ (by simp)]; exact h.depth
    · rw [hn _ (by simp)]; exact h.writer hf

end

end Yaserde.Rs
