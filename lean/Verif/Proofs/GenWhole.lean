import Verif.Proofs.GenLoop
/-
The whole printed `deserialize` of a struct against the interpreter: what comes before and after the loop.
-/

set_option autoImplicit false

namespace Yaserde.Rs

section
variable (L : Lib) (g : Path → D Val) (fuel : Nat)

/-! ### Before the loop -/

theorem sim_startInfo {s : Store} {ns : Var} {root : Str} :
    Sim (eval L (deOps L g) fuel (genStartInfo ns root)) s (peek >>= fun e => M.pure (startInfo root e))
      (fun i o t => o = .val .unit ∧ t = (s.set .named_element (.str i.1)).set ns (optStr i.2)) Any := by
  have h1 : Sim (eval L (deOps L g) fuel (ifLet (.start (.bind .name) .wild) (.try_ (meth .peek))
      (fn .pair [fn .locName [.var .name], fn .nsOf [.var .name]]) (fn .pair [strE root, .lit .none]))) s
      (peek >>= fun e => M.pure (startInfo root e)) (fun i o t => o = .val (.pair (.str i.1) (optStr i.2)) ∧ t = s) Any := by
    refine Sim.bind (Sim.try_ (sim_peek L g fuel (E := Any))) ?_
    rintro e o s ⟨rfl, rfl⟩
    refine ⟨_, rfl, ?_⟩
    have other : Sim (evalArms L (deOps L g) fuel (.cons .wild (fn .pair [strE root, .lit .none]) .nil) (.ev e)) s (M.pure (root, none))
        (fun i o t => o = .val (.pair (.str i.1) (optStr i.2)) ∧ t = s) Any :=
      Sim.arm (bs := []) rfl (P := fun i o t => o = .val (.pair (.str i.1) (optStr i.2)) ∧ t = s) (E := Any)
        (Sim.pure (Evals.app2 Evals.lit Evals.lit rfl) ⟨rfl, rfl⟩) (fun _ _ _ h => ⟨h.1, h.2 ▸ Store.leave_nil ..⟩) (fun _ _ => trivial)
    cases e with
    | start name attrs nss =>
      refine Sim.arm (bs := [(.name, .name name)]) rfl (E := Any)
        (P := fun i o t => o = .val (.pair (.str i.1) (optStr i.2)) ∧ t = s.set .name (.name name)) ?_
        (fun _ _ _ h => ⟨h.1, h.2 ▸ set_leave ..⟩) (fun _ _ => trivial)
      have hn : Evals L g fuel (.var .name) (s.set .name (.name name)) (.name name) := Evals.var' (by simp)
      exact Sim.pure (Evals.app2 (Evals.locName hn) (Evals.nsOf hn) rfl) ⟨rfl, rfl⟩
    | _ => exact Sim.arm_ne rfl other
  have h2 := Sim.bind (m' := fun i => M.pure i) (Q := fun i o t => o = .val .unit ∧ t = (s.set .named_element (.str i.1)).set ns (optStr i.2))
    (k := fun v => match v with
      | .pair a b => (Exec.setVar .named_element a).bind fun _ => Exec.setVar ns b
      | _ => Exec.out .stuck) h1 (by
    rintro i o s ⟨rfl, rfl⟩
    exact ⟨_, rfl, Sim.pure (fun _ => rfl) ⟨rfl, rfl⟩⟩)
  rw [bindAssoc] at h2
  exact h2

theorem decls_variables : ∀ fs : List FieldDef, (Exs.ofList (genVariables fs)).decls = fs.map FieldDef.slotVar
  | [] => rfl
  | f :: fs => congrArg (f.slotVar :: ·) (decls_variables fs)

theorem genVariables_cons (f : FieldDef) (fs : List FieldDef) :
    genVariables (f :: fs) = .letE f.slotVar (.lit (slotRV (Slot.init f.ty))) :: genVariables fs := by
  unfold genVariables
  rw [List.map_cons]
  congr 2
  cases f.ty <;> rfl

theorem eval_variables : ∀ (fs : List FieldDef) (s : Store) (v : RV), Distinct fs →
    ∃ v' t, (∀ rd : Rd, evalSeq L (deOps L g) fuel v (.ofList (genVariables fs)) (rd, s) = (.val v', (rd, t))) ∧
      All2 (Holds t) fs (fs.map fun f => Slot.init f.ty) ∧ Off (fs.map FieldDef.slotVar) s t
  | [], s, v, _ => ⟨v, s, fun _ => rfl, .nil, Off.refl⟩
  | f :: fs, s, v, hd => by
    have hdf := List.nodup_cons.1 hd
    have h3 : SlotOk f.ty (Slot.init f.ty) := by cases f.ty <;> trivial
    obtain ⟨v', t, h4, h5, h6⟩ := eval_variables fs (s.set f.slotVar (slotRV (Slot.init f.ty))) .unit hdf.2
    refine ⟨v', t, fun rd => ?_, .cons ⟨?_, h3⟩ h5, fun y hy => ?_⟩
    · rw [genVariables_cons]
      exact h4 rd
    · rw [h6 f.slotVar, Store.set_apply, if_pos rfl]
      intro hm
      obtain ⟨a, ha, he⟩ := List.mem_map.1 hm
      exact slotVar_ne (fun he => hdf.1 (List.mem_map.2 ⟨a, ha, he⟩)) he
    · simp only [List.map_cons, List.mem_cons, not_or] at hy
      rw [h6 y hy.2, Store.set_apply, if_neg hy.1]

/-! ### After the loop -/

theorem flattenFields_each {rec : Path → D Val} (unused : Str) : ∀ (fs : List FieldDef) (ss : List Slot),
    flattenFields L rec unused fs ss = eachField (flattenField L rec unused) fs ss
  | [], ss => by cases ss <;> rfl
  | f :: fs, [] => rfl
  | f :: fs, s :: ss => by simp only [flattenFields, eachField, flattenFields_each unused fs ss]

def flatCode (f : FieldDef) : Ex :=
  match f.ty with
  | .struct p => .assign f.slotVar (fn .some [.try_ (meth (.fromStr p) [.var .unused_xml_elements])])
  | .opt (.struct p) => .assign f.slotVar (fn .toOption [meth (.fromStr p) [.var .unused_xml_elements]])
  | _ => .app .unwrap .nil

theorem decls_flatten (fs : List FieldDef) : (Exs.ofList (genFlattenVisitors fs)).decls = [] := by
  unfold genFlattenVisitors
  induction fs.filter _ with
  | nil => rfl
  | cons f fs ih =>
    have h1 : ∀ es, (Exs.cons (flatCode f) es).decls = es.decls := by
      intro es
      unfold flatCode
      split <;> rfl
    simp only [List.map_cons, Exs.ofList]
    exact (h1 _).trans ih

theorem lift_opt (r : Res Val) :
    (M.lift (match r with
      | .ok v => .ok (Slot.one (some v))
      | .err _ => .ok (Slot.one none)
      | .panic m => .panic m
      | .diverge => .diverge) : D Slot) =
    M.attempt (M.lift r) >>= fun q => M.pure (Slot.one (match q with | .ok v => some v | .error _ => none)) := by
  funext rd
  cases r <;> rfl

theorem sim_flatten {rec : Path → D Val} (hrec : ∀ p, Same (g p) (rec p)) (hL : ∀ x, Proper (Rd.new (L.parse x))) {s : Store}
    {f : FieldDef} {sl : Slot} {unused : Str} (hg : FieldOk f) (hs : s .unused_xml_elements = .str unused) (h : Holds s f sl) {v : RV} :
    Sim (evalSeq L (deOps L g) fuel v (.ofList (if (!f.attrs.isAttr && f.attrs.flatten) = true then [flatCode f] else []))) s
      (M.lift (flattenField L rec unused f sl)) (DoesSlot f s) Any := by
  unfold flattenField
  by_cases ha : (!f.attrs.isAttr && f.attrs.flatten) = true
  · rw [if_pos ha, if_pos ha]
    refine Sim.last ?_
    simp only [Bool.and_eq_true, Bool.not_eq_true'] at ha
    unfold flatCode
    rcases hg.flat ha.1 ha.2 with ⟨p, hp⟩ | ⟨p, hp⟩
    · rw [hp]
      simp only [liftBind]
      have h1 := Sim.try_ (E := Any) (sim_fromStr L g fuel hrec hL (p := p) (E := Any) (Evals.var' hs))
      have h2 : Sim (eval L (deOps L g) fuel (fn .some [.try_ (meth (.fromStr p) [.var .unused_xml_elements])])) s
          (M.lift (fromStr L rec p unused) >>= fun v => M.pure v) (fun v o t => o = .val (.some (.val v)) ∧ t = s) Any := by
        refine Sim.bind h1 ?_
        rintro v o s ⟨rfl, rfl⟩
        exact ⟨_, rfl, Sim.pure (fun _ => rfl) ⟨rfl, rfl⟩⟩
      have h3 := Sim.bind (k := fun v => Exec.setVar f.slotVar v) (m' := fun v => M.pure (Slot.one (some v))) (Q := DoesSlot f s) h2 (by
        rintro v o s ⟨rfl, rfl⟩
        exact ⟨_, rfl, Sim.pure (fun _ => rfl) ⟨⟨_, rfl⟩, holds_set (by rw [hp]; trivial), Off.refl.set (by simp)⟩⟩)
      rw [bindAssoc] at h3
      exact h3
    · rw [hp]
      dsimp only
      refine Sim.ok_of_eq ?_ (lift_opt (fromStr L rec p unused)).symm
      have h1 := sim_fromStr L g fuel hrec hL (p := p) (E := Any) (Evals.var' hs)
      have h2 : Sim (eval L (deOps L g) fuel (fn .toOption [meth (.fromStr p) [.var .unused_xml_elements]])) s
          (M.attempt (M.lift (fromStr L rec p unused)) >>= fun q => M.pure q)
          (fun q o t => o = .val (slotRV (.one (match q with | .ok v => some v | .error _ => none))) ∧ t = s) Any := by
        refine Sim.bind h1 ?_
        rintro q o s ⟨rfl, rfl⟩
        cases q <;> exact ⟨_, rfl, Sim.pure (fun _ => rfl) ⟨rfl, rfl⟩⟩
      have h3 := Sim.bind (k := fun v => Exec.setVar f.slotVar v)
          (m' := fun q => M.pure (Slot.one (match q with | .ok v => some v | .error _ => none))) (Q := DoesSlot f s) h2 (by
        rintro q o s ⟨rfl, rfl⟩
        exact ⟨_, rfl, Sim.pure (fun _ => rfl) ⟨⟨_, rfl⟩, holds_set (by rw [hp]; trivial), Off.refl.set (by simp)⟩⟩)
      rw [bindAssoc] at h3
      exact h3
  · rw [if_neg ha, if_neg ha]
    exact Sim.pure (fun _ => rfl) ⟨⟨_, rfl⟩, h, Off.refl⟩

theorem sim_visitUnused {rec : Path → D Val} (hrec : ∀ p, Same (g p) (rec p)) (hL : ∀ x, Proper (Rd.new (L.parse x))) {d : StructDef}
    {st : LoopSt} {s : Store} (h : St d st s) (hd : StructOk d) (v : RV) :
    Sim (evalSeq L (deOps L g) fuel v (.ofList (genVisitUnused d))) s
      (match d.hasFlat, st.writer with
        | true, some w => M.lift (flattenFields L rec (L.emit unusedCfg w.out) d.fields st.slots)
        | _, _ => M.pure st.slots) (fun ss o t => (∃ v, o = .val v) ∧ All2 (Holds t) d.fields ss) Any := by
  unfold genVisitUnused
  cases hf : d.hasFlat with
  | false => exact Sim.pure (fun _ => rfl) ⟨⟨_, rfl⟩, h.slots⟩
  | true =>
    refine Sim.last ?_
    have hw := h.writer hf
    cases hw' : st.writer with
    | none =>
      rw [hw'] at hw
      exact Sim.ite (x := false) (Evals.app1 (Evals.var' hw) rfl) (fun h => by cases h) (fun _ => Sim.skip_ ⟨⟨_, rfl⟩, h.slots⟩)
    | some w =>
      rw [hw'] at hw
      refine Sim.ite (x := true) (Evals.app1 (Evals.var' hw) rfl) (fun _ => ?_) (fun h => by cases h)
      refine Sim.block (xs := [.unused_xml_elements]) (congrArg (_ :: ·) (decls_flatten _)) (E := Any)
        (P := fun ss o t => (∃ v, o = .val v) ∧ All2 (Holds t) d.fields ss) ?_ ?_ (fun _ _ => trivial)
      · refine Sim.step (v := .unit) (s' := s.set .unused_xml_elements (.str (L.emit unusedCfg w.out))) (fun rd => ?_) ?_
        · have h1 := Evals.app1 (L := L) (g := g) (fuel := fuel) (f := .written) (v := .str (L.emit unusedCfg w.out)) (Evals.var' hw) rfl
          simp only [eval, Exec.bind, h1 rd, Exec.setVar]
        · have h1 : St d st (s.set .unused_xml_elements (.str (L.emit unusedCfg w.out))) := h.set rfl
          dsimp only
          rw [flattenFields_each]
          unfold genFlattenVisitors
          rw [filter_flatMap]
          refine (sim_eachField L g fuel (good := FieldOk) (ok := fun s => s .unused_xml_elements = .str (L.emit unusedCfg w.out))
            (fun s t f h1 h2 => (h2 _ (by simp [FieldDef.slotVar])).trans h1) (fun f sl s v hg ho hh => sim_flatten L g fuel hrec hL hg ho hh)
            d.fields st.slots _ _ hd.fields (by simp) hd.distinct h1.slots).conseq fun _ _ _ h => ⟨h.1, h.2.1⟩
      · rintro ss o t ⟨h1, h2⟩
        exact ⟨h1, All2.imp_mem h2 fun f _ _ hh => ⟨by rw [Store.leave_apply, if_neg (by simp [FieldDef.slotVar])]; exact hh.1, hh.2⟩⟩

theorem mapM_append {l : List RV} {vs : List Val} {r : RV} {v : Val} (h : l.mapM RV.toVal = some vs) (hr : r.toVal = some v) :
    (l ++ [r]).mapM RV.toVal = some (vs ++ [v]) := by
  simp [List.mapM_append, h, hr]

theorem mapM_scalar : ∀ vs : List Val, (vs.map RV.val).mapM RV.scalar = some vs
  | [] => rfl
  | v :: vs => by simp [RV.scalar, mapM_scalar vs]

def buildCode (name : Str) (f : FieldDef) : Ex :=
  match f.ty with
  | .opt _ | .vec _ => .var f.slotVar
  | _ =>
    match f.dflt with
    | some d => .unwrapOrElse (.var f.slotVar) (.lit (.val d.val))
    | none => .try_ (.okOrElse (.var f.slotVar) (strE (f.ident ++ c!" is a required field of " ++ name)))

theorem sim_build {s : Store} {f : FieldDef} {sl : Slot} {name : Str} (h : Holds s f sl) :
    Sim (eval L (deOps L g) fuel (buildCode name f)) s (M.lift (buildField name f sl))
      (fun v o t => ∃ r, o = .val r ∧ r.toVal = some v ∧ t = s) Any := by
  obtain ⟨h1, h2⟩ := h
  unfold buildCode buildField
  have plain : ∀ v, sl = .one v → Sim (eval L (deOps L g) fuel (match f.dflt with
      | some d => .unwrapOrElse (.var f.slotVar) (.lit (.val d.val))
      | none => .try_ (.okOrElse (.var f.slotVar) (strE (f.ident ++ c!" is a required field of " ++ name))))) s
      (M.lift (match v with
        | some v => .ok v
        | none =>
          match f.dflt with
          | some d => .ok d.val
          | none => .err (f.ident ++ c!" is a required field of " ++ name))) (fun v o t => ∃ r, o = .val r ∧ r.toVal = some v ∧ t = s) Any := by
    rintro v rfl
    cases v with
    | some v =>
      simp only [slotRV] at h1
      refine Sim.pure (o := .val (.val v)) (s' := s) (fun rd => ?_) ⟨_, rfl, rfl, rfl⟩
      cases f.dflt <;> simp [eval, Exec.bind, h1, Exec.val, Exec.out]
    | none =>
      simp only [slotRV] at h1
      cases f.dflt with
      | some d =>
        refine Sim.pure (o := .val (.val d.val)) (s' := s) (fun rd => ?_) ⟨_, rfl, rfl, rfl⟩
        simp [eval, Exec.bind, h1, Exec.val, Exec.out]
      | none =>
        refine Sim.throw (s' := s) (fun rd => ?_) trivial
        simp [eval, Exec.bind, h1, Exec.val, Exec.out, strE]
  cases hty : f.ty with
  | vec t =>
    rw [hty] at h2
    cases sl with
    | one v => exact h2.elim
    | many vs => exact Sim.pure (Evals.var' h1) ⟨_, rfl, by simp only [slotRV, RV.toVal, mapM_scalar, Option.map_some], rfl⟩
  | opt t =>
    rw [hty] at h2
    cases sl with
    | one v => cases v <;> exact Sim.pure (Evals.var' h1) ⟨_, rfl, rfl, rfl⟩
    | many vs => exact h2.elim
  | simple t =>
    rw [hty] at h2
    cases sl with
    | one v => have := plain v rfl; cases v <;> exact this
    | many vs => exact h2.elim
  | struct t =>
    rw [hty] at h2
    cases sl with
    | one v => have := plain v rfl; cases v <;> exact this
    | many vs => exact h2.elim

theorem sim_buildFields {s : Store} {name : Str} : ∀ (fs : List FieldDef) (ss : List Slot) (acc : List RV) (avs : List Val),
    All2 (Holds s) fs ss → acc.mapM RV.toVal = some avs →
    Sim (evalArgs L (deOps L g) fuel acc (.ofList (genBuilder name fs)) fun l => Exec.out (Fn.apply L .structV l)) s
      (M.lift (buildFields name fs ss) >>= fun vs => M.pure (Val.struct (avs ++ vs))) (fun v o t => o = .val (.val v) ∧ t = s) Any
  | [], _, acc, avs, .nil, ha => by
    refine Sim.pure (o := .val (.val (.struct (avs ++ [])))) (s' := s) (fun rd => ?_) ⟨rfl, rfl⟩
    simp [genBuilder, Exs.ofList, evalArgs, Fn.apply, ha, Out.ofOption, Exec.out]
  | f :: fs, sl :: ss, acc, avs, .cons h hs, ha => by
    simp only [buildFields, liftBind, bindAssoc]
    refine Sim.bind (sim_build L g fuel h) ?_
    rintro v o s ⟨r, rfl, h1, rfl⟩
    refine ⟨_, rfl, ?_⟩
    refine Sim.ok_of_eq (sim_buildFields fs ss (acc ++ [r]) (avs ++ [v]) hs (mapM_append ha h1)) ?_
    congr 1
    funext vs
    simp only [List.append_assoc, List.singleton_append]
    rfl

/-! ### The whole function -/

/-- `let start_depth = reader.depth(); if reader.depth() == 0 { a }` -/
theorem eval_atRoot {a : Ex} {s : Store} {v : RV} {rest : List Ex} (rd : Rd) :
    Exec.called (evalSeq L (deOps L g) fuel v (.ofList (.letE .start_depth (meth .depth) :: .ite (fn .eq [meth .depth, intE 0]) a skipE :: rest))) (rd, s) =
      Exec.called ((if rd.depth = 0 then eval L (deOps L g) fuel a else Exec.val .unit).bind fun v => evalSeq L (deOps L g) fuel v (.ofList rest))
        (rd, s.set .start_depth (.int rd.depth)) := by
  have h1 : ∀ s : Store, eval L (deOps L g) fuel (fn .eq [meth .depth, intE 0]) (rd, s) = (.val (.bool (rd.depth == 0)), (rd, s)) := by
    intro s
    have h2 : (((rd.depth : Int) == 0) : Bool) = (rd.depth == 0) := by
      by_cases h : rd.depth = 0
      · simp [h]
      · have h' : ¬ (rd.depth : Int) = 0 := by omega
        rw [beq_eq_false_iff_ne.2 h, beq_eq_false_iff_ne.2 h']
    simp only [fn, eval, Exs.ofList, evalArgs, Exec.bind, Evals.depth, intE, Exec.val, Exec.out, List.nil_append, List.cons_append, Fn.apply, RV.eqv,
      Option.map_some, Out.ofOption, h2]
  have h3 : evalSeq L (deOps L g) fuel v (.ofList (.letE .start_depth (meth .depth) :: .ite (fn .eq [meth .depth, intE 0]) a skipE :: rest)) (rd, s) =
      ((if rd.depth = 0 then eval L (deOps L g) fuel a else Exec.val .unit).bind fun v => evalSeq L (deOps L g) fuel v (.ofList rest))
        (rd, s.set .start_depth (.int rd.depth)) := by
    simp only [Exs.ofList, evalSeq, Exec.bind, eval, Evals.depth, Exec.setVar, h1]
    by_cases h : rd.depth = 0
    · simp only [h, if_true, beq_self_eq_true]
    · simp only [h, if_false, beq_eq_false_iff_ne.2 h, skipE, eval]
  unfold Exec.called
  rw [h3]

theorem fun_build {s : Store} {d : StructDef} {ss : List Slot} (v : RV) (h : All2 (Holds s) d.fields ss) :
    Fun (evalSeq L (deOps L g) fuel v (.ofList [fn .ok [fn .structV (genBuilder d.name d.fields)]])) s
      (M.lift (buildFields d.name d.fields ss) >>= fun vs => M.pure (Val.struct vs)) .val Any := by
  have h1 := sim_buildFields L g fuel (name := d.name) d.fields ss [] [] h rfl
  have h2 : Fun ((evalArgs L (deOps L g) fuel [] (.ofList (genBuilder d.name d.fields)) fun l => Exec.out (Fn.apply L .structV l)).bind
      fun v => Exec.val (.ok v)) s ((M.lift (buildFields d.name d.fields ss) >>= fun vs => M.pure (Val.struct ([] ++ vs))) >>= M.pure) .val Any := by
    refine Fun.bind h1 ?_
    rintro v o s ⟨rfl, rfl⟩
    exact ⟨_, rfl, Fun.ok (fun _ => rfl) trivial⟩
  rw [bindAssoc] at h2
  refine Sim.congr h2 fun rd => ?_
  simp only [Exec.called, Exs.ofList, evalSeq, fn, eval, evalArgs, Exec.bind, Exec.val, Exec.out]
  rcases evalArgs L (deOps L g) fuel [] (.ofList (genBuilder d.name d.fields)) (fun l => Exec.out (Fn.apply L .structV l)) (rd, s) with ⟨o, t⟩
  cases o <;> rfl

theorem fun_structTail {rec : Path → D Val} (hrec : ∀ p, Same (g p) (rec p)) (hL : ∀ x, Proper (Rd.new (L.parse x))) {d : StructDef}
    (hd : StructOk d) {s : Store} {named : Str} {sd : Nat} (hne : s .named_element = .str named) (hsd : s .start_depth = .int sd) (v0 : RV) :
    Fun (evalSeq L (deOps L g) fuel v0 (.ofList (genVariables d.fields ++ (genInitUnused d.hasFlat ++
        (.letE .depth (intE 0) :: .loop (genStructStep d) :: (genVisitUnused d ++
          [fn .ok [fn .structV (genBuilder d.name d.fields)]])))))) s
      (structLoop L rec fuel d named sd fuel { depth := 0, slots := d.fields.map (fun f => Slot.init f.ty), writer := some {} } >>= fun st =>
        (match d.hasFlat, st.writer with
          | true, some w => M.lift (flattenFields L rec (L.emit unusedCfg w.out) d.fields st.slots)
          | _, _ => M.pure st.slots) >>= fun slots =>
        M.lift (buildFields d.name d.fields slots) >>= fun vs => M.pure (.struct vs)) .val Any := by
  obtain ⟨v1, t1, h1, h2, h3⟩ := eval_variables L g fuel d.fields s v0 hd.distinct
  rw [evalSeq_append]
  refine Fun.step h1 ?_
  rw [evalSeq_append]
  have hne1 : t1 .named_element = .str named := (h3 _ (by simp [FieldDef.slotVar])).trans hne
  have hsd1 : t1 .start_depth = .int sd := (h3 _ (by simp [FieldDef.slotVar])).trans hsd
  have h4 : ∃ v2 t2, (∀ rd : Rd, evalSeq L (deOps L g) fuel v1 (.ofList (genInitUnused d.hasFlat)) (rd, t1) = (.val v2, (rd, t2))) ∧
      Off [.writer] t1 t2 ∧ (d.hasFlat = true → t2 .writer = optW (some {})) := by
    cases d.hasFlat with
    | false => exact ⟨_, _, fun _ => rfl, Off.refl, fun h => by cases h⟩
    | true => exact ⟨_, _, fun _ => rfl, Off.refl.set (by simp), fun _ => by simp [optW]⟩
  obtain ⟨v2, t2, h5, h6, h7⟩ := h4
  refine Fun.step h5 ?_
  refine Fun.step (v := .unit) (s' := t2.set .depth (.int 0)) (fun _ => rfl) ?_
  have hst : St d { depth := 0, slots := d.fields.map (fun f => Slot.init f.ty), writer := some {} } (t2.set .depth (.int 0)) := by
    refine ⟨by simp, fun hf => by simp [h7 hf], All2.imp_mem h2 fun f _ _ hh => ⟨?_, hh.2⟩⟩
    rw [Store.set_apply, if_neg (by simp [FieldDef.slotVar]), h6 _ (by simp [FieldDef.slotVar])]
    exact hh.1
  refine Fun.bind (sim_structLoop L g fuel hrec hL hd fuel _ _ hst ?_ ?_) ?_
  · rw [Store.set_apply, if_neg (by simp), h6 _ (by simp)]; exact hne1
  · rw [Store.set_apply, if_neg (by simp), h6 _ (by simp)]; exact hsd1
  rintro st o t ⟨⟨v, rfl⟩, h8, h9⟩
  refine ⟨_, rfl, ?_⟩
  rw [evalSeq_append]
  refine Fun.bind (sim_visitUnused L g fuel hrec hL h8 hd v) ?_
  rintro ss o t' ⟨⟨v', rfl⟩, h10⟩
  exact ⟨_, rfl, fun_build L g fuel v' h10⟩

theorem fun_struct {rec : Path → D Val} (hrec : ∀ p, Same (g p) (rec p)) (hL : ∀ x, Proper (Rd.new (L.parse x))) {d : StructDef}
    (hd : StructOk d) (s : Store) :
    Fun (eval L (deOps L g) fuel (genStruct d)) s (structDeser L rec fuel d) .val Any := by
  unfold genStruct
  refine Fun.scope (F := Any) ?_ (fun _ _ => trivial)
  have hm : structDeser L rec fuel d = ((peek >>= fun e => M.pure (startInfo (d.attrs.xmlElementName d.name) e)) >>= fun i =>
      M.get >>= fun rd => structBody L rec fuel d i rd.depth) := by
    rw [bindAssoc]
    rfl
  rw [hm]
  refine Fun.bind (sim_startInfo L g fuel) ?_
  rintro i o _ ⟨rfl, rfl⟩
  refine ⟨_, rfl, ?_⟩
  generalize hs1 : (s.set .named_element (.str i.1)).set .struct_namespace (optStr i.2) = s1
  have hne : s1 .named_element = .str i.1 := by rw [← hs1]; simp
  have hns : s1 .struct_namespace = optStr i.2 := by rw [← hs1]; simp
  intro rd hp
  show After _ _ (M.attempt (structBody L rec fuel d i rd.depth) rd) _
  have htail := fun v0 => fun_structTail L g fuel hrec hL hd (s := s1.set .start_depth (.int rd.depth)) (named := i.1) (sd := rd.depth)
    (by simp [hne]) (by simp) v0
  unfold structBody
  by_cases h0 : rd.depth = 0
  · rw [if_pos h0]
    refine (Fun.bind (k := fun v => evalSeq L (deOps L g) fuel v (.ofList (genVariables d.fields ++ (genInitUnused d.hasFlat ++
        (.letE .depth (intE 0) :: .loop (genStructStep d) :: (genVisitUnused d ++
          [fn .ok [fn .structV (genBuilder d.name d.fields)]]))))))
      ((sim_nsMatching L g fuel (s := s1.set .start_depth (.int rd.depth)) (nss := d.attrs.namespaces) (cfg := d.attrs.pfx)
        (nsE := .var .struct_namespace) (nameE := .var .named_element) (elemNs := i.2) (elemName := i.1)
        (Evals.var' (by simp [hns])) (fun rd a b => Evals.var' (by simp [hne]) rd)).conseq (fun _ _ _ h => h) (fun _ _ => trivial)) ?_ rd hp).cast ?_
    · rintro _ o t ⟨rfl, rfl⟩
      exact ⟨_, rfl, htail _⟩
    · exact (eval_atRoot L g fuel rd).trans (by rw [if_pos h0])
  · rw [if_neg h0]
    refine (htail .unit rd hp).cast ?_
    exact (eval_atRoot L g fuel rd).trans (by rw [if_neg h0]; rfl)

/-- A function whose body does what `m` does. -/
theorem Same.ofFun {b : Ex} {m : D Val} (h : Fun (eval L (deOps L g) fuel b) (fun _ => .unit) m .val Any) : Same (runDe L g fuel b) m := by
  intro rd hp
  have h1 := h rd hp
  unfold Exec.called M.attempt at h1
  unfold runDe
  rcases hm : m rd with ⟨r, rd'⟩
  rw [hm] at h1
  rcases hx : eval L (deOps L g) fuel b (rd, fun _ => .unit) with ⟨o, t⟩
  rw [hx] at h1
  cases r with
  | ok v =>
    obtain ⟨hp', o', t', e1, rfl, _⟩ := h1
    refine ⟨hp', ?_⟩
    cases o <;> simp_all [resRV, Out.result, Out.stuck]
  | err e =>
    obtain ⟨hp', o', t', e1, rfl, _⟩ := h1
    refine ⟨hp', ?_⟩
    cases o <;> simp_all [resRV, Out.result, Out.stuck]
  | panic e =>
    obtain ⟨t', e1⟩ := h1
    cases o <;> simp_all [Out.result, Out.stuck]
  | diverge =>
    cases o <;> simp_all [After, Lost, Out.result, Out.stuck]

theorem same_struct {rec : Path → D Val} (hrec : ∀ p, Same (g p) (rec p)) (hL : ∀ x, Proper (Rd.new (L.parse x))) {d : StructDef}
    (hd : StructOk d) : Same (runDe L g fuel (genStruct d)) (structDeser L rec fuel d) :=
  Same.ofFun L g fuel (fun_struct L g fuel hrec hL hd _)

end

end Yaserde.Rs
