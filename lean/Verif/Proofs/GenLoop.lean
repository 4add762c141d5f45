import Verif.Proofs.GenStruct
/-
The loop of the printed `deserialize` of a struct, and the whole function, against the interpreter.
-/

set_option autoImplicit false

namespace Yaserde.Rs

/-- What the macro accepts, for one field. -/
structure FieldOk (f : FieldDef) : Prop where
  elem : f.attrs.flatten = false ∨ f.attrs.isAttr = true → Elem f.ty.core
  flat : f.attrs.isAttr = false → f.attrs.flatten = true → (∃ p, f.ty = .struct p) ∨ ∃ p, f.ty = .opt (.struct p)
  text : f.attrs.text = true → ∀ t, f.ty = .simple t → t = .string

structure StructOk (d : StructDef) : Prop where
  distinct : Distinct d.fields
  fields : ∀ f ∈ d.fields, FieldOk f

section
variable (L : Lib) (g : Path → D Val) (fuel : Nat)

theorem decls_cons_letE (x : Var) (e : Ex) (es : List Ex) : (Exs.ofList (.letE x e :: es)).decls = x :: (Exs.ofList es).decls := rfl

theorem decls_nextWrite (hf : Bool) (rest : List Ex) (hr : (Exs.ofList rest).decls = []) :
    (Exs.ofList (.letE .event (.try_ (meth .next)) :: (genWriteUnused hf ++ rest))).decls = [.event] := by
  rw [decls_cons_letE, decls_append, genWriteUnused_decls, hr]
  rfl

theorem St.setWriter {d : StructDef} {st : LoopSt} {s t : Store} {w : Option EW} (h : St d st s)
    (h1 : ∀ x, x ≠ .writer → t x = s x) (h2 : d.hasFlat = true → t .writer = optW w) : St d { st with writer := w } t where
  depth := (h1 _ (by simp)).trans h.depth
  writer := h2
  slots := All2.imp_mem h.slots fun f _ _ hh => ⟨(h1 _ (by simp [FieldDef.slotVar])).trans hh.1, hh.2⟩

theorem Fr.ofWriter {s t : Store} {xs : List Var} (h1 : ∀ x, x ≠ .writer → t x = s x) : Fr xs s t :=
  fun y hc _ => h1 y (by rintro rfl; cases hc)

/-- `let event = reader.next_event()?; #write_unused` -/
theorem sim_nextWrite {β : Type} {d : StructDef} {st : LoopSt} {s : Store} {rest : List Ex} {k : Option EW → D β}
    {Q : β → Out → Store → Prop} (v0 : RV) (h : St d st s)
    (hk : ∀ w t v, St d { st with writer := w } t → Fr [.event] s t → Sim (evalSeq L (deOps L g) fuel v (.ofList rest)) t (k w) Q Any) :
    Sim (evalSeq L (deOps L g) fuel v0 (.ofList (.letE .event (.try_ (meth .next)) :: (genWriteUnused d.hasFlat ++ rest)))) s
      (nextEvent >>= fun e' => M.lift (writeUnused d.hasFlat e' st.writer) >>= k) Q Any := by
  refine Sim.bind (Sim.letE (Sim.try_ (sim_next L g fuel (E := Any)))) ?_
  rintro e o _ ⟨rfl, rfl⟩
  refine ⟨_, rfl, ?_⟩
  rw [evalSeq_append]
  have h1 : St d st (s.set .event (.ev e)) := h.set rfl
  refine Sim.bind (sim_writeUnused L g fuel (e := e) (w := st.writer) (by simp) h1.writer .unit) ?_
  rintro w o t ⟨⟨v', rfl⟩, h2, h3⟩
  exact ⟨v', rfl, hk w t v' (h1.setWriter h2 h3) ((Fr.refl.set (by simp)).trans (Fr.ofWriter h2))⟩

/-- The next event is this start tag. -/
def NextIs (name : Name) (attrs : List Attr) (rd : Rd) : Prop := ∃ m, rd.stream 0 = .ok (.start name attrs m)

theorem NextIs.deeper {name : Name} {attrs : List Attr} {rd rd' : Rd} {e : REv} (hp : Proper rd) (h : NextIs name attrs rd)
    (he : nextEvent rd = (.ok e, rd')) : 1 ≤ rd'.depth := by
  obtain ⟨m, h⟩ := h
  obtain ⟨h1, h2⟩ := next_ok hp he
  rw [h] at h1
  cases h1
  simp only [weight] at h2
  omega

/-- The same in front of a start tag. -/
theorem simR_nextWrite {β : Type} {d : StructDef} {st : LoopSt} {s : Store} {rest : List Ex} {k : Option EW → D β}
    {Q : β → Out → Store → Prop} {name : Name} {attrs : List Attr} (v0 : RV) (h : St d st s)
    (hk : ∀ w t v, St d { st with writer := w } t → Fr [.event] s t →
      SimR (1 ≤ ·.depth) (evalSeq L (deOps L g) fuel v (.ofList rest)) t (k w) Q Any) :
    SimR (NextIs name attrs)
      (evalSeq L (deOps L g) fuel v0 (.ofList (.letE .event (.try_ (meth .next)) :: (genWriteUnused d.hasFlat ++ rest)))) s
      (nextEvent >>= fun e' => M.lift (writeUnused d.hasFlat e' st.writer) >>= k) Q Any := by
  refine Sim.bindR (S := fun _ rd => 1 ≤ rd.depth) (Sim.toR (Sim.letE (Sim.try_ (sim_next L g fuel (E := Any)))))
    (fun rd b rd' hp hR he => hR.deeper hp he) ?_
  rintro e o _ ⟨rfl, rfl⟩
  refine ⟨_, rfl, ?_⟩
  rw [evalSeq_append]
  have h1 : St d st (s.set .event (.ev e)) := h.set rfl
  refine Sim.bindR (S := fun _ rd => 1 ≤ rd.depth)
    (Sim.toR (sim_writeUnused L g fuel (e := e) (w := st.writer) (by simp) h1.writer .unit)) ?_ ?_
  · intro rd b rd' _ hR he
    simp only [M.lift] at he
    have := congrArg Prod.snd he
    simp only at this
    rwa [← this]
  rintro w o t ⟨⟨v', rfl⟩, h2, h3⟩
  exact ⟨v', rfl, hk w t v' (h1.setWriter h2 h3) ((Fr.refl.set (by simp)).trans (Fr.ofWriter h2))⟩

/-! ### Text -/

theorem setText_each (x : Str) : ∀ (fs : List FieldDef) (ss : List Slot),
    eachField (fun f s => .ok (if f.attrs.text then
      match f.ty with
      | .simple .string => .one (some (.str x))
      | .opt (.simple .string) => if x.isEmpty then .one none else .one (some (.str x))
      | _ => s
     else s)) fs ss = .ok (setText fs x ss)
  | [], ss => by cases ss <;> rfl
  | f :: fs, [] => rfl
  | f :: fs, s :: ss => by
    simp only [setText, eachField, setText_each x fs ss, Res.bind]
    rfl

/-- The statement of one field. -/
def textCode (f : FieldDef) : List Ex :=
  if f.attrs.text then
    match f.ty with
    | .simple .string => [.assign f.slotVar (fn .some [fn .owned [.var .text_content]])]
    | .opt (.simple .string) =>
      [.assign f.slotVar (.ite (fn .isEmpty [.var .text_content]) (.lit .none) (fn .some [fn .owned [.var .text_content]]))]
    | .simple t => [.assign f.slotVar (fn .unwrap [fn (.parse t) [.var .text_content]])]
    | _ => []
  else []

theorem genSetText_eq : ∀ fs : List FieldDef, genSetText fs = fs.flatMap textCode
  | [] => rfl
  | f :: fs => by
    have ih := genSetText_eq fs
    unfold genSetText at ih ⊢
    rw [List.flatMap_cons, ← ih, List.filter_cons]
    unfold textCode
    by_cases h : f.attrs.text = true
    · rw [if_pos h, if_pos h, List.filterMap_cons]
      cases f.ty with
      | simple t => cases t <;> rfl
      | opt t =>
        cases t with
        | simple u => cases u <;> rfl
        | _ => rfl
      | _ => rfl
    · rw [if_neg h, if_neg h]
      rfl

theorem textCode_decls (fs : List FieldDef) (es : List Ex) : (Exs.ofList (genSetText fs ++ es)).decls = (Exs.ofList es).decls := by
  rw [genSetText_eq, decls_append]
  induction fs with
  | nil => rfl
  | cons f fs ih =>
    rw [List.flatMap_cons, decls_append]
    have h1 : (Exs.ofList (textCode f)).decls = [] := by
      unfold textCode
      split
      · split <;> rfl
      · rfl
    rw [h1]
    exact ih

theorem sim_setText {d : StructDef} {st : LoopSt} {s : Store} {x : Str} {v : RV} (h : St d st s) (hd : StructOk d)
    (hs : s .text_content = .str x) :
    Sim (evalSeq L (deOps L g) fuel v (.ofList (genSetText d.fields))) s (M.pure { st with slots := setText d.fields x st.slots })
      (Step d [] s) Any := by
  have h1 := sim_eachField L g fuel (code := textCode) (good := FieldOk) (ok := fun s => s .text_content = .str x)
    (step := fun f s => .ok (if f.attrs.text then
      match f.ty with
      | .simple .string => .one (some (.str x))
      | .opt (.simple .string) => if x.isEmpty then .one none else .one (some (.str x))
      | _ => s
     else s)) (fun s t f h1 h2 => (h2 _ (by simp [FieldDef.slotVar])).trans h1) ?_ d.fields st.slots s v hd.fields hs hd.distinct h.slots
  · rw [setText_each] at h1
    rw [genSetText_eq]
    have h2 := Sim.map (f := fun ss => { st with slots := ss }) (Q := Step d [] s) h1 ?_
    · exact h2
    · rintro ss o t ⟨h1, h2, h3⟩
      have hn : ∀ y, (∀ l, y ≠ .value l) → t y = s y := fun y hy => h3 y (by
        intro hm
        obtain ⟨f, _, he⟩ := List.mem_map.1 hm
        exact hy _ he.symm)
      refine ⟨h1, ⟨?_, fun hf => ?_, h2⟩, fun y hc _ => hn y (by rintro l rfl; cases hc)⟩
      · rw [hn _ (by simp)]; exact h.depth
      · rw [hn _ (by simp)]; exact h.writer hf
  · intro f sl s v hf hs hh
    rw [lift_ok]
    have hso : Evals L g fuel (fn .some [fn .owned [.var .text_content]]) s (.some (.val (.str x))) :=
      Evals.app1 (Evals.app1 (Evals.var' hs) rfl) rfl
    unfold textCode
    by_cases ht : f.attrs.text = true
    · rw [if_pos ht, if_pos ht]
      have keep : ∀ {o : List Ex}, o = [] → Sim (evalSeq L (deOps L g) fuel v (.ofList o)) s (M.pure sl) (DoesSlot f s) Any := by
        rintro o rfl
        exact Sim.pure (fun _ => rfl) ⟨⟨_, rfl⟩, hh, Off.refl⟩
      cases hty : f.ty with
      | simple t =>
        obtain rfl := hf.text ht t hty
        refine Sim.last (Sim.pure (o := .val .unit) (s' := s.set f.slotVar (slotRV (.one (some (.str x))))) (fun rd => ?_)
          ⟨⟨_, rfl⟩, holds_set (by rw [hty]; trivial), Off.refl.set (by simp)⟩)
        simp only [eval, Exec.bind, hso rd, Exec.setVar, slotRV]
      | opt t =>
        cases t with
        | simple u =>
          cases u with
          | string =>
            have he : Evals L g fuel (fn .isEmpty [.var .text_content]) s (.bool x.isEmpty) := Evals.app1 (Evals.var' hs) rfl
            simp only []
            cases hx : x.isEmpty with
            | true =>
              rw [hx] at he
              refine Sim.last (Sim.pure (o := .val .unit) (s' := s.set f.slotVar (slotRV (.one none))) (fun rd => ?_)
                ⟨⟨_, rfl⟩, holds_set (by rw [hty]; trivial), Off.refl.set (by simp)⟩)
              simp only [eval, Exec.bind, he rd, Exec.setVar, slotRV, Exec.val, Exec.out]
            | false =>
              rw [hx] at he
              refine Sim.last (Sim.pure (o := .val .unit) (s' := s.set f.slotVar (slotRV (.one (some (.str x))))) (fun rd => ?_)
                ⟨⟨_, rfl⟩, holds_set (by rw [hty]; trivial), Off.refl.set (by simp)⟩)
              simp only [eval, Exec.bind, he rd, hso rd, Exec.setVar, slotRV]
          | _ => exact keep rfl
        | _ => exact keep rfl
      | _ => exact keep rfl
    · rw [if_neg ht, if_neg ht]
      exact Sim.pure (fun _ => rfl) ⟨⟨_, rfl⟩, hh, Off.refl⟩

/-! ### The start of an element -/

theorem sim_start {rec : Path → D Val} (hrec : ∀ p, Same (g p) (rec p)) (hL : ∀ x, Proper (Rd.new (L.parse x))) {d : StructDef}
    {st : LoopSt} {s : Store} {name : Name} {attrs : List Attr} (h : St d st s) (hd : StructOk d) (hn : s .name = .name name)
    (ha : s .attributes = .vec (attrs.map .attr)) :
    SimR (NextIs name attrs) (eval L (deOps L g) fuel (genStartArm d)) s (structStart L rec fuel d st name attrs) (Step d [] s) Any := by
  unfold genStartArm structStart
  refine SimR.block (xs := [.namespace]) rfl (E := Any) (P := Step d [.namespace] s) ?_ (fun _ _ _ h => h.leave (by simp [Var.isCore]))
    (fun _ _ => trivial)
  have hns : ∀ rd : Rd, eval L (deOps L g) fuel (.letE .namespace (fn .unwrapOrDefault [fn .nsOf [.var .name]])) (rd, s) =
      (.val .unit, (rd, s.set .namespace (.str (name.ns.getD [])))) := by
    intro rd
    have h1 : Evals L g fuel (fn .unwrapOrDefault [fn .nsOf [.var .name]]) s (.str (name.ns.getD [])) :=
      Evals.app1 (Evals.nsOf (Evals.var' hn)) (by cases name.ns <;> rfl)
    simp only [eval, Exec.bind, h1 rd, Exec.setVar]
  refine SimR.step hns ?_
  generalize hs1 : s.set .namespace (.str (name.ns.getD [])) = s1
  have h1 : St d st s1 := hs1 ▸ h.set rfl
  have hn1 : s1 .name = .name name := by rw [← hs1]; simpa using hn
  have hns1 : s1 .namespace = .str (name.ns.getD []) := by rw [← hs1]; simp
  have ha1 : s1 .attributes = .vec (attrs.map .attr) := by rw [← hs1]; simpa using ha
  have hfr : Fr [.namespace] s s1 := hs1 ▸ Fr.refl.set (by simp)
  refine SimR.bind (P := Step d [] s1) ?_ ?_
  · refine SimR.ite (Evals.and (Evals.and (Evals.eqInt (Evals.var' h1.depth) Evals.lit)
      (Evals.eqStr (Evals.locName (Evals.var' hn1)) Evals.lit)) (Evals.eqStr (Evals.var' hns1) Evals.lit)) (fun h0 => ?_) (fun h0 => ?_)
    · rw [if_pos (by simpa [and_assoc] using h0)]
      refine Sim.toR ?_
      refine Sim.block (xs := [.event]) (by simpa using decls_nextWrite d.hasFlat [] rfl) (E := Any) (P := Step d [.event] s1) ?_
        (fun _ _ _ h => h.leave (by simp [Var.isCore])) (fun _ _ => trivial)
      have h2 := sim_nextWrite L g fuel (rest := []) (k := fun w => M.pure { st with writer := w }) (Q := Step d [.event] s1) .unit h1
        (fun w t v h3 h4 => Sim.pure (fun _ => rfl) ⟨⟨_, rfl⟩, h3, h4⟩)
      simpa using h2
    · rw [if_neg (by simpa [and_assoc] using h0)]
      refine SimR.match_ (Evals.app2 (v := .pair (.str (name.ns.getD [])) (.str name.loc)) (Evals.var' hns1)
        (Evals.locName (Evals.var' hn1)) rfl) ?_
      have hf := arms_find L g fuel d.attrs (name.ns.getD []) name.loc
        [(.wild, blk (.letE .event (.try_ (meth .next)) :: (genWriteUnused d.hasFlat ++
            [.ite (fn .gt [.var .depth, intE 0]) (.try_ (skipElementE (genWriteUnused d.hasFlat))) skipE])))] d.fields
      cases hfa : findArm d.attrs (name.ns.getD []) name.loc d.fields with
      | some i =>
        rw [hfa] at hf
        obtain ⟨f, hi, hsel, hf⟩ := hf
        simp only [hi]
        refine SimR.congr ?_ fun rd => hf (rd, s1)
        refine Sim.toR ?_
        have hel := (hd.fields f (List.mem_of_getElem? hi)).elem (.inl (by simp at hsel; exact hsel.2))
        unfold armBody callVisitor
        rcases hel with ⟨p, hp⟩ | ⟨t, ht⟩
        · rw [hp]
          exact sim_callStruct L g fuel hrec h1 hd.distinct hi
        · rw [ht]
          exact sim_callSimple L g fuel h1 hd.distinct hi hn1
      | none =>
        rw [hfa] at hf
        simp only [] at hf ⊢
        rw [hf]
        refine SimR.arm (bs := []) rfl (E := Any) (P := Step d [] s1) ?_ (fun _ _ _ h => h.leave (by simp)) (fun _ _ => trivial)
        rw [setAll_nil]
        refine SimR.block (xs := [.event]) (decls_nextWrite d.hasFlat _ rfl) (E := Any) (P := Step d [.event] s1) ?_
          (fun _ _ _ h => h.leave (by simp [Var.isCore])) (fun _ _ => trivial)
        refine simR_nextWrite L g fuel .unit h1 fun w t v h3 h4 => SimR.last ?_
        refine SimR.ite (x := decide (st.depth > 0)) (Evals.app2 (Evals.var' h3.depth) Evals.lit rfl) (fun h0 => ?_) (fun h0 => ?_)
        · rw [if_pos (by simpa using h0), ← bindAssoc]
          refine SimR.map (sim_skip L g fuel (w := w) h3.writer) ?_
          rintro w' o t' ⟨rfl, h5, h6⟩
          exact ⟨⟨_, rfl⟩, h3.setWriter h5 h6, h4.trans (Fr.ofWriter h5)⟩
        · rw [if_neg (by simpa using h0)]
          exact Sim.toR (Sim.skip_ ⟨⟨_, rfl⟩, h3, h4⟩)
  rintro st1 o t1 ⟨⟨v1, rfl⟩, h2, hfr1⟩
  refine ⟨v1, rfl, ?_⟩
  refine Sim.bind (P := Step d [] t1) ?_ ?_
  · refine Sim.ite (Evals.eqInt (Evals.var' h2.depth) Evals.lit) (fun h0 => ?_) (fun h0 => ?_)
    · rw [if_pos (by simpa using h0)]
      exact sim_loadAttrs L g fuel hrec hL h2 hd.distinct (fun f hf h => (hd.fields f hf).elem (.inr h))
        ((hfr1 _ rfl (by simp)).trans ha1)
    · rw [if_neg (by simpa using h0)]
      exact Sim.skip_ ⟨⟨_, rfl⟩, h2, Fr.refl⟩
  rintro st2 o t2 ⟨⟨v2, rfl⟩, h3, hfr2⟩
  refine ⟨v2, rfl, Sim.last (Sim.pure (o := .val .unit) (s' := t2.set .depth (.int (st2.depth + 1))) (fun rd => ?_) ⟨⟨_, rfl⟩, ?_, ?_⟩)⟩
  · simp only [eval, h3.depth, Exec.setVar]
  · exact ⟨by simp, fun hf => by rw [Store.set_apply, if_neg (by simp)]; exact h3.writer hf,
      All2.imp_mem h3.slots fun f _ _ hh => ⟨by rw [Store.set_apply, if_neg (by simp [FieldDef.slotVar])]; exact hh.1, hh.2⟩⟩
  · exact (hfr.trans ((hfr1.trans hfr2).mono (by simp))).core rfl

/-! ### One turn of the loop -/

/-- The state after a turn, and whether the loop goes on. -/
def Turn (d : StructDef) (xs : List Var) (s : Store) : LoopSt × Bool → Out → Store → Prop :=
  fun r o t => (match r.2 with | true => ∃ v, o = .val v | false => o = .brk) ∧ St d r.1 t ∧ Fr xs s t

theorem Turn.leave {d : StructDef} {xs : List Var} {s t : Store} {r : LoopSt × Bool} {o : Out} (h : Turn d xs s r o t)
    (hx : ∀ x ∈ xs, x.isCore = false) : Turn d [] s r o (t.leave s xs) :=
  ⟨h.1, h.2.1.leave hx, h.2.2.leave'⟩

theorem Turn.scope {d : StructDef} {xs : List Var} {s s1 t : Store} {r : LoopSt × Bool} {o : Out} (h : Turn d [] s1 r o t)
    (h0 : Fr xs s s1) (hx : ∀ x ∈ xs, x.isCore = false) : Turn d [] s r o (t.leave s xs) :=
  ⟨h.1, h.2.1.leave hx, (h0.trans (h.2.2.mono (by simp))).leave'⟩

theorem Turn.from_ {d : StructDef} {xs : List Var} {s s1 t : Store} {r : LoopSt × Bool} {o : Out} (h : Turn d [] s1 r o t)
    (h0 : Fr xs s s1) : Turn d xs s r o t :=
  ⟨h.1, h.2.1, h0.trans (h.2.2.mono (by simp))⟩

/-- `name.local_name == named_element && reader.depth() == start_depth + 1` -/
theorem eval_endCond {s : Store} {name : Name} {named : Str} {sd : Nat} (hn : s .name = .name name)
    (hne : s .named_element = .str named) (hsd : s .start_depth = .int sd) (rd : Rd) :
    eval L (deOps L g) fuel (andE (fn .eq [fn .locName [.var .name], .var .named_element])
        (fn .eq [meth .depth, fn .add [.var .start_depth, intE 1]])) (rd, s) =
      (.val (.bool (decide (name.loc = named ∧ rd.depth = sd + 1))), (rd, s)) := by
  have h1 : Evals L g fuel (fn .eq [fn .locName [.var .name], .var .named_element]) s (.bool (name.loc == named)) :=
    Evals.eqStr (Evals.locName (Evals.var' hn)) (Evals.var' hne)
  have h2 : eval L (deOps L g) fuel (fn .eq [meth .depth, fn .add [.var .start_depth, intE 1]]) (rd, s) =
      (.val (.bool (decide (rd.depth = sd + 1))), (rd, s)) := by
    have h3 : Evals L g fuel (fn .add [.var .start_depth, intE 1]) s (.int (sd + 1)) := Evals.app2 (Evals.var' hsd) Evals.lit rfl
    have h4 : ((rd.depth : Int) == (sd : Int) + 1) = decide (rd.depth = sd + 1) := by
      rw [Bool.eq_iff_iff]
      simp only [beq_iff_eq, decide_eq_true_eq]
      omega
    rw [← h4]
    generalize hb : fn .add [.var .start_depth, intE 1] = b at h3 ⊢
    have hd := Evals.depth (L := L) (g := g) (fuel := fuel) rd s
    generalize ha : meth .depth = a at hd ⊢
    simp [fn, Exs.ofList, eval, evalArgs, Exec.out, Exec.bind, hd, h3 rd, Fn.apply, RV.eqv, Out.ofOption]
  unfold andE
  simp only [eval, Exec.bind, h1 rd]
  by_cases hx : name.loc = named
  · simp only [hx, beq_self_eq_true, h2, true_and]
  · have hb : (name.loc == named) = false := beq_eq_false_iff_ne.2 hx
    simp [hb, hx, Exec.val, Exec.out]

theorem Sim.brk {β : Type} {x : Exec Rd} {s : Store} {m : D β} {P : β → Out → Store → Prop} {E : Store → Prop} {k : RV → Exec Rd}
    (h : Sim x s m P E) (hb : ∀ b o t, P b o t → o = .brk) : Sim (x.bind k) s m P E := by
  intro rd hp
  have h1 := h rd hp
  unfold Exec.bind
  rcases hm : m rd with ⟨r, rd'⟩
  rw [hm] at h1
  cases r with
  | ok b => obtain ⟨hp', o, t, e1, h2⟩ := h1; obtain rfl := hb _ _ _ h2; rw [e1]; exact ⟨hp', _, t, rfl, h2⟩
  | err e => obtain ⟨hp', s1, e1, hE⟩ := h1; rw [e1]; exact ⟨hp', s1, rfl, hE⟩
  | panic e => obtain ⟨s1, e1⟩ := h1; rw [e1]; exact ⟨s1, rfl⟩
  | diverge =>
    rcases hx : x (rd, s) with ⟨o, t⟩
    rw [hx] at h1
    cases o <;> simp_all [Lost, After]

theorem After.cast {β : Type} {P : β → Out → Store → Prop} {E : Store → Prop} {r : Res β × Rd} {q q' : Out × (Rd × Store)}
    (h : After P E r q) (he : q' = q) : After P E r q' := he ▸ h

theorem sim_endArm {d : StructDef} {st : LoopSt} {s : Store} {name : Name} {named : Str} {sd : Nat} (h : St d st s)
    (he : s .event = .ev (.endE name)) (hn : s .name = .name name)
    (hne : s .named_element = .str named) (hsd : s .start_depth = .int sd) :
    Sim (eval L (deOps L g) fuel (genEndArm d)) s
      (M.get >>= fun rd =>
        if name.loc = named ∧ rd.depth = sd + 1 then
          M.lift (writeUnused d.hasFlat (.endE name) st.writer) >>= fun w => M.pure ({ st with writer := w }, false)
        else
          nextEvent >>= fun e' =>
          M.lift (writeUnused d.hasFlat e' st.writer) >>= fun w =>
            M.pure ({ st with writer := w, depth := st.depth - 1 }, true)) (Turn d [] s) Any := by
  unfold genEndArm
  refine Sim.block (xs := [.event]) (decls_nextWrite d.hasFlat [.incr .depth (-1)] rfl) (E := Any) (P := Turn d [.event] s) ?_
    (fun _ _ _ h => h.leave (by simp [Var.isCore])) (fun _ _ => trivial)
  refine Sim.get fun rd hp => ?_
  have hc := eval_endCond L g fuel hn hne hsd rd
  by_cases h0 : name.loc = named ∧ rd.depth = sd + 1
  · rw [if_pos h0]
    rw [decide_eq_true h0] at hc
    have hb : (Exs.ofList (genWriteUnused d.hasFlat ++ [.brk])).decls = [] := by
      rw [decls_append, genWriteUnused_decls]; rfl
    have hx : Sim (eval L (deOps L g) fuel (blk (genWriteUnused d.hasFlat ++ [.brk]))) s
        (M.lift (writeUnused d.hasFlat (.endE name) st.writer) >>= fun w => M.pure (({ st with writer := w } : LoopSt), false))
        (fun r o t => o = .brk ∧ Turn d [.event] s r o t) Any := by
      refine Sim.block hb (E := Any) (P := fun r o t => o = .brk ∧ Turn d [.event] s r o t) ?_ (fun _ _ _ h => by rwa [Store.leave_nil])
        (fun _ _ => trivial)
      rw [evalSeq_append]
      refine Sim.bind (sim_writeUnused L g fuel he h.writer .unit) ?_
      rintro w o t ⟨⟨v', rfl⟩, h2, h3⟩
      exact ⟨v', rfl, Sim.pure (o := .brk) (s' := t) (fun _ => rfl) ⟨rfl, rfl, h.setWriter h2 h3, Fr.ofWriter h2⟩⟩
    have h1 := (hx.brk (k := fun v' => evalSeq L (deOps L g) fuel v' (.ofList (.letE .event (.try_ (meth .next)) ::
      (genWriteUnused d.hasFlat ++ [.incr .depth (-1)])))) fun _ _ _ h => h.1) rd hp
    refine (After.conseq h1 (fun _ _ _ h => h.2) fun _ h => h).cast ?_
    simp only [Exs.ofList, evalSeq, Exec.bind, eval, hc]
  · rw [if_neg h0]
    rw [decide_eq_false h0] at hc
    have hx := sim_nextWrite L g fuel (rest := [.incr .depth (-1)]) (d := d) (st := st) (s := s)
      (k := fun w => M.pure (({ st with writer := w, depth := st.depth - 1 } : LoopSt), true)) (Q := Turn d [.event] s) .unit h ?_
    · have h1 := hx rd hp
      simp only [Exs.ofList, evalSeq, Exec.bind, eval, hc, skipE, Exec.val, Exec.out] at h1 ⊢
      exact h1
    · intro w t v h3 h4
      refine Sim.last (Sim.pure (o := .val .unit) (s' := t.set .depth (.int (st.depth + -1))) (fun rd => ?_) ⟨⟨_, rfl⟩, ?_, h4.core rfl⟩)
      · simp only [eval, h3.depth, Exec.setVar]
      · exact ⟨by simp [Int.sub_eq_add_neg], fun hf => by rw [Store.set_apply, if_neg (by simp)]; exact h3.writer hf,
          All2.imp_mem h3.slots fun f _ _ hh => ⟨by rw [Store.set_apply, if_neg (by simp [FieldDef.slotVar])]; exact hh.1, hh.2⟩⟩

theorem sim_structStep {rec : Path → D Val} (hrec : ∀ p, Same (g p) (rec p)) (hL : ∀ x, Proper (Rd.new (L.parse x))) {d : StructDef}
    {st : LoopSt} {s : Store} {named : Str} {sd : Nat} (h : St d st s) (hd : StructOk d)
    (hne : s .named_element = .str named) (hsd : s .start_depth = .int sd) :
    Sim (eval L (deOps L g) fuel (genStructStep d)) s (structStep L rec fuel d named sd st) (Turn d [] s) Any := by
  unfold genStructStep structStep
  refine Sim.block (xs := [.event]) rfl (E := Any) (P := Turn d [.event] s) ?_ (fun _ _ _ h => h.leave (by simp [Var.isCore]))
    (fun _ _ => trivial)
  refine fun rd hp => Sim.bindR (R := fun _ => True) (S := fun e rd => rd.stream 0 = .ok e)
    (Sim.toR (Sim.letE (Sim.try_ (sim_peek L g fuel (E := Any))))) (fun rd b rd' hp _ he => peek_ok hp he) ?_ rd hp trivial
  rintro e o _ ⟨rfl, rfl⟩
  refine ⟨_, rfl, SimR.last (SimR.match_ (Evals.var' (v := .ev e) (by simp)) ?_)⟩
  generalize hs1 : s.set .event (.ev e) = s1
  have h1 : St d st s1 := hs1 ▸ h.set rfl
  have hne1 : s1 .named_element = .str named := by rw [← hs1]; simpa using hne
  have hsd1 : s1 .start_depth = .int sd := by rw [← hs1]; simpa using hsd
  have hev1 : s1 .event = .ev e := by rw [← hs1]; simp
  have hfr : Fr [.event] s s1 := hs1 ▸ Fr.refl.set (by simp)
  have other : Sim (evalArms L (deOps L g) fuel (.cons (.bind .event) (.ret (fn .err [fn .cat [strE c!"unknown event ", fn .debug [.var .event]]])) .nil) (.ev e)) s1
      (M.throw (c!"unknown event " ++ L.dbgEv e)) (Turn d [.event] s) Any := by
    refine Sim.arm (bs := [(.event, .ev e)]) rfl (E := Any) (P := fun _ _ _ => False) ?_ (fun _ _ _ h => h.elim) (fun _ _ => trivial)
    refine Sim.throw (s' := s1.set .event (.ev e)) (fun rd => ?_) trivial
    simp [setAll_one, fn, strE, eval, Exs.ofList, evalArgs, Exec.bind, Exec.val, Exec.out, Fn.apply, Out.ofOption, catAll]
  cases e with
  | start name attrs nss =>
    refine SimR.arm (bs := [(.name, .name name), (.attributes, .vec (attrs.map .attr))]) rfl (E := Any)
      (P := Turn d [] ((s1.set .name (.name name)).set .attributes (.vec (attrs.map .attr)))) ?_ ?_ (fun _ _ => trivial)
    · exact fun rd hp hR => SimR.map (f := fun st' => (st', true)) (Q := Turn d [] _) (sim_start L g fuel (name := name) (attrs := attrs) (s := (s1.set .name (.name name)).set .attributes (.vec (attrs.map .attr))) hrec hL ((h1.set rfl).set rfl) hd (by simp) (by simp)) (fun b o t h => h) rd hp ⟨_, hR⟩
    · intro b o t h2
      exact (h2.scope (xs := [.name, .attributes]) ((Fr.refl.set (by simp)).set (by simp)) (by simp [Var.isCore])).from_ hfr
  | endE name =>
    refine Sim.toR ?_
    refine Sim.arm_ne rfl (Sim.arm (bs := [(.name, .name name)]) rfl (E := Any) (P := Turn d [] (s1.set .name (.name name))) ?_ ?_
      (fun _ _ => trivial))
    · exact sim_endArm L g fuel (h1.set rfl) (by simpa [setAll_one] using hev1) (by simp [setAll_one]) (by simpa [setAll_one] using hne1) (by simpa [setAll_one] using hsd1)
    · intro b o t h2
      exact (h2.scope (xs := [.name]) (Fr.refl.set (by simp)) (by simp [Var.isCore])).from_ hfr
  | endDocument =>
    refine Sim.toR ?_
    refine Sim.arm_ne rfl (Sim.arm_ne rfl (Sim.arm (bs := []) rfl (E := Any) (P := Turn d [.event] s) ?_
      (fun _ _ _ h => by simpa [Pat.vars] using h) (fun _ _ => trivial)))
    refine Sim.ite Evals.lit (fun h0 => ?_) (fun h0 => ?_)
    · simp only [h0, if_true]
      exact Sim.pure (o := .brk) (s' := s1) (fun _ => rfl) ⟨rfl, h1, hfr⟩
    · simp only [h0, Bool.false_eq_true, if_false]
      exact Sim.skip_ ⟨⟨_, rfl⟩, h1, hfr⟩
  | chars x =>
    refine Sim.toR ?_
    refine Sim.arm_ne rfl (Sim.arm_ne rfl (Sim.arm_ne rfl (Sim.arm (bs := [(.text_content, .str x)]) rfl (E := Any)
      (P := Turn d [] (s1.set .text_content (.str x))) ?_ ?_ (fun _ _ => trivial))))
    · rw [setAll_one]
      refine Sim.block (xs := [.event]) (by rw [textCode_decls]; simpa using decls_nextWrite d.hasFlat [] rfl) (E := Any)
        (P := Turn d [.event] (s1.set .text_content (.str x))) ?_ (fun _ _ _ h => h.leave (by simp [Var.isCore])) (fun _ _ => trivial)
      rw [evalSeq_append]
      refine Sim.bind (m' := fun st1 => nextEvent >>= fun e' => M.lift (writeUnused d.hasFlat e' st1.writer) >>= fun w =>
        M.pure (({ st1 with writer := w } : LoopSt), true)) (sim_setText L g fuel (s := s1.set .text_content (.str x)) (x := x) (h1.set rfl) hd (by simp)) ?_
      rintro st1 o t ⟨⟨v, rfl⟩, h2, h3⟩
      refine ⟨v, rfl, ?_⟩
      have h4 := sim_nextWrite L g fuel (rest := []) (k := fun w => M.pure (({ st1 with writer := w } : LoopSt), true))
        (Q := Turn d [.event] (s1.set .text_content (.str x))) v h2
        (fun w t v h5 h6 => Sim.pure (fun _ => rfl) ⟨⟨_, rfl⟩, h5, Fr.trans (h3.mono (by simp)) h6⟩)
      simpa using h4
    · intro b o t h2
      exact (h2.scope (xs := [.text_content]) (Fr.refl.set (by simp)) (by simp [Var.isCore])).from_ hfr
  | startDocument => exact Sim.toR (Sim.arm_ne rfl (Sim.arm_ne rfl (Sim.arm_ne rfl (Sim.arm_ne rfl other))))
  | pi a b => exact Sim.toR (Sim.arm_ne rfl (Sim.arm_ne rfl (Sim.arm_ne rfl (Sim.arm_ne rfl other))))
  | cdata a => exact Sim.toR (Sim.arm_ne rfl (Sim.arm_ne rfl (Sim.arm_ne rfl (Sim.arm_ne rfl other))))
  | comment a => exact Sim.toR (Sim.arm_ne rfl (Sim.arm_ne rfl (Sim.arm_ne rfl (Sim.arm_ne rfl other))))
  | ws a => exact Sim.toR (Sim.arm_ne rfl (Sim.arm_ne rfl (Sim.arm_ne rfl (Sim.arm_ne rfl other))))

theorem sim_structLoop {rec : Path → D Val} (hrec : ∀ p, Same (g p) (rec p)) (hL : ∀ x, Proper (Rd.new (L.parse x))) {d : StructDef}
    {named : Str} {sd : Nat} (hd : StructOk d) : ∀ (n : Nat) (st : LoopSt) (s : Store), St d st s →
    s .named_element = .str named → s .start_depth = .int sd →
    Sim (Exec.loopN (eval L (deOps L g) fuel (genStructStep d)) n) s (structLoop L rec fuel d named sd n st) (Step d [] s) Any
  | 0, _, _, _, _, _ => fun _ _ => True.intro
  | n + 1, st, s, h, hne, hsd => by
    unfold structLoop
    refine Sim.loop (sim_structStep L g fuel hrec hL h hd hne hsd) ?_
    rintro ⟨st', c⟩ o t ⟨h1, h2, h3⟩
    cases c with
    | true =>
      obtain ⟨v, rfl⟩ := h1
      refine .inl ⟨v, rfl, ?_⟩
      refine (sim_structLoop hrec hL hd n st' t h2 ((h3 _ rfl (by simp)).trans hne) ((h3 _ rfl (by simp)).trans hsd)).conseq ?_
      rintro b o t' ⟨h4, h5, h6⟩
      exact ⟨h4, h5, h3.trans h6⟩
    | false =>
      simp only at h1
      subst h1
      exact .inr ⟨rfl, Sim.pure (fun _ => rfl) ⟨⟨_, rfl⟩, h2, h3⟩⟩

end

end Yaserde.Rs
