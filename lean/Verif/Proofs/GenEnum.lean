import Verif.Proofs.GenWhole
/-
The printed `deserialize` of an enum against the interpreter.
-/

set_option autoImplicit false

namespace Yaserde.Rs

/-! ### The variable `enum_value` -/

/-- The payload has the type that the variant declares. -/
def PayloadOk (v : VariantDef) (ps : List Val) : Prop :=
  match v.shape with
  | .unit => ps = []
  | .newtype (.vec _) => ∃ vs, ps = [.vec vs]
  | .newtype _ => ∃ x, ps = [x]
  | .named _ => False

/-- The variables are those of the interpreter. -/
def Cur (d : EnumDef) (cur : Option Val) (s : Store) : Prop :=
  match cur with
  | none => s .enum_value = .none
  | some x => s .enum_value = .some (.val x) ∧ ∃ i v ps, x = .enum i ps ∧ d.variants[i]? = some v ∧ PayloadOk v ps

def VariantOk (v : VariantDef) : Prop := ∀ t, v.shape = .newtype t → Elem t.core

def EnumOk (d : EnumDef) : Prop := ∀ v ∈ d.variants, VariantOk v

theorem Cur.congr {d : EnumDef} {cur : Option Val} {s t : Store} (h : Cur d cur s) (he : t .enum_value = s .enum_value) : Cur d cur t := by
  cases cur with
  | none => exact he.trans h
  | some x => exact ⟨he.trans h.1, h.2⟩

theorem Cur.set {d : EnumDef} {cur : Option Val} {s : Store} {x : Var} {v : RV} (h : Cur d cur s) (hx : x ≠ .enum_value) :
    Cur d cur (s.set x v) := h.congr (by rw [Store.set_apply, if_neg hx.symm])

theorem Cur.leave {d : EnumDef} {cur : Option Val} {s t : Store} {xs : List Var} (h : Cur d cur s) (hx : Var.enum_value ∉ xs) :
    Cur d cur (s.leave t xs) := h.congr (by rw [Store.leave_apply, if_neg hx])

theorem Cur.of_payload {d : EnumDef} {s : Store} {i : Nat} {v : VariantDef} {ps : List Val} (hv : d.variants[i]? = some v)
    (hp : PayloadOk v ps) : Cur d (some (.enum i ps)) (s.set .enum_value (.some (.val (.enum i ps)))) :=
  ⟨by simp, i, v, ps, rfl, hv, hp⟩

theorem Off.trans {xs : List Var} {s t u : Store} (h : Off xs s t) (h' : Off xs t u) : Off xs s u :=
  fun y hy => (h' y hy).trans (h y hy)

theorem Off.mono {xs ys : List Var} {s t : Store} (h : Off xs s t) (hs : ∀ x ∈ xs, x ∈ ys) : Off ys s t :=
  fun y hy => h y fun hm => hy (hs y hm)

/-- A turn of the loop. -/
def TurnE (d : EnumDef) (xs : List Var) (s : Store) : Option Val × Bool → Out → Store → Prop :=
  fun r o t => (match r.2 with | true => ∃ v, o = .val v | false => o = .brk) ∧ Cur d r.1 t ∧ Off (.enum_value :: xs) s t

theorem TurnE.leave {d : EnumDef} {xs : List Var} {s t : Store} {r : Option Val × Bool} {o : Out} (h : TurnE d xs s r o t)
    (hx : Var.enum_value ∉ xs) : TurnE d [] s r o (t.leave s xs) := by
  refine ⟨h.1, h.2.1.leave hx, fun y hy => ?_⟩
  rw [Store.leave_apply]
  split
  · rfl
  · exact h.2.2 y (by simp_all)

theorem TurnE.scope {d : EnumDef} {xs : List Var} {s s1 t : Store} {r : Option Val × Bool} {o : Out} (h : TurnE d [] s1 r o t)
    (h0 : Off (.enum_value :: xs) s s1) (hx : Var.enum_value ∉ xs) : TurnE d [] s r o (t.leave s xs) :=
  TurnE.leave ⟨h.1, h.2.1, h0.trans (h.2.2.mono (by simp))⟩ hx

theorem TurnE.from_ {d : EnumDef} {xs : List Var} {s s1 t : Store} {r : Option Val × Bool} {o : Out} (h : TurnE d [] s1 r o t)
    (h0 : Off (.enum_value :: xs) s s1) : TurnE d xs s r o t :=
  ⟨h.1, h.2.1, h0.trans (h.2.2.mono (by simp))⟩

section
variable {β γ : Type} {x : Exec Rd} {s : Store} {m : D β} {m' : β → D γ} {P : β → Out → Store → Prop} {Q : γ → Out → Store → Prop}
  {E : Store → Prop} {k : RV → Exec Rd}

/-- A statement that may break. -/
theorem Sim.bindBrk (h : Sim x s m P E)
    (hk : ∀ b o s', P b o s' → (∃ v, o = .val v ∧ Sim (k v) s' (m' b) Q E) ∨ (o = .brk ∧ ∃ c, m' b = M.pure c ∧ Q c .brk s')) :
    Sim (x.bind k) s (m >>= m') Q E := by
  intro rd hp
  have h1 := h rd hp
  show After Q E (M.bind m m' rd) _
  unfold M.bind Exec.bind
  rcases hm : m rd with ⟨r, rd'⟩
  rw [hm] at h1
  cases r with
  | ok b =>
    obtain ⟨hp', o, s1, e1, hP⟩ := h1
    rw [e1]
    rcases hk b o s1 hP with ⟨v, rfl, hv⟩ | ⟨rfl, c, hc, hq⟩
    · exact hv rd' hp'
    · dsimp only; rw [hc]; exact ⟨hp', _, _, rfl, hq⟩
  | err e => obtain ⟨hp', s1, e1, hE⟩ := h1; rw [e1]; exact ⟨hp', s1, rfl, hE⟩
  | panic e => obtain ⟨s1, e1⟩ := h1; rw [e1]; exact ⟨s1, rfl⟩
  | diverge =>
    rcases hx : x (rd, s) with ⟨o, t⟩
    rw [hx] at h1
    cases o <;> simp_all [Lost, After]

end

theorem Exec.bind_assoc {σ : Type} (x : Exec σ) (a b : RV → Exec σ) : (x.bind a).bind b = x.bind fun v => (a v).bind b := by
  funext s
  unfold Exec.bind
  rcases x s with ⟨o, t⟩
  cases o <;> rfl

section
variable (L : Lib) (g : Path → D Val) (fuel : Nat)

/-! ### Setting the value -/

theorem sim_set {d : EnumDef} {cur : Option Val} {s : Store} {i : Nat} {v : VariantDef} {t : FTy} {x : Val} (h : Cur d cur s)
    (hi : d.variants[i]? = some v) (hs : v.shape = .newtype t) (hx : s .value_ = .val x) :
    Sim (eval L (deOps L g) fuel (genSet i t)) s (M.ofExcept (setVariant i t x cur))
      (fun c o t => (∃ v, o = .val v) ∧ Cur d c t ∧ Off [.enum_value] s t) Any := by
  have hok : ∀ ps, Fn.apply L (.variantV i) ps = .ofOption ((ps.mapM RV.toVal).map fun vs => .val (.enum i vs)) := fun ps => by
    cases ps <;> rfl
  unfold genSet setVariant
  cases t with
  | opt t =>
    refine Sim.pure (o := .val .unit) (s' := s.set .enum_value (.some (.val (.enum i [.some x])))) (fun rd => ?_)
      ⟨⟨_, rfl⟩, Cur.of_payload hi (by simp [PayloadOk, hs]), Off.refl.set (by simp)⟩
    simp [fn, eval, Exs.ofList, evalArgs, Exec.bind, Exec.out, Exec.setVar, hx, hok, Fn.apply, RV.toVal, RV.scalar, Out.ofOption]
  | simple t =>
    refine Sim.pure (o := .val .unit) (s' := s.set .enum_value (.some (.val (.enum i [x])))) (fun rd => ?_)
      ⟨⟨_, rfl⟩, Cur.of_payload hi (by simp [PayloadOk, hs]), Off.refl.set (by simp)⟩
    simp [fn, eval, Exs.ofList, evalArgs, Exec.bind, Exec.out, Exec.setVar, hx, hok, Fn.apply, RV.toVal, RV.scalar, Out.ofOption]
  | struct t =>
    refine Sim.pure (o := .val .unit) (s' := s.set .enum_value (.some (.val (.enum i [x])))) (fun rd => ?_)
      ⟨⟨_, rfl⟩, Cur.of_payload hi (by simp [PayloadOk, hs]), Off.refl.set (by simp)⟩
    simp [fn, eval, Exs.ofList, evalArgs, Exec.bind, Exec.out, Exec.setVar, hx, hok, Fn.apply, RV.toVal, RV.scalar, Out.ofOption]
  | vec t =>
    cases cur with
    | none =>
      have h1 : s .enum_value = .none := h
      refine Sim.pure (o := .val .unit) (s' := s.set .enum_value (.some (.val (.enum i [.vec [x]])))) (fun rd => ?_)
        ⟨⟨_, rfl⟩, Cur.of_payload hi (by simp [PayloadOk, hs]), Off.refl.set (by simp)⟩
      simp [fn, mtch, eval, Exs.ofList, Arms.ofList, evalArgs, evalArms, Exec.bind, Exec.out, Exec.setVar, Exec.inScope, Pat.matches, Pat.vars,
        Store.setAll, h1, hx, hok, Fn.apply, RV.toVal, RV.scalar, Out.ofOption]
    | some y =>
      obtain ⟨h1, j, v', ps, rfl, h2, h3⟩ := h
      by_cases hj : j = i
      · subst hj
        rw [hi] at h2
        cases h2
        simp only [PayloadOk, hs] at h3
        obtain ⟨vs, rfl⟩ := h3
        simp only [if_true]
        refine Sim.pure (o := .val .unit) (s' := s.set .enum_value (.some (.val (.enum j [.vec (vs ++ [x])])))) (fun rd => ?_)
          ⟨⟨_, rfl⟩, Cur.of_payload hi (by simp [PayloadOk, hs]), Off.refl.set (by simp)⟩
        have hl : ((s.set .v (.val (.enum j [.vec vs]))).set .enum_value (.some (.val (.enum j [.vec (vs ++ [x])])))).leave s [.v] =
            s.set .enum_value (.some (.val (.enum j [.vec (vs ++ [x])]))) := by
          funext y
          simp only [Store.leave_apply, Store.set_apply, List.mem_singleton]
          by_cases hy : y = .v <;> simp [hy]
        simp [fn, mtch, eval, Exs.ofList, Arms.ofList, evalArgs, evalArms, Exec.bind, Exec.out, Exec.setVar, Exec.inScope, Pat.matches, Pat.vars,
          Store.setAll, h1, hx, RV.modAt, Mut.run, RV.scalar, hl]
      · have he : setVariant i (.vec t) x (some (.enum j ps)) = .error c!"Got sequence of different types" := by
          unfold setVariant
          dsimp only
          split
          · rename_i h; cases h; rw [if_neg hj]
          · rfl
          · rename_i h; cases h
        show Sim _ _ (M.ofExcept (setVariant i (.vec t) x (some (.enum j ps)))) _ _
        rw [he]
        refine Sim.throw (s' := s) (fun rd => ?_) trivial
        have hj' : ¬ i = j := fun h => hj h.symm
        have hl : (s.set .v (.val (.enum j ps))).leave s [.v] = s := set_leave ..
        simp [fn, strE, mtch, eval, Exs.ofList, Arms.ofList, evalArgs, evalArms, Exec.bind, Exec.out, Exec.val, Exec.setVar, Exec.inScope, Pat.matches, Pat.vars,
          Store.setAll, h1, hx, hj', Fn.apply, hl]

/-! ### Scalars -/

/-- `visitor.visit_…(arg)` -/
theorem sim_visitUnwrap {s : Store} {arg : Ex} {x : Str} {t : STy} {E : Store → Prop} (ha : Evals L g fuel arg s (.str x)) :
    Sim (eval L (deOps L g) fuel (callVisit (variantVisitor t) arg)) s (M.attempt (visitUnwrap L t x)) (IsRes .val (· = s)) E := by
  refine Fun.call (Fun.scope (F := (· = s.set .v (.str x))) ?_ (fun _ h => h ▸ set_leave ..))
  refine Fun.step (v := .unit) (s' := s.set .v (.str x)) (fun rd => ?_) ?_
  · simp only [eval, Exec.bind, ha rd, Exec.setVar]
  · unfold visitUnwrap
    cases hx : parseS L t x with
    | ok v =>
      refine Fun.ok (s' := s.set .v (.str x)) (fun rd => ?_) rfl
      simp [variantVisitor, fn, Exs.ofList, evalSeq, eval, evalArgs, Exec.bind, Exec.out, Exec.val, hx, Fn.apply, RV.unwrap]
    | error e =>
      refine Fun.panic (s' := s.set .v (.str x)) (fun rd => ?_)
      simp [variantVisitor, fn, Exs.ofList, evalSeq, eval, evalArgs, Exec.bind, Exec.out, Exec.val, hx, Fn.apply, RV.unwrap]

theorem fun_variantInner {t : STy} {s : Store} :
    Fun (eval L (deOps L g) fuel (blk [
      ifLet (.endE .wild) (.try_ (meth .peek)) (.ret (callVisit (variantVisitor t) (strE []))) skipE,
      ifLet (.ok (.chars (.bind .s))) (meth .next)
        (callVisit (variantVisitor t) (.var .s))
        (fn .err [fn .cat [strE c!"unable to parse content for ", strE c!"field_0"]])])) s (variantInner L t) .val (· = s) := by
  unfold variantInner
  refine Fun.scope (F := (· = s)) ?_ (fun _ h => h ▸ Store.leave_nil ..)
  have hrest : Fun (evalSeq L (deOps L g) fuel .unit (.ofList [ifLet (.ok (.chars (.bind .s))) (meth .next)
        (callVisit (variantVisitor t) (.var .s))
        (fn .err [fn .cat [strE c!"unable to parse content for ", strE c!"field_0"]])])) s
      (M.attempt nextEvent >>= fun r =>
        match r with
        | .ok (.chars s) => visitUnwrap L t s
        | _ => M.throw c!"unable to parse content for field_0") .val (· = s) := by
    have h0 : Fun (eval L (deOps L g) fuel (ifLet (.ok (.chars (.bind .s))) (meth .next)
        (callVisit (variantVisitor t) (.var .s))
        (fn .err [fn .cat [strE c!"unable to parse content for ", strE c!"field_0"]]))) s
      (M.attempt nextEvent >>= fun r =>
        match r with
        | .ok (.chars s) => visitUnwrap L t s
        | _ => M.throw c!"unable to parse content for field_0") .val (· = s) := by
      refine Fun.bind (sim_next L g fuel) ?_
      rintro r o s ⟨rfl, rfl⟩
      refine ⟨_, rfl, ?_⟩
      have other : Fun (evalArms L (deOps L g) fuel (.cons .wild (fn .err [fn .cat [strE c!"unable to parse content for ", strE c!"field_0"]]) .nil)
          (resRV .ev r)) s (M.throw c!"unable to parse content for field_0") RV.val (· = s) := by
        refine Fun.arm (bs := []) rfl (F := (· = s)) ?_ (fun _ h => h ▸ Store.leave_nil ..)
        refine Fun.err (s' := s) (fun rd => ?_) rfl
        rs_simp
      match r, other with
      | .ok (.chars x), _ =>
        refine Fun.arm (bs := [(.s, .str x)]) rfl (F := (· = s.set .s (.str x))) ?_ (fun _ h => h ▸ set_leave ..)
        rw [setAll_one]
        exact Fun.tail (sim_visitUnwrap L g fuel (E := Any) (Evals.var' (by simp)))
      | .error e, other => exact Fun.arm_ne rfl other
      | .ok .startDocument, other => exact Fun.arm_ne rfl other
      | .ok .endDocument, other => exact Fun.arm_ne rfl other
      | .ok (.pi ..), other => exact Fun.arm_ne rfl other
      | .ok (.endE ..), other => exact Fun.arm_ne rfl other
      | .ok (.start ..), other => exact Fun.arm_ne rfl other
      | .ok (.comment ..), other => exact Fun.arm_ne rfl other
      | .ok (.cdata ..), other => exact Fun.arm_ne rfl other
      | .ok (.ws ..), other => exact Fun.arm_ne rfl other
    refine Sim.congr h0 fun rd => ?_
    simp only [Exec.called, Exs.ofList, evalSeq, Exec.bind, Exec.val, Exec.out]
    rcases eval L (deOps L g) fuel _ (rd, s) with ⟨o, q⟩
    cases o <;> rfl
  have hb : evalSeq L (deOps L g) fuel .unit (.ofList [
      ifLet (.endE .wild) (.try_ (meth .peek)) (.ret (callVisit (variantVisitor t) (strE []))) skipE,
      ifLet (.ok (.chars (.bind .s))) (meth .next)
        (callVisit (variantVisitor t) (.var .s))
        (fn .err [fn .cat [strE c!"unable to parse content for ", strE c!"field_0"]])]) =
      (eval L (deOps L g) fuel (.try_ (meth .peek))).bind fun v =>
        (evalArms L (deOps L g) fuel (.ofList [(.endE .wild, .ret (callVisit (variantVisitor t) (strE []))), (.wild, skipE)]) v).bind fun v =>
          evalSeq L (deOps L g) fuel v (.ofList [ifLet (.ok (.chars (.bind .s))) (meth .next)
            (callVisit (variantVisitor t) (.var .s))
            (fn .err [fn .cat [strE c!"unable to parse content for ", strE c!"field_0"]])]) :=
    Exec.bind_assoc _ _ _
  rw [hb]
  refine Fun.bind (Sim.try_ (sim_peek L g fuel (E := Any)) fun _ h => h) ?_
  rintro e o s ⟨rfl, rfl⟩
  refine ⟨_, rfl, ?_⟩
  cases e with
  | endE n =>
    have h1 := Fun.ret (k := fun v => evalSeq L (deOps L g) fuel v (.ofList [ifLet (.ok (.chars (.bind .s))) (meth .next)
            (callVisit (variantVisitor t) (.var .s))
            (fn .err [fn .cat [strE c!"unable to parse content for ", strE c!"field_0"]])]))
      (sim_visitUnwrap L g fuel (t := t) (s := s) (arg := strE []) (x := []) (E := Any) Evals.lit)
    refine Sim.congr h1 fun rd => ?_
    simp only [Exec.called, Exec.bind, Arms.ofList, evalArms, Pat.matches, Exec.inScope, Pat.vars, Store.leave_nil, Store.setAll]
  | _ => exact Fun.step (v := .unit) (s' := s) (fun rd => by simp [Arms.ofList, evalArms, Pat.matches, Exec.inScope, Pat.vars, skipE, eval, Store.setAll, Exec.val, Exec.out]) hrest

/-! ### The arms -/

theorem attempt_match {α β : Type} (m : D α) (k : α → D β) :
    (M.attempt m >>= fun r => match r with | .ok x => k x | .error e => M.throw e) = m >>= k := by
  funext rd
  show M.bind (M.attempt m) _ rd = M.bind m k rd
  unfold M.bind M.attempt
  rcases m rd with ⟨r, rd'⟩
  cases r <;> rfl

theorem sim_variantArm {rec : Path → D Val} (hrec : ∀ p, Same (g p) (rec p)) {d : EnumDef} {cur : Option Val} {s : Store} {i : Nat}
    {v : VariantDef} {q : Pat × Ex} (h : Cur d cur s) (hi : d.variants[i]? = some v) (hv : VariantOk v) (hq : genVariant i v = some q) :
    Sim (eval L (deOps L g) fuel q.2) s (variantArm L rec i v cur) (TurnE d [] s) Any := by
  unfold genVariant at hq
  unfold variantArm
  cases hs : v.shape with
  | unit =>
    rw [hs] at hq
    cases hq
    refine Sim.pure (o := .brk) (s' := s.set .enum_value (.some (.val (.enum i [])))) (fun rd => ?_)
      ⟨rfl, Cur.of_payload hi (by simp [PayloadOk, hs]), Off.refl.set (by simp)⟩
    simp [blk, fn, eval, evalSeq, Exs.ofList, evalArgs, Exec.bind, Exec.out, Exec.setVar, Fn.apply, Out.ofOption, Exec.inScope, Exs.decls]
  | named fs => rw [hs] at hq; cases hq
  | newtype t =>
    rw [hs] at hq
    cases hq
    dsimp only
    rcases hv t hs with ⟨p, hp⟩ | ⟨u, hu⟩
    · rw [hp]
      dsimp only
      unfold genVariantStruct
      refine Sim.ok_of_eq ?_ (attempt_match (rec p) _)
      refine Sim.bind (sim_deserialize L g fuel p (hrec p)) ?_
      rintro r o s ⟨rfl, rfl⟩
      refine ⟨_, rfl, ?_⟩
      cases r with
      | ok x =>
        refine Sim.arm (bs := [(.value_, .val x)]) rfl (E := Any) (P := TurnE d [] (s.set .value_ (.val x))) ?_
          (fun _ _ _ h => h.scope (xs := [.value_]) (Off.refl.set (by simp)) (by simp)) (fun _ _ => trivial)
        rw [setAll_one]
        have hdec : (Exs.ofList [genSet i t, meth .next]).decls = [] := by
          unfold genSet; cases t <;> rfl
        refine Sim.block hdec (E := Any) (P := TurnE d [] (s.set .value_ (.val x))) ?_ (fun _ _ _ h => h.leave (by simp)) (fun _ _ => trivial)
        refine Sim.bind (sim_set L g fuel (h.set (by simp)) hi hs (by simp)) ?_
        rintro c o s1 ⟨⟨v', rfl⟩, h1, h2⟩
        refine ⟨_, rfl, ?_⟩
        refine Sim.bind (sim_next L g fuel) ?_
        rintro r o s1 ⟨rfl, rfl⟩
        exact ⟨_, rfl, Sim.pure (fun _ => rfl) ⟨⟨_, rfl⟩, h1, h2⟩⟩
      | error e =>
        refine Sim.arm_ne rfl (Sim.arm (bs := [(.msg, .str e)]) rfl (E := Any) (P := fun _ _ _ => False) ?_ (fun _ _ _ h => h.elim) (fun _ _ => trivial))
        refine Sim.throw (s' := s.set .msg (.str e)) (fun rd => ?_) trivial
        rs_simp
    · rw [hu]
      dsimp only
      unfold genVariantSimple
      refine Sim.block (xs := [.result]) rfl (E := Any) (P := TurnE d [.result] s) ?_ (fun _ _ _ h => h.leave (by simp)) (fun _ _ => trivial)
      refine Sim.bind (Sim.letE (sim_readInner L g fuel (E := Any) fun n => fun_variantInner L g fuel)) ?_
      rintro r o _ ⟨rfl, rfl⟩
      refine ⟨_, rfl, ?_⟩
      refine Sim.last (Sim.match_ Evals.var ?_)
      rw [Store.set_apply, if_pos rfl]
      have h1 : Cur d cur (s.set .result (resRV .val r)) := h.set (by simp)
      cases r with
      | ok x =>
        refine Sim.arm (bs := [(.value_, .val x)]) rfl (E := Any) (P := TurnE d [] ((s.set .result (.ok (.val x))).set .value_ (.val x))) ?_ ?_
          (fun _ _ => trivial)
        · rw [setAll_one]
          refine Sim.map (sim_set L g fuel (h1.set (by simp)) hi hs (by simp)) ?_
          rintro c o t ⟨h2, h3, h4⟩
          exact ⟨h2, h3, h4⟩
        · intro b o t h2
          exact (h2.scope (xs := [.value_]) (Off.refl.set (by simp)) (by simp)).from_ (Off.refl.set (by simp))
      | error e =>
        refine Sim.arm_ne rfl (Sim.arm (bs := []) rfl (P := TurnE d [.result] s) (E := Any) ?_ ?_ (fun _ _ => trivial))
        · exact Sim.skip_ ⟨⟨_, rfl⟩, h1, Off.refl.set (by simp)⟩
        · intro b o t h2
          simpa [Pat.vars] using h2

/-- The variant has an arm, and this is its pattern. -/
def hasArm (key : Str) (v : VariantDef) : Bool :=
  (match v.shape with | .named _ => false | _ => true) && v.attrs.xmlElementName v.ident == key

theorem findVariant_eq (key : Str) (vs : List VariantDef) : findVariant key vs = vs.findIdx? (hasArm key) := rfl

theorem arms_variant (key : Str) (tail : List (Pat × Ex)) : ∀ (vs : List VariantDef) (n : Nat),
    match findVariant key vs with
    | some i => ∃ v q, vs[i]? = some v ∧ genVariant (n + i) v = some q ∧
        ∀ s, evalArms L (deOps L g) fuel (.ofList (genMatchFrom n vs ++ tail)) (.str key) s = eval L (deOps L g) fuel q.2 s
    | none => evalArms L (deOps L g) fuel (.ofList (genMatchFrom n vs ++ tail)) (.str key) =
        evalArms L (deOps L g) fuel (.ofList tail) (.str key)
  | [], _ => rfl
  | v :: vs, n => by
    have ih := arms_variant key tail vs (n + 1)
    rw [findVariant_eq] at ih ⊢
    rw [List.findIdx?_cons]
    have hlater : evalArms L (deOps L g) fuel (.ofList (genMatchFrom n (v :: vs) ++ tail)) (.str key) =
        evalArms L (deOps L g) fuel (.ofList (genMatchFrom (n + 1) vs ++ tail)) (.str key) →
        match (vs.findIdx? (hasArm key)).map (· + 1) with
        | some i => ∃ v' q, (v :: vs)[i]? = some v' ∧ genVariant (n + i) v' = some q ∧
            ∀ s, evalArms L (deOps L g) fuel (.ofList (genMatchFrom n (v :: vs) ++ tail)) (.str key) s = eval L (deOps L g) fuel q.2 s
        | none => evalArms L (deOps L g) fuel (.ofList (genMatchFrom n (v :: vs) ++ tail)) (.str key) =
            evalArms L (deOps L g) fuel (.ofList tail) (.str key) := by
      intro he
      rw [he]
      revert ih
      cases List.findIdx? _ vs with
      | none => exact fun ih => ih
      | some i => exact fun ⟨v', q, h1, h2, h3⟩ => ⟨v', q, by simpa using h1, by rw [← h2]; congr 1; show n + (i + 1) = _; omega, h3⟩
    by_cases hk : hasArm key v = true
    · rw [if_pos hk]
      simp only [hasArm, Bool.and_eq_true, beq_iff_eq] at hk
      have hg : ∃ q, genVariant n v = some q ∧ q.1 = .str (v.attrs.xmlElementName v.ident) := by
        unfold genVariant
        cases hs : v.shape with
        | named fs => rw [hs] at hk; cases hk.1
        | unit => exact ⟨_, rfl, rfl⟩
        | newtype t => exact ⟨_, rfl, rfl⟩
      obtain ⟨q, h1, h2⟩ := hg
      refine ⟨v, q, rfl, h1, fun s => ?_⟩
      simp only [genMatchFrom, h1, Option.toList, List.cons_append, List.nil_append, Arms.ofList, evalArms, h2, hk.2, Pat.matches, if_true,
        Exec.inScope, Pat.vars, Store.setAll, Store.leave_nil]
    · rw [if_neg hk]
      have he : evalArms L (deOps L g) fuel (.ofList (genMatchFrom n (v :: vs) ++ tail)) (.str key) =
          evalArms L (deOps L g) fuel (.ofList (genMatchFrom (n + 1) vs ++ tail)) (.str key) := by
        cases hg : genVariant n v with
        | none => simp only [genMatchFrom, hg, Option.toList, List.nil_append]
        | some q =>
          have h2 : q.1 = .str (v.attrs.xmlElementName v.ident) ∧ v.attrs.xmlElementName v.ident ≠ key := by
            unfold genVariant at hg
            cases hs : v.shape with
            | named fs => rw [hs] at hg; cases hg
            | unit => rw [hs] at hg; cases hg; exact ⟨rfl, by simpa [hasArm, hs] using hk⟩
            | newtype t => rw [hs] at hg; cases hg; exact ⟨rfl, by simpa [hasArm, hs] using hk⟩
          simp only [genMatchFrom, hg, Option.toList, List.cons_append, List.nil_append, Arms.ofList, evalArms, h2.1, Pat.matches, h2.2, if_false]
      exact hlater he

theorem sim_enumMatch {rec : Path → D Val} (hrec : ∀ p, Same (g p) (rec p)) {d : EnumDef} (hd : EnumOk d) {cur : Option Val} {s : Store}
    {key : Str} {dfl : Ex} {m : D (Option Val × Bool)} (h : Cur d cur s) (hm : Sim (eval L (deOps L g) fuel dfl) s m (TurnE d [] s) Any) :
    Sim (evalArms L (deOps L g) fuel (.ofList (genMatchFrom 0 d.variants ++ [(.wild, dfl)])) (.str key)) s (enumMatch L rec d key cur m)
      (TurnE d [] s) Any := by
  have h1 := arms_variant L g fuel key [(.wild, dfl)] d.variants 0
  unfold enumMatch
  cases hf : findVariant key d.variants with
  | some i =>
    rw [hf] at h1
    obtain ⟨v, q, h2, h3, h4⟩ := h1
    rw [Nat.zero_add] at h3
    dsimp only
    rw [h2]
    refine Sim.congr (sim_variantArm L g fuel hrec h h2 (hd v (List.mem_of_getElem? h2)) h3) fun rd => h4 _
  | none =>
    rw [hf] at h1
    refine Sim.congr ?_ fun rd => congrFun h1 (rd, s)
    exact Sim.arm (bs := []) rfl hm (fun _ _ _ h => by simpa [Pat.vars] using h) (fun _ _ => trivial)

/-! ### The loop -/

theorem sim_elementName {d : EnumDef} {s : Store} {e : REv} {name : Name} {attrs : List Attr} (he : s .event = .ev e)
    (hn : s .name = .name name) (ha : s .attributes = .vec (attrs.map .attr)) :
    Sim (eval L (deOps L g) fuel (genElementName d)) s (M.ofExcept (enumKey L d e name attrs)) (fun k o t => o = .val (.str k) ∧ t = s) Any := by
  unfold genElementName enumKey
  cases d.attrs.tag with
  | none => exact Sim.pure (Evals.locName (Evals.var' hn)) ⟨rfl, rfl⟩
  | some tag =>
    dsimp only
    have hfind : ∀ q : RV → Bool, (∀ a, q (.attr a) = (a.name.loc == tag)) →
        (attrs.map RV.attr).find? q = (attrs.find? fun a => a.name.loc == tag).map .attr := by
      intro q hq
      rw [List.find?_map]
      congr 2
      funext a
      exact hq a
    cases hf : attrs.find? (fun a => a.name.loc == tag) with
    | some a =>
      have h1 : Evals L g fuel (fn (.findAttr tag) [.var .attributes]) s (.some (.attr a)) :=
        Evals.app1 (Evals.var' ha) (by simp only [Fn.apply]; rw [hfind _ (fun _ => rfl), hf]; rfl)
      refine Sim.pure (Evals.app1 (x := .attr a) (fun rd => ?_) rfl) ⟨rfl, rfl⟩
      simp only [eval, Exec.bind, h1 rd, Exec.val, Exec.out]
    | none =>
      have h1 : Evals L g fuel (fn (.findAttr tag) [.var .attributes]) s .none :=
        Evals.app1 (Evals.var' ha) (by simp only [Fn.apply]; rw [hfind _ (fun _ => rfl), hf]; rfl)
      have h2 : Evals L g fuel (fn .cat [strE c!"Expected enum tagged with ", strE tag, strE c!", found ", fn .debug [.var .event]]) s
          (.str (c!"Expected enum tagged with " ++ tag ++ c!", found " ++ L.dbgEv e)) := by
        intro rd
        simp [fn, strE, eval, Exs.ofList, evalArgs, Exec.bind, Exec.out, Exec.val, Fn.apply, he, catAll, Out.ofOption]
      refine Sim.throw (s' := s) (fun rd => ?_) trivial
      have h3 : eval L (deOps L g) fuel (.try_ (.okOrElse (fn (.findAttr tag) [.var .attributes])
          (fn .cat [strE c!"Expected enum tagged with ", strE tag, strE c!", found ", fn .debug [.var .event]]))) (rd, s) =
          (.ret (.err (.str (c!"Expected enum tagged with " ++ tag ++ c!", found " ++ L.dbgEv e))), (rd, s)) := by
        simp only [eval, Exec.bind, h1 rd, h2 rd, Exec.val, Exec.out]
      generalize hX : Ex.try_ _ = X at h3
      simp only [fn, Exs.ofList, eval, evalArgs, Exec.bind] at h3 ⊢
      rw [h3]

theorem sim_next_ {d : EnumDef} {cur : Option Val} {s : Store} (h : Cur d cur s) :
    Sim (eval L (deOps L g) fuel (blk [meth .next])) s (M.attempt nextEvent >>= fun _ => M.pure (cur, true)) (TurnE d [] s) Any := by
  refine Sim.block (xs := []) rfl (E := Any) (P := TurnE d [] s) ?_ (fun _ _ _ h => h.leave (by simp)) (fun _ _ => trivial)
  refine Sim.bind (sim_next L g fuel) ?_
  rintro r o s ⟨rfl, rfl⟩
  exact ⟨_, rfl, Sim.pure (fun _ => rfl) ⟨⟨_, rfl⟩, h, Off.refl⟩⟩

theorem sim_enumStart {rec : Path → D Val} (hrec : ∀ p, Same (g p) (rec p)) {d : EnumDef} (hd : EnumOk d) {cur : Option Val} {s : Store}
    {e : REv} {name : Name} {attrs : List Attr} (h : Cur d cur s) (he : s .event = .ev e) (hn : s .name = .name name)
    (ha : s .attributes = .vec (attrs.map .attr)) :
    Sim (eval L (deOps L g) fuel (blk [
        mtch (genElementName d) (genMatchFrom 0 d.variants ++ [(.wild, blk [meth .next])]),
        ifLet (.chars (.bind .content)) (.try_ (meth .peek))
          (mtch (.var .content) (genMatchFrom 0 d.variants ++ [(.wild, skipE)])) skipE])) s
      (M.ofExcept (enumKey L d e name attrs) >>= fun key =>
      enumMatch L rec d key cur (M.attempt nextEvent >>= fun _ => M.pure (cur, true))
        >>= fun (cur', cont) =>
      if cont then
        peek >>= fun e' =>
          match e' with
          | .chars content => enumMatch L rec d content cur' (M.pure (cur', true))
          | _ => M.pure (cur', true)
      else M.pure (cur', false)) (TurnE d [] s) Any := by
  refine Sim.block (xs := []) rfl (E := Any) (P := TurnE d [] s) ?_ (fun _ _ _ h => h.leave (by simp)) (fun _ _ => trivial)
  have h1 : Sim (eval L (deOps L g) fuel (mtch (genElementName d) (genMatchFrom 0 d.variants ++ [(.wild, blk [meth .next])]))) s
      (M.ofExcept (enumKey L d e name attrs) >>= fun key =>
        enumMatch L rec d key cur (M.attempt nextEvent >>= fun _ => M.pure (cur, true))) (TurnE d [] s) Any := by
    refine Sim.bind (sim_elementName L g fuel he hn ha) ?_
    rintro k o s ⟨rfl, rfl⟩
    exact ⟨_, rfl, sim_enumMatch L g fuel hrec hd h (sim_next_ L g fuel h)⟩
  rw [← bindAssoc]
  refine Sim.bindBrk h1 ?_
  rintro ⟨cur', cont⟩ o t ⟨h2, h3, h4⟩
  cases cont with
  | false =>
    have h2 : o = .brk := h2
    subst h2
    exact .inr ⟨rfl, _, rfl, rfl, h3, h4⟩
  | true =>
    obtain ⟨v, rfl⟩ := h2
    refine .inl ⟨v, rfl, ?_⟩
    dsimp only
    refine Sim.last (Sim.bind (Sim.try_ (sim_peek L g fuel (E := Any))) ?_)
    rintro e' o t ⟨rfl, rfl⟩
    refine ⟨_, rfl, ?_⟩
    have other : Sim (evalArms L (deOps L g) fuel (.cons .wild skipE .nil) (.ev e')) t (M.pure (cur', true)) (TurnE d [] s) Any :=
      Sim.arm (bs := []) rfl (E := Any) (P := TurnE d [] s) (Sim.skip_ ⟨⟨_, rfl⟩, h3, h4⟩) (fun _ _ _ h => by simpa [Pat.vars] using h) (fun _ _ => trivial)
    cases e' with
    | chars x =>
      have h5 := sim_enumMatch L g fuel hrec hd (s := t.set .content (.str x)) (key := x) (dfl := skipE) (h3.set (by simp))
        (Sim.skip_ (b := (cur', true)) ⟨⟨_, rfl⟩, h3.set (by simp), Off.refl⟩)
      refine Sim.arm (bs := [(.content, .str x)]) rfl (E := Any) (Sim.match_ (Evals.var' (v := .str x) (by simp [setAll_one])) h5) ?_ (fun _ _ => trivial)
      intro b o t' h6
      have h7 := h6.scope (xs := [.content]) (s := t) (Off.refl.set (by simp)) (by simp)
      exact ⟨h7.1, h7.2.1, h4.trans h7.2.2⟩
    | _ => exact Sim.arm_ne rfl other

theorem sim_enumEnd {d : EnumDef} {cur : Option Val} {s : Store} {name : Name} {named : Str} {sd : Nat} (h : Cur d cur s)
    (hn : s .name = .name name) (hne : s .named_element = .str named) (hsd : s .start_depth = .int sd) :
    Sim (eval L (deOps L g) fuel (blk [
        .ite (andE (fn .eq [fn .locName [.var .name], .var .named_element])
            (fn .eq [meth .depth, fn .add [.var .start_depth, intE 1]])) .brk skipE,
        meth .next])) s
      (M.get >>= fun rd =>
      if name.loc = named ∧ rd.depth = sd + 1 then M.pure (cur, false)
      else M.attempt nextEvent >>= fun _ => M.pure (cur, true)) (TurnE d [] s) Any := by
  refine Sim.block (xs := []) rfl (E := Any) (P := TurnE d [] s) ?_ (fun _ _ _ h => h.leave (by simp)) (fun _ _ => trivial)
  refine Sim.get fun rd hp => ?_
  have hc := eval_endCond L g fuel hn hne hsd rd
  by_cases h0 : name.loc = named ∧ rd.depth = sd + 1
  · rw [if_pos h0]
    rw [decide_eq_true h0] at hc
    refine ⟨hp, .brk, s, ?_, rfl, h, Off.refl⟩
    simp only [Exs.ofList, evalSeq, Exec.bind, eval, hc, Exec.out]
  · rw [if_neg h0]
    rw [decide_eq_false h0] at hc
    have h1 : Sim (evalSeq L (deOps L g) fuel .unit (.ofList [meth .next])) s (M.attempt nextEvent >>= fun _ => M.pure (cur, true)) (TurnE d [] s) Any := by
      refine Sim.bind (sim_next L g fuel) ?_
      rintro r o s ⟨rfl, rfl⟩
      exact ⟨_, rfl, Sim.pure (fun _ => rfl) ⟨⟨_, rfl⟩, h, Off.refl⟩⟩
    refine (h1 rd hp).cast ?_
    simp only [Exs.ofList, evalSeq, Exec.bind, eval, hc, skipE, Exec.val, Exec.out]

theorem sim_enumStep {rec : Path → D Val} (hrec : ∀ p, Same (g p) (rec p)) {d : EnumDef} (hd : EnumOk d) {cur : Option Val} {s : Store}
    {named : Str} {sd : Nat} (h : Cur d cur s) (hne : s .named_element = .str named) (hsd : s .start_depth = .int sd) :
    Sim (eval L (deOps L g) fuel (genEnumStep d)) s (enumStep L rec d named sd cur) (TurnE d [] s) Any := by
  unfold genEnumStep enumStep
  refine Sim.block (xs := [.event]) rfl (E := Any) (P := TurnE d [.event] s) ?_ (fun _ _ _ h => h.leave (by simp)) (fun _ _ => trivial)
  refine Sim.bind (Sim.letE (Sim.try_ (sim_peek L g fuel (E := Any)))) ?_
  rintro e o _ ⟨rfl, rfl⟩
  refine ⟨_, rfl, Sim.last (Sim.match_ (Evals.var' (v := .ev e) (by simp)) ?_)⟩
  generalize hs1 : s.set .event (.ev e) = s1
  have h1 : Cur d cur s1 := hs1 ▸ h.set (by simp)
  have hne1 : s1 .named_element = .str named := by rw [← hs1]; simpa using hne
  have hsd1 : s1 .start_depth = .int sd := by rw [← hs1]; simpa using hsd
  have hev1 : s1 .event = .ev e := by rw [← hs1]; simp
  have hfr : Off [.enum_value, .event] s s1 := hs1 ▸ Off.refl.set (by simp)
  have other : Sim (evalArms L (deOps L g) fuel (.cons (.bind .event) (.ret (fn .err [fn .cat [strE c!"unknown event ", fn .debug [.var .event]]])) .nil) (.ev e)) s1
      (M.throw (c!"unknown event " ++ L.dbgEv e)) (TurnE d [.event] s) Any := by
    refine Sim.arm (bs := [(.event, .ev e)]) rfl (E := Any) (P := fun _ _ _ => False) ?_ (fun _ _ _ h => h.elim) (fun _ _ => trivial)
    refine Sim.throw (s' := s1.set .event (.ev e)) (fun rd => ?_) trivial
    simp [setAll_one, fn, strE, eval, Exs.ofList, evalArgs, Exec.bind, Exec.val, Exec.out, Fn.apply, Out.ofOption, catAll]
  cases e with
  | start name attrs nss =>
    refine Sim.arm (bs := [(.name, .name name), (.attributes, .vec (attrs.map .attr))]) rfl (E := Any)
      (P := TurnE d [] ((s1.set .name (.name name)).set .attributes (.vec (attrs.map .attr)))) ?_ ?_ (fun _ _ => trivial)
    · exact sim_enumStart L g fuel (s := (s1.set .name (.name name)).set .attributes (.vec (attrs.map .attr))) (name := name) (attrs := attrs)
        hrec hd ((h1.set (by simp)).set (by simp)) (by simpa using hev1) (by simp) (by simp)
    · intro b o t h2
      exact (h2.scope (xs := [.name, .attributes]) ((Off.refl.set (by simp)).set (by simp)) (by simp)).from_ hfr
  | endE name =>
    refine Sim.arm_ne rfl (Sim.arm (bs := [(.name, .name name)]) rfl (E := Any) (P := TurnE d [] (s1.set .name (.name name))) ?_ ?_
      (fun _ _ => trivial))
    · exact sim_enumEnd L g fuel (h1.set (by simp)) (by simp [setAll_one]) (by simpa [setAll_one] using hne1) (by simpa [setAll_one] using hsd1)
    · intro b o t h2
      exact (h2.scope (xs := [.name]) (Off.refl.set (by simp)) (by simp)).from_ hfr
  | chars x =>
    refine Sim.arm_ne rfl (Sim.arm_ne rfl (Sim.arm (bs := [(.text_content, .str x)]) rfl (E := Any)
      (P := TurnE d [] (s1.set .text_content (.str x))) ?_ ?_ (fun _ _ => trivial)))
    · exact sim_next_ L g fuel (h1.set (by simp))
    · intro b o t h2
      exact (h2.scope (xs := [.text_content]) (Off.refl.set (by simp)) (by simp)).from_ hfr
  | endDocument =>
    refine Sim.arm_ne rfl (Sim.arm_ne rfl (Sim.arm_ne rfl (Sim.arm (bs := []) rfl (E := Any) (P := TurnE d [.event] s) ?_
      (fun _ _ _ h => by simpa [Pat.vars] using h) (fun _ _ => trivial))))
    refine Sim.block (xs := []) rfl (E := Any) (P := TurnE d [.event] s) ?_ (fun _ _ _ h => by simpa using h) (fun _ _ => trivial)
    cases hfl : d.attrs.flatten with
    | true =>
      refine Sim.pure (o := .brk) (s' := s1) (fun rd => ?_) ⟨rfl, h1, hfr⟩
      simp [Exs.ofList, evalSeq, eval, Exec.bind, Exec.val, Exec.out, setAll_nil]
    | false =>
      refine Sim.throw (s' := s1) (fun rd => ?_) trivial
      simp [Exs.ofList, evalSeq, eval, evalArgs, fn, strE, skipE, Fn.apply, Exec.bind, Exec.val, Exec.out, setAll_nil]
  | startDocument => exact Sim.arm_ne rfl (Sim.arm_ne rfl (Sim.arm_ne rfl (Sim.arm_ne rfl other)))
  | pi a b => exact Sim.arm_ne rfl (Sim.arm_ne rfl (Sim.arm_ne rfl (Sim.arm_ne rfl other)))
  | cdata a => exact Sim.arm_ne rfl (Sim.arm_ne rfl (Sim.arm_ne rfl (Sim.arm_ne rfl other)))
  | comment a => exact Sim.arm_ne rfl (Sim.arm_ne rfl (Sim.arm_ne rfl (Sim.arm_ne rfl other)))
  | ws a => exact Sim.arm_ne rfl (Sim.arm_ne rfl (Sim.arm_ne rfl (Sim.arm_ne rfl other)))

theorem sim_enumLoop {rec : Path → D Val} (hrec : ∀ p, Same (g p) (rec p)) {d : EnumDef} {named : Str} {sd : Nat} (hd : EnumOk d) :
    ∀ (n : Nat) (cur : Option Val) (s : Store), Cur d cur s → s .named_element = .str named → s .start_depth = .int sd →
    Sim (Exec.loopN (eval L (deOps L g) fuel (genEnumStep d)) n) s (enumLoop L rec d named sd n cur)
      (fun c o t => (∃ v, o = .val v) ∧ Cur d c t) Any
  | 0, _, _, _, _, _ => fun _ _ => True.intro
  | n + 1, cur, s, h, hne, hsd => by
    unfold enumLoop
    refine Sim.loop (sim_enumStep L g fuel hrec hd h hne hsd) ?_
    rintro ⟨cur', c⟩ o t ⟨h1, h2, h3⟩
    cases c with
    | true =>
      obtain ⟨v, rfl⟩ := h1
      exact .inl ⟨v, rfl, sim_enumLoop hrec hd n cur' t h2 ((h3 _ (by simp)).trans hne) ((h3 _ (by simp)).trans hsd)⟩
    | false =>
      simp only at h1
      subst h1
      exact .inr ⟨rfl, Sim.pure (fun _ => rfl) ⟨⟨_, rfl⟩, h2⟩⟩

/-! ### The whole function -/

theorem fun_enum {rec : Path → D Val} (hrec : ∀ p, Same (g p) (rec p)) {d : EnumDef} (hd : EnumOk d) (s : Store) :
    Fun (eval L (deOps L g) fuel (genEnum d)) s (enumDeser L rec fuel d) .val Any := by
  unfold genEnum
  refine Fun.scope (F := Any) ?_ (fun _ _ => trivial)
  have hm : enumDeser L rec fuel d = ((peek >>= fun e => M.pure (startInfo (d.attrs.xmlElementName d.name) e)) >>= fun i =>
      M.get >>= fun rd => enumBody L rec fuel d i rd.depth) := by
    rw [bindAssoc]
    rfl
  rw [hm]
  refine Fun.bind (sim_startInfo L g fuel) ?_
  rintro i o _ ⟨rfl, rfl⟩
  refine ⟨_, rfl, ?_⟩
  generalize hs1 : (s.set .named_element (.str i.1)).set .enum_namespace (optStr i.2) = s1
  have hne : s1 .named_element = .str i.1 := by rw [← hs1]; simp
  have hns : s1 .enum_namespace = optStr i.2 := by rw [← hs1]; simp
  intro rd hp
  show After _ _ (M.attempt (enumBody L rec fuel d i rd.depth) rd) _
  unfold enumBody
  have htail : Fun (evalSeq L (deOps L g) fuel .unit (.ofList [
      genNsMatching d.attrs.namespaces d.attrs.pfx (.var .enum_namespace) (.var .named_element),
      .letE .enum_value (.lit .none),
      .loop (genEnumStep d),
      fn .ok [.unwrapOrElse (.var .enum_value) (.lit (.val d.dflt))]])) (s1.set .start_depth (.int rd.depth))
      (M.ofExcept (nsMatching d.attrs.namespaces d.attrs.pfx i.2 i.1) >>= fun _ =>
        enumLoop L rec d i.1 rd.depth fuel none >>= fun cur => M.pure (cur.getD d.dflt)) .val Any := by
    refine Fun.bind ((sim_nsMatching L g fuel (s := s1.set .start_depth (.int rd.depth)) (nss := d.attrs.namespaces) (cfg := d.attrs.pfx)
        (nsE := .var .enum_namespace) (nameE := .var .named_element) (elemNs := i.2) (elemName := i.1)
        (Evals.var' (by simp [hns])) (fun rd a b => Evals.var' (by simp [hne]) rd)).conseq (fun _ _ _ h => h) (fun _ _ => trivial)) ?_
    rintro _ o _ ⟨rfl, rfl⟩
    refine ⟨_, rfl, ?_⟩
    refine Fun.step (v := .unit) (s' := (s1.set .start_depth (.int rd.depth)).set .enum_value .none) (fun _ => rfl) ?_
    refine Fun.bind (sim_enumLoop L g fuel hrec hd fuel none _ (show _ = _ by simp) (named := i.1) (sd := rd.depth) (by simp [hne]) (by simp)) ?_
    rintro cur o t ⟨⟨v, rfl⟩, h1⟩
    refine ⟨_, rfl, Fun.ok (s' := t) (fun rd => ?_) trivial⟩
    cases cur with
    | none =>
      have h1 : t .enum_value = .none := h1
      simp [fn, Exs.ofList, evalSeq, eval, evalArgs, Exec.bind, Exec.val, Exec.out, Fn.apply, h1]
    | some x =>
      have h1 : t .enum_value = .some (.val x) := h1.1
      simp [fn, Exs.ofList, evalSeq, eval, evalArgs, Exec.bind, Exec.val, Exec.out, Fn.apply, h1]
  refine (htail rd hp).cast ?_
  simp only [Exec.called]
  have he : evalSeq L (deOps L g) fuel .unit (.ofList [.letE .start_depth (meth .depth),
      genNsMatching d.attrs.namespaces d.attrs.pfx (.var .enum_namespace) (.var .named_element),
      .letE .enum_value (.lit .none),
      .loop (genEnumStep d),
      fn .ok [.unwrapOrElse (.var .enum_value) (.lit (.val d.dflt))]]) (rd, s1) =
      evalSeq L (deOps L g) fuel .unit (.ofList [
      genNsMatching d.attrs.namespaces d.attrs.pfx (.var .enum_namespace) (.var .named_element),
      .letE .enum_value (.lit .none),
      .loop (genEnumStep d),
      fn .ok [.unwrapOrElse (.var .enum_value) (.lit (.val d.dflt))]]) (rd, s1.set .start_depth (.int rd.depth)) := by
    show Exec.bind _ _ _ = _
    simp only [Exec.bind, eval, Evals.depth, Exec.setVar]
  rw [← he]

theorem same_enum {rec : Path → D Val} (hrec : ∀ p, Same (g p) (rec p)) {d : EnumDef} (hd : EnumOk d) :
    Same (runDe L g fuel (genEnum d)) (enumDeser L rec fuel d) :=
  Same.ofFun L g fuel (fun_enum L g fuel hrec hd _)

end

end Yaserde.Rs
