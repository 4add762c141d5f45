import Verif.Proofs.GenSerStruct
/-
The printed `#append_attributes` of a struct, in `serialize` as in `serialize_attributes`.
-/

set_option autoImplicit false

namespace Yaserde.Rs

/-- The variables that `#append_attributes` changes. -/
def appVars : List Var := [.struct_start_event, .yaserde_inner, .child_attributes, .child_attributes_namespace, .attributes, .namespace]

theorem Away.refl (xs : List Var) (s : Store) : Away xs s s := fun _ _ => rfl

theorem Away.trans {xs : List Var} {s s1 s2 : Store} (h : Away xs s s1) (h' : Away xs s1 s2) : Away xs s s2 :=
  fun y hy => (h' y hy).trans (h y hy)

theorem off_set {xs : List Var} {s : Store} {x : Var} {v : RV} (h : x ∈ xs) : Away xs s (s.set x v) := by
  intro y hy
  rw [set_ne]
  rintro rfl
  exact hy h

/-- The start event under construction, and what is kept for later. -/
structure App (s : Store) (n : Name) (nss : NsMap) (own child : List Attr) (ns : NsMap) : Prop where
  event : s .struct_start_event = .wev (.start n own nss)
  child : s .child_attributes = .vec (child.map .attr)
  childNs : s .child_attributes_namespace = .nss ns

/-- What one field contributes. -/
structure Delta where
  own : List Attr := []
  child : List Attr := []
  ns : Option NsMap := none

/-- … before what the others contribute. -/
def Delta.add (d : Delta) (rest : AttrAcc) : AttrAcc where
  own := d.own ++ rest.own
  child := d.child ++ rest.child
  childNs := match d.ns with
    | some ns => NsMap.extend (NsMap.extend [] ns) rest.childNs
    | none => rest.childNs

/-- An attribute, if the field's condition holds. -/
def ownDelta (root : Attrs) (f : FieldDef) (cond : Bool) (value : Str) : Delta :=
  { own := if cond then [⟨Name.ofStr (f.renamedLabel root), value⟩] else [] }

theorem ownDelta_add (root : Attrs) (f : FieldDef) (cond : Bool) (value : Str) (rest : AttrAcc) :
    (ownDelta root f cond value).add rest = addOwn root f cond value rest := by
  unfold ownDelta Delta.add addOwn
  cases cond <;> rfl

/-- `structAttrs` for one field. -/
def fieldAttrs (L : Lib) (env : Env) (root : Attrs) (self : Val) (f : FieldDef) (v : Val) : Res Delta :=
  if f.attrs.isAttr then
    match f.ty, v with
    | .simple _, v => .ok (ownDelta root f (attrCondition f self v) (showS L v))
    | .opt (.simple _), .some x => .ok (ownDelta root f (attrCondition f self (.some x)) (showS L x))
    | .opt (.struct p), .some x =>
      (contentOf L (serTy L env p x)).bind fun inner => .ok (ownDelta root f (attrCondition f self (.some x)) inner)
    | .opt _, .none => .ok {}
    | .struct p, x => (contentOf L (serTy L env p x)).bind fun inner => .ok (ownDelta root f (attrCondition f self x) inner)
    | .vec _, _ => .ok {}
    | _, _ => .panic c!"ill-typed"
  else if f.attrs.flatten then
    match f.ty, v with
    | .struct p, x => (attrsOf L env p x).bind fun (as, ns) => .ok { child := as, ns := some ns }
    | _, _ => .ok {}
  else .ok {}

theorem delta_empty (rest : AttrAcc) : ({} : Delta).add rest = rest := rfl

theorem res_bind_assoc {α β γ : Type} (r : Res α) (f : α → Res β) (g : β → Res γ) :
    (r.bind f).bind g = r.bind fun a => (f a).bind g := by
  cases r <;> rfl

theorem res_bind_ok {α : Type} (r : Res α) : (r.bind fun a => .ok a) = r := by cases r <;> rfl

theorem structAttrs_cons (L : Lib) (env : Env) (root : Attrs) (self : Val) (f : FieldDef) (fs : List FieldDef) (v : Val) (vs : List Val) :
    structAttrs L env root self (f :: fs) (v :: vs) =
      (fieldAttrs L env root self f v).bind fun d => (structAttrs L env root self fs vs).bind fun rest => .ok (d.add rest) := by
  rw [structAttrs.eq_def]
  unfold fieldAttrs
  dsimp only
  cases f.attrs.isAttr
  · cases f.attrs.flatten
    · simp only [Bool.false_eq_true, if_false, Res.bind, delta_empty]
      split <;> simp_all only
    · simp only [Bool.false_eq_true, if_false, if_true]
      cases f.ty with
      | struct p =>
        simp only
        cases attrsOf L env p v with
        | ok a => simp only [Res.bind, Delta.add, List.nil_append]
        | _ => rfl
      | _ =>
        simp only [Res.bind, delta_empty]
        split <;> simp_all only
  · simp only [if_true]
    cases f.ty with
    | simple a => simp only [Res.bind, ownDelta_add]
    | vec a =>
      simp only [Res.bind, delta_empty]
      split <;> simp_all only
    | struct p =>
      simp only
      cases contentOf L (serTy L env p v) <;> simp only [Res.bind, ownDelta_add]
    | opt a =>
      cases v with
      | none =>
        cases a <;>
        · simp only [Res.bind, delta_empty]
          split <;> simp_all only
      | some x =>
        cases a with
        | simple a => simp only [Res.bind, ownDelta_add]
        | struct p => simp only; cases contentOf L (serTy L env p x) <;> simp only [Res.bind, ownDelta_add]
        | _ => rfl
      | _ => cases a <;> rfl

theorem lift_bind {σ α β : Type} (r : Res α) (f : α → Res β) : (M.lift (r.bind f) : M σ β) = (M.lift r >>= fun a => M.lift (f a)) := by
  funext t
  cases r <;> rfl

section append
variable {σ : Type} {ops : Op → List RV → σ → Out × σ}
variable {L : Lib} {env : Env} {ser : Path → Val → S Unit} {attrs : Path → Val → List Attr → NsMap → Res (List Attr × NsMap)}
  {N : Nat} (hs : ∀ p v, HasTy env (.struct p) v → sizeOf v < N → ser p v = serTy L env p v)
  (ha : ∀ p v, HasTy env (.struct p) v → sizeOf v < N → attrs p v [] [] = attrsOf L env p v)
  (hto : ∀ p l t, ops (.toStringContent p) l t = (callOps L ser attrs (.toStringContent p) l, t))
  (hat : ∀ p l t, ops (.serializeAttributes p) l t = (callOps L ser attrs (.serializeAttributes p) l, t))
  {s : Store} {root : Attrs} {all : List Val} {i : Nat} {f : FieldDef} {v : Val}
  {n : Name} {nss : NsMap} {own child : List Attr} {ns : NsMap}

local notation "run" => evalSeq L ops 0
local notation "ev" => eval L ops 0
local notation "pe" => PE L ops 0

/-- The condition of `ser_wrap_default_attribute`. -/
theorem pe_attrCondition (hself : s .self = .val (.struct all)) (hi : all[i]? = some v) :
    pe (match genNeDefault f i with
        | some d => andE ((genNotSkipped f i).getD (.lit (.bool true))) d
        | none => (genNotSkipped f i).getD (.lit (.bool true))) s (.bool (attrCondition f (.struct all) v)) := by
  unfold genNeDefault genNotSkipped attrCondition
  cases f.skipIf with
  | some g =>
    cases f.dflt with
    | some d => exact (pe_notSkipped hself hi).andE (pe_neDefault hself hi)
    | none =>
      simp only [Bool.and_true]
      exact pe_notSkipped hself hi
  | none =>
    cases f.dflt with
    | some d => exact (PE.lit (.bool true)).andE (pe_neDefault hself hi)
    | none => exact PE.lit _

theorem PE.ite {c a b : Ex} {p : Bool} {r : RV} (hc : pe c s (.bool p)) (ha : p = true → pe a s r) (hb : p = false → pe b s r) :
    pe (.ite c a b) s r := by
  intro t
  cases p
  · simp only [eval, Exec.bind, hc t]; exact hb rfl t
  · simp only [eval, Exec.bind, hc t]; exact ha rfl t

theorem PE.blk1 {e : Ex} {r : RV} (h : pe e s r) : pe (Rs.blk [e]) s r := by
  intro t
  simp only [Rs.blk, eval, Exec.inScope, Exs.ofList, evalSeq, Exec.bind_val, h t]
  rw [leave_eq fun _ _ => rfl]

theorem PE.arm {e a : Ex} {p : Pat} {x : Var} {v r w : RV} {as : List (Pat × Ex)} (he : pe e s v)
    (hp : p.matches v = some [(x, r)]) (hx : p.vars = [x]) (h : pe a (s.set x r) w) : pe (mtch e ((p, a) :: as)) s w := by
  intro t
  simp only [mtch, Arms.ofList, eval, Exec.bind, he t, evalArms, hp, hx, Exec.inScope, Store.setAll, h t]
  rw [leave_eq (s := s)]
  intro y hy
  simp only [List.mem_singleton] at hy
  exact set_ne hy

theorem PE.arm0 {e a : Ex} {p : Pat} {v w : RV} {as : List (Pat × Ex)} (he : pe e s v)
    (hp : p.matches v = some []) (hx : p.vars = []) (h : pe a s w) : pe (mtch e ((p, a) :: as)) s w := by
  intro t
  simp only [mtch, Arms.ofList, eval, Exec.bind, he t, evalArms, hp, hx, Exec.inScope, Store.setAll, h t, leave_nil]

theorem PE.arm2 {e a b : Ex} {p q : Pat} {x : Var} {v r w : RV} {as : List (Pat × Ex)} (he : pe e s v) (hq : q.matches v = none)
    (hp : p.matches v = some [(x, r)]) (hx : p.vars = [x]) (h : pe a (s.set x r) w) : pe (mtch e ((q, b) :: (p, a) :: as)) s w := by
  intro t
  simp only [mtch, Arms.ofList, eval, Exec.bind, he t, evalArms, hp, hx, hq, Exec.inScope, Store.setAll, h t]
  rw [leave_eq (s := s)]
  intro y hy
  simp only [List.mem_singleton] at hy
  exact set_ne hy

theorem PE.ifNot {e a b : Ex} {p : Pat} {v w : RV} (he : pe e s v) (hp : p.matches v = none) (h : pe b s w) :
    pe (ifLet p e a b) s w := by
  intro t
  simp only [ifLet, mtch, Arms.ofList, eval, Exec.bind, he t, evalArms, hp, Pat.matches, Pat.vars, Exec.inScope, Store.setAll, h t, leave_nil]

theorem app_set {x : Var} {r : RV} (h : App s n nss own child ns) (hx : x ∉ [Var.struct_start_event, .child_attributes, .child_attributes_namespace]) :
    App (s.set x r) n nss own child ns := by
  simp only [List.mem_cons, List.not_mem_nil, or_false, not_or] at hx
  exact ⟨(set_ne (Ne.symm hx.1)).trans h.event, (set_ne (Ne.symm hx.2.1)).trans h.child, (set_ne (Ne.symm hx.2.2)).trans h.childNs⟩

theorem app_event {v : RV} {own' : List Attr} (h : App s n nss own child ns) (hv : v = .wev (.start n own' nss)) :
    App (s.set .struct_start_event v) n nss own' child ns :=
  ⟨by rw [set_eq, hv], (set_ne (by decide)).trans h.child, (set_ne (by decide)).trans h.childNs⟩

/-- `let struct_start_event = if … { setter } else { struct_start_event };` -/
theorem does_setter {setter : Ex} {w : RV} {d : List Attr} {s1 : Store} (hself : s .self = .val (.struct all)) (hi : all[i]? = some v)
    (happ : App s n nss own child ns) (hoff : Away appVars s1 s) (hset : pe setter s (.wev (.start n (own ++ d) nss))) :
    Does (run w (.ofList [.letE .struct_start_event
      (.ite
        (match genNeDefault f i with
          | some d => andE ((genNotSkipped f i).getD (.lit (.bool true))) d
          | none => (genNotSkipped f i).getD (.lit (.bool true)))
        setter (.var .struct_start_event))])) s
      (M.pure (if attrCondition f (.struct all) v then d else []))
      fun d _ s' => App s' n nss (own ++ d) child ns ∧ Away appVars s1 s' := by
  refine Does.letE (v := .wev (.start n (own ++ if attrCondition f (.struct all) v then d else []) nss)) ?_ ?_
  · refine PE.ite (pe_attrCondition hself hi) (fun h => ?_) fun h => ?_
    · rw [if_pos h]; exact hset
    · rw [if_neg (by simp [h]), List.append_nil]; exact PE.var happ.event
  · exact Does.nil ⟨app_event happ rfl, hoff.trans (off_set (by decide))⟩

/-- The same with `let yaserde_inner = …;` before it. -/
theorem does_wrap {b setter : Ex} {w : RV} {rb : Res Str} {d : Str → List Attr} (hself : s .self = .val (.struct all))
    (hi : all[i]? = some v) (happ : App s n nss own child ns)
    (hb : Does (ev b) s (M.lift rb) fun x r s' => r = .str x ∧ s' = s)
    (hset : ∀ x, pe setter (s.set .yaserde_inner (.str x)) (.wev (.start n (own ++ d x) nss))) :
    Does (run w (.ofList (genWrapDefault f i (some b) setter))) s
      (M.lift (rb.bind fun x => .ok (if attrCondition f (.struct all) v then d x else [])))
      fun d _ s' => App s' n nss (own ++ d) child ns ∧ Away appVars s s' := by
  rw [lift_bind]
  unfold genWrapDefault
  simp only [Option.map_some, Option.toList_some, List.cons_append, List.nil_append]
  refine Does.cons (P := fun x _ s' => s' = s.set .yaserde_inner (.str x)) ?_ ?_
  · simp only [eval]
    have := hb.bind (k := fun v => Exec.setVar .yaserde_inner v) (m' := fun x => M.pure x)
      (Q := fun x _ s' => s' = s.set .yaserde_inner (.str x)) (by
        rintro x r s' ⟨rfl, rfl⟩
        exact Does.pure (fun _ => rfl) rfl)
    refine Eq.mp ?_ this
    congr 1
    funext t
    show M.bind _ _ t = _
    unfold M.bind M.lift
    cases rb <;> rfl
  · rintro x w' s' rfl
    exact does_setter (by simpa [Store.set] using hself) hi (app_set happ (by decide)) (off_set (by decide)) (hset x)

theorem pe_attr {label x : Str} {e : Ex} {r : RV} (happ : App s n nss own child ns) (he : pe e s r) (hr : r.text = some x) :
    pe (attrE label e) s (.wev (.start n (own ++ [⟨Name.ofStr label, x⟩]) nss)) :=
  (PE.var happ.event).fn3 (PE.lit _) he (by simp [Fn.apply, hr, Out.ofOption])

/-- `if let Some(y) = self.x { … } else { struct_start_event }` -/
theorem pe_setNone {y : Var} {a : Ex} (hself : s .self = .val (.struct all)) (hi : all[i]? = some .none)
    (happ : App s n nss own child ns) :
    pe (Rs.blk [ifLet (.some (.bind y)) (selfE i) a (.var .struct_start_event)]) s (.wev (.start n (own ++ []) nss)) := by
  refine PE.blk1 (PE.ifNot (pe_self hself hi) rfl ?_)
  rw [List.append_nil]
  exact PE.var happ.event

theorem pe_setSome {label c : Str} {x : Val} {y : Var} {e : Ex} {r : RV} (hself : s .self = .val (.struct all))
    (hi : all[i]? = some (.some x)) (happ : App s n nss own child ns)
    (hy : y ∉ [Var.struct_start_event, .child_attributes, .child_attributes_namespace]) (he : pe e (s.set y (.val x)) r)
    (hr : r.text = some c) :
    pe (Rs.blk [ifLet (.some (.bind y)) (selfE i) (attrE label e) (.var .struct_start_event)]) s
      (.wev (.start n (own ++ [⟨Name.ofStr label, c⟩]) nss)) :=
  PE.blk1 (PE.arm (pe_self hself hi) rfl rfl (pe_attr (app_set happ hy) he hr))

theorem does_pe {β : Type} {e : Ex} {r : RV} {b : β} {Q : β → RV → Store → Prop} (h : pe e s r) (hQ : Q b r s) :
    Does (ev e) s (M.pure b) Q := Does.pure h hQ

theorem does_tryRes {α : Type} {r : Res α} {inj : α → RV} {e : Ex} (h : ∀ t, ev e (t, s) = (.ofRes (r.bind fun a => .ok (inj a)), (t, s))) :
    Does (ev (.try_ e)) s (M.lift r) fun a v s' => v = inj a ∧ s' = s := by
  intro t
  simp only [eval, Exec.bind, h t, M.lift]
  cases r with
  | ok u => exact ⟨inj u, s, rfl, rfl, rfl⟩
  | err e => exact ⟨s, rfl⟩
  | panic e => exact ⟨s, rfl⟩
  | diverge => exact ⟨s, rfl⟩

include hto in
theorem ev_content {p : Path} {e : Ex} {x : Val} (he : pe e s (.val x)) (t : σ) :
    ev (meth (.toStringContent p) [e]) (t, s) = (.ofRes ((contentOf L (ser p x)).bind fun a => .ok (.str a)), (t, s)) := by
  simp only [meth, Exs.ofList, eval, evalArgs, Exec.bind, he t, List.nil_append, runOp, hto, callOps]

include hat in
theorem ev_attrs {p : Path} {e : Ex} {x : Val} (he : pe e s (.val x)) (t : σ) :
    ev (meth (.serializeAttributes p) [e, .lit (.vec []), .lit (.nss [])]) (t, s) =
      (.ofRes ((attrs p x [] []).bind fun r => .ok (.pair (.vec (r.1.map .attr)) (.nss r.2))), (t, s)) := by
  simp only [meth, Exs.ofList, eval, evalArgs, Exec.bind, he t, List.nil_append, runOp, hat, callOps, Exec.val, Exec.out,
    List.cons_append, List.mapM_nil]
  rfl

theorem lift_ok_pure {α : Type} (a : α) : (M.lift (.ok a) : M σ α) = M.pure a := rfl

/-- The post-condition for a field. -/
def AppPost (s : Store) (n : Name) (nss : NsMap) (own child : List Attr) (ns : NsMap) (d : Delta) (s' : Store) : Prop :=
  App s' n nss (own ++ d.own) (child ++ d.child) (ns.extend (d.ns.getD [])) ∧ Away appVars s s'

theorem appPost_own {d : List Attr} {s' : Store} (h : App s' n nss (own ++ d) child ns ∧ Away appVars s s') :
    AppPost s n nss own child ns { own := d } s' := by
  refine ⟨?_, h.2⟩
  simpa [NsMap.extend] using h.1

theorem does_own {x : Exec σ} {r : Res (List Attr)}
    (h : Does x s (M.lift r) fun d _ s' => App s' n nss (own ++ d) child ns ∧ Away appVars s s') :
    Does x s (M.lift (r.bind fun d => .ok { own := d })) fun d _ s' => AppPost s n nss own child ns d s' := by
  intro t
  have := h t
  cases r with
  | ok d => obtain ⟨v, s', e, h⟩ := this; exact ⟨v, s', e, appPost_own h⟩
  | _ => exact this

include hs ha hto hat in
theorem does_appendField (hself : s .self = .val (.struct all)) (hi : all[i]? = some v) (hok : f.SerOk) (hv : HasTy env f.ty v)
    (hz : sizeOf v < N) (happ : App s n nss own child ns) (w : RV) :
    Does (run w (.ofList (genAppendField root i f))) s (M.lift (fieldAttrs L env root (.struct all) f v))
      fun d _ s' => AppPost s n nss own child ns d s' := by
  have hsv := pe_self (L := L) (ops := ops) hself hi
  have hnil : ∀ w, Does (run w (.ofList [])) s (M.lift (.ok {})) fun d _ s' => AppPost s n nss own child ns d s' :=
    fun w => Does.nil (by exact ⟨by simpa [NsMap.extend] using happ, Away.refl _ _⟩)
  unfold genAppendField fieldAttrs
  cases h1 : f.attrs.isAttr
  case false =>
    simp only [Bool.false_eq_true, if_false]
    cases h2 : f.attrs.flatten
    case false => exact hnil w
    simp only [if_true]
    cases hty : f.ty with
    | struct p =>
      rw [hty] at hv
      simp only
      rw [← ha p v hv hz, lift_bind]
      refine Does.cons (P := fun r _ s' => s' = (s.set .attributes (.vec (r.1.map .attr))).set .namespace (.nss r.2)) ?_ ?_
      · simp only [eval]
        have := (does_tryRes (ev_attrs hat (p := p) hsv)).bind
          (k := fun v => match v with
            | .pair a b => (Exec.setVar .attributes a).bind fun _ => Exec.setVar .namespace b
            | _ => Exec.out .stuck) (m' := fun x => M.pure x)
          (Q := fun r _ s' => s' = (s.set .attributes (.vec (r.1.map .attr))).set .namespace (.nss r.2)) (by
            rintro x r s' ⟨rfl, rfl⟩
            exact Does.pure (v := .unit) (fun _ => rfl) rfl)
        refine Eq.mp ?_ this
        congr 1
        funext t
        show M.bind _ _ t = _
        unfold M.bind M.lift
        cases attrs p v [] [] <;> rfl
      · rintro ⟨as, m⟩ w' s' rfl
        refine Does.mutate (v := .nss m) (r := .nss (ns.extend m)) (PE.var (by simp [Store.set])) ?_ ?_
        · simp [Store.set, happ.childNs, Mut.run]
        refine Does.mutate (v := .vec (as.map .attr)) (r := .vec ((child ++ as).map .attr)) (PE.var (by simp [Store.set])) ?_ ?_
        · simp [Store.set, happ.child, Mut.run]
        refine Does.nil ⟨⟨?_, ?_, ?_⟩, ?_⟩
        · simp [Store.set, happ.event]
        · simp [Store.set]
        · simp [Store.set]
        · intro y hy
          simp only [appVars, List.mem_cons, List.not_mem_nil, or_false, not_or] at hy
          simp [Store.set, hy]
    | _ => exact hnil w
  simp only [if_true]
  have hself' : ∀ x, s.set .yaserde_inner (.str x) .self = .val (.struct all) := fun x => by simpa [Store.set] using hself
  have happ' : ∀ x, App (s.set .yaserde_inner (.str x)) n nss own child ns := fun x => app_set happ (by decide)
  cases hty : f.ty with
  | simple t =>
    rw [hty] at hv
    have := does_wrap (L := L) (ops := ops) (w := w) (f := f) (rb := .ok (showS L v)) (d := fun x => [⟨Name.ofStr (f.renamedLabel root), x⟩])
      hself hi happ (does_pe (pe_display hsv hv) ⟨rfl, rfl⟩) fun x => PE.blk1 (pe_attr (happ' x) (PE.var set_eq) rfl)
    exact does_own this
  | vec t => exact hnil w
  | struct p =>
    rw [hty] at hv
    have := does_wrap (L := L) (ops := ops) (w := w) (f := f) (rb := contentOf L (ser p v)) (d := fun x => [⟨Name.ofStr (f.renamedLabel root), x⟩])
      hself hi happ (does_tryRes (ev_content hto hsv)) fun x => PE.blk1 (pe_attr (happ' x) (PE.var set_eq) rfl)
    have := does_own this
    rw [res_bind_assoc, hs p v hv hz] at this
    exact this
  | opt t =>
    rw [hty] at hv
    rcases t with t | t | t | p
    · by_cases hstr : t = .string
      · subst hstr
        rcases hv with _ | _ | _ | _ | _ | _ | ⟨_, x, hx⟩
        · have := does_setter (L := L) (ops := ops) (w := w) (f := f) (d := []) hself hi happ (Away.refl _ _)
            (pe_setNone (y := .value_) (a := attrE (f.renamedLabel root) (.var .value_)) hself hi happ)
          rw [ite_self] at this
          exact does_own (r := .ok []) this
        · rcases hx with ⟨x⟩
          have := does_setter (L := L) (ops := ops) (w := w) (f := f) hself hi happ (Away.refl _ _)
            (pe_setSome (label := f.renamedLabel root) (y := .value_) (e := .var .value_) hself hi happ (by decide) (PE.var set_eq) rfl)
          exact does_own (r := .ok _) this
      · rcases hv with _ | _ | _ | _ | _ | _ | ⟨_, x, hx⟩
        · have := does_wrap (L := L) (ops := ops) (w := w) (f := f) (rb := .ok []) (d := fun _ => []) hself hi happ
            (does_pe (PE.arm0 (p := .none) (as := [(.some (.bind .v), fn .display [.var .v])]) hsv rfl rfl (PE.lit (.str []))) ⟨rfl, rfl⟩)
            (fun x => pe_setNone (y := .value_) (a := attrE (f.renamedLabel root) (.var .yaserde_inner)) (hself' x) hi (happ' x))
          have := does_own this
          simp only [ite_self, Res.bind] at this
          cases t <;> first | exact absurd rfl hstr | exact this
        · have := does_wrap (L := L) (ops := ops) (w := w) (f := f) (rb := .ok (showS L x)) hself hi happ
            (does_pe (PE.arm2 (q := .none) (p := .some (.bind .v)) (b := strE []) (a := fn .display [.var .v]) (as := []) hsv rfl rfl rfl
              (pe_display (PE.var set_eq) hx)) ⟨rfl, rfl⟩)
            (fun c => pe_setSome (label := f.renamedLabel root) (y := .value_) (e := .var .yaserde_inner) (hself' c) hi (happ' c) (by decide)
              (PE.var (v := .str c) (by simp [Store.set])) rfl)
          have := does_own this
          cases t <;> first | exact absurd rfl hstr | exact this
    · exact absurd hok (by simp [FieldDef.SerOk, h1, hty])
    · exact absurd hok (by simp [FieldDef.SerOk, h1, hty])
    · rcases hv with _ | _ | _ | _ | _ | _ | ⟨_, x, hx⟩
      · have := does_wrap (L := L) (ops := ops) (w := w) (f := f) (rb := .ok []) (d := fun _ => []) hself hi happ
          (does_tryRes (inj := .str) (PE.arm0 (p := .none) (as := [(.some (.bind .v), meth (.toStringContent p) [.var .v])]) hsv rfl rfl
            (PE.fn1 (f := .ok) (PE.lit (.str [])) rfl)))
          (fun x => pe_setNone (y := .yaserde_struct) (a := attrE (f.renamedLabel root) (.var .yaserde_inner)) (hself' x) hi (happ' x))
        have := does_own this
        simp only [ite_self, Res.bind] at this
        exact this
      · have := does_wrap (L := L) (ops := ops) (w := w) (f := f) (rb := contentOf L (ser p x)) hself hi happ
          (does_tryRes (inj := .str) (e := mtch (selfE i) [(.none, fn .ok [strE []]), (.some (.bind .v), meth (.toStringContent p) [.var .v])])
            (by
              intro t
              simp only [mtch, Arms.ofList, eval, Exec.bind, hsv t, evalArms, Pat.matches, Pat.vars, Exec.inScope, Store.setAll]
              rw [ev_content hto (PE.var set_eq), leave_eq (s := s)]
              intro y hy
              simp only [List.mem_singleton] at hy
              exact set_ne hy))
          (fun c => pe_setSome (label := f.renamedLabel root) (y := .yaserde_struct) (e := .var .yaserde_inner) (hself' c) hi (happ' c)
            (by decide) (PE.var (v := .str c) (by simp [Store.set])) rfl)
        have := does_own this
        rw [res_bind_assoc, hs p x hx (Nat.lt_trans (sizeOf_some_lt x) hz)] at this
        exact this

include hs ha hto hat in
theorem does_appendFrom : ∀ (fs : List FieldDef) (vs : List Val) (i : Nat) (w : RV) (s : Store) (own child : List Attr) (ns : NsMap),
    s .self = .val (.struct all) → fs.length = vs.length →
    (∀ k, vs[k]? = all[i + k]?) → (∀ f ∈ fs, f.SerOk) →
    (∀ (k : Nat) (f : FieldDef) (v : Val), fs[k]? = some f → vs[k]? = some v → HasTy env f.ty v) → (∀ v ∈ vs, sizeOf v < N) →
    App s n nss own child ns →
    Does (run w (.ofList (genAppendFrom root i fs))) s (M.lift (structAttrs L env root (.struct all) fs vs))
      fun acc _ s' => App s' n nss (own ++ acc.own) (child ++ acc.child) (ns.extend acc.childNs) ∧ Away appVars s s'
  | [], [], _, _, s, own, child, ns, _, _, _, _, _, _, happ => by
    rw [structAttrs.eq_def]
    exact Does.nil (b := ({} : AttrAcc)) ⟨by simpa [NsMap.extend] using happ, Away.refl _ _⟩
  | f :: fs, v :: vs, i, w, s, own, child, ns, h1, h3, h4, h5, h6, h7, happ => by
    rw [structAttrs_cons, lift_bind]
    refine Does.append (does_appendField hs ha hto hat h1 ?_ (h5 f List.mem_cons_self) (h6 0 f v rfl rfl) (h7 v List.mem_cons_self) happ w) ?_
    · have := h4 0
      simpa using this.symm
    · intro d w s' hc
      have := does_appendFrom fs vs (i + 1) w s' _ _ _ ((hc.2 .self (by decide)).trans h1) (by simpa using h3) (by
          intro k
          have := h4 (k + 1)
          rw [show i + 1 + k = i + (k + 1) by omega]
          exact this)
        (fun f hf => h5 f (List.mem_cons_of_mem _ hf)) (fun k f v hf hv => h6 (k + 1) f v hf hv)
        (fun v hv => h7 v (List.mem_cons_of_mem _ hv)) hc.1
      intro t
      have := this t
      cases hr : structAttrs L env root (.struct all) fs vs with
      | ok acc =>
        rw [hr] at this
        obtain ⟨r, s2, e, h, ho⟩ := this
        refine ⟨r, s2, e, ?_, hc.2.trans ho⟩
        refine Eq.mp ?_ h
        simp only [Delta.add, List.append_assoc]
        congr 1
        cases d.ns with
        | none => rfl
        | some m => simp only [Option.getD_some, NsMap.extend_extend]; rfl
      | _ => rw [hr] at this; exact this
  | [], _ :: _, _, _, _, _, _, _, _, h, _, _, _, _, _ => by cases h
  | _ :: _, [], _, _, _, _, _, _, _, h, _, _, _, _, _ => by cases h

end append

end Yaserde.Rs
