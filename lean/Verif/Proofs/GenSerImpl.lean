import Verif.Proofs.GenSerAttrs
/-
The two functions around the templates of a struct or enum: `serialize` and `serialize_attributes`.
-/

set_option autoImplicit false

namespace Yaserde.Rs

theorem Core.leave {s s1 s' : Store} {xs : List Var} (h1 : Core s s1) (h : Core s s') : Core s (s'.leave s1 xs) := by
  have : ∀ y, s1 y = s y → s' y = s y → s'.leave s1 xs y = s y := by
    intro y h1 hy
    unfold Store.leave
    split
    · exact h1
    · exact hy
  exact ⟨this _ h1.1 h.1, this _ h1.2.1 h.2.1, this _ h1.2.2 h.2.2⟩

theorem core_of_off {xs : List Var} {s s' : Store} (h : Away xs s s') (h1 : Var.self ∉ xs) (h2 : Var.writer ∉ xs) (h3 : Var.skip ∉ xs) :
    Core s s' := ⟨h _ h1, h _ h2, h _ h3⟩

section rules
variable {σ β : Type} {L : Lib} {ops : Op → List RV → σ → Out × σ} {s : Store} {Q : β → RV → Store → Prop}

/-- `let x = e;` where `e` reads something of the state. -/
theorem Does.read {γ : Type} {g : σ → γ} {inj : γ → RV} {k : γ → M σ β} {e : Ex} {x : Var} {b : List Ex} {w : RV}
    (he : ∀ t, eval L ops 0 e (t, s) = (.val (inj (g t)), (t, s)))
    (hk : ∀ c, Does (evalSeq L ops 0 .unit (.ofList b)) (s.set x (inj c)) (k c) Q) :
    Does (evalSeq L ops 0 w (.ofList (.letE x e :: b))) s (M.get >>= fun t => k (g t)) Q := by
  intro t
  have := hk (g t) t
  simp only [Exs.ofList, evalSeq, eval, Exec.bind, he t]
  exact this

theorem Does.blkScope {m : M σ β} {es : List Ex} {P : β → RV → Store → Prop} (h : Does (evalSeq L ops 0 .unit (.ofList es)) s m P)
    (hQ : ∀ b r s', P b r s' → Q b r (s'.leave s (Exs.ofList es).decls)) : Does (eval L ops 0 (Rs.blk es)) s m Q := by
  simp only [Rs.blk, eval]
  exact h.scope hQ

/-- A pattern of several variables. -/
theorem Does.armAll {m : M σ β} {e a : Ex} {p : Pat} {v : RV} {as : List (Pat × Ex)} {bs : List (Var × RV)} {P : β → RV → Store → Prop}
    (he : PE L ops 0 e s v) (hp : p.matches v = some bs) (h : Does (eval L ops 0 a) (s.setAll bs) m P)
    (hQ : ∀ b r s', P b r s' → Q b r (s'.leave s p.vars)) : Does (eval L ops 0 (mtch e ((p, a) :: as))) s m Q := by
  simp only [mtch, Arms.ofList, eval]
  refine Does.step he ?_
  simp only [evalArms, hp]
  intro t
  have h1 := h t
  unfold Exec.inScope
  rcases hm : m t with ⟨r, t'⟩
  rw [hm] at h1
  cases r with
  | ok b => obtain ⟨v, s1, e1, hP1⟩ := h1; simp only [e1]; exact ⟨v, _, rfl, hQ _ _ _ hP1⟩
  | _ => obtain ⟨s1, e1⟩ := h1; simp only [e1]; exact ⟨_, rfl⟩

theorem pe_nsDefs {a : Attrs} {e : Ex} {n : Name} {as : List Attr} (he : PE L ops 0 e s (.wev (.start n as []))) :
    PE L ops 0 (genNsDefs a e) s (.wev (.start n as (namespacesDef a))) := by
  unfold genNsDefs namespacesDef
  suffices h : ∀ (l : List (Str × Str)) (e : Ex) (m : NsMap), PE L ops 0 e s (.wev (.start n as m)) →
      PE L ops 0 (l.foldl (fun e n => if a.defaultNs = some n.1 then fn .defaultNs [e, strE n.2] else fn .ns [e, strE n.1, strE n.2]) e) s
        (.wev (.start n as (l.foldl (fun m e => if a.defaultNs = some e.1 then m.put [] e.2 else m.put e.1 e.2) m))) from
    h _ _ _ he
  intro l
  induction l with
  | nil => exact fun _ _ h => h
  | cons d l ih =>
    intro e m he
    refine ih _ _ ?_
    dsimp only
    split
    · exact he.fn2 (PE.lit _) rfl
    · exact he.fn3 (PE.lit _) (PE.lit _) rfl

end rules

theorem mapM_toAttr (as : List Attr) : (as.map RV.attr).mapM RV.toAttr = some as := by
  induction as with
  | nil => rfl
  | cons a as ih => simp [List.mapM_cons, ih, RV.toAttr]

theorem extend_extend_nil (m b : NsMap) : m.extend (NsMap.extend [] b) = m.extend b := by
  rw [NsMap.extend_extend]; rfl

section impl
variable {L : Lib} {ser : Path → Val → S Unit} {attrs : Path → Val → List Attr → NsMap → Res (List Attr × NsMap)}
  {a : Attrs} {root : Str} {append inner : List Ex} {acc : Res AttrAcc} {m : S Unit} {v : Val}

local notation "run" => evalSeq L (serOps L ser attrs) 0
local notation "ev" => eval L (serOps L ser attrs) 0
local notation "pe" => PE L (serOps L ser attrs) 0

theorem pe_unskipped {s : Store} {b : Bool} (h : s .skip = .bool b) : pe (genUnskipped a) s (.bool (!a.flatten && !b)) :=
  ((PE.lit _).not).andE ((PE.var h).not)

/-- What `#append_attributes` has to do. -/
def Appends {σ : Type} (L : Lib) (ops : Op → List RV → σ → Out × σ) (v : Val) (append : List Ex) (acc : Res AttrAcc) : Prop :=
  ∀ n nss w s, s .self = .val v → App s n nss [] [] [] →
    Does (evalSeq L ops 0 w (.ofList append)) s (M.lift acc) fun acc _ s' =>
      App s' n nss acc.own acc.child (NsMap.extend [] acc.childNs) ∧ Away appVars s s'

/-- The start element. -/
theorem does_startElement (happ : Appends L (serOps L ser attrs) v append acc) {s : Store} (hself : s .self = .val v) (hw : s .writer = .ser) :
    Does (ev (blk (.letE .child_attributes (.lit (.vec []))
          :: .letE .child_attributes_namespace (.lit (.nss []))
          :: .letE .yaserde_label (.unwrapOrElse (meth .startEventName [.var .writer]) (strE root))
          :: .letE .struct_start_event (genNsDefs a (fn .startElement [.var .yaserde_label]))
          :: (append ++
            [.letE .event (.var .struct_start_event),
              ifLet (.wstart (.bind .name) (.bind .attributes) (.bind .namespace)) (.var .event)
                (blk [.letE .attributes (.var .attributes),
                  .mutate .attributes [] .extend (.var .child_attributes),
                  .letE .all_attributes (.var .attributes),
                  .letE .all_namespaces (.var .namespace),
                  .mutate .all_namespaces [] .extend (.var .child_attributes_namespace),
                  writeE (fn .mkStart [.var .name, .var .all_attributes, .var .all_namespaces])])
                stuckE])))) s
      (M.get >>= fun t => (fun name => M.lift acc >>= fun acc => swrite (.start (Name.ofStr (Option.getD name root)) (acc.own ++ acc.child)
        ((namespacesDef a).extend acc.childNs))) t.startName)
      fun _ _ s' => Core s s' := by
  refine Does.blkScope (P := fun _ _ s' => Core s s') ?_ fun _ _ _ h => (Core.refl s).leave h
  refine Does.letE (PE.lit _) ?_
  refine Does.letE (PE.lit _) ?_
  refine Does.read (g := Sr.startName)
    (k := fun name => M.lift acc >>= fun acc => swrite (.start (Name.ofStr (Option.getD name root)) (acc.own ++ acc.child)
        ((namespacesDef a).extend acc.childNs))) (inj := fun c => .str (c.getD root)) ?_ fun c => ?_
  · intro t
    simp only [eval, meth, Exs.ofList, evalArgs, Exec.bind, List.nil_append, runOp]
    simp only [Store.set]
    cases h : t.startName <;> simp [hw, serOps, h, eval, Exec.val, Exec.out, strE]
  refine Does.letE (pe_nsDefs (pe_start (PE.var set_eq))) ?_
  refine Does.append (happ _ _ _ _ (by simpa [Store.set] using hself) ⟨set_eq, by simp [Store.set], by simp [Store.set]⟩) ?_
  rintro acc w s' ⟨happ, hoff⟩
  refine Does.letE (PE.var happ.event) ?_
  have hself' : s' .self = .val v := by rw [hoff _ (by decide)]; simpa [Store.set] using hself
  have hw' : s' .writer = .ser := by rw [hoff _ (by decide)]; simpa [Store.set] using hw
  have hcore : Core s s' := by
    refine ⟨?_, ?_, ?_⟩ <;> rw [hoff _ (by decide)] <;> simp [Store.set]
  refine Does.last (Does.armAll (bs := [(.name, .name (Name.ofStr (c.getD root))), (.attributes, .vec (acc.own.map .attr)), (.namespace, .nss (namespacesDef a))])
    (P := fun _ _ s'' => Core s s'') (PE.var set_eq) rfl ?_ ?_)
  · refine Does.blkScope (P := fun _ _ s'' => Core s s'') ?_ ?_
    · simp only [Store.setAll]
      refine Does.letE (PE.var (v := .vec (acc.own.map .attr)) (by simp [Store.set])) ?_
      refine Does.mutate (PE.var (v := .vec (acc.child.map .attr)) (by simpa [Store.set] using happ.child)) (r := .vec ((acc.own ++ acc.child).map .attr))
        (by simp [Store.set, Mut.run]) ?_
      refine Does.letE (PE.var set_eq) ?_
      refine Does.letE (PE.var (v := .nss (namespacesDef a)) (by simp [Store.set])) ?_
      refine Does.mutate (PE.var (v := .nss (NsMap.extend [] acc.childNs)) (by simpa [Store.set] using happ.childNs))
        (r := .nss ((namespacesDef a).extend acc.childNs)) (by simp [Store.set, Mut.run, extend_extend_nil]) ?_
      refine Does.last (Does.conseq (does_write (by simpa [Store.set] using hw')
        (PE.fn3 (PE.var (v := .name (Name.ofStr (c.getD root))) (by simp [Store.set])) (PE.var (v := .vec ((acc.own ++ acc.child).map .attr)) (by simp [Store.set]))
          (PE.var (v := .nss ((namespacesDef a).extend acc.childNs)) (by simp [Store.set]))
          (by simp only [Fn.apply, mapM_toAttr, Option.map_some, Out.ofOption]))) ?_)
      rintro _ _ _ rfl
      refine hcore.trans ?_
      refine ⟨?_, ?_, ?_⟩ <;> simp [Store.set]
    · refine fun _ _ s'' h => Core.leave (hcore.trans ?_) h
      refine ⟨?_, ?_, ?_⟩ <;> simp [Store.setAll, Store.set]
  · refine fun _ _ s'' h => Core.leave (hcore.trans ?_) h
    refine ⟨?_, ?_, ?_⟩ <;> simp [Store.set]

/-- A run of a function that ends with `Ok(())`. -/
theorem runSer_of_does {b : Ex} {m : S Unit} (h : Does (ev b) ((Store.empty.set .self (.val v)).set .writer .ser) m fun _ r _ => r = .ok .unit) :
    runSer L ser attrs b v = m := by
  funext t
  have := h t
  unfold runSer
  rcases hm : m t with ⟨r, t'⟩
  rw [hm] at this
  cases r with
  | ok u => obtain ⟨r, s', e, rfl⟩ := this; rw [e]; rfl
  | _ => obtain ⟨s', e⟩ := this; rw [e]; rfl

theorem run_serialize (happ : Appends L (serOps L ser attrs) v append acc)
    (hinner : ∀ w s, s .self = .val v → s .writer = .ser → Does (run w (.ofList inner)) s m fun _ _ s' => Core s s') :
    runSer L ser attrs (genSerialize a root append inner) v = implSerializer a root acc m := by
  refine runSer_of_does ?_
  generalize hs0 : (Store.empty.set .self (.val v)).set .writer .ser = s
  have hself : s .self = .val v := by rw [← hs0]; rfl
  have hw : s .writer = .ser := by rw [← hs0]; rfl
  have hmodel : implSerializer a root acc m = (M.get >>= fun t => (fun skip =>
      ((if (!a.flatten && !skip) = true then
        (M.get >>= fun t => (fun name => M.lift acc >>= fun acc => swrite (.start (Name.ofStr (Option.getD name root)) (acc.own ++ acc.child)
          ((namespacesDef a).extend acc.childNs))) t.startName)
        else M.pure ()) >>= fun _ => m >>= fun _ => (if (!a.flatten && !skip) = true then swrite (.endE none) else M.pure ()) >>= fun _ => M.pure ())) t.skip) := by
    funext t
    unfold implSerializer
    show M.bind M.get _ t = M.bind M.get _ t
    simp only [M.bind, M.get]
    cases h : (!a.flatten && !t.skip)
    · simp only [Bool.false_eq_true, if_false, bind_unit]
    · simp only [if_true, bind_unit]
      rfl
  rw [hmodel]
  unfold genSerialize
  refine Does.blkScope (P := fun _ r _ => r = .ok .unit) ?_ fun _ _ _ h => h
  refine Does.read (g := Sr.skip) (inj := .bool) (k := fun skip =>
      ((if (!a.flatten && !skip) = true then
        (M.get >>= fun t => (fun name => M.lift acc >>= fun acc => swrite (.start (Name.ofStr (Option.getD name root)) (acc.own ++ acc.child)
          ((namespacesDef a).extend acc.childNs))) t.startName)
        else M.pure ()) >>= fun _ => m >>= fun _ => (if (!a.flatten && !skip) = true then swrite (.endE none) else M.pure ()) >>= fun _ => M.pure ())) ?_ fun skip => ?_
  · intro t
    simp only [eval, meth, Exs.ofList, evalArgs, Exec.bind, List.nil_append, runOp, hw, serOps]
  refine Does.cons (P := fun _ _ s' => Core (s.set .skip (.bool skip)) s') ?_ ?_
  · refine Does.ite (pe_unskipped set_eq) (fun h => ?_) fun h => ?_
    · rw [if_pos h]
      exact does_startElement happ (by simpa [Store.set] using hself) (by simpa [Store.set] using hw)
    · rw [if_neg (by simp [h])]
      exact Does.pure (v := .unit) (fun t => PE.lit _ t) (Core.refl _)
  intro _ w s1 hc
  have hself1 : s1 .self = .val v := hc.1.trans (by simpa [Store.set] using hself)
  have hw1 : s1 .writer = .ser := hc.2.1.trans (by simpa [Store.set] using hw)
  have hskip1 : s1 .skip = .bool skip := hc.2.2.trans set_eq
  refine Does.append (hinner w s1 hself1 hw1) ?_
  intro _ w s2 hc2
  have hw2 : s2 .writer = .ser := hc2.2.1.trans hw1
  refine Does.cons (P := fun _ _ _ => True) ?_ ?_
  · refine Does.ite (pe_unskipped (hc2.2.2.trans hskip1)) (fun h => ?_) fun h => ?_
    · rw [if_pos h]
      refine Does.blkScope (P := fun _ _ _ => True) ?_ fun _ _ _ _ => trivial
      refine Does.letE pe_end ?_
      exact (Does.last (does_write (by simpa [Store.set] using hw2) (PE.var set_eq))).conseq fun _ _ _ _ => trivial
    · rw [if_neg (by simp [h])]
      exact Does.pure (v := .unit) (fun t => PE.lit _ t) trivial
  · intro _ w s3 _
    exact Does.last (Does.pure (PE.fn1 (f := .ok) (PE.lit .unit) rfl) rfl)

/-- … without arguments, as the derived code calls it. -/
theorem run_serializeAttributes
    (happ : Appends (σ := Unit) L (fun o l t => (callOps L ser attrs o l, t)) v append acc) :
    runAttrs L ser attrs (genSerializeAttributes a append) v [] [] = serializeAttributes a acc := by
  generalize hs0 : ((Store.empty.set .self (.val v)).set .source_attributes (.vec [])).set .source_namespace (.nss []) = s
  have hself : s .self = .val v := by rw [← hs0]; rfl
  have hsa : s .source_attributes = .vec [] := by rw [← hs0]; rfl
  have hsn : s .source_namespace = .nss [] := by rw [← hs0]; rfl
  have hdoes : Does (eval (σ := Unit) L (fun o l t => (callOps L ser attrs o l, t)) 0 (genSerializeAttributes a append)) s
      (M.lift (serializeAttributes a acc)) fun r w _ => w = .ok (.pair (.vec (r.1.map .attr)) (.nss r.2)) := by
    unfold genSerializeAttributes serializeAttributes
    rw [lift_bind]
    refine Does.blkScope (P := fun (r : List Attr × NsMap) w _ => w = .ok (.pair (.vec (r.1.map .attr)) (.nss r.2))) ?_ fun _ _ _ h => h
    refine Does.letE (PE.lit _) ?_
    refine Does.letE (PE.lit _) ?_
    refine Does.letE (pe_nsDefs (PE.fn1 (f := .startElement) (PE.lit (.str c!"temporary_element_to_generate_attributes")) rfl)) ?_
    refine Does.append (happ _ _ _ _ (by simpa [Store.set] using hself) ⟨set_eq, by simp [Store.set], by simp [Store.set]⟩) ?_
    rintro acc w s' ⟨happ, hoff⟩
    have hsa' : s' .source_attributes = .vec [] := by rw [hoff _ (by decide)]; simpa [Store.set] using hsa
    have hsn' : s' .source_namespace = .nss [] := by rw [hoff _ (by decide)]; simpa [Store.set] using hsn
    refine Does.letE (PE.var happ.event) ?_
    refine Does.last (Does.armAll (bs := [(.attributes, .vec (acc.own.map .attr)), (.namespace, .nss (namespacesDef a))])
      (P := fun (r : List Attr × NsMap) w _ => w = .ok (.pair (.vec (r.1.map .attr)) (.nss r.2))) (PE.var set_eq) rfl ?_ fun _ _ _ h => h)
    refine Does.blkScope (P := fun (r : List Attr × NsMap) w _ => w = .ok (.pair (.vec (r.1.map .attr)) (.nss r.2))) ?_ fun _ _ _ h => h
    simp only [Store.setAll]
    refine Does.mutate (PE.var (v := .nss (namespacesDef a)) (by simp [Store.set])) (r := .nss (NsMap.extend [] (namespacesDef a)))
      (by simp [Store.set, Mut.run, hsn']) ?_
    refine Does.mutate (PE.var (v := .nss (NsMap.extend [] acc.childNs)) (by simpa [Store.set] using happ.childNs))
      (r := .nss ((NsMap.extend [] (namespacesDef a)).extend acc.childNs)) (by simp [Store.set, Mut.run, extend_extend_nil]) ?_
    refine Does.letE (PE.var (v := .vec (acc.own.map .attr)) (by simp [Store.set])) ?_
    refine Does.mutate (PE.var set_eq) (r := .vec (acc.own.map .attr)) (by simp [Store.set, Mut.run, hsa']) ?_
    refine Does.mutate (PE.var (v := .vec (acc.child.map .attr)) (by simpa [Store.set] using happ.child)) (r := .vec ((acc.own ++ acc.child).map .attr))
      (by simp [Store.set, Mut.run]) ?_
    refine Does.last (Does.pure (PE.fn1 (f := .ok) (PE.fn2 (f := .pair) (PE.var set_eq)
      (PE.var (v := .nss ((NsMap.extend [] (namespacesDef a)).extend acc.childNs)) (by simp [Store.set])) rfl) rfl) rfl)
  have := hdoes ()
  unfold runAttrs
  rw [List.map_nil, hs0]
  cases hr : serializeAttributes a acc with
  | ok r =>
    rw [hr] at this
    obtain ⟨w, s', e, rfl⟩ := this
    rw [e]
    simp only [Out.result, mapM_toAttr]
  | _ => rw [hr] at this; obtain ⟨s', e⟩ := this; rw [e]; rfl

end impl

/-! ### Structs -/

section struct
variable {L : Lib} {env : Env} {ser : Path → Val → S Unit} {attrs : Path → Val → List Attr → NsMap → Res (List Attr × NsMap)}
  {N : Nat} (hs : ∀ p v, HasTy env (.struct p) v → sizeOf v < N → ser p v = serTy L env p v)
  (ha : ∀ p v, HasTy env (.struct p) v → sizeOf v < N → attrs p v [] [] = attrsOf L env p v)
  {d : StructDef} {vs : List Val}

include hs ha

theorem appends_struct {σ : Type} {ops : Op → List RV → σ → Out × σ}
    (hto : ∀ p l t, ops (.toStringContent p) l t = (callOps L ser attrs (.toStringContent p) l, t))
    (hat : ∀ p l t, ops (.serializeAttributes p) l t = (callOps L ser attrs (.serializeAttributes p) l, t))
    (hl : d.fields.length = vs.length) (hok : ∀ f ∈ d.fields, f.SerOk)
    (hty : ∀ (k : Nat) (f : FieldDef) (v : Val), d.fields[k]? = some f → vs[k]? = some v → HasTy env f.ty v)
    (hz : ∀ v ∈ vs, sizeOf v < N) :
    Appends L ops (.struct vs) (genAppendFrom d.attrs 0 d.fields) (structAttrs L env d.attrs (.struct vs) d.fields vs) := by
  intro n nss w s hself happ
  exact does_appendFrom hs ha hto hat d.fields vs 0 w s [] [] [] hself hl (fun k => by rw [Nat.zero_add]) hok hty hz happ

theorem run_serStruct (hl : d.fields.length = vs.length) (hok : ∀ f ∈ d.fields, FieldSer f)
    (hty : ∀ (k : Nat) (f : FieldDef) (v : Val), d.fields[k]? = some f → vs[k]? = some v → HasTy env f.ty v)
    (hz : ∀ v ∈ vs, sizeOf v < N) :
    runSer L ser attrs (genSerStruct d) (.struct vs) =
      implSerializer d.attrs (serRootName d.attrs d.name) (structAttrs L env d.attrs (.struct vs) d.fields vs)
        (serFields L env d.attrs (.struct vs) d.fields vs) :=
  run_serialize (appends_struct hs ha (fun _ _ _ => rfl) (fun _ _ _ => rfl) hl (fun f hf => (hok f hf).1) hty hz)
    fun w s hself hw => does_inspectFrom hs d.fields vs 0 w s hself hw hl (fun k => by rw [Nat.zero_add]) hok hty hz

theorem run_attrsStruct (hl : d.fields.length = vs.length) (hok : ∀ f ∈ d.fields, f.SerOk)
    (hty : ∀ (k : Nat) (f : FieldDef) (v : Val), d.fields[k]? = some f → vs[k]? = some v → HasTy env f.ty v)
    (hz : ∀ v ∈ vs, sizeOf v < N) :
    runAttrs L ser attrs (genAttrsStruct d) (.struct vs) [] [] =
      serializeAttributes d.attrs (structAttrs L env d.attrs (.struct vs) d.fields vs) :=
  run_serializeAttributes (appends_struct hs ha (fun _ _ _ => rfl) (fun _ _ _ => rfl) hl hok hty hz)

end struct

end Yaserde.Rs
