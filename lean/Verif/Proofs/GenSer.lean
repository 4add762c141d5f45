import Verif.Model.GenSer
import Verif.Spec.Encode
import Verif.Proofs.Encode
/-
Running the printed `serialize` and `serialize_attributes`: rules, and the templates for the fields of a struct.
-/

set_option autoImplicit false

namespace Yaserde.Rs

/-! ### Rules -/

/-- The end of a run of the program, beside the end of a run of the interpreter: `Q` is about the value and the variables after a
success. -/
def WAfter {σ β : Type} (Q : β → RV → Store → Prop) : Res β × σ → Out × (σ × Store) → Prop
  | (.ok b, t), r => ∃ v s', r = (.val v, (t, s')) ∧ Q b v s'
  | (.err e, t), r => ∃ s', r = (.ret (.err (.str e)), (t, s'))
  | (.panic e, t), r => ∃ s', r = (.panic e, (t, s'))
  | (.diverge, t), r => ∃ s', r = (.diverge, (t, s'))

/-- Running `x` with the variables `s` does what `m` does. -/
def Does {σ β : Type} (x : Exec σ) (s : Store) (m : M σ β) (Q : β → RV → Store → Prop) : Prop := ∀ t, WAfter Q (m t) (x (t, s))

section rules
variable {σ β γ : Type} {x : Exec σ} {s s' : Store} {m : M σ β} {m' : β → M σ γ} {P : β → RV → Store → Prop}
  {Q : γ → RV → Store → Prop} {k : RV → Exec σ}

theorem Does.conseq {P' : β → RV → Store → Prop} (h : Does x s m P) (hP : ∀ b v s', P b v s' → P' b v s') : Does x s m P' := by
  intro t
  have h1 := h t
  rcases hm : m t with ⟨r, t'⟩
  rw [hm] at h1
  cases r with
  | ok b => obtain ⟨v, s1, e1, h2⟩ := h1; exact ⟨v, s1, e1, hP _ _ _ h2⟩
  | _ => exact h1

theorem Does.bind (h : Does x s m P) (hk : ∀ b v s', P b v s' → Does (k v) s' (m' b) Q) : Does (x.bind k) s (m >>= m') Q := by
  intro t
  have h1 := h t
  show WAfter Q (M.bind m m' t) _
  unfold M.bind Exec.bind
  rcases hm : m t with ⟨r, t'⟩
  rw [hm] at h1
  cases r with
  | ok b =>
    obtain ⟨v, s1, e1, hP⟩ := h1
    rw [e1]
    exact hk b v s1 hP t'
  | _ => obtain ⟨s1, e1⟩ := h1; rw [e1]; exact ⟨s1, rfl⟩

theorem Does.scope {P' : β → RV → Store → Prop} {xs : List Var} (h : Does x s m P)
    (hP : ∀ b v s', P b v s' → P' b v (s'.leave s xs)) : Does (Exec.inScope xs x) s m P' := by
  intro t
  have h1 := h t
  unfold Exec.inScope
  rcases hm : m t with ⟨r, t'⟩
  rw [hm] at h1
  cases r with
  | ok b => obtain ⟨v, s1, e1, hP1⟩ := h1; rw [e1]; exact ⟨v, _, rfl, hP _ _ _ hP1⟩
  | _ => obtain ⟨s1, e1⟩ := h1; rw [e1]; exact ⟨_, rfl⟩

theorem Does.pure {b : β} {v : RV} (h : ∀ t : σ, x (t, s) = (.val v, (t, s'))) (hP : P b v s') : Does x s (M.pure b) P :=
  fun t => ⟨v, s', h t, hP⟩

/-- A step that does not write. -/
theorem Does.step {v : RV} (h : ∀ t : σ, x (t, s) = (.val v, (t, s'))) (hk : Does (k v) s' m P) : Does (x.bind k) s m P := by
  intro t
  have h1 := hk t
  unfold Exec.bind
  rw [h t]
  exact h1

theorem bind_unit (m : M σ Unit) : (m >>= fun _ => M.pure ()) = m := by
  funext t
  show M.bind m (fun _ => M.pure ()) t = m t
  unfold M.bind
  rcases m t with ⟨r, t'⟩
  cases r <;> rfl

theorem pure_bind {α : Type} (a : α) (k : α → M σ β) : (M.pure a >>= k) = k a := rfl

theorem bind_assoc' {α δ : Type} (m : M σ α) (k : α → M σ β) (l : β → M σ δ) : ((m >>= k) >>= l) = (m >>= fun a => k a >>= l) := by
  funext t
  show M.bind (M.bind m k) l t = M.bind m (fun a => M.bind (k a) l) t
  unfold M.bind
  rcases m t with ⟨r, t'⟩
  cases r <;> rfl

theorem Exec.bind_val (x : Exec σ) : (x.bind fun v => Exec.val v) = x := by
  funext t
  unfold Exec.bind Exec.val Exec.out
  rcases x t with ⟨o, t'⟩
  cases o <;> rfl

end rules

theorem Exec.bind_assoc {σ : Type} (x : Exec σ) (k l : RV → Exec σ) : (x.bind k).bind l = x.bind fun v => (k v).bind l := by
  funext t
  unfold Exec.bind
  rcases x t with ⟨o, t'⟩
  cases o <;> rfl

theorem leave_eq {s s' : Store} {xs : List Var} (h : ∀ y, y ∉ xs → s' y = s y) : s'.leave s xs = s := by
  funext y
  unfold Store.leave
  split
  · rfl
  · exact h y ‹_›

section lang
variable {σ β γ : Type} (L : Lib) (ops : Op → List RV → σ → Out × σ) (fuel : Nat)

/-- `e` has the value `v`, without effect. -/
def PE (e : Ex) (s : Store) (v : RV) : Prop := ∀ t : σ, eval L ops fuel e (t, s) = (.val v, (t, s))

variable {L ops fuel} {s : Store} {m : M σ β} {Q : β → RV → Store → Prop}

theorem PE.lit (v : RV) : PE L ops fuel (.lit v) s v := fun t => by simp only [eval]; rfl

theorem PE.var {x : Var} {v : RV} (h : s x = v) : PE L ops fuel (.var x) s v := fun t => by simp only [eval, h]

theorem PE.fn0 {f : Fn} {r : RV} (h : f.apply L [] = .val r) : PE L ops fuel (fn f []) s r := fun t => by
  simp only [fn, Exs.ofList, eval, evalArgs, Exec.out, h]

theorem PE.fn1 {f : Fn} {a : Ex} {v r : RV} (ha : PE L ops fuel a s v) (h : f.apply L [v] = .val r) :
    PE L ops fuel (fn f [a]) s r := fun t => by
  simp only [fn, Exs.ofList, eval, evalArgs, Exec.bind, ha t, Exec.out, List.nil_append, h]

theorem PE.fn2 {f : Fn} {a b : Ex} {v w r : RV} (ha : PE L ops fuel a s v) (hb : PE L ops fuel b s w)
    (h : f.apply L [v, w] = .val r) : PE L ops fuel (fn f [a, b]) s r := fun t => by
  simp only [fn, Exs.ofList, eval, evalArgs, Exec.bind, ha t, hb t, Exec.out, List.nil_append, List.cons_append, h]

theorem PE.fn3 {f : Fn} {a b c : Ex} {v w z r : RV} (ha : PE L ops fuel a s v) (hb : PE L ops fuel b s w)
    (hc : PE L ops fuel c s z) (h : f.apply L [v, w, z] = .val r) : PE L ops fuel (fn f [a, b, c]) s r := fun t => by
  simp only [fn, Exs.ofList, eval, evalArgs, Exec.bind, ha t, hb t, hc t, Exec.out, List.nil_append, List.cons_append, h]

theorem PE.andE {a b : Ex} {p q : Bool} (ha : PE L ops fuel a s (.bool p)) (hb : PE L ops fuel b s (.bool q)) :
    PE L ops fuel (andE a b) s (.bool (p && q)) := fun t => by
  cases p
  · simp only [Rs.andE, eval, Exec.bind, ha t]; rfl
  · simp only [Rs.andE, eval, Exec.bind, ha t, hb t]; rfl

theorem PE.not {a : Ex} {p : Bool} (ha : PE L ops fuel a s (.bool p)) : PE L ops fuel (fn .not [a]) s (.bool (!p)) := ha.fn1 rfl

theorem evalSeq_append_ser (v : RV) (a b : List Ex) :
    evalSeq L ops fuel v (.ofList (a ++ b)) = (evalSeq L ops fuel v (.ofList a)).bind fun w => evalSeq L ops fuel w (.ofList b) := by
  induction a generalizing v with
  | nil => simp only [List.nil_append, Exs.ofList, evalSeq]; rfl
  | cons e a ih => simp only [List.cons_append, Exs.ofList, evalSeq, ih, Exec.bind_assoc]

theorem Does.append {m : M σ γ} {m' : γ → M σ β} {P : γ → RV → Store → Prop} {v : RV} {a b : List Ex}
    (h : Does (evalSeq L ops fuel v (.ofList a)) s m P)
    (hk : ∀ c w s', P c w s' → Does (evalSeq L ops fuel w (.ofList b)) s' (m' c) Q) :
    Does (evalSeq L ops fuel v (.ofList (a ++ b))) s (m >>= m') Q := by
  rw [evalSeq_append_ser]
  exact h.bind hk

theorem Does.cons {m : M σ γ} {m' : γ → M σ β} {P : γ → RV → Store → Prop} {v : RV} {e : Ex} {b : List Ex}
    (h : Does (eval L ops fuel e) s m P) (hk : ∀ c w s', P c w s' → Does (evalSeq L ops fuel w (.ofList b)) s' (m' c) Q) :
    Does (evalSeq L ops fuel v (.ofList (e :: b))) s (m >>= m') Q := by
  simp only [Exs.ofList, evalSeq]
  exact h.bind hk

theorem Does.last {v : RV} {e : Ex} (h : Does (eval L ops fuel e) s m Q) : Does (evalSeq L ops fuel v (.ofList [e])) s m Q := by
  simp only [Exs.ofList, evalSeq, Exec.bind_val]
  exact h

theorem Does.nil {v : RV} {b : β} (h : Q b v s) : Does (evalSeq L ops fuel v (.ofList [])) s (M.pure b) Q := by
  simp only [Exs.ofList, evalSeq]
  exact Does.pure (fun _ => rfl) h

/-- `let x = e;` -/
theorem Does.letE {x : Var} {e : Ex} {v w : RV} {b : List Ex} (he : PE L ops fuel e s v)
    (hk : Does (evalSeq L ops fuel .unit (.ofList b)) (s.set x v) m Q) :
    Does (evalSeq L ops fuel w (.ofList (.letE x e :: b))) s m Q := by
  simp only [Exs.ofList, evalSeq, eval, Exec.bind_assoc]
  refine Does.step he ?_
  exact Does.step (fun _ => rfl) hk

/-- A statement without effect. -/
theorem Does.skip {e : Ex} {v w : RV} {b : List Ex} (he : PE L ops fuel e s v)
    (hk : Does (evalSeq L ops fuel v (.ofList b)) s m Q) : Does (evalSeq L ops fuel w (.ofList (e :: b))) s m Q := by
  simp only [Exs.ofList, evalSeq]
  exact Does.step he hk

/-- `x.push(e)`, `x.extend(e)` -/
theorem Does.mutate {x : Var} {mu : Mut} {e : Ex} {v w r : RV} {b : List Ex} (he : PE L ops fuel e s v)
    (hr : mu.run v (s x) = some (r, .unit)) (hk : Does (evalSeq L ops fuel .unit (.ofList b)) (s.set x r) m Q) :
    Does (evalSeq L ops fuel w (.ofList (.mutate x [] mu e :: b))) s m Q := by
  simp only [Exs.ofList, evalSeq, eval, Exec.bind_assoc]
  refine Does.step he ?_
  refine Does.step (v := .unit) (fun t => ?_) hk
  simp only [RV.modAt, hr]

theorem Does.ite {c a b : Ex} {p : Bool} (hc : PE L ops fuel c s (.bool p)) (h1 : p = true → Does (eval L ops fuel a) s m Q)
    (h2 : p = false → Does (eval L ops fuel b) s m Q) : Does (eval L ops fuel (.ite c a b)) s m Q := by
  simp only [eval]
  refine Does.step hc ?_
  cases p
  · exact h2 rfl
  · exact h1 rfl

/-- Outside of `xs` nothing has changed. -/
def Away (xs : List Var) (s s' : Store) : Prop := ∀ y, y ∉ xs → s' y = s y

/-- `{ es }` -/
theorem Does.blk {es : List Ex} (h : Does (evalSeq L ops fuel .unit (.ofList es)) s m fun _ _ s' => Away (Exs.ofList es).decls s s') :
    Does (eval L ops fuel (blk es)) s m fun _ _ s' => s' = s := by
  simp only [Rs.blk, eval]
  exact h.scope fun _ _ _ h => leave_eq h

/-- `match e { p => a, … }`, the pattern fitting. -/
theorem Does.arm {e a : Ex} {p : Pat} {x : Var} {v r : RV} {as : List (Pat × Ex)} (he : PE L ops fuel e s v)
    (hp : p.matches v = some [(x, r)]) (hx : p.vars = [x])
    (h : Does (eval L ops fuel a) (s.set x r) m fun _ _ s' => s' = s.set x r) :
    Does (eval L ops fuel (mtch e ((p, a) :: as))) s m fun _ _ s' => s' = s := by
  simp only [mtch, Arms.ofList, eval]
  refine Does.step he ?_
  simp only [evalArms, hp, hx]
  refine Does.scope (x := fun t => eval L ops fuel a (t.1, t.2.setAll [(x, r)])) (P := fun _ _ s' => s' = s.set x r) ?_ ?_
  · intro t
    exact h t
  · rintro _ _ s' rfl
    refine leave_eq fun y hy => ?_
    simp only [List.mem_singleton] at hy
    simp [Store.set, hy]

/-- … a pattern without variables fitting. -/
theorem Does.arm0 {e a : Ex} {p : Pat} {v : RV} {as : List (Pat × Ex)} (he : PE L ops fuel e s v)
    (hp : p.matches v = some []) (hx : p.vars = [])
    (h : Does (eval L ops fuel a) s m fun _ _ s' => s' = s) :
    Does (eval L ops fuel (mtch e ((p, a) :: as))) s m fun _ _ s' => s' = s := by
  simp only [mtch, Arms.ofList, eval]
  refine Does.step he ?_
  simp only [evalArms, hp, hx]
  refine Does.scope (x := fun t => eval L ops fuel a (t.1, t.2.setAll [])) (P := fun _ _ s' => s' = s) ?_ ?_
  · intro t
    exact h t
  · rintro _ _ s' rfl
    exact leave_eq fun y hy => rfl

/-- … not fitting. -/
theorem Does.noArm {e a : Ex} {p : Pat} {v : RV} {as : List (Pat × Ex)} (he : PE L ops fuel e s v) (hp : p.matches v = none)
    (h : Does (evalArms L ops fuel (.ofList as) v) s m Q) : Does (eval L ops fuel (mtch e ((p, a) :: as))) s m Q := by
  simp only [mtch, Arms.ofList, eval]
  refine Does.step he ?_
  simp only [evalArms, hp]
  exact h

theorem leave_nil (s s' : Store) : s'.leave s [] = s' := by
  funext y
  simp [Store.leave]

/-- `if let p = e { a }`, the pattern not fitting. -/
theorem Does.ifNot {e a : Ex} {p : Pat} {v : RV} (he : PE L ops fuel e s v) (hp : p.matches v = none) :
    Does (eval L ops fuel (ifLet p e a skipE)) s (M.pure ()) fun _ _ s' => s' = s := by
  refine Does.noArm he hp ?_
  simp only [Arms.ofList, evalArms, Pat.matches, Pat.vars, Store.setAll]
  refine Does.pure (v := .unit) (fun t => ?_) rfl
  simp only [Exec.inScope, skipE, eval, leave_nil]
  rfl

/-- `for x in e { b }` -/
theorem Does.forE {α : Type} {x : Var} {e b : Ex} {v : RV} {l : List α} {f : α → RV} {step : α → M σ Unit} (he : PE L ops fuel e s v)
    (hv : v.items = some (l.map f))
    (h : ∀ a ∈ l, Does (eval L ops fuel b) (s.set x (f a)) (step a) fun _ _ s' => s' = s.set x (f a)) :
    Does (eval L ops fuel (.forE x e b)) s (l.foldr (fun a k => step a >>= fun _ => k) (M.pure ())) fun _ _ s' => s' = s := by
  simp only [eval]
  refine Does.step he ?_
  simp only [hv]
  clear he hv
  induction l with
  | nil => exact Does.pure (fun _ => rfl) rfl
  | cons a l ih =>
    have h1 : Does (Exec.inScope [x] ((Exec.setVar x (f a)).bind fun _ => eval L ops fuel b)) s (step a) fun _ _ s' => s' = s := by
      refine Does.scope (P := fun _ _ s' => s' = s.set x (f a)) ?_ ?_
      · refine Does.step (v := .unit) (s' := s.set x (f a)) (fun _ => rfl) ?_
        exact h a List.mem_cons_self
      · rintro _ _ s' rfl
        refine leave_eq fun y hy => ?_
        simp only [List.mem_singleton] at hy
        simp [Store.set, hy]
    have ih := ih fun a ha => h a (List.mem_cons_of_mem _ ha)
    intro t
    simp only [List.map_cons, List.foldr_cons, Exec.forL]
    have h2 := h1 t
    show WAfter _ (M.bind _ _ t) _
    unfold M.bind
    rcases hm : step a t with ⟨r, t'⟩
    rw [hm] at h2
    cases r with
    | ok _ => obtain ⟨v, s1, e1, rfl⟩ := h2; rw [e1]; exact ih t'
    | err _ => obtain ⟨s1, e1⟩ := h2; rw [e1]; exact ⟨s1, rfl⟩
    | panic _ => obtain ⟨s1, e1⟩ := h2; rw [e1]; exact ⟨s1, rfl⟩
    | diverge => obtain ⟨s1, e1⟩ := h2; rw [e1]; exact ⟨s1, rfl⟩

end lang

/-! ### The methods of the writer -/

section writer
variable {β : Type} {L : Lib} {ser : Path → Val → S Unit} {attrs : Path → Val → List Attr → NsMap → Res (List Attr × NsMap)}
  {s : Store} {m : S β} {Q : β → RV → Store → Prop}

/-- Statements of a `serialize` function. -/
local notation "run" => evalSeq L (serOps L ser attrs) 0
local notation "ev" => eval L (serOps L ser attrs) 0
local notation "pe" => PE L (serOps L ser attrs) 0

theorem does_try {x : S Unit} {e : Ex} (h : ∀ t, ev e (t, s) = ((liftS x t).1, ((liftS x t).2, s))) :
    Does (ev (.try_ e)) s x fun _ _ s' => s' = s := by
  intro t
  simp only [eval, Exec.bind, h t, liftS]
  rcases x t with ⟨r, t'⟩
  cases r with
  | ok u => exact ⟨.unit, s, rfl, rfl⟩
  | err e => exact ⟨s, rfl⟩
  | panic e => exact ⟨s, rfl⟩
  | diverge => exact ⟨s, rfl⟩

theorem does_write {e : Ex} {w : WEv} (hw : s .writer = .ser) (he : pe e s (.wev w)) :
    Does (ev (writeE e)) s (swrite w) fun _ _ s' => s' = s := by
  refine does_try fun t => ?_
  simp only [meth, Exs.ofList, eval, evalArgs, Exec.bind, hw, he t, List.nil_append, List.cons_append, runOp, serOps]

/-- `writer.write(e)?;` -/
theorem Does.write {e : Ex} {w : WEv} {v : RV} {b : List Ex} {k : Unit → S β} (hw : s .writer = .ser) (he : pe e s (.wev w))
    (hk : ∀ v, Does (run v (.ofList b)) s (k ()) Q) : Does (run v (.ofList (writeE e :: b))) s (swrite w >>= k) Q :=
  (does_write hw he).cons fun _ _ _ h => h ▸ hk _

/-- `writer.set_start_event_name(n); writer.set_skip_start_end(b);` -/
theorem Does.flags {n : Option Str} {f : Bool} {v : RV} {b : List Ex} {k : Unit → S β} (hw : s .writer = .ser)
    (hk : ∀ v, Does (run v (.ofList b)) s (k ()) Q) : Does (run v (.ofList (flagsE n f ++ b))) s (setFlags n f >>= k) Q := by
  intro t
  have := hk .unit { t with startName := n, skip := f }
  cases n <;> simp only [flagsE, List.cons_append, List.nil_append, Exs.ofList, evalSeq, meth, fn, strE, eval, evalArgs, Exec.bind,
    Exec.val, Exec.out, hw, runOp, serOps, Fn.apply] <;> exact this

theorem does_serialize {p : Path} {e : Ex} {v : Val} (hw : s .writer = .ser) (he : pe e s (.val v)) :
    Does (ev (serializeE (.struct p) e)) s (ser p v) fun _ _ s' => s' = s := by
  refine does_try fun t => ?_
  simp only [meth, Exs.ofList, eval, evalArgs, Exec.bind, hw, he t, List.nil_append, List.cons_append, runOp, serOps]

theorem does_scalar {t : STy} (ht : t ≠ .string) {e : Ex} {v : Val} (hw : s .writer = .ser) (he : pe e s (.val v)) :
    Does (ev (serializeE (.simple t) e)) s (serBuiltin L v) fun _ _ s' => s' = s := by
  have : Does (ev (.try_ (meth .serializeScalar [e, .var .writer]))) s (serBuiltin L v) fun _ _ s' => s' = s := by
    refine does_try fun t => ?_
    simp only [meth, Exs.ofList, eval, evalArgs, Exec.bind, hw, he t, List.nil_append, List.cons_append, runOp, serOps]
  cases t <;> first | exact absurd rfl ht | exact this

/-! ### Elements around text -/

theorem set_ne {s : Store} {x y : Var} {v : RV} (h : y ≠ x) : s.set x v y = s y := by simp [Store.set, h]

theorem set_eq {s : Store} {x : Var} {v : RV} : s.set x v x = v := by simp [Store.set]

/-- `characters(&x)` -/
theorem pe_chars {e : Ex} {v : RV} {x : Str} (he : pe e s v) (hx : v.text = some x) : pe (fn .characters [e]) s (.wev (.chars x)) :=
  he.fn1 (by simp [Fn.apply, hx, Out.ofOption])

theorem pe_start {e : Ex} {x : Str} (he : pe e s (.str x)) : pe (fn .startElement [e]) s (.wev (.start (Name.ofStr x) [] [])) :=
  he.fn1 rfl

theorem pe_end : pe (fn .endElement []) s (.wev (.endE none)) := PE.fn0 rfl

theorem does_enclose {label text : Str} {fmt : Ex} (hw : s .writer = .ser) (hf : ∀ r, pe fmt (s.set .start_event r) (.str text)) :
    Does (ev (blk (genEnclose label fmt))) s (encloseChars label text) fun _ _ s' => s' = s := by
  refine Does.blk ?_
  unfold genEnclose encloseChars
  refine Does.letE (pe_start (PE.lit _)) ?_
  refine Does.write (by rw [set_ne (by decide)]; exact hw) (PE.var set_eq) fun _ => ?_
  refine Does.letE (hf _) ?_
  refine Does.letE (pe_chars (PE.var set_eq) rfl) ?_
  refine Does.write (by simpa [Store.set] using hw) (PE.var set_eq) fun _ => ?_
  refine Does.letE pe_end ?_
  refine (Does.last (does_write (by simpa [Store.set] using hw) (PE.var set_eq))).conseq ?_
  rintro _ _ _ rfl y hy
  simp [Exs.ofList, Exs.decls, writeE] at hy
  simp [Store.set, hy]

end writer

end Yaserde.Rs
