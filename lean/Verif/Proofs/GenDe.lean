import Verif.Model.GenDe
import Verif.Proofs.Runtime
import Verif.Proofs.NoPanic
/-
Running the printed `deserialize` of a struct is `structDeser`: a simulation, template by template.
-/

set_option autoImplicit false

namespace Yaserde.Rs

/-- The panic of `event.as_writer_event().unwrap()` on `EndDocument`. -/
def unwrapNone : Str := c!"called `Option::unwrap()` on a `None` value"

/-- What the printed code does where the interpreter has used up its budget. -/
def Lost : Out → Prop
  | .diverge => True
  | _ => False

/-- The tags of the document are balanced: the reader's depth does not underflow, and the end of the document is reported at depth
0 only. -/
def Proper (rd : Rd) : Prop := Good rd

/-- The end `o` of a run of the program, beside the end `r` of a run of the interpreter: `Q` is about the value and the variables
after a success, `E` about the variables after an `Err` was returned. -/
def After {β : Type} (Q : β → Out → Store → Prop) (E : Store → Prop) : Res β × Rd → Out × (Rd × Store) → Prop
  | (.ok b, rd'), r => Proper rd' ∧ ∃ o s', r = (o, (rd', s')) ∧ Q b o s'
  | (.err e, rd'), r => Proper rd' ∧ ∃ s', r = (.ret (.err (.str e)), (rd', s')) ∧ E s'
  | (.panic e, rd'), r => ∃ s', r = (.panic e, (rd', s'))
  | (.diverge, _), r => Lost r.1

/-- Running `x` with the variables `s` does what `m` does. -/
def Sim {β : Type} (x : Exec Rd) (s : Store) (m : D β) (Q : β → Out → Store → Prop) (E : Store → Prop) : Prop :=
  ∀ rd, Proper rd → After Q E (m rd) (x (rd, s))

/-- No claim about the variables after an error. -/
def Any : Store → Prop := fun _ => True

section sim
variable {β γ : Type} {x : Exec Rd} {s s' : Store} {m : D β} {m' : β → D γ} {P : β → Out → Store → Prop}
  {Q : γ → Out → Store → Prop} {k : RV → Exec Rd} {E : Store → Prop}

theorem After.conseq {P' : β → Out → Store → Prop} {E' : Store → Prop} {r : Res β × Rd} {q : Out × (Rd × Store)}
    (h : After P E r q) (hP : ∀ b o s', P b o s' → P' b o s') (hE : ∀ s', E s' → E' s') : After P' E' r q := by
  rcases r with ⟨r, rd⟩
  cases r with
  | ok b => obtain ⟨hp, o, s1, e1, h1⟩ := h; exact ⟨hp, o, s1, e1, hP _ _ _ h1⟩
  | err e => obtain ⟨hp, s1, e1, h1⟩ := h; exact ⟨hp, s1, e1, hE _ h1⟩
  | panic e => exact h
  | diverge => exact h

theorem Sim.conseq {P' : β → Out → Store → Prop} {E' : Store → Prop} (h : Sim x s m P E) (hP : ∀ b o s', P b o s' → P' b o s')
    (hE : ∀ s', E s' → E' s' := by exact fun _ h => h) : Sim x s m P' E' :=
  fun rd hp => (h rd hp).conseq hP hE

theorem Sim.bind (h : Sim x s m P E) (hk : ∀ b o s', P b o s' → ∃ v, o = .val v ∧ Sim (k v) s' (m' b) Q E) :
    Sim (x.bind k) s (m >>= m') Q E := by
  intro rd hp
  have h1 := h rd hp
  show After Q E (M.bind m m' rd) _
  unfold M.bind Exec.bind
  rcases hm : m rd with ⟨r, rd'⟩
  rw [hm] at h1
  cases r with
  | ok b =>
    obtain ⟨hp', o, s1, e1, hP⟩ := h1
    obtain ⟨v, rfl, hv⟩ := hk b o s1 hP
    rw [e1]
    exact hv rd' hp'
  | err e => obtain ⟨hp', s1, e1, hE⟩ := h1; rw [e1]; exact ⟨hp', s1, rfl, hE⟩
  | panic e => obtain ⟨s1, e1⟩ := h1; rw [e1]; exact ⟨s1, rfl⟩
  | diverge =>
    rcases hx : x (rd, s) with ⟨o, t⟩
    rw [hx] at h1
    cases o <;> simp_all [Lost, After]

theorem Sim.scope {P' : β → Out → Store → Prop} {E' : Store → Prop} {xs : List Var} (h : Sim x s m P E)
    (hP : ∀ b o s', P b o s' → P' b o (s'.leave s xs)) (hE : ∀ s', E s' → E' (s'.leave s xs)) :
    Sim (Exec.inScope xs x) s m P' E' := by
  intro rd hp
  have h1 := h rd hp
  unfold Exec.inScope
  rcases hm : m rd with ⟨r, rd'⟩
  rw [hm] at h1
  cases r with
  | ok b => obtain ⟨hp', o, s1, e1, hP1⟩ := h1; rw [e1]; exact ⟨hp', o, _, rfl, hP _ _ _ hP1⟩
  | err e => obtain ⟨hp', s1, e1, h2⟩ := h1; rw [e1]; exact ⟨hp', _, rfl, hE _ h2⟩
  | panic e => obtain ⟨s1, e1⟩ := h1; rw [e1]; exact ⟨_, rfl⟩
  | diverge => exact h1

theorem Sim.pure {b : β} {o : Out} (h : ∀ rd : Rd, x (rd, s) = (o, (rd, s'))) (hP : P b o s') : Sim x s (M.pure b) P E :=
  fun rd hp => ⟨hp, o, s', h rd, hP⟩

theorem Sim.throw {e : Str} (h : ∀ rd : Rd, x (rd, s) = (.ret (.err (.str e)), (rd, s'))) (hE : E s') : Sim x s (M.throw e) P E :=
  fun rd hp => ⟨hp, s', h rd, hE⟩

theorem Sim.panic {e : Str} (h : ∀ rd : Rd, x (rd, s) = (.panic e, (rd, s'))) : Sim x s (M.panic e) P E :=
  fun rd _ => ⟨s', h rd⟩

/-- A step that does not read. -/
theorem Sim.step {v : RV} (h : ∀ rd : Rd, x (rd, s) = (.val v, (rd, s'))) (hk : Sim (k v) s' m P E) :
    Sim (x.bind k) s m P E := by
  intro rd hp
  have h1 := hk rd hp
  unfold Exec.bind
  rw [h rd]
  exact h1

theorem Sim.congr {y : Exec Rd} (h : Sim y s m P E) (he : ∀ rd : Rd, x (rd, s) = y (rd, s)) : Sim x s m P E := by
  intro rd
  rw [he rd]
  exact h rd

/-- One turn of a loop. -/
theorem Sim.loop {n : Nat} (h : Sim x s m P E)
    (hk : ∀ b o s', P b o s' → (∃ v, o = .val v ∧ Sim (x.loopN n) s' (m' b) Q E) ∨
      (o = .brk ∧ Sim (Exec.val .unit) s' (m' b) Q E)) : Sim (x.loopN (n + 1)) s (m >>= m') Q E := by
  intro rd hp
  have h1 := h rd hp
  show After Q E (M.bind m m' rd) _
  unfold M.bind Exec.loopN
  rcases hm : m rd with ⟨r, rd'⟩
  rw [hm] at h1
  cases r with
  | ok b =>
    obtain ⟨hp', o, s1, e1, hP⟩ := h1
    rcases hk b o s1 hP with ⟨v, rfl, hv⟩ | ⟨rfl, hv⟩
    · rw [e1]; exact hv rd' hp'
    · rw [e1]; exact hv rd' hp'
  | err e => obtain ⟨hp', s1, e1, hE⟩ := h1; rw [e1]; exact ⟨hp', s1, rfl, hE⟩
  | panic e => obtain ⟨s1, e1⟩ := h1; rw [e1]; exact ⟨s1, rfl⟩
  | diverge =>
    rcases hx : x (rd, s) with ⟨o, t⟩
    rw [hx] at h1
    cases o <;> simp_all [Lost, After]

/-- Reading the depth. -/
theorem Sim.get {x : Exec Rd} {m : Rd → D β} (h : ∀ rd, Proper rd → After P E (m rd rd) (x (rd, s))) :
    Sim x s (M.get >>= m) P E := by
  intro rd hp
  exact h rd hp

end sim

/-- `Sim` from the readers with the property `R` only. -/
def SimR (R : Rd → Prop) {β : Type} (x : Exec Rd) (s : Store) (m : D β) (Q : β → Out → Store → Prop) (E : Store → Prop) : Prop :=
  ∀ rd, Proper rd → R rd → After Q E (m rd) (x (rd, s))

section simR
variable {β γ : Type} {R : Rd → Prop} {x : Exec Rd} {s s' : Store} {m : D β} {m' : β → D γ} {P : β → Out → Store → Prop}
  {Q : γ → Out → Store → Prop} {k : RV → Exec Rd} {E : Store → Prop}

theorem Sim.toR (h : Sim x s m P E) : SimR R x s m P E := fun rd hp _ => h rd hp

theorem Sim.bindR {S : β → Rd → Prop} (h : SimR R x s m P E) (hS : ∀ rd b rd', Proper rd → R rd → m rd = (.ok b, rd') → S b rd')
    (hk : ∀ b o s', P b o s' → ∃ v, o = .val v ∧ SimR (S b) (k v) s' (m' b) Q E) : SimR R (x.bind k) s (m >>= m') Q E := by
  intro rd hp hR
  have h1 := h rd hp hR
  show After Q E (M.bind m m' rd) _
  unfold M.bind Exec.bind
  rcases hm : m rd with ⟨r, rd'⟩
  rw [hm] at h1
  cases r with
  | ok b =>
    obtain ⟨hp', o, s1, e1, hP⟩ := h1
    obtain ⟨v, rfl, hv⟩ := hk b o s1 hP
    rw [e1]
    exact hv rd' hp' (hS rd b rd' hp hR hm)
  | err e => obtain ⟨hp', s1, e1, hE⟩ := h1; rw [e1]; exact ⟨hp', s1, rfl, hE⟩
  | panic e => obtain ⟨s1, e1⟩ := h1; rw [e1]; exact ⟨s1, rfl⟩
  | diverge =>
    rcases hx : x (rd, s) with ⟨o, t⟩
    rw [hx] at h1
    cases o <;> simp_all [Lost, After]

theorem SimR.bind (h : SimR R x s m P E) (hk : ∀ b o s', P b o s' → ∃ v, o = .val v ∧ Sim (k v) s' (m' b) Q E) :
    SimR R (x.bind k) s (m >>= m') Q E :=
  Sim.bindR (S := fun _ _ => True) h (fun _ _ _ _ _ _ => trivial) fun b o s' hP => by
    obtain ⟨v, h1, h2⟩ := hk b o s' hP
    exact ⟨v, h1, h2.toR⟩

theorem SimR.scope {P' : β → Out → Store → Prop} {E' : Store → Prop} {xs : List Var} (h : SimR R x s m P E)
    (hP : ∀ b o s', P b o s' → P' b o (s'.leave s xs)) (hE : ∀ s', E s' → E' (s'.leave s xs)) :
    SimR R (Exec.inScope xs x) s m P' E' := by
  intro rd hp hR
  have h1 := h rd hp hR
  unfold Exec.inScope
  rcases hm : m rd with ⟨r, rd'⟩
  rw [hm] at h1
  cases r with
  | ok b => obtain ⟨hp', o, s1, e1, hP1⟩ := h1; rw [e1]; exact ⟨hp', o, _, rfl, hP _ _ _ hP1⟩
  | err e => obtain ⟨hp', s1, e1, h2⟩ := h1; rw [e1]; exact ⟨hp', _, rfl, hE _ h2⟩
  | panic e => obtain ⟨s1, e1⟩ := h1; rw [e1]; exact ⟨_, rfl⟩
  | diverge => exact h1

theorem SimR.step {v : RV} (h : ∀ rd : Rd, x (rd, s) = (.val v, (rd, s'))) (hk : SimR R (k v) s' m P E) :
    SimR R (x.bind k) s m P E := by
  intro rd hp hR
  have h1 := hk rd hp hR
  unfold Exec.bind
  rw [h rd]
  exact h1

theorem SimR.congr {y : Exec Rd} (h : SimR R y s m P E) (he : ∀ rd : Rd, x (rd, s) = y (rd, s)) : SimR R x s m P E := by
  intro rd hp hR
  rw [he rd]
  exact h rd hp hR

theorem SimR.map {f : β → γ} (h : SimR R x s m P E) (hQ : ∀ b o t, P b o t → Q (f b) o t) :
    SimR R x s (m >>= fun b => M.pure (f b)) Q E := by
  intro rd hp hR
  have h1 := h rd hp hR
  show After Q E (M.bind m _ rd) _
  unfold M.bind
  rcases hm : m rd with ⟨r, rd'⟩
  rw [hm] at h1
  cases r with
  | ok b => obtain ⟨hp', o, t, e1, h2⟩ := h1; exact ⟨hp', o, t, e1, hQ _ _ _ h2⟩
  | err e => exact h1
  | panic e => exact h1
  | diverge => exact h1

end simR

/-- Two implementations of `deserialize` that agree. -/
def Same (g m : D Val) : Prop :=
  ∀ rd, Proper rd → match m rd with
    | (.ok v, rd') => Proper rd' ∧ g rd = (.ok v, rd')
    | (.err e, rd') => Proper rd' ∧ g rd = (.err e, rd')
    | (.panic e, rd') => g rd = (.panic e, rd')
    | (.diverge, _) => (g rd).1 = .diverge

/-- A `Result` as a value of the program. -/
def resRV {α : Type} (inj : α → RV) : Except Str α → RV
  | .ok a => .ok (inj a)
  | .error e => .err (.str e)

theorem proper_peek {rd : Rd} (h : Proper rd) : Proper (peek rd).2 := Good.adv h (peek_adv rd)

theorem proper_next {rd : Rd} (h : Proper rd) : Proper (nextEvent rd).2 := Good.adv h h.safe.next.2

/-- The event read is the next one, and the depth changes accordingly. -/
theorem next_ok {rd rd' : Rd} {e : REv} (h : Proper rd) (he : nextEvent rd = (.ok e, rd')) :
    rd.stream 0 = .ok e ∧ (rd'.depth : Int) = rd.depth + weight (.ok e) := by
  have := NPat.next (A := fun _ => True) h
  unfold NPat at this
  rw [he] at this
  exact this.2

/-- A peeked event stays the next one. -/
theorem peek_ok {rd rd' : Rd} {e : REv} (h : Proper rd) (he : peek rd = (.ok e, rd')) : rd'.stream 0 = .ok e := by
  have := NPat.peek (A := fun _ => True) h
  unfold NPat at this
  rw [he] at this
  exact this.2.1

/-- A `Result` that is a value. -/
def IsRes {α : Type} (inj : α → RV) (F : Store → Prop) : Except Str α → Out → Store → Prop :=
  fun r o s => o = .val (resRV inj r) ∧ F s

section ops
variable (L : Lib) (g : Path → D Val) (fuel : Nat) {s : Store} {E : Store → Prop}

theorem eval_meth0 (o : Op) (rd : Rd) :
    eval L (deOps L g) fuel (meth o []) (rd, s) = ((deOps L g o [] rd).1, ((deOps L g o [] rd).2, s)) := by
  simp [meth, eval, evalArgs, Exs.ofList, runOp]

theorem sim_peek : Sim (eval L (deOps L g) fuel (meth .peek)) s (M.attempt peek) (IsRes .ev (· = s)) E := by
  intro rd hp
  rw [eval_meth0]
  simp only [M.attempt, deOps, liftD]
  have h1 := proper_peek hp
  rcases hr : peek rd with ⟨r, rd'⟩
  rw [hr] at h1
  cases r <;> simp [resRV, Lost, After, IsRes] <;> exact h1

theorem sim_next : Sim (eval L (deOps L g) fuel (meth .next)) s (M.attempt nextEvent) (IsRes .ev (· = s)) E := by
  intro rd hp
  rw [eval_meth0]
  simp only [M.attempt, deOps, liftD]
  have h1 := proper_next hp
  rcases hr : nextEvent rd with ⟨r, rd'⟩
  rw [hr] at h1
  cases r <;> simp [resRV, Lost, After, IsRes] <;> exact h1

theorem sim_deserialize {rec : Path → D Val} (p : Path) (h : Same (g p) (rec p)) :
    Sim (eval L (deOps L g) fuel (meth (.deserialize p))) s (M.attempt (rec p)) (IsRes .val (· = s)) E := by
  intro rd hp
  rw [eval_meth0]
  simp only [M.attempt, deOps, liftD]
  have h1 := h rd hp
  rcases hr : rec p rd with ⟨r, rd'⟩
  rw [hr] at h1
  cases r with
  | ok b => obtain ⟨h2, h1⟩ := h1; rw [h1]; simp [resRV, h2, After, IsRes]
  | err b => obtain ⟨h2, h1⟩ := h1; rw [h1]; simp [resRV, h2, After, IsRes]
  | panic b => simp only [] at h1; rw [h1]; simp [After]
  | diverge =>
    rcases hg : g p rd with ⟨q, rd2⟩
    rw [hg] at h1
    simp only [] at h1; subst h1; simp [Lost, After]

end ops

/-- `e?` -/
theorem Sim.try_ {α : Type} {inj : α → RV} {L : Lib} {ops : Op → List RV → Rd → Out × Rd} {fuel : Nat} {s : Store} {e : Ex}
    {m : D α} {F E E' : Store → Prop} (h : Sim (eval L ops fuel e) s (M.attempt m) (IsRes inj F) E')
    (hE : ∀ t, F t → E t := by exact fun _ _ => trivial) :
    Sim (eval L ops fuel (.try_ e)) s m (fun a o t => o = .val (inj a) ∧ F t) E := by
  intro rd hp
  have h1 := h rd hp
  simp only [M.attempt] at h1
  simp only [eval, Exec.bind]
  rcases hm : m rd with ⟨r, rd'⟩
  rw [hm] at h1
  cases r with
  | ok b =>
    obtain ⟨hp', o, t, e1, rfl, hF⟩ := h1
    rw [e1]
    exact ⟨hp', _, _, rfl, rfl, hF⟩
  | err b =>
    obtain ⟨hp', o, t, e1, rfl, hF⟩ := h1
    rw [e1]
    exact ⟨hp', _, rfl, hE _ hF⟩
  | panic b =>
    obtain ⟨t, e1⟩ := h1
    rw [e1]
    exact ⟨_, rfl⟩
  | diverge =>
    rcases hx : eval L ops fuel e (rd, s) with ⟨o, t⟩
    rw [hx] at h1
    cases o <;> simp_all [Lost, After]

/-- A call: an error becomes a value. -/
theorem Sim.call {α : Type} {inj : α → RV} {x : Exec Rd} {s : Store} {m : D α} {F E' : Store → Prop}
    (h : Sim x s m (fun a o t => (o = .val (.ok (inj a)) ∨ o = .ret (.ok (inj a))) ∧ F t) F) :
    Sim (Exec.called x) s (M.attempt m) (IsRes inj F) E' := by
  intro rd hp
  have h1 := h rd hp
  simp only [M.attempt, Exec.called]
  rcases hm : m rd with ⟨r, rd'⟩
  rw [hm] at h1
  cases r with
  | ok b =>
    obtain ⟨hp', o, t, e1, rfl | rfl, hF⟩ := h1
    · rw [e1]; exact ⟨hp', _, _, rfl, rfl, hF⟩
    · rw [e1]; exact ⟨hp', _, _, rfl, rfl, hF⟩
  | err b =>
    obtain ⟨hp', t, e1, hF⟩ := h1
    rw [e1]
    exact ⟨hp', _, _, rfl, rfl, hF⟩
  | panic b =>
    obtain ⟨t, e1⟩ := h1
    rw [e1]
    exact ⟨_, rfl⟩
  | diverge =>
    rcases hx : x (rd, s) with ⟨o, t⟩
    rw [hx] at h1
    cases o <;> simp_all [Lost, After]

/-! ### Variables -/

@[simp] theorem Store.set_apply (s : Store) (x y : Var) (v : RV) : s.set x v y = if y = x then v else s y := rfl

@[simp] theorem Store.leave_apply (s old : Store) (xs : List Var) (y : Var) :
    s.leave old xs y = if y ∈ xs then old y else s y := rfl

@[simp] theorem Store.leave_nil (s old : Store) : s.leave old [] = s := by funext y; simp

@[simp] theorem Store.leave_self (s : Store) (xs : List Var) : s.leave s xs = s := by funext y; simp

theorem evalSeq_append {σ : Type} (L : Lib) (ops : Op → List RV → σ → Out × σ) (fuel : Nat) (a b : List Ex) :
    ∀ (v : RV), evalSeq L ops fuel v (.ofList (a ++ b)) =
      (evalSeq L ops fuel v (.ofList a)).bind fun v' => evalSeq L ops fuel v' (.ofList b) := by
  induction a with
  | nil => intro v; funext s; simp [Exs.ofList, evalSeq, Exec.bind, Exec.val, Exec.out]
  | cons e a ih =>
    intro v
    funext s
    simp only [List.cons_append, Exs.ofList, evalSeq, Exec.bind]
    rcases eval L ops fuel e s with ⟨o, s'⟩
    cases o <;> simp only []
    rw [ih]
    rfl

theorem decls_append (a b : List Ex) : (Exs.ofList (a ++ b)).decls = (Exs.ofList a).decls ++ (Exs.ofList b).decls := by
  induction a with
  | nil => rfl
  | cons e a ih =>
    simp only [List.cons_append, Exs.ofList]
    cases e <;> simp [Exs.decls, ih]

theorem evalArms_append {σ : Type} (L : Lib) (ops : Op → List RV → σ → Out × σ) (fuel : Nat) (a b : List (Pat × Ex)) (v : RV)
    (h : ∀ q ∈ a, q.1.matches v = none) : evalArms L ops fuel (.ofList (a ++ b)) v = evalArms L ops fuel (.ofList b) v := by
  induction a with
  | nil => rfl
  | cons q a ih =>
    simp only [List.cons_append, Arms.ofList, evalArms, h q List.mem_cons_self]
    exact ih fun q' hq' => h q' (List.mem_cons_of_mem _ hq')

macro "rs_simp" : tactic => `(tactic|
  simp [blk, fn, mtch, skipE, strE, intE, andE, ifLet, eval, evalSeq, evalArgs, evalArms, Exs.ofList, Arms.ofList, Exec.bind,
    Exec.val, Exec.out, Exec.setVar, Exec.inScope, Exec.called, Pat.matches, Pat.vars, Exs.decls, Fn.apply, Out.ofOption, catAll, RV.eqv, Store.setAll, *])

/-! ### Namespaces -/

def optStr : Option Str → RV
  | some u => .some (.str u)
  | none => .none

section
variable (L : Lib) (g : Path → D Val) (fuel : Nat)

theorem sim_nsMatching {nss : NsMap} {cfg : Option Str} {nsE nameE : Ex} {elemNs : Option Str} {elemName : Str} {s : Store}
    (h1 : ∀ rd : Rd, eval L (deOps L g) fuel nsE (rd, s) = (.val (optStr elemNs), (rd, s)))
    (h2 : ∀ (rd : Rd) (a b : RV), eval L (deOps L g) fuel nameE (rd, (s.set .namespace a).set .bad_namespace b) =
      (.val (.str elemName), (rd, (s.set .namespace a).set .bad_namespace b))) :
    Sim (eval L (deOps L g) fuel (genNsMatching nss cfg nsE nameE)) s (M.ofExcept (nsMatching nss cfg elemNs elemName))
      (fun _ o s' => o = .val .unit ∧ s' = s) (· = s) := by
  cases elemNs with
  | none =>
    intro rd hp
    have e1 := h1 rd
    simp only [optStr] at e1
    simp only [nsMatching, M.ofExcept]
    simp [After, hp, genNsMatching, ifLet, mtch, eval, Exec.bind, e1, Arms.ofList, evalArms, Pat.matches, Pat.vars, Exec.inScope, skipE,
      Exec.val, Exec.out, Store.setAll]
  | some u =>
    intro rd hp
    have e1 := h1 rd
    simp only [optStr] at e1
    have key : ∀ (l : NsMap), let arms := (l.filterMap (fun e => if cfg == some e.1 then some (Pat.str e.2, skipE) else none)
        ++ [(Pat.bind .bad_namespace, blk [
          .letE .msg (fn .cat [strE c!"bad namespace for ", nameE, strE c!", found ", .var .bad_namespace]),
          .ret (fn .err [.var .msg])])])
        (l.any (fun e => cfg == some e.1 && e.2 == u) = true →
          evalArms L (deOps L g) fuel (.ofList arms) (.str u) (rd, s.set .namespace (.str u))
            = (.val .unit, (rd, s.set .namespace (.str u)))) ∧
        (l.any (fun e => cfg == some e.1 && e.2 == u) = false → ∃ s',
          evalArms L (deOps L g) fuel (.ofList arms) (.str u) (rd, s.set .namespace (.str u))
            = (.ret (.err (.str (c!"bad namespace for " ++ elemName ++ c!", found " ++ u))), (rd, s')) ∧
              s'.leave s [.namespace] = s) := by
      intro l
      induction l with
      | nil =>
        refine ⟨fun h => by simp at h, fun _ => ?_⟩
        have e2 := h2 rd (.str u) (.str u)
        simp only [List.filterMap_nil, List.nil_append, Arms.ofList, evalArms, Pat.matches, Exec.inScope, Store.setAll]
        simp [blk, eval, evalSeq, Exs.ofList, fn, evalArgs, strE, Exec.bind, Exec.val, Exec.out, e2, Fn.apply, catAll,
          Out.ofOption, Exec.setVar, Exec.inScope, Exs.decls, Pat.vars]
        funext y
        by_cases h1 : y = .namespace <;> by_cases h2 : y = .bad_namespace <;> by_cases h3 : y = .msg <;> simp [h1, h2, h3]
      | cons e l ih =>
        simp only [List.filterMap_cons, List.any_cons]
        by_cases hc : cfg = some e.1
        · simp only [hc, beq_self_eq_true, if_true, Bool.true_and, List.cons_append, Arms.ofList, evalArms, Pat.matches]
          simp only [hc] at ih
          by_cases hu : e.2 = u
          · simp [hu, Exec.inScope, Pat.vars, Store.setAll, skipE, eval, Exec.val, Exec.out]
          · simp only [hu, if_false, beq_eq_false_iff_ne.2 hu, Bool.false_or]
            exact ih
        · have hb : (cfg == some e.1) = false := beq_eq_false_iff_ne.2 hc
          simp only [hb, Bool.false_eq_true, if_false, Bool.false_and, Bool.false_or]
          exact ih
    have k := key nss
    simp only [nsMatching]
    have run : ∀ q, evalArms L (deOps L g) fuel (.ofList (nss.filterMap (fun e => if cfg == some e.1 then some (Pat.str e.2, skipE) else none)
        ++ [(Pat.bind .bad_namespace, blk [
          .letE .msg (fn .cat [strE c!"bad namespace for ", nameE, strE c!", found ", .var .bad_namespace]),
          .ret (fn .err [.var .msg])])])) (.str u) (rd, s.set .namespace (.str u)) = q →
        eval L (deOps L g) fuel (genNsMatching nss cfg nsE nameE) (rd, s) = (q.1, (q.2.1, q.2.2.leave s [.namespace])) := by
      intro q hq
      simp only [genNsMatching, ifLet, mtch, eval, Exec.bind, e1, Arms.ofList, evalArms, Pat.matches, Pat.vars, Exec.inScope,
        Store.setAll, Store.set_apply, if_true]
      rw [hq]
    by_cases ha : nss.any (fun e => cfg == some e.1 && e.2 == u) = true
    · rw [if_pos ha]
      simp only [M.ofExcept]
      refine ⟨hp, _, _, run _ (k.1 ha), rfl, ?_⟩
      funext y
      simp only [Store.leave_apply, Store.set_apply, List.mem_singleton]
      by_cases hy : y = .namespace <;> simp [hy]
    · rw [if_neg ha]
      obtain ⟨s', hs', hs''⟩ := k.2 (Bool.eq_false_iff.2 ha)
      simp only [M.ofExcept]
      exact ⟨hp, _, run _ hs', hs''⟩

/-! ### The events kept for flattened fields -/

def optW : Option EW → RV
  | some w => .some (.writer w)
  | none => .none

theorem EW.write_ends (e : WEv) (w : EW) : (∃ w', EW.write e w = (.ok (), w')) ∨ (∃ m w', EW.write e w = (.err m, w')) := by
  unfold EW.write
  dsimp only
  cases w.io w.calls with
  | some m => exact .inr ⟨_, _, rfl⟩
  | none =>
    cases e with
    | endE gn =>
      dsimp only
      cases w.opened with
      | nil => exact .inr ⟨_, _, rfl⟩
      | cons n r =>
        cases gn with
        | none => exact .inl ⟨_, rfl⟩
        | some gn =>
          dsimp only
          by_cases h : gn = n
          · rw [if_pos h]; exact .inl ⟨_, rfl⟩
          · rw [if_neg h]; exact .inr ⟨_, _, rfl⟩
    | _ => exact .inl ⟨_, rfl⟩

theorem eval_writeUnused {e : REv} {w : Option EW} {s : Store} {hf : Bool} (he : s .event = .ev e)
    (hw : hf = true → s .writer = optW w) (v : RV) (rd : Rd) :
    match writeUnused hf e w with
    | .ok w' => ∃ v' s', evalSeq L (deOps L g) fuel v (.ofList (genWriteUnused hf)) (rd, s) = (.val v', (rd, s')) ∧
        (∀ x, x ≠ .writer → s' x = s x) ∧ (hf = true → s' .writer = optW w')
    | .panic m => ∃ s', evalSeq L (deOps L g) fuel v (.ofList (genWriteUnused hf)) (rd, s) = (.panic m, (rd, s'))
    | _ => False := by
  cases hf with
  | false =>
    simp only [writeUnused, Bool.not_false, if_true, genWriteUnused, Bool.false_eq_true, if_false]
    exact ⟨_, _, rfl, fun _ _ => rfl, fun h => by cases h⟩
  | true =>
    have hw := hw rfl
    simp only [writeUnused, Bool.not_true, Bool.false_eq_true, if_false, genWriteUnused, if_true]
    cases w with
    | none =>
      simp only [optW] at hw
      refine ⟨.unit, s, ?_, fun _ _ => rfl, fun _ => by simp [optW, hw]⟩
      simp [Exs.ofList, evalSeq, ifLet, mtch, eval, Exec.bind, hw, Arms.ofList, evalArms, Pat.matches, Exec.inScope, Pat.vars,
        skipE, Exec.val, Exec.out, Store.setAll]
    | some ew =>
      simp only [optW] at hw
      cases hwe : e.asWriterEvent with
      | none =>
        refine ⟨s, ?_⟩
        simp [Exs.ofList, evalSeq, ifLet, mtch, eval, Exec.bind, hw, Arms.ofList, evalArms, Pat.matches, Exec.inScope, Pat.vars,
          Exec.val, Exec.out, Store.setAll, fn, evalArgs, he, Fn.apply, hwe, RV.unwrap]
      | some we =>
        dsimp only
        rcases EW.write_ends we ew with ⟨w', h⟩ | ⟨m, w', h⟩
        · rw [h]
          refine ⟨.unit, s.set .writer (.some (.writer w')), ?_, fun x hx => by simp [hx], fun _ => by simp [optW]⟩
          simp [Exs.ofList, evalSeq, ifLet, mtch, eval, Exec.bind, hw, Arms.ofList, evalArms, Pat.matches, Exec.inScope, Pat.vars,
            Exec.val, Exec.out, Store.setAll, fn, evalArgs, he, Fn.apply, hwe, RV.unwrap, RV.modAt, Mut.run, h, skipE]
        · rw [h]
          refine ⟨.unit, (s.set .writer (.some (.writer w'))).set .writer .none, ?_, fun x hx => by simp [hx],
            fun _ => by simp [optW]⟩
          simp [Exs.ofList, evalSeq, ifLet, mtch, eval, Exec.bind, hw, Arms.ofList, evalArms, Pat.matches, Exec.inScope, Pat.vars,
            Exec.val, Exec.out, Store.setAll, fn, evalArgs, he, Fn.apply, hwe, RV.unwrap, RV.modAt, Mut.run, h, Exec.setVar]

theorem sim_writeUnused {e : REv} {w : Option EW} {s : Store} {hf : Bool} {E : Store → Prop} (he : s .event = .ev e)
    (hw : hf = true → s .writer = optW w) (v : RV) :
    Sim (evalSeq L (deOps L g) fuel v (.ofList (genWriteUnused hf))) s (M.lift (writeUnused hf e w))
      (fun w' o s' => (∃ v', o = .val v') ∧ (∀ x, x ≠ .writer → s' x = s x) ∧ (hf = true → s' .writer = optW w')) E := by
  intro rd hp
  have h := eval_writeUnused L g fuel he hw v rd
  simp only [M.lift]
  cases hr : writeUnused hf e w with
  | ok w' => rw [hr] at h; obtain ⟨v', s', e1, h1, h2⟩ := h; exact ⟨hp, _, s', e1, ⟨v', rfl⟩, h1, h2⟩
  | err m => rw [hr] at h; exact h.elim
  | panic m => rw [hr] at h; exact h
  | diverge => rw [hr] at h; exact h.elim

theorem writeUnusedAll_snoc (hf : Bool) (e : REv) : ∀ (l : List REv) (w : Option EW),
    writeUnusedAll hf (l ++ [e]) w = (writeUnusedAll hf l w).bind (writeUnused hf e)
  | [], w => by
    simp only [List.nil_append, writeUnusedAll]
    show (writeUnused hf e w).bind (fun w' => .ok w') = writeUnused hf e w
    cases writeUnused hf e w <;> rfl
  | a :: l, w => by
    simp only [List.cons_append, writeUnusedAll]
    cases writeUnused hf a w with
    | ok w' => simp only [Res.bind]; exact writeUnusedAll_snoc hf e l w'
    | _ => rfl

theorem writeUnused_panic {hf : Bool} {e : REv} {w : Option EW} {m : Str} (h : writeUnused hf e w = .panic m) :
    e = .endDocument ∧ m = unwrapNone := by
  unfold writeUnused at h
  split at h
  · cases h
  · cases w with
    | none => cases h
    | some ew =>
      dsimp only at h
      cases he : e.asWriterEvent with
      | none =>
        rw [he] at h
        cases h
        refine ⟨?_, rfl⟩
        cases e <;> first | rfl | cases he
      | some we =>
        rw [he] at h
        dsimp only at h
        split at h <;> cases h

def skipBody (hf : Bool) : Ex :=
  .ite (fn .ge [meth .depth, .var .rt_depth]) (blk [.letE .event (.try_ (meth .next)), blk (genWriteUnused hf)]) .brk

theorem genWriteUnused_decls (hf : Bool) : (Exs.ofList (genWriteUnused hf)).decls = [] := by
  cases hf <;> rfl

theorem skipBody_stop {d : Nat} {hf : Bool} {t : Store} {rd : Rd} (ht : t .rt_depth = .int d) (hd : ¬ rd.depth ≥ d) :
    eval L (deOps L g) fuel (skipBody hf) (rd, t) = (.brk, (rd, t)) := by
  have hd' : ¬ ((d : Int) ≤ (rd.depth : Int)) := by omega
  simp [skipBody, eval, fn, evalArgs, Exs.ofList, Exec.bind, eval_meth0, deOps, ht, Fn.apply, Exec.out, hd']

theorem skipBody_go {d : Nat} {hf : Bool} {t : Store} {rd : Rd} (ht : t .rt_depth = .int d) (hd : rd.depth ≥ d) :
    eval L (deOps L g) fuel (skipBody hf) (rd, t) =
      eval L (deOps L g) fuel (blk [.letE .event (.try_ (meth .next)), blk (genWriteUnused hf)]) (rd, t) := by
  have hd' : ((d : Int) ≤ (rd.depth : Int)) := by omega
  simp [skipBody, eval, fn, evalArgs, Exs.ofList, Exec.bind, eval_meth0, deOps, ht, Fn.apply, Exec.out, hd']

theorem bindAssoc {α β γ : Type} (m : D α) (k : α → D β) (k' : β → D γ) :
    (m >>= k) >>= k' = m >>= fun a => k a >>= k' := by
  funext rd
  show M.bind (M.bind m k) k' rd = M.bind m (fun a => M.bind (k a) k') rd
  unfold M.bind
  rcases m rd with ⟨r, rd'⟩
  cases r <;> rfl

theorem skipLoop_succ (n d : Nat) (acc : List REv) : skipLoop (n + 1) d acc =
    (M.get >>= fun rd => if rd.depth ≥ d then nextEvent >>= fun e => skipLoop n d (acc ++ [e]) else M.pure acc) := by
  funext rd
  show (if rd.depth ≥ d then (nextEvent >>= fun e => skipLoop n d (acc ++ [e])) rd else (.ok acc, rd)) =
    (if rd.depth ≥ d then nextEvent >>= fun e => skipLoop n d (acc ++ [e]) else M.pure acc) rd
  by_cases h : rd.depth ≥ d <;> simp only [h, if_true, if_false] <;> rfl

/-- The variables afterwards: only `writer` has changed, to what it should be. -/
def Wrote (hf : Bool) (s : Store) (w : Option EW) (s' : Store) : Prop :=
  (∀ x, x ≠ .writer → s' x = s x) ∧ (hf = true → s' .writer = optW w)

theorem skip_sim {hf : Bool} {w : Option EW} {d : Nat} (hd1 : 1 ≤ d) : ∀ (n : Nat) (acc : List REv) (w1 : Option EW) (t : Store),
    t .rt_depth = .int d → (hf = true → t .writer = optW w1) → writeUnusedAll hf acc w = .ok w1 →
    Sim (Exec.loopN (eval L (deOps L g) fuel (skipBody hf)) n) t
      (skipLoop n d acc >>= fun evs => M.lift (writeUnusedAll hf evs w))
      (fun w' o t' => o = .val .unit ∧ Wrote hf t w' t') Any
  | 0, acc, w1, t, _, _, _ => by
    intro rd hp
    exact True.intro
  | n + 1, acc, w1, t, ht, hw, ha => by
    intro rd hp
    rw [skipLoop_succ]
    by_cases hd : rd.depth ≥ d
    · have hm : (((M.get >>= fun rd : Rd => if rd.depth ≥ d then nextEvent >>= fun e => skipLoop n d (acc ++ [e]) else M.pure acc) >>=
          fun evs => M.lift (writeUnusedAll hf evs w)) : D (Option EW)) rd =
          (nextEvent >>= fun e => skipLoop n d (acc ++ [e]) >>= fun evs => M.lift (writeUnusedAll hf evs w)) rd := by
        rw [bindAssoc]
        show ((if rd.depth ≥ d then nextEvent >>= fun e => skipLoop n d (acc ++ [e]) else M.pure acc) >>= _) rd = _
        rw [if_pos hd, bindAssoc]
      rw [hm]
      have hn := proper_next hp
      unfold Exec.loopN
      rw [skipBody_go L g fuel ht hd]
      have hdec : (Exs.cons (Ex.letE .event (.try_ (meth .next))) (Exs.cons (.block (.ofList (genWriteUnused hf))) .nil)).decls
          = [.event] := rfl
      have he : eval L (deOps L g) fuel (blk [.letE .event (.try_ (meth .next)), blk (genWriteUnused hf)]) (rd, t) =
          match nextEvent rd with
          | (.ok e, rd') =>
            ((evalSeq L (deOps L g) fuel .unit (.ofList (genWriteUnused hf)) (rd', t.set .event (.ev e))).1,
              ((evalSeq L (deOps L g) fuel .unit (.ofList (genWriteUnused hf)) (rd', t.set .event (.ev e))).2.1,
               (evalSeq L (deOps L g) fuel .unit (.ofList (genWriteUnused hf)) (rd', t.set .event (.ev e))).2.2.leave t [.event]))
          | (.err m, rd') => (.ret (.err (.str m)), (rd', t))
          | (.panic m, rd') => (.panic m, (rd', t))
          | (.diverge, rd') => (.diverge, (rd', t)) := by
        simp only [blk, Exs.ofList, eval, Exec.inScope, evalSeq, Exec.bind, eval_meth0, deOps, liftD, hdec, genWriteUnused_decls,
          Store.leave_nil]
        rcases nextEvent rd with ⟨r, rd'⟩
        cases r with
        | ok e =>
          simp only [Exec.val, Exec.out, Exec.setVar]
          rcases evalSeq L (deOps L g) fuel .unit (.ofList (genWriteUnused hf)) (rd', t.set .event (.ev e)) with ⟨o, t'⟩
          cases o <;> rfl
        | err m => simp [Exec.out]
        | panic m => simp
        | diverge => simp
      rw [he]
      show After _ _ (M.bind nextEvent _ rd) _
      unfold M.bind
      rcases hr : nextEvent rd with ⟨r, rd'⟩
      rw [hr] at hn
      simp only at hn
      cases r with
      | ok e =>
        simp only []
        have hwu := eval_writeUnused L g fuel (s := t.set .event (.ev e)) (e := e) (w := w1) (hf := hf) (by simp)
          (fun h => by simp [hw h]) .unit rd'
        cases hu : writeUnused hf e w1 with
        | ok w2 =>
          rw [hu] at hwu
          obtain ⟨v', s', e1, h1, h2⟩ := hwu
          rw [e1]
          simp only []
          have ih := skip_sim (w := w) (d := d) hd1 n (acc ++ [e]) w2 (s'.leave t [.event])
            (by simp [h1, ht]) (fun h => by simp [h2 h]) (by rw [writeUnusedAll_snoc, ha]; exact hu) rd' hn
          refine ih.conseq ?_ fun _ h => h
          rintro b o t2 ⟨h3, h4, h5⟩
          refine ⟨h3, fun x hx => (h4 x hx).trans ?_, h5⟩
          by_cases hxe : x = .event
          · simp [hxe]
          · simp [hxe, h1 x hx]
        | err m => rw [hu] at hwu; exact hwu.elim
        | panic m =>
          rw [hu] at hwu
          obtain ⟨rfl, rfl⟩ := writeUnused_panic hu
          have := hp.closed 0 (next_ok hp hr).1
          simp only [weightSum] at this
          omega
        | diverge => rw [hu] at hwu; exact hwu.elim
      | err m => exact ⟨hn, _, rfl, trivial⟩
      | panic m => exact ⟨_, rfl⟩
      | diverge => exact True.intro
    · unfold Exec.loopN
      rw [skipBody_stop L g fuel ht hd]
      have hm : (((M.get >>= fun rd : Rd => if rd.depth ≥ d then nextEvent >>= fun e => skipLoop n d (acc ++ [e]) else M.pure acc) >>=
          fun evs => M.lift (writeUnusedAll hf evs w)) : D (Option EW)) rd = (.ok w1, rd) := by
        show M.bind (M.bind M.get _) _ rd = _
        simp only [M.bind, M.get, hd, if_false, M.pure, M.lift, ha]
      rw [hm]
      exact ⟨hp, _, _, rfl, rfl, fun _ _ => rfl, hw⟩

theorem sim_skip {hf : Bool} {w : Option EW} {s : Store} (hw : hf = true → s .writer = optW w) :
    SimR (1 ≤ ·.depth) (eval L (deOps L g) fuel (.try_ (skipElementE (genWriteUnused hf)))) s
      (skipElement fuel >>= fun evs => M.lift (writeUnusedAll hf evs w))
      (fun w' o s' => o = .val .unit ∧ Wrote hf s w' s') Any := by
  have hc : SimR (1 ≤ ·.depth) (Exec.called (eval L (deOps L g) fuel (blk [.letE .rt_depth (meth .depth), .loop (skipBody hf), fn .ok [skipE]]))) s
      (M.attempt (skipElement fuel >>= fun evs => M.lift (writeUnusedAll hf evs w)))
      (fun r o s' => match r with
        | .ok w' => o = .val (.ok .unit) ∧ Wrote hf s w' s'
        | .error e => o = .val (.err (.str e))) Any := by
    intro rd hp hR
    have h := skip_sim L g fuel (hf := hf) (w := w) (d := rd.depth) hR fuel [] w (s.set .rt_depth (.int rd.depth)) (by simp)
      (fun h => by simp [hw h]) rfl rd hp
    have hs : (skipElement fuel >>= fun evs => M.lift (writeUnusedAll hf evs w)) rd =
        (skipLoop fuel rd.depth [] >>= fun evs => M.lift (writeUnusedAll hf evs w)) rd := rfl
    simp only [M.attempt]
    rw [hs]
    simp only [Exec.called, blk, eval, Exec.inScope, Exs.ofList, evalSeq, Exec.bind, eval_meth0, deOps, Exec.setVar]
    rcases hq : (skipLoop fuel rd.depth [] >>= fun evs => M.lift (writeUnusedAll hf evs w)) rd with ⟨q, rd'⟩
    rw [hq] at h
    cases q with
    | ok w' =>
      obtain ⟨hp', o, t', e1, rfl, h1, h2⟩ := h
      rw [e1]
      have hok : eval L (deOps L g) fuel (fn .ok [skipE]) (rd', t') = (.val (.ok .unit), (rd', t')) := rfl
      simp only [hok, Exec.val, Exec.out]
      refine ⟨hp', _, _, rfl, rfl, fun x hx => ?_, fun h => ?_⟩
      · simp only [Store.leave_apply]
        split
        · rfl
        · rename_i hne
          rw [h1 x hx, Store.set_apply, if_neg]
          rintro rfl
          exact hne (List.mem_cons_self)
      · simp [Exs.decls, fn, h2 h]
    | err e =>
      obtain ⟨hp', t', e1, _⟩ := h
      rw [e1]
      exact ⟨hp', _, _, rfl, rfl⟩
    | panic e =>
      obtain ⟨t', e1⟩ := h
      rw [e1]
      exact ⟨_, rfl⟩
    | diverge =>
      revert h
      rcases Exec.loopN (eval L (deOps L g) fuel (skipBody hf)) fuel (rd, s.set .rt_depth (.int rd.depth)) with ⟨o, t⟩
      cases o <;> simp [After, Lost]
  intro rd hp hR
  have h1 := hc rd hp hR
  simp only [M.attempt] at h1
  have hb : eval L (deOps L g) fuel (.try_ (skipElementE (genWriteUnused hf))) (rd, s) =
    ((Exec.called (eval L (deOps L g) fuel (blk [.letE .rt_depth (meth .depth), .loop (skipBody hf), fn .ok [skipE]]))).bind fun v =>
      match v with
      | .ok v => Exec.val v
      | .err m => Exec.out (.ret (.err m))
      | _ => Exec.out .stuck) (rd, s) := by
    rfl
  rw [hb]
  unfold Exec.bind
  rcases hq : (skipElement fuel >>= fun evs => M.lift (writeUnusedAll hf evs w)) rd with ⟨q, rd'⟩
  rw [hq] at h1
  cases q with
  | ok w' => obtain ⟨hp', o, t', e1, rfl, h2⟩ := h1; rw [e1]; exact ⟨hp', _, _, rfl, rfl, h2⟩
  | err e => obtain ⟨hp', o, t', e1, rfl⟩ := h1; rw [e1]; exact ⟨hp', _, rfl, trivial⟩
  | panic e => obtain ⟨t', e1⟩ := h1; rw [e1]; exact ⟨_, rfl⟩
  | diverge =>
    revert h1
    rcases Exec.called (eval L (deOps L g) fuel (blk [.letE .rt_depth (meth .depth), .loop (skipBody hf), fn .ok [skipE]])) (rd, s)
      with ⟨o, t⟩
    cases o <;> simp [After, Lost]

end

end Yaserde.Rs
