import Verif.Proofs.Slots
import Verif.Proofs.Runtime
/-
The generated deserializer computes the declarative reading (`Spec/Decode.lean`).
-/

set_option autoImplicit false

namespace Yaserde

/-- Effect on the unused-events writer of one event. -/
def wput (b : Bool) (w : Option EW) (e : REv) : Option EW :=
  if !b then w
  else match w, e.asWriterEvent with
    | some ew, some we =>
      match EW.write we ew with
      | (.ok (), ew') => some ew'
      | _ => none
    | _, _ => none

def wputs (b : Bool) (w : Option EW) (es : List REv) : Option EW := es.foldl (wput b) w

@[simp] theorem wputs_nil (b : Bool) (w : Option EW) : wputs b w [] = w := rfl
theorem wputs_cons (b : Bool) (w : Option EW) (e : REv) (es : List REv) :
    wputs b w (e :: es) = wputs b (wput b w e) es := rfl
theorem wputs_append (b : Bool) (w : Option EW) (es es' : List REv) :
    wputs b w (es ++ es') = wputs b (wputs b w es) es' := by simp [wputs]
@[simp] theorem wput_false (w : Option EW) (e : REv) : wput false w e = w := rfl
@[simp] theorem wputs_false (w : Option EW) (es : List REv) : wputs false w es = w := by
  induction es with
  | nil => rfl
  | cons e es ih => simpa [wputs_cons] using ih

theorem writeUnused_eq (b : Bool) (e : REv) (w : Option EW) (h : e ≠ .endDocument) :
    writeUnused b e w = .ok (wput b w e) := by
  cases b
  · rfl
  · cases w with
    | none => cases e <;> rfl
    | some ew =>
      cases e <;> first | contradiction | skip
      all_goals
        simp only [writeUnused, wput, REv.asWriterEvent, Bool.not_true, Bool.false_eq_true, if_false]
        generalize EW.write _ ew = z
        rcases z with ⟨r, w'⟩
        cases r <;> rfl

theorem writeUnusedAll_eq (b : Bool) (es : List REv) (h : ∀ e ∈ es, e ≠ .endDocument) :
    ∀ w, writeUnusedAll b es w = .ok (wputs b w es) := by
  induction es with
  | nil => intro w; rfl
  | cons e es ih =>
    intro w
    simp only [writeUnusedAll, writeUnused_eq b e w (h e (List.mem_cons_self ..)), Res.bind_ok,
      ih (fun x hx => h x (List.mem_cons_of_mem _ hx)), wputs_cons]

mutual
  theorem events_ne (x : Node) : ∀ e ∈ x.events, e ≠ .endDocument := by
    cases x with
    | text s => simp [Node.events]
    | elem n as m ks =>
      intro e he
      simp only [Node.events, List.mem_cons, List.mem_append, List.not_mem_nil, or_false] at he
      rcases he with rfl | he | rfl
      · simp
      · exact eventsL_ne ks e he
      · simp
  theorem eventsL_ne (ks : List Node) : ∀ e ∈ Node.eventsL ks, e ≠ .endDocument := by
    cases ks with
    | nil => simp [Node.eventsL]
    | cons k ks =>
      intro e he
      simp only [Node.eventsL, List.mem_append] at he
      rcases he with he | he
      · exact events_ne k e he
      · exact eventsL_ne ks e he
end

theorem bind_lift_ok {σ α β : Type} (a : α) (f : α → M σ β) : (M.lift (.ok a) >>= f) = f a := rfl
theorem bind_pure_right {σ α : Type} (x : M σ α) : (x >>= fun a => M.pure a) = x := by
  funext s
  rcases h : x s with ⟨r, s'⟩
  cases r with
  | ok a => rw [bind_ok h]; rfl
  | err m => rw [bind_err h]
  | panic m => rw [bind_panic h]
  | diverge => rw [bind_diverge h]
theorem bind_pure' {σ α β : Type} (a : α) (f : α → M σ β) : (M.pure a >>= f) = f a := rfl

/-- The run `x` has outcome `r`; if that is `ok a` the run's value and final state satisfy `Q a`. -/
def Runs {α β σ : Type} (x : Res β × σ) (r : Res α) (Q : α → β → σ → Prop) : Prop :=
  match r with
  | .ok a => ∃ b s, x = (.ok b, s) ∧ Q a b s
  | .err m => ∃ s, x = (.err m, s)
  | .panic m => ∃ s, x = (.panic m, s)
  | .diverge => False

theorem Runs.mono {α β σ : Type} {x : Res β × σ} {r : Res α} {Q Q' : α → β → σ → Prop}
    (h : Runs x r Q) (hq : ∀ a b s, r = .ok a → Q a b s → Q' a b s) : Runs x r Q' := by
  cases r with
  | ok a => obtain ⟨b, s, h1, h2⟩ := h; exact ⟨b, s, h1, hq a b s rfl h2⟩
  | err m => exact h
  | panic m => exact h
  | diverge => exact h

/-- Sequencing of runs. -/
theorem Runs.bind {α β γ δ σ : Type} {x : M σ β} {s : σ} {r : Res α} {Q : α → β → σ → Prop}
    {f : β → M σ δ} {g : α → Res γ} {Q' : γ → δ → σ → Prop} (h : Runs (x s) r Q)
    (hf : ∀ a b s', r = .ok a → Q a b s' → Runs (f b s') (g a) Q') :
    Runs ((x >>= f) s) (r.bind g) Q' := by
  cases r with
  | ok a =>
    obtain ⟨b, s', h1, h2⟩ := h
    rw [bind_ok h1]
    exact hf a b s' rfl h2
  | err m => obtain ⟨s', h1⟩ := h; exact ⟨s', by rw [bind_err h1]⟩
  | panic m => obtain ⟨s', h1⟩ := h; exact ⟨s', by rw [bind_panic h1]⟩
  | diverge => exact h.elim

/-- A deterministic run. -/
theorem Runs.of_eq {α β σ : Type} {x y : Res β × σ} {r : Res α} {Q : α → β → σ → Prop}
    (h : x = y) (hr : Runs y r Q) : Runs x r Q := h ▸ hr

/-- A failure in the specification alone ends the run; otherwise it goes on. -/
theorem Runs.bind' {α γ δ σ : Type} {y : Res δ × σ} {r : Res α} {g : α → Res γ}
    {Q' : γ → δ → σ → Prop} (h : Runs y r fun a _ _ => Runs y (g a) Q') :
    Runs y (r.bind g) Q' := by
  cases r with
  | ok a => obtain ⟨b, s', h1, h2⟩ := h; exact h2
  | err m => exact h
  | panic m => exact h
  | diverge => exact h.elim

/-- `f` reads the element with outcome `r` (nested at any depth `≥ lo`, whatever follows); on
success it stops in front of its end tag, or in front of the events `left` before that (possibly its start tag). -/
def ReadsAs (lo : Nat) (f : D Val) (name : Name) (evs left : List REv) (r : Res Val) : Prop :=
  ∀ (dep : Nat) (rest : List REv) (fin : Option Str) (rd : Rd), lo ≤ dep →
    At dep (evs ++ rest) fin rd →
    Runs (f rd) r fun v b rd' => b = v ∧ At (dep + 1 - opens left) (left ++ .endE name :: rest) fin rd'

section
variable (L : Lib) (rec : Path → D Val) (skipFuel : Nat) (d : StructDef) (named : Str) (dep : Nat)

/-- An end tag that is not the struct's own. -/
theorem structLoop_end {n : Nat} {st : LoopSt} {name : Name}
    {rest : List REv} {fin : Option Str} {rd : Rd} {D' : Nat}
    (hD : D' ≠ dep)
    (h : At (D' + 1) (.endE name :: rest) fin rd) :
    ∃ rd', structLoop L rec skipFuel d named dep (n + 1) st rd
        = structLoop L rec skipFuel d named dep n
            { st with depth := st.depth - 1, writer := wput d.hasFlat st.writer (.endE name) } rd' ∧
      At D' rest fin rd' := by
  obtain ⟨rd1, h1, a1⟩ := peek_at h
  obtain ⟨rd2, h2, a2⟩ := next_end a1
  refine ⟨rd2, ?_, a2⟩
  have hstep : structStep L rec skipFuel d named dep st rd
      = (.ok ({ st with depth := st.depth - 1, writer := wput d.hasFlat st.writer (.endE name) },
          true), rd2) := by
    unfold structStep
    rw [bind_ok h1]
    dsimp only
    rw [bind_get, if_neg (by rw [a1.depth]; omega), bind_ok h2, writeUnused_eq _ _ _ (by simp)]
    rfl
  conv => lhs; unfold structLoop
  rw [bind_ok hstep]
  rfl

/-- The struct's own end tag. -/
theorem structLoop_own_end {n : Nat} {st : LoopSt} {name : Name}
    {rest : List REv} {fin : Option Str} {rd : Rd} (hn : name.loc = named)
    (h : At (dep + 1) (.endE name :: rest) fin rd) :
    ∃ rd', structLoop L rec skipFuel d named dep (n + 1) st rd
        = (.ok { st with writer := wput d.hasFlat st.writer (.endE name) }, rd') ∧
      At (dep + 1) (.endE name :: rest) fin rd' := by
  obtain ⟨rd1, h1, a1⟩ := peek_at h
  refine ⟨rd1, ?_, a1⟩
  have hstep : structStep L rec skipFuel d named dep st rd
      = (.ok ({ st with writer := wput d.hasFlat st.writer (.endE name) }, false), rd1) := by
    unfold structStep
    rw [bind_ok h1]
    dsimp only
    rw [bind_get, if_pos ⟨hn, a1.depth⟩, writeUnused_eq _ _ _ (by simp)]
    rfl
  unfold structLoop
  rw [bind_ok hstep]
  rfl

theorem structLoop_text {n : Nat} {st : LoopSt} {s : Str}
    {rest : List REv} {fin : Option Str} {rd : Rd} {D' : Nat}
    (h : At D' (.chars s :: rest) fin rd) :
    ∃ rd', structLoop L rec skipFuel d named dep (n + 1) st rd
        = structLoop L rec skipFuel d named dep n
            { st with slots := setText d.fields s st.slots,
                      writer := wput d.hasFlat st.writer (.chars s) } rd' ∧
      At D' rest fin rd' := by
  obtain ⟨rd1, h1, a1⟩ := peek_at h
  obtain ⟨rd2, h2, a2⟩ := next_chars a1
  refine ⟨rd2, ?_, a2⟩
  have hstep : structStep L rec skipFuel d named dep st rd
      = (.ok ({ st with slots := setText d.fields s st.slots,
                        writer := wput d.hasFlat st.writer (.chars s) }, true), rd2) := by
    unfold structStep
    rw [bind_ok h1]
    dsimp only
    rw [bind_ok h2, writeUnused_eq _ _ _ (by simp)]
    rfl
  conv => lhs; unfold structLoop
  rw [bind_ok hstep]
  rfl

/-- A start tag. -/
theorem structLoop_start {α γ : Type} {n : Nat} {st : LoopSt} {name : Name} {as : List Attr} {m : NsMap}
    {rest : List REv} {fin : Option Str} {rd : Rd} {D' : Nat}
    (h : At D' (.start name as m :: rest) fin rd) {r : Res α} {g : α → Res γ}
    {Q : γ → LoopSt → Rd → Prop}
    (hstart : ∀ rd1, At D' (.start name as m :: rest) fin rd1 →
      Runs (structStart L rec skipFuel d st name as rd1) r fun a st' rd' =>
        Runs (structLoop L rec skipFuel d named dep n st' rd') (g a) Q) :
    Runs (structLoop L rec skipFuel d named dep (n + 1) st rd) (r.bind g) Q := by
  obtain ⟨rd1, h1, a1⟩ := peek_at h
  have hstep : Runs (structStep L rec skipFuel d named dep st rd) r fun a b rd' =>
      b.2 = true ∧ Runs (structLoop L rec skipFuel d named dep n b.1 rd') (g a) Q := by
    unfold structStep
    rw [bind_ok h1]
    dsimp only
    have := Runs.bind (g := fun a => Res.ok a) (f := fun st' => M.pure (st', true))
      (Q' := fun a b rd' => b.2 = true ∧ Runs (structLoop L rec skipFuel d named dep n b.1 rd') (g a) Q)
      (hstart rd1 a1) (fun a b s' _ hq => ⟨(b, true), s', rfl, rfl, hq⟩)
    rwa [show r.bind (fun a => Res.ok a) = r by cases r <;> rfl] at this
  conv => arg 1; unfold structLoop
  refine Runs.bind hstep ?_
  rintro a ⟨st', c⟩ s' _ ⟨rfl, hq⟩
  exact hq

/-- `structStart` once the loop is inside its element. -/
theorem structStart_inner {st : LoopSt} (hd : st.depth ≥ 1) (name : Name) (as : List Attr) (rd : Rd) :
    structStart L rec skipFuel d st name as rd =
      ((match d.fieldFor name with
        | some i =>
          (match d.fields[i]? with
          | some f => callVisitor L rec d.attrs f i name st
          | none => M.pure st)
        | none =>
          nextEvent >>= fun e' =>
          M.lift (writeUnused d.hasFlat e' st.writer) >>= fun w =>
          if st.depth > 0 then
            skipElement skipFuel >>= fun evs =>
            M.lift (writeUnusedAll d.hasFlat evs w) >>= fun w' => M.pure { st with writer := w' }
          else M.pure { st with writer := w }) >>= fun st' =>
      (if st'.depth = 0 then
        M.lift (loadAttrs L rec d.fields as st'.slots) >>= fun ss => M.pure { st' with slots := ss }
      else M.pure st') >>= fun st'' =>
      M.pure { st'' with depth := st''.depth + 1 }) rd := by
  unfold structStart
  rw [if_neg (by omega), findArm_eq]
  rfl

/-- What follows the arm in `structStart`, inside the element. -/
theorem afterArm {st : LoopSt} (hd : st.depth ≥ 1) (as : List Attr) (rd : Rd) :
    ((if st.depth = 0 then
        M.lift (loadAttrs L rec d.fields as st.slots) >>= fun ss => M.pure { st with slots := ss }
      else M.pure st) >>= fun st'' =>
      M.pure { st'' with depth := st''.depth + 1 } : D LoopSt) rd
      = (.ok { st with depth := st.depth + 1 }, rd) := by
  rw [if_neg (by omega)]; rfl

/-- An element no field claims. -/
theorem structStart_unknown {st : LoopSt} (hd : st.depth ≥ 1)
    {name : Name} {as : List Attr} {m : NsMap} {ks : List Node} (hf : d.fieldFor name = none)
    {rest : List REv} {fin : Option Str} {rd : Rd} {D' : Nat}
    (hfuel : (Node.eventsL ks).length + 1 < skipFuel)
    (h : At D' (.start name as m :: (Node.eventsL ks ++ .endE name :: rest)) fin rd) :
    ∃ rd', structStart L rec skipFuel d st name as rd
        = (.ok { st with depth := st.depth + 1,
                         writer := wputs d.hasFlat st.writer (Node.elem name as m ks).events }, rd') ∧
      At D' rest fin rd' := by
  rw [structStart_inner L rec skipFuel d hd, hf]
  obtain ⟨rd1, h1, a1⟩ := next_start h
  obtain ⟨rd2, h2, a2⟩ := skipElement_at a1 hfuel
  refine ⟨rd2, ?_, a2⟩
  have harm : (nextEvent >>= fun e' =>
          M.lift (writeUnused d.hasFlat e' st.writer) >>= fun w =>
          if st.depth > 0 then
            skipElement skipFuel >>= fun evs =>
            M.lift (writeUnusedAll d.hasFlat evs w) >>= fun w' => M.pure { st with writer := w' }
          else M.pure { st with writer := w } : D LoopSt) rd
      = (.ok { st with writer := wputs d.hasFlat st.writer (Node.elem name as m ks).events }, rd2) := by
    rw [bind_ok h1, writeUnused_eq _ _ _ (by simp), bind_lift_ok, if_pos (by omega), bind_ok h2,
      writeUnusedAll_eq]
    · rfl
    · intro e he
      rcases List.mem_append.mp he with he | he
      · exact eventsL_ne ks e he
      · simp at he; simp [he]
  dsimp only
  rw [bind_ok harm, afterArm L rec d (st := { st with writer := wputs d.hasFlat st.writer (Node.elem name as m ks).events }) hd]

/-- A child of a scalar field, containing text only. -/
theorem callSimple_text {st : LoopSt} {f : FieldDef} {i : Nat} {t : STy} {name : Name}
    {as : List Attr} {m : NsMap} {ks : List Node} (hks : textOnly ks)
    (hns : nsMatching d.attrs.namespaces f.attrs.pfx name.ns name.loc = .ok ())
    {rest : List REv} {fin : Option Str} {rd : Rd} {D' : Nat}
    (h : At D' (.start name as m :: (Node.eventsL ks ++ .endE name :: rest)) fin rd) :
    ∃ rd', match scalarContent L t ks with
      | some v => callSimple L d.attrs f i t name st rd = (.ok (st.setSlot i (Slot.put v)), rd') ∧
          At D' rest fin rd'
      | none => callSimple L d.attrs f i t name st rd = (.ok st, rd') ∧
          At (D' + 1) (.endE name :: rest) fin rd' := by
  have hne : (M.ofExcept (nsMatching d.attrs.namespaces f.attrs.pfx name.ns name.loc) : D Unit) rd
      = (.ok (), rd) := by rw [hns]; rfl
  obtain ⟨rd1, h1, a1⟩ := next_start h
  match ks, hks with
  | [], _ =>
    simp only [Node.eventsL, List.nil_append] at a1
    obtain ⟨rd2, h2, a2⟩ := peek_at a1
    refine ⟨rd2, ?_, a2⟩
    have hi : simpleInner L f t rd1 = (.err (c!"unable to parse content for " ++ f.label), rd2) := by
      unfold simpleInner
      rw [bind_ok (attempt_ok h2)]
      rfl
    have hr : readInnerValue (simpleInner L f t) rd
        = (.err (c!"unable to parse content for " ++ f.label), rd2) := by
      unfold readInnerValue
      rw [bind_ok (attempt_ok h1)]
      dsimp only
      rw [bind_err hi]
    unfold callSimple
    rw [bind_ok hne, bind_ok (attempt_err hr)]
    rfl
  | [.text s], _ =>
    simp only [Node.eventsL, Node.events, List.append_nil, List.cons_append, List.nil_append] at a1
    obtain ⟨rd2, h2, a2⟩ := peek_at a1
    obtain ⟨rd3, h3, a3⟩ := next_chars a2
    cases hv : visitS L t s with
    | ok v =>
      obtain ⟨rd4, h4, a4⟩ := next_end a3
      refine ⟨rd4, ?_⟩
      simp only [scalarContent, hv]
      refine ⟨?_, a4⟩
      have hi : simpleInner L f t rd1 = (.ok v, rd3) := by
        unfold simpleInner
        rw [bind_ok (attempt_ok h2)]
        dsimp only
        rw [bind_ok h3, hv]
        rfl
      have hr : readInnerValue (simpleInner L f t) rd = (.ok v, rd4) :=
        (readInnerValue_iff ..).mpr ⟨name, as, m, rd1, rd3, h1, hi, h4⟩
      unfold callSimple
      rw [bind_ok hne, bind_ok (attempt_ok hr)]
      rfl
    | error e =>
      refine ⟨rd3, ?_⟩
      simp only [scalarContent, hv]
      refine ⟨?_, a3⟩
      have hi : simpleInner L f t rd1 = (.err e, rd3) := by
        unfold simpleInner
        rw [bind_ok (attempt_ok h2)]
        dsimp only
        rw [bind_ok h3, hv]
        rfl
      have hr : readInnerValue (simpleInner L f t) rd = (.err e, rd3) := by
        unfold readInnerValue
        rw [bind_ok (attempt_ok h1)]
        dsimp only
        rw [bind_err hi]
      unfold callSimple
      rw [bind_ok hne, bind_ok (attempt_err hr)]
      rfl

/-- A child of a struct field. -/
theorem callStruct_elem {st : LoopSt} (hd : st.depth ≥ 1) {i : Nat} {q : Path} {name : Name}
    {as : List Attr} {m : NsMap} {ks : List Node} {r : Res Val} {lo : Nat} {left : List REv}
    {rest : List REv} {fin : Option Str} {rd : Rd} {D' : Nat} (hlo : lo ≤ D')
    (h : At D' ((Node.elem name as m ks).events ++ rest) fin rd)
    (hleft : left = [] ∨ (∃ t, left = [.chars t]) ∨ ∃ n' as' m', left = [.start n' as' m'])
    (hrec : ReadsAs lo (rec q) name (Node.elem name as m ks).events left r) :
    Runs (callStruct rec i q st rd) r fun v st' rd' => st' = st.setSlot i (Slot.put v) ∧
        ((left = [] ∧ At D' rest fin rd') ∨ (left ≠ [] ∧ At (D' + 1) (.endE name :: rest) fin rd')) := by
  have hnz : ¬ st.depth = 0 := by omega
  obtain ⟨rd1, h1, a1⟩ := peek_at (show At D' (.start name as m :: _) fin rd by
    simpa only [Node.events, List.cons_append] using h)
  have a1' : At D' ((Node.elem name as m ks).events ++ rest) fin rd1 := by
    simpa only [Node.events, List.cons_append] using a1
  have hr := hrec D' rest fin rd1 hlo a1'
  unfold callStruct
  rw [if_neg hnz, bind_pure', bind_ok (attempt_ok h1)]
  dsimp only
  rw [← Res.bind_ok_right r]
  refine Runs.bind hr ?_
  rintro v b rd2 _ ⟨rfl, a2⟩
  rcases hleft with rfl | ⟨t, rfl⟩ | ⟨n', as', m', rfl⟩
  · obtain ⟨rd3, h3, a3⟩ := next_end (by simpa [opens] using a2)
    rw [bind_ok h3]
    exact ⟨_, _, rfl, rfl, .inl ⟨rfl, a3⟩⟩
  · obtain ⟨rd3, h3, a3⟩ := next_chars (by simpa [opens] using a2)
    rw [bind_ok h3]
    exact ⟨_, _, rfl, rfl, .inr ⟨by simp, a3⟩⟩
  · obtain ⟨rd3, h3, a3⟩ := next_start (by simpa [opens] using a2)
    rw [bind_ok h3]
    exact ⟨_, _, rfl, rfl, .inr ⟨by simp, a3⟩⟩

/-- A child of a struct field, in the loop. -/
theorem structStart_struct {st : LoopSt} (hd : st.depth ≥ 1) {i : Nat} {f : FieldDef} {q : Path}
    {name : Name} {as : List Attr} {m : NsMap} {ks : List Node} {r : Res Val} {lo : Nat}
    {left : List REv} {rest : List REv} {fin : Option Str} {rd : Rd} {D' : Nat} (hlo : lo ≤ D')
    (hf : d.fieldFor name = some i) (hfi : d.fields[i]? = some f) (hty : f.ty.core = .struct q)
    (h : At D' (.start name as m :: (Node.eventsL ks ++ .endE name :: rest)) fin rd)
    (hleft : left = [] ∨ (∃ t, left = [.chars t]) ∨ ∃ n' as' m', left = [.start n' as' m'])
    (hrec : ReadsAs lo (rec q) name (Node.elem name as m ks).events left r) :
    Runs (structStart L rec skipFuel d st name as rd) r fun v st' rd' =>
      st' = { st.setSlot i (Slot.put v) with depth := st.depth + 1 } ∧
        ((left = [] ∧ At D' rest fin rd') ∨ (left ≠ [] ∧ At (D' + 1) (.endE name :: rest) fin rd')) := by
  rw [structStart_inner L rec skipFuel d hd, hf]
  dsimp only
  rw [hfi]
  dsimp only
  have hvis : callVisitor L rec d.attrs f i name st = callStruct rec i q st := by
    unfold callVisitor; rw [hty]
  rw [hvis, ← Res.bind_ok_right r]
  refine Runs.bind (callStruct_elem rec hd hlo (by simpa [Node.events] using h) hleft hrec) ?_
  rintro v b rd2 _ ⟨rfl, h2⟩
  rw [afterArm L rec d (st := st.setSlot i (Slot.put v)) hd]
  exact ⟨_, _, rfl, rfl, h2⟩

/-- A child of a scalar field, in the loop. -/
theorem structStart_simple {st : LoopSt} (hd : st.depth ≥ 1) {i : Nat} {f : FieldDef} {t : STy}
    {name : Name} {as : List Attr} {m : NsMap} {ks : List Node} (hks : textOnly ks)
    (hns : name.ns ≠ some [])
    {rest : List REv} {fin : Option Str} {rd : Rd} {D' : Nat}
    (hf : d.fieldFor name = some i) (hfi : d.fields[i]? = some f) (hty : f.ty.core = .simple t)
    (h : At D' (.start name as m :: (Node.eventsL ks ++ .endE name :: rest)) fin rd) :
    ∃ st' rd', structStart L rec skipFuel d st name as rd = (.ok st', rd') ∧
      match scalarContent L t ks with
      | some v => st' = { st.setSlot i (Slot.put v) with depth := st.depth + 1 } ∧ At D' rest fin rd'
      | none => st' = { st with depth := st.depth + 1 } ∧ At (D' + 1) (.endE name :: rest) fin rd' := by
  obtain ⟨f', hfi', -, hcl⟩ := fieldFor_some hf
  obtain rfl : f' = f := by rw [hfi] at hfi'; exact (Option.some.inj hfi').symm
  have hnsm := nsMatching_of_claims hcl hns name.loc
  obtain ⟨rd2, h2⟩ := callSimple_text L d (st := st) (i := i) (t := t) hks hnsm h
  rw [structStart_inner L rec skipFuel d hd, hf]
  dsimp only
  rw [hfi]
  dsimp only
  have hvis : callVisitor L rec d.attrs f' i name st = callSimple L d.attrs f' i t name st := by
    unfold callVisitor; rw [hty]
  rw [hvis]
  cases hv : scalarContent L t ks with
  | some v =>
    rw [hv] at h2
    refine ⟨_, rd2, ?_, rfl, h2.2⟩
    rw [bind_ok h2.1, afterArm L rec d (st := st.setSlot i (Slot.put v)) hd]
    rfl
  | none =>
    rw [hv] at h2
    refine ⟨_, rd2, ?_, rfl, h2.2⟩
    rw [bind_ok h2.1, afterArm L rec d hd]

end

/-- The events in front of the end tag at which reading an element as a `q` stops. -/
def leftover (env : Env) (x : Node) (q : Path) : List REv :=
  match env q, x with
  | some (.prim _), .elem _ _ _ [.text s] => [.chars s]
  | some (.enum d), .elem n as m kids =>
    (match d.variantOf n as, unitByText d kids with
      | some _, _ => [.start n as m]
      | none, some _ => Node.eventsL kids
      | none, none => [])
  | _, _ => []

theorem leftover_cases (env : Env) (x : Node) (q : Path) :
    leftover env x q = [] ∨ (∃ t, leftover env x q = [.chars t]) ∨ ∃ n as m, leftover env x q = [.start n as m] := by
  unfold leftover
  split
  · exact .inr (.inl ⟨_, rfl⟩)
  · split
    · exact .inr (.inr ⟨_, _, _, rfl⟩)
    · rename_i h
      unfold unitByText at h
      split at h
      · exact .inr (.inl ⟨_, by simp [Node.eventsL, Node.events]; rfl⟩)
      · cases h
    · exact .inl rfl
  · exact .inl rfl

theorem leftover_nil {env : Env} {x : Node} {q : Path} (h : ¬ byText env x q) :
    leftover env x q = [] := by
  unfold byText at h
  unfold leftover
  cases he : env q with
  | none => rfl
  | some td =>
    rw [he] at h
    cases td with
    | struct d => rfl
    | prim d =>
      simp at h
      split
      · simp [Node.content] at h
      · rename_i heq; cases heq
      · rfl
    | enum d =>
      simp at h
      cases x with
      | text s => rfl
      | elem n as m ks =>
        simp only [Node.content, Node.name, Node.attrs] at h
        simp [h]

section
variable (L : Lib) (env : Env) (flat : Node → Path → Res Val) (fc : Node → Path → Prop)

theorem decodeL_eq (ks : List Node) : decodeL L env flat ks = ks.map (decodeWith L env flat) := by
  induction ks with
  | nil => rfl
  | cons k ks ih => simp [decodeL, ih]

/-- All children of one element. -/
def kidsDecoded (d : StructDef) (ks : List Node) : Res (List Contrib) :=
  kidContribs L d ks (decodeL L env flat ks)

theorem kidsDecoded_nil (d : StructDef) : kidsDecoded L env flat d [] = .ok [] := rfl

theorem kidsDecoded_cons (d : StructDef) (k : Node) (ks : List Node) :
    kidsDecoded L env flat d (k :: ks) = (kidContrib L d (decodeWith L env flat k) k).bind fun a =>
      (kidsDecoded L env flat d ks).bind fun b => .ok (a ++ b) := by
  simp only [kidsDecoded, kidContribs, decodeL, List.zip_cons_cons, List.map_cons, collect_cons,
    Res.bind_assoc, Res.bind_ok, List.flatten_cons]

theorem eventsL_elem_cons (name : Name) (as : List Attr) (m : NsMap) (kids : List Node)
    (ks : List Node) (rest : List REv) :
    Node.eventsL (.elem name as m kids :: ks) ++ rest
      = .start name as m :: (Node.eventsL kids ++ .endE name :: (Node.eventsL ks ++ rest)) := by
  simp [Node.eventsL, Node.events]

theorem eventsL_cons (k : Node) (ks : List Node) :
    Node.eventsL (k :: ks) = k.events ++ Node.eventsL ks := rfl

theorem hasFlat_iff (d : StructDef) : d.hasFlat = true ↔ d.HasFlat := by
  simp [StructDef.hasFlat, StructDef.HasFlat]

/-- The loop over the children of the struct's element. -/
theorem structLoop_kids (rec : Path → D Val) (skipFuel : Nat) (d : StructDef)
    (hplain : d.Plain) (own : Name) (dep : Nat) (rest : List REv)
    (fin : Option Str) :
    ∀ (ks : List Node) (acc : List Contrib) (st : LoopSt) (n : Nat) (rd : Rd),
      ConfKids L env fc d ks →
      (∀ k ∈ ks, ∀ name as m kids q, k = .elem name as m kids → ConfWith L env fc k q →
        ReadsAs 1 (rec q) name k.events (leftover env k q) (decodeWith L env flat k q)) →
      (Node.eventsL ks).length + 1 < skipFuel →
      (Node.eventsL ks).length < n →
      st.depth ≥ 1 → st.slots = slotsFrom acc d.fields 0 →
      At (dep + 1) (Node.eventsL ks ++ .endE own :: rest) fin rd →
      Runs (structLoop L rec skipFuel d own.loc dep n st rd) (kidsDecoded L env flat d ks)
        fun cs st' rd' => st'.slots = slotsFrom (acc ++ cs) d.fields 0 ∧
          st'.writer = wputs d.hasFlat st.writer (Node.eventsL (ks.filter d.unclaimed) ++ [.endE own]) ∧
          At (dep + 1) (.endE own :: rest) fin rd' := by
  intro ks
  induction ks with
  | nil =>
    intro acc st n rd _ _ _ hn _ hsl hat
    obtain ⟨n, rfl⟩ : ∃ k, n = k + 1 := ⟨n - 1, by omega⟩
    simp only [Node.eventsL, List.nil_append] at hat
    obtain ⟨rd', h1, h2⟩ := structLoop_own_end L rec skipFuel d own.loc dep (n := n) (st := st) rfl hat
    exact ⟨_, rd', h1, by simpa using hsl, rfl, h2⟩
  | cons k ks ih =>
    intro acc st n rd hconf hrec hsk hn hd hsl hat
    have hlen : (Node.eventsL (k :: ks)).length = k.events.length + (Node.eventsL ks).length := by
      simp [Node.eventsL]
    rw [ConfKids] at hconf
    obtain ⟨hck, hcks⟩ := hconf
    rw [kidsDecoded_cons]
    -- what remains to be done once the child has contributed `a`
    have finish : ∀ (a : List Contrib) (st1 : LoopSt) (n' : Nat) (rd1 : Rd),
        (Node.eventsL ks).length < n' → st1.depth ≥ 1 → st1.slots = slotsFrom (acc ++ a) d.fields 0 →
        st1.writer = wputs d.hasFlat st.writer (Node.eventsL ([k].filter d.unclaimed)) →
        At (dep + 1) (Node.eventsL ks ++ .endE own :: rest) fin rd1 →
        Runs (structLoop L rec skipFuel d own.loc dep n' st1 rd1)
          ((kidsDecoded L env flat d ks).bind fun b => Res.ok (a ++ b))
          fun cs st' rd' => st'.slots = slotsFrom (acc ++ cs) d.fields 0 ∧
          st'.writer = wputs d.hasFlat st.writer
            (Node.eventsL ((k :: ks).filter d.unclaimed) ++ [.endE own]) ∧
          At (dep + 1) (.endE own :: rest) fin rd' := by
      intro a st1 n' rd1 hn' hd1 hs1 hw1 ha1
      have := ih (acc ++ a) st1 n' rd1 hcks
        (fun k' hk' => hrec k' (List.mem_cons_of_mem _ hk')) (by omega) hn' hd1 hs1 ha1
      have h2 := Runs.bind (f := fun st => M.pure st) (g := fun b => Res.ok (a ++ b)) this
        (Q' := fun cs st' rd' => st'.slots = slotsFrom (acc ++ cs) d.fields 0 ∧
          st'.writer = wputs d.hasFlat st.writer
            (Node.eventsL ((k :: ks).filter d.unclaimed) ++ [.endE own]) ∧
          At (dep + 1) (.endE own :: rest) fin rd') (by
        rintro cs st' rd' _ ⟨hs, hw, ha⟩
        refine ⟨st', rd', rfl, by rw [hs, List.append_assoc], ?_, ha⟩
        rw [hw, hw1, ← wputs_append]
        cases hu : d.unclaimed k <;> simp [hu, Node.eventsL])
      rwa [show (structLoop L rec skipFuel d own.loc dep n' st1 >>= fun st => M.pure st)
        = structLoop L rec skipFuel d own.loc dep n' st1 from bind_pure_right _] at h2
    obtain ⟨n, rfl⟩ : ∃ k, n = k + 1 := ⟨n - 1, by omega⟩
    cases k with
    | text s =>
      rw [ConfKid] at hck
      have hat' : At (dep + 1) (.chars s :: (Node.eventsL ks ++ .endE own :: rest)) fin rd := by
        simpa [Node.eventsL, Node.events] using hat
      obtain ⟨rd1, h1, a1⟩ := structLoop_text L rec skipFuel d own.loc dep (n := n) (st := st) hat'
      rw [h1]
      exact finish (textContrib d s) _ n rd1 (by simp [Node.events] at hlen; omega) hd
        (by simp only [hsl, setText_slotsFrom acc s hck d.fields hplain.textTy]; rfl) rfl a1
    | elem name as m kids =>
      rw [ConfKid] at hck
      obtain ⟨hns, hck⟩ := hck
      rw [eventsL_elem_cons] at hat
      have hkl : (Node.elem name as m kids).events.length = (Node.eventsL kids).length + 2 := by
        simp [Node.events]
      refine structLoop_start L rec skipFuel d own.loc dep hat ?_
      intro rd1 a1
      cases hf : d.fieldFor name with
      | none =>
        simp only [kidContrib, hf]
        obtain ⟨rd2, h2, a2⟩ := structStart_unknown L rec skipFuel d hd hf (by omega) a1
        refine ⟨_, _, h2, ?_⟩
        refine finish [] _ n rd2 (by omega) (by simp; omega) (by simpa using hsl) ?_ a2
        simp [StructDef.unclaimed, hf, Node.eventsL]
      | some i =>
        obtain ⟨f, hfi, hfm, hcl⟩ := fieldFor_some hf
        obtain ⟨hcs, hcq⟩ := hck i f hf hfi
        have hunc : Node.eventsL ([Node.elem name as m kids].filter d.unclaimed) = [] := by
          simp [StructDef.unclaimed, hf, Node.eventsL]
        rcases hplain.elemTy f hfm with ⟨t, hty⟩ | ⟨q, hty⟩
        · -- scalar
          simp only [kidContrib, hf, hfi, hty]
          obtain ⟨hto, hwf⟩ := hcs t hty
          obtain ⟨st2, rd2, h2, h3⟩ := structStart_simple L rec skipFuel d hd hto hns hf hfi hty a1
          refine ⟨_, _, h2, ?_⟩
          cases hv : scalarContent L t kids with
          | some v =>
            rw [hv] at h3
            obtain ⟨rfl, a2⟩ := h3
            refine finish [(i, v)] _ n rd2 (by omega) (by simp; omega) ?_ ?_ a2
            · simp only [LoopSt.setSlot, hsl, modify_slotsFrom, Nat.zero_add]
            · rw [hunc]; rfl
          | none =>
            rw [hv] at h3
            obtain ⟨rfl, a2⟩ := h3
            have hff : d.hasFlat = false := by
              cases hh : d.hasFlat with
              | false => rfl
              | true => have := hwf ((hasFlat_iff d).mp hh); rw [hv] at this; cases this
            obtain ⟨n, rfl⟩ : ∃ k, n = k + 1 := ⟨n - 1, by omega⟩
            obtain ⟨rd3, h3, a3⟩ := structLoop_end L rec skipFuel d own.loc dep (n := n)
              (st := { st with depth := st.depth + 1 }) (by omega) a2
            rw [h3]
            refine finish [] _ n rd3 (by omega) (by simp; omega) (by simpa using hsl) ?_ a3
            rw [hff]; simp
        · -- struct
          simp only [kidContrib, hf, hfi, hty]
          obtain ⟨hcw, hbt⟩ := hcq q hty
          have hreads := hrec _ (List.mem_cons_self ..) name as m kids q rfl hcw
          have hst := structStart_struct L rec skipFuel d hd (by omega) hf hfi hty a1
            (leftover_cases env _ q) hreads
          have hst2 := Runs.bind (f := fun st => M.pure st) (g := fun v => Res.ok [(i, v)]) hst
            (Q' := fun a st' rd' => Runs (structLoop L rec skipFuel d own.loc dep n st' rd')
              ((kidsDecoded L env flat d ks).bind fun b => Res.ok (a ++ b))
                fun cs st' rd' => st'.slots = slotsFrom (acc ++ cs) d.fields 0 ∧
                st'.writer = wputs d.hasFlat st.writer
                  (Node.eventsL ((Node.elem name as m kids :: ks).filter d.unclaimed) ++ [.endE own]) ∧
                At (dep + 1) (.endE own :: rest) fin rd') (by
            rintro v st2 rd2 _ ⟨rfl, h2⟩
            refine ⟨_, rd2, rfl, ?_⟩
            have hslots : (st.setSlot i (Slot.put v)).slots = slotsFrom (acc ++ [(i, v)]) d.fields 0 := by
              simp only [LoopSt.setSlot, hsl, modify_slotsFrom, Nat.zero_add]
            rcases h2 with ⟨-, a2⟩ | ⟨hl, a2⟩
            · refine finish [(i, v)] { st.setSlot i (Slot.put v) with depth := st.depth + 1 } n rd2
                (by omega) (by simp; omega) hslots ?_ a2
              rw [hunc]; rfl
            · have hff : d.hasFlat = false := by
                cases hh : d.hasFlat with
                | false => rfl
                | true => exact (hl (leftover_nil (hbt ((hasFlat_iff d).mp hh)))).elim
              obtain ⟨n, rfl⟩ : ∃ k, n = k + 1 := ⟨n - 1, by omega⟩
              obtain ⟨rd3, h3, a3⟩ := structLoop_end L rec skipFuel d own.loc dep (n := n)
                (st := { st.setSlot i (Slot.put v) with depth := st.depth + 1 }) (by omega) a2
              refine Runs.of_eq h3 ?_
              refine finish [(i, v)] _ n rd3 (by omega) (by simp; omega) hslots ?_ a3
              rw [hff]; simp [LoopSt.setSlot])
          rwa [show (structStart L rec skipFuel d st name as >>= fun st => M.pure st)
            = structStart L rec skipFuel d st name as from bind_pure_right _] at hst2


theorem collect_ne_diverge {α : Type} (rs : List (Res α)) (h : ∀ r ∈ rs, r ≠ .diverge) :
    Res.collect rs ≠ .diverge := by
  induction rs with
  | nil => simp [Res.collect]
  | cons r rs ih =>
    have h1 := h r (List.mem_cons_self ..)
    have h2 := ih fun x hx => h x (List.mem_cons_of_mem _ hx)
    simp only [Res.collect]
    cases r with
    | ok a =>
      simp only [Res.bind_ok]
      cases hc : Res.collect rs <;> simp_all
    | err m => simp
    | panic m => simp
    | diverge => exact (h1 rfl).elim

theorem bind_ne_diverge {α β : Type} {r : Res α} {f : α → Res β} (h : r ≠ .diverge)
    (hf : ∀ a, f a ≠ .diverge) : r.bind f ≠ .diverge := by
  cases r with
  | ok a => exact hf a
  | err m => simp
  | panic m => simp
  | diverge => exact (h rfl).elim

theorem attrContribs_ne_diverge (user : Path → Str → Res Val) (d : StructDef) (as : List Attr)
    (hu : ∀ f ∈ d.fields, f.attrs.isAttr = true → ∀ q, f.ty.core = .struct q → ∀ a ∈ as, a.name.loc = f.label →
      ∀ s ∈ f.ty.attrTexts a.value, user q s ≠ .diverge) : attrContribs L user d as ≠ .diverge := by
  refine bind_ne_diverge (collect_ne_diverge _ ?_) (by simp)
  intro r hr
  obtain ⟨p, hp, rfl⟩ := List.mem_map.mp hr
  have hp' : p.1 ∈ d.fields := List.mem_of_getElem? (List.mem_zipIdx_iff_getElem?.mp hp)
  unfold attrContrib
  split
  · rename_i hatt
    refine bind_ne_diverge (collect_ne_diverge _ ?_) (by simp)
    intro r hr
    obtain ⟨a, ha, rfl⟩ := List.mem_map.mp hr
    obtain ⟨ha, hl⟩ := List.mem_filter.mp ha
    have hu' := fun q hq => hu p.1 hp' hatt q hq a ha (of_decide_eq_true hl)
    unfold attrValues
    split
    · refine collect_ne_diverge _ ?_
      intro r hr
      obtain ⟨w, -, rfl⟩ := List.mem_map.mp hr
      split <;> simp
    · split <;> simp
    · split <;> simp
    · rename_i q hty
      refine collect_ne_diverge _ ?_
      intro r hr
      obtain ⟨w, hw, rfl⟩ := List.mem_map.mp hr
      exact hu' q (by rw [hty]; rfl) w (by rw [hty]; exact hw)
    · rename_i q hty
      exact bind_ne_diverge (hu' q (by rw [hty]; rfl) _ (by rw [hty]; simp [FTy.attrTexts])) (by simp)
    · rename_i q hty
      exact bind_ne_diverge (hu' q (by rw [hty]; rfl) _ (by rw [hty]; simp [FTy.attrTexts])) (by simp)
    · simp
  · simp

/-- The first start tag of a struct: its own. -/
theorem structStart_own (rec : Path → D Val) (user : Path → Str → Res Val) (skipFuel : Nat) (d : StructDef) (hplain : d.Plain)
    {own : Name} {as : List Attr} {m : NsMap} {rest : List REv} {fin : Option Str} {rd : Rd} {D' : Nat}
    (hname : (own.loc = d.attrs.rename.getD d.name ∧
            own.ns.getD [] = (d.attrs.namespaces.find d.attrs.pfx).getD []) ∨ d.fieldFor own = none)
    {w : Option EW}
    (hu : ∀ f ∈ d.fields, f.attrs.isAttr = true → ∀ q, f.ty.core = .struct q → ∀ a ∈ as, a.name.loc = f.label →
      ∀ s ∈ f.ty.attrTexts a.value, visitStructStr L rec q s = user q s ∧ user q s ≠ .diverge)
    (h : At D' (.start own as m :: rest) fin rd) :
    Runs (structStart L rec skipFuel d ⟨0, slotsFrom [] d.fields 0, w⟩ own as rd)
      (attrContribs L user d as) fun cs st' rd' =>
        st' = ⟨1, slotsFrom cs d.fields 0, wput d.hasFlat w (.start own as m)⟩ ∧
        At (D' + 1) rest fin rd' := by
  obtain ⟨rd1, h1, a1⟩ := next_start h
  unfold structStart
  refine Runs.of_eq (bind_ok (s' := rd1)
    (a := (⟨0, slotsFrom [] d.fields 0, wput d.hasFlat w (.start own as m)⟩ : LoopSt)) ?_) ?_
  · rw [findArm_eq]
    split
    · rw [bind_ok h1, writeUnused_eq _ _ _ (by simp)]; rfl
    · rename_i hno
      rcases hname with hn | hn
      · exact (hno ⟨rfl, hn⟩).elim
      · rw [hn]
        dsimp only
        rw [bind_ok h1, writeUnused_eq _ _ _ (by simp)]; rfl
  · dsimp only
    rw [if_pos rfl, loadAttrs_slotsFrom L rec user as [] d.fields hplain.elemTy
      fun f hf hatt q hq a ha hl s hs => (hu f hf hatt q hq a ha hl s hs).1]
    have hnd := attrContribs_ne_diverge L user d as fun f hf hatt q hq a ha hl s hs => (hu f hf hatt q hq a ha hl s hs).2
    unfold attrContribs at hnd ⊢
    revert hnd
    cases Res.collect (d.fields.zipIdx.map fun p => attrContrib L user p.2 p.1 as) with
    | ok css => exact fun _ => ⟨_, rd1, rfl, by simp [LoopSt.mk.injEq], a1⟩
    | err e => exact fun _ => ⟨rd1, rfl⟩
    | panic e => exact fun _ => ⟨rd1, rfl⟩
    | diverge => exact fun h => h rfl

end

end Yaserde
