import Verif.Model.De
/-
Lemmas about the `Deserializer` runtime (`Model/De.lean`): every operation is determined by
the reader's `depth` and by the stream of results it will still deliver.
-/

set_option autoImplicit false

namespace Yaserde

/-! ### Sequencing -/

section
variable {σ α β : Type}

theorem bind_def (x : M σ α) (f : α → M σ β) : (x >>= f) = M.bind x f := rfl
theorem pure_def (a : α) : (Pure.pure a : M σ α) = M.pure a := rfl

theorem bind_ok {x : M σ α} {f : α → M σ β} {s s' : σ} {a : α} (h : x s = (.ok a, s')) :
    (x >>= f) s = f a s' := by
  simp [bind_def, M.bind, h]

theorem bind_err {x : M σ α} {f : α → M σ β} {s s' : σ} {m : Str} (h : x s = (.err m, s')) :
    (x >>= f) s = (.err m, s') := by
  simp [bind_def, M.bind, h]

theorem bind_panic {x : M σ α} {f : α → M σ β} {s s' : σ} {m : Str} (h : x s = (.panic m, s')) :
    (x >>= f) s = (.panic m, s') := by
  simp [bind_def, M.bind, h]

theorem bind_diverge {x : M σ α} {f : α → M σ β} {s s' : σ} (h : x s = (.diverge, s')) :
    (x >>= f) s = (.diverge, s') := by
  simp [bind_def, M.bind, h]

theorem attempt_ok {x : M σ α} {s s' : σ} {a : α} (h : x s = (.ok a, s')) :
    M.attempt x s = (.ok (.ok a), s') := by simp [M.attempt, h]

theorem attempt_err {x : M σ α} {s s' : σ} {m : Str} (h : x s = (.err m, s')) :
    M.attempt x s = (.ok (.error m), s') := by simp [M.attempt, h]

@[simp] theorem mpure_apply (a : α) (s : σ) : M.pure a s = (.ok a, s) := rfl
@[simp] theorem mthrow_apply (m : Str) (s : σ) : (M.throw m : M σ α) s = (.err m, s) := rfl
@[simp] theorem mget_apply (s : σ) : (M.get : M σ σ) s = (.ok s, s) := rfl
@[simp] theorem mlift_apply (r : Res α) (s : σ) : (M.lift r : M σ α) s = (r, s) := rfl

theorem bind_pure_left (a : α) (f : α → M σ β) (s : σ) : (M.pure a >>= f) s = f a s := rfl
theorem bind_get (f : σ → M σ β) (s : σ) : (M.get >>= f) s = f s s := rfl

end

/-! ### What the reader will deliver -/

/-- The events that are still to be seen: the peeked one, then those the XML reader will
deliver, without the ones `inner_next` drops. -/
def Rd.visible (rd : Rd) : List REv :=
  rd.peeked.toList ++ rd.reader.evs.filter (fun e => !e.skipped)

/-- The result an exhausted source keeps giving. -/
def finRes : Option Str → Res REv
  | none => .ok .endDocument
  | some m => .err m

/-- The `n`-th result of an event source that delivers `es` and then its final result. -/
def strm (es : List REv) (fin : Option Str) (n : Nat) : Res REv :=
  match es[n]? with
  | some e => .ok e
  | none => finRes fin

/-- The results of successive `next_event` calls, as far as the XML reader determines them. -/
def Rd.stream (rd : Rd) (n : Nat) : Res REv := strm rd.visible rd.reader.fin n

/-- The effect of an event on the depth counter. -/
def weight : Res REv → Int
  | .ok (.start _ _ _) => 1
  | .ok (.endE _) => -1
  | _ => 0

/-- Sum of the weights of the next `k` events. -/
def weightSum (s : Nat → Res REv) : Nat → Int
  | 0 => 0
  | k + 1 => weightSum s k + weight (s k)

/-- `rd'` is `rd` after consuming exactly `k` visible events. -/
def Adv (k : Nat) (rd rd' : Rd) : Prop :=
  (∀ n, rd'.stream n = rd.stream (n + k)) ∧
  (rd'.depth : Int) = rd.depth + weightSum rd.stream k

theorem Adv.refl (rd : Rd) : Adv 0 rd rd := ⟨fun _ => rfl, by simp [weightSum]⟩

theorem weightSum_add (s : Nat → Res REv) (k l : Nat) :
    weightSum s (k + l) = weightSum s k + weightSum (fun n => s (n + k)) l := by
  induction l with
  | zero => simp [weightSum]
  | succ l ih => rw [Nat.add_succ]; simp only [weightSum]; rw [ih, Nat.add_comm l k]; omega

theorem weightSum_congr {s t : Nat → Res REv} {k : Nat} (h : ∀ j, j < k → s j = t j) :
    weightSum s k = weightSum t k := by
  induction k with
  | zero => rfl
  | succ k ih => simp only [weightSum]; rw [ih (fun j hj => h j (by omega)), h k (by omega)]

theorem Adv.trans {k l : Nat} {a b c : Rd} (h₁ : Adv k a b) (h₂ : Adv l b c) : Adv (k + l) a c := by
  constructor
  · intro n
    rw [h₂.1, h₁.1]; congr 1; omega
  · rw [h₂.2, h₁.2, weightSum_add]
    have : b.stream = fun n => a.stream (n + k) := funext h₁.1
    rw [this]; omega

theorem strm_cons_zero (e : REv) (es : List REv) (fin : Option Str) : strm (e :: es) fin 0 = .ok e := rfl
theorem strm_cons_succ (e : REv) (es : List REv) (fin : Option Str) (n : Nat) :
    strm (e :: es) fin (n + 1) = strm es fin n := by simp [strm]
theorem strm_nil_none (n : Nat) : strm [] none n = .ok .endDocument := rfl
theorem strm_nil_some (m : Str) (n : Nat) : strm [] (some m) n = .err m := rfl

theorem innerNextL_eq (es : List REv) (fin : Option Str) :
    innerNextL es fin =
      match es.filter (fun e => !e.skipped), fin with
      | e :: _, _ => (.ok e, (innerNextL es fin).2)
      | [], none => (.ok .endDocument, ⟨[], none⟩)
      | [], some m => (.err m, ⟨[], some m⟩) := by
  induction es with
  | nil => cases fin <;> rfl
  | cons e es ih =>
    cases h : e.skipped
    · simp [innerNextL, h]
    · simp only [innerNextL, h, if_true, List.filter_cons]
      simpa using ih

theorem innerNextL_visible {es : List REv} {fin : Option Str} {e : REv} {rest : List REv}
    (h : es.filter (fun e => !e.skipped) = e :: rest) :
    (innerNextL es fin).1 = .ok e ∧ (innerNextL es fin).2.fin = fin ∧
      (innerNextL es fin).2.evs.filter (fun e => !e.skipped) = rest := by
  induction es with
  | nil => simp at h
  | cons a es ih =>
    cases hs : a.skipped
    · simp only [List.filter_cons, hs, Bool.not_false, if_true, List.cons.injEq] at h
      simp [innerNextL, hs, ← h.1, h.2]
    · simp only [List.filter_cons, hs, Bool.not_true] at h
      simpa [innerNextL, hs] using ih h

theorem innerNextL_nil {es : List REv} {fin : Option Str}
    (h : es.filter (fun e => !e.skipped) = []) :
    innerNextL es fin = (finRes fin, ⟨[], fin⟩) := by
  rw [innerNextL_eq, h]; cases fin <;> rfl

/-! ### Located readers -/

/-- The reader is at depth `D`, will deliver `es` and then the final result `fin`. -/
structure At (D : Nat) (es : List REv) (fin : Option Str) (rd : Rd) : Prop where
  depth : rd.depth = D
  vis : rd.visible = es
  fin_eq : rd.reader.fin = fin

theorem at_self (rd : Rd) : At rd.depth rd.visible rd.reader.fin rd := ⟨rfl, rfl, rfl⟩

theorem at_new (s : Src) : At 0 (s.evs.filter (fun e => !e.skipped)) s.fin (Rd.new s) :=
  ⟨rfl, by simp [Rd.visible, Rd.new], rfl⟩

theorem At.stream {D es fin rd} (h : At D es fin rd) : rd.stream = strm es fin := by
  funext n; simp [Rd.stream, h.vis, h.fin_eq]

/-- `peek` in front of an event. -/
theorem peek_at {D : Nat} {e : REv} {es : List REv} {fin : Option Str} {rd : Rd}
    (h : At D (e :: es) fin rd) :
    ∃ rd', peek rd = (.ok e, rd') ∧ At D (e :: es) fin rd' := by
  obtain ⟨hd, hv, hf⟩ := h
  unfold peek
  cases hp : rd.peeked with
  | some e' =>
    simp only [Rd.visible, hp, Option.toList, List.cons_append, List.nil_append, List.cons.injEq] at hv
    refine ⟨rd, by simp [hv.1], hd, ?_, hf⟩
    simp [Rd.visible, hp, hv.1, hv.2]
  | none =>
    simp only [Rd.visible, hp, Option.toList, List.nil_append] at hv
    obtain ⟨h1, h2, h3⟩ := innerNextL_visible (fin := rd.reader.fin) hv
    simp only [innerNext]
    cases hi : innerNextL rd.reader.evs rd.reader.fin with
    | mk r s =>
      rw [hi] at h1 h2 h3
      simp only at h1 h2 h3
      subst h1
      exact ⟨_, rfl, hd, by simp [Rd.visible, h3], by simp [h2, hf]⟩

/-- `peek` at the end of the input. -/
theorem peek_at_nil {D : Nat} {fin : Option Str} {rd : Rd} (h : At D [] fin rd) :
    (fin = none ∧ ∃ rd', peek rd = (.ok .endDocument, rd') ∧ At D [.endDocument] none rd') ∨
    (∃ m rd', fin = some m ∧ peek rd = (.err m, rd') ∧ At D [] fin rd') := by
  obtain ⟨hd, hv, hf⟩ := h
  cases hp : rd.peeked with
  | some e => simp [Rd.visible, hp] at hv
  | none =>
    have hv' : rd.reader.evs.filter (fun e => !e.skipped) = [] := by
      simpa [Rd.visible, hp] using hv
    have hi := innerNextL_nil (fin := rd.reader.fin) hv'
    unfold peek
    rw [hp]
    simp only [innerNext, hi]
    cases fin with
    | none =>
      left
      rw [hf]
      exact ⟨rfl, _, rfl, hd, by simp [Rd.visible], rfl⟩
    | some m =>
      right
      rw [hf]
      exact ⟨m, _, rfl, rfl, hd, by simp [Rd.visible, hp], rfl⟩

/-- `next_event` is the event in front, followed by depth bookkeeping. -/
theorem nextEvent_at {D : Nat} {e : REv} {es : List REv} {fin : Option Str} {rd : Rd}
    (h : At D (e :: es) fin rd) :
    ∃ rd', nextEvent rd = trackDepth e rd' ∧ At D es fin rd' := by
  obtain ⟨hd, hv, hf⟩ := h
  unfold nextEvent
  cases hp : rd.peeked with
  | some e' =>
    simp only [Rd.visible, hp, Option.toList, List.cons_append, List.nil_append, List.cons.injEq] at hv
    refine ⟨{ rd with peeked := none }, by simp [hv.1], hd, ?_, hf⟩
    simp [Rd.visible, hv.2]
  | none =>
    simp only [Rd.visible, hp, Option.toList, List.nil_append] at hv
    obtain ⟨h1, h2, h3⟩ := innerNextL_visible (fin := rd.reader.fin) hv
    cases hi : innerNextL rd.reader.evs rd.reader.fin with
    | mk r s =>
      rw [hi] at h1 h2 h3
      simp only at h1 h2 h3
      subst h1
      refine ⟨{ rd with reader := s }, ?_, hd, by simp [Rd.visible, hp, h3], by simp [h2, hf]⟩
      have : innerNext rd = (.ok e, { rd with reader := s }) := by simp [innerNext, hi]
      simp only [bind_ok this]

theorem next_start {D : Nat} {n : Name} {as : List Attr} {m : NsMap} {es : List REv}
    {fin : Option Str} {rd : Rd} (h : At D (.start n as m :: es) fin rd) :
    ∃ rd', nextEvent rd = (.ok (.start n as m), rd') ∧ At (D + 1) es fin rd' := by
  obtain ⟨rd', h1, hd, hv, hf⟩ := nextEvent_at h
  exact ⟨{ rd' with depth := rd'.depth + 1 }, by simp [h1, trackDepth], by simp [hd], hv, hf⟩

theorem next_end {D : Nat} {n : Name} {es : List REv}
    {fin : Option Str} {rd : Rd} (h : At (D + 1) (.endE n :: es) fin rd) :
    ∃ rd', nextEvent rd = (.ok (.endE n), rd') ∧ At D es fin rd' := by
  obtain ⟨rd', h1, hd, hv, hf⟩ := nextEvent_at h
  exact ⟨{ rd' with depth := rd'.depth - 1 }, by simp [h1, trackDepth, hd], by simp [hd], hv, hf⟩

theorem next_chars {D : Nat} {t : Str} {es : List REv}
    {fin : Option Str} {rd : Rd} (h : At D (.chars t :: es) fin rd) :
    ∃ rd', nextEvent rd = (.ok (.chars t), rd') ∧ At D es fin rd' := by
  obtain ⟨rd', h1, hd, hv, hf⟩ := nextEvent_at h
  exact ⟨rd', by simp [h1, trackDepth], hd, hv, hf⟩

theorem next_at_nil {D : Nat} {fin : Option Str} {rd : Rd} (h : At D [] fin rd) :
    ∃ rd', nextEvent rd = (finRes fin, rd') ∧
      At D [] fin rd' := by
  obtain ⟨hd, hv, hf⟩ := h
  cases hp : rd.peeked with
  | some e => simp [Rd.visible, hp] at hv
  | none =>
    have hv' : rd.reader.evs.filter (fun e => !e.skipped) = [] := by
      simpa [Rd.visible, hp] using hv
    have hi := innerNextL_nil (fin := rd.reader.fin) hv'
    unfold nextEvent
    rw [hp]
    have hin : innerNext rd = (finRes rd.reader.fin,
        { rd with reader := ⟨[], rd.reader.fin⟩ }) := by simp [innerNext, hi]
    cases fin with
    | none =>
      rw [hf] at hin
      refine ⟨_, (bind_ok hin).trans rfl, hd, by simp [Rd.visible, hp], rfl⟩
    | some m =>
      rw [hf] at hin
      refine ⟨_, bind_err hin, hd, by simp [Rd.visible, hp], rfl⟩

/-! ### Stream view of the two operations -/

theorem strm_zero (es : List REv) (fin : Option Str) :
    strm es fin 0 = match es, fin with
      | e :: _, _ => .ok e
      | [], none => .ok .endDocument
      | [], some m => .err m := by
  cases es <;> cases fin <;> rfl

theorem peek_stream (rd : Rd) :
    (peek rd).1 = rd.stream 0 ∧ (peek rd).2.stream = rd.stream ∧ (peek rd).2.depth = rd.depth := by
  have h := at_self rd
  cases hv : rd.visible with
  | cons e es =>
    rw [hv] at h
    obtain ⟨rd', h1, h2⟩ := peek_at h
    rw [h1]
    exact ⟨by rw [h.stream]; rfl, by rw [h.stream, h2.stream], h2.depth⟩
  | nil =>
    rw [hv] at h
    rcases peek_at_nil h with ⟨hf, rd', h1, h2⟩ | ⟨m, rd', hf, h1, h2⟩
    · rw [h1]
      rw [hf] at h
      refine ⟨by rw [h.stream]; rfl, ?_, h2.depth⟩
      rw [h.stream, h2.stream]
      funext n
      cases n <;> simp [strm, finRes]
    · rw [h1]
      exact ⟨by rw [h.stream, hf]; rfl, by rw [h.stream, h2.stream], h2.depth⟩

theorem peek_adv (rd : Rd) : Adv 0 rd (peek rd).2 := by
  obtain ⟨_, h2, h3⟩ := peek_stream rd
  exact ⟨fun n => by rw [h2]; rfl, by simp [h3, weightSum]⟩

/-- `next_event` returns what is in front, unless this is an end tag at depth 0. -/
theorem next_stream (rd : Rd) :
    ((rd.depth : Int) + weight (rd.stream 0) ≥ 0 →
      (nextEvent rd).1 = rd.stream 0 ∧ Adv 1 rd (nextEvent rd).2) ∧
    (¬ (rd.depth : Int) + weight (rd.stream 0) ≥ 0 →
      (nextEvent rd).1 = .panic c!"attempt to subtract with overflow") := by
  have h := at_self rd
  cases hv : rd.visible with
  | cons e es =>
    rw [hv] at h
    have hs := h.stream
    have h0 : rd.stream 0 = .ok e := by rw [hs]; rfl
    have hsucc : ∀ n, strm (e :: es) rd.reader.fin (n + 1) = strm es rd.reader.fin n :=
      fun n => strm_cons_succ ..
    rw [h0]
    cases e with
    | start n as m =>
      obtain ⟨rd', h1, h2⟩ := next_start h
      rw [h1]
      refine ⟨fun _ => ⟨rfl, fun n => ?_, ?_⟩, fun hc => absurd hc ?_⟩
      · rw [hs, h2.stream, hsucc]
      · rw [h2.depth]; simp [weightSum, h0, weight]
      · simp [weight]; omega
    | endE n =>
      obtain ⟨rd', h1, hd', hv', hf'⟩ := nextEvent_at h
      rw [h1]
      cases hd : rd.depth with
      | zero =>
        rw [hd] at hd'
        refine ⟨fun hc => by simp [weight] at hc, fun _ => by simp [trackDepth, hd']⟩
      | succ D =>
        rw [hd] at hd'
        refine ⟨fun _ => ⟨by simp [trackDepth, hd'], fun n => ?_, ?_⟩, fun hc => absurd hc ?_⟩
        · simp only [trackDepth, hd', Nat.succ_ne_zero, if_false, Nat.add_sub_cancel]
          rw [hs, hsucc]
          have := (At.stream (rd := { rd' with depth := D }) ⟨rfl, hv', hf'⟩)
          simpa using congrFun this n
        · simp [trackDepth, hd', weightSum, h0, weight, hd]; omega
        · simp [weight]; omega
    | _ =>
      obtain ⟨rd', h1, h2⟩ := nextEvent_at h
      rw [h1]
      refine ⟨fun _ => ⟨rfl, fun n => ?_, ?_⟩, fun hc => absurd hc ?_⟩
      · simp only [trackDepth]; rw [hs, h2.stream, hsucc]
      · simp [trackDepth, h2.depth, weightSum, h0, weight]
      · simp [weight]
  | nil =>
    rw [hv] at h
    have hs := h.stream
    obtain ⟨rd', h1, h2⟩ := next_at_nil h
    have h0 : rd.stream 0 = finRes rd.reader.fin := by
      rw [hs]; rfl
    have hw : weight (rd.stream 0) = 0 := by rw [h0]; cases rd.reader.fin <;> rfl
    rw [h1, hw]
    refine ⟨fun _ => ⟨h0.symm, fun n => ?_, ?_⟩,
      fun hc => absurd hc (by omega)⟩
    · rw [hs, h2.stream]; simp [strm]
    · simp [h2.depth, weightSum, hw]

end Yaserde
