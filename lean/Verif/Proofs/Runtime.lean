import Verif.Proofs.Nest
/-
Lemmas for the runtime properties: skip_element, read_inner_value, observations.
-/

set_option autoImplicit false

namespace Yaserde

/-- Unpeeked reader in front of `es`. -/
def Rd.mk0 (D : Nat) (es : List REv) (fin : Option Str) : Rd :=
  { depth := D, reader := ⟨es, fin⟩, peeked := none }

theorem skipLoop_at (fin : Option Str) (rest : List REv) (d : Nat) (hd : 1 ≤ d) :
    ∀ (es : List REv) (D n : Nat) (acc : List REv) (rd : Rd),
      At D (es ++ rest) fin rd →
      (∀ j, j < es.length → (D : Int) + bal (es.take j) ≥ d) →
      (D : Int) + bal es = d - 1 →
      es.length < n →
      ∃ rd', skipLoop n d acc rd = (.ok (acc ++ es), rd') ∧ At (d - 1) rest fin rd' := by
  intro es
  induction es with
  | nil =>
    intro D n acc rd hat _ hb hn
    obtain ⟨n, rfl⟩ : ∃ k, n = k + 1 := ⟨n - 1, by simp at hn; omega⟩
    simp only [bal_nil] at hb
    have hD : D = d - 1 := by omega
    refine ⟨rd, ?_, hD ▸ hat⟩
    simp only [skipLoop]
    rw [if_neg (by rw [hat.depth]; omega)]
    simp
  | cons e es ih =>
    intro D n acc rd hat hp hb hn
    obtain ⟨n, rfl⟩ : ∃ k, n = k + 1 := ⟨n - 1, by simp at hn; omega⟩
    have h0 := hp 0 (by simp)
    simp only [List.take_zero, bal_nil] at h0
    have hD : d ≤ D := by omega
    simp only [skipLoop]
    rw [if_pos (by rw [hat.depth]; exact hD)]
    rw [bal_cons] at hb
    have hstep : ∃ rd1 D', nextEvent rd = (.ok e, rd1) ∧ At D' (es ++ rest) fin rd1 ∧
        (D' : Int) = D + weight (.ok e) := by
      cases e with
      | start n as m =>
        obtain ⟨rd1, h1, h2⟩ := next_start hat
        exact ⟨rd1, D + 1, h1, h2, by simp [weight]⟩
      | endE n =>
        obtain ⟨D', rfl⟩ : ∃ k, D = k + 1 := ⟨D - 1, by omega⟩
        obtain ⟨rd1, h1, h2⟩ := next_end hat
        exact ⟨rd1, D', h1, h2, by simp [weight]; omega⟩
      | _ =>
        obtain ⟨rd1, h1, h2⟩ := nextEvent_at hat
        exact ⟨rd1, D, by rw [h1]; rfl, h2, by simp [weight]⟩
    obtain ⟨rd1, D', h1, h2, h3⟩ := hstep
    rw [bind_ok h1]
    obtain ⟨rd', h4, h5⟩ := ih D' n (acc ++ [e]) rd1 h2 (fun j hj => by
        have := hp (j + 1) (by simp; omega)
        rw [List.take_succ_cons, bal_cons] at this
        omega) (by omega) (by simp at hn; omega)
    exact ⟨rd', by simpa using h4, h5⟩

mutual
  theorem bal_events : ∀ n : Node, bal n.events = 0 ∧ ∀ j, bal (n.events.take j) ≥ 0
    | .elem n as m ks => by
      obtain ⟨h1, h2⟩ := bal_eventsL ks
      constructor
      · simp only [Node.events, bal_cons, bal_append, h1, weight, bal_nil]; omega
      · intro j
        cases j with
        | zero => simp
        | succ j =>
          simp only [Node.events, List.take_succ_cons, bal_cons, List.take_append, bal_append, weight]
          have := h2 j
          have : bal (List.take (j - (Node.eventsL ks).length) [REv.endE n]) ≥ -1 := by
            cases j - (Node.eventsL ks).length with
            | zero => simp
            | succ i => simp [bal_cons, weight]
          omega
    | .text s => by
      constructor
      · simp [Node.events, bal_cons, weight]
      · intro j
        cases j <;> simp [Node.events, bal_cons, weight]
  theorem bal_eventsL : ∀ ks : List Node, bal (Node.eventsL ks) = 0 ∧
      ∀ j, bal ((Node.eventsL ks).take j) ≥ 0
    | [] => by simp [Node.eventsL]
    | k :: ks => by
      obtain ⟨h1, h2⟩ := bal_events k
      obtain ⟨h3, h4⟩ := bal_eventsL ks
      constructor
      · simp only [Node.eventsL, bal_append, h1, h3]; omega
      · intro j
        simp only [Node.eventsL, List.take_append, bal_append]
        have := h2 j
        have := h4 (j - k.events.length)
        omega
end

/-- `skip_element` just after a start tag. -/
theorem skipElement_at {D : Nat} {ks : List Node} {name : Name} {rest : List REv} {fin : Option Str}
    {rd : Rd} {fuel : Nat} (h : At (D + 1) (Node.eventsL ks ++ .endE name :: rest) fin rd)
    (hf : (Node.eventsL ks).length + 1 < fuel) :
    ∃ rd', skipElement fuel rd = (.ok (Node.eventsL ks ++ [.endE name]), rd') ∧ At D rest fin rd' := by
  obtain ⟨h1, h2⟩ := bal_eventsL ks
  have h' : At (D + 1) ((Node.eventsL ks ++ [.endE name]) ++ rest) fin rd := by simpa using h
  have := skipLoop_at fin rest (D + 1) (by omega) (Node.eventsL ks ++ [.endE name]) (D + 1) fuel []
    rd h' (fun j hj => by
      simp at hj
      rw [List.take_append_of_le_length (by omega)]
      have := h2 j
      omega) (by simp [bal_append, bal_cons, h1, weight]; omega) (by simpa using hf)
  unfold skipElement
  rw [h.depth]
  simpa using this

/-- The reader after some calls. -/
theorem after_adv {rd : Rd} (hs : Safe rd) :
    ∀ cs, Adv (cs.count .next) rd (after cs rd) := by
  intro cs
  induction cs generalizing rd with
  | nil => exact Adv.refl _
  | cons c cs ih =>
    cases c with
    | peek =>
      have h1 := peek_adv rd
      have h2 := ih (hs.adv h1)
      have := h1.trans h2
      rw [Nat.zero_add] at this
      simpa [after] using this
    | next =>
      have h1 := hs.next.2
      have h2 := ih (hs.adv h1)
      have := h1.trans h2
      rw [Nat.add_comm] at this
      simpa [after] using this

theorem readInnerValue_iff {α : Type} (f : D α) (rd rd' : Rd) (v : α) :
    readInnerValue f rd = (.ok v, rd') ↔
      ∃ name as m rd1 rd2, nextEvent rd = (.ok (.start name as m), rd1) ∧ f rd1 = (.ok v, rd2) ∧
        nextEvent rd2 = (.ok (.endE name), rd') := by
  constructor
  · intro h
    unfold readInnerValue at h
    cases h1 : nextEvent rd with
    | mk r rd1 =>
      cases r with
      | ok e =>
        rw [bind_ok (attempt_ok h1)] at h
        cases e with
        | start name as m =>
          dsimp only at h
          cases h2 : f rd1 with
          | mk r2 rd2 =>
            cases r2 with
            | ok w =>
              rw [bind_ok h2] at h
              cases h3 : nextEvent rd2 with
              | mk r3 rd3 =>
                cases r3 with
                | ok e3 =>
                  cases e3 with
                  | endE n3 =>
                    by_cases hn : n3 = name
                    · have h4 : expectEndElement name rd2 = (.ok (), rd3) := by
                        unfold expectEndElement
                        rw [bind_ok h3]
                        simp [hn]
                      rw [bind_ok h4] at h
                      simp only [mpure_apply, Prod.mk.injEq, Res.ok.injEq] at h
                      refine ⟨name, as, m, rd1, rd2, rfl, ?_, ?_⟩
                      · rw [h2, h.1]
                      · rw [h3, hn, h.2]
                    · have h4 : ∃ msg, expectEndElement name rd2 = (.err msg, rd3) := by
                        unfold expectEndElement
                        rw [bind_ok h3]
                        simp [hn]
                      obtain ⟨msg, h4⟩ := h4
                      rw [bind_err h4] at h
                      simp at h
                  | _ =>
                    have h4 : ∃ msg, expectEndElement name rd2 = (.err msg, rd3) := by
                      unfold expectEndElement
                      rw [bind_ok h3]
                      simp
                    obtain ⟨msg, h4⟩ := h4
                    rw [bind_err h4] at h
                    simp at h
                | err m3 =>
                  have h4 : expectEndElement name rd2 = (.err m3, rd3) := by
                    unfold expectEndElement; rw [bind_err h3]
                  rw [bind_err h4] at h; simp at h
                | panic m3 =>
                  have h4 : expectEndElement name rd2 = (.panic m3, rd3) := by
                    unfold expectEndElement; rw [bind_panic h3]
                  rw [bind_panic h4] at h; simp at h
                | diverge =>
                  have h4 : expectEndElement name rd2 = (.diverge, rd3) := by
                    unfold expectEndElement; rw [bind_diverge h3]
                  rw [bind_diverge h4] at h; simp at h
            | err m2 => rw [bind_err h2] at h; simp at h
            | panic m2 => rw [bind_panic h2] at h; simp at h
            | diverge => rw [bind_diverge h2] at h; simp at h
        | _ => simp at h
      | err m => rw [bind_ok (attempt_err h1)] at h; simp at h
      | panic m =>
        have : M.attempt nextEvent rd = (.panic m, rd1) := by simp [M.attempt, h1]
        rw [bind_panic this] at h; simp at h
      | diverge =>
        have : M.attempt nextEvent rd = (.diverge, rd1) := by simp [M.attempt, h1]
        rw [bind_diverge this] at h; simp at h
  · rintro ⟨name, as, m, rd1, rd2, h1, h2, h3⟩
    unfold readInnerValue
    rw [bind_ok (attempt_ok h1)]
    dsimp only
    rw [bind_ok h2]
    have h4 : expectEndElement name rd2 = (.ok (), rd') := by
      unfold expectEndElement; rw [bind_ok h3]; simp
    rw [bind_ok h4]
    rfl

/-- Inversion of a successful sequence. -/
theorem bind_ok_inv {σ α β : Type} {x : M σ α} {f : α → M σ β} {s s' : σ} {b : β}
    (h : (x >>= f) s = (.ok b, s')) : ∃ a s1, x s = (.ok a, s1) ∧ f a s1 = (.ok b, s') := by
  cases hx : x s with
  | mk r s1 =>
    cases r with
    | ok a => rw [bind_ok hx] at h; exact ⟨a, s1, rfl, h⟩
    | err m => rw [bind_err hx] at h; simp at h
    | panic m => rw [bind_panic hx] at h; simp at h
    | diverge => rw [bind_diverge hx] at h; simp at h

theorem peek_ok {rd rd' : Rd} {e : REv} (h : peek rd = (.ok e, rd')) :
    rd'.stream 0 = .ok e ∧ rd'.depth = rd.depth ∧ rd'.stream = rd.stream := by
  have hp := peek_stream rd
  rw [h] at hp
  simp only at hp
  exact ⟨by rw [hp.2.1, ← hp.1], hp.2.2, hp.2.1⟩

theorem lift_ok_inv {σ α : Type} {r : Res α} {s s' : σ} {a : α}
    (h : (M.lift r : M σ α) s = (.ok a, s')) : r = .ok a ∧ s' = s := by
  simp only [mlift_apply, Prod.mk.injEq] at h
  exact ⟨h.1, h.2.symm⟩

/-- Where the loop of a struct may stop. -/
theorem structLoop_ok (L : Lib) (rec : Path → D Val) (skipFuel : Nat) (d : StructDef) (named : Str)
    (startDepth : Nat) :
    ∀ (n : Nat) (st st' : LoopSt) (rd rd' : Rd),
      structLoop L rec skipFuel d named startDepth n st rd = (.ok st', rd') →
      (∃ name, name.loc = named ∧ rd'.stream 0 = .ok (.endE name) ∧ rd'.depth = startDepth + 1) ∨
      (rd'.stream 0 = .ok .endDocument ∧ d.attrs.flatten = true) := by
  intro n
  induction n with
  | zero => intro st st' rd rd' h; simp [structLoop, M.diverge] at h
  | succ n ih =>
    intro st st' rd rd' h
    obtain ⟨⟨st1, b⟩, rd1, h1, h2⟩ := bind_ok_inv h
    dsimp only at h2
    cases b with
    | true => exact ih _ _ _ _ h2
    | false =>
      simp only [mpure_apply, Prod.mk.injEq, Res.ok.injEq, Bool.false_eq_true, if_false] at h2
      obtain ⟨-, rfl⟩ := h2
      obtain ⟨e, rd2, h3, h4⟩ := bind_ok_inv h1
      have hpk := peek_ok h3
      cases e with
      | start name attrs m =>
        obtain ⟨st2, rd3, _, h6⟩ := bind_ok_inv h4
        simp at h6
      | endE name =>
        dsimp only at h4
        rw [bind_get] at h4
        split at h4
        · rename_i hc
          obtain ⟨w, rd3, h5, h6⟩ := bind_ok_inv h4
          obtain ⟨-, rfl⟩ := lift_ok_inv h5
          simp only [mpure_apply, Prod.mk.injEq, Res.ok.injEq] at h6
          obtain ⟨-, rfl⟩ := h6
          exact .inl ⟨name, hc.1, hpk.1, hc.2⟩
        · obtain ⟨e', rd3, _, h6⟩ := bind_ok_inv h4
          obtain ⟨w, rd4, _, h8⟩ := bind_ok_inv h6
          simp at h8
      | endDocument =>
        dsimp only at h4
        split at h4
        · rename_i hc
          simp only [mpure_apply, Prod.mk.injEq] at h4
          obtain ⟨-, rfl⟩ := h4
          exact .inr ⟨hpk.1, hc⟩
        · simp at h4
      | chars t =>
        obtain ⟨e', rd3, _, h6⟩ := bind_ok_inv h4
        obtain ⟨w, rd4, _, h8⟩ := bind_ok_inv h6
        simp at h8
      | _ => simp at h4

theorem structDeser_ok {L : Lib} {rec : Path → D Val} {fuel : Nat} {d : StructDef} {rd rd' : Rd} {v : Val}
    (h : structDeser L rec fuel d rd = (.ok v, rd')) :
    (∃ name, rd'.stream 0 = .ok (.endE name) ∧ rd'.depth = rd.depth + 1) ∨
      (rd'.stream 0 = .ok .endDocument ∧ d.attrs.flatten = true) := by
  obtain ⟨e, rd1, h1, h2⟩ := bind_ok_inv h
  rw [bind_get] at h2
  obtain ⟨_, rd2, h3, h4⟩ := bind_ok_inv h2
  have hrd : rd2 = rd1 := by
    split at h3
    · cases hm : nsMatching d.attrs.namespaces d.attrs.pfx
        (startInfo (d.attrs.xmlElementName d.name) e).2 (startInfo (d.attrs.xmlElementName d.name) e).1
      · simp [M.ofExcept, hm] at h3
      · simp only [M.ofExcept, hm, Prod.mk.injEq] at h3; exact h3.2.symm
    · simp only [mpure_apply, Prod.mk.injEq] at h3; exact h3.2.symm
  subst hrd
  obtain ⟨st, rd3, h5, h6⟩ := bind_ok_inv h4
  obtain ⟨ss, rd4, h7, h8⟩ := bind_ok_inv h6
  have hrd : rd4 = rd3 := by
    cases hf : d.hasFlat <;> cases hw : st.writer <;> rw [hf, hw] at h7
    case true.some => exact (lift_ok_inv h7).2
    all_goals
      simp only [mpure_apply, Prod.mk.injEq] at h7
      exact h7.2.symm
  subst hrd
  obtain ⟨vs, rd5, h9, h10⟩ := bind_ok_inv h8
  obtain ⟨-, rfl⟩ := lift_ok_inv h9
  simp only [mpure_apply, Prod.mk.injEq] at h10
  obtain ⟨-, rfl⟩ := h10
  have hd := (peek_ok h1).2.1
  rcases structLoop_ok _ _ _ _ _ _ _ _ _ _ _ h5 with ⟨name, -, ha, hb⟩ | hc
  · exact .inl ⟨name, ha, by rw [hb, hd]⟩
  · exact .inr hc

end Yaserde
