import Verif.Proofs.ParseSound
import Verif.Props.WellFormed
/-
C71: a text that was cut off is not accepted.  Unlike C06 this is about characters, not about events: `L.parse` and `L.emit` are the
character-level model of the XML library (`Model/XmlText.lean`).
-/

set_option autoImplicit false

namespace Yaserde

/-! ### Enums without unit variants -/

theorem variantArm_goes_on {L : Lib} {rec : Path → D Val} {i : Nat} {v : VariantDef} {cur cur' : Option Val} {rd rd' : Rd} {b : Bool}
    (hv : v.shape ≠ .unit) (h : variantArm L rec i v cur rd = (.ok (cur', b), rd')) : b = true := by
  unfold variantArm at h
  cases hs : v.shape with
  | unit => exact absurd hs hv
  | named fs =>
    rw [hs] at h
    simp only [mpure_apply, Prod.mk.injEq, Res.ok.injEq] at h
    exact h.1.2.symm
  | newtype t =>
    rw [hs] at h
    dsimp only at h
    cases hc : t.core with
    | struct q =>
      rw [hc] at h
      obtain ⟨x, r1, _, h⟩ := bind_ok_inv h
      obtain ⟨x, r1, _, h⟩ := bind_ok_inv h
      obtain ⟨x, r1, _, h⟩ := bind_ok_inv h
      simp only [mpure_apply, Prod.mk.injEq, Res.ok.injEq] at h
      exact h.1.2.symm
    | simple s =>
      rw [hc] at h
      obtain ⟨x, r1, _, h⟩ := bind_ok_inv h
      cases x with
      | ok x =>
        obtain ⟨x, r1, _, h⟩ := bind_ok_inv h
        simp only [mpure_apply, Prod.mk.injEq, Res.ok.injEq] at h
        exact h.1.2.symm
      | error m =>
        simp only [mpure_apply, Prod.mk.injEq, Res.ok.injEq] at h
        exact h.1.2.symm
    | _ => rw [hc] at h; simp [M.panic] at h

theorem enumMatch_goes_on {L : Lib} {rec : Path → D Val} {d : EnumDef} (hu : ∀ v ∈ d.variants, v.shape ≠ .unit) {key : Str}
    {cur cur' : Option Val} {dflt : D (Option Val × Bool)} {rd rd' : Rd} {b : Bool}
    (hd : ∀ rd cur' b rd', dflt rd = (.ok (cur', b), rd') → b = true)
    (h : enumMatch L rec d key cur dflt rd = (.ok (cur', b), rd')) : b = true := by
  unfold enumMatch at h
  cases hi : findVariant key d.variants with
  | none => rw [hi] at h; exact hd _ _ _ _ h
  | some i =>
    rw [hi] at h
    dsimp only at h
    cases hv : d.variants[i]? with
    | none => rw [hv] at h; exact hd _ _ _ _ h
    | some v => rw [hv] at h; exact variantArm_goes_on (hu v (List.mem_of_getElem? hv)) h

theorem enumLoop_ok {L : Lib} {rec : Path → D Val} {d : EnumDef} (hu : ∀ v ∈ d.variants, v.shape ≠ .unit) (named : Str) (sd : Nat) :
    ∀ n cur cur' rd rd', enumLoop L rec d named sd n cur rd = (.ok cur', rd') →
      (∃ name, rd'.stream 0 = .ok (.endE name) ∧ rd'.depth = sd + 1) ∨ (rd'.stream 0 = .ok .endDocument ∧ d.attrs.flatten = true) := by
  intro n
  induction n with
  | zero => intro cur cur' rd rd' h; simp [enumLoop, M.diverge] at h
  | succ n ih =>
    intro cur cur' rd rd' h
    obtain ⟨⟨cur1, b⟩, rd1, h1, h2⟩ := bind_ok_inv h
    dsimp only at h2
    cases b with
    | true => exact ih _ _ _ _ h2
    | false =>
      simp only [mpure_apply, Prod.mk.injEq, Res.ok.injEq, Bool.false_eq_true, if_false] at h2
      obtain ⟨-, rfl⟩ := h2
      obtain ⟨e, rd2, h3, h4⟩ := bind_ok_inv h1
      have hpk := peek_ok h3
      cases e with
      | start name attrs m =>
        exfalso
        obtain ⟨key, rd3, _, h5⟩ := bind_ok_inv h4
        obtain ⟨⟨c2, b2⟩, rd4, h6, h7⟩ := bind_ok_inv h5
        have hb := enumMatch_goes_on hu (fun rd cur' b rd' hd => by
          obtain ⟨x, r1, _, h⟩ := bind_ok_inv hd
          simp only [mpure_apply, Prod.mk.injEq, Res.ok.injEq] at h
          exact h.1.2.symm) h6
        subst hb
        dsimp only at h7
        rw [if_pos rfl] at h7
        obtain ⟨e', rd5, _, h8⟩ := bind_ok_inv h7
        cases e' with
        | chars t =>
          have := enumMatch_goes_on hu (fun rd cur' b rd' hd => by
            simp only [mpure_apply, Prod.mk.injEq, Res.ok.injEq] at hd
            exact hd.1.2.symm) h8
          cases this
        | _ => simp at h8
      | endE name =>
        dsimp only at h4
        rw [bind_get] at h4
        split at h4
        · rename_i hc
          simp only [mpure_apply, Prod.mk.injEq, Res.ok.injEq] at h4
          obtain ⟨-, rfl⟩ := h4
          exact .inl ⟨name, hpk.1, hc.2⟩
        · obtain ⟨w, rd4, _, h8⟩ := bind_ok_inv h4
          simp at h8
      | endDocument =>
        dsimp only at h4
        split at h4
        · rename_i hc
          simp only [mpure_apply, Prod.mk.injEq] at h4
          obtain ⟨-, rfl⟩ := h4
          exact .inr ⟨hpk.1, hc⟩
        · simp at h4
      | chars t =>
        obtain ⟨w, rd4, _, h8⟩ := bind_ok_inv h4
        simp at h8
      | _ => simp at h4

theorem enumDeser_ok {L : Lib} {rec : Path → D Val} {fuel : Nat} {d : EnumDef} {rd rd' : Rd} {v : Val}
    (hu : ∀ v ∈ d.variants, v.shape ≠ .unit) (h : enumDeser L rec fuel d rd = (.ok v, rd')) :
    (∃ name, rd'.stream 0 = .ok (.endE name) ∧ rd'.depth = rd.depth + 1) ∨
      (rd'.stream 0 = .ok .endDocument ∧ d.attrs.flatten = true) := by
  obtain ⟨e, rd1, h1, h2⟩ := bind_ok_inv h
  rw [bind_get] at h2
  obtain ⟨_, rd2, h3, h4⟩ := bind_ok_inv h2
  have hrd := (lift_ok_inv h3).2
  subst hrd
  obtain ⟨cur, rd3, h5, h6⟩ := bind_ok_inv h4
  simp only [mpure_apply, Prod.mk.injEq] at h6
  obtain ⟨-, rfl⟩ := h6
  have hd := (peek_ok h1).2.1
  rcases enumLoop_ok hu _ _ _ _ _ _ _ h5 with ⟨name, ha, hb⟩ | hc
  · exact .inl ⟨name, ha, by rw [hb, hd]⟩
  · exact .inr hc

/-! ### C71 -/

/-- A struct, or an enum all of whose variants have contents. -/
def ReadsToTheEnd (env : Env) (p : Path) : Prop :=
  (∃ d, env p = some (.struct d)) ∨ ∃ d, env p = some (.enum d) ∧ ∀ v ∈ d.variants, v.shape ≠ .unit

theorem stops_at_end {L : Lib} {env : Env} {p : Path} (hp : ReadsToTheEnd env p) {n : Nat} {rd rd' : Rd} {v : Val}
    (h : deser L env n p rd = (.ok v, rd')) :
    (∃ name, rd'.stream 0 = .ok (.endE name) ∧ rd'.depth = rd.depth + 1) ∨ rd'.stream 0 = .ok .endDocument := by
  cases n with
  | zero => simp [deser, M.diverge] at h
  | succ n =>
    rcases hp with ⟨d, hp⟩ | ⟨d, hp, hu⟩
    · simp only [deser, hp] at h
      exact (structDeser_ok h).imp id And.left
    · simp only [deser, hp] at h
      exact (enumDeser_ok hu h).imp id And.left

/-- If a document is accepted then it contains the end tag of a document element, or it is complete. -/
theorem accepted_closed {L : Lib} {env : Env} {p : Path} (hp : ReadsToTheEnd env p) {src : Src} (hw : WellFormed src) {v : Val}
    (h : Reads L env p src (.ok v)) :
    (∃ pre name post, src.evs = pre ++ .endE name :: post ∧ bal pre = 1) ∨ src.fin = none := by
  obtain ⟨-, n, hn⟩ := h
  cases hd : deser L env n p (Rd.new src) with
  | mk r rd' =>
    rw [hd] at hn
    simp only at hn
    subst hn
    obtain ⟨k, hk⟩ := (Loc.deser L env n p).from_ (Rd.new src)
    have hadv := (hk _ (Agree.refl _ _)).2
    rw [hd] at hadv
    have hadv := hadv trivial
    rcases stops_at_end hp hd with ⟨name, h1, h2⟩ | h1
    · left
      rw [hadv.1, (at_new' src).stream, Nat.zero_add] at h1
      have h3 := hadv.2
      rw [(at_new' src).stream, weightSum_strm, h2] at h3
      have hlt : k < (content src.evs).length := by
        rcases Nat.lt_or_ge k (content src.evs).length with hlt | hge
        · exact hlt
        · simp only [strm, List.getElem?_eq_none hge] at h1
          cases hf : src.fin <;> simp [finRes, hf] at h1
      have hget : (content src.evs)[k] = .endE name := by
        simpa [strm, List.getElem?_eq_getElem hlt] using h1
      have hsplit : content src.evs = (content src.evs).take k ++ .endE name :: (content src.evs).drop (k + 1) := by
        rw [← hget, List.getElem_cons_drop hlt, List.take_append_drop]
      obtain ⟨pre, post, h4, h5⟩ := content_split hsplit
      refine ⟨pre, name, post, h4, ?_⟩
      rw [← h5, bal_content] at h3
      simp only [Rd.new] at h3
      omega
    · right
      rw [hadv.1, (at_new' src).stream, Nat.zero_add] at h1
      rcases Nat.lt_or_ge k (content src.evs).length with hlt | hge
      · have hget : (content src.evs)[k] = .endDocument := by
          simpa [strm, List.getElem?_eq_getElem hlt] using h1
        have hm : REv.endDocument ∈ content src.evs := hget ▸ List.getElem_mem hlt
        exact absurd (List.mem_filter.mp hm).1 hw.noEnd
      · simp only [strm, List.getElem?_eq_none hge] at h1
        cases hf : src.fin with
        | none => rfl
        | some m => simp [finRes, hf] at h1

/-- **C71.** A text that is accepted begins with a complete document: an XML declaration, comments and processing instructions, if
any, and one element with its end tag. -/
theorem C71_complete (L : Lib) (hL : L.parse = XmlText.parse) (env : Env) (p : Path) (hp : ReadsToTheEnd env p) (s : Str) (v : Val)
    (h : Returns L env p s (.ok v)) :
    ∃ t n as m ks, t <+: s ∧ L.parse t = ⟨.startDocument :: (Node.elem n as m ks).events, none⟩ := by
  rw [hL]
  have hr : Reads L env p (XmlText.parse s) (.ok v) := by
    obtain ⟨h1, n, h2⟩ := h
    refine ⟨h1, n, ?_⟩
    unfold deFromStr fromStr at h2
    rw [hL] at h2
    exact h2
  have key : ∃ pre name post, (XmlText.run s {}).evs = pre ++ .endE name :: post ∧ bal pre = 1 := by
    have hevs := XmlText.finish_evs (XmlText.run s {})
    change (XmlText.parse s).evs = _ at hevs
    rcases accepted_closed hp (XmlText.parse_wellFormed s) hr with ⟨pre, name, post, h1, h2⟩ | h1
    · rw [hevs] at h1
      cases pre with
      | nil => simp at h1
      | cons e pre =>
        simp only [List.cons_append, List.cons.injEq] at h1
        obtain ⟨rfl, h1⟩ := h1
        refine ⟨pre, name, post, h1, ?_⟩
        rw [bal_cons] at h2
        simpa [weight] using h2
    · obtain ⟨x, xs, h2, h3⟩ := XmlText.parse_sound s h1
      obtain ⟨n, as, m, ks, rfl⟩ := XmlText.elem_events (h2 x (by simp))
      rw [hevs, List.cons.injEq] at h3
      refine ⟨.start n as m :: Node.eventsL ks, n, Node.eventsL xs, ?_, ?_⟩
      · rw [h3.2]; simp [Node.eventsL, Node.events]
      · rw [bal_cons, (bal_eventsL ks).1]; rfl
  obtain ⟨pre, name, post, h1, h2⟩ := key
  obtain ⟨t, x, h3, h4, h5⟩ := XmlText.first_elem s pre post name h1 h2
  obtain ⟨n, as, m, ks, rfl⟩ := XmlText.elem_events h4
  exact ⟨t, n, as, m, ks, h3, h5⟩

/-- **C71.** No proper beginning of a text written for a legal value is accepted, whatever the configuration and whatever type and
program it is read with. -/
theorem C71_cut (L : Lib) (hL : L.parse = XmlText.parse) (hE : L.emit = XmlText.emit) {env : Env} {G : NsMap} (hN : NamesOk env G)
    (hok : SerOk env) {p : Path} (he : HasElement env p) {v : Val} (hv : HasTy env (.struct p) v) (hl : Legal L env (.struct p) v)
    (c : Config) (hc : c.emitCfg.Blank) :
    ∃ s, toStringWithConfig L env c p v = .ok s ∧ ∀ t, t <+: s → t ≠ s →
      ∀ (env' : Env) (q : Path) (w : Val), ReadsToTheEnd env' q → ¬ Returns L env' q t (.ok w) := by
  obtain ⟨n, as, nss, ks, h1, h2⟩ := C61_well_formed hN hok he hv hl
  obtain ⟨y, h3, h4⟩ := XmlText.law_doc' n as nss ks _ h1 rfl
  obtain ⟨h5, t0, h6, h7⟩ := h4 c.emitCfg hc
  refine ⟨XmlText.emit c.emitCfg (WNode.elem n as nss ks).events, ?_, ?_⟩
  · unfold toStringWithConfig
    rw [h2, hE]
  intro t ht hne env' q w hq hr
  obtain ⟨t1, xn, xa, xm, xk, ht1, hx⟩ := C71_complete L hL env' q hq t w hr
  rw [hL] at hx
  -- the events of the complete document are the beginning of those of the text without its last character
  have hpre : t1 <+: t0 := by
    have : t <+: t0 := by
      rw [h6] at ht hne
      rcases List.prefix_concat_iff.mp ht with h | h
      · exact absurd h hne
      · exact h
    exact ht1.trans this
  have e1 : (XmlText.run t1 {}).evs = (Node.elem xn xa xm xk).events := by
    have := XmlText.finish_evs (XmlText.run t1 {})
    rw [show (XmlText.run t1 {}).finish = XmlText.parse t1 from rfl, hx] at this
    exact (List.cons.inj this).2.symm
  have e2 : (XmlText.run (t0 ++ c!">") {}).evs = y.events := by
    have := XmlText.finish_evs (XmlText.run (t0 ++ c!">") {})
    rw [← h6, show (XmlText.run _ {}).finish = XmlText.parse _ from rfl, h5] at this
    rw [← h6]
    exact (List.cons.inj this).2.symm
  have p1 := XmlText.run_prefix hpre
  have p2 := XmlText.run_prefix (hpre.trans (List.prefix_append t0 c!">"))
  rw [e1] at p1
  rw [e1, e2] at p2
  have hlen : (Node.elem xn xa xm xk).events.length < y.events.length := Nat.lt_of_le_of_lt p1.length_le h7
  -- but the beginning of an element's events is not balanced
  cases y with
  | text s => cases h3
  | elem yn ya ym yk =>
    obtain ⟨post, hpost⟩ := p2
    simp only [Node.events, List.cons_append, List.cons.injEq] at hpost hlen
    have hl : (Node.eventsL xk).length + 1 ≤ (Node.eventsL yk).length := by simp at hlen; omega
    have htake : (Node.eventsL yk).take ((Node.eventsL xk).length + 1) = Node.eventsL xk ++ [.endE xn] := by
      have : (Node.eventsL yk ++ [REv.endE yn]).take ((Node.eventsL xk).length + 1) = Node.eventsL xk ++ [.endE xn] := by
        rw [← hpost.2, List.take_left' (by simp)]
      rwa [List.take_append_of_le_length hl] at this
    have := (bal_eventsL yk).2 ((Node.eventsL xk).length + 1)
    rw [htake, bal_append, (bal_eventsL xk).1, bal_cons] at this
    simp [weight] at this

/-! ### Samples -/

namespace CutSample
open Tests

/-- A struct with a list of enums without unit variants, and an enum with one. -/
def prog : List (Path × TypeDef) :=
  [mkS c!"Log" [F c!"id" Tests.S { isAttr := true }, F c!"entry" (V (T c!"Entry"))],
   mkE c!"Entry" [vN c!"Say" Tests.S, vN c!"Sub" (T c!"Log")] (.enum 0 [.str []]),
   mkE c!"Kind" [vU c!"One", vN c!"Two" Tests.S] (.enum 1 [.str []]),
   ([c!"Num"], .prim { name := c!"Num", toStr := showS lib, fromStr := parseS lib (.int .i32) })]

def env : Env := envOf prog

def value : Val :=
  .struct [.str c!"a-", .vec [.enum 0 [.str c!"<hi/>"], .enum 1 [.struct [.str [], .vec []]]]]

theorem names : NamesOk env [] := namesOk_of_check [] prog (by decide +kernel)
theorem serOk : SerOk env := serOk_of_all _ (by decide)
theorem hasTy : HasTy env (T c!"Log") value := hasTy_of_check _ _ _ rfl
theorem legal : Legal lib env (T c!"Log") value := legal_of_check _ _ 9 _ _ (by decide +kernel)
theorem log : ReadsToTheEnd env [c!"Log"] := .inl ⟨_, rfl⟩
theorem entry : ReadsToTheEnd env [c!"Entry"] := .inr ⟨_, rfl, by simp [vN]⟩

example : toString lib env [c!"Log"] value = .ok c!"<?xml version=\"1.0\" encoding=\"utf-8\"?><Log id=\"a-\"><entry><Say>&lt;hi/&gt;</Say></entry><entry><Sub /></entry></Log>" := by
  decide +kernel

/-- The text without its last character, and the text without its second half: neither is accepted. -/
example (w : Val) : ¬ Returns lib env [c!"Log"] c!"<?xml version=\"1.0\" encoding=\"utf-8\"?><Log id=\"a-\"><entry><Say>&lt;hi/&gt;</Say></entry><entry><Sub /></entry></Log" (.ok w) ∧
    ¬ Returns lib env [c!"Log"] c!"<?xml version=\"1.0\" encoding=\"utf-8\"?><Log id=\"a-\"><entry><Say>&lt;hi/" (.ok w) := by
  obtain ⟨s, h1, h2⟩ := C71_cut lib rfl rfl names serOk (by intro d h; cases h) hasTy legal {} (by intro i h; cases h)
  have h0 : toStringWithConfig lib env {} [c!"Log"] value = .ok c!"<?xml version=\"1.0\" encoding=\"utf-8\"?><Log id=\"a-\"><entry><Say>&lt;hi/&gt;</Say></entry><entry><Sub /></entry></Log>" := by
    decide +kernel
  rw [h0] at h1
  cases h1
  exact ⟨h2 _ (by decide) (by decide) env _ w log, h2 _ (by decide) (by decide) env _ w log⟩

/-- With something after the document element the text is accepted: `C71_complete` then gives the part up to the end tag. -/
example : ∃ t n as m ks, t <+: c!"<!-- --><Entry><Say>x</Say></Entry><" ∧
    lib.parse t = ⟨.startDocument :: (Node.elem n as m ks).events, none⟩ :=
  C71_complete lib rfl env [c!"Entry"] entry _ (.enum 0 [.str c!"x"]) (Tests.returns_of_deOk (by decide +kernel))

end CutSample

/-- The condition on the type is needed: a unit variant is returned as soon as its name has been read, and the primitive types of
`yaserde` as soon as their text has.  What was written for `Kind::One` and for `Num(42)` is accepted without its last characters. -/
theorem C71_false :
    (toString Tests.lib CutSample.env [c!"Kind"] (.enum 0 []) = .ok c!"<?xml version=\"1.0\" encoding=\"utf-8\"?><Kind>One</Kind>" ∧
      Returns Tests.lib CutSample.env [c!"Kind"] c!"<?xml version=\"1.0\" encoding=\"utf-8\"?><Kind>One</" (.ok (.enum 0 []))) ∧
    Returns Tests.lib CutSample.env [c!"Num"] c!"<Num>42</" (.ok (.int 42)) :=
  ⟨⟨by decide +kernel, Tests.returns_of_deOk (by decide +kernel)⟩, Tests.returns_of_deOk (by decide +kernel)⟩

end Yaserde
