import Verif.Proofs.Runtime
import Verif.Proofs.Fuel
/-
Properties C01-C06, C18, C27: the `Deserializer` runtime, and facts that hold for the generated
deserializer of *every* type.
-/

set_option autoImplicit false

namespace Yaserde

/-! ### C01: peek is pure look-ahead -/

/-- Inserting a `peek` at any moment changes no later observation, and the event it returns
is the one the next `next_event` returns (unless this one overflows the depth counter, which
cannot happen on well-nested input, see `C03_observations`). -/
theorem C01_peek_pure (rd : Rd) (cs : List Call) :
    observe cs (peek rd).2 = observe cs rd ∧
    (peek rd).2.depth = rd.depth ∧
    (peek (peek rd).2).1 = (peek rd).1 ∧
    ((nextEvent rd).1 = (peek rd).1 ∨
      (nextEvent rd).1 = .panic c!"attempt to subtract with overflow") := by
  have hobs : ∀ (cs : List Call) (a b : Rd), a.depth = b.depth → a.stream = b.stream →
      observe cs a = observe cs b := by
    intro cs
    induction cs with
    | nil => intros; rfl
    | cons c cs ih =>
      intro a b hd hs
      cases c with
      | peek =>
        have ha := peek_stream a
        have hb := peek_stream b
        simp only [observe]
        rw [ha.1, hb.1, ha.2.2, hb.2.2, hd, hs,
          ih (Yaserde.peek a).2 (Yaserde.peek b).2 (by rw [ha.2.2, hb.2.2, hd])
            (by rw [ha.2.1, hb.2.1, hs])]
      | next =>
        simp only [observe]
        have ha := next_stream a
        have hb := next_stream b
        by_cases hw : (a.depth : Int) + weight (a.stream 0) ≥ 0
        · obtain ⟨ha1, ha2⟩ := ha.1 hw
          obtain ⟨hb1, hb2⟩ := hb.1 (by rw [← hd, ← hs]; exact hw)
          have hs' : (nextEvent a).2.stream = (nextEvent b).2.stream := by
            funext n; rw [ha2.1, hb2.1, hs]
          have hd' : (nextEvent a).2.depth = (nextEvent b).2.depth := by
            have h1 := ha2.2
            have h2 := hb2.2
            rw [hd, hs] at h1
            exact Int.natCast_inj.mp (h1.trans h2.symm)
          rw [ha1, hb1, hs, hd', ih _ _ hd' hs']
        · -- an end tag at depth 0: both panic and drop the event
          have hst : a.visible ≠ [] := by
            intro hv
            have : a.stream 0 = finRes a.reader.fin := by simp [Rd.stream, hv, strm]
            rw [this] at hw
            cases hf : a.reader.fin <;> simp [finRes, weight, hf] at hw
          have key : ∀ r : Rd, ¬ ((r.depth : Int) + weight (r.stream 0) ≥ 0) →
              (nextEvent r).2.depth = r.depth ∧ (nextEvent r).2.stream = fun n => r.stream (n + 1) := by
            intro r hr
            cases hv : r.visible with
            | nil =>
              have : r.stream 0 = finRes r.reader.fin := by simp [Rd.stream, hv, strm]
              rw [this] at hr
              cases hf : r.reader.fin <;> simp [finRes, weight, hf] at hr
            | cons e es =>
              have hat := at_self r
              rw [hv] at hat
              have hst := hat.stream
              obtain ⟨r', h1, h2⟩ := nextEvent_at hat
              have h0 : r.stream 0 = .ok e := by rw [hst]; rfl
              rw [h0] at hr
              cases e with
              | endE n =>
                simp only [weight] at hr
                have hz : r.depth = 0 := by omega
                rw [h1]
                simp only [trackDepth, h2.depth, hz, if_true]
                refine ⟨trivial, ?_⟩
                rw [h2.stream]; funext n; rw [hst, strm_cons_succ]
              | _ => simp [weight] at hr <;> omega
          obtain ⟨ka1, ka2⟩ := key a hw
          obtain ⟨kb1, kb2⟩ := key b (by rw [← hd, ← hs]; exact hw)
          rw [ha.2 hw, hb.2 (by rw [← hd, ← hs]; exact hw), ka1, kb1, hd,
            ih (nextEvent a).2 (nextEvent b).2 (by rw [ka1, kb1, hd]) (by rw [ka2, kb2, hs])]
  have hp := peek_stream rd
  refine ⟨hobs cs _ _ hp.2.2 hp.2.1, hp.2.2, ?_, ?_⟩
  · rw [(peek_stream (peek rd).2).1, hp.2.1, hp.1]
  · by_cases hw : (rd.depth : Int) + weight (rd.stream 0) ≥ 0
    · left; rw [((next_stream rd).1 hw).1, hp.1]
    · right; exact (next_stream rd).2 hw

example : (peek (Rd.new ⟨[.comment c!"x", .start ⟨c!"a", none, none⟩ [] []], none⟩)).1
    = .ok (.start ⟨c!"a", none, none⟩ [] []) := by decide

/-! ### C02, C03: what a client observes -/

/-- What the client has to see: the `i`-th `next_event` delivers the `i`-th content event, and
`depth()` is the number of elements opened minus closed by the events consumed so far. -/
def expected (src : Src) : List Call → Nat → List (Call × Res REv × Nat)
  | [], _ => []
  | .peek :: cs, i =>
    (.peek, delivered src i,
      opens ((content src.evs).take i) - closes ((content src.evs).take i)) :: expected src cs i
  | .next :: cs, i =>
    (.next, delivered src i,
      opens ((content src.evs).take (i + 1)) - closes ((content src.evs).take (i + 1))) ::
      expected src cs (i + 1)

theorem observe_expected (src : Src) (hw : WellNested src.evs) :
    ∀ (cs : List Call) (i : Nat) (rd : Rd), Adv i (Rd.new src) rd →
      observe cs rd = expected src cs i := by
  have hsafe := safe_new hw
  have hdepth : ∀ i rd, Adv i (Rd.new src) rd →
      rd.depth = opens ((content src.evs).take i) - closes ((content src.evs).take i) := by
    intro i rd h
    have h1 := h.2
    rw [(at_new' src).stream, weightSum_strm] at h1
    have := hw.content i
    simp only [Rd.new, bal] at h1
    omega
  have hstr : ∀ i rd, Adv i (Rd.new src) rd → rd.stream 0 = delivered src i := by
    intro i rd h
    rw [h.1, new_stream, Nat.zero_add]
  intro cs
  induction cs with
  | nil => intros; rfl
  | cons c cs ih =>
    intro i rd h
    cases c with
    | peek =>
      have h' : Adv i (Rd.new src) (peek rd).2 := h.trans (peek_adv rd)
      simp only [observe, expected]
      rw [(peek_stream rd).1, hstr i rd h, hdepth i _ h', ih i _ h']
    | next =>
      obtain ⟨h1, h2⟩ := (hsafe.adv h).next
      have h' := h.trans h2
      simp only [observe, expected]
      rw [h1, hstr i rd h, hdepth (i + 1) _ h', ih (i + 1) _ h']

/-- Any interleaving of `peek` and `next_event` on a well-nested document sees exactly the
document's content events, each once, in order, and then the final result forever. -/
theorem C02_events_once (src : Src) (hw : WellNested src.evs) (cs : List Call) :
    observe cs (Rd.new src) = expected src cs 0 :=
  observe_expected src hw cs 0 _ (Adv.refl _)

/-- `depth()` after any calls = start tags consumed − end tags consumed; no call panics. -/
theorem C03_depth (src : Src) (hw : WellNested src.evs) (cs : List Call) :
    (after cs (Rd.new src)).depth + closes ((content src.evs).take (cs.count .next))
      = opens ((content src.evs).take (cs.count .next)) ∧
    ∀ o ∈ observe cs (Rd.new src), ∀ m, o.2.1 ≠ .panic m := by
  constructor
  · have h := (after_adv (safe_new hw) cs).2
    rw [(at_new' src).stream, weightSum_strm] at h
    simp only [Rd.new, bal] at h
    have h' : ((after cs (Rd.new src)).depth : Int) = _ := h
    omega
  · rw [C02_events_once src hw]
    have hdel : ∀ i m, delivered src i ≠ .panic m := by
      intro i m
      unfold delivered
      split
      · simp
      · split <;> simp
    generalize (0 : Nat) = i
    induction cs generalizing i with
    | nil => simp [expected]
    | cons c cs ih =>
      intro o ho m
      cases c <;> simp only [expected, List.mem_cons] at ho
      all_goals
        rcases ho with rfl | ho
        · exact hdel _ _
        · exact ih _ o ho m

example : WellNested [.startDocument, .start ⟨c!"a", none, none⟩ [] [], .comment c!"x",
    .start ⟨c!"b", none, none⟩ [] [], .endE ⟨c!"b", none, none⟩, .endE ⟨c!"a", none, none⟩] := by
  intro k
  match k with
  | 0 | 1 | 2 | 3 | 4 | 5 => decide
  | k + 6 => rw [List.take_of_length_le (by simp)]; decide

/-! ### C04: skip_element -/

/-- After the start tag of an element has been consumed (`pre` are the events consumed so far,
however they were consumed), `skip_element` passes exactly the events of the rest of that
element to the callback and leaves the reader just behind the element's end tag. -/
theorem C04_skip_element (src : Src) (hw : WellNested src.evs) (pre rest : List REv)
    (kids : List Node) (name : Name)
    (hsrc : content src.evs = pre ++ (Node.eventsL kids ++ .endE name :: rest))
    (cs : List Call) (hcs : cs.count .next = pre.length)
    (depth : Nat)
    (hopen : opens pre = closes pre + depth + 1) (fuel : Nat) (hfuel : (Node.eventsL kids).length + 1 < fuel) :
    ∃ rd', skipElement fuel (after cs (Rd.new src)) = (.ok (Node.eventsL kids ++ [.endE name]), rd') ∧
      rd'.depth = depth ∧ (after cs (Rd.new src)).depth = depth + 1 ∧
      ∀ cs', observe cs' rd' = expected src cs' (pre.length + (Node.eventsL kids).length + 1) := by
  have hadv := after_adv (safe_new hw) cs
  rw [hcs] at hadv
  generalize hrd : after cs (Rd.new src) = rd at hadv
  have hdep : rd.depth = depth + 1 := by
    have h1 := hadv.2
    rw [(at_new' src).stream, weightSum_strm, hsrc, List.take_left] at h1
    simp only [Rd.new, bal] at h1
    omega
  -- a reader without a peeked event in the same position
  let es := Node.eventsL kids ++ .endE name :: rest
  have hstrm : ∀ j, strm (pre ++ es) src.fin (j + pre.length) = strm es src.fin j := by
    intro j
    simp only [strm]
    rw [List.getElem?_append_right (by omega)]
    simp
  let rd0 : Rd := { depth := depth + 1, reader := ⟨es, src.fin⟩, peeked := none }
  -- events of the tail contain no misc events
  have hclean : es.filter (fun e => !e.skipped) = es := by
    have h1 : content (content src.evs) = content src.evs := by
      simp only [content, List.filter_filter, Bool.and_self]
    rw [hsrc, content_eq, List.filter_append] at h1
    have h2 : (pre.filter fun e => !e.skipped).length ≤ pre.length := List.length_filter_le _ _
    have h3 : (es.filter fun e => !e.skipped).length ≤ es.length := List.length_filter_le _ _
    have h4 := congrArg List.length h1
    simp only [List.length_append] at h4
    have h5 : (es.filter fun e => !e.skipped).length = es.length := by
      have : es.length = (Node.eventsL kids).length + (REv.endE name :: rest).length := by simp [es]
      simp only [es, List.length_append] at *
      omega
    exact List.filter_eq_self.mpr (List.length_filter_eq_length_iff.mp h5)
  have hat0 : At (depth + 1) es src.fin rd0 := ⟨rfl, by simp [Rd.visible, rd0, hclean], rfl⟩
  obtain ⟨rd1, h1, h2⟩ := skipElement_at hat0 hfuel
  obtain ⟨k, hk⟩ := (Loc.skipElement fuel).from_ rd0
  have hagree : Agree k rd0 rd := by
    refine ⟨hdep.symm, fun j _ => ?_⟩
    rw [hadv.1, (at_new' src).stream, hsrc, hstrm, hat0.stream]
  obtain ⟨e1, a1⟩ := hk rd hagree
  obtain ⟨-, a0⟩ := hk rd0 (Agree.refl _ _)
  rw [h1] at e1 a0 a1
  refine ⟨(skipElement fuel rd).2, ?_, ?_, hdep, ?_⟩
  · exact Prod.ext e1 rfl
  · have b0 := (a0 trivial).2
    have b1 := (a1 trivial).2
    have : weightSum rd0.stream k = weightSum rd.stream k :=
      weightSum_congr fun j hj => hagree.2 j (by omega)
    rw [h2.depth] at b0
    rw [hagree.1] at b0
    omega
  · intro cs'
    have hk' : ∀ n, strm rest src.fin n = strm es src.fin (n + k) := by
      intro n
      have := (a0 trivial).1 n
      rw [h2.stream, hat0.stream] at this
      exact this
    -- position in the whole document
    have hadv' : Adv (pre.length + (Node.eventsL kids).length + 1) (Rd.new src) (skipElement fuel rd).2 := by
      have hall := hadv.trans (a1 trivial)
      constructor
      · intro n
        rw [hall.1, (at_new' src).stream, hsrc]
        have e2 : strm (pre ++ es) src.fin (n + (pre.length + k)) = strm es src.fin (n + k) := by
          rw [← hstrm]; congr 1; omega
        have e3 : strm (pre ++ es) src.fin (n + (pre.length + (Node.eventsL kids).length + 1))
            = strm rest src.fin n := by
          simp only [strm, es]
          rw [List.getElem?_append_right (by omega), List.getElem?_append_right (by omega)]
          have : n + (pre.length + (Node.eventsL kids).length + 1) - pre.length
              - (Node.eventsL kids).length = n + 1 := by omega
          rw [this]; rfl
        rw [e2, e3, hk']
      · have b1 := (a1 trivial).2
        have b0 := (a0 trivial).2
        have : weightSum rd0.stream k = weightSum rd.stream k :=
          weightSum_congr fun j hj => hagree.2 j (by omega)
        rw [(at_new' src).stream, weightSum_strm, hsrc]
        have : (pre ++ (Node.eventsL kids ++ REv.endE name :: rest)).take
            (pre.length + (Node.eventsL kids).length + 1) = pre ++ (Node.eventsL kids ++ [REv.endE name]) := by
          rw [show pre ++ (Node.eventsL kids ++ REv.endE name :: rest)
              = (pre ++ (Node.eventsL kids ++ [REv.endE name])) ++ rest by simp]
          rw [List.take_left']
          simp; omega
        rw [this, bal_append, bal_append, (bal_eventsL kids).1, bal_cons]
        rw [h2.depth, hagree.1] at b0
        simp only [Rd.new, bal, weight, bal_nil]
        simp only [opens, closes, List.countP_nil] at *
        omega
    exact observe_expected src hw cs' _ _ hadv'

/-- The hypotheses of `C04_skip_element` on `<a>x<b><c/>y</b><!--z--></a>` after the start tag of
`b` has been consumed. -/
example : content ([.start ⟨c!"a", none, none⟩ [] [], .chars c!"x", .start ⟨c!"b", none, none⟩ [] [],
      .start ⟨c!"c", none, none⟩ [] [], .endE ⟨c!"c", none, none⟩, .chars c!"y",
      .endE ⟨c!"b", none, none⟩, .comment c!"z", .endE ⟨c!"a", none, none⟩] : List REv)
    = [.start ⟨c!"a", none, none⟩ [] [], .chars c!"x", .start ⟨c!"b", none, none⟩ [] []] ++
      (Node.eventsL [.elem ⟨c!"c", none, none⟩ [] [] [], .text c!"y"] ++
        .endE ⟨c!"b", none, none⟩ :: [.endE ⟨c!"a", none, none⟩]) ∧
    opens [.start ⟨c!"a", none, none⟩ [] [], .chars c!"x", .start ⟨c!"b", none, none⟩ [] []]
      = closes [.start ⟨c!"a", none, none⟩ [] [], .chars c!"x", .start ⟨c!"b", none, none⟩ [] []] + 1 + 1 := by
  decide

/-! ### C05: read_inner_value -/

/-- `read_inner_value` succeeds exactly when a start tag is next, the closure succeeds, and
it stopped in front of an end tag with the same qualified name. -/
theorem C05_read_inner_value {α : Type} (f : D α) (rd rd' : Rd) (v : α) :
    readInnerValue f rd = (.ok v, rd') ↔
      ∃ name as m rd1 rd2, nextEvent rd = (.ok (.start name as m), rd1) ∧ f rd1 = (.ok v, rd2) ∧
        nextEvent rd2 = (.ok (.endE name), rd') :=
  readInnerValue_iff f rd rd' v

example : ∃ rd', readInnerValue nextEvent (Rd.new ⟨[.start ⟨c!"a", none, none⟩ [] [],
    .chars c!"t", .endE ⟨c!"a", none, none⟩], none⟩) = (.ok (.chars c!"t"), rd') :=
  ⟨_, rfl⟩

/-! ### C18: comments, processing instructions, declarations -/

/-- Two documents whose events differ only in comments, processing instructions and
declarations give the same outcome for every type (at every step budget). -/
theorem C18_misc_irrelevant (L : Lib) (env : Env) (p : Path) (s t : Str)
    (hc : content (L.parse s).evs = content (L.parse t).evs) (hf : (L.parse s).fin = (L.parse t).fin)
    (r : Res Val) : Returns L env p s r ↔ Returns L env p t r := by
  have : ∀ n, deFromStr L env n p s = deFromStr L env n p t := by
    intro n
    obtain ⟨k, hk⟩ := (Loc.deser L env n p).from_ (Rd.new (L.parse s))
    refine (hk (Rd.new (L.parse t)) ⟨rfl, fun j _ => ?_⟩).1.symm
    rw [(at_new' _).stream, (at_new' _).stream, hc, hf]
  simp only [Returns, this]

/-! ### C27: the step budget -/

/-- A finished run is not changed by a larger budget: `from_str` is a partial function. -/
theorem C27_budget_irrelevant (L : Lib) (env : Env) (p : Path) (s : Str) :
    (∀ n m, n ≤ m → deFromStr L env n p s ≠ .diverge →
      deFromStr L env m p s = deFromStr L env n p s) ∧
    (∀ r r', Returns L env p s r → Returns L env p s r' → r = r') := by
  have h : ∀ n m, n ≤ m → deFromStr L env n p s ≠ .diverge →
      deFromStr L env m p s = deFromStr L env n p s := fun n m hnm hn =>
    congrArg Prod.fst ((Le.deser L env hnm p).imp _ hn)
  refine ⟨h, ?_⟩
  rintro r r' ⟨hr, n, rfl⟩ ⟨hr', m, rfl⟩
  rcases Nat.le_total n m with hnm | hnm
  · exact (h n m hnm hr).symm
  · exact h m n hnm hr'

/-! ### C28 (all types): locality -/

/-- The outcome depends only on the events consumed and the next one: for every run of any
type's deserializer there is a number `k` such that every document with the same first `k + 1`
content events gives the same outcome, and then exactly `k` events have been consumed. -/
theorem C28_locality (L : Lib) (env : Env) (p : Path) (n : Nat) (src : Src) :
    ∃ k, ∀ src', (∀ j, j ≤ k → delivered src' j = delivered src j) →
      (deser L env n p (Rd.new src')).1 = (deser L env n p (Rd.new src)).1 ∧
      ∀ v, (deser L env n p (Rd.new src)).1 = .ok v →
        ∀ j, (deser L env n p (Rd.new src')).2.stream j = delivered src' (j + k) := by
  obtain ⟨k, hk⟩ := (Loc.deser L env n p).from_ (Rd.new src)
  refine ⟨k, fun src' h => ?_⟩
  obtain ⟨h1, h2⟩ := hk (Rd.new src') ⟨rfl, fun j hj => by rw [new_stream, new_stream, h j hj]⟩
  refine ⟨h1, fun v hv j => ?_⟩
  rw [(h2 (by rw [hv]; trivial)).1, new_stream]

/-! ### C06: truncated documents -/

theorem content_split {es pre' post' : List REv} {e : REv} (h : content es = pre' ++ e :: post') :
    ∃ pre post, es = pre ++ e :: post ∧ content pre = pre' := by
  induction es generalizing pre' with
  | nil => simp [content] at h
  | cons a es ih =>
    cases ha : isMisc a
    · have hc : content (a :: es) = a :: content es := by simp [content, ha]
      rw [hc] at h
      cases pre' with
      | nil =>
        simp only [List.nil_append, List.cons.injEq] at h
        exact ⟨[], es, by simp [h.1], rfl⟩
      | cons b pre' =>
        simp only [List.cons_append, List.cons.injEq] at h
        obtain ⟨pre, post, h1, h2⟩ := ih h.2
        exact ⟨a :: pre, post, by simp [h1], by simp only [content, List.filter_cons, ha, ← h2, ← h.1]; simp⟩
    · have hc : content (a :: es) = content es := by simp [content, ha]
      rw [hc] at h
      obtain ⟨pre, post, h1, h2⟩ := ih h
      exact ⟨a :: pre, post, by simp [h1], by simpa [content, ha] using h2⟩

/-- If a (non-flatten) struct is read successfully then the document contains an end tag that
closes the document element. -/
theorem C06_ok_needs_closed_root (L : Lib) (env : Env) (p : Path) (d : StructDef)
    (hp : env p = some (.struct d)) (hflat : d.attrs.flatten = false) (src : Src) (v : Val)
    (h : Reads L env p src (.ok v)) :
    ∃ pre name post, src.evs = pre ++ .endE name :: post ∧ opens pre = closes pre + 1 := by
  obtain ⟨-, n, hn⟩ := h
  cases hd : deser L env n p (Rd.new src) with
  | mk r rd' =>
    rw [hd] at hn
    simp only at hn
    subst hn
    cases n with
    | zero => simp [deser, M.diverge] at hd
    | succ n =>
      obtain ⟨k, hk⟩ := (Loc.deser L env (n + 1) p).from_ (Rd.new src)
      have hadv := (hk _ (Agree.refl _ _)).2
      rw [hd] at hadv
      have hadv := hadv trivial
      have hd' : structDeser L (deser L env n) n d (Rd.new src) = (.ok v, rd') := by
        rw [← hd]; simp only [deser, hp]
      rcases structDeser_ok hd' with ⟨name, h1, h2⟩ | ⟨-, h2⟩
      · rw [hadv.1, (at_new' src).stream, Nat.zero_add] at h1
        have h3 := hadv.2
        rw [(at_new' src).stream, weightSum_strm, h2] at h3
        have hlt : k < (content src.evs).length := by
          rcases Nat.lt_or_ge k (content src.evs).length with hlt | hge
          · exact hlt
          · simp only [strm, List.getElem?_eq_none hge] at h1
            cases hf : src.fin <;> simp [finRes, hf] at h1
        have hget : (content src.evs)[k] = .endE name := by
          simpa [strm, List.getElem?_eq_getElem hlt] using h1
        have hsplit : content src.evs = (content src.evs).take k ++ .endE name ::
            (content src.evs).drop (k + 1) := by
          rw [← hget, List.getElem_cons_drop hlt, List.take_append_drop]
        obtain ⟨pre, post, h4, h5⟩ := content_split hsplit
        refine ⟨pre, name, post, h4, ?_⟩
        rw [← h5, bal_content] at h3
        simp only [Rd.new, bal] at h3
        omega
      · rw [hflat] at h2; cases h2

/-- A document cut off anywhere before the end of its document element is never accepted:
`fin` is whatever the parser reports at the cut. -/
theorem C06_truncated_never_ok (L : Lib) (env : Env) (p : Path) (d : StructDef)
    (hp : env p = some (.struct d)) (hflat : d.attrs.flatten = false)
    (name : Name) (as : List Attr) (m : NsMap) (kids : List Node) (k : Nat)
    (hk : k < (Node.elem name as m kids).events.length) (fin : Option Str) (v : Val) :
    ¬ Reads L env p ⟨(Node.elem name as m kids).events.take k, fin⟩ (.ok v) := by
  intro h
  obtain ⟨pre, name', post, h1, h2⟩ := C06_ok_needs_closed_root L env p d hp hflat _ v h
  simp only [Node.events] at h1 hk
  cases k with
  | zero => simp at h1
  | succ k =>
    rw [List.take_succ_cons, List.take_append_of_le_length (by simp at hk; omega)] at h1
    cases pre with
    | nil => simp at h1
    | cons e pre =>
      simp only [List.cons_append, List.cons.injEq] at h1
      obtain ⟨rfl, h1⟩ := h1
      have h3 : (Node.eventsL kids).take (pre.length + 1) = pre ++ [.endE name'] := by
        have h4 : pre.length + 1 ≤ k := by
          have := congrArg List.length h1
          simp at this
          omega
        have h5 : (Node.eventsL kids).take (pre.length + 1)
            = ((Node.eventsL kids).take k).take (pre.length + 1) := by
          rw [List.take_take, Nat.min_eq_left h4]
        rw [h5, h1, show pre ++ REv.endE name' :: post = (pre ++ [.endE name']) ++ post by simp]
        rw [List.take_left' (by simp)]
      have h6 := (bal_eventsL kids).2 (pre.length + 1)
      rw [h3, bal_append, bal_cons] at h6
      simp only [weight, bal_nil] at h6
      have h7 : bal (REv.start name as m :: pre) = 1 := by
        simp only [bal]; omega
      rw [bal_cons] at h7
      simp only [weight] at h7
      omega

end Yaserde
