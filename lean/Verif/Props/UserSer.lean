import Verif.Proofs.UserSer
import Verif.Proofs.Levels
import Verif.Props.User
import Verif.Props.Encode
/-
C83: derived types around hand-written implementations of `YaSerialize`.
-/

set_option autoImplicit false
set_option maxRecDepth 100000

namespace Yaserde

theorem writesTrees_iff {x : S Unit} {pl : Place} {ts : List WNode} :
    WritesTrees x pl ts ↔ Writes ⟨False, False⟩ pl.Set x (WNode.eventsL ts) := by
  constructor
  · intro h
    refine ⟨(WNode.eventsL ts).map fun e => (e, false), by simp [Function.comp_def], fun w hw hq => ?_, fun s hf hio => ?_⟩
    · obtain ⟨e, -, rfl⟩ := List.mem_map.mp hw
      cases hq
    · have hio := hio.resolve_left id
      obtain ⟨s', h1, h2, h3, h4, h5⟩ := h s hf.1 hf.2 hio
      unfold Performs
      rw [performWrites_all _ hio]
      refine ⟨fun _ => ⟨s', h1, by simpa [Function.comp_def] using h2, h3, by simpa using h4, h5⟩, fun hc => ?_⟩
      cases hc
  · intro h s h1 h2 hio
    rcases h.run s ⟨h1, h2⟩ (.inr hio) with ⟨s', e1, e2, e3, e4, e5, -⟩ | ⟨j, m, s', -, -, -, ⟨e, he⟩, -⟩
    · exact ⟨s', e1, e2, e3, e4, e5⟩
    · rw [hio] at he; cases he

theorem reportsWrites_iff {x : S Unit} {pl : Place} {ts : List WNode} :
    ReportsWrites x pl ts ↔ Writes ⟨True, True⟩ pl.Set x (WNode.eventsL ts) := by
  refine ⟨fun h => ?_, fun h s h1 h2 => h.run s ⟨h1, h2⟩ (.inl ⟨trivial, trivial⟩)⟩
  have hall : ∀ w ∈ (WNode.eventsL ts).map (fun e => (e, false)), w.2 = false := by
    intro w hw
    obtain ⟨e, -, rfl⟩ := List.mem_map.mp hw
    rfl
  refine ⟨(WNode.eventsL ts).map fun e => (e, false), by simp [Function.comp_def], fun w hw hq => ?_, fun s hf _ => ?_⟩
  · rw [hall w hw] at hq
    cases hq
  · unfold Performs
    have hl := performWrites_loud s.writer.io _ hall s.writer.calls
    simp only [List.length_map, List.map_map] at hl
    rcases h s hf.1 hf.2 with ⟨s', e1, e2, e3, e4, e5, e6⟩ | ⟨j, m, s', e1, hj, e2, ⟨e, he⟩, e3⟩
    · rcases hl with ⟨l1, -⟩ | ⟨j, hj, -, ⟨e, he⟩, -⟩
      · rw [l1]
        refine ⟨fun _ => ⟨s', e1, by simpa [Function.comp_def] using e2, e3, by simpa using e4, e5⟩, fun hc => ?_⟩
        cases hc
      · rw [e6 j hj] at he; cases he
    · rcases hl with ⟨-, l2⟩ | ⟨i, hi, l1, ⟨e', he'⟩, l3⟩
      · rw [l2 j hj] at he; cases he
      · have : i = j := by
          rcases Nat.lt_trichotomy i j with h | h | h
          · rw [e3 i h] at he'; cases he'
          · exact h
          · rw [l3 j h] at he; cases he
        subst this
        rw [l1]
        refine ⟨fun hc => ?_, fun _ => ⟨m, s', e1, by simpa [Function.comp_def] using e2⟩⟩
        cases hc

/-- C83: the trees values are written as are determined by those of the values of hand-written types, and these can be anything; without
hand-written types they are those of `Spec/Encode.lean`. -/
theorem C83_encoding (L : Lib) (env : Env) (user : SerImpls) :
    (∀ U : Encoding, ∃ W : Encoding, W.Derived L env user ∧ ∀ p f v, user p = some f →
      (∀ pl, W.tree pl p v = U.tree pl p v) ∧ W.attrs p v = U.attrs p v ∧ W.decls p v = U.decls p v) ∧
    (∀ W W' : Encoding, W.Derived L env user → W'.Derived L env user →
      (∀ p f v, user p = some f → (∀ pl, W.tree pl p v = W'.tree pl p v) ∧ W.attrs p v = W'.attrs p v ∧ W.decls p v = W'.decls p v) →
      W = W') ∧
    Encoding.Derived L env (fun _ => none) ⟨encTy L env, encTyAttrs L env, encTyDecls env⟩ := by
  refine ⟨fun U => ⟨encU L env user U, encU_derived L env user U, fun p f v hu => encU_user L env user U p f hu v⟩,
    fun W W' h h' hu => ?_, derivedEnc_derived L env _⟩
  have := fun v : Val => h.unique h' hu (v.levels + 1)
  cases W
  cases W'
  congr
  · funext pl p v; exact (this v).tree pl p v (Nat.lt_succ_self _)
  · funext p v; exact (this v).attrs p v (Nat.lt_succ_self _)
  · funext p v; exact (this v).decls p v (Nat.lt_succ_self _)

/-- C83: if the hand-written implementations keep the contract, the derived ones do, and the values of derived types are written as
derived types are written, around what the hand-written ones write. -/
theorem C83_contract (L : Lib) (env : Env) (user : SerImpls) (hok : SerOk env) (W : Encoding) (hW : W.Derived L env user)
    (hU : ∀ p f v, user p = some f → HasTy env (.struct p) v → SerObeys WritesTrees (serU L env user) W p v)
    (p : Path) (v : Val) (hv : HasTy env (.struct p) v) : SerObeys WritesTrees (serU L env user) W p v := by
  obtain ⟨N, hN⟩ := encOkU (B := ⟨False, False⟩) (fun h => h.elim) hok hW (fun p f v hu hv => by
    obtain ⟨N, hN⟩ := hU p f v hu hv
    exact ⟨N, fun n hn => ⟨fun pl => writesTrees_iff.mp ((hN n hn).1 pl), (hN n hn).2⟩⟩) hv
  exact ⟨N, fun n hn => ⟨fun pl => writesTrees_iff.mpr ((hN n hn).1 pl), (hN n hn).2⟩⟩

/-- C83, as a text. -/
theorem C83_to_string (L : Lib) (env : Env) (user : SerImpls) (hok : SerOk env) (W : Encoding) (hW : W.Derived L env user)
    (hU : ∀ p f v, user p = some f → HasTy env (.struct p) v → SerObeys WritesTrees (serU L env user) W p v)
    (p : Path) (v : Val) (hv : HasTy env (.struct p) v) :
    ∃ N, ∀ n, N ≤ n → ∀ c : Config,
      toStringU L env user n c p v = .ok (L.emit c.emitCfg (WNode.eventsL (W.tree .root p v))) := by
  obtain ⟨N, hN⟩ := C83_contract L env user hok W hW hU p v hv
  refine ⟨N, fun n hn c => ?_⟩
  obtain ⟨s', h1, h2, -⟩ := (hN n hn).1 .root (Sr.new {}) rfl rfl (fun _ => rfl)
  unfold toStringU
  rw [h1]
  dsimp only
  rw [h2]
  rfl

/-- C83, errors of the writer: if the hand-written implementations fail at the first write that fails, the derived ones do (in programs
without the types for which the derived ones do not, C38). -/
theorem C83_errors (L : Lib) (env : Env) (user : SerImpls) (hok : SerOk env) (hnb : NoBuiltin env) (W : Encoding) (hW : W.Derived L env user)
    (hU : ∀ p f v, user p = some f → HasTy env (.struct p) v → SerObeys ReportsWrites (serU L env user) W p v)
    (p : Path) (v : Val) (hv : HasTy env (.struct p) v) : SerObeys ReportsWrites (serU L env user) W p v := by
  obtain ⟨N, hN⟩ := encOkU (B := ⟨True, True⟩) (fun _ => hnb) hok hW (fun p f v hu hv => by
    obtain ⟨N, hN⟩ := hU p f v hu hv
    exact ⟨N, fun n hn => ⟨fun pl => reportsWrites_iff.mp ((hN n hn).1 pl), (hN n hn).2⟩⟩) hv
  exact ⟨N, fun n hn => ⟨fun pl => reportsWrites_iff.mpr ((hN n hn).1 pl), (hN n hn).2⟩⟩

theorem losesText_iff {x : S Unit} {pl : Place} {ts : List WNode} :
    LosesText x pl ts ↔ Writes ⟨False, True⟩ pl.Set x (WNode.eventsL ts) := by
  constructor
  · rintro ⟨ps, h1, h2, h3⟩
    exact ⟨ps, h1, fun w hw hq => ⟨id, h2 w hw hq⟩, fun s hf _ => h3 s hf.1 hf.2⟩
  · rintro ⟨ps, h1, h2, h3⟩
    exact ⟨ps, h1, fun w hw hq => (h2 w hw hq).2, fun s h4 h5 => h3 s ⟨h4, h5⟩ (.inl trivial)⟩

/-- C83, errors of the writer in every program: if the hand-written implementations miss errors of writes of text only, the derived ones
do; and with that contract, if the result is `Ok` all markup has been written, and what has been written is part of the encoding. -/
theorem C83_errors_every (L : Lib) (env : Env) (user : SerImpls) (hok : SerOk env) (W : Encoding) (hW : W.Derived L env user)
    (hU : ∀ p f v, user p = some f → HasTy env (.struct p) v → SerObeys LosesText (serU L env user) W p v)
    (p : Path) (v : Val) (hv : HasTy env (.struct p) v) :
    SerObeys LosesText (serU L env user) W p v ∧
    ∃ N, ∀ n, N ≤ n → ∀ io, ∃ r s', (serU L env user n).ser p v (Sr.new { io := io }) = (r, s') ∧
      s'.writer.out.Sublist (WNode.eventsL (W.tree .root p v)) ∧
      ((r = .ok () ∧ s'.writer.out.filter WEv.isMarkup = (WNode.eventsL (W.tree .root p v)).filter WEv.isMarkup) ∨ ∃ m, r = .err m) := by
  have key : SerObeys LosesText (serU L env user) W p v := by
    obtain ⟨N, hN⟩ := encOkU (B := ⟨False, True⟩) (fun h => h.elim) hok hW (fun p f v hu hv => by
      obtain ⟨N, hN⟩ := hU p f v hu hv
      exact ⟨N, fun n hn => ⟨fun pl => losesText_iff.mp ((hN n hn).1 pl), (hN n hn).2⟩⟩) hv
    exact ⟨N, fun n hn => ⟨fun pl => losesText_iff.mpr ((hN n hn).1 pl), (hN n hn).2⟩⟩
  refine ⟨key, ?_⟩
  obtain ⟨N, hN⟩ := key
  refine ⟨N, fun n hn io => ?_⟩
  obtain ⟨ps, h1, h2, h3⟩ := (hN n hn).1 .root
  obtain ⟨h4, h5⟩ := h3 (Sr.new { io := io }) rfl rfl
  obtain ⟨h6, h7⟩ := performWrites_sublist io ps 0
  rw [← h1]
  cases hc : (performWrites io 0 ps).1 with
  | true =>
    obtain ⟨s', e, o, -⟩ := h4 hc
    refine ⟨_, s', e, ?_, .inl ⟨rfl, ?_⟩⟩
    · rw [o]; exact h6
    · rw [o]
      refine h7 hc _ fun w hw hq => ?_
      obtain ⟨t, ht⟩ := h2 w hw hq
      rw [ht]; rfl
  | false =>
    obtain ⟨m, s', e, o⟩ := h5 hc
    exact ⟨_, s', e, by rw [o]; exact h6, .inr ⟨m, rfl⟩⟩

/-- C83: without hand-written types this is the serializer of `Model/Ser.lean`, given as many nested calls as the value has levels. -/
theorem C83_derived (L : Lib) (env : Env) (n : Nat) (p : Path) (v : Val) (hn : v.levels < n) :
    (serU L env (fun _ => none) n).ser p v = serTy L env p v ∧ (serU L env (fun _ => none) n).attrs p v = attrsOf L env p v := by
  have h := serB_nests L env .diverge n
  exact ⟨h.ser p v (nests_levels env n p v hn), h.attrs p v (nests_levels env n p v hn)⟩

/-- C83, implementations in terms of others: a hand-written implementation that converts the value to another type of the program
(hand-written or derived) and writes that keeps the contract where the other does. -/
theorem C83_delegates (C : S Unit → Place → List WNode → Prop) (L : Lib) (env : Env) (user : SerImpls) (W : Encoding) (p q : Path) (g : Val → Val)
    (hp : user p = some { ser := fun R v => R.ser q (g v), attrs := fun R v => R.attrs q (g v) }) (v : Val)
    (hW : (∀ pl, W.tree pl p v = W.tree pl q (g v)) ∧ W.attrs p v = W.attrs q (g v) ∧ W.decls p v = W.decls q (g v))
    (hq : SerObeys C (serU L env user) W q (g v)) : SerObeys C (serU L env user) W p v := by
  obtain ⟨N, hN⟩ := hq
  refine ⟨N + 1, fun n hn => ?_⟩
  obtain ⟨n, rfl⟩ : ∃ k, n = k + 1 := ⟨n - 1, by omega⟩
  have e1 : (serU L env user (n + 1)).ser p v = (serU L env user n).ser q (g v) := by simp only [serU, serB, hp]
  have e2 : (serU L env user (n + 1)).attrs p v = (serU L env user n).attrs q (g v) := by simp only [serU, serB, hp]
  obtain ⟨h1, h2⟩ := hN n (by omega)
  refine ⟨fun pl => ?_, ?_⟩
  · rw [e1, hW.1]; exact h1 pl
  · rw [e2, hW.2.1, hW.2.2]; exact h2

theorem swrite_cases (e : WEv) (s : Sr) : (∃ s', swrite e s = (.ok (), s')) ∨ ∃ m s', swrite e s = (.err m, s') := by
  unfold swrite EW.write
  dsimp only
  cases s.writer.io s.writer.calls with
  | some m => exact .inr ⟨_, _, rfl⟩
  | none =>
    cases e
    case endE g =>
      cases s.writer.opened with
      | nil => exact .inr ⟨_, _, rfl⟩
      | cons n rest =>
        cases g with
        | none => exact .inl ⟨_, rfl⟩
        | some g =>
          dsimp only
          by_cases h : g = n
          · rw [if_pos h]; exact .inl ⟨_, rfl⟩
          · rw [if_neg h]; exact .inr ⟨_, _, rfl⟩
    all_goals exact .inl ⟨_, rfl⟩

/-- C83, the hand-written implementation of the repository: at every place, whatever the name of the field, `Day` is written as
`<DoubleDay>` with twice its value; in builds with overflow checks it panics if that is not an `i32`. -/
theorem C83_day (R : SerRec) (i : Int) :
    (IntTy.i32.lo ≤ i * 2 → i * 2 ≤ IntTy.i32.hi → ∀ pl,
      WritesTrees (daySer.ser R (.struct [.int i])) pl [.elem c!"DoubleDay" [] [] [.text (showInt (i * 2))]]) ∧
    (i * 2 < IntTy.i32.lo ∨ IntTy.i32.hi < i * 2 → ∀ s, ∃ m s', daySer.ser R (.struct [.int i]) s = (.panic m, s')) := by
  constructor
  · intro h1 h2 pl s hn hb hio
    have hr : IntTy.i32.lo ≤ i * 2 ∧ i * 2 ≤ IntTy.i32.hi := ⟨h1, h2⟩
    simp only [daySer, if_pos hr]
    simp only [bind_def, M.bind, M.attempt, swrite, EW.write, hio, M.pure]
    refine ⟨_, rfl, ?_, rfl, ?_, rfl⟩
    · simp [WNode.eventsL, WNode.events, Name.ofStr, splitColon]
    · simp [WNode.eventsL, WNode.events]
  · intro h s
    have hr : ¬ (IntTy.i32.lo ≤ i * 2 ∧ i * 2 ≤ IntTy.i32.hi) := by omega
    simp only [daySer, if_neg hr]
    simp only [bind_def, M.bind, M.attempt]
    rcases swrite_cases (.start (Name.ofStr c!"DoubleDay") [] []) s with ⟨s', e⟩ | ⟨m, s', e⟩
    · rw [e]; exact ⟨_, _, rfl⟩
    · rw [e]; exact ⟨_, _, rfl⟩

/-! ### Examples -/

namespace ByHand
open Tests

/-- What the declaration of `Day` says to other types: its values. -/
def dayTy : PrimDef where
  name := c!"Day"
  toStr _ := []
  fromStr _ := .error []
  dom v := match v with | .struct [.int i] => decide (IntTy.i32.lo ≤ i * 2 ∧ i * 2 ≤ IntTy.i32.hi) | _ => false

/-- `/repo/yaserde/tests/serializer.rs:370-383`, with a type `Week` that is written as the `Day` seven times as large, and a struct around them. -/
def plan : StructDef :=
  { name := c!"Plan"
    attrs := { rename := some c!"plan" }
    fields := [F c!"date" (O (T c!"Date")), F c!"days" (V (T c!"Day")), F c!"week" (T c!"Week") flat, F c!"note" Tests.S attr] }

def programS : Env := envOf [([c!"Date"], .struct date), ([c!"Day"], .prim dayTy),
  ([c!"Week"], .prim { dayTy with dom := fun v => match v with | .struct [.int i] => decide (IntTy.i32.lo ≤ i * 7 * 2 ∧ i * 7 * 2 ≤ IntTy.i32.hi) | _ => false }),
  ([c!"Plan"], .struct plan)]

def seven : Val → Val
  | .struct [.int i] => .struct [.int (i * 7)]
  | v => v

def implsS : SerImpls := fun p =>
  if p = [c!"Day"] then some daySer
  else if p = [c!"Week"] then some { ser := fun R v => R.ser [c!"Day"] (seven v), attrs := fun R v => R.attrs [c!"Day"] (seven v) }
  else none

/-- What the hand-written types are written as. -/
def dayTree : Val → List WNode
  | .struct [.int i] => [.elem c!"DoubleDay" [] [] [.text (showInt (i * 2))]]
  | _ => []

def treesS : Encoding where
  tree _ p v := if p = [c!"Week"] then dayTree (seven v) else dayTree v
  attrs _ _ := []
  decls _ _ := []

def W : Encoding := encU lib programS implsS treesS

theorem implsS_cases {p : Path} {f : SerImpl} (h : implsS p = some f) : p = [c!"Day"] ∨ p = [c!"Week"] := by
  unfold implsS at h
  split at h
  · rename_i e; exact .inl e
  · split at h
    · rename_i e; exact .inr e
    · cases h

theorem day_obeys (v : Val) (hv : dayTy.dom v = true) : SerObeys WritesTrees (serU lib programS implsS) W [c!"Day"] v := by
  refine ⟨1, fun n hn => ?_⟩
  obtain ⟨n, rfl⟩ : ∃ k, n = k + 1 := ⟨n - 1, by omega⟩
  obtain ⟨h1, h2, h3⟩ := encU_user lib programS implsS treesS [c!"Day"] _ rfl v
  refine ⟨fun pl => ?_, ?_⟩
  · show WritesTrees (daySer.ser (serU lib programS implsS n) v) pl ((encU lib programS implsS treesS).tree pl [c!"Day"] v)
    rw [h1]
    unfold dayTy at hv
    dsimp only at hv
    split at hv
    · rename_i i
      have hv := of_decide_eq_true hv
      exact (C83_day _ i).1 hv.1 hv.2 pl
    · cases hv
  · show daySer.attrs (serU lib programS implsS n) v = .ok ((encU lib programS implsS treesS).attrs [c!"Day"] v, firstDecls ((encU lib programS implsS treesS).decls [c!"Day"] v))
    rw [h2, h3]; rfl

theorem obeysS (p : Path) (f : SerImpl) (v : Val) (hu : implsS p = some f) (hv : HasTy programS (.struct p) v) :
    SerObeys WritesTrees (serU lib programS implsS) W p v := by
  rcases implsS_cases hu with rfl | rfl
  · cases hv with
    | prim _ d _ hp hd => cases hp; exact day_obeys v hd
    | struct _ _ _ hp | unit _ _ _ _ hp | newtype _ _ _ _ _ _ hp | named _ _ _ _ _ _ hp => cases hp
  · cases hv with
    | prim _ d _ hp hd =>
      cases hp
      obtain ⟨h1, h2, h3⟩ := encU_user lib programS implsS treesS [c!"Week"] _ rfl v
      obtain ⟨g1, g2, g3⟩ := encU_user lib programS implsS treesS [c!"Day"] _ rfl (seven v)
      refine C83_delegates WritesTrees lib programS implsS W [c!"Week"] [c!"Day"] seven rfl v ⟨fun pl => ?_, ?_, ?_⟩ (day_obeys _ ?_)
      · exact (h1 pl).trans (g1 pl).symm
      · exact h2.trans g2.symm
      · exact h3.trans g3.symm
      · dsimp only at hd
        split at hd
        · exact hd
        · cases hd
    | struct _ _ _ hp | unit _ _ _ _ hp | newtype _ _ _ _ _ _ hp | named _ _ _ _ _ _ hp => cases hp

theorem serOkS : SerOk programS := serOk_of_all _ (by decide +kernel)

def aPlan : Val := .struct [.some (.struct [i 2020, i 1, .struct [i 5]]), .vec [.struct [i 1], .struct [i 2]], .struct [i 3], s c!"n"]

theorem hasTyS : HasTy programS (T c!"Plan") aPlan := hasTy_of_check _ _ _ rfl

end ByHand

open ByHand in
/-- A plan is written with its dates and days. -/
example : ∃ N, ∀ n, N ≤ n → toStringU Tests.lib programS implsS n { writeDecl := false } [c!"Plan"] aPlan =
    .ok c!"<plan note=\"n\"><date><Year>2020</Year><Month>1</Month><DoubleDay>10</DoubleDay></date><DoubleDay>2</DoubleDay><DoubleDay>4</DoubleDay><DoubleDay>42</DoubleDay></plan>" := by
  obtain ⟨N, hN⟩ := C83_to_string Tests.lib programS implsS serOkS W (encU_derived _ _ _ _) obeysS [c!"Plan"] aPlan hasTyS
  refine ⟨N, fun n hn => ?_⟩
  rw [hN n hn]
  decide +kernel

namespace Noticed

open Tests ByHand

/-- A hand-written type that is written as an element with its text, each write with `?`; a derived one around it, with scalars in a
`Vec` of `Option`s. -/
def env : Env := envOf [
  ([c!"Word"], .prim { dayTy with dom := fun v => match v with | .str _ => true | _ => false }),
  mkS c!"Doc" [F c!"word" (T c!"Word"), F c!"ns" (V (O (I .u8))), F c!"t" Tests.S]]

def text : Val → Str
  | .str s => s
  | _ => []

def impls : SerImpls := fun p =>
  if p = [c!"Word"] then some { ser := fun _ v => encloseChars c!"w" (text v), attrs := fun _ _ => .ok ([], []) } else none

def trees : Encoding where
  tree _ _ v := [leaf c!"w" (text v)]
  attrs _ _ := []
  decls _ _ := []

theorem obeys (p : Path) (f : SerImpl) (v : Val) (hu : impls p = some f) (_ : HasTy env (.struct p) v) :
    SerObeys LosesText (serU lib env impls) (encU lib env impls trees) p v := by
  refine ⟨1, fun n hn => ?_⟩
  obtain ⟨n, rfl⟩ : ∃ k, n = k + 1 := ⟨n - 1, by omega⟩
  obtain ⟨h1, h2, h3⟩ := encU_user lib env impls trees p f hu v
  have e1 : (serU lib env impls (n + 1)).ser p v = f.ser (serU lib env impls n) v := by simp only [serU, serB, hu]
  have e2 : (serU lib env impls (n + 1)).attrs p v = f.attrs (serU lib env impls n) v := by simp only [serU, serB, hu]
  rw [e2, h2, h3]
  unfold impls at hu
  split at hu
  · cases hu
    refine ⟨fun pl => ?_, rfl⟩
    rw [e1, h1, losesText_iff]
    show Writes _ _ _ (WNode.eventsL [leaf c!"w" (text v)])
    rw [WNode.eventsL_single]
    exact .encloseChars_ _ _
  · cases hu

/-- Whichever writes fail: if the result is `Ok`, no tag is missing. -/
example : ∃ N, ∀ n, N ≤ n → ∀ io, ∃ r s', (serU lib env impls n).ser [c!"Doc"] (.struct [s c!"hi", .vec [.some (i 1), .some (i 2)], s c!"x"]) (Sr.new { io := io }) = (r, s') ∧
      s'.writer.out.Sublist (WNode.eventsL ((encU lib env impls trees).tree .root [c!"Doc"] (.struct [s c!"hi", .vec [.some (i 1), .some (i 2)], s c!"x"]))) ∧
      ((r = .ok () ∧ s'.writer.out.filter WEv.isMarkup = (WNode.eventsL ((encU lib env impls trees).tree .root [c!"Doc"]
        (.struct [s c!"hi", .vec [.some (i 1), .some (i 2)], s c!"x"]))).filter WEv.isMarkup) ∨ ∃ m, r = .err m) :=
  (C83_errors_every lib env impls (serOk_of_all _ (by decide +kernel)) _ (encU_derived _ _ _ _) obeys [c!"Doc"] _
    (hasTy_of_check _ _ _ (by decide +kernel))).2

/-- The write of the second number fails and nobody notices; if that of the end tag of the word fails, the result is an error. -/
example :
    (((serU lib env impls 3).ser [c!"Doc"] (.struct [s c!"hi", .vec [.some (i 1), .some (i 2)], s c!"x"])
        (Sr.new { io := fun n => if n = 5 then some c!"full" else none })).1 = .ok () ∧
      lib.emit { decl := false } ((serU lib env impls 3).ser [c!"Doc"] (.struct [s c!"hi", .vec [.some (i 1), .some (i 2)], s c!"x"])
        (Sr.new { io := fun n => if n = 5 then some c!"full" else none })).2.writer.out = c!"<Doc><w>hi</w>1<t>x</t></Doc>") ∧
    ((serU lib env impls 3).ser [c!"Doc"] (.struct [s c!"hi", .vec [.some (i 1), .some (i 2)], s c!"x"])
        (Sr.new { io := fun n => if n = 3 then some c!"full" else none })).1 = .err c!"full" :=
  ⟨⟨by decide +kernel, by decide +kernel⟩, by decide +kernel⟩

end Noticed

open ByHand in
/-- C83, the contract about errors is needed: `Day` drops the errors of the writer, so a failed write goes unnoticed: the output lacks the
text of the day and serialization succeeds. -/
theorem C83_drops : ∃ (io : Nat → Option Str), (∃ j e, io j = some e) ∧
    ((serU Tests.lib programS implsS 3).ser [c!"Date"] (.struct [Tests.i 2020, Tests.i 1, .struct [Tests.i 5]]) (Sr.new { io := io })).1 = .ok () ∧
    Tests.lib.emit { decl := false }
      ((serU Tests.lib programS implsS 3).ser [c!"Date"] (.struct [Tests.i 2020, Tests.i 1, .struct [Tests.i 5]]) (Sr.new { io := io })).2.writer.out
        = c!"<Date><Year>2020</Year><Month>1</Month><DoubleDay /></Date>" :=
  ⟨fun n => if n = 8 then some c!"full" else none, ⟨8, c!"full", rfl⟩, by decide +kernel, by decide +kernel⟩

end Yaserde
