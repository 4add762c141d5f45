import Verif.Proofs.Counter
import Verif.Props.User
import Verif.Props.Spell
/-
Property C81: the `i32` counter of the generated struct deserializer.
-/

set_option autoImplicit false
set_option maxRecDepth 100000

namespace Yaserde

/-- The struct does not parse texts of its own: no flattened fields, no attributes of types that are not scalars. -/
def StructDef.ReadsOnce (d : StructDef) : Prop :=
  (∀ f ∈ d.fields, f.attrs.isAttr = false → f.attrs.flatten = false) ∧
  ∀ f ∈ d.fields, f.attrs.isAttr = true → ∀ q, f.ty.core ≠ .struct q

/-- C81, up to the limit: on every text with fewer than 2^31 events, well-formed or not, debug builds and release builds do what
the model with an unbounded counter does.  (Programs that parse further texts while reading, for flattened fields and attributes
of types that are not scalars: if no text has more events.) -/
theorem C81_fits (ov : Overflow) (L : Lib) (env : Env) (p : Path) (s : Str) (b : Nat)
    (hs : (content (L.parse s).evs).length < 2147483648)
    (henv : (∀ q d, env q = some (.struct d) → d.ReadsOnce) ∨ ∀ t, (content (L.parse t).evs).length < 2147483648) :
    fromStrC ov L env b p s = deFromStr L env b p s := by
  have hv : ∀ t, (Rd.new (L.parse t)).visible = content (L.parse t).evs := fun t => (at_new' (L.parse t)).vis
  refine congrArg Prod.fst (deser_counter ov L env (m := 2147483647) (by omega) (by simp [IntTy.hi]) ?_ b p (Rd.new (L.parse s)) ?_).1
  · intro q d hq
    rcases henv with h | h
    · left
      obtain ⟨h1, h2⟩ := h q d hq
      refine ⟨?_, h2⟩
      unfold StructDef.hasFlat
      rw [List.any_eq_false]
      intro f hf
      cases ha : f.attrs.isAttr with
      | true => simp
      | false => simp [h1 f hf ha]
    · right
      intro t
      rw [hv t]
      have := h t
      omega
  · rw [hv s]; omega

/-- A child that the loop takes as a whole: unknown, or of a scalar field and well-formed. -/
def StructDef.Counted (L : Lib) (d : StructDef) : Node → Prop
  | .text _ => False
  | .elem n _ _ ks => d.fieldFor n = none ∨
    n.ns ≠ some [] ∧ textOnly ks ∧ ∃ i f t v, d.fieldFor n = some i ∧ d.fields[i]? = some f ∧ f.ty.core = .simple t ∧
      scalarContent L t ks = some v

/-- One such child. -/
theorem structStep_counted (L : Lib) (rec : Path → D Val) (skipFuel : Nat) (d : StructDef) (named : Str) (sd : Nat) (k : Node)
    (hk : d.Counted L k) (st : LoopSt) (hd : st.depth ≥ 1) (hfuel : k.events.length < skipFuel)
    {D' : Nat} {rest : List REv} {fin : Option Str} {rd : Rd} (h : At D' (k.events ++ rest) fin rd) :
    ∃ st' rd', structStep L rec skipFuel d named sd st rd = (.ok (st', true), rd') ∧ st'.depth = st.depth + 1 ∧
      At D' rest fin rd' := by
  cases k with
  | text s => exact hk.elim
  | elem n as m ks =>
    have hkl : (Node.elem n as m ks).events.length = (Node.eventsL ks).length + 2 := by simp [Node.events]
    obtain ⟨rd1, h1, a1⟩ := peek_at (show At D' (.start n as m :: (Node.eventsL ks ++ .endE n :: rest)) fin rd by
      simpa [Node.events] using h)
    have step : ∀ st' rd', structStart L rec skipFuel d st n as rd1 = (.ok st', rd') →
        structStep L rec skipFuel d named sd st rd = (.ok (st', true), rd') := by
      intro st' rd' h'
      unfold structStep
      rw [bind_ok h1]
      exact bind_ok h'
    rcases hk with hk | ⟨hns, hks, i, f, t, v, hf, hfi, hty, hv⟩
    · obtain ⟨rd2, h2, a2⟩ := structStart_unknown L rec skipFuel d hd hk (by omega) a1
      exact ⟨_, rd2, step _ _ h2, rfl, a2⟩
    · obtain ⟨st2, rd2, h2, h3⟩ := structStart_simple L rec skipFuel d hd hks hns hf hfi hty a1
      rw [hv] at h3
      obtain ⟨rfl, a2⟩ := h3
      exact ⟨_, rd2, step _ _ h2, rfl, a2⟩

theorem loadAttrs_nil (L : Lib) (rec : Path → D Val) : ∀ (fs : List FieldDef) (ss : List Slot), loadAttrs L rec fs [] ss = .ok ss := by
  intro fs
  induction fs with
  | nil => intro ss; rfl
  | cons f fs ih =>
    intro ss
    cases ss with
    | nil => rfl
    | cons s ss =>
      have : (if f.attrs.isAttr then loadAttrField L rec f [] s else .ok s) = .ok s := by
        split <;> rfl
      rw [loadAttrs, this, Res.bind_ok, ih, Res.bind_ok]

/-- The start tag of the document. -/
theorem structStep_root (L : Lib) (rec : Path → D Val) (skipFuel : Nat) (d : StructDef) (named : Str) (sd : Nat)
    (n : Name) (m : NsMap) (hname : n.loc = d.attrs.rename.getD d.name ∧ n.ns.getD [] = (d.attrs.namespaces.find d.attrs.pfx).getD [])
    (st : LoopSt) (hd : st.depth = 0) {D' : Nat} {rest : List REv} {fin : Option Str} {rd : Rd} (h : At D' (.start n [] m :: rest) fin rd) :
    ∃ rd', structStep L rec skipFuel d named sd st rd =
      (.ok (⟨1, st.slots, wput d.hasFlat st.writer (.start n [] m)⟩, true), rd') ∧ At (D' + 1) rest fin rd' := by
  obtain ⟨rd1, h1, a1⟩ := peek_at h
  obtain ⟨rd2, h2, a2⟩ := next_start a1
  refine ⟨rd2, ?_, a2⟩
  unfold structStep
  rw [bind_ok h1]
  refine bind_ok ?_
  unfold structStart
  rw [if_pos ⟨hd, hname⟩, bind_ok (s' := rd2) (a := { st with writer := wput d.hasFlat st.writer (.start n [] m) })
    (by rw [bind_ok h2, writeUnused_eq _ _ _ (by simp)]; rfl)]
  rw [if_pos hd, loadAttrs_nil]
  simp only [hd]
  rfl

/-- From the start of the document to the loop over the children. -/
theorem fromStrC_loop (ov : Overflow) (L : Lib) (env : Env) (p : Path) (d : StructDef) (hp : env p = some (.struct d))
    (n : Name) (m : NsMap) (hname : n.loc = d.attrs.rename.getD d.name ∧ n.ns.getD [] = (d.attrs.namespaces.find d.attrs.pfx).getD [])
    (hns : nsOk d.attrs n) (s : Str) (rest : List REv) (hdoc : content (L.parse s).evs = .start n [] m :: rest) (b : Nat) :
    ∃ rd, At 1 rest (L.parse s).fin rd ∧ fromStrC ov L env (b + 2) p s =
      ((structLoopC ov L (deserC ov L env (b + 1)) (b + 1) d n.loc 0 b
          ⟨1, d.fields.map (fun f => Slot.init f.ty), wput d.hasFlat (some {}) (.start n [] m)⟩ >>= fun st =>
        (match d.hasFlat, st.writer with
          | true, some w => M.lift (flattenFields L (deserC ov L env (b + 1)) (L.emit unusedCfg w.out) d.fields st.slots)
          | _, _ => M.pure st.slots) >>= fun slots =>
        M.lift (buildFields d.name d.fields slots) >>= fun vs => M.pure (.struct vs)) rd).1 := by
  have hat := at_new' (L.parse s)
  rw [hdoc] at hat
  obtain ⟨rd1, hpk, a1⟩ := peek_at hat
  obtain ⟨rd2, h2, a2⟩ := structStep_root L (deserC ov L env (b + 1)) (b + 1) d n.loc 0 n m hname
    ⟨0, d.fields.map (fun f => Slot.init f.ty), some {}⟩ rfl a1
  refine ⟨rd2, a2, ?_⟩
  show (deserC ov L env (b + 2) p (Rd.new (L.parse s))).1 = _
  have he : deserC ov L env (b + 2) p = structDeserC ov L (deserC ov L env (b + 1)) (b + 1) d := by
    funext rd
    show (match env p with
      | some (.struct d) => structDeserC ov L (deserC ov L env (b + 1)) (b + 1) d
      | some (.enum d) => enumDeser L (deserC ov L env (b + 1)) (b + 1) d
      | some (.prim d) => primDeser d
      | none => M.panic c!"no such type") rd = _
    rw [hp]
  rw [he]
  unfold structDeserC
  rw [bind_ok hpk, bind_get, a1.depth]
  unfold structBodyC
  have h0 : (if 0 = 0 then M.ofExcept (nsMatching d.attrs.namespaces d.attrs.pfx n.ns n.loc)
      else M.pure () : D Unit) rd1 = (.ok (), rd1) := by
    rw [if_pos rfl, nsMatching_ok hns]; rfl
  rw [show startInfo (d.attrs.xmlElementName d.name) (.start n [] m) = (n.loc, n.ns) from rfl, bind_ok h0]
  have hone : ov.i32 1 = .ok 1 := by cases ov <;> rfl
  have hstep : structStepC ov L (deserC ov L env (b + 1)) (b + 1) d n.loc 0 ⟨0, d.fields.map (fun f => Slot.init f.ty), some {}⟩ rd1 =
      (.ok (⟨1, d.fields.map (fun f => Slot.init f.ty), wput d.hasFlat (some {}) (.start n [] m)⟩, true), rd2) := by
    unfold structStepC
    rw [bind_ok h2]
    dsimp only
    rw [hone]
    rfl
  have hl : structLoopC ov L (deserC ov L env (b + 1)) (b + 1) d n.loc 0 (b + 1) ⟨0, d.fields.map (fun f => Slot.init f.ty), some {}⟩ rd1 =
      structLoopC ov L (deserC ov L env (b + 1)) (b + 1) d n.loc 0 b
        ⟨1, d.fields.map (fun f => Slot.init f.ty), wput d.hasFlat (some {}) (.start n [] m)⟩ rd2 := by
    rw [structLoopC, bind_ok hstep]
    rfl
  show (M.bind _ _ rd1).1 = (M.bind _ _ rd2).1
  unfold M.bind
  rw [hl]
  rfl

/-- C81, debug builds beyond the limit: the counter does not go down when a child has been read, it counts the children. Reading
a document element with 2^31 - 1 or more children panics (whatever follows them). -/
theorem C81_panics (L : Lib) (env : Env) (p : Path) (d : StructDef) (hp : env p = some (.struct d))
    (n : Name) (m : NsMap) (hname : n.loc = d.attrs.rename.getD d.name ∧ n.ns.getD [] = (d.attrs.namespaces.find d.attrs.pfx).getD [])
    (hns : nsOk d.attrs n) (ks : List Node) (hks : ∀ k ∈ ks, d.Counted L k) (hmany : 2147483647 ≤ ks.length)
    (s : Str) (rest : List REv) (hdoc : content (L.parse s).evs = .start n [] m :: (Node.eventsL ks ++ rest)) :
    ∃ N, ∀ b, N ≤ b → fromStrC .checks L env b p s = .panic c!"attempt to add with overflow" := by
  refine ⟨(Node.eventsL ks).length + 4, fun b hb => ?_⟩
  obtain ⟨b, rfl⟩ : ∃ k, b = k + 2 := ⟨b - 2, by omega⟩
  obtain ⟨rd, hat, he⟩ := fromStrC_loop .checks L env p d hp n m hname hns s _ hdoc b
  rw [he]
  have key : ∀ (ks : List Node) (c : Nat) (st : LoopSt) (rd : Rd), (∀ k ∈ ks, d.Counted L k) → st.depth ≥ 1 → st.depth ≤ 2147483647 →
      st.depth + ks.length > 2147483647 → (Node.eventsL ks).length < b + 1 → (Node.eventsL ks).length < c →
      At 1 (Node.eventsL ks ++ rest) (L.parse s).fin rd →
      (structLoopC .checks L (deserC .checks L env (b + 1)) (b + 1) d n.loc 0 c st rd).1 = .panic c!"attempt to add with overflow" := by
    intro ks
    induction ks with
    | nil => intro c st rd _ _ h1 h2; simp at h2; omega
    | cons k ks ih =>
      intro c st rd hks hd h1 h2 h3 h4 hat
      have hlen : (Node.eventsL (k :: ks)).length = k.events.length + (Node.eventsL ks).length := by simp [Node.eventsL]
      obtain ⟨c, rfl⟩ : ∃ j, c = j + 1 := ⟨c - 1, by omega⟩
      have hk := hks k (List.mem_cons_self ..)
      have hpos : 1 ≤ k.events.length := by
        cases k with
        | text s => exact hk.elim
        | elem => simp [Node.events]
      obtain ⟨st', rd', e1, e2, e3⟩ := structStep_counted L (deserC .checks L env (b + 1)) (b + 1) d n.loc 0 k hk st hd (by omega)
        (rest := Node.eventsL ks ++ rest) (by simpa [Node.eventsL] using hat)
      rw [structLoopC, structStepC]
      by_cases hov : st.depth = 2147483647
      · have : Overflow.i32 .checks st'.depth = .panic c!"attempt to add with overflow" := by
          rw [e2, hov]; rfl
        rw [bind_panic (s' := rd') (m := c!"attempt to add with overflow")]
        rw [bind_ok e1]
        dsimp only
        rw [this]
        rfl
      · have : Overflow.i32 .checks st'.depth = .ok st'.depth := by
          have hlo : IntTy.i32.lo = -2147483648 := rfl
          have hhi : IntTy.i32.hi = 2147483647 := rfl
          unfold Overflow.i32
          rw [if_neg (by omega), if_neg (by omega)]
        rw [bind_ok (s' := rd') (a := (st', true))]
        · exact ih c st' rd' (fun k hk => hks k (List.mem_cons_of_mem _ hk)) (by omega) (by omega)
            (by simp only [List.length_cons] at h2; omega) (by omega) (by omega) e3
        · rw [bind_ok e1]
          dsimp only
          rw [this]
          rfl
  have := key ks b ⟨1, d.fields.map (fun f => Slot.init f.ty), wput d.hasFlat (some {}) (.start n [] m)⟩ rd hks
    (Int.le_refl _) (by show (1 : Int) ≤ 2147483647; omega) (by show (1 : Int) + _ > _; omega) (by omega) (by omega) hat
  exact congrArg Prod.fst (bind_panic (s' := _) (Prod.ext this rfl))

namespace Wrap

/-- `#[derive(YaDeserialize)] struct S { x: Option<String> }` -/
def s : StructDef := { name := c!"S", fields := [{ ident := c!"x", ty := .opt (.simple .string) }] }
def program : Env := fun p => if p = [c!"S"] then some (.struct s) else none

/-- `<z/>` -/
def z : Node := .elem ⟨c!"z", none, none⟩ [] [] []
/-- `<z><x>t</x></z>` -/
def zx (t : Str) : Node := .elem ⟨c!"z", none, none⟩ [] [] [.elem ⟨c!"x", none, none⟩ [] [] [.text t]]

/-- `<S>`, k times `<z/>`, `<z><x>t</x></z>`, `</S>` -/
def doc (k : Nat) (t : Str) : Node := .elem ⟨c!"S", none, none⟩ [] [] (List.replicate k z ++ [zx t])

end Wrap

theorem structStepC_of {ov : Overflow} {L : Lib} {rec : Path → D Val} {fuel : Nat} {d : StructDef} {named : Str} {sd : Nat}
    {st st' : LoopSt} {b : Bool} {k : Int} {rd rd' : Rd} (h : structStep L rec fuel d named sd st rd = (.ok (st', b), rd'))
    (hk : ov.i32 st'.depth = .ok k) :
    structStepC ov L rec fuel d named sd st rd = (.ok ({ st' with depth := k }, b), rd') := by
  unfold structStepC
  rw [bind_ok h]
  dsimp only
  rw [hk]
  rfl

namespace Wrap

theorem fieldFor_z : s.fieldFor ⟨c!"z", none, none⟩ = none := by decide
theorem fieldFor_x : s.fieldFor ⟨c!"x", none, none⟩ = some 0 := by decide

section
variable (L : Lib) (rec : Path → D Val) (fuel : Nat) (named : Str) (hnamed : named ≠ c!"z")

/-- The first children: skipped, and counted. -/
theorem early : ∀ (k n : Nat) (ss : List Slot) (w : Option EW) (dep : Int) (rest : List REv) (fin : Option Str) (rd : Rd), 1 ≤ dep →
    dep + k ≤ 2147483647 → 2 ≤ fuel → At 1 (Node.eventsL (List.replicate k z) ++ rest) fin rd →
    ∃ rd', structLoopC .wraps L rec fuel s named 0 (k + n) ⟨dep, ss, w⟩ rd =
      structLoopC .wraps L rec fuel s named 0 n ⟨dep + k, ss, w⟩ rd' ∧ At 1 rest fin rd' := by
  intro k
  induction k with
  | zero => intro n ss w dep rest fin rd _ _ _ h; exact ⟨rd, by simp, by simpa [Node.eventsL] using h⟩
  | succ k ih =>
    intro n ss w dep rest fin rd hd hb hf h
    obtain ⟨rd1, h1, a1⟩ := peek_at (show At 1 (.start ⟨c!"z", none, none⟩ [] [] :: (Node.eventsL [] ++
        .endE ⟨c!"z", none, none⟩ :: (Node.eventsL (List.replicate k z) ++ rest))) fin rd by
      simpa [List.replicate_succ, z, Node.events, Node.eventsL] using h)
    obtain ⟨rd2, h2, a2⟩ := structStart_unknown L rec fuel s (st := ⟨dep, ss, w⟩) hd fieldFor_z (by simp [Node.eventsL]; omega) a1
    have e : structStep L rec fuel s named 0 ⟨dep, ss, w⟩ rd = (.ok (⟨dep + 1, ss, w⟩, true), rd2) := by
      unfold structStep
      rw [bind_ok h1]
      exact bind_ok h2
    have hk : Overflow.i32 .wraps (dep + 1) = .ok (dep + 1) := by
      unfold Overflow.i32
      dsimp only
      congr 1
      push_cast at hb
      omega
    obtain ⟨rd3, h3, a3⟩ := ih n ss w (dep + 1) rest fin rd2 (by omega) (by push_cast at hb ⊢; omega) hf a2
    refine ⟨rd3, ?_, a3⟩
    rw [show k + 1 + n = (k + n) + 1 by omega, structLoopC, bind_ok (structStepC_of e hk)]
    refine h3.trans ?_
    rw [show dep + 1 + (k : Int) = dep + ((k + 1 : Nat) : Int) by push_cast; omega]

/-- The start tag of an unknown element when the counter is negative. -/
theorem start_z (n : Nat) (ss : List Slot) (w : Option EW) (dep : Int) (hd : dep < -1) (hlo : -2147483649 < dep) {D' : Nat}
    {rest : List REv} {fin : Option Str} {rd : Rd} (h : At D' (.start ⟨c!"z", none, none⟩ [] [] :: rest) fin rd) :
    ∃ rd', structLoopC .wraps L rec fuel s named 0 (n + 1) ⟨dep, ss, w⟩ rd =
      structLoopC .wraps L rec fuel s named 0 n ⟨dep + 1, ss, w⟩ rd' ∧ At (D' + 1) rest fin rd' := by
  obtain ⟨rd1, h1, a1⟩ := peek_at h
  obtain ⟨rd2, h2, a2⟩ := next_start a1
  refine ⟨rd2, ?_, a2⟩
  have e : structStep L rec fuel s named 0 ⟨dep, ss, w⟩ rd = (.ok (⟨dep + 1, ss, w⟩, true), rd2) := by
    unfold structStep
    rw [bind_ok h1]
    refine bind_ok (a := (⟨dep + 1, ss, w⟩ : LoopSt)) ?_
    unfold structStart
    rw [if_neg (by rintro ⟨h, -⟩; dsimp only at h; omega), findArm_eq]
    rw [show s.fieldFor ⟨c!"z", none, none⟩ = none from fieldFor_z]
    dsimp only
    rw [bind_ok (a := (⟨dep, ss, w⟩ : LoopSt)) (s' := rd2)]
    · rw [if_neg (by show ¬ dep = 0; omega)]; rfl
    · rw [bind_ok h2, writeUnused_eq _ _ _ (by simp), bind_lift_ok, if_neg (by omega)]
      rfl
  have hk : Overflow.i32 .wraps (dep + 1) = .ok (dep + 1) := by
    unfold Overflow.i32
    dsimp only
    congr 1
    omega
  rw [structLoopC, bind_ok (structStepC_of e hk)]
  rfl

include hnamed in
/-- The end tag of an unknown element that has not been skipped. -/
theorem end_z (n : Nat) (ss : List Slot) (w : Option EW) (dep : Int) (hd : dep < 0) (hlo : -2147483648 < dep) {D' : Nat}
    {rest : List REv} {fin : Option Str} {rd : Rd} (h : At (D' + 1) (.endE ⟨c!"z", none, none⟩ :: rest) fin rd) :
    ∃ rd', structLoopC .wraps L rec fuel s named 0 (n + 1) ⟨dep, ss, w⟩ rd =
      structLoopC .wraps L rec fuel s named 0 n ⟨dep - 1, ss, w⟩ rd' ∧ At D' rest fin rd' := by
  obtain ⟨rd1, h1, a1⟩ := peek_at h
  obtain ⟨rd2, h2, a2⟩ := next_end a1
  refine ⟨rd2, ?_, a2⟩
  have e : structStep L rec fuel s named 0 ⟨dep, ss, w⟩ rd = (.ok (⟨dep - 1, ss, w⟩, true), rd2) := by
    unfold structStep
    rw [bind_ok h1]
    dsimp only
    rw [bind_get, if_neg (by rintro ⟨h, -⟩; exact hnamed h.symm), bind_ok h2, writeUnused_eq _ _ _ (by simp)]
    rfl
  have hk : Overflow.i32 .wraps (dep - 1) = .ok (dep - 1) := by
    unfold Overflow.i32
    dsimp only
    congr 1
    omega
  rw [structLoopC, bind_ok (structStepC_of e hk)]
  rfl

include hnamed in
/-- The children after the wrap: their tags are read, the counter goes up and down. -/
theorem late : ∀ (k n : Nat) (ss : List Slot) (w : Option EW) (rest : List REv) (fin : Option Str) (rd : Rd),
    At 1 (Node.eventsL (List.replicate k z) ++ rest) fin rd →
    ∃ rd', structLoopC .wraps L rec fuel s named 0 (2 * k + n) ⟨-2147483648, ss, w⟩ rd =
      structLoopC .wraps L rec fuel s named 0 n ⟨-2147483648, ss, w⟩ rd' ∧ At 1 rest fin rd' := by
  intro k
  induction k with
  | zero => intro n ss w rest fin rd h; exact ⟨rd, by simp, by simpa [Node.eventsL] using h⟩
  | succ k ih =>
    intro n ss w rest fin rd h
    obtain ⟨rd1, h1, a1⟩ := start_z L rec fuel named (2 * k + n + 1) ss w (-2147483648) (by omega) (by omega)
      (show At 1 (.start ⟨c!"z", none, none⟩ [] [] :: .endE ⟨c!"z", none, none⟩ :: (Node.eventsL (List.replicate k z) ++ rest)) fin rd by
        simpa [List.replicate_succ, z, Node.events, Node.eventsL] using h)
    obtain ⟨rd2, h2, a2⟩ := end_z L rec fuel named hnamed (2 * k + n) ss w (-2147483648 + 1) (by omega) (by omega) a1
    obtain ⟨rd3, h3, a3⟩ := ih n ss w rest fin rd2 a2
    exact ⟨rd3, by rw [show 2 * (k + 1) + n = 2 * k + n + 1 + 1 by omega]; exact h1.trans (h2.trans h3), a3⟩

/-- The child at which the counter wraps around. -/
theorem turn (n : Nat) (ss : List Slot) (w : Option EW) (rest : List REv) (fin : Option Str) (rd : Rd) (hf : 2 ≤ fuel)
    (h : At 1 (z.events ++ rest) fin rd) :
    ∃ rd', structLoopC .wraps L rec fuel s named 0 (n + 1) ⟨2147483647, ss, w⟩ rd =
      structLoopC .wraps L rec fuel s named 0 n ⟨-2147483648, ss, w⟩ rd' ∧ At 1 rest fin rd' := by
  obtain ⟨rd1, h1, a1⟩ := peek_at (show At 1 (.start ⟨c!"z", none, none⟩ [] [] :: (Node.eventsL [] ++
      .endE ⟨c!"z", none, none⟩ :: rest)) fin rd by simpa [z, Node.events, Node.eventsL] using h)
  obtain ⟨rd2, h2, a2⟩ := structStart_unknown L rec fuel s (st := ⟨2147483647, ss, w⟩) (by simp) fieldFor_z
    (by simp [Node.eventsL]; omega) a1
  have e : structStep L rec fuel s named 0 ⟨2147483647, ss, w⟩ rd = (.ok (⟨2147483647 + 1, ss, w⟩, true), rd2) := by
    unfold structStep
    rw [bind_ok h1]
    exact bind_ok h2
  refine ⟨rd2, ?_, a2⟩
  rw [structLoopC, bind_ok (structStepC_of e (k := -2147483648) rfl)]
  rfl

/-- The child `<x>t</x>`, whatever the counter. -/
theorem kid_x (n : Nat) (w : Option EW) (dep : Int) (hd : dep < -1) (hlo : -2147483649 < dep) (t : Str) {D' : Nat}
    {rest : List REv} {fin : Option Str} {rd : Rd}
    (h : At D' ((Node.elem ⟨c!"x", none, none⟩ [] [] [.text t]).events ++ rest) fin rd) :
    ∃ rd', structLoopC .wraps L rec fuel s named 0 (n + 1) ⟨dep, [Slot.one none], w⟩ rd =
      structLoopC .wraps L rec fuel s named 0 n ⟨dep + 1, [Slot.one (some (.str t))], w⟩ rd' ∧ At D' rest fin rd' := by
  obtain ⟨rd1, h1, a1⟩ := peek_at (show At D' (.start ⟨c!"x", none, none⟩ [] [] :: (Node.eventsL [.text t] ++
      .endE ⟨c!"x", none, none⟩ :: rest)) fin rd by simpa [Node.events, Node.eventsL] using h)
  obtain ⟨rd2, h2⟩ := callSimple_text L s (st := ⟨dep, [Slot.one none], w⟩) (f := { ident := c!"x", ty := .opt (.simple .string) })
    (i := 0) (t := .string) (show textOnly [.text t] from trivial) rfl a1
  obtain ⟨h2, a2⟩ := h2
  refine ⟨rd2, ?_, a2⟩
  have e : structStep L rec fuel s named 0 ⟨dep, [Slot.one none], w⟩ rd = (.ok (⟨dep + 1, [Slot.one (some (.str t))], w⟩, true), rd2) := by
    unfold structStep
    rw [bind_ok h1]
    refine bind_ok (a := (⟨dep + 1, [Slot.one (some (.str t))], w⟩ : LoopSt)) ?_
    unfold structStart
    rw [if_neg (by rintro ⟨h, -⟩; dsimp only at h; omega), findArm_eq]
    rw [show s.fieldFor ⟨c!"x", none, none⟩ = some 0 from fieldFor_x]
    rw [bind_ok (a := (⟨dep, [Slot.one (some (.str t))], w⟩ : LoopSt)) (s' := rd2)]
    · rw [if_neg (by show ¬ dep = 0; omega)]; rfl
    · exact h2
  have hk : Overflow.i32 .wraps (dep + 1) = .ok (dep + 1) := by
    unfold Overflow.i32
    dsimp only
    congr 1
    omega
  rw [structLoopC, bind_ok (structStepC_of e hk)]
  rfl

/-- The end of the document. -/
theorem own_end (n : Nat) (ss : List Slot) (w : Option EW) {name : Name} (hn : name.loc = named)
    {rest : List REv} {fin : Option Str} {rd : Rd} (h : At 1 (.endE name :: rest) fin rd) :
    ∃ rd', structLoopC .wraps L rec fuel s named 0 (n + 1) ⟨-2147483647, ss, w⟩ rd = (.ok ⟨-2147483647, ss, w⟩, rd') := by
  obtain ⟨rd1, h1, a1⟩ := peek_at h
  refine ⟨rd1, ?_⟩
  have e : structStep L rec fuel s named 0 ⟨-2147483647, ss, w⟩ rd = (.ok (⟨-2147483647, ss, w⟩, false), rd1) := by
    unfold structStep
    rw [bind_ok h1]
    dsimp only
    rw [bind_get, if_pos ⟨hn, a1.depth⟩, writeUnused_eq _ _ _ (by simp)]
    rfl
  rw [structLoopC, bind_ok (structStepC_of e (k := -2147483647) rfl)]
  rfl

end
end Wrap

open Wrap in
/-- C81, release builds beyond the limit: after 2^31 - 1 children the counter is negative, and what is inside unknown children is
taken for the struct's own. -/
theorem C81_wraps (L : Lib) (k : Nat) (hk : 2147483647 ≤ k) (t : Str) (text : Str) (hdoc : IsDoc (L.parse text) (doc k t)) :
    (∃ N, ∀ b, N ≤ b → fromStrC .wraps L program b [c!"S"] text = .ok (.struct [.some (.str t)])) ∧
    ∃ N, ∀ b, N ≤ b → deFromStr L program b [c!"S"] text = .ok (.struct [.none]) := by
  obtain ⟨post, hpost⟩ := hdoc
  refine ⟨⟨2 * k + 10, fun b hb => ?_⟩, ?_⟩
  · obtain ⟨j, rfl⟩ : ∃ j, k = 2147483646 + (j + 1) := ⟨k - 2147483647, by omega⟩
    obtain ⟨b, rfl⟩ : ∃ c, b = c + 2 := ⟨b - 2, by omega⟩
    obtain ⟨rd, hat, he⟩ := fromStrC_loop .wraps L program [c!"S"] s rfl ⟨c!"S", none, none⟩ [] ⟨rfl, rfl⟩ (by intro u h; cases h) text
      _ (hpost.trans (by rw [doc, Node.events, List.cons_append]))  b
    rw [he]
    generalize hM : (2147483646 : Nat) = M at *
    have hev : Node.eventsL (List.replicate (M + (j + 1)) z ++ [zx t]) ++ [.endE ⟨c!"S", none, none⟩] ++ post =
        Node.eventsL (List.replicate M z) ++ (z.events ++ (Node.eventsL (List.replicate j z) ++
          (.start ⟨c!"z", none, none⟩ [] [] :: ((Node.elem ⟨c!"x", none, none⟩ [] [] [.text t]).events ++
            .endE ⟨c!"z", none, none⟩ :: .endE ⟨c!"S", none, none⟩ :: post)))) := by
      rw [List.replicate_add, List.replicate_succ]
      simp [XmlText.eventsL_append, Node.eventsL, zx, Node.events]
    rw [hev] at hat
    obtain ⟨c, hc⟩ : ∃ c, b = M + (2 * j + (c + 1 + 1 + 1 + 1) + 1) := ⟨b - M - 2 * j - 5, by omega⟩
    obtain ⟨rd1, h1, a1⟩ := early L (deserC .wraps L program (b + 1)) (b + 1) c!"S" M (2 * j + (c + 1 + 1 + 1 + 1) + 1)
      [Slot.one none] (some {}) 1 _ _ _ (by omega) (by omega) (by omega) hat
    obtain ⟨rd2, h2, a2⟩ := turn L (deserC .wraps L program (b + 1)) (b + 1) c!"S" (2 * j + (c + 1 + 1 + 1 + 1))
      [Slot.one none] (some {}) _ _ _ (by omega) a1
    obtain ⟨rd3, h3, a3⟩ := late L (deserC .wraps L program (b + 1)) (b + 1) c!"S" (by decide) j (c + 1 + 1 + 1 + 1)
      [Slot.one none] (some {}) _ _ _ a2
    obtain ⟨rd4, h4, a4⟩ := start_z L (deserC .wraps L program (b + 1)) (b + 1) c!"S" (c + 1 + 1 + 1)
      [Slot.one none] (some {}) (-2147483648) (by omega) (by omega) a3
    obtain ⟨rd5, h5, a5⟩ := kid_x L (deserC .wraps L program (b + 1)) (b + 1) c!"S" (c + 1 + 1)
      (some {}) (-2147483648 + 1) (by omega) (by omega) t a4
    obtain ⟨rd6, h6, a6⟩ := end_z L (deserC .wraps L program (b + 1)) (b + 1) c!"S" (by decide) (c + 1)
      [Slot.one (some (.str t))] (some {}) (-2147483648 + 1 + 1) (by omega) (by omega) a5
    obtain ⟨rd7, h7⟩ := own_end L (deserC .wraps L program (b + 1)) (b + 1) c!"S" c
      [Slot.one (some (.str t))] (some {}) rfl a6
    have hl := h1.trans ((congrArg (fun d => structLoopC .wraps L (deserC .wraps L program (b + 1)) (b + 1) s c!"S" 0 _
      ⟨d, [Slot.one none], some {}⟩ rd1) (show (1 : Int) + M = 2147483647 by omega)).trans
      (h2.trans (h3.trans (h4.trans (h5.trans (h6.trans h7))))))
    rw [← hc] at hl
    exact congrArg Prod.fst (bind_ok hl)
  · have hover : OverImpls L program (fun _ => none) s ⟨c!"S", none, none⟩ [] (List.replicate k z ++ [zx t]) (fun _ _ => .err [])
        (fun _ _ => .err []) := by
      have hun : ∀ x ∈ List.replicate k z ++ [zx t], x.name = ⟨c!"z", none, none⟩ ∧ s.KidOk x := by
        intro x hx
        have : x = z ∨ x = zx t := by
          rcases List.mem_append.mp hx with h | h
          · exact .inl (List.eq_of_mem_replicate h)
          · exact .inr (List.mem_singleton.mp h)
        rcases this with rfl | rfl <;>
        · refine ⟨rfl, by simp, fun i f t h => ?_⟩
          rw [fieldFor_z] at h; cases h
      exact {
        plain := by
          constructor <;> intro f hf <;> simp only [s, List.mem_cons, List.not_mem_nil, or_false] at hf <;>
            subst hf <;> simp [FTy.core]
        noFlat := by rintro ⟨f, hf, -, h⟩; revert h; revert f; decide
        name := .inl ⟨rfl, rfl⟩
        kids := fun x hx => (hun x hx).2
        obey := by
          rintro x hx q ⟨i, f, h1, -⟩
          rw [(hun x hx).1, fieldFor_z] at h1
          cases h1
        attrs := by
          intro f _ _ q _ a ha
          cases ha }
    obtain ⟨-, N, hN⟩ := C80_from_str L program (fun _ => none) [c!"S"] s rfl rfl ⟨c!"S", none, none⟩ [] [] _ _ _ hover
      (by intro u h; cases h) text ⟨post, hpost⟩
    refine ⟨N, fun b hb => ?_⟩
    have : (deserU L program (fun _ => none) b [c!"S"] (Rd.new (L.parse text))).1 = _ := hN b hb
    rw [deserU_none] at this
    refine this.trans ?_
    have hk : kidContribs L s (List.replicate k z ++ [zx t]) ((List.replicate k z ++ [zx t]).map fun _ _ => .err []) = .ok [] := by
      have : ∀ k, Res.collect ((((List.replicate k z ++ [zx t]).zip ((List.replicate k z ++ [zx t]).map fun _ (_ : Path) =>
          (.err [] : Res Val))).map fun x => kidContrib L s x.2 x.1)) = .ok (List.replicate (k + 1) []) := by
        intro k
        induction k with
        | zero => rfl
        | succ k ih =>
          rw [List.replicate_succ, List.cons_append, List.map_cons, List.zip_cons_cons, List.map_cons, Res.collect, ih]
          rfl
      unfold kidContribs
      rw [this k]
      show Res.ok _ = _
      congr 1
      simp
    unfold decodeStruct
    rw [hk]
    rfl

/-! ### Examples -/

namespace Wrap
open Spell

theorem tag (l : Str) (h1 : isQName l = true) (h2 : splitColon l = none) : Tag [] [] l [] ⟨l, none, none⟩ [] where
  name := h1
  nodup := by simp
  scope := rfl
  elem := .bare h2
  attrs := .nil

/-- The text `<S>`, k times `<z/>`, `<z><x>t</x></z>`, `</S>`. -/
def text (k : Nat) : Str := c!"<S>" ++ ((List.replicate k c!"<z/>").flatten ++ c!"<z><x>t</x></z>") ++ c!"</S>"

theorem spelled (k : Nat) : Doc (doc k c!"t") (text k) := by
  have blank : Blank [] := by simp [Blank]
  have hc : Content [] [] (List.replicate k z ++ [zx c!"t"]) ((List.replicate k c!"<z/>").flatten ++ c!"<z><x>t</x></z>") := by
    induction k with
    | zero =>
      refine .elem (run := []) (s' := []) (.full (raw := c!"z") (sa := []) (w := []) (w' := []) (s := c!"<x>t</x>") .nil blank
        (tag c!"z" (by decide) (by decide)) ?_ blank) .nil
      refine .elem (run := []) (s' := []) (.full (raw := c!"x") (sa := []) (w := []) (w' := []) (s := c!"t") .nil blank
        (tag c!"x" (by decide) (by decide)) ?_ blank) .nil
      exact .piece (run := []) (s' := []) (.char (c := 't') (by decide) (by decide) (by decide)) .nil
    | succ k ih =>
      have h := Content.elem (run := []) (.empty (raw := c!"z") (sa := []) (w := []) .nil blank (tag c!"z" (by decide) (by decide))) ih
      simpa [List.replicate_succ, z, show textRun [] = [] from rfl] using h
  have h := Doc.mk .nil (Elem.full (raw := c!"S") (sa := []) (w := []) (w' := []) .nil blank (tag c!"S" (by decide) (by decide)) hc blank) .nil
  simpa [text, doc] using h

theorem isDoc (k : Nat) : IsDoc (Tests.lib.parse (text k)) (doc k c!"t") :=
  ⟨[], by
    show content (XmlText.parse (text k)).evs = _
    rw [C74_parse (spelled k), List.append_nil]
    exact content_node _⟩

/-- Such texts exist, for every number of children. -/
example (k : Nat) (hk : 2147483647 ≤ k) :
    ∃ N, ∀ b, N ≤ b → fromStrC .wraps Tests.lib program b [c!"S"] (text k) = .ok (.struct [.some (.str c!"t")]) :=
  (C81_wraps Tests.lib k hk c!"t" _ (isDoc _)).1

example (k : Nat) (hk : 2147483647 ≤ k) :
    ∃ N, ∀ b, N ≤ b → fromStrC .checks Tests.lib program b [c!"S"] (text k) = .panic c!"attempt to add with overflow" := by
  obtain ⟨post, h⟩ := isDoc k
  refine C81_panics Tests.lib program [c!"S"] s rfl ⟨c!"S", none, none⟩ [] ⟨rfl, rfl⟩ (by intro u h; cases h) (List.replicate k z) ?_
    (by rw [List.length_replicate]; exact hk) _ ((zx c!"t").events ++ .endE ⟨c!"S", none, none⟩ :: post) ?_
  · intro x hx
    obtain rfl := List.eq_of_mem_replicate hx
    exact .inl fieldFor_z
  · rw [h, doc, Node.events, XmlText.eventsL_append]
    simp [Node.eventsL]

theorem length_events (k : Nat) : (Node.eventsL (List.replicate k z)).length = 2 * k := by
  induction k with
  | zero => rfl
  | succ k ih => simp [List.replicate_succ, Node.eventsL, z, Node.events, ih] at ih ⊢; omega

/-- Below the limit there is no difference. -/
example (k : Nat) (hk : k < 1000000000) (ov : Overflow) (b : Nat) :
    fromStrC ov Tests.lib program b [c!"S"] (text k) = deFromStr Tests.lib program b [c!"S"] (text k) := by
  refine C81_fits ov Tests.lib program [c!"S"] _ b ?_ (.inl ?_)
  · show (content (XmlText.parse (text k)).evs).length < _
    rw [C74_parse (spelled k)]
    show (content (doc k c!"t").events).length < _
    rw [show content (doc k c!"t").events = (doc k c!"t").events from content_node _, doc, Node.events]
    have := length_events k
    simp [XmlText.eventsL_append, Node.eventsL, zx, Node.events]
    omega
  · intro q d hq
    unfold program at hq
    split at hq
    · cases hq
      refine ⟨by decide, fun f hf ha => ?_⟩
      simp only [s, List.mem_cons, List.not_mem_nil, or_false] at hf
      subst hf
      cases ha
    · cases hq

end Wrap

end Yaserde
