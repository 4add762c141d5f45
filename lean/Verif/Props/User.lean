import Verif.Proofs.User
import Verif.Proofs.Term
import Verif.Props.Decode
import Verif.Props.Sample
/-
Property C80: derived structs around hand-written implementations of `YaDeserialize`.
-/

set_option autoImplicit false
set_option maxRecDepth 100000

namespace Yaserde

/-- Without hand-written implementations. -/
theorem deserU_none (L : Lib) (env : Env) (n : Nat) : ∀ p, deserU L env (fun _ => none) n p = deser L env n p := by
  induction n with
  | zero => intro p; rfl
  | succ n ih =>
    intro p
    have : deserU L env (fun _ => none) n = deser L env n := funext ih
    unfold deserU deser
    rw [this]
    rfl

theorem obeys_runs {F : Nat → D Val} {x : Node} {r : Res Val} : Obeys F x r ↔
    ∃ left : List REv, (left = [] ∨ ∃ t, left = [.chars t]) ∧ ∃ N, ∀ n, N ≤ n → ReadsAs 1 (F n) x.name x.events left r := by
  unfold Obeys
  refine exists_congr fun left => and_congr_right fun hl => exists_congr fun N => forall_congr' fun n => imp_congr_right fun _ => ?_
  have ho : ∀ dep, dep + 1 - opens left = dep + 1 := by
    intro dep
    rcases hl with rfl | ⟨t, rfl⟩ <;> rfl
  unfold ReadsAs
  refine forall_congr' fun dep => forall_congr' fun rest => forall_congr' fun fin => forall_congr' fun rd =>
    imp_congr_right fun _ => imp_congr_right fun _ => ?_
  rw [ho]
  generalize F n rd = run
  cases r with
  | ok v =>
    constructor
    · rintro ⟨rd', h1, h2⟩; exact ⟨_, rd', h1, rfl, h2⟩
    · rintro ⟨v', rd', h1, rfl, h2⟩; exact ⟨rd', h1, h2⟩
  | err e =>
    constructor
    · intro h; exact ⟨run.2, by rw [← show run.1 = .err e from h]⟩
    · rintro ⟨rd', h⟩; rw [h]; rfl
  | panic e =>
    constructor
    · intro h; exact ⟨run.2, by rw [← show run.1 = .panic e from h]⟩
    · rintro ⟨rd', h⟩; rw [h]; rfl
  | diverge => exact Iff.rfl

/-- One bound for finitely many statements that hold from some bound on. -/
theorem exists_bound {α : Type} {P : α → Nat → Prop} (l : List α) (h : ∀ a ∈ l, ∃ N, ∀ n, N ≤ n → P a n) :
    ∃ N, ∀ n, N ≤ n → ∀ a ∈ l, P a n := by
  induction l with
  | nil => exact ⟨0, fun _ _ a ha => by cases ha⟩
  | cons a l ih =>
    obtain ⟨N1, h1⟩ := h a (List.mem_cons_self ..)
    obtain ⟨N2, h2⟩ := ih fun b hb => h b (List.mem_cons_of_mem _ hb)
    refine ⟨max N1 N2, fun n hn b hb => ?_⟩
    rcases List.mem_cons.mp hb with rfl | hb
    · exact h1 n (by omega)
    · exact h2 n (by omega) b hb

/-- The hypotheses of C80 about one struct's element. -/
structure OverImpls (L : Lib) (env : Env) (user : Impls) (d : StructDef) (n : Name) (as : List Attr) (ks : List Node)
    (dec : Node → Path → Res Val) (u : Path → Str → Res Val) : Prop where
  plain : d.Plain
  noFlat : ¬ d.HasFlat
  /-- The element has the struct's name, or at least not that of one of its fields. -/
  name : (n.loc = d.attrs.rename.getD d.name ∧
    n.ns.getD [] = (d.attrs.namespaces.find d.attrs.pfx).getD []) ∨ d.fieldFor n = none
  kids : ∀ k ∈ ks, d.KidOk k
  /-- The implementations of the fields' types keep the contract on the children. -/
  obey : ∀ k ∈ ks, ∀ q, d.FieldOfType k q → Obeys (fun b => deserU L env user b q) k (dec k q)
  /-- The implementations of the attributes' types have these outcomes on their texts. -/
  attrs : ∀ f ∈ d.fields, f.attrs.isAttr = true → ∀ q, f.ty.core = .struct q → ∀ a ∈ as, a.name.loc = f.label →
    ∀ s ∈ f.ty.attrTexts a.value, ReadsDoc L (fun b => deserU L env user b q) (attrDoc q s) (u q s)

theorem structDeser_by {L : Lib} {env : Env} {user : Impls} {p : Path} {d : StructDef} (hu : user p = none) (hp : env p = some (.struct d))
    {n : Name} {as : List Attr} {m : NsMap} {ks : List Node} {dec : Node → Path → Res Val} {u : Path → Str → Res Val}
    (h : OverImpls L env user d n as ks dec u) : ∃ N, ∀ b, N ≤ b → ∀ (dep : Nat) (rest : List REv) (fin : Option Str) (rd : Rd),
      (dep = 0 → nsOk d.attrs n) → At dep ((Node.elem n as m ks).events ++ rest) fin rd →
      Runs (deserU L env user b p rd) (decodeStruct L (attrsBy u) d n as m ks (ks.map dec)) fun v b rd' =>
        b = v ∧ At (dep + 1) (.endE n :: rest) fin rd' := by
  obtain ⟨hplain, hnf, hname, hkids, hobey, hattrs⟩ := h
  have hff : d.hasFlat = false := by
    cases hh : d.hasFlat with
    | false => rfl
    | true => exact (hnf ((hasFlat_iff d).mp hh)).elim
  -- the children
  obtain ⟨N1, h1⟩ := exists_bound (P := fun (k : Node) b => ∀ q, d.FieldOfType k q → ∃ left : List REv,
      (left = [] ∨ ∃ t, left = [.chars t]) ∧ ReadsAs 1 (deserU L env user b q) k.name k.events left (dec k q)) ks (by
    intro k hk
    by_cases hq : ∃ q, d.FieldOfType k q
    · obtain ⟨q, hq⟩ := hq
      obtain ⟨left, hl, N, hN⟩ := obeys_runs.mp (hobey k hk q hq)
      refine ⟨N, fun b hb q' hq' => ?_⟩
      have : q' = q := by
        obtain ⟨i, f, h1, h2, h3⟩ := hq
        obtain ⟨i', f', h1', h2', h3'⟩ := hq'
        rw [h1] at h1'; cases h1'
        rw [h2] at h2'; cases h2'
        rw [h3] at h3'; cases h3'
        rfl
      subst this
      exact ⟨left, hl, hN b hb⟩
    · exact ⟨0, fun b _ q h => (hq ⟨q, h⟩).elim⟩)
  -- the attributes
  obtain ⟨N2, h2⟩ := exists_bound (P := fun (f : FieldDef) b => f.attrs.isAttr = true → ∀ q, f.ty.core = .struct q → ∀ a ∈ as,
      a.name.loc = f.label → ∀ s ∈ f.ty.attrTexts a.value,
      visitStructStr L (deserU L env user b) q s = u q s ∧ u q s ≠ .diverge) d.fields (by
    intro f hf
    by_cases ha : f.attrs.isAttr = true
    · cases hq : f.ty.core with
      | struct q =>
        obtain ⟨N, hN⟩ := exists_bound (P := fun (a : Attr) b => a.name.loc = f.label → ∀ s ∈ f.ty.attrTexts a.value,
            visitStructStr L (deserU L env user b) q s = u q s ∧ u q s ≠ .diverge) as (by
          intro a haa
          by_cases hl : a.name.loc = f.label
          · obtain ⟨N, hN⟩ := exists_bound (P := fun (s : Str) b =>
                visitStructStr L (deserU L env user b) q s = u q s ∧ u q s ≠ .diverge) (f.ty.attrTexts a.value) (by
              intro s hs
              obtain ⟨hd, N, hN⟩ := hattrs f hf ha q hq a haa hl s hs
              exact ⟨N, fun b hb => ⟨hN b hb, hd⟩⟩)
            exact ⟨N, fun b hb _ => hN b hb⟩
          · exact ⟨0, fun _ _ h => (hl h).elim⟩)
        exact ⟨N, fun b hb _ q' hq' => by cases hq'; exact hN b hb⟩
      | simple t => exact ⟨0, fun _ _ _ q h => by cases h⟩
      | opt t => exact ⟨0, fun _ _ _ q h => by cases h⟩
      | vec t => exact ⟨0, fun _ _ _ q h => by cases h⟩
    · exact ⟨0, fun _ _ h => (ha h).elim⟩)
  refine ⟨max (max N1 N2) ((Node.eventsL ks).length + 2) + 1, fun b hb dep rest fin rd hns hat => ?_⟩
  obtain ⟨b, rfl⟩ : ∃ k, b = k + 1 := ⟨b - 1, by omega⟩
  have he : deserU L env user (b + 1) p = structDeser L (deserU L env user b) b d := by
    funext rd
    unfold deserU
    rw [hu, hp]
  rw [he]
  obtain ⟨rd1, hpk, a1⟩ := peek_at (show At dep (.start n as m :: (Node.eventsL ks ++ .endE n :: rest)) fin rd by
    simpa [Node.events] using hat)
  unfold structDeser
  rw [bind_ok hpk, bind_get, a1.depth]
  refine structBody_by L dec u (deserU L env user b) b d hplain hff hname hkids ?_ ?_ (by omega) hns (by simpa [Node.events] using a1)
  · rintro k hk name as' m' kids q rfl hq
    exact h1 b (by omega) _ hk q hq
  · exact h2 b (by omega)

/-- C80, composition: a derived struct around any implementations, hand-written or derived, that keep the contract on the
children of its element, reads its element as the declarative reading says, with what these implementations read in
the place of the children; and keeps the contract itself. -/
theorem C80_contract (L : Lib) (env : Env) (user : Impls) (p : Path) (d : StructDef) (hu : user p = none)
    (hp : env p = some (.struct d)) (n : Name) (as : List Attr) (m : NsMap) (ks : List Node)
    (dec : Node → Path → Res Val) (u : Path → Str → Res Val) (h : OverImpls L env user d n as ks dec u) :
    Obeys (fun b => deserU L env user b p) (.elem n as m ks) (decodeStruct L (attrsBy u) d n as m ks (ks.map dec)) := by
  obtain ⟨N, hN⟩ := structDeser_by hu hp (m := m) h
  exact obeys_runs.mpr ⟨[], .inl rfl, N, fun b hb dep rest fin rd hd hat => hN b hb dep rest fin rd (fun h0 => by omega) hat⟩

/-- C80, documents: such a struct as the type of a whole document. -/
theorem C80_from_str (L : Lib) (env : Env) (user : Impls) (p : Path) (d : StructDef) (hu : user p = none)
    (hp : env p = some (.struct d)) (n : Name) (as : List Attr) (m : NsMap) (ks : List Node)
    (dec : Node → Path → Res Val) (u : Path → Str → Res Val) (h : OverImpls L env user d n as ks dec u)
    (hns : nsOk d.attrs n) (s : Str) (hdoc : IsDoc (L.parse s) (.elem n as m ks)) :
    ReadsDoc L (fun b => deserU L env user b p) s (decodeStruct L (attrsBy u) d n as m ks (ks.map dec)) := by
  obtain ⟨N, hN⟩ := structDeser_by hu hp (m := m) h
  obtain ⟨post, hpost⟩ := hdoc
  have hat := at_new' (L.parse s)
  rw [hpost] at hat
  exact ⟨((hN N (Nat.le_refl _) 0 post _ _ (fun _ => hns) hat).doc).2, N,
    fun b hb => ((hN b hb 0 post _ _ (fun _ => hns) hat).doc).1⟩

/-- C80, derived types: they keep the contract on conforming elements (apart from elements whose start tag names a variant). -/
theorem C80_derived (L : Lib) (env : Env) (k : Nat) (x : Node) (p : Path) (hconf : ConfN L env k x p)
    (hv : ∀ d, env p = some (.enum d) → d.variantOf x.name x.attrs = none) :
    Obeys (fun b => deserU L env (fun _ => none) b p) x (decodeN L env k x p) := by
  refine obeys_runs.mpr ⟨leftover env x p, ?_, x.events.length + levelFuel k + 1, fun b hb dep rest fin rd hd hat => ?_⟩
  · rcases leftover_cases env x p with h | h | ⟨n, as, m, h⟩
    · exact .inl h
    · exact .inr h
    · exfalso
      unfold leftover at h
      split at h
      · cases h
      · rename_i d n' as' m' kids he
        have := hv d he
        simp only [Node.name, Node.attrs] at this
        rw [this] at h
        cases hk : unitByText d kids with
        | none => rw [hk] at h; cases h
        | some i =>
          rw [hk] at h
          unfold unitByText at hk
          split at hk
          · simp [Node.eventsL, Node.events] at h
          · cases hk
      · cases h
  · rw [deserU_none]
    have := deser_tree L env b k x p hconf (by omega) dep rest fin rd hat
    rwa [decodeAt_eq L env k dep x p (fun h0 => by omega)] at this

/-- C80, a hand-written implementation of the repository: `Day` keeps the contract on every `<Day>` element with a text. -/
theorem C80_day (name : Name) (hn : name.loc = c!"Day") (as : List Attr) (m : NsMap) (t : Str) :
    (∀ v, parseInt .i32 t = .ok v → -1073741824 ≤ v → v ≤ 1073741823 →
      Obeys (fun _ => dayImpl) (.elem name as m [.text t]) (.ok (.struct [.int (2 * v)]))) ∧
    ((∀ v, parseInt .i32 t ≠ .ok v) →
      ∃ e, Obeys (fun _ => dayImpl) (.elem name as m [.text t]) (.panic e)) := by
  have run : ∀ (dep : Nat) (rest : List REv) (fin : Option Str) (rd : Rd),
      At dep ((Node.elem name as m [.text t]).events ++ rest) fin rd → ∃ rd', dayImpl rd =
        (match parseInt .i32 t with
          | .ok v => if IntTy.i32.lo ≤ 2 * v ∧ 2 * v ≤ IntTy.i32.hi then M.pure (.struct [.int (2 * v)])
              else M.panic c!"attempt to multiply with overflow"
          | .error _ => M.panic c!"called `Result::unwrap()` on an `Err` value" : D Val) rd' ∧
        At (dep + 1) (.chars t :: .endE name :: rest) fin rd' := by
    intro dep rest fin rd hat
    obtain ⟨rd1, h1, a1⟩ := peek_at (show At dep (.start name as m :: .chars t :: .endE name :: rest) fin rd by
      simpa [Node.events, Node.eventsL] using hat)
    obtain ⟨rd2, h2, a2⟩ := next_start a1
    obtain ⟨rd3, h3, a3⟩ := peek_at a2
    refine ⟨rd3, ?_, a3⟩
    unfold dayImpl
    rw [bind_ok h1]
    dsimp only
    rw [if_pos hn, bind_ok (attempt_ok h2), bind_ok h3]
    rfl
  constructor
  · intro v hv h1 h2
    refine ⟨[.chars t], .inr ⟨t, rfl⟩, 0, fun n _ dep rest fin rd _ hat => ?_⟩
    obtain ⟨rd', h3, h4⟩ := run dep rest fin rd hat
    rw [hv] at h3
    dsimp only at h3
    rw [if_pos ⟨by simp only [IntTy.lo]; omega, by simp only [IntTy.hi]; omega⟩] at h3
    exact ⟨rd', h3, h4⟩
  · intro hv
    refine ⟨c!"called `Result::unwrap()` on an `Err` value", [], .inl rfl, 0, fun n _ dep rest fin rd _ hat => ?_⟩
    obtain ⟨rd', h3, h4⟩ := run dep rest fin rd hat
    cases hp : parseInt .i32 t with
    | ok v => exact (hv v hp).elim
    | error e =>
      rw [hp] at h3
      exact congrArg Prod.fst h3

theorem splitSpace_ne (t : Str) : splitSpace t ≠ [] := by
  induction t with
  | nil => simp [splitSpace]
  | cons c t ih =>
    unfold splitSpace
    split
    · simp
    · split <;> simp

theorem splitSpace_word (w t : Str) (hw : ' ' ∉ w) : splitSpace (w ++ t) = match splitSpace t with
    | v :: vs => (w ++ v) :: vs
    | [] => [] := by
  induction w with
  | nil => cases h : splitSpace t with
    | nil => exact (splitSpace_ne t h).elim
    | cons v vs => simpa using h
  | cons c w ih =>
    have hc : c ≠ ' ' := fun h => hw (by rw [h]; exact List.mem_cons_self ..)
    rw [List.cons_append, splitSpace, if_neg hc, ih fun h => hw (List.mem_cons_of_mem _ h)]
    cases h : splitSpace t with
    | nil => exact (splitSpace_ne t h).elim
    | cons v vs => rfl

/-- Splitting undoes joining with single spaces. -/
theorem splitSpace_join (w : Str) (ws : List Str) (hw : ∀ x ∈ w :: ws, ' ' ∉ x) :
    splitSpace (w ++ (ws.map (' ' :: ·)).flatten) = w :: ws := by
  induction ws generalizing w with
  | nil => rw [splitSpace_word w _ (hw w (List.mem_cons_self ..))]; simp [splitSpace]
  | cons x ws ih =>
    rw [splitSpace_word w _ (hw w (List.mem_cons_self ..)), List.map_cons, List.flatten_cons, List.cons_append, splitSpace, if_pos rfl,
      ih x fun y hy => hw y (List.mem_cons_of_mem _ hy)]
    simp

/-- C80, the other hand-written implementation of the repository: `Attributes` reads an attribute as its words, the parts between
single spaces. -/
theorem C80_attributes (L : Lib) (q : Path) (value : Str) (name : Name) (as : List Attr) (m : NsMap) :
    (∀ (w : Str) (ws : List Str), (∀ x ∈ w :: ws, ' ' ∉ x) →
      IsDoc (L.parse (attrDoc q value)) (.elem name as m [.text (w ++ (ws.map (' ' :: ·)).flatten)]) →
      ReadsDoc L (fun _ => attributesImpl) (attrDoc q value) (.ok (.struct [.vec ((w :: ws).map Val.str)]))) ∧
    (IsDoc (L.parse (attrDoc q value)) (.elem name as m []) →
      ReadsDoc L (fun _ => attributesImpl) (attrDoc q value) (.err c!"Unable to parse attribute")) := by
  have start : ∀ (es : List REv) (fin : Option Str) (rd : Rd), At 0 (.start name as m :: es) fin rd → ∃ n rd',
      attributesImpl rd = attributesLoop (n + 1) rd' ∧ At 1 es fin rd' := by
    intro es fin rd hat
    obtain ⟨rd', h1, h2⟩ := next_start hat
    refine ⟨rd.reader.evs.length, rd', ?_, h2⟩
    unfold attributesImpl
    rw [attributesLoop, bind_ok h1]
  constructor
  · rintro w ws hws ⟨post, hpost⟩
    rw [← splitSpace_join w ws hws]
    generalize w ++ (ws.map (' ' :: ·)).flatten = t at *
    refine ⟨(fun h => by cases h), 0, fun n _ => ?_⟩
    have hat := at_new' (L.parse (attrDoc q value))
    rw [hpost] at hat
    obtain ⟨k, rd', h1, h2⟩ := start (.chars t :: .endE name :: post) _ _ (by simpa [Node.events, Node.eventsL] using hat)
    obtain ⟨rd2, h3, -⟩ := next_chars h2
    show (attributesImpl _).1 = _
    rw [h1, attributesLoop, bind_ok h3]
    rfl
  · rintro ⟨post, hpost⟩
    refine ⟨(fun h => by cases h), 0, fun n _ => ?_⟩
    have hat := at_new' (L.parse (attrDoc q value))
    rw [hpost] at hat
    obtain ⟨k, rd', h1, h2⟩ := start (.endE name :: post) _ _ (by simpa [Node.events, Node.eventsL] using hat)
    obtain ⟨rd2, h3, -⟩ := next_end h2
    show (attributesImpl _).1 = _
    rw [h1, attributesLoop, bind_ok h3]
    rfl

/-- C80, implementations in terms of others: a hand-written implementation that reads a value of another type of the program
(hand-written or derived) and converts it keeps the contract where the other does. -/
theorem C80_delegates (L : Lib) (env : Env) (user : Impls) (p q : Path) (g : Val → Except Str Val)
    (hp : user p = some fun rec => rec q >>= fun v => M.ofExcept (g v)) (x : Node) (r : Res Val)
    (hq : Obeys (fun b => deserU L env user b q) x r) :
    Obeys (fun b => deserU L env user b p) x (r.bind fun v => match g v with | .ok w => .ok w | .error e => .err e) := by
  obtain ⟨left, hl, N, hN⟩ := hq
  refine ⟨left, hl, N + 1, fun n hn dep rest fin rd hd hat => ?_⟩
  obtain ⟨n, rfl⟩ : ∃ k, n = k + 1 := ⟨n - 1, by omega⟩
  have h : EndsWith (deserU L env user n q rd) r _ := hN n (by omega) dep rest fin rd hd hat
  have he : deserU L env user (n + 1) p = (deserU L env user n q >>= fun v => M.ofExcept (g v)) := by
    rw [deserU]
    simp only [hp]
  show EndsWith (deserU L env user (n + 1) p rd) _ _
  rw [he]
  cases hy : deserU L env user n q rd with
  | mk r' rd' =>
    rw [hy] at h
    cases r with
    | ok v =>
      obtain ⟨rd2, h1, h2⟩ := h
      cases h1
      rw [bind_ok hy, Res.bind_ok]
      cases g v with
      | ok w => exact ⟨rd', rfl, h2⟩
      | error e => rfl
    | err e =>
      obtain rfl : r' = .err e := h
      rw [bind_err hy]; rfl
    | panic e =>
      obtain rfl : r' = .panic e := h
      rw [bind_panic hy]; rfl
    | diverge => exact h

/-- C80, the contract is needed: if the implementation of a field's type takes the end tag of its element as well, a document
whose last child is of that field is never finished: the generated code takes the struct's own end tag for the one it expects,
and then waits for it. -/
theorem C80_greedy (L : Lib) (env : Env) (user : Impls) (p : Path) (d : StructDef) (hu : user p = none)
    (hp : env p = some (.struct d)) (hflat : d.attrs.flatten = false) (q : Path) (F : D Val) (hq : user q = some fun _ => F)
    (n : Name) (m : NsMap) (x : Node) (v : Val) (hx : d.FieldOfType x q)
    (hxe : ∃ n' as' m' ks', x = .elem n' as' m' ks')
    (hname : n.loc = d.attrs.rename.getD d.name ∧ n.ns.getD [] = (d.attrs.namespaces.find d.attrs.pfx).getD [])
    (hns : nsOk d.attrs n)
    (hgreedy : ∀ (dep : Nat) (rest : List REv) (fin : Option Str) (rd : Rd), 1 ≤ dep → At dep (x.events ++ rest) fin rd →
      ∃ rd', F rd = (.ok v, rd') ∧ At dep rest fin rd')
    (s : Str) (hdoc : content (L.parse s).evs = (Node.elem n [] m [x]).events) (hfin : (L.parse s).fin = none) (b : Nat) :
    fromStrU L env user b p s = .diverge := by
  obtain ⟨n', as', m', ks', rfl⟩ := hxe
  obtain ⟨i, f, hf, hfi, hty⟩ := hx
  have hat := at_new' (L.parse s)
  rw [hdoc, hfin] at hat
  show (deserU L env user b p (Rd.new (L.parse s))).1 = .diverge
  cases b with
  | zero => rfl
  | succ b =>
    have he : deserU L env user (b + 1) p = structDeser L (deserU L env user b) b d := by
      funext rd
      unfold deserU
      rw [hu, hp]
    rw [he]
    have hat' : At 0 (.start n [] m :: ((Node.elem n' as' m' ks').events ++ [.endE n])) none (Rd.new (L.parse s)) := by
      simpa [Node.events, Node.eventsL] using hat
    obtain ⟨rd1, hpk, a1⟩ := peek_at hat'
    unfold structDeser
    rw [bind_ok hpk, bind_get, a1.depth]
    unfold structBody
    have h0 : (if 0 = 0 then M.ofExcept (nsMatching d.attrs.namespaces d.attrs.pfx n.ns n.loc)
        else M.pure () : D Unit) rd1 = (.ok (), rd1) := by
      rw [if_pos rfl]
      have : nsMatching d.attrs.namespaces d.attrs.pfx n.ns n.loc = .ok () := by
        unfold nsMatching
        cases hn : n.ns with
        | none => rfl
        | some u =>
          obtain ⟨e, he, h1, h2⟩ := hns u hn
          dsimp only
          rw [if_pos]
          rw [List.any_eq_true]
          exact ⟨e, he, by simp [h1, h2]⟩
      rw [this]; rfl
    rw [show startInfo (d.attrs.xmlElementName d.name) (.start n [] m) = (n.loc, n.ns) from rfl, bind_ok h0]
    suffices h : ∀ st : LoopSt, st.depth = 0 →
        (structLoop L (deserU L env user b) b d n.loc 0 b st rd1).1 = .diverge from by
      rw [bind_diverge (s' := _) (Prod.ext (h _ rfl) rfl)]
    intro st hst
    cases b with
    | zero => rfl
    | succ b =>
      have hload : ∀ (fs : List FieldDef) (ss : List Slot), loadAttrs L (deserU L env user (b + 1)) fs [] ss = .ok ss := by
        intro fs
        induction fs with
        | nil => intro ss; rfl
        | cons f fs ih =>
          intro ss
          cases ss with
          | nil => rfl
          | cons s ss =>
            have : (if f.attrs.isAttr then loadAttrField L (deserU L env user (b + 1)) f [] s else .ok s) = .ok s := by
              split <;> rfl
            rw [loadAttrs, this, Res.bind_ok, ih, Res.bind_ok]
      obtain ⟨rd2, h2, a2⟩ := peek_at a1
      obtain ⟨rd3, h3, a3⟩ := next_start a2
      obtain ⟨st1, hs1, hd1⟩ : ∃ st1 : LoopSt, structStart L (deserU L env user (b + 1)) (b + 1) d st n [] rd2 = (.ok st1, rd3) ∧
          st1.depth = 1 := by
        refine ⟨⟨1, st.slots, wput d.hasFlat st.writer (.start n [] m)⟩, ?_, rfl⟩
        unfold structStart
        rw [if_pos ⟨hst, hname⟩, bind_ok (s' := rd3) (a := { st with writer := wput d.hasFlat st.writer (.start n [] m) })
          (by rw [bind_ok h3, writeUnused_eq _ _ _ (by simp)]; rfl)]
        rw [if_pos hst, hload]
        simp only [hst]
        rfl
      have hstep1 : structStep L (deserU L env user (b + 1)) (b + 1) d n.loc 0 st rd1 = (.ok (st1, true), rd3) := by
        unfold structStep
        rw [bind_ok h2]
        exact bind_ok hs1
      rw [structLoop, bind_ok hstep1]
      show (structLoop L (deserU L env user (b + 1)) (b + 1) d n.loc 0 b st1 rd3).1 = .diverge
      cases b with
      | zero => rfl
      | succ b =>
        have a3' : At 1 (.start n' as' m' :: (Node.eventsL ks' ++ .endE n' :: [.endE n])) none rd3 := by
          simpa [Node.events] using a3
        obtain ⟨rd4, h4, a4⟩ := peek_at a3'
        obtain ⟨rd5, h5, a5⟩ := peek_at a4
        obtain ⟨rd6, h6, a6⟩ := hgreedy 1 [.endE n] none rd5 (Nat.le_refl _) (by simpa [Node.events] using a5)
        obtain ⟨rd7, h7, a7⟩ := next_end a6
        have hF : deserU L env user (b + 1 + 1) q = F := by
          funext rd
          unfold deserU
          rw [hq]
        have hcall : callVisitor L (deserU L env user (b + 1 + 1)) d.attrs f i n' st1 rd4 = (.ok (st1.setSlot i (Slot.put v)), rd7) := by
          unfold callVisitor
          rw [hty]
          dsimp only
          unfold callStruct
          rw [if_neg (by omega), bind_pure', bind_ok (attempt_ok h5)]
          dsimp only
          rw [hF, bind_ok h6, bind_ok h7]
          rfl
        have hs2 : structStart L (deserU L env user (b + 1 + 1)) (b + 1 + 1) d st1 n' as' rd4 =
            (.ok { st1.setSlot i (Slot.put v) with depth := st1.depth + 1 }, rd7) := by
          rw [structStart_inner L _ _ d (by omega), show d.fieldFor n' = some i from hf]
          dsimp only
          rw [hfi]
          dsimp only
          rw [bind_ok hcall]
          exact afterArm L _ d (st := st1.setSlot i (Slot.put v)) (by show st1.depth ≥ 1; omega) _ _
        have hstep2 : structStep L (deserU L env user (b + 1 + 1)) (b + 1 + 1) d n.loc 0 st1 rd3 =
            (.ok ({ st1.setSlot i (Slot.put v) with depth := st1.depth + 1 }, true), rd7) := by
          unfold structStep
          rw [bind_ok h4]
          exact bind_ok hs2
        rw [structLoop, bind_ok hstep2]
        exact structLoop_stuck L _ _ d hflat _ _ _ _ _ _ (.inl a7)

/-! #### The programs of the repository's tests -/

namespace ByHand
open Tests Sample

/-- `/repo/yaserde/tests/deserializer.rs:791-800`. -/
def date : StructDef :=
  { name := c!"Date"
    fields := [F c!"year" (I .i32) (rn c!"Year"), F c!"month" (I .i32) (rn c!"Month"), F c!"day" (T c!"Day") (rn c!"Day")] }

/-- `/repo/yaserde/tests/deserializer.rs:268-274`. -/
def attrs : StructDef :=
  { name := c!"Struct"
    fields := [F c!"attr_option_string" (O Tests.S) attr,
      F c!"attr_option_struct" (O (.struct [c!"other_mod", c!"Attributes"])) attr] }

def program : Env := envOf [([c!"Date"], .struct date), ([c!"Struct"], .struct attrs)]

def impls : Impls := fun p =>
  if p = [c!"Day"] then some fun _ => dayImpl
  else if p = [c!"other_mod", c!"Attributes"] then some fun _ => attributesImpl
  else none

theorem deserU_day (L : Lib) : ∀ b, 1 ≤ b → deserU L program impls b [c!"Day"] = dayImpl := by
  intro b hb
  obtain ⟨b, rfl⟩ : ∃ k, b = k + 1 := ⟨b - 1, by omega⟩
  rfl

theorem obeys_of_eq {F G : Nat → D Val} (h : ∀ b, 1 ≤ b → F b = G b) {x : Node} {r : Res Val} (hg : Obeys G x r) : Obeys F x r := by
  obtain ⟨left, hl, N, hN⟩ := hg
  refine ⟨left, hl, N + 1, fun n hn => ?_⟩
  rw [h n (by omega)]
  exact hN n (by omega)

/-- What `Day` reads. -/
def dayOf : Node → Path → Res Val
  | .elem _ _ _ [.text t], _ =>
    match parseInt .i32 t with
    | .ok v => .ok (.struct [.int (2 * v)])
    | .error _ => .err []
  | _, _ => .err []

theorem date_plain : date.Plain := by
  constructor <;> intro f hf <;> simp only [date, List.mem_cons, List.not_mem_nil, or_false] at hf <;>
    rcases hf with rfl | rfl | rfl <;> simp [F, I, T, rn, FTy.core]

/-- Any children with the three names and texts, in any number and order: the hypotheses of C80 for `Date`. -/
theorem date_over (ks : List Node)
    (hks : ∀ k ∈ ks, ∃ n t, k = el n [tx t] ∧ (n = c!"Year" ∨ n = c!"Month" ∨
      n = c!"Day" ∧ ∃ v, parseInt .i32 t = .ok v ∧ -1073741824 ≤ v ∧ v ≤ 1073741823)) (u : Path → Str → Res Val) :
    OverImpls lib program impls date ⟨c!"Date", none, none⟩ [] ks dayOf u where
  plain := date_plain
  noFlat := by rintro ⟨f, hf, -, h⟩; revert h; revert f; decide
  name := .inl ⟨rfl, rfl⟩
  kids := by
    intro k hk
    obtain ⟨n, t, rfl, -⟩ := hks k hk
    exact ⟨by simp, fun _ _ _ _ _ _ => trivial⟩
  obey := by
    intro k hk q hq
    obtain ⟨n, t, rfl, h⟩ := hks k hk
    obtain ⟨i, f, h1, h2, h3⟩ := hq
    rcases h with rfl | rfl | ⟨rfl, v, hv, hlo, hhi⟩
    · have : date.fieldFor (el c!"Year" [tx t]).name = some 0 :=
        show date.fieldFor ⟨c!"Year", none, none⟩ = some 0 by decide
      rw [this] at h1; cases h1; cases h2; cases h3
    · have : date.fieldFor (el c!"Month" [tx t]).name = some 1 :=
        show date.fieldFor ⟨c!"Month", none, none⟩ = some 1 by decide
      rw [this] at h1; cases h1; cases h2; cases h3
    · have : date.fieldFor (el c!"Day" [tx t]).name = some 2 :=
        show date.fieldFor ⟨c!"Day", none, none⟩ = some 2 by decide
      rw [this] at h1; cases h1; cases h2; cases h3
      refine obeys_of_eq (deserU_day lib) ?_
      have : dayOf (el c!"Day" [tx t]) [c!"Day"] = .ok (.struct [.int (2 * v)]) := by
        simp only [dayOf, el, tx, hv]
      rw [this]
      exact (C80_day _ rfl _ _ t).1 v hv hlo hhi
  attrs := by
    intro f hf ha
    simp only [date, List.mem_cons, List.not_mem_nil, or_false] at hf
    rcases hf with rfl | rfl | rfl <;> cases ha

/-- The test `de_custom`, `/repo/yaserde/tests/deserializer.rs:834-844`. -/
example : ReadsDoc lib (fun b => deserU lib program impls b [c!"Date"])
    c!"<?xml version=\"1.0\" encoding=\"utf-8\"?><Date><Year>2020</Year><Month>01</Month><Day>11</Day></Date>"
    (.ok (.struct [.int 2020, .int 1, .struct [.int 22]])) := by
  have h := C80_from_str lib program impls [c!"Date"] date rfl rfl ⟨c!"Date", none, none⟩ [] []
    [el c!"Year" [tx c!"2020"], el c!"Month" [tx c!"01"], el c!"Day" [tx c!"11"]] dayOf (fun _ _ => .err [])
    (date_over _ (by
      intro k hk
      simp only [List.mem_cons, List.not_mem_nil, or_false] at hk
      rcases hk with rfl | rfl | rfl
      · exact ⟨_, _, rfl, .inl rfl⟩
      · exact ⟨_, _, rfl, .inr (.inl rfl)⟩
      · exact ⟨_, _, rfl, .inr (.inr ⟨rfl, 11, by decide, by decide, by decide⟩)⟩) _)
    (by intro u h; cases h)
    c!"<?xml version=\"1.0\" encoding=\"utf-8\"?><Date><Year>2020</Year><Month>01</Month><Day>11</Day></Date>"
    ⟨[], by decide +kernel⟩
  exact h

/-- The test `de_attributes_custom_deserializer`, `/repo/yaserde/tests/deserializer.rs:268-295`. -/
example : ReadsDoc lib (fun b => deserU lib program impls b [c!"Struct"])
    c!"<Struct attr_option_string=\"some value\" attr_option_struct=\"variant2 variant3\" />"
    (.ok (.struct [.some (.str c!"some value"), .some (.struct [.vec [.str c!"variant2", .str c!"variant3"]])])) := by
  have hw : ReadsDoc lib (fun b => deserU lib program impls b [c!"other_mod", c!"Attributes"])
      (attrDoc [c!"other_mod", c!"Attributes"] c!"variant2 variant3")
      (.ok (.struct [.vec [.str c!"variant2", .str c!"variant3"]])) := by
    obtain ⟨h1, N, h2⟩ := (C80_attributes lib [c!"other_mod", c!"Attributes"] c!"variant2 variant3"
      ⟨c!"other_modAttributes", none, none⟩ [] []).1 c!"variant2" [c!"variant3"] (by decide) ⟨[], by decide +kernel⟩
    refine ⟨h1, N + 1, fun n hn => ?_⟩
    obtain ⟨n, rfl⟩ : ∃ k, n = k + 1 := ⟨n - 1, by omega⟩
    exact h2 n (by omega)
  have h := C80_from_str lib program impls [c!"Struct"] attrs rfl rfl ⟨c!"Struct", none, none⟩
    [⟨⟨c!"attr_option_string", none, none⟩, c!"some value"⟩, ⟨⟨c!"attr_option_struct", none, none⟩, c!"variant2 variant3"⟩] [] []
    dayOf (fun _ _ => .ok (.struct [.vec [.str c!"variant2", .str c!"variant3"]]))
    { plain := by
        constructor <;> intro f hf <;> simp only [attrs, List.mem_cons, List.not_mem_nil, or_false] at hf <;>
          rcases hf with rfl | rfl <;> simp [F, O, Tests.S, attr, FTy.core]
      noFlat := by rintro ⟨f, hf, -, h⟩; revert h; revert f; decide
      name := .inl ⟨rfl, rfl⟩
      kids := fun _ h => by cases h
      obey := fun _ h => by cases h
      attrs := by
        intro f hf ha q hq a haa hl s hs
        simp only [attrs, List.mem_cons, List.not_mem_nil, or_false] at hf
        rcases hf with rfl | rfl
        · cases hq
        · cases hq
          simp only [List.mem_cons, List.not_mem_nil, or_false] at haa
          rcases haa with rfl | rfl
          · exact absurd hl (by decide)
          · simp only [F, O, FTy.attrTexts, List.mem_cons, List.not_mem_nil, or_false] at hs
            subst hs
            exact hw }
    (by intro u h; cases h)
    c!"<Struct attr_option_string=\"some value\" attr_option_struct=\"variant2 variant3\" />" ⟨[], by decide +kernel⟩
  exact h

/-- `Day`, but taking the text and the end tag as well. -/
def greedyDay : D Val := dayImpl >>= fun v => nextEvent >>= fun _ => nextEvent >>= fun _ => M.pure v

def greedy : Impls := fun p => if p = [c!"Day"] then some fun _ => greedyDay else none

/-- Then the test `de_custom` would not come to an end ... -/
example (b : Nat) : fromStrU lib program greedy b [c!"Date"] c!"<Date><Day>11</Day></Date>" = .diverge := by
  refine C80_greedy lib program greedy [c!"Date"] date rfl rfl rfl [c!"Day"] greedyDay rfl ⟨c!"Date", none, none⟩ []
    (el c!"Day" [tx c!"11"]) (.struct [.int 22])
    ⟨2, F c!"day" (T c!"Day") (rn c!"Day"), by decide, rfl, rfl⟩ ⟨_, _, _, _, rfl⟩ ⟨rfl, rfl⟩ (by intro u h; cases h) ?_ _
    (by decide +kernel) (by decide +kernel) b
  intro dep rest fin rd hdep hat
  obtain ⟨rd1, h1, a1⟩ := peek_at (show At dep (.start ⟨c!"Day", none, none⟩ [] [] :: .chars c!"11" ::
    .endE ⟨c!"Day", none, none⟩ :: rest) fin rd from hat)
  obtain ⟨rd2, h2, a2⟩ := next_start a1
  obtain ⟨rd3, h3, a3⟩ := peek_at a2
  obtain ⟨rd4, h4, a4⟩ := next_chars a3
  obtain ⟨rd5, h5, a5⟩ := next_end a4
  refine ⟨rd5, ?_, a5⟩
  have hd : dayImpl rd = (.ok (.struct [.int 22]), rd3) := by
    unfold dayImpl
    rw [bind_ok h1]
    dsimp only
    rw [if_pos rfl, bind_ok (attempt_ok h2), bind_ok h3]
    rfl
  unfold greedyDay
  rw [bind_ok hd, bind_ok h4, bind_ok h5]
  rfl

def isErr (m : Str) : Res Val → Bool
  | .err e => e == m
  | _ => false

/-- ... and if other children follow, the next one would be lost. -/
example : isErr c!"year is a required field of Date"
    (fromStrU lib program greedy 60 [c!"Date"] c!"<Date><Day>11</Day><Year>2020</Year><Month>01</Month></Date>") = true := by
  decide +kernel

end ByHand

namespace ByHand

/-- A type `Week` that reads a `Day` and takes seven of it. -/
def week : Impls := fun p =>
  if p = [c!"Week"] then some fun rec => rec [c!"Day"] >>= fun v => M.ofExcept
    (match v with | .struct [.int i] => .ok (.struct [.int (7 * i)]) | _ => .error c!"no day")
  else impls p

open Tests Sample in
example : Obeys (fun b => deserU lib program week b [c!"Week"]) (el c!"Day" [tx c!"3"]) (.ok (.struct [.int 42])) := by
  refine C80_delegates lib program week [c!"Week"] [c!"Day"] _ rfl (el c!"Day" [tx c!"3"]) (.ok (.struct [.int 6])) ?_
  refine obeys_of_eq (G := fun _ => dayImpl) (fun b hb => ?_) ((C80_day ⟨c!"Day", none, none⟩ rfl [] [] c!"3").1 3 (by decide) (by decide) (by decide))
  obtain ⟨b, rfl⟩ : ∃ k, b = k + 1 := ⟨b - 1, by omega⟩
  rfl

end ByHand

open Sample in
/-- A derived type keeps the contract. -/
example : Obeys (fun b => deserU Tests.lib env (fun _ => none) b [c!"Book"]) doc1 (decodeN Tests.lib env 0 doc1 [c!"Book"]) :=
  C80_derived _ _ _ _ _ conf1 (by intro d h; rw [env_book] at h; cases h)

open ByHand Sample in
/-- A `Date` inside another document. -/
example : Obeys (fun b => deserU Tests.lib program impls b [c!"Date"])
    (el c!"Date" [el c!"Day" [tx c!"3"], el c!"Month" [tx c!"x"], el c!"Day" [tx c!"4"], el c!"Month" [tx c!"5"], el c!"Year" [tx c!"6"]])
    (.ok (.struct [.int 6, .int 5, .struct [.int 8]])) :=
  C80_contract Tests.lib program impls [c!"Date"] date rfl rfl _ [] [] _ dayOf (fun _ _ => .err []) (date_over _ (by
    intro k hk
    simp only [List.mem_cons, List.not_mem_nil, or_false] at hk
    rcases hk with rfl | rfl | rfl | rfl | rfl
    · exact ⟨_, _, rfl, .inr (.inr ⟨rfl, 3, by decide, by decide, by decide⟩)⟩
    · exact ⟨_, _, rfl, .inr (.inl rfl)⟩
    · exact ⟨_, _, rfl, .inr (.inr ⟨rfl, 4, by decide, by decide, by decide⟩)⟩
    · exact ⟨_, _, rfl, .inr (.inl rfl)⟩
    · exact ⟨_, _, rfl, .inl rfl⟩) _)

end Yaserde
