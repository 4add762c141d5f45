import Verif.Spec.Frames
import Verif.Proofs.Bound
import Verif.Proofs.Fuel
/-
Nested calls: what a generated function does depends on the functions it calls only for the types mentioned, and only in front of the
events still to be read (for C82).
-/

set_option autoImplicit false

namespace Yaserde

/-- From readers with `P` the two computations do the same, and lead to readers with `Q` when they succeed. -/
def Rel {α : Type} (P Q : Rd → Prop) (x y : D α) : Prop :=
  ∀ rd, P rd → x rd = y rd ∧ ∀ a rd', y rd = (.ok a, rd') → Q rd'

/-- What is closed under reading. -/
structure Steady (Q : Rd → Prop) : Prop where
  peek : ∀ rd, Q rd → Q (Yaserde.peek rd).2
  next : ∀ rd, Q rd → Q (nextEvent rd).2

section
variable {α β : Type} {P Q R : Rd → Prop}

theorem Rel.bind {x y : D α} {f g : α → D β} (h : Rel P Q x y) (hf : ∀ a, Rel Q R (f a) (g a)) : Rel P R (x >>= f) (y >>= g) := by
  intro rd hrd
  obtain ⟨h1, h2⟩ := h rd hrd
  cases hy : y rd with
  | mk r rd' =>
    rw [hy] at h1
    cases r with
    | ok a =>
      rw [bind_ok h1, bind_ok hy]
      exact hf a rd' (h2 a rd' hy)
    | err e => rw [bind_err h1, bind_err hy]; exact ⟨rfl, fun _ _ h => by cases h⟩
    | panic e => rw [bind_panic h1, bind_panic hy]; exact ⟨rfl, fun _ _ h => by cases h⟩
    | diverge => rw [bind_diverge h1, bind_diverge hy]; exact ⟨rfl, fun _ _ h => by cases h⟩

theorem Rel.same {x : D α} (h : ∀ rd, P rd → Q (x rd).2) : Rel P Q x x :=
  fun rd hrd => ⟨rfl, fun a rd' ha => by have := h rd hrd; rwa [ha] at this⟩

theorem Rel.pure (a : α) : Rel P P (M.pure a) (M.pure a) := .same fun _ h => h
theorem Rel.throw (e : Str) : Rel (α := α) P Q (M.throw e) (M.throw e) := fun _ _ => ⟨rfl, fun _ _ h => by cases h⟩
theorem Rel.panic (e : Str) : Rel (α := α) P Q (M.panic e) (M.panic e) := fun _ _ => ⟨rfl, fun _ _ h => by cases h⟩
theorem Rel.diverge : Rel (α := α) P Q M.diverge M.diverge := fun _ _ => ⟨rfl, fun _ _ h => by cases h⟩
theorem Rel.lift {r r' : Res α} (h : r = r') : Rel P P (M.lift r) (M.lift r') := by subst h; exact .same fun _ h => h
theorem Rel.ofExcept (r : Except Str α) : Rel P P (M.ofExcept r) (M.ofExcept r) := .same fun _ h => by cases r <;> exact h

theorem Rel.ite {c : Prop} [Decidable c] {x y x' y' : D α} (h : c → Rel P Q x x') (h' : ¬c → Rel P Q y y') :
    Rel P Q (if c then x else y) (if c then x' else y') := by
  split
  · exact h ‹_›
  · exact h' ‹_›

theorem Rel.weaken {P' Q' : Rd → Prop} {x y : D α} (h : Rel P Q x y) (hp : ∀ rd, P' rd → P rd) (hq : ∀ rd, Q rd → Q' rd) : Rel P' Q' x y :=
  fun rd hrd => ⟨(h rd (hp rd hrd)).1, fun a rd' ha => hq _ ((h rd (hp rd hrd)).2 a rd' ha)⟩

theorem Rel.get {f g : Rd → D α} (h : ∀ rd, P rd → Rel (fun x => x = rd) Q (f rd) (g rd)) : Rel P Q (M.get >>= f) (M.get >>= g) := by
  intro rd hrd
  simpa only [bind_get] using h rd hrd rd rfl

theorem attempt_snd (x : D α) (rd : Rd) : (M.attempt x rd).2 = (x rd).2 := by
  simp only [M.attempt]
  cases x rd with
  | mk r rd' => cases r <;> rfl

theorem Steady.attempt {x : D α} (h : ∀ rd, Q rd → Q (x rd).2) : ∀ rd, Q rd → Q (M.attempt x rd).2 := by
  intro rd hrd
  rw [attempt_snd]
  exact h rd hrd

theorem Steady.bind {x : D α} {f : α → D β} (h : ∀ rd, P rd → Q (x rd).2) (hf : ∀ a rd, Q rd → Q (f a rd).2) :
    ∀ rd, P rd → Q ((x >>= f) rd).2 := by
  intro rd hrd
  have := h rd hrd
  cases hy : x rd with
  | mk r rd' =>
    rw [hy] at this
    cases r with
    | ok a => rw [bind_ok hy]; exact hf a rd' this
    | err e => rw [bind_err hy]; exact this
    | panic e => rw [bind_panic hy]; exact this
    | diverge => rw [bind_diverge hy]; exact this

variable (hQ : Steady Q)
include hQ

theorem Steady.skipLoop (n depth : Nat) : ∀ acc rd, Q rd → Q (Yaserde.skipLoop n depth acc rd).2 := by
  induction n with
  | zero => intro acc rd h; exact h
  | succ n ih =>
    intro acc rd h
    unfold Yaserde.skipLoop
    split
    · exact Steady.bind hQ.next (fun e => ih _) rd h
    · exact h

theorem Steady.expectEnd (name : Name) : ∀ rd, Q rd → Q (expectEndElement name rd).2 := by
  unfold expectEndElement
  refine Steady.bind hQ.next fun e rd h => ?_
  split
  · split <;> exact h
  · exact h

/-- `attempt (read_inner_value …)`, where taking an event leads to `Q`. -/
theorem Rel.attemptInner {f : D α} (hn : ∀ rd, P rd → Q (nextEvent rd).2) (hf : ∀ rd, Q rd → Q (f rd).2) :
    Rel P Q (M.attempt (readInnerValue f)) (M.attempt (readInnerValue f)) := by
  refine .same fun rd hrd => ?_
  rw [attempt_snd]
  unfold readInnerValue
  refine Steady.bind (x := M.attempt nextEvent) (fun rd h => by rw [attempt_snd]; exact hn rd h) (fun r => ?_) rd hrd
  split
  · exact Steady.bind hf fun _ => Steady.bind (Steady.expectEnd hQ _) fun _ _ h => h
  · exact fun _ h => h

theorem Steady.simpleInner (L : Lib) (f : FieldDef) (t : STy) : ∀ rd, Q rd → Q (Yaserde.simpleInner L f t rd).2 := by
  unfold Yaserde.simpleInner
  refine Steady.bind (Steady.attempt hQ.peek) fun r => ?_
  split
  · refine Steady.bind hQ.next fun _ => ?_
    cases visitS L t _ <;> exact fun _ h => h
  · exact fun _ h => h

theorem Rel.peek : Rel Q Q Yaserde.peek Yaserde.peek := .same hQ.peek
theorem Rel.apeek : Rel Q Q (M.attempt Yaserde.peek) (M.attempt Yaserde.peek) := .same (Steady.attempt hQ.peek)
theorem Rel.next : Rel Q Q nextEvent nextEvent := .same hQ.next
theorem Rel.anext : Rel Q Q (M.attempt nextEvent) (M.attempt nextEvent) := .same (Steady.attempt hQ.next)

end

/-! ### The generated code -/

/-- For the fields of types that are not scalar: attributes, flattened fields. -/
def StrSame (L : Lib) (rec rec' : Path → D Val) (d : StructDef) : Prop :=
  ∀ f ∈ d.fields, (f.attrs.isAttr = true ∨ f.attrs.flatten = true) → ∀ q, f.ty.core = .struct q → ∀ s, fromStr L rec q s = fromStr L rec' q s

section
variable {L : Lib} {rec rec' : Path → D Val}

theorem loadAttrs_rel (as : List Attr) (fs : List FieldDef)
    (hs : ∀ f ∈ fs, f.attrs.isAttr = true → ∀ q, f.ty.core = .struct q → ∀ s, fromStr L rec q s = fromStr L rec' q s) :
    ∀ ss, loadAttrs L rec fs as ss = loadAttrs L rec' fs as ss := by
  induction fs with
  | nil => intro ss; rfl
  | cons f fs ih =>
    intro ss
    cases ss with
    | nil => rfl
    | cons s ss =>
      have ih' := ih fun g hg => hs g (List.mem_cons_of_mem _ hg)
      have : (if f.attrs.isAttr then loadAttrField L rec f as s else .ok s) =
          if f.attrs.isAttr then loadAttrField L rec' f as s else .ok s := by
        split
        · rename_i ha
          have h : ∀ v, visitAttr L rec f.ty.core v = visitAttr L rec' f.ty.core v := by
            intro v
            unfold visitAttr
            split
            · rfl
            · rename_i q hq
              exact hs f (List.mem_cons_self ..) ha q hq _
            · rfl
          unfold loadAttrField
          congr 1
          funext slot a
          split
          · cases ht : f.ty with
            | vec t =>
              rw [ht] at h
              dsimp only
              congr 1
              funext slot w
              rw [show visitAttr L rec t w = visitAttr L rec' t w from h w]
            | simple t => rw [ht] at h; dsimp only; rw [h]
            | struct t => rw [ht] at h; dsimp only; rw [h]
            | opt t => rw [ht] at h; dsimp only; rw [h]
          · rfl
        · rfl
      simp only [loadAttrs, this, ih']

theorem flattenFields_rel (unused : Str) (fs : List FieldDef)
    (hs : ∀ f ∈ fs, f.attrs.flatten = true → ∀ q, f.ty.core = .struct q → ∀ s, fromStr L rec q s = fromStr L rec' q s) :
    ∀ ss, flattenFields L rec unused fs ss = flattenFields L rec' unused fs ss := by
  induction fs with
  | nil => intro ss; rfl
  | cons f fs ih =>
    intro ss
    cases ss with
    | nil => rfl
    | cons s ss =>
      have ih' := ih fun g hg => hs g (List.mem_cons_of_mem _ hg)
      have : flattenField L rec unused f s = flattenField L rec' unused f s := by
        unfold flattenField
        split
        · rename_i hf
          have hf : f.attrs.flatten = true := by revert hf; cases f.attrs.isAttr <;> simp
          have := hs f (List.mem_cons_self ..) hf
          split
          · rename_i q hq
            rw [this q (by rw [hq]; rfl)]
          · rename_i q hq
            rw [this q (by rw [hq]; rfl)]
          · rfl
        · rfl
      simp only [flattenFields, this, ih']

variable {P Q : Rd → Prop} (hQ : Steady Q)
include hQ

/-- The arm for a start tag.  In it an event is taken before anything else is done, or (`depth` not 0) `P` is as good as `Q`. -/
theorem structStart_rel (fuel : Nat) (d : StructDef) (hn : ∀ rd, P rd → Q (nextEvent rd).2) (st : LoopSt)
    (h0 : st.depth ≠ 0 → ∀ rd, P rd → Q rd)
    (hrec : ∀ f ∈ d.fields, f.attrs.isAttr = false → f.attrs.flatten = false → ∀ q, f.ty.core = .struct q → Rel Q Q (rec q) (rec' q))
    (hs : StrSame L rec rec' d) (name : Name) (as : List Attr) :
    Rel P Q (structStart L rec fuel d st name as) (structStart L rec' fuel d st name as) := by
  have hnx : Rel P Q nextEvent nextEvent := .same hn
  unfold structStart
  refine .bind (Q := Q) ?_ fun st' => .bind (Q := Q) (.ite (fun _ => ?_) fun _ => .pure _) fun _ => .pure _
  · refine .ite (fun _ => .bind hnx fun _ => .bind (.lift rfl) fun _ => .pure _) fun _ => ?_
    cases hfa : findArm d.attrs (name.ns.getD []) name.loc d.fields with
    | none =>
      refine .bind hnx fun _ => .bind (.lift rfl) fun _ => .ite (fun _ => ?_) fun _ => .pure _
      exact .bind (.same fun rd h => Steady.skipLoop hQ fuel rd.depth [] rd h) fun _ => .bind (.lift rfl) fun _ => .pure _
    | some i =>
      have hlt := findArm_lt hfa
      dsimp only
      rw [List.getElem?_eq_getElem hlt]
      dsimp only
      have harm : d.fields[i].attrs.isAttr = false ∧ d.fields[i].attrs.flatten = false := by
        have := List.findIdx?_eq_some_iff_getElem.mp hfa
        obtain ⟨_, h, _⟩ := this
        revert h
        cases d.fields[i].attrs.isAttr <;> cases d.fields[i].attrs.flatten <;> simp
      unfold callVisitor
      cases hty : d.fields[i].ty.core with
      | struct q =>
        dsimp only
        unfold callStruct
        refine .bind (Q := Q) ?_ fun _ => .bind (.apeek hQ) fun r => ?_
        · by_cases hd : st.depth = 0
          · rw [if_pos hd]
            exact .bind (.same fun rd h => by rw [attempt_snd]; exact hn rd h) fun _ => .pure _
          · rw [if_neg hd]
            exact (Rel.pure _).weaken (h0 hd) fun _ h => h
        · split
          · exact .bind (hrec _ (List.getElem_mem hlt) harm.1 harm.2 q hty) fun _ => .bind (.next hQ) fun _ => .pure _
          · exact .pure _
      | simple t =>
        dsimp only
        unfold callSimple
        refine .bind (.ofExcept _) fun _ => .bind (.attemptInner hQ hn (Steady.simpleInner hQ L _ t)) fun r => ?_
        split <;> exact .pure _
      | opt t => exact .panic _
      | vec t => exact .panic _
  · exact .bind (.lift (loadAttrs_rel as d.fields (fun f hf ha => hs f hf (.inl ha)) _)) fun _ => .pure _

/-- The iterations of the loop. -/
theorem structStep_rel (fuel : Nat) (d : StructDef)
    (hrec : ∀ f ∈ d.fields, f.attrs.isAttr = false → f.attrs.flatten = false → ∀ q, f.ty.core = .struct q → Rel Q Q (rec q) (rec' q))
    (hs : StrSame L rec rec' d) (named : Str) (sd : Nat) (st : LoopSt) :
    Rel Q Q (structStep L rec fuel d named sd st) (structStep L rec' fuel d named sd st) := by
  unfold structStep
  refine .bind (.peek hQ) fun e => ?_
  split
  · exact .bind (structStart_rel hQ fuel d hQ.next st (fun _ _ h => h) hrec hs _ _) fun _ => .pure _
  · refine .get fun rd hrd => .ite (fun _ => ?_) fun _ => ?_
    · exact (Rel.bind (P := Q) (.lift rfl) fun _ => .pure _).weaken (fun _ h => h ▸ hrd) fun _ h => h
    · exact (Rel.bind (P := Q) (.next hQ) fun _ => .bind (.lift rfl) fun _ => .pure _).weaken (fun _ h => h ▸ hrd) fun _ h => h
  · exact .ite (fun _ => .pure _) fun _ => .pure _
  · exact .bind (.next hQ) fun _ => .bind (.lift rfl) fun _ => .pure _
  · exact .throw _

theorem structLoop_rel (fuel : Nat) (d : StructDef)
    (hrec : ∀ f ∈ d.fields, f.attrs.isAttr = false → f.attrs.flatten = false → ∀ q, f.ty.core = .struct q → Rel Q Q (rec q) (rec' q))
    (hs : StrSame L rec rec' d) (named : Str) (sd n : Nat) :
    ∀ st, Rel Q Q (structLoop L rec fuel d named sd n st) (structLoop L rec' fuel d named sd n st) := by
  induction n with
  | zero => intro st; exact .diverge
  | succ n ih =>
    intro st
    unfold structLoop
    exact .bind (structStep_rel hQ fuel d hrec hs named sd st) fun r => .ite (fun _ => ih _) fun _ => .pure _

/-- Around the loop. -/
theorem structDeser_rel (fuel : Nat) (d : StructDef) (hs : StrSame L rec rec' d)
    (hloop : ∀ named sd st, st.depth = 0 → Rel Q Q (structLoop L rec fuel d named sd fuel st) (structLoop L rec' fuel d named sd fuel st)) :
    Rel Q Q (structDeser L rec fuel d) (structDeser L rec' fuel d) := by
  unfold structDeser structBody
  refine .bind (.peek hQ) fun e => .get fun rd hrd => ?_
  refine Rel.weaken (P := Q) (Q := Q) ?_ (fun _ h => h ▸ hrd) fun _ h => h
  refine .bind (.ite (fun _ => .ofExcept _) fun _ => .pure _) fun _ => .bind (hloop _ _ _ rfl) fun st =>
    .bind ?_ fun _ => .bind (.lift rfl) fun _ => .pure _
  cases d.hasFlat with
  | false => exact .pure _
  | true =>
    cases st.writer with
    | none => exact .pure _
    | some w => exact .lift (flattenFields_rel _ _ (fun f hf ha => hs f hf (.inr ha)) _)

theorem enumDeser_rel (fuel : Nat) (d : EnumDef)
    (hrec : ∀ v ∈ d.variants, ∀ t, v.shape = .newtype t → ∀ q, t.core = .struct q → Rel Q Q (rec q) (rec' q)) :
    Rel Q Q (enumDeser L rec fuel d) (enumDeser L rec' fuel d) := by
  have harm : ∀ i v cur, v ∈ d.variants → Rel Q Q (variantArm L rec i v cur) (variantArm L rec' i v cur) := by
    intro i v cur hv
    unfold variantArm
    split
    · exact .pure _
    · exact .pure _
    · rename_i t ht
      split
      · rename_i q hq
        exact .bind (hrec v hv t ht q hq) fun _ => .bind (.ofExcept _) fun _ => .bind (.anext hQ) fun _ => .pure _
      · rename_i s _
        have hu : ∀ x, ∀ rd, Q rd → Q (visitUnwrap L s x rd).2 := by
          intro x; unfold visitUnwrap; cases parseS L s x <;> exact fun _ h => h
        have hin : ∀ rd, Q rd → Q (variantInner L s rd).2 := by
          unfold variantInner
          refine Steady.bind hQ.peek fun e => ?_
          split
          · exact hu _
          · refine Steady.bind (Steady.attempt hQ.next) fun r => ?_
            split
            · exact hu _
            · exact fun _ h => h
        refine .bind (.attemptInner hQ hQ.next hin) fun r => ?_
        split
        · exact .bind (.ofExcept _) fun _ => .pure _
        · exact .pure _
      · exact .panic _
  have hmatch : ∀ key cur (x : D (Option Val × Bool)), Rel Q Q x x → Rel Q Q (enumMatch L rec d key cur x) (enumMatch L rec' d key cur x) := by
    intro key cur x hx
    unfold enumMatch
    split
    · split
      · rename_i v hv
        exact harm _ _ _ (List.mem_of_getElem? hv)
      · exact hx
    · exact hx
  have hstep : ∀ named sd cur, Rel Q Q (enumStep L rec d named sd cur) (enumStep L rec' d named sd cur) := by
    intro named sd cur
    unfold enumStep
    refine .bind (.peek hQ) fun e => ?_
    split
    · refine .bind (.ofExcept _) fun key => .bind (hmatch _ _ _ (.bind (.anext hQ) fun _ => .pure _)) fun r => ?_
      refine .ite (fun _ => .bind (.peek hQ) fun e' => ?_) fun _ => .pure _
      split
      · exact hmatch _ _ _ (.pure _)
      · exact .pure _
    · refine .get fun rd hrd => ?_
      exact (Rel.ite (P := Q) (fun _ => .pure _) fun _ => .bind (.anext hQ) fun _ => .pure _).weaken (fun _ h => h ▸ hrd) fun _ h => h
    · exact .bind (.anext hQ) fun _ => .pure _
    · exact .ite (fun _ => .pure _) fun _ => .throw _
    · exact .throw _
  have hloop : ∀ named sd n cur, Rel Q Q (enumLoop L rec d named sd n cur) (enumLoop L rec' d named sd n cur) := by
    intro named sd n
    induction n with
    | zero => intro cur; exact .diverge
    | succ n ih =>
      intro cur
      unfold enumLoop
      exact .bind (hstep _ _ _) fun r => .ite (fun _ => ih _) fun _ => .pure _
  unfold enumDeser
  refine .bind (.peek hQ) fun e => .get fun rd hrd => ?_
  unfold enumBody
  exact (Rel.bind (P := Q) (.ofExcept _) fun _ => .bind (hloop _ _ _ _) fun _ => .pure _).weaken (fun _ h => h ▸ hrd) fun _ h => h

omit rec rec' in
theorem primDeser_rel (d : PrimDef) : Rel Q Q (primDeser d) (primDeser d) := by
  unfold primDeser
  refine .bind (.apeek hQ) fun r => ?_
  split
  · refine .bind (.next hQ) fun _ => .bind (.apeek hQ) fun r => ?_
    split
    · exact .ofExcept _
    · exact .ofExcept _
  · exact .throw _

end

/-! ### The knot, with any end of the recursion -/

/-- `deserF` with `base` in the place of the overflow. -/
def deserB (L : Lib) (env : Env) (fuel : Nat) (base : D Val) : Nat → Path → D Val
  | 0, _ => base
  | k + 1, p =>
    match env p with
    | some (.struct d) => structDeser L (deserB L env fuel base k) fuel d
    | some (.enum d) => enumDeser L (deserB L env fuel base k) fuel d
    | some (.prim d) => primDeser d
    | none => M.panic c!"no such type"

theorem deserF_eq (L : Lib) (env : Env) (fuel k : Nat) : deserF L env fuel k = deserB L env fuel (M.panic c!"stack overflow") k := by
  induction k with
  | zero => rfl
  | succ k ih => funext p; unfold deserF deserB; rw [ih]; rfl

/-- The step budget of `deser` bounds both. -/
theorem deser_eq (L : Lib) (env : Env) {n k fuel : Nat} (hk : n ≤ k) (hf : n ≤ fuel) (base : D Val) :
    ∀ p, Le (deser L env n p) (deserB L env fuel base k p) := by
  induction n generalizing k with
  | zero => intro p; exact .diverge _
  | succ n ih =>
    intro p
    obtain ⟨k, rfl⟩ : ∃ j, k = j + 1 := ⟨k - 1, by omega⟩
    have hrec := ih (k := k) (by omega) (by omega)
    have hnf : n ≤ fuel := by omega
    unfold deser deserB
    cases env p with
    | none => exact .refl _
    | some t =>
      cases t with
      | struct d => exact .structDeser hrec hnf d
      | enum d => exact .enumDeser hrec hnf d
      | prim d => exact .refl _

theorem deserB_le (L : Lib) (env : Env) (k fuel : Nat) : ∀ p, Le (deserB L env fuel M.diverge k p) (deser L env (k + fuel) p) := by
  induction k with
  | zero => intro p; exact .diverge _
  | succ k ih =>
    intro p
    rw [show k + 1 + fuel = (k + fuel) + 1 by omega]
    have hf : fuel ≤ k + fuel := by omega
    unfold deser deserB
    cases env p with
    | none => exact .refl _
    | some t =>
      cases t with
      | struct d => exact .structDeser ih hf d
      | enum d => exact .enumDeser ih hf d
      | prim d => exact .refl _

/-- The budget for the loops is no more than that. -/
theorem deserB_mono (L : Lib) (env : Env) {fuel fuel' : Nat} (h : fuel ≤ fuel') (base : D Val) (k : Nat) :
    ∀ p, Le (deserB L env fuel base k p) (deserB L env fuel' base k p) := by
  induction k with
  | zero => intro p; exact .refl _
  | succ k ih =>
    intro p
    unfold deserB
    cases env p with
    | none => exact .refl _
    | some t =>
      cases t with
      | struct d => exact .structDeser ih h d
      | enum d => exact .enumDeser ih h d
      | prim d => exact .refl _

/-- Frames are enough if more frames, or another end of the recursion, make no difference. -/
theorem suffice {L : Lib} {env : Env} {k : Nat} {p : Path} {s : Str}
    (h : ∀ fuel b b' k', k ≤ k' → (deserB L env fuel b k p (Rd.new (L.parse s))).1 = (deserB L env fuel b' k' p (Rd.new (L.parse s))).1) :
    FramesSuffice L env k p s := by
  intro r hr
  unfold fromStrF deFromStr fromStr
  constructor
  · rintro ⟨fuel, h1⟩
    rw [deserF_eq, h fuel _ M.diverge k (Nat.le_refl _)] at h1
    refine ⟨k + fuel, ?_⟩
    rw [(deserB_le L env k fuel p).imp _ (by rw [h1]; exact hr), h1]
  · rintro ⟨n, h1⟩
    refine ⟨n, ?_⟩
    rw [deserF_eq, h n _ M.diverge (max n k) (Nat.le_max_right ..),
      (deser_eq L env (Nat.le_max_left n k) (Nat.le_refl n) M.diverge p).imp _ (by rw [h1]; exact hr), h1]

theorem Steady.all : Steady fun _ => True := ⟨fun _ _ => trivial, fun _ _ => trivial⟩

/-- Types that do not contain themselves. -/
theorem deserB_acyclic (L : Lib) {env : Env} {rank : Path → Nat} (he : Acyclic env rank) (fuel : Nat) (b b' : D Val) (m : Nat) :
    ∀ p k k', rank p = m → m < k → m < k' → deserB L env fuel b k p = deserB L env fuel b' k' p := by
  induction m using Nat.strongRecOn with
  | ind m ih =>
    intro p k k' hr hk hk'
    obtain ⟨k, rfl⟩ : ∃ j, k = j + 1 := ⟨k - 1, by omega⟩
    obtain ⟨k', rfl⟩ : ∃ j, k' = j + 1 := ⟨k' - 1, by omega⟩
    unfold deserB
    cases hp : env p with
    | none => rfl
    | some t =>
      have hq : ∀ q, t.Mentions q → deserB L env fuel b k q = deserB L env fuel b' k' q := by
        intro q hq
        have := he p t hp q hq
        exact ih (rank q) (by omega) q k k' rfl (by omega) (by omega)
      have hrel : ∀ q, t.Mentions q → Rel (fun _ => True) (fun _ => True) (deserB L env fuel b k q) (deserB L env fuel b' k' q) := by
        intro q h rd _
        rw [hq q h]
        exact ⟨rfl, fun _ _ _ => trivial⟩
      cases t with
      | struct d =>
        have hs : StrSame L (deserB L env fuel b k) (deserB L env fuel b' k') d := by
          intro f hf _ q hc s
          unfold fromStr
          rw [hq q ⟨f, hf, hc⟩]
        funext rd
        exact (structDeser_rel Steady.all fuel d hs (fun named sd st _ => structLoop_rel Steady.all fuel d
          (fun f hf _ _ q hc => hrel q ⟨f, hf, hc⟩) hs named sd fuel st) rd trivial).1
      | enum d =>
        funext rd
        exact (enumDeser_rel Steady.all fuel d (fun v hv t ht q hc => hrel q ⟨v, hv, t, ht, hc⟩) rd trivial).1
      | prim d => rfl

/-! ### By the number of events -/

/-- At most `m` events are left. -/
def Left (m : Nat) (rd : Rd) : Prop := rd.mu ≤ m

theorem peek_mu (rd : Rd) : (peek rd).2.mu = rd.mu := by
  have h := at_self rd
  cases hv : rd.visible with
  | cons e es =>
    rw [hv] at h
    obtain ⟨rd', h1, h2⟩ := peek_at h
    rw [h1]
    simp [Rd.mu, h2.vis, hv]
  | nil =>
    rw [hv] at h
    rcases peek_at_nil h with ⟨-, rd', h1, h2⟩ | ⟨m, rd', -, h1, h2⟩ <;> rw [h1] <;> simp [Rd.mu, h2.vis, hv]

theorem trackDepth_vis (e : REv) (rd : Rd) : (trackDepth e rd).2.visible = rd.visible := by
  unfold trackDepth
  split
  · rfl
  · split <;> rfl
  · rfl

theorem next_mu {rd : Rd} {e : REv} {es : List REv} (hv : rd.visible = e :: es) (he : e ≠ .endDocument) : (nextEvent rd).2.mu + 1 = rd.mu := by
  have h := at_self rd
  rw [hv] at h
  obtain ⟨rd', h1, h2⟩ := nextEvent_at h
  rw [h1, EndLast.mu_cons e es hv he]
  unfold Rd.mu
  rw [trackDepth_vis, h2.vis]

theorem next_mu_le (rd : Rd) : (nextEvent rd).2.mu ≤ rd.mu := by
  have h := at_self rd
  cases hv : rd.visible with
  | cons e es =>
    rw [hv] at h
    obtain ⟨rd', h1, h2⟩ := nextEvent_at h
    rw [h1]
    unfold Rd.mu
    rw [trackDepth_vis, h2.vis, hv]
    exact (List.sublist_cons_self ..).countP_le
  | nil =>
    rw [hv] at h
    obtain ⟨rd', h1, h2⟩ := next_at_nil h
    rw [h1]
    simp [Rd.mu, h2.vis]

theorem Steady.left (m : Nat) : Steady (Left m) :=
  ⟨fun rd h => by unfold Left; rw [peek_mu]; exact h, fun rd h => Nat.le_trans (next_mu_le rd) h⟩

/-- The loop of a struct, before the first tag: the functions it calls are called after an event has been taken. -/
theorem structLoop_left {L : Lib} {rec rec' : Path → D Val} (fuel : Nat) (d : StructDef) {m : Nat}
    (hrec : ∀ m' < m, ∀ q, Rel (Left m') (Left m') (rec q) (rec' q)) (hs : StrSame L rec rec' d) (named : Str) (sd n : Nat) :
    ∀ st, st.depth = 0 → Rel (Left m) (Left m) (structLoop L rec fuel d named sd n st) (structLoop L rec' fuel d named sd n st) := by
  induction n with
  | zero => intro st _; exact .diverge
  | succ n ih =>
    intro st h0 rd hrd
    cases hp : peek rd with
    | mk r rd1 =>
      have hmu := peek_mu rd
      rw [hp] at hmu
      dsimp only at hmu
      unfold structLoop
      cases r with
      | err e =>
        unfold structStep
        rw [bind_err (bind_err hp), bind_err (bind_err hp)]
        exact ⟨rfl, fun _ _ h => by cases h⟩
      | panic e =>
        unfold structStep
        rw [bind_panic (bind_panic hp), bind_panic (bind_panic hp)]
        exact ⟨rfl, fun _ _ h => by cases h⟩
      | diverge =>
        unfold structStep
        rw [bind_diverge (bind_diverge hp), bind_diverge (bind_diverge hp)]
        exact ⟨rfl, fun _ _ h => by cases h⟩
      | ok e =>
        have hfront : ∃ es, rd1.visible = e :: es := by
          have h := at_self rd
          cases hv : rd.visible with
          | cons e' es =>
            rw [hv] at h
            obtain ⟨rd', h1, h2⟩ := peek_at h
            rw [hp] at h1
            cases h1
            exact ⟨es, h2.vis⟩
          | nil =>
            rw [hv] at h
            rcases peek_at_nil h with ⟨-, rd', h1, h2⟩ | ⟨m', rd', -, h1, h2⟩ <;> rw [hp] at h1 <;> cases h1
            exact ⟨[], h2.vis⟩
        obtain ⟨es, hv⟩ := hfront
        have hrd1 : rd1.mu ≤ m := by rw [hmu]; exact hrd
        have taken : e ≠ .endDocument → (nextEvent rd1).2.mu ≤ m - 1 ∧ 1 ≤ m := by
          intro he
          have := next_mu hv he
          omega
        have hb : ∀ (f : REv → D (LoopSt × Bool)) (g : LoopSt × Bool → D LoopSt), ((peek >>= f) >>= g) rd = (f e >>= g) rd1 := by
          intro f g
          cases hf : f e rd1 with
          | mk r rd2 =>
            have h2 := (bind_ok (f := f) hp).trans hf
            cases r with
            | ok a => rw [bind_ok h2, bind_ok hf]
            | err _ => rw [bind_err h2, bind_err hf]
            | panic _ => rw [bind_panic h2, bind_panic hf]
            | diverge => rw [bind_diverge h2, bind_diverge hf]
        -- after the step
        have later : ∀ x y : D (LoopSt × Bool), x rd1 = y rd1 →
            (∀ a rd', y rd1 = (.ok a, rd') → (Left (m - 1) rd' ∧ 1 ≤ m) ∨ (Left m rd' ∧ (a.2 = false ∨ a.1.depth = 0))) →
            (x >>= fun r => if r.2 then structLoop L rec fuel d named sd n r.1 else M.pure r.1) rd1 =
            (y >>= fun r => if r.2 then structLoop L rec' fuel d named sd n r.1 else M.pure r.1) rd1 ∧
            ∀ a rd', (y >>= fun r => if r.2 then structLoop L rec' fuel d named sd n r.1 else M.pure r.1) rd1 = (.ok a, rd') →
              Left m rd' := by
          intro x y h1 h2
          cases hy : y rd1 with
          | mk r rd2 =>
            rw [hy] at h1
            cases r with
            | ok r =>
              rw [bind_ok h1, bind_ok hy]
              rcases h2 r rd2 hy with ⟨hl, hm⟩ | ⟨hl, hr⟩
              · have := Rel.ite (c := r.2 = true) (fun _ => structLoop_rel (Steady.left (m - 1)) fuel d
                  (fun f _ _ _ q _ => hrec (m - 1) (by omega) q) hs named sd n r.1) (fun _ => Rel.pure r.1) rd2 hl
                exact ⟨this.1, fun a rd' ha => Nat.le_trans (this.2 a rd' ha) (by omega)⟩
              · exact Rel.ite (c := r.2 = true) (P := Left m) (Q := Left m) (fun hc => ih r.1 (by
                  rcases hr with h | h
                  · rw [h] at hc; cases hc
                  · exact h)) (fun _ => Rel.pure r.1) rd2 hl
            | err e => rw [bind_err h1, bind_err hy]; exact ⟨rfl, fun _ _ h => by cases h⟩
            | panic e => rw [bind_panic h1, bind_panic hy]; exact ⟨rfl, fun _ _ h => by cases h⟩
            | diverge => rw [bind_diverge h1, bind_diverge hy]; exact ⟨rfl, fun _ _ h => by cases h⟩
        -- an event that is taken
        have take : ∀ (hne : e ≠ .endDocument) (f : REv → D (LoopSt × Bool)), (∀ e' rd, (f e' rd).2 = rd) →
            ∀ a rd', (nextEvent >>= f) rd1 = (.ok a, rd') → (Left (m - 1) rd' ∧ 1 ≤ m) ∨ (Left m rd' ∧ (a.2 = false ∨ a.1.depth = 0)) := by
          intro hne f hf a rd' ha
          have := Steady.bind (P := fun x => x = rd1) (Q := Left (m - 1)) (x := nextEvent) (f := f) (fun _ h => h ▸ (taken hne).1)
            (fun a rd h => by rw [hf]; exact h) rd1 rfl
          rw [ha] at this
          exact .inl ⟨this, (taken hne).2⟩
        have still : ∀ (r : Res (Option EW)) (g : Option EW → LoopSt × Bool) (rd : Rd), ((M.lift r >>= fun w => M.pure (g w) : D (LoopSt × Bool)) rd).2 = rd := by
          intro r g rd; cases r <;> rfl
        unfold structStep
        rw [hb, hb]
        cases e with
        | start n as ns =>
          have hst := structStart_rel (P := fun x => x = rd1) (Steady.left (m - 1)) fuel d (fun _ h => h ▸ (taken (by simp)).1) st
            (fun h => (h h0).elim) (fun f _ _ _ q _ => hrec (m - 1) (by have := (taken (by simp)).2; omega) q) hs n as
          have := Rel.bind hst (fun st' => Rel.pure (st', true)) rd1 rfl
          exact later _ _ this.1 fun a rd' ha => .inl ⟨this.2 a rd' ha, (taken (by simp)).2⟩
        | endE n =>
          refine later _ _ rfl fun a rd' ha => ?_
          dsimp only at ha
          rw [bind_get] at ha
          split at ha
          · have := still (writeUnused d.hasFlat (.endE n) st.writer) (fun w => ({ st with writer := w }, false)) rd1
            rw [ha] at this
            dsimp only at this
            rw [this]
            refine .inr ⟨hrd1, .inl ?_⟩
            revert ha
            cases writeUnused d.hasFlat (.endE n) st.writer <;> intro ha <;> cases ha
            rfl
          · exact take (by simp) _ (fun e' rd => still _ (fun w => ({ st with writer := w, depth := st.depth - 1 }, true)) rd) a rd' ha
        | endDocument =>
          refine later _ _ rfl fun a rd' ha => ?_
          dsimp only at ha
          split at ha <;> cases ha
          · exact .inr ⟨hrd1, .inl rfl⟩
          · exact .inr ⟨hrd1, .inr h0⟩
        | chars t =>
          exact later _ _ rfl (take (by simp) _ fun e' rd =>
            still _ (fun w => ({ st with writer := w, slots := setText d.fields t st.slots }, true)) rd)
        | startDocument => exact later _ _ rfl fun _ _ h => by cases h
        | pi a b => exact later _ _ rfl fun _ _ h => by cases h
        | comment a => exact later _ _ rfl fun _ _ h => by cases h
        | cdata a => exact later _ _ rfl fun _ _ h => by cases h
        | ws a => exact later _ _ rfl fun _ _ h => by cases h

/-- Types without flattened fields and with scalar attributes, enums not containing themselves. -/
theorem deserB_ranked (L : Lib) {env : Env} {rank : Path → Nat} {bound : Nat} (he : Ranked env rank bound) (fuel : Nat) (b b' : D Val) (m : Nat) :
    ∀ (r : Nat) (p : Path) (k k' : Nat), rank p = r → m * (bound + 1) + r < k → m * (bound + 1) + r < k' →
      Rel (Left m) (Left m) (deserB L env fuel b k p) (deserB L env fuel b' k' p) := by
  induction m using Nat.strongRecOn with
  | ind m ih =>
    intro r
    induction r using Nat.strongRecOn with
    | ind r ihr =>
      intro p k k' hr hk hk'
      obtain ⟨k, rfl⟩ : ∃ j, k = j + 1 := ⟨k - 1, by omega⟩
      obtain ⟨k', rfl⟩ : ∃ j, k' = j + 1 := ⟨k' - 1, by omega⟩
      unfold deserB
      cases hp : env p with
      | none => exact .panic _
      | some t =>
        cases t with
        | struct d =>
          have hs : StrSame L (deserB L env fuel b k) (deserB L env fuel b' k') d := by
            intro f hf ha q hc
            exfalso
            rcases Bool.eq_false_or_eq_true f.attrs.isAttr with h | h
            · obtain ⟨t, ht⟩ := he.attrs p d hp f hf h
              rw [ht] at hc; cases hc
            · rcases ha with h' | h'
              · rw [h] at h'; cases h'
              · exact he.noFlat p d hp ⟨f, hf, h, h'⟩
          refine structDeser_rel (Steady.left m) fuel d hs fun named sd st h0 => structLoop_left fuel d (fun m' hm' q => ?_) hs named sd fuel st h0
          have hb := he.bounded q
          have : (m' + 1) * (bound + 1) ≤ m * (bound + 1) := Nat.mul_le_mul_right _ hm'
          rw [Nat.add_mul] at this
          exact ih m' hm' (rank q) q k k' rfl (by omega) (by omega)
        | enum d =>
          refine enumDeser_rel (Steady.left m) fuel d fun v hv t ht q hc => ?_
          have := he.payload p d hp v hv t q ht hc
          exact ihr (rank q) (by omega) q k k' rfl (by omega) (by omega)
        | prim d => exact primDeser_rel (Steady.left m) d

end Yaserde
