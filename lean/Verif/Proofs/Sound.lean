import Verif.Spec.Sound
import Verif.Model.DeEnum
import Verif.Proofs.Scalars
import Verif.Proofs.Runtime
/-
Lemmas: what the generated deserializers return has the type of what is deserialized.
-/

set_option autoImplicit false

namespace Yaserde

/-- Every value a computation returns satisfies `Q`. -/
def Yields {α : Type} (x : D α) (Q : α → Prop) : Prop := ∀ rd a rd', x rd = (.ok a, rd') → Q a

/-- … for computations without state. -/
def Res.Yields {α : Type} (x : Res α) (Q : α → Prop) : Prop := ∀ a, x = .ok a → Q a

section
variable {α β : Type} {Q : α → Prop} {R : β → Prop}

theorem Yields.mono {x : D α} {Q' : α → Prop} (h : Yields x Q) (hq : ∀ a, Q a → Q' a) : Yields x Q' :=
  fun rd a rd' e => hq a (h rd a rd' e)

theorem Yields.true (x : D α) : Yields x fun _ => True := fun _ _ _ _ => trivial

theorem Yields.bind {x : D α} {f : α → D β} (h : Yields x Q) (hf : ∀ a, Q a → Yields (f a) R) :
    Yields (x >>= f) R := by
  intro rd b rd' e
  obtain ⟨a, s1, h1, h2⟩ := bind_ok_inv e
  exact hf a (h rd a s1 h1) s1 b rd' h2

theorem Yields.skip {x : D α} {f : α → D β} (hf : ∀ a, Yields (f a) R) : Yields (x >>= f) R :=
  Yields.bind (Yields.true x) fun a _ => hf a

theorem Yields.pure {a : α} (h : Q a) : Yields (M.pure a) Q := by
  intro rd b rd' e
  simp only [M.pure, Prod.mk.injEq, Res.ok.injEq] at e
  exact e.1 ▸ h

theorem Yields.throw (m : Str) : Yields (M.throw m) Q := by
  intro rd b rd' e
  simp [M.throw] at e

theorem Yields.panic (m : Str) : Yields (M.panic m) Q := by
  intro rd b rd' e
  simp [M.panic] at e

theorem Yields.diverge : Yields (M.diverge : D α) Q := by
  intro rd b rd' e
  simp [M.diverge] at e

theorem Yields.lift {x : Res α} (h : x.Yields Q) : Yields (M.lift x) Q := by
  intro rd b rd' e
  simp only [M.lift, Prod.mk.injEq] at e
  exact h b e.1

theorem Yields.ofExcept {x : Except Str α} (h : ∀ a, x = .ok a → Q a) : Yields (M.ofExcept x) Q := by
  intro rd b rd' e
  cases x with
  | ok a =>
    simp only [M.ofExcept, Prod.mk.injEq, Res.ok.injEq] at e
    exact e.1 ▸ h a rfl
  | error m => simp [M.ofExcept] at e

theorem Yields.attempt {x : D α} (h : Yields x Q) : Yields (M.attempt x) fun r => ∀ a, r = .ok a → Q a := by
  intro rd b rd' e a hb
  subst hb
  unfold M.attempt at e
  cases hx : x rd with
  | mk r s1 =>
    rw [hx] at e
    cases r with
    | ok a' =>
      simp only [Prod.mk.injEq, Res.ok.injEq, Except.ok.injEq] at e
      exact e.1 ▸ h rd a' s1 hx
    | err m => simp at e
    | panic m => simp at e
    | diverge => simp at e

theorem Res.Yields.bind {x : Res α} {f : α → Res β} (h : x.Yields Q) (hf : ∀ a, Q a → (f a).Yields R) :
    (x.bind f).Yields R := by
  intro b e
  cases x with
  | ok a => exact hf a (h a rfl) b e
  | err m => simp [Res.bind] at e
  | panic m => simp [Res.bind] at e
  | diverge => simp [Res.bind] at e

theorem Res.Yields.ok {a : α} (h : Q a) : (Res.ok a).Yields Q := by
  intro b e
  simp only [Res.ok.injEq] at e
  exact e ▸ h

theorem Res.Yields.panic (m : Str) : (Res.panic m : Res α).Yields Q := by
  intro b e
  simp at e

end

theorem foldRes_yields {α β : Type} {Q : β → Prop} {f : β → α → Res β} (hf : ∀ b a, Q b → (f b a).Yields Q) :
    ∀ (as : List α) (b : β), Q b → (foldRes f b as).Yields Q := by
  intro as
  induction as with
  | nil => exact fun b hb => Res.Yields.ok hb
  | cons a as ih => exact fun b hb => Res.Yields.bind (hf b a hb) fun b' hb' => ih b' hb'

/-! ### Scalars -/

theorem parseS_typed (L : Lib) (env : Env) {t : STy} {s : Str} {v : Val} (h : parseS L t s = .ok v) :
    HasTy env (.simple t) v := by
  cases t with
  | string =>
    simp only [parseS, Except.ok.injEq] at h
    exact h ▸ .str s
  | bool =>
    simp only [parseS] at h
    cases hp : parseBool s with
    | error m => rw [hp] at h; simp [Except.map] at h
    | ok b => rw [hp] at h; simp only [Except.map, Except.ok.injEq] at h; exact h ▸ .bool b
  | int t =>
    simp only [parseS] at h
    cases hp : parseInt t s with
    | error m => rw [hp] at h; simp [Except.map] at h
    | ok z =>
      rw [hp] at h
      simp only [Except.map, Except.ok.injEq] at h
      obtain ⟨_, _, _, hf, _⟩ := (parseInt_iff t s z).mp hp
      exact h ▸ .int t z hf
  | f32 =>
    simp only [parseS] at h
    cases hp : L.parseF32 s with
    | error m => rw [hp] at h; simp [Except.map] at h
    | ok b => rw [hp] at h; simp only [Except.map, Except.ok.injEq] at h; exact h ▸ .f32 b
  | f64 =>
    simp only [parseS] at h
    cases hp : L.parseF64 s with
    | error m => rw [hp] at h; simp [Except.map] at h
    | ok b => rw [hp] at h; simp only [Except.map, Except.ok.injEq] at h; exact h ▸ .f64 b

theorem visitS_typed (L : Lib) (env : Env) {t : STy} {s : Str} {v : Val} (h : visitS L t s = .ok v) :
    HasTy env (.simple t) v := parseS_typed L env h

/-! ### Slots -/

/-- The slot holds values for a field of type `t`. -/
def SlotTy (env : Env) (t : FTy) : Slot → Prop
  | .one v => (∀ u, t ≠ .vec u) ∧ ∀ x, v = some x → HasTy env t.core x
  | .many vs => ∃ u, t = .vec u ∧ ∀ v ∈ vs, HasTy env u v

/-- The slots of a list of fields. -/
def SlotsTy (env : Env) : List FieldDef → List Slot → Prop
  | [], [] => True
  | f :: fs, s :: ss => SlotTy env f.ty s ∧ SlotsTy env fs ss
  | _, _ => False

theorem slotTy_init (env : Env) (t : FTy) : SlotTy env t (Slot.init t) := by
  cases t <;> simp [Slot.init, SlotTy]

theorem slotsTy_init (env : Env) (fs : List FieldDef) : SlotsTy env fs (fs.map fun f => Slot.init f.ty) := by
  induction fs with
  | nil => trivial
  | cons f fs ih => exact ⟨slotTy_init env f.ty, ih⟩

theorem slotTy_put {env : Env} {t : FTy} {s : Slot} {v : Val} (h : SlotTy env t s) (hv : HasTy env t.core v) :
    SlotTy env t (s.put v) := by
  cases s with
  | one o =>
    refine ⟨h.1, fun x hx => ?_⟩
    simp only [Option.some.injEq] at hx
    exact hx ▸ hv
  | many vs =>
    obtain ⟨u, rfl, hu⟩ := h
    refine ⟨u, rfl, fun w hw => ?_⟩
    rcases List.mem_append.mp hw with hw | hw
    · exact hu w hw
    · simp only [List.mem_singleton] at hw
      exact hw ▸ hv

theorem slotsTy_put {env : Env} {v : Val} : ∀ {fs : List FieldDef} {ss : List Slot} {i : Nat} {f : FieldDef},
    SlotsTy env fs ss → fs[i]? = some f → HasTy env f.ty.core v → SlotsTy env fs (ss.modify i (Slot.put v))
  | [], [], i, f, _, hi, _ => by simp at hi
  | g :: fs, s :: ss, 0, f, h, hi, hv => by
    simp only [List.getElem?_cons_zero, Option.some.injEq] at hi
    subst hi
    exact ⟨slotTy_put h.1 hv, h.2⟩
  | g :: fs, s :: ss, i + 1, f, h, hi, hv => by
    simp only [List.getElem?_cons_succ] at hi
    exact ⟨h.1, slotsTy_put h.2 hi hv⟩
  | [], _ :: _, _, _, h, _, _ => h.elim
  | _ :: _, [], _, _, h, _, _ => h.elim

theorem slotsTy_setText {env : Env} (t : Str) : ∀ {fs : List FieldDef} {ss : List Slot},
    SlotsTy env fs ss → SlotsTy env fs (setText fs t ss)
  | [], [], h => h
  | f :: fs, s :: ss, h => by
    refine ⟨?_, slotsTy_setText t h.2⟩
    split
    · split
      · rename_i hty
        rw [hty]
        exact ⟨by simp, by rintro x ⟨⟩; exact .str t⟩
      · rename_i hty
        rw [hty]
        split
        · exact ⟨by simp, by simp⟩
        · exact ⟨by simp, by rintro x ⟨⟩; exact .str t⟩
      · exact h.1
    · exact h.1
  | [], _ :: _, h => h.elim
  | _ :: _, [], h => h.elim

section
variable (L : Lib) (env : Env) {rec : Path → D Val} (hrec : ∀ p, Yields (rec p) (HasTy env (.struct p)))
include hrec

theorem fromStr_typed (p : Path) (s : Str) : (fromStr L rec p s).Yields (HasTy env (.struct p)) := by
  intro v e
  unfold fromStr at e
  exact hrec p (Rd.new (L.parse s)) v _ (Prod.ext e rfl)

theorem visitAttr_typed (t : FTy) (s : Str) : (visitAttr L rec t s).Yields (HasTy env t) := by
  unfold visitAttr
  split
  · split
    · rename_i x hx
      exact Res.Yields.ok (visitS_typed L env hx)
    · intro a e; simp at e
  · exact fromStr_typed L env hrec _ _
  · exact Res.Yields.panic _

theorem loadAttrField_typed (f : FieldDef) (attrs : List Attr) {s : Slot} (h : SlotTy env f.ty s) :
    (loadAttrField L rec f attrs s).Yields (SlotTy env f.ty) := by
  refine foldRes_yields (fun s a hs => ?_) attrs s h
  split
  · split
    · rename_i t hty
      refine foldRes_yields (fun s w hs => ?_) _ s hs
      refine Res.Yields.bind (visitAttr_typed L env hrec t w) fun v hv => Res.Yields.ok (slotTy_put hs ?_)
      rw [hty]
      exact hv
    · exact Res.Yields.bind (visitAttr_typed L env hrec _ _) fun v hv => Res.Yields.ok (slotTy_put hs hv)
  · exact Res.Yields.ok hs

theorem loadAttrs_typed (attrs : List Attr) : ∀ {fs : List FieldDef} {ss : List Slot}, SlotsTy env fs ss →
    (loadAttrs L rec fs attrs ss).Yields (SlotsTy env fs)
  | [], [], h => by
    simp only [loadAttrs]
    exact Res.Yields.ok h
  | f :: fs, s :: ss, h => by
    simp only [loadAttrs]
    refine Res.Yields.bind (Q := SlotTy env f.ty) ?_ fun s' hs' =>
      Res.Yields.bind (loadAttrs_typed attrs h.2) fun ss' hss' => Res.Yields.ok ⟨hs', hss'⟩
    split
    · exact loadAttrField_typed L env hrec f attrs h.1
    · exact Res.Yields.ok h.1
  | [], _ :: _, h => h.elim
  | _ :: _, [], h => h.elim

theorem flattenField_typed (unused : Str) (f : FieldDef) {s : Slot} (h : SlotTy env f.ty s) :
    (flattenField L rec unused f s).Yields (SlotTy env f.ty) := by
  unfold flattenField
  split
  · split
    · rename_i p hty
      rw [hty]
      refine Res.Yields.bind (fromStr_typed L env hrec p unused) fun v hv => Res.Yields.ok ⟨by simp, ?_⟩
      rintro x ⟨⟩
      exact hv
    · rename_i p hty
      rw [hty]
      split
      · rename_i v hv
        refine Res.Yields.ok ⟨by simp, ?_⟩
        rintro x ⟨⟩
        exact fromStr_typed L env hrec p unused _ hv
      · exact Res.Yields.ok ⟨by simp, by simp⟩
      · exact Res.Yields.panic _
      · intro a e; simp at e
    · exact Res.Yields.panic _
  · exact Res.Yields.ok h

theorem flattenFields_typed (unused : Str) : ∀ {fs : List FieldDef} {ss : List Slot}, SlotsTy env fs ss →
    (flattenFields L rec unused fs ss).Yields (SlotsTy env fs)
  | [], [], h => by
    simp only [flattenFields]
    exact Res.Yields.ok h
  | f :: fs, s :: ss, h => by
    simp only [flattenFields]
    exact Res.Yields.bind (flattenField_typed L env hrec unused f h.1) fun s' hs' =>
      Res.Yields.bind (flattenFields_typed unused h.2) fun ss' hss' => Res.Yields.ok ⟨hs', hss'⟩
  | [], _ :: _, h => h.elim
  | _ :: _, [], h => h.elim

omit hrec in
theorem buildField_typed (name : Str) (f : FieldDef) {s : Slot} (h : SlotTy env f.ty s)
    (hd : ∀ dv, f.dflt = some dv → HasTy env f.ty dv.val) : (buildField name f s).Yields (HasTy env f.ty) := by
  unfold buildField
  split
  · rename_i u vs hty
    rw [hty] at h ⊢
    obtain ⟨u', hu, hvs⟩ := h
    simp only [FTy.vec.injEq] at hu
    subst hu
    exact Res.Yields.ok (.vec _ _ hvs)
  · rename_i u hty
    rw [hty]
    exact Res.Yields.ok (.none u)
  · rename_i u v hty
    rw [hty] at h ⊢
    exact Res.Yields.ok (.some u v (h.2 v rfl))
  · rename_i v hno
    refine Res.Yields.ok ?_
    have hx := h.2 v rfl
    cases hty : f.ty with
    | vec u => exact absurd hty (h.1 u)
    | opt u => exact (hno u hty).elim
    | simple t => rw [hty] at hx; exact hx
    | struct p => rw [hty] at hx; exact hx
  · split
    · rename_i dv hdv
      exact Res.Yields.ok (hd dv hdv)
    · intro a e; simp at e
  · exact Res.Yields.panic _

omit hrec in
theorem buildFields_typed (name : Str) : ∀ {fs : List FieldDef} {ss : List Slot}, SlotsTy env fs ss →
    (∀ f ∈ fs, ∀ dv, f.dflt = some dv → HasTy env f.ty dv.val) →
    (buildFields name fs ss).Yields fun vs => vs.length = fs.length ∧
      ∀ (i : Nat) (f : FieldDef) (v : Val), fs[i]? = some f → vs[i]? = some v → HasTy env f.ty v
  | [], [], _, _ => by
    simp only [buildFields]
    exact Res.Yields.ok ⟨rfl, by simp⟩
  | f :: fs, s :: ss, h, hd => by
    simp only [buildFields]
    refine Res.Yields.bind (buildField_typed env name f h.1 (hd f (by simp))) fun v hv =>
      Res.Yields.bind (buildFields_typed name h.2 fun g hg => hd g (by simp [hg])) fun vs hvs => Res.Yields.ok ?_
    refine ⟨by simp [hvs.1], fun i g w hg hw => ?_⟩
    cases i with
    | zero =>
      simp only [List.getElem?_cons_zero, Option.some.injEq] at hg hw
      exact hg ▸ hw ▸ hv
    | succ i =>
      simp only [List.getElem?_cons_succ] at hg hw
      exact hvs.2 i g w hg hw
  | [], _ :: _, h, _ => h.elim
  | _ :: _, [], h, _ => h.elim

omit hrec in
theorem readInnerValue_yields {α : Type} {Q : α → Prop} {x : D α} (h : Yields x Q) : Yields (readInnerValue x) Q := by
  unfold readInnerValue
  refine Yields.skip fun r => ?_
  split
  · exact Yields.bind h fun a ha => Yields.skip fun _ => Yields.pure ha
  · exact Yields.throw _

omit hrec in
theorem simpleInner_typed (f : FieldDef) (t : STy) : Yields (simpleInner L f t) (HasTy env (.simple t)) := by
  unfold simpleInner
  refine Yields.skip fun r => ?_
  split
  · refine Yields.skip fun _ => ?_
    split
    · rename_i v hv
      exact Yields.pure (visitS_typed L env hv)
    · exact Yields.throw _
  · exact Yields.throw _

theorem callVisitor_typed (root : Attrs) {fs : List FieldDef} {f : FieldDef} {i : Nat} (hi : fs[i]? = some f)
    (name : Name) {st : LoopSt} (h : SlotsTy env fs st.slots) :
    Yields (callVisitor L rec root f i name st) fun st' => SlotsTy env fs st'.slots := by
  unfold callVisitor
  split
  · rename_i p hp
    unfold callStruct
    refine Yields.skip fun _ => Yields.skip fun r => ?_
    split
    · refine Yields.bind (hrec p) fun v hv => Yields.skip fun _ => Yields.pure ?_
      exact slotsTy_put h hi (hp ▸ hv)
    · exact Yields.pure h
  · rename_i t ht
    unfold callSimple
    refine Yields.skip fun _ => Yields.bind
      (Yields.attempt (readInnerValue_yields (simpleInner_typed L env f t))) fun r hr => ?_
    split
    · rename_i v
      exact Yields.pure (slotsTy_put h hi (ht ▸ hr v rfl))
    · exact Yields.pure h
  · exact Yields.panic _

theorem structStart_typed (fuel : Nat) (d : StructDef) {st : LoopSt} (name : Name) (attrs : List Attr)
    (h : SlotsTy env d.fields st.slots) :
    Yields (structStart L rec fuel d st name attrs) fun st' => SlotsTy env d.fields st'.slots := by
  unfold structStart
  dsimp only
  refine Yields.bind (Q := fun st' => SlotsTy env d.fields st'.slots) ?_ fun st' h' =>
    Yields.bind (Q := fun st' => SlotsTy env d.fields st'.slots) ?_ fun st'' h'' => Yields.pure h''
  · split
    · exact Yields.skip fun _ => Yields.skip fun _ => Yields.pure h
    · split
      · split
        · rename_i f hf
          exact callVisitor_typed L env hrec d.attrs hf name h
        · exact Yields.pure h
      · refine Yields.skip fun _ => Yields.skip fun _ => ?_
        split
        · exact Yields.skip fun _ => Yields.skip fun _ => Yields.pure h
        · exact Yields.pure h
  · split
    · exact Yields.bind (Yields.lift (loadAttrs_typed L env hrec attrs h')) fun ss hss => Yields.pure hss
    · exact Yields.pure h'

theorem structStep_typed (fuel : Nat) (d : StructDef) (named : Str) (startDepth : Nat) {st : LoopSt}
    (h : SlotsTy env d.fields st.slots) :
    Yields (structStep L rec fuel d named startDepth st) fun r => SlotsTy env d.fields r.1.slots := by
  unfold structStep
  refine Yields.skip fun e => ?_
  split
  · exact Yields.bind (structStart_typed L env hrec fuel d _ _ h) fun st' h' => Yields.pure h'
  · refine Yields.skip fun rd => ?_
    split
    · exact Yields.skip fun _ => Yields.pure h
    · exact Yields.skip fun _ => Yields.skip fun _ => Yields.pure h
  · split <;> exact Yields.pure h
  · exact Yields.skip fun _ => Yields.skip fun _ => Yields.pure (slotsTy_setText _ h)
  · exact Yields.throw _

theorem structLoop_typed (skipFuel : Nat) (d : StructDef) (named : Str) (startDepth : Nat) :
    ∀ (n : Nat) {st : LoopSt}, SlotsTy env d.fields st.slots →
    Yields (structLoop L rec skipFuel d named startDepth n st) fun st' => SlotsTy env d.fields st'.slots
  | 0, st, _ => by
    simp only [structLoop]
    exact Yields.diverge
  | n + 1, st, h => by
    simp only [structLoop]
    refine Yields.bind (structStep_typed L env hrec skipFuel d named startDepth h) fun r h' => ?_
    split
    · exact structLoop_typed skipFuel d named startDepth n h'
    · exact Yields.pure h'

theorem structDeser_typed (fuel : Nat) {d : StructDef} {p : Path} (hp : env p = some (.struct d))
    (hd : ∀ f ∈ d.fields, ∀ dv, f.dflt = some dv → HasTy env f.ty dv.val) :
    Yields (structDeser L rec fuel d) (HasTy env (.struct p)) := by
  unfold structDeser structBody
  refine Yields.skip fun e => Yields.skip fun rd => Yields.skip fun _ =>
    Yields.bind (structLoop_typed L env hrec fuel d _ _ fuel (slotsTy_init env d.fields)) fun st hst =>
    Yields.bind (Q := SlotsTy env d.fields) ?_ fun slots hslots =>
    Yields.bind (Yields.lift (buildFields_typed env d.name hslots hd)) fun vs hvs =>
    Yields.pure (.struct p d vs hp hvs.1 hvs.2)
  split
  · exact Yields.lift (flattenFields_typed L env hrec _ hst)
  · exact Yields.pure hst

/-! ### Enums -/

omit hrec in
theorem variantInner_typed (t : STy) : Yields (variantInner L t) (HasTy env (.simple t)) := by
  have hu : ∀ s, Yields (visitUnwrap L t s) (HasTy env (.simple t)) := by
    intro s
    unfold visitUnwrap
    split
    · rename_i v hv
      exact Yields.pure (parseS_typed L env hv)
    · exact Yields.panic _
  unfold variantInner
  refine Yields.skip fun e => ?_
  split
  · exact hu _
  · refine Yields.skip fun r => ?_
    split
    · exact hu _
    · exact Yields.throw _

/-- The value collected so far is one of the enum. -/
def CurTy (env : Env) (p : Path) (cur : Option Val) : Prop := ∀ v, cur = some v → HasTy env (.struct p) v

omit hrec in
theorem setVariant_typed {p : Path} {d : EnumDef} (hp : env p = some (.enum d)) {i : Nat} {vd : VariantDef}
    (hi : d.variants[i]? = some vd) {t : FTy} (hs : vd.shape = .newtype t) {v : Val} (hv : HasTy env t.core v)
    {cur : Option Val} (hc : CurTy env p cur) {r : Option Val} (h : setVariant i t v cur = .ok r) :
    CurTy env p r := by
  have key : ∀ x, HasTy env t x → r = some (.enum i [x]) → CurTy env p r := by
    rintro x hx rfl y hy
    simp only [Option.some.injEq] at hy
    exact hy ▸ .newtype p d i vd t x hp hi hs hx
  cases t with
  | opt u =>
    simp only [setVariant, Except.ok.injEq] at h
    exact key _ (.some u v hv) h.symm
  | simple u =>
    simp only [setVariant, Except.ok.injEq] at h
    exact key _ hv h.symm
  | struct u =>
    simp only [setVariant, Except.ok.injEq] at h
    exact key _ hv h.symm
  | vec u =>
    simp only [setVariant] at h
    split at h
    · rename_i j vs
      split at h
      · rename_i hj
        subst hj
        simp only [Except.ok.injEq] at h
        refine key _ (.vec u _ ?_) h.symm
        have hw := hc _ rfl
        have hvs : HasTy env (.vec u) (.vec vs) := by
          cases hw with
          | newtype _ d' _ vd' t' _ hp' hi' hs' h' =>
            rw [hp] at hp'
            simp only [Option.some.injEq, TypeDef.enum.injEq] at hp'
            subst hp'
            rw [hi] at hi'
            simp only [Option.some.injEq] at hi'
            subst hi'
            rw [hs] at hs'
            simp only [VShape.newtype.injEq] at hs'
            exact hs' ▸ h'
          | named _ d' _ vd' fds _ hp' hi' hs' hlen' h' =>
            rw [hp] at hp'
            simp only [Option.some.injEq, TypeDef.enum.injEq] at hp'
            subst hp'
            rw [hi] at hi'
            simp only [Option.some.injEq] at hi'
            subst hi'
            rw [hs] at hs'
            simp at hs'
          | prim _ d' _ hp' => rw [hp] at hp'; simp at hp'
        cases hvs with
        | vec _ _ hall =>
          intro w hw
          rcases List.mem_append.mp hw with hw | hw
          · exact hall w hw
          · simp only [List.mem_singleton] at hw
            exact hw ▸ hv
      · simp at h
    · simp at h
    · simp only [Except.ok.injEq] at h
      refine key _ (.vec u _ ?_) h.symm
      intro w hw
      simp only [List.mem_singleton] at hw
      exact hw ▸ hv

theorem variantArm_typed {p : Path} {d : EnumDef} (hp : env p = some (.enum d)) {i : Nat} {vd : VariantDef}
    (hi : d.variants[i]? = some vd) {cur : Option Val} (hc : CurTy env p cur) :
    Yields (variantArm L rec i vd cur) fun r => CurTy env p r.1 := by
  unfold variantArm
  split
  · rename_i hs
    refine Yields.pure fun v hv => ?_
    simp only [Option.some.injEq] at hv
    exact hv ▸ .unit p d i vd hp hi hs
  · exact Yields.pure hc
  · rename_i t hs
    split
    · rename_i q hq
      exact Yields.bind (hrec q) fun x hx => Yields.bind
        (Yields.ofExcept fun r hr => setVariant_typed env hp hi hs (hq ▸ hx) hc hr) fun cur' hc' =>
        Yields.skip fun _ => Yields.pure hc'
    · rename_i s hq
      refine Yields.bind (Yields.attempt (readInnerValue_yields (variantInner_typed L env s))) fun r hr => ?_
      split
      · rename_i x
        exact Yields.bind
          (Yields.ofExcept fun r' hr' => setVariant_typed env hp hi hs (hq ▸ hr x rfl) hc hr') fun cur' hc' =>
          Yields.pure hc'
      · exact Yields.pure hc
    · exact Yields.panic _

theorem enumMatch_typed {p : Path} {d : EnumDef} (hp : env p = some (.enum d)) (key : Str) {cur : Option Val}
    (hc : CurTy env p cur) {dflt : D (Option Val × Bool)} (hd : Yields dflt fun r => CurTy env p r.1) :
    Yields (enumMatch L rec d key cur dflt) fun r => CurTy env p r.1 := by
  unfold enumMatch
  split
  · split
    · rename_i v hv
      exact variantArm_typed L env hrec hp hv hc
    · exact hd
  · exact hd

theorem enumStep_typed {p : Path} {d : EnumDef} (hp : env p = some (.enum d)) (named : Str) (startDepth : Nat)
    {cur : Option Val} (hc : CurTy env p cur) :
    Yields (enumStep L rec d named startDepth cur) fun r => CurTy env p r.1 := by
  unfold enumStep
  refine Yields.skip fun e => ?_
  split
  · refine Yields.skip fun key => Yields.bind (enumMatch_typed L env hrec hp key hc
      (Yields.skip fun _ => Yields.pure hc)) fun r hr => ?_
    obtain ⟨cur', cont⟩ := r
    dsimp only at hr ⊢
    split
    · refine Yields.skip fun e' => ?_
      split
      · exact enumMatch_typed L env hrec hp _ hr (Yields.pure hr)
      · exact Yields.pure hr
    · exact Yields.pure hr
  · refine Yields.skip fun rd => ?_
    split
    · exact Yields.pure hc
    · exact Yields.skip fun _ => Yields.pure hc
  · exact Yields.skip fun _ => Yields.pure hc
  · split
    · exact Yields.pure hc
    · exact Yields.throw _
  · exact Yields.throw _

theorem enumLoop_typed {p : Path} {d : EnumDef} (hp : env p = some (.enum d)) (named : Str) (startDepth : Nat) :
    ∀ (n : Nat) {cur : Option Val}, CurTy env p cur →
    Yields (enumLoop L rec d named startDepth n cur) (CurTy env p)
  | 0, _, _ => by
    simp only [enumLoop]
    exact Yields.diverge
  | n + 1, cur, hc => by
    simp only [enumLoop]
    refine Yields.bind (enumStep_typed L env hrec hp named startDepth hc) fun r hr => ?_
    split
    · exact enumLoop_typed hp named startDepth n hr
    · exact Yields.pure hr

theorem enumDeser_typed (fuel : Nat) {p : Path} {d : EnumDef} (hp : env p = some (.enum d))
    (hd : HasTy env (.struct p) d.dflt) : Yields (enumDeser L rec fuel d) (HasTy env (.struct p)) := by
  unfold enumDeser enumBody
  refine Yields.skip fun e => Yields.skip fun rd => Yields.skip fun _ =>
    Yields.bind (enumLoop_typed L env hrec hp _ _ fuel (cur := none) (by intro v hv; simp at hv)) fun cur hc =>
    Yields.pure ?_
  cases cur with
  | none => exact hd
  | some v => exact hc v rfl

end

theorem primDeser_typed (env : Env) {p : Path} {d : PrimDef} (hp : env p = some (.prim d))
    (hd : ∀ s v, d.fromStr s = .ok v → d.dom v = true) : Yields (primDeser d) (HasTy env (.struct p)) := by
  unfold primDeser
  refine Yields.skip fun r => ?_
  split
  · refine Yields.skip fun _ => Yields.skip fun r => ?_
    split
    · exact Yields.ofExcept fun v hv => .prim p d v hp (hd _ _ hv)
    · exact Yields.ofExcept fun v hv => .prim p d v hp (hd _ _ hv)
  · exact Yields.throw _

theorem deser_typed (L : Lib) (env : Env) (hT : Typed env) : ∀ (n : Nat) (p : Path),
    Yields (deser L env n p) (HasTy env (.struct p))
  | 0, p => by
    simp only [deser]
    exact Yields.diverge
  | n + 1, p => by
    simp only [deser]
    split
    · rename_i d hp
      exact structDeser_typed L env (deser_typed L env hT n) n hp (hT.dflt p d hp)
    · rename_i d hp
      exact enumDeser_typed L env (deser_typed L env hT n) n hp (hT.enumDflt p d hp)
    · rename_i d hp
      exact primDeser_typed env hp (hT.prim p d hp)
    · exact Yields.panic _

end Yaserde
