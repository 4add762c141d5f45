import Verif.Spec.NewVariant
import Verif.Spec.Rename
import Verif.Proofs.Levels
import Verif.Spec.Encode
/-
Two programs that differ in the variants of their enums, run in lockstep over a document without the names of the new variants.
-/

set_option autoImplicit false

namespace Yaserde

/-- All events in front of the reader. -/
structure Rd.Free (K : Str → Prop) (rd : Rd) : Prop where
  evs : ∀ e ∈ rd.reader.evs, e.Free K
  peeked : ∀ e, rd.peeked = some e → e.Free K

/-- On such readers the two computations do the same and leave such a reader; `P` holds of the values returned. -/
def Lock {α : Type} (K : Str → Prop) (P : α → Prop) (x y : D α) : Prop :=
  ∀ rd : Rd, rd.Free K → x rd = y rd ∧ (x rd).2.Free K ∧ ∀ a, (x rd).1 = .ok a → P a

namespace Lock
variable {K : Str → Prop} {α β : Type} {P : α → Prop} {R : β → Prop}

theorem bind {x y : D α} {f g : α → D β} (h : Lock K P x y) (hf : ∀ a, P a → Lock K R (f a) (g a)) :
    Lock K R (x >>= f) (y >>= g) := by
  intro rd hrd
  obtain ⟨h1, h2, h3⟩ := h rd hrd
  show M.bind x f rd = M.bind y g rd ∧ (M.bind x f rd).2.Free K ∧ ∀ a, (M.bind x f rd).1 = .ok a → R a
  unfold M.bind
  rw [← h1]
  rcases hx : x rd with ⟨_ | _ | _ | _, rd'⟩ <;> rw [hx] at h2 h3
  · exact hf _ (h3 _ rfl) rd' h2
  all_goals exact ⟨rfl, h2, fun _ e => by cases e⟩

theorem pure {a : α} (h : P a) : Lock K P (M.pure a) (M.pure a) := by
  intro rd hrd
  refine ⟨rfl, hrd, fun b e => ?_⟩
  cases e
  exact h

theorem throw (m : Str) : Lock K P (M.throw m) (M.throw m) := fun _ h => ⟨rfl, h, fun _ e => by cases e⟩
theorem panic (m : Str) : Lock K P (M.panic m) (M.panic m) := fun _ h => ⟨rfl, h, fun _ e => by cases e⟩
theorem diverge : Lock K P M.diverge M.diverge := fun _ h => ⟨rfl, h, fun _ e => by cases e⟩
theorem get : Lock K (fun _ => True) M.get M.get := fun _ h => ⟨rfl, h, fun _ _ => trivial⟩
theorem lift (r : Res α) : Lock K (fun _ => True) (M.lift r) (M.lift r) := fun _ h => ⟨rfl, h, fun _ _ => trivial⟩

theorem ofExcept {r : Except Str α} (h : ∀ a, r = .ok a → P a) : Lock K P (M.ofExcept r) (M.ofExcept r) := by
  intro rd hrd
  rcases r with m | a
  · exact ⟨rfl, hrd, fun _ e => by cases e⟩
  · refine ⟨rfl, hrd, fun b e => ?_⟩
    cases e
    exact h a rfl

theorem attempt {x y : D α} (h : Lock K P x y) : Lock K (fun r => ∀ a, r = .ok a → P a) (M.attempt x) (M.attempt y) := by
  intro rd hrd
  obtain ⟨h1, h2, h3⟩ := h rd hrd
  unfold M.attempt
  rw [← h1]
  rcases hx : x rd with ⟨_ | _ | _ | _, rd'⟩ <;> rw [hx] at h2 h3
  · refine ⟨rfl, h2, fun r e a ha => ?_⟩
    cases e
    cases ha
    exact h3 _ rfl
  · refine ⟨rfl, h2, fun r e a ha => ?_⟩
    cases e
    cases ha
  all_goals exact ⟨rfl, h2, fun _ e => by cases e⟩

/-- … where the values do not matter. -/
theorem andThen {Q : α → Prop} {x y : D α} {f g : α → D β} (h : Lock K Q x y) (hf : ∀ a, Lock K R (f a) (g a)) :
    Lock K R (x >>= f) (y >>= g) := bind h fun a _ => hf a

theorem imp {P' : α → Prop} {x y : D α} (h : Lock K P x y) (hp : ∀ a, P a → P' a) : Lock K P' x y :=
  fun rd hrd => ⟨(h rd hrd).1, (h rd hrd).2.1, fun a e => hp a ((h rd hrd).2.2 a e)⟩

end Lock

variable {K : Str → Prop}

theorem innerNextL_free : ∀ (es : List REv) (fin : Option Str), (∀ e ∈ es, e.Free K) →
    (∀ e ∈ (innerNextL es fin).2.evs, e.Free K) ∧ ∀ e, (innerNextL es fin).1 = .ok e → e.Free K
  | [], none, _ => ⟨fun _ h => by simp [innerNextL] at h, fun e h => by simp only [innerNextL, Res.ok.injEq] at h; subst h; trivial⟩
  | [], some _, _ => ⟨fun _ h => by simp [innerNextL] at h, fun e h => by simp [innerNextL] at h⟩
  | e :: es, fin, h => by
    rw [innerNextL]
    split
    · exact innerNextL_free es fin fun e he => h e (List.mem_cons_of_mem _ he)
    · refine ⟨fun e he => h e (List.mem_cons_of_mem _ he), fun x hx => ?_⟩
      cases hx
      exact h _ List.mem_cons_self

theorem Lock.innerNext : Lock K (REv.Free K) innerNext innerNext := by
  intro rd hrd
  have h := innerNextL_free rd.reader.evs rd.reader.fin hrd.evs
  exact ⟨rfl, ⟨h.1, hrd.peeked⟩, h.2⟩

theorem Lock.peek : Lock K (REv.Free K) peek peek := by
  intro rd hrd
  refine ⟨rfl, ?_⟩
  unfold Yaserde.peek
  rcases hp : rd.peeked with _ | e
  · obtain ⟨-, h2, h3⟩ := Lock.innerNext (K := K) rd hrd
    dsimp only
    rcases hx : Yaserde.innerNext rd with ⟨e | _ | _ | _, rd'⟩ <;> rw [hx] at h2 h3
    · have he := h3 e rfl
      refine ⟨⟨h2.evs, fun x hx => ?_⟩, fun x hx => ?_⟩
      · cases hx
        exact he
      · cases hx
        exact he
    all_goals exact ⟨h2, fun _ e => by cases e⟩
  · refine ⟨hrd, fun x hx => ?_⟩
    cases hx
    exact hrd.peeked e hp

theorem Lock.trackDepth {e : REv} (he : e.Free K) : Lock K (REv.Free K) (trackDepth e) (trackDepth e) := by
  intro rd hrd
  refine ⟨rfl, ?_⟩
  unfold Yaserde.trackDepth
  split
  · exact ⟨⟨hrd.evs, hrd.peeked⟩, fun a ha => by cases ha; exact he⟩
  · split
    · exact ⟨hrd, fun a ha => by cases ha⟩
    · exact ⟨⟨hrd.evs, hrd.peeked⟩, fun a ha => by cases ha; exact he⟩
  · exact ⟨hrd, fun a ha => by cases ha; exact he⟩

theorem Lock.next : Lock K (REv.Free K) nextEvent nextEvent := by
  intro rd hrd
  unfold nextEvent
  rcases hp : rd.peeked with _ | e
  · exact Lock.bind Lock.innerNext (fun e he => Lock.trackDepth he) rd hrd
  · exact Lock.trackDepth (hrd.peeked e hp) _ ⟨hrd.evs, fun _ h => by cases h⟩

theorem Lock.skipLoop (k depth : Nat) : ∀ acc : List REv, Lock K (fun _ => True) (skipLoop k depth acc) (skipLoop k depth acc) := by
  induction k with
  | zero => exact fun _ => Lock.diverge
  | succ k ih =>
    intro acc rd hrd
    unfold Yaserde.skipLoop
    split
    · exact Lock.andThen Lock.next (fun e => ih _) rd hrd
    · exact ⟨rfl, hrd, fun _ _ => trivial⟩

theorem Lock.skipElement (fuel : Nat) : Lock K (fun _ => True) (skipElement fuel) (skipElement fuel) :=
  fun rd hrd => Lock.skipLoop fuel rd.depth [] rd hrd

theorem Lock.readInnerValue {α : Type} {x : D α} (h : Lock K (fun _ => True) x x) :
    Lock K (fun _ => True) (readInnerValue x) (readInnerValue x) := by
  unfold Yaserde.readInnerValue
  refine Lock.andThen (Lock.attempt Lock.next) fun r => ?_
  split
  · refine Lock.andThen h fun v => Lock.andThen (Q := fun _ => True) ?_ fun _ => Lock.pure trivial
    unfold expectEndElement
    refine Lock.andThen Lock.next fun e => ?_
    split
    · split
      · exact Lock.pure trivial
      · exact Lock.throw _
    · exact Lock.throw _
  · exact Lock.throw _

section
variable (L : Lib) {rec rec' : Path → D Val} (hrec : ∀ p, Lock K (fun _ => True) (rec p) (rec' p))
include hrec

omit hrec in
theorem loadAttrField_scalar {f : FieldDef} (hf : ∀ q, f.ty.core ≠ .struct q) (attrs : List Attr) (s : Slot) :
    loadAttrField L rec f attrs s = loadAttrField L rec' f attrs s := by
  have hv : ∀ w, visitAttr L rec f.ty.core w = visitAttr L rec' f.ty.core w := by
    intro w
    unfold visitAttr
    split
    · rfl
    · rename_i q hq
      exact absurd hq (hf q)
    · rfl
  unfold loadAttrField
  rcases hty : f.ty with t | t | t | p <;> rw [hty] at hv <;> simp only [FTy.core] at hv ⊢ <;> simp only [hv]

omit hrec in
theorem loadAttrs_scalar : ∀ {fs : List FieldDef}, (∀ f ∈ fs, f.attrs.isAttr = true → ∀ q, f.ty.core ≠ .struct q) →
    ∀ (attrs : List Attr) (ss : List Slot), loadAttrs L rec fs attrs ss = loadAttrs L rec' fs attrs ss
  | [], _, _, _ => rfl
  | _ :: _, _, _, [] => rfl
  | f :: fs, h, attrs, s :: ss => by
    rw [loadAttrs, loadAttrs, loadAttrs_scalar (fun f hf => h f (List.mem_cons_of_mem _ hf)) attrs ss]
    rcases ha : f.attrs.isAttr with _ | _
    · rfl
    · rw [if_pos rfl, if_pos rfl, loadAttrField_scalar L (h f List.mem_cons_self ha)]

theorem Lock.callVisitor (root : Attrs) (f : FieldDef) (i : Nat) (name : Name) (st : LoopSt) :
    Lock K (fun _ => True) (callVisitor L rec root f i name st) (callVisitor L rec' root f i name st) := by
  unfold Yaserde.callVisitor
  split
  · unfold callStruct
    refine Lock.andThen (Q := fun _ => True) ?_ fun _ => Lock.andThen (Lock.attempt Lock.peek) fun r => ?_
    · split
      · exact Lock.andThen (Lock.attempt Lock.next) fun _ => Lock.pure trivial
      · exact Lock.pure trivial
    · split
      · exact Lock.andThen (hrec _) fun v => Lock.andThen Lock.next fun _ => Lock.pure trivial
      · exact Lock.pure trivial
  · unfold callSimple
    refine Lock.andThen (Lock.ofExcept (P := fun _ => True) fun _ _ => trivial) fun _ =>
      Lock.andThen (Lock.attempt (Lock.readInnerValue ?_)) fun r => ?_
    · unfold simpleInner
      refine Lock.andThen (Lock.attempt Lock.peek) fun r => ?_
      split
      · refine Lock.andThen Lock.next fun _ => ?_
        split
        · exact Lock.pure trivial
        · exact Lock.throw _
      · exact Lock.throw _
    · split <;> exact Lock.pure trivial
  · exact Lock.panic _

section
variable {d : StructDef} (hat : ∀ f ∈ d.fields, f.attrs.isAttr = true → ∀ q, f.ty.core ≠ .struct q)
include hat

theorem Lock.structStart (fuel : Nat) (st : LoopSt) (name : Name) (attrs : List Attr) :
    Lock K (fun _ => True) (structStart L rec fuel d st name attrs) (structStart L rec' fuel d st name attrs) := by
  unfold Yaserde.structStart
  dsimp only
  refine Lock.andThen (Q := fun _ => True) ?_ fun st' => Lock.andThen (Q := fun _ => True) ?_ fun st'' => Lock.pure trivial
  · split
    · exact Lock.andThen Lock.next fun _ => Lock.andThen (Lock.lift _) fun _ => Lock.pure trivial
    · split
      · split
        · exact Lock.callVisitor L hrec d.attrs _ _ name st
        · exact Lock.pure trivial
      · refine Lock.andThen Lock.next fun _ => Lock.andThen (Lock.lift _) fun _ => ?_
        split
        · exact Lock.andThen (Lock.skipElement _) fun _ => Lock.andThen (Lock.lift _) fun _ => Lock.pure trivial
        · exact Lock.pure trivial
  · split
    · rw [loadAttrs_scalar L (rec := rec) (rec' := rec') hat]
      exact Lock.andThen (Lock.lift _) fun _ => Lock.pure trivial
    · exact Lock.pure trivial

theorem Lock.structStep (fuel : Nat) (named : Str) (startDepth : Nat) (st : LoopSt) :
    Lock K (fun _ => True) (structStep L rec fuel d named startDepth st) (structStep L rec' fuel d named startDepth st) := by
  unfold Yaserde.structStep
  refine Lock.andThen Lock.peek fun e => ?_
  split
  · exact Lock.andThen (Lock.structStart L hrec hat fuel st _ _) fun _ => Lock.pure trivial
  · refine Lock.andThen Lock.get fun rd => ?_
    split
    · exact Lock.andThen (Lock.lift _) fun _ => Lock.pure trivial
    · exact Lock.andThen Lock.next fun _ => Lock.andThen (Lock.lift _) fun _ => Lock.pure trivial
  · split <;> exact Lock.pure trivial
  · exact Lock.andThen Lock.next fun _ => Lock.andThen (Lock.lift _) fun _ => Lock.pure trivial
  · exact Lock.throw _

theorem Lock.structLoop (skipFuel : Nat) (named : Str) (startDepth : Nat) : ∀ (n : Nat) (st : LoopSt),
    Lock K (fun _ => True) (structLoop L rec skipFuel d named startDepth n st) (structLoop L rec' skipFuel d named startDepth n st) := by
  intro n
  induction n with
  | zero => exact fun _ => Lock.diverge
  | succ n ih =>
    intro st
    unfold Yaserde.structLoop
    refine Lock.andThen (Lock.structStep L hrec hat skipFuel named startDepth st) fun r => ?_
    obtain ⟨st', cont⟩ := r
    dsimp only
    split
    · exact ih _
    · exact Lock.pure trivial

theorem Lock.structDeser (hfl : d.hasFlat = false) (fuel : Nat) :
    Lock K (fun _ => True) (structDeser L rec fuel d) (structDeser L rec' fuel d) := by
  unfold Yaserde.structDeser structBody
  refine Lock.andThen Lock.peek fun e => Lock.andThen Lock.get fun rd => ?_
  refine Lock.andThen (Q := fun _ => True) ?_ fun _ =>
    Lock.andThen (Lock.structLoop L hrec hat fuel _ _ fuel _) fun st => ?_
  · split
    · exact Lock.ofExcept fun _ _ => trivial
    · exact Lock.pure trivial
  · rw [hfl]
    exact Lock.andThen (Q := fun _ => True) (Lock.pure trivial) fun _ => Lock.andThen (Lock.lift _) fun _ => Lock.pure trivial

end

theorem Lock.variantArm (i : Nat) (v : VariantDef) (cur : Option Val) :
    Lock K (fun _ => True) (variantArm L rec i v cur) (variantArm L rec' i v cur) := by
  unfold Yaserde.variantArm
  split
  · exact Lock.pure trivial
  · exact Lock.pure trivial
  · split
    · exact Lock.andThen (hrec _) fun x => Lock.andThen (Lock.ofExcept (P := fun _ => True) fun _ _ => trivial) fun _ =>
        Lock.andThen (Lock.attempt Lock.next) fun _ => Lock.pure trivial
    · refine Lock.andThen (Lock.attempt (Lock.readInnerValue ?_)) fun r => ?_
      · unfold variantInner
        have hu : ∀ t s, Lock K (fun _ => True) (visitUnwrap L t s) (visitUnwrap L t s) := by
          intro t s
          unfold visitUnwrap
          split
          · exact Lock.pure trivial
          · exact Lock.panic _
        refine Lock.andThen Lock.peek fun e => ?_
        split
        · exact hu _ _
        · refine Lock.andThen (Lock.attempt Lock.next) fun r => ?_
          split
          · exact hu _ _
          · exact Lock.throw _
      · split
        · exact Lock.andThen (Lock.ofExcept (P := fun _ => True) fun _ _ => trivial) fun _ => Lock.pure trivial
        · exact Lock.pure trivial
    · exact Lock.panic _

end

/-- The test of `findVariant`. -/
theorem legible_iff (v : VariantDef) (key : Str) :
    ((match v.shape with | .named _ => false | _ => true) && v.attrs.xmlElementName v.ident == key) = true ↔
      v.Legible ∧ v.attrs.rename.getD v.ident = key := by
  unfold VariantDef.Legible Attrs.xmlElementName
  rcases v.shape with _ | t | fs <;> simp

/-- Hidden variants and variants with other names are not found. -/
theorem findVariant_gains {vs ws : List VariantDef} {key : Str}
    (h : ∀ w ∈ ws, w.Hidden vs ∨ w.attrs.rename.getD w.ident ≠ key) : findVariant key (vs ++ ws) = findVariant key vs := by
  unfold findVariant
  rw [List.findIdx?_append]
  rcases hv : vs.findIdx? _ with _ | i
  · rw [List.findIdx?_eq_none_iff.2]
    · rfl
    · intro w hw
      rw [List.findIdx?_eq_none_iff] at hv
      rw [Bool.eq_false_iff]
      intro hk
      obtain ⟨hl, hn⟩ := (legible_iff w key).1 hk
      rcases h w hw with (hh | ⟨v, hvm, hvl, hvn⟩) | hh
      · exact hh hl
      · exact absurd ((hv v hvm).symm.trans ((legible_iff v key).2 ⟨hvl, hvn.trans hn⟩)) (by decide)
      · exact hh hn
  · rfl

theorem findVariant_lt {vs : List VariantDef} {key : Str} {i : Nat} (h : findVariant key vs = some i) : i < vs.length :=
  (List.findIdx?_eq_some_iff_getElem.1 h).1

theorem enumMatch_gains (L : Lib) (rec : Path → D Val) {d : EnumDef} {ws : List VariantDef} {key : Str}
    (h : ∀ w ∈ ws, w.Hidden d.variants ∨ w.attrs.rename.getD w.ident ≠ key) (cur : Option Val) (dflt : D (Option Val × Bool)) :
    enumMatch L rec { d with variants := d.variants ++ ws } key cur dflt = enumMatch L rec d key cur dflt := by
  unfold enumMatch
  dsimp only
  rw [findVariant_gains h]
  rcases hi : findVariant key d.variants with _ | i
  · rfl
  · dsimp only
    rw [List.getElem?_append_left (findVariant_lt hi)]

section
variable (L : Lib) {rec rec' : Path → D Val} (hrec : ∀ p, Lock K (fun _ => True) (rec p) (rec' p))
  {d : EnumDef} {ws : List VariantDef} (hws : ∀ w ∈ ws, w.Hidden d.variants ∨ K (w.attrs.rename.getD w.ident))
include hrec hws

theorem Lock.enumMatch {key : Str} (hk : ¬ K key) (cur : Option Val) {x : D (Option Val × Bool)} (hx : Lock K (fun _ => True) x x) :
    Lock K (fun _ => True) (enumMatch L rec d key cur x) (enumMatch L rec' { d with variants := d.variants ++ ws } key cur x) := by
  rw [enumMatch_gains (key := key) L rec' fun w hw => (hws w hw).imp_right fun h1 h2 => hk (by rw [← h2]; exact h1)]
  unfold Yaserde.enumMatch
  split
  · split
    · exact Lock.variantArm L hrec _ _ cur
    · exact hx
  · exact hx

theorem Lock.enumStep (named : Str) (startDepth : Nat) (cur : Option Val) :
    Lock K (fun _ => True) (enumStep L rec d named startDepth cur)
      (enumStep L rec' { d with variants := d.variants ++ ws } named startDepth cur) := by
  unfold Yaserde.enumStep
  refine Lock.bind Lock.peek fun e he => ?_
  split
  · rename_i name attrs nss
    refine Lock.bind (P := fun key => ¬ K key) (Lock.ofExcept (r := enumKey L d (.start name attrs nss) name attrs) fun key hkey => ?_) fun key hkey =>
      Lock.andThen (Lock.enumMatch L hrec hws hkey cur (Lock.andThen (Lock.attempt Lock.next) fun _ => Lock.pure trivial)) fun r => ?_
    · unfold enumKey at hkey
      split at hkey
      · split at hkey
        · rename_i a ha
          cases hkey
          exact he.2 a (List.mem_of_find?_eq_some ha)
        · cases hkey
      · cases hkey
        exact he.1
    · obtain ⟨cur', cont⟩ := r
      dsimp only
      split
      · refine Lock.bind Lock.peek fun e' he' => ?_
        split
        · exact Lock.enumMatch L hrec hws he' cur' (Lock.pure trivial)
        · exact Lock.pure trivial
      · exact Lock.pure trivial
  · refine Lock.andThen Lock.get fun rd => ?_
    split
    · exact Lock.pure trivial
    · exact Lock.andThen (Lock.attempt Lock.next) fun _ => Lock.pure trivial
  · exact Lock.andThen (Lock.attempt Lock.next) fun _ => Lock.pure trivial
  · dsimp only
    split
    · exact Lock.pure trivial
    · exact Lock.throw _
  · exact Lock.throw _

theorem Lock.enumDeser (fuel : Nat) :
    Lock K (fun _ => True) (enumDeser L rec fuel d) (enumDeser L rec' fuel { d with variants := d.variants ++ ws }) := by
  have hloop : ∀ named startDepth n cur, Lock K (fun _ => True) (enumLoop L rec d named startDepth n cur)
      (enumLoop L rec' { d with variants := d.variants ++ ws } named startDepth n cur) := by
    intro named startDepth n
    induction n with
    | zero => exact fun _ => Lock.diverge
    | succ n ih =>
      intro cur
      unfold enumLoop
      refine Lock.andThen (Lock.enumStep L hrec hws named startDepth cur) fun r => ?_
      obtain ⟨cur', cont⟩ := r
      dsimp only
      split
      · exact ih _
      · exact Lock.pure trivial
  unfold Yaserde.enumDeser enumBody
  exact Lock.andThen Lock.peek fun e => Lock.andThen Lock.get fun rd =>
    Lock.andThen (Lock.ofExcept (P := fun _ => True) fun _ _ => trivial) fun _ =>
      Lock.andThen (hloop _ _ fuel none) fun _ => Lock.pure trivial

end

theorem Lock.primDeser (d : PrimDef) : Lock K (fun _ => True) (primDeser d) (primDeser d) := by
  unfold Yaserde.primDeser
  refine Lock.andThen (Lock.attempt Lock.peek) fun r => ?_
  split
  · refine Lock.andThen Lock.next fun _ => Lock.andThen (Lock.attempt Lock.peek) fun r => ?_
    split <;> exact Lock.ofExcept fun _ _ => trivial
  · exact Lock.throw _

theorem Lock.deser (L : Lib) {env env' : Env} (h : env.Gains K env') (hnf : NoFlatten env) (hat : ScalarAttrs env) (n : Nat) :
    ∀ p, Lock K (fun _ => True) (deser L env n p) (deser L env' n p) := by
  induction n with
  | zero => exact fun _ => Lock.diverge
  | succ n ih =>
    intro p
    unfold Yaserde.deser
    rcases h p with ⟨h1, h2⟩ | ⟨b, b', h1, h2, h3⟩
    · rw [h1, h2]
      first | exact Lock.panic _ | exact Lock.throw _ | exact Lock.diverge
    · rw [h1, h2]
      cases h3 with
      | same =>
        rcases b with d | d | d
        · refine Lock.structDeser L ih (hat p d h1) ?_ n
          unfold StructDef.hasFlat
          rw [List.any_eq_false]
          intro f hf hc
          rw [Bool.and_eq_true, Bool.not_eq_true'] at hc
          rw [hnf p d h1 f hf hc.1] at hc
          exact absurd hc.2 (by decide)
        · have := Lock.enumDeser (K := K) L ih (d := d) (ws := []) (fun _ h => by cases h) n
          rw [List.append_nil] at this
          exact this
        · exact Lock.primDeser d
      | enum d ws hws => exact Lock.enumDeser L ih hws n

/-! #### Hidden variants -/

theorem enumDeser_hidden (L : Lib) (rec : Path → D Val) {d : EnumDef} {ws : List VariantDef} (h : ∀ w ∈ ws, w.Hidden d.variants) (fuel : Nat) :
    enumDeser L rec fuel { d with variants := d.variants ++ ws } = enumDeser L rec fuel d := by
  have hstep : ∀ named startDepth cur, enumStep L rec { d with variants := d.variants ++ ws } named startDepth cur =
      enumStep L rec d named startDepth cur := by
    intro named startDepth cur
    unfold enumStep
    simp only [enumMatch_gains L rec (fun w hw => .inl (h w hw))]
    rfl
  have hloop : ∀ named startDepth n cur, enumLoop L rec { d with variants := d.variants ++ ws } named startDepth n cur =
      enumLoop L rec d named startDepth n cur := by
    intro named startDepth n
    induction n with
    | zero => exact fun _ => rfl
    | succ n ih =>
      intro cur
      rw [enumLoop, enumLoop, hstep]
      congr 1
      funext ⟨cur', b⟩
      dsimp only
      rw [ih cur']
  unfold enumDeser enumBody
  simp only [hloop]

theorem deser_hidden (L : Lib) {env env' : Env} (h : env.Gains (fun _ => False) env') (n : Nat) (p : Path) :
    deser L env n p = deser L env' n p := by
  induction n generalizing p with
  | zero => rfl
  | succ n ih =>
    have ih' : deser L env n = deser L env' n := funext ih
    rw [deser, deser, ih']
    rcases h p with ⟨h1, h2⟩ | ⟨b, b', h1, h2, h3⟩
    · rw [h1, h2]
    · rw [h1, h2]
      cases h3 with
      | same => rfl
      | enum d ws hws => exact (enumDeser_hidden L _ (fun w hw => (hws w hw).resolve_right id) n).symm

/-! #### Writing -/

theorem reach_hasTy {env : Env} {t : FTy} {v : Val} {q : Path} {x : Val} (h : Reach t v q x) (hv : HasTy env t v) :
    HasTy env (.struct q) x := by
  induction h with
  | here => exact hv
  | some _ ih =>
    cases hv with
    | some _ _ h => exact ih h
  | vec hm _ ih =>
    cases hv with
    | vec _ _ h => exact ih (h _ hm)

theorem below_hasTy {env : Env} {p : Path} {t : TypeDef} {v : Val} {q : Path} {x : Val} (hp : env p = some t) (h : Below t v q x)
    (hv : HasTy env (.struct p) v) : HasTy env (.struct q) x := by
  cases hv with
  | struct _ d fs hp' _ hf =>
    cases hp.symm.trans hp'
    cases h with
    | field h1 h2 h3 => exact reach_hasTy h3 (hf _ _ _ h1 h2)
  | unit _ d i vd hp' hvd hs =>
    cases hp.symm.trans hp'
    cases h with
    | payload h1 h2 h3 h4 => simp at h3
    | named h1 h2 h3 h4 h5 => simp at h4
  | newtype _ d i vd t' y hp' hvd hs hy =>
    cases hp.symm.trans hp'
    cases h with
    | payload h1 h2 h3 h4 =>
      cases h1.symm.trans hvd
      cases h2.symm.trans hs
      cases h3
      exact reach_hasTy h4 hy
    | named h1 h2 h3 h4 h5 =>
      cases h1.symm.trans hvd
      cases h2.symm.trans hs
  | named _ d i vd fds fs hp' hvd hs _ hf =>
    cases hp.symm.trans hp'
    cases h with
    | payload h1 h2 h3 h4 =>
      cases h1.symm.trans hvd
      cases h2.symm.trans hs
    | named h1 h2 h3 h4 h5 =>
      cases h1.symm.trans hvd
      cases h2.symm.trans hs
      exact reach_hasTy h5 (hf _ _ _ h3 h4)
  | prim _ d _ hp' _ =>
    cases hp.symm.trans hp'
    cases h

theorem serTyBy_gains (L : Lib) (R : SerRec) {env env' : Env} (h : env.Gains K env') {p : Path} {v : Val}
    (hv : HasTy env (.struct p) v) :
    serTyBy L env R p v = serTyBy L env' R p v ∧ attrsOfBy L env R p v = attrsOfBy L env' R p v := by
  rcases h p with ⟨h1, h2⟩ | ⟨b, b', h1, h2, h3⟩
  · unfold serTyBy attrsOfBy
    rw [h1, h2]
    exact ⟨rfl, rfl⟩
  · cases h3 with
    | same =>
      unfold serTyBy attrsOfBy
      rw [h1, h2]
      exact ⟨rfl, rfl⟩
    | enum d ws hws =>
      have hi : ∀ (i : Nat) (vd : VariantDef), d.variants[i]? = some vd → (d.variants ++ ws)[i]? = d.variants[i]? := by
        intro i vd hd
        obtain ⟨hlt, -⟩ := List.getElem?_eq_some_iff.1 hd
        rw [List.getElem?_append_left hlt]
      have key : ∀ (i : Nat) (vd : VariantDef) (fs : List Val), d.variants[i]? = some vd → v = .enum i fs →
          serTyBy L env R p v = serTyBy L env' R p v ∧ attrsOfBy L env R p v = attrsOfBy L env' R p v := by
        rintro i vd fs hd rfl
        unfold serTyBy attrsOfBy
        rw [h1, h2]
        dsimp only
        rw [hi i vd hd, hd]
        exact ⟨rfl, rfl⟩
      cases hv with
      | struct _ _ _ hp => cases h1.symm.trans hp
      | unit _ _ i vd hp hd => cases h1.symm.trans hp; exact key i vd _ hd rfl
      | newtype _ _ i vd _ _ hp hd => cases h1.symm.trans hp; exact key i vd _ hd rfl
      | named _ _ i vd _ _ hp hd => cases h1.symm.trans hp; exact key i vd _ hd rfl
      | prim _ _ _ hp => cases h1.symm.trans hp

theorem serB_gains (L : Lib) {env env' : Env} (h : env.Gains K env') (base : SerRec) (n : Nat) :
    SerRec.Agree (fun p v => HasTy env (.struct p) v) (serB L env (fun _ => none) base n) (serB L env' (fun _ => none) base n) := by
  induction n with
  | zero => exact ⟨fun _ _ _ => rfl, fun _ _ _ => rfl⟩
  | succ n ih =>
    have hc := fun p v (hv : HasTy env (.struct p) v) => serTyBy_congr L env p v ih fun t q x hp hb => below_hasTy hp hb hv
    refine ⟨fun p v hv => ?_, fun p v hv => ?_⟩
    · exact (hc p v hv).1.trans (serTyBy_gains L _ h hv).1
    · exact (hc p v hv).2.trans (serTyBy_gains L _ h hv).2

theorem serTy_gains (L : Lib) {env env' : Env} (h : env.Gains K env') {p : Path} {v : Val} (hv : HasTy env (.struct p) v) :
    serTy L env p v = serTy L env' p v := by
  have h1 := (serB_nests L env .diverge (v.levels + 1)).ser p v (nests_levels env _ p v (Nat.lt_succ_self _))
  have h2 := (serB_nests L env' .diverge (v.levels + 1)).ser p v (nests_levels env' _ p v (Nat.lt_succ_self _))
  exact h1.symm.trans (((serB_gains L h .diverge _).ser p v hv).trans h2)

end Yaserde
