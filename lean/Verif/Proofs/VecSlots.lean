import Verif.Proofs.Sound
/-
The local variable of a `Vec` field is a list all through the generated function, whatever the functions it calls return.
-/

set_option autoImplicit false

namespace Yaserde

/-- The slot of a `Vec` is a list. -/
def SlotVec (t : FTy) (s : Slot) : Prop := ∀ u, t = .vec u → ∃ vs, s = .many vs

/-- The slots of a list of fields. -/
def SlotsVec : List FieldDef → List Slot → Prop
  | f :: fs, s :: ss => SlotVec f.ty s ∧ SlotsVec fs ss
  | _, _ => True

theorem slotsVec_init (fs : List FieldDef) : SlotsVec fs (fs.map fun f => Slot.init f.ty) := by
  induction fs with
  | nil => trivial
  | cons f fs ih =>
    refine ⟨fun u hu => ⟨[], ?_⟩, ih⟩
    show Slot.init f.ty = _
    rw [hu]
    rfl

theorem slotVec_put {t : FTy} {s : Slot} (v : Val) (h : SlotVec t s) : SlotVec t (s.put v) := by
  intro u hu
  obtain ⟨vs, rfl⟩ := h u hu
  exact ⟨_, rfl⟩

theorem slotsVec_put (v : Val) : ∀ {fs : List FieldDef} {ss : List Slot} (i : Nat), SlotsVec fs ss →
    SlotsVec fs (ss.modify i (Slot.put v))
  | [], _, _, _ => by simp only [SlotsVec]
  | _ :: _, [], i, _ => by cases i <;> trivial
  | _ :: _, _ :: _, 0, h => ⟨slotVec_put v h.1, h.2⟩
  | _ :: _, _ :: _, i + 1, h => ⟨h.1, slotsVec_put v i h.2⟩

theorem slotsVec_setText (t : Str) : ∀ {fs : List FieldDef} {ss : List Slot}, SlotsVec fs ss → SlotsVec fs (setText fs t ss)
  | [], _, _ => by simp only [SlotsVec]
  | _ :: _, [], _ => trivial
  | f :: fs, s :: ss, h => by
    refine ⟨?_, slotsVec_setText t h.2⟩
    split
    · split
      · rename_i hty
        intro u hu
        rw [hty] at hu
        cases hu
      · rename_i hty
        intro u hu
        rw [hty] at hu
        cases hu
      · exact h.1
    · exact h.1

section
variable (L : Lib) (rec : Path → D Val)

theorem loadAttrField_vec (f : FieldDef) (attrs : List Attr) {s : Slot} (h : SlotVec f.ty s) :
    (loadAttrField L rec f attrs s).Yields (SlotVec f.ty) := by
  refine foldRes_yields (fun s a hs => ?_) attrs s h
  split
  · split
    · refine foldRes_yields (fun s w hs => ?_) _ s hs
      exact Res.Yields.bind (Q := fun _ => True) (fun _ _ => trivial) fun v _ => Res.Yields.ok (slotVec_put v hs)
    · exact Res.Yields.bind (Q := fun _ => True) (fun _ _ => trivial) fun v _ => Res.Yields.ok (slotVec_put v hs)
  · exact Res.Yields.ok hs

theorem loadAttrs_vec (attrs : List Attr) : ∀ {fs : List FieldDef} {ss : List Slot}, SlotsVec fs ss →
    (loadAttrs L rec fs attrs ss).Yields (SlotsVec fs)
  | [], _, _ => fun _ _ => by simp only [SlotsVec]
  | _ :: _, [], h => by
    simp only [loadAttrs]
    exact Res.Yields.ok h
  | f :: fs, s :: ss, h => by
    simp only [loadAttrs]
    refine Res.Yields.bind (Q := SlotVec f.ty) ?_ fun s' hs' =>
      Res.Yields.bind (loadAttrs_vec attrs h.2) fun ss' hss' => Res.Yields.ok ⟨hs', hss'⟩
    split
    · exact loadAttrField_vec L rec f attrs h.1
    · exact Res.Yields.ok h.1

theorem flattenField_vec (unused : Str) (f : FieldDef) {s : Slot} (h : SlotVec f.ty s) :
    (flattenField L rec unused f s).Yields (SlotVec f.ty) := by
  have hne : (∀ u, f.ty ≠ .vec u) → ∀ s', SlotVec f.ty s' := fun hn _ u hu => absurd hu (hn u)
  unfold flattenField
  split
  · split
    · rename_i hty
      exact fun s' _ => hne (by rw [hty]; simp) s'
    · rename_i hty
      exact fun s' _ => hne (by rw [hty]; simp) s'
    · exact Res.Yields.panic _
  · exact Res.Yields.ok h

theorem flattenFields_vec (unused : Str) : ∀ {fs : List FieldDef} {ss : List Slot}, SlotsVec fs ss →
    (flattenFields L rec unused fs ss).Yields (SlotsVec fs)
  | [], _, _ => fun _ _ => by simp only [SlotsVec]
  | _ :: _, [], h => by
    simp only [flattenFields]
    exact Res.Yields.ok h
  | f :: fs, s :: ss, h => by
    simp only [flattenFields]
    exact Res.Yields.bind (flattenField_vec L rec unused f h.1) fun s' hs' =>
      Res.Yields.bind (flattenFields_vec unused h.2) fun ss' hss' => Res.Yields.ok ⟨hs', hss'⟩

theorem callVisitor_vec (root : Attrs) {fs : List FieldDef} (f : FieldDef) (i : Nat)
    (name : Name) {st : LoopSt} (h : SlotsVec fs st.slots) :
    Yields (callVisitor L rec root f i name st) fun st' => SlotsVec fs st'.slots := by
  unfold callVisitor
  split
  · unfold callStruct
    refine Yields.skip fun _ => Yields.skip fun r => ?_
    split
    · exact Yields.skip fun v => Yields.skip fun _ => Yields.pure (slotsVec_put v i h)
    · exact Yields.pure h
  · unfold callSimple
    refine Yields.skip fun _ => Yields.skip fun r => ?_
    split
    · exact Yields.pure (slotsVec_put _ i h)
    · exact Yields.pure h
  · exact Yields.panic _

theorem structStart_vec (fuel : Nat) (d : StructDef) {st : LoopSt} (name : Name) (attrs : List Attr)
    (h : SlotsVec d.fields st.slots) :
    Yields (structStart L rec fuel d st name attrs) fun st' => SlotsVec d.fields st'.slots := by
  unfold structStart
  dsimp only
  refine Yields.bind (Q := fun st' => SlotsVec d.fields st'.slots) ?_ fun st' h' =>
    Yields.bind (Q := fun st' => SlotsVec d.fields st'.slots) ?_ fun st'' h'' => Yields.pure h''
  · split
    · exact Yields.skip fun _ => Yields.skip fun _ => Yields.pure h
    · split
      · split
        · exact callVisitor_vec L rec d.attrs _ _ name h
        · exact Yields.pure h
      · refine Yields.skip fun _ => Yields.skip fun _ => ?_
        split
        · exact Yields.skip fun _ => Yields.skip fun _ => Yields.pure h
        · exact Yields.pure h
  · split
    · exact Yields.bind (Yields.lift (loadAttrs_vec L rec attrs h')) fun ss hss => Yields.pure hss
    · exact Yields.pure h'

theorem structStep_vec (fuel : Nat) (d : StructDef) (named : Str) (startDepth : Nat) {st : LoopSt}
    (h : SlotsVec d.fields st.slots) :
    Yields (structStep L rec fuel d named startDepth st) fun r => SlotsVec d.fields r.1.slots := by
  unfold structStep
  refine Yields.skip fun e => ?_
  split
  · exact Yields.bind (structStart_vec L rec fuel d _ _ h) fun st' h' => Yields.pure h'
  · refine Yields.skip fun rd => ?_
    split
    · exact Yields.skip fun _ => Yields.pure h
    · exact Yields.skip fun _ => Yields.skip fun _ => Yields.pure h
  · split <;> exact Yields.pure h
  · exact Yields.skip fun _ => Yields.skip fun _ => Yields.pure (slotsVec_setText _ h)
  · exact Yields.throw _

theorem structLoop_vec (skipFuel : Nat) (d : StructDef) (named : Str) (startDepth : Nat) :
    ∀ (n : Nat) {st : LoopSt}, SlotsVec d.fields st.slots →
    Yields (structLoop L rec skipFuel d named startDepth n st) fun st' => SlotsVec d.fields st'.slots
  | 0, st, _ => by
    simp only [structLoop]
    exact Yields.diverge
  | n + 1, st, h => by
    simp only [structLoop]
    refine Yields.bind (structStep_vec L rec skipFuel d named startDepth h) fun r h' => ?_
    split
    · exact structLoop_vec skipFuel d named startDepth n h'
    · exact Yields.pure h'

end

/-- What follows a computation need agree only on the values it can return. -/
theorem Yields.congr {α β : Type} {Q : α → Prop} {x : D α} {f g : α → D β} (h : Yields x Q) (hfg : ∀ a, Q a → f a = g a) :
    x >>= f = x >>= g := by
  funext rd
  show M.bind x f rd = M.bind x g rd
  unfold M.bind
  rcases hx : x rd with ⟨_ | _ | _ | _, rd'⟩
  · dsimp only
    rw [hfg _ (h rd _ rd' hx)]
  all_goals rfl

end Yaserde
