import Verif.Proofs.Size
import Verif.Spec.Decode
/-
The generated deserializers: the events consumed pay for the value.
-/

set_option autoImplicit false

namespace Yaserde

/-- Prices under which the events pay: `K` for each event, `A` times the attributes and `c` times the text. -/
structure Pays (f : REv → Nat) (c K A : Nat) : Prop where
  fin : f .endDocument = 0
  start : ∀ n as m, K + attrsCost A as ≤ f (.start n as m)
  text : ∀ t, K + (c + 1) * (1 + t.length) ≤ f (.chars t)
  close : ∀ n, K ≤ f (.endE n)

/-- What is paid for a value: nothing has been consumed and it is one of the constants of the program, or the events consumed,
and the event in front, have paid for it and left `s` over. -/
def Paid (f : REv → Nat) (B s : Nat) (rd : Rd) (v : Val) (rd' : Rd) : Prop :=
  (rd'.pot f = rd.pot f ∧ rd'.tl f = rd.tl f ∧ v.size ≤ B) ∨ v.size + s + rd'.tl f ≤ rd.pot f

section
variable {f : REv → Nat} {c K A : Nat} (hp : Pays f c K A) (L : Lib)
include hp

theorem Wt.simpleInner (fd : FieldDef) (t : STy) (rd : Rd) (E : Nat) (hE : rd.pot f ≤ E) :
    Wt f E (simpleInner L fd t) rd fun v rd' => v.size + rd'.pot f ≤ rd.pot f := by
  refine .bind (.apeek hp.fin) fun r rd1 _ h1 => ?_
  split
  · rename_i s
    refine .bind (.next hp.fin (Nat.le_trans (tl_le_pot f rd1) (by omega))) fun e rd2 hle2 h2 => ?_
    split
    · rename_i v hv
      refine .ret ?_
      have h3 := visitS_size L hv
      have h4 := h1.2.2 _ rfl
      have h5 := hp.text s
      rw [Nat.add_mul] at h5
      omega
    · exact .throw (by omega)
  · exact .throw (by omega)

theorem Wt.callSimple (root : Attrs) (fd : FieldDef) (i : Nat) (t : STy) (name : Name) (st : LoopSt) (rd : Rd) (E : Nat)
    (hE : rd.pot f ≤ E) :
    Wt f E (callSimple L root fd i t name st) rd fun st' rd' => st'.depth = st.depth ∧
      slotsSize st'.slots + rd'.pot f ≤ slotsSize st.slots + rd.tl f := by
  refine .bind (Q := fun _ rd' => rd' = rd) (.ofExcept hE fun _ _ => rfl) fun _ rd1 _ h1 => ?_
  subst h1
  have hin := Wt.inner (rd := rd1) (Q := fun (v : Val) p q => v.size + q ≤ p) hp.fin
    (fun rd' h => Wt.simpleInner hp L fd t rd' _ h) (fun a p q p' q' h h1 h2 => by omega)
  refine .bind (.attempt hin (tl_le_pot f rd1)) fun r rd2 _ h2 => ?_
  split
  · rename_i v
    have h3 := h2.1 v rfl
    have h4 := slotsSize_modify v st.slots i
    refine .ret ⟨rfl, ?_⟩
    simp only [LoopSt.setSlot]
    omega
  · rename_i m
    have h3 := h2.2 m rfl
    exact .ret ⟨rfl, by omega⟩

theorem Wt.callStruct (rec : Path → D Val) (B s : Nat) (hB : B ≤ K) (p : Path)
    (hrec : ∀ rd E, rd.pot f ≤ E → Wt f E (rec p) rd (Paid f B s rd)) (i : Nat) (st : LoopSt) (rd : Rd) (E : Nat)
    (hE : rd.pot f ≤ E) :
    Wt f E (callStruct rec i p st) rd fun st' rd' => st'.depth = st.depth ∧
      slotsSize st'.slots + rd'.pot f ≤ slotsSize st.slots + rd.pot f ∧
      (st.depth = 0 → slotsSize st'.slots + rd'.pot f ≤ slotsSize st.slots + rd.tl f) := by
  have hlast : ∀ (rd1 : Rd), rd1.pot f ≤ rd.pot f → Wt f E (M.attempt Yaserde.peek >>= fun r =>
      match r with
      | .ok (.start _ _ _) => rec p >>= fun v => nextEvent >>= fun _ => M.pure (st.setSlot i (Slot.put v))
      | _ => M.pure st) rd1 fun st' rd' => st'.depth = st.depth ∧
        slotsSize st'.slots + rd'.pot f ≤ slotsSize st.slots + rd1.pot f := by
    intro rd1 hle1
    refine .bind (.apeek hp.fin) fun r rd2 hle2 h2 => ?_
    split
    · rename_i n as m
      refine .bind (hrec rd2 E (by omega)) fun v rd3 hle3 h3 => ?_
      refine .bind (.next hp.fin (Nat.le_trans (tl_le_pot f rd3) (by omega))) fun e rd4 hle4 h4 => ?_
      have h5 := slotsSize_modify v st.slots i
      have h6 := hp.start n as m
      have h7 := h2.2.2 _ rfl
      refine .ret ⟨rfl, ?_⟩
      simp only [LoopSt.setSlot]
      unfold Paid at h3
      rcases h3 with ⟨h8, h9, h10⟩ | h8
      · omega
      · omega
    · exact .ret ⟨rfl, by omega⟩
  unfold Yaserde.callStruct
  by_cases hd : st.depth = 0
  · rw [if_pos hd]
    refine .bind (Q := fun _ rd1 => rd1.pot f ≤ rd.tl f) ?_ fun _ rd1 hle1 h1 => ?_
    · exact .bind (.anext hp.fin) fun r rd1 _ h1 => .ret h1.1
    · refine (hlast rd1 hle1).post fun st' rd' _ h => ⟨h.1, by omega, fun _ => by omega⟩
  · rw [if_neg hd]
    refine .bind (Q := fun _ rd1 => rd1.pot f ≤ rd.pot f) (.ret (Nat.le_refl _)) fun _ rd1 hle1 h1 => ?_
    exact (hlast rd1 hle1).post fun st' rd' _ h => ⟨h.1, by omega, fun h0 => (hd h0).elim⟩

theorem Wt.callVisitor (rec : Path → D Val) (B : Nat) (s : Path → Nat) (hB : B ≤ K)
    (hrec : ∀ p rd E, rd.pot f ≤ E → Wt f E (rec p) rd (Paid f B (s p) rd)) (root : Attrs) (fd : FieldDef) (i : Nat)
    (name : Name) (st : LoopSt) (rd : Rd) (E : Nat) (hE : rd.pot f ≤ E) :
    Wt f E (callVisitor L rec root fd i name st) rd fun st' rd' => st'.depth = st.depth ∧
      slotsSize st'.slots + rd'.pot f ≤ slotsSize st.slots + rd.pot f ∧
      (st.depth = 0 → slotsSize st'.slots + rd'.pot f ≤ slotsSize st.slots + rd.tl f) := by
  unfold Yaserde.callVisitor
  split
  · exact Wt.callStruct hp rec B _ hB _ (hrec _) i st rd E hE
  · have := tl_le_pot f rd
    exact (Wt.callSimple hp L root fd i _ name st rd E hE).post fun st' rd' _ h => ⟨h.1, by omega, fun _ => by omega⟩
  · exact .panic

omit hp in
theorem Wt.unused (d : StructDef) (hno : d.hasFlat = false) (e : REv) (w : Option EW) (rd : Rd) (E : Nat) (hE : rd.pot f ≤ E) :
    Wt f E (M.lift (writeUnused d.hasFlat e w)) rd fun _ rd' => rd' = rd := by
  rw [hno]
  exact .lift hE fun _ _ => rfl

theorem Wt.structStart (rec : Path → D Val) (B X : Nat) (s : Path → Nat) (hB : B ≤ K) (hX : X ≤ K)
    (hrec : ∀ p rd E, rd.pot f ≤ E → Wt f E (rec p) rd (Paid f B (s p) rd)) (fuel : Nat) (d : StructDef) (hno : d.hasFlat = false)
    (hlen : d.fields.length ≤ c) (hattr : ∀ attrs ss ss', loadAttrs L rec d.fields attrs ss = .ok ss' → slotsSize ss' ≤ slotsSize ss + attrsCost A attrs)
    (st : LoopSt) (name : Name) (attrs : List Attr) (m : NsMap) (rd : Rd) (E : Nat) (hE : rd.pot f ≤ E)
    (hhead : rd.pot f = f (.start name attrs m) + rd.tl f) :
    Wt f E (structStart L rec fuel d st name attrs) rd fun st' rd' =>
      slotsSize st'.slots + rd'.pot f ≤ slotsSize st.slots + rd.pot f ∧
      (st.depth = 0 → slotsSize st'.slots + X + rd'.pot f ≤ slotsSize st.slots + rd.pot f) := by
  have htl := tl_le_pot f rd
  unfold Yaserde.structStart
  dsimp only
  refine .bind (Q := fun st' rd' => st'.depth = st.depth ∧
      slotsSize st'.slots + rd'.pot f ≤ slotsSize st.slots + rd.pot f ∧
      (st.depth = 0 → slotsSize st'.slots + rd'.pot f ≤ slotsSize st.slots + rd.tl f)) ?_ fun st' rd' hle h => ?_
  · split
    · refine .bind (.next hp.fin (by omega)) fun e rd1 hle1 h1 => ?_
      refine .bind (Wt.unused d hno e st.writer rd1 E (by omega)) fun w rd2 _ h2 => ?_
      subst h2
      refine .ret ⟨rfl, ?_, fun _ => ?_⟩
      · show slotsSize st.slots + _ ≤ _
        omega
      · show slotsSize st.slots + _ ≤ _
        omega
    · split
      · split
        · exact Wt.callVisitor hp L rec B s hB hrec d.attrs _ _ name st rd E hE
        · rename_i hi _ hnone
          have := findArm_lt hi
          have h2 := List.getElem?_eq_none_iff.mp hnone
          omega
      · refine .bind (.next hp.fin (by omega)) fun e rd1 hle1 h1 => ?_
        refine .bind (Wt.unused d hno e st.writer rd1 E (by omega)) fun w rd2 _ h2 => ?_
        subst h2
        split
        · refine .bind (.skipElement hp.fin fuel rd2 (by omega)) fun evs rd3 hle3 _ => ?_
          refine .bind (Q := fun _ rd4 => rd4 = rd3) (.lift (by omega) fun _ _ => rfl) fun w' rd4 _ h4 => ?_
          subst h4
          refine .ret ⟨rfl, ?_, fun _ => ?_⟩
          · show slotsSize st.slots + _ ≤ _
            omega
          · show slotsSize st.slots + _ ≤ _
            omega
        · refine .ret ⟨rfl, ?_, fun _ => ?_⟩
          · show slotsSize st.slots + _ ≤ _
            omega
          · show slotsSize st.slots + _ ≤ _
            omega
  · refine .bind (Q := fun st2 rd2 => slotsSize st2.slots + rd2.pot f ≤ slotsSize st.slots + rd.pot f ∧
      (st.depth = 0 → slotsSize st2.slots + X + rd2.pot f ≤ slotsSize st.slots + rd.pot f)) ?_ fun st2 rd2 _ h2 => .ret h2
    split
    · rename_i h0
      rw [h.1] at h0
      refine .bind (Q := fun ss rd2 => rd2 = rd' ∧ slotsSize ss ≤ slotsSize st'.slots + attrsCost A attrs)
        (.lift (by omega) fun ss hss => ⟨rfl, hattr attrs _ ss hss⟩) fun ss rd2 _ h2 => ?_
      obtain ⟨rfl, h2⟩ := h2
      have h3 := h.2.2 h0
      have h4 := hp.start name attrs m
      refine .ret ⟨?_, fun _ => ?_⟩
      · show slotsSize ss + _ ≤ _
        omega
      · show slotsSize ss + X + _ ≤ _
        omega
    · rename_i h0
      rw [h.1] at h0
      exact .ret ⟨h.2.1, fun hc => (h0 hc).elim⟩

theorem Wt.structStep (rec : Path → D Val) (B X : Nat) (s : Path → Nat) (hB : B ≤ K) (hX : X ≤ K)
    (hrec : ∀ p rd E, rd.pot f ≤ E → Wt f E (rec p) rd (Paid f B (s p) rd)) (fuel : Nat) (d : StructDef) (hno : d.hasFlat = false)
    (hlen : d.fields.length ≤ c) (hattr : ∀ attrs ss ss', loadAttrs L rec d.fields attrs ss = .ok ss' → slotsSize ss' ≤ slotsSize ss + attrsCost A attrs)
    (named : Str) (startDepth : Nat) (st : LoopSt) (rd : Rd) (E : Nat) (hE : rd.pot f ≤ E) :
    Wt f E (structStep L rec fuel d named startDepth st) rd fun r rd' =>
      slotsSize r.1.slots + rd'.pot f ≤ slotsSize st.slots + rd.pot f ∧
      (st.depth = 0 → (rd'.pot f = rd.pot f ∧ rd'.tl f = rd.tl f ∧ r.1.slots = st.slots ∧ r.1.depth = 0) ∨
        slotsSize r.1.slots + X + rd'.pot f ≤ slotsSize st.slots + rd.pot f) := by
  have htl := tl_le_pot f rd
  unfold Yaserde.structStep
  refine .bind (.peek hp.fin hE) fun e rd1 hle1 h1 => ?_
  have hp1 := h1.pot
  have ht1 := h1.tl
  have hh1 := h1.head
  split
  · rename_i name attrs m
    refine .bind (Wt.structStart hp L rec B X s hB hX hrec fuel d hno hlen hattr st name attrs m rd1 E (by omega)
      (by rw [hp1, ht1]; exact hh1)) fun st' rd2 _ h2 => ?_
    refine .ret ⟨?_, fun h0 => .inr ?_⟩
    · show slotsSize st'.slots + _ ≤ _
      have := h2.1
      omega
    · show slotsSize st'.slots + X + _ ≤ _
      have := h2.2 h0
      omega
  · rename_i name
    refine .get ?_
    split
    · refine .bind (Wt.unused d hno _ st.writer rd1 E (by omega)) fun w rd2 _ h2 => ?_
      subst h2
      refine .ret ⟨?_, fun h0 => .inl ⟨hp1, ht1, rfl, h0⟩⟩
      show slotsSize st.slots + _ ≤ _
      omega
    · refine .bind (.next hp.fin (by have := tl_le_pot f rd1; omega)) fun e rd2 hle2 h2 => ?_
      refine .bind (Wt.unused d hno _ st.writer rd2 E (by omega)) fun w rd3 _ h3 => ?_
      subst h3
      have := hp.close name
      refine .ret ⟨?_, fun h0 => .inr ?_⟩
      · show slotsSize st.slots + _ ≤ _
        omega
      · show slotsSize st.slots + X + _ ≤ _
        omega
  · split
    · exact .ret ⟨by show slotsSize st.slots + _ ≤ _; omega, fun h0 => .inl ⟨hp1, ht1, rfl, h0⟩⟩
    · exact .ret ⟨by show slotsSize st.slots + _ ≤ _; omega, fun h0 => .inl ⟨hp1, ht1, rfl, h0⟩⟩
  · rename_i t
    refine .bind (.next hp.fin (by have := tl_le_pot f rd1; omega)) fun e rd2 hle2 h2 => ?_
    refine .bind (Wt.unused d hno _ st.writer rd2 E (by omega)) fun w rd3 _ h3 => ?_
    subst h3
    have h4 := slotsSize_text d.fields t st.slots
    have h5 := hp.text t
    have h6 : d.fields.length * (1 + t.length) ≤ c * (1 + t.length) := Nat.mul_le_mul_right _ hlen
    rw [Nat.add_mul] at h5
    refine .ret ⟨?_, fun h0 => .inr ?_⟩
    · show slotsSize (setText d.fields t st.slots) + _ ≤ _
      omega
    · show slotsSize (setText d.fields t st.slots) + X + _ ≤ _
      omega
  · exact .throw (by omega)

theorem Wt.structLoop (rec : Path → D Val) (B X : Nat) (s : Path → Nat) (hB : B ≤ K) (hX : X ≤ K)
    (hrec : ∀ p rd E, rd.pot f ≤ E → Wt f E (rec p) rd (Paid f B (s p) rd)) (fuel : Nat) (d : StructDef) (hno : d.hasFlat = false)
    (hlen : d.fields.length ≤ c) (hattr : ∀ attrs ss ss', loadAttrs L rec d.fields attrs ss = .ok ss' → slotsSize ss' ≤ slotsSize ss + attrsCost A attrs)
    (named : Str) (startDepth : Nat) (E P T : Nat) (n : Nat) : ∀ (st : LoopSt) (rd : Rd), rd.pot f ≤ E →
    ((rd.pot f = P ∧ rd.tl f = T ∧ slotsSize st.slots = 0 ∧ st.depth = 0) ∨ slotsSize st.slots + X + rd.pot f ≤ P) →
    Wt f E (structLoop L rec fuel d named startDepth n st) rd fun st' rd' =>
      (rd'.pot f = P ∧ rd'.tl f = T ∧ slotsSize st'.slots = 0) ∨ slotsSize st'.slots + X + rd'.pot f ≤ P := by
  induction n with
  | zero => intro st rd _ _; exact .diverge
  | succ n ih =>
    intro st rd hE hinv
    unfold Yaserde.structLoop
    refine .bind (Wt.structStep hp L rec B X s hB hX hrec fuel d hno hlen hattr named startDepth st rd E hE) fun r rd1 hle h => ?_
    obtain ⟨st', b⟩ := r
    dsimp only at h ⊢
    have hinv' : (rd1.pot f = P ∧ rd1.tl f = T ∧ slotsSize st'.slots = 0 ∧ st'.depth = 0) ∨
        slotsSize st'.slots + X + rd1.pot f ≤ P := by
      rcases hinv with ⟨h1, h2, h3, h4⟩ | h1
      · rcases h.2 h4 with ⟨h5, h6, h7, h8⟩ | h5
        · exact .inl ⟨by omega, by omega, by rw [h7]; exact h3, h8⟩
        · exact .inr (by omega)
      · have := h.1
        exact .inr (by omega)
    split
    · exact ih st' rd1 (by omega) hinv'
    · refine .ret ?_
      rcases hinv' with ⟨h1, h2, h3, -⟩ | h1
      · exact .inl ⟨h1, h2, h3⟩
      · exact .inr h1

theorem Wt.structDeser (rec : Path → D Val) (B s0 : Nat) (s : Path → Nat) (hB : B ≤ K) (hov : 1 + c * (c + 1) ≤ B)
    (hX : 1 + c * (c + 1) + s0 ≤ K)
    (hrec : ∀ p rd E, rd.pot f ≤ E → Wt f E (rec p) rd (Paid f B (s p) rd)) (fuel : Nat) (d : StructDef) (hno : d.hasFlat = false)
    (hlen : d.fields.length ≤ c) (hattr : ∀ attrs ss ss', loadAttrs L rec d.fields attrs ss = .ok ss' → slotsSize ss' ≤ slotsSize ss + attrsCost A attrs)
    (hdf : ∀ g ∈ d.fields, ∀ x, g.dflt = some x → x.val.size ≤ c) (rd : Rd) (E : Nat) (hE : rd.pot f ≤ E) :
    Wt f E (structDeser L rec fuel d) rd (Paid f B s0 rd) := by
  unfold Yaserde.structDeser
  refine .bind (.peek hp.fin hE) fun e rd1 hle1 h1 => ?_
  refine .get ?_
  unfold structBody
  refine .bind (Q := fun _ rd2 => rd2 = rd1) ?_ fun _ rd2 _ h2 => ?_
  · split
    · exact .ofExcept (by omega) fun _ _ => rfl
    · exact .ret rfl
  subst h2
  refine .bind (Wt.structLoop hp L rec B (1 + c * (c + 1) + s0) s hB hX hrec fuel d hno hlen hattr _ _ E (rd.pot f) (rd.tl f) fuel
    _ rd2 (by omega) (.inl ⟨h1.pot, h1.tl, slotsSize_init d.fields, rfl⟩)) fun st rd3 hle3 h3 => ?_
  refine .bind (Q := fun ss rd4 => ss = st.slots ∧ rd4 = rd3) ?_ fun ss rd4 _ h4 => ?_
  · rw [hno]
    exact .ret ⟨rfl, rfl⟩
  obtain ⟨rfl, rfl⟩ := h4
  refine .bind (Q := fun vs rd5 => rd5 = rd4 ∧ Val.sizeL vs ≤ slotsSize st.slots + d.fields.length * (c + 1))
    (.lift (by omega) fun vs hvs => ⟨rfl, buildFields_size d.name c d.fields _ vs hdf hvs⟩) fun vs rd5 _ h5 => ?_
  obtain ⟨rfl, h5⟩ := h5
  have h6 : d.fields.length * (c + 1) ≤ c * (c + 1) := Nat.mul_le_mul_right _ hlen
  have h7 := tl_le_pot f rd5
  refine .ret ?_
  unfold Paid
  simp only [Val.size]
  rcases h3 with ⟨h8, h9, h10⟩ | h8
  · exact .inl ⟨h8, h9, by omega⟩
  · exact .inr (by omega)

/-! ### Enums -/

omit hp in
theorem setVariant_size {i : Nat} {t : FTy} {v : Val} {cur cur' : Option Val} (h : setVariant i t v cur = .ok cur') :
    ((cur'.map Val.size).getD 0) ≤ (cur.map Val.size).getD 0 + v.size + 2 := by
  unfold setVariant at h
  split at h
  · cases h; simp [Val.size, Val.sizeL]; omega
  · split at h
    · split at h
      · cases h; simp [Val.size, Val.sizeL, sizeL_append]; omega
      · cases h
    · cases h
    · cases h; simp [Val.size, Val.sizeL]; omega
  · cases h; simp [Val.size, Val.sizeL]; omega

theorem Wt.variantInner (t : STy) (rd : Rd) (E : Nat) (hE : rd.pot f ≤ E) (hK : 1 ≤ K) :
    Wt f E (variantInner L t) rd fun v rd' => v.size + rd'.pot f ≤ rd.pot f + 1 := by
  unfold Yaserde.variantInner
  refine .bind (.peek hp.fin hE) fun e rd1 hle1 h1 => ?_
  have hv : ∀ (s : Str) (rd2 : Rd), (rd2.pot f + s.length ≤ rd.pot f) →
      Wt f E (visitUnwrap L t s) rd2 fun v rd' => v.size + rd'.pot f ≤ rd.pot f + 1 := by
    intro s rd2 h
    unfold visitUnwrap
    split
    · rename_i v hv
      have := parseS_size L hv
      exact .ret (by omega)
    · exact .panic
  split
  · exact hv [] rd1 (by simpa using hle1)
  · refine .bind (.anext hp.fin) fun r rd2 hle2 h2 => ?_
    split
    · rename_i s
      have h3 := h2.2 _ rfl
      have h4 := hp.text s
      rw [Nat.add_mul] at h4
      exact hv s rd2 (by omega)
    · exact .throw (by omega)

/-- What is known about the value of an enum while it is being read. -/
def Held (f : REv → Nat) (Y P T : Nat) (cur : Option Val) (rd : Rd) : Prop :=
  (rd.pot f = P ∧ rd.tl f = T ∧ cur = none) ∨ (cur.map Val.size).getD 0 + Y + rd.pot f ≤ P

/-- The result of an arm: either the loop goes on, or it ends with a variant without payload. -/
def ArmPost (f : REv → Nat) (B Y s0 P T : Nat) (r : Option Val × Bool) (rd' : Rd) : Prop :=
  if r.2 then Held f Y P T r.1 rd'
  else ((rd'.pot f = P ∧ rd'.tl f = T ∧ ∃ v, r.1 = some v ∧ v.size ≤ B) ∨ (r.1.map Val.size).getD 0 + s0 + rd'.pot f ≤ P ∧ ∃ v, r.1 = some v)

theorem Wt.variantArm (rec : Path → D Val) (B s0 Y : Nat) (s : Path → Nat) (hB1 : 1 ≤ B) (hY : s0 + c + 1 ≤ Y) (hK : B + Y + 3 ≤ K)
    (hrec : ∀ p rd E, rd.pot f ≤ E → Wt f E (rec p) rd (Paid f B (s p) rd)) (i : Nat) (v : VariantDef)
    (hs : ∀ t q, v.shape = .newtype t → t.core = .struct q → Y + 2 ≤ s q) (cur : Option Val) (rd : Rd) (E P T : Nat) (hE : rd.pot f ≤ E)
    (hinv : Held f Y P T cur rd) (hhead : K + rd.tl f ≤ rd.pot f) :
    Wt f E (variantArm L rec i v cur) rd (ArmPost f B Y s0 P T) := by
  have htl := tl_le_pot f rd
  -- what is left over when at least the event in front has been consumed
  have hcur : ∀ (x : Nat), x ≤ rd.tl f → (cur.map Val.size).getD 0 + Y + 3 + B + x ≤ P := by
    intro x hx
    rcases hinv with ⟨h1, h2, h3⟩ | h1
    · subst h3; simp only [Option.map_none, Option.getD_none]; omega
    · omega
  unfold Yaserde.variantArm
  split
  · refine .ret ?_
    unfold ArmPost
    dsimp only
    rw [if_neg (by simp)]
    rcases hinv with ⟨h1, h2, h3⟩ | h1
    · exact .inl ⟨h1, h2, _, rfl, by simpa [Val.size, Val.sizeL] using hB1⟩
    · refine .inr ⟨?_, _, rfl⟩
      simp only [Option.map_some, Option.getD_some, Val.size, Val.sizeL]
      omega
  · exact .ret (by unfold ArmPost; rw [if_pos rfl]; exact hinv)
  · rename_i t ht
    split
    · rename_i q hq
      have hsq := hs t q ht hq
      refine .bind (hrec q rd E hE) fun x rd1 hle1 h1 => ?_
      refine .bind (Q := fun cur' rd2 => rd2 = rd1 ∧ (cur'.map Val.size).getD 0 ≤ (cur.map Val.size).getD 0 + x.size + 2)
        (.ofExcept (by omega) fun cur' hc => ⟨rfl, setVariant_size hc⟩) fun cur' rd2 _ h2 => ?_
      obtain ⟨rfl, h2⟩ := h2
      refine .bind (.anext hp.fin) fun r rd3 hle3 h3 => .ret ?_
      unfold ArmPost
      rw [if_pos rfl]
      refine .inr ?_
      show (cur'.map Val.size).getD 0 + Y + rd3.pot f ≤ P
      unfold Paid at h1
      rcases h1 with ⟨h4, h5, h6⟩ | h4
      · have := hcur (rd3.pot f) (by omega)
        omega
      · rcases hinv with ⟨h5, h6, h7⟩ | h5
        · subst h7
          simp only [Option.map_none, Option.getD_none] at h2
          omega
        · omega
    · rename_i t' ht'
      have hin := Wt.inner (rd := rd) (Q := fun (v : Val) p q => v.size + q ≤ p + 1) hp.fin
        (fun rd' h => Wt.variantInner hp L t' rd' _ h (by omega)) (fun a p q p' q' h h1 h2 => by omega)
      refine .bind (.attempt hin htl) fun r rd1 _ h1 => ?_
      split
      · rename_i x
        have h2 := h1.1 x rfl
        refine .bind (Q := fun cur' rd2 => rd2 = rd1 ∧ (cur'.map Val.size).getD 0 ≤ (cur.map Val.size).getD 0 + x.size + 2)
          (.ofExcept (by omega) fun cur' hc => ⟨rfl, setVariant_size hc⟩) fun cur' rd2 _ h3 => ?_
        obtain ⟨rfl, h3⟩ := h3
        refine .ret ?_
        unfold ArmPost
        rw [if_pos rfl]
        refine .inr ?_
        show (cur'.map Val.size).getD 0 + Y + rd2.pot f ≤ P
        have := hcur (rd.tl f) (Nat.le_refl _)
        omega
      · rename_i m
        have h2 := h1.2 m rfl
        refine .ret ?_
        unfold ArmPost
        rw [if_pos rfl]
        refine .inr ?_
        show (cur.map Val.size).getD 0 + Y + rd1.pot f ≤ P
        have := hcur (rd1.pot f) h2
        omega
    · exact .panic

theorem Wt.enumMatch (rec : Path → D Val) (B s0 Y : Nat) (s : Path → Nat) (hB1 : 1 ≤ B) (hY : s0 + c + 1 ≤ Y) (hK : B + Y + 3 ≤ K)
    (hrec : ∀ p rd E, rd.pot f ≤ E → Wt f E (rec p) rd (Paid f B (s p) rd)) (d : EnumDef)
    (hs : ∀ v ∈ d.variants, ∀ t q, v.shape = .newtype t → t.core = .struct q → Y + 2 ≤ s q) (key : Str) (cur : Option Val) (rd : Rd)
    (E P T : Nat) (hE : rd.pot f ≤ E) (hinv : Held f Y P T cur rd) (hhead : K + rd.tl f ≤ rd.pot f) (dflt : D (Option Val × Bool))
    (hd : Wt f E dflt rd (ArmPost f B Y s0 P T)) :
    Wt f E (enumMatch L rec d key cur dflt) rd (ArmPost f B Y s0 P T) := by
  unfold Yaserde.enumMatch
  split
  · split
    · rename_i v hv
      exact Wt.variantArm hp L rec B s0 Y s hB1 hY hK hrec _ v (hs v (List.mem_of_getElem? hv)) cur rd E P T hE hinv hhead
    · exact hd
  · exact hd

/-- The result of an iteration. -/
def StepPost (f : REv → Nat) (c B Y s0 P T : Nat) (r : Option Val × Bool) (rd' : Rd) : Prop :=
  if r.2 then Held f Y P T r.1 rd'
  else ((rd'.pot f = P ∧ rd'.tl f = T ∧ ∀ v, r.1 = some v → v.size ≤ B) ∨ 
    (r.1.map Val.size).getD c + s0 + rd'.pot f ≤ P)

omit hp in
theorem ArmPost.step {B Y s0 P T : Nat} {r : Option Val × Bool} {rd' : Rd} (h : ArmPost f B Y s0 P T r rd') :
    StepPost f c B Y s0 P T r rd' := by
  unfold ArmPost at h
  unfold StepPost
  split
  · rename_i hr; rw [if_pos hr] at h; exact h
  · rename_i hr
    rw [if_neg hr] at h
    rcases h with ⟨h1, h2, v, hv, h3⟩ | ⟨h1, v, hv⟩
    · exact .inl ⟨h1, h2, fun x hx => by rw [hv] at hx; cases hx; exact h3⟩
    · refine .inr ?_
      rw [hv] at h1 ⊢
      exact h1

omit hp in
theorem Held.stop {B Y s0 P T : Nat} {cur : Option Val} {rd : Rd} (hY : s0 + c + 1 ≤ Y) (h : Held f Y P T cur rd) :
    StepPost f c B Y s0 P T (cur, false) rd := by
  unfold StepPost
  rw [if_neg (by simp)]
  rcases h with ⟨h1, h2, h3⟩ | h1
  · exact .inl ⟨h1, h2, fun v hv => by rw [show cur = none from h3] at hv; cases hv⟩
  · refine .inr ?_
    cases cur with
    | none => simp only [Option.map_none, Option.getD_none] at h1 ⊢; omega
    | some v => simp only [Option.map_some, Option.getD_some] at h1 ⊢; omega

theorem Wt.enumStep (rec : Path → D Val) (B s0 Y : Nat) (s : Path → Nat) (hB1 : 1 ≤ B) (hY : s0 + c + 1 ≤ Y) (hK : B + Y + 3 ≤ K)
    (hrec : ∀ p rd E, rd.pot f ≤ E → Wt f E (rec p) rd (Paid f B (s p) rd)) (d : EnumDef)
    (hs : ∀ v ∈ d.variants, ∀ t q, v.shape = .newtype t → t.core = .struct q → Y + 2 ≤ s q) (named : Str) (startDepth : Nat)
    (cur : Option Val) (rd : Rd) (E P T : Nat) (hE : rd.pot f ≤ E) (hinv : Held f Y P T cur rd) :
    Wt f E (enumStep L rec d named startDepth cur) rd (StepPost f c B Y s0 P T) := by
  have hkeep : ∀ (cur : Option Val) (rd rd' : Rd), rd'.pot f = rd.pot f → rd'.tl f = rd.tl f → Held f Y P T cur rd → Held f Y P T cur rd' := by
    intro cur rd rd' h1 h2 h
    unfold Held
    rw [h1, h2]
    exact h
  -- an event is dropped
  have hdrop : ∀ (rd1 : Rd), rd1.pot f ≤ E → Held f Y P T cur rd1 → K + rd1.tl f ≤ rd1.pot f →
      Wt f E (M.attempt nextEvent >>= fun _ => M.pure (cur, true)) rd1 (ArmPost f B Y s0 P T) := by
    intro rd1 hle1 hinv1 hhead
    refine .bind (.anext hp.fin) fun r rd2 hle2 h2 => .ret ?_
    unfold ArmPost
    rw [if_pos rfl]
    refine .inr ?_
    show (cur.map Val.size).getD 0 + Y + rd2.pot f ≤ P
    rcases hinv1 with ⟨h3, h4, h5⟩ | h3
    · subst h5; simp only [Option.map_none, Option.getD_none]; omega
    · omega
  unfold Yaserde.enumStep
  refine .bind (.peek hp.fin hE) fun e rd1 hle1 h1 => ?_
  have hinv1 := hkeep cur rd rd1 h1.pot h1.tl hinv
  have hp1 := h1.pot
  have ht1 := h1.tl
  have hh1 := h1.head
  split
  · rename_i name attrs m
    have hst := hp.start name attrs m
    have hhead : K + rd1.tl f ≤ rd1.pot f := by omega
    refine .bind (Q := fun _ rd2 => rd2 = rd1) (.ofExcept (by omega) fun _ _ => rfl) fun key rd2 _ h2 => ?_
    subst h2
    refine .bind (Wt.enumMatch hp L rec B s0 Y s hB1 hY hK hrec d hs key cur rd2 E P T (by omega) hinv1 hhead _
      (hdrop rd2 (by omega) hinv1 hhead)) fun r rd3 hle3 h3 => ?_
    obtain ⟨cur', b⟩ := r
    dsimp only
    cases b with
    | false =>
      exact .ret h3.step
    | true =>
      rw [if_pos rfl]
      have h3' : Held f Y P T cur' rd3 := h3
      refine .bind (.peek hp.fin (by omega)) fun e' rd4 hle4 h4 => ?_
      have hinv4 := hkeep cur' rd3 rd4 h4.pot h4.tl h3'
      split
      · rename_i content
        have h5 := hp.text content
        have h6 := h4.head
        have h7 := h4.pot
        have h8 := h4.tl
        have hhead4 : K + rd4.tl f ≤ rd4.pot f := by omega
        refine (Wt.enumMatch hp L rec B s0 Y s hB1 hY hK hrec d hs content cur' rd4 E P T (by omega) hinv4 hhead4 _ (.ret ?_)).post
          fun r rd5 _ h5 => h5.step
        unfold ArmPost
        rw [if_pos rfl]
        exact hinv4
      · exact .ret (by unfold StepPost; rw [if_pos rfl]; exact hinv4)
  · rename_i name
    have hst := hp.close name
    refine .get ?_
    split
    · exact .ret (hinv1.stop hY)
    · exact (hdrop rd1 (by omega) hinv1 (by omega)).post fun _ _ _ h => h.step
  · rename_i t
    have hst := hp.text t
    exact (hdrop rd1 (by omega) hinv1 (by omega)).post fun _ _ _ h => h.step
  · split
    · exact .ret (hinv1.stop hY)
    · exact .throw (by omega)
  · exact .throw (by omega)

theorem Wt.enumLoop (rec : Path → D Val) (B s0 Y : Nat) (s : Path → Nat) (hB1 : 1 ≤ B) (hY : s0 + c + 1 ≤ Y) (hK : B + Y + 3 ≤ K)
    (hrec : ∀ p rd E, rd.pot f ≤ E → Wt f E (rec p) rd (Paid f B (s p) rd)) (d : EnumDef)
    (hs : ∀ v ∈ d.variants, ∀ t q, v.shape = .newtype t → t.core = .struct q → Y + 2 ≤ s q) (named : Str) (startDepth : Nat)
    (E P T : Nat) (n : Nat) : ∀ (cur : Option Val) (rd : Rd), rd.pot f ≤ E → Held f Y P T cur rd →
    Wt f E (enumLoop L rec d named startDepth n cur) rd fun cur' rd' => StepPost f c B Y s0 P T (cur', false) rd' := by
  induction n with
  | zero => intro cur rd _ _; exact .diverge
  | succ n ih =>
    intro cur rd hE hinv
    unfold Yaserde.enumLoop
    refine .bind (Wt.enumStep hp L rec B s0 Y s hB1 hY hK hrec d hs named startDepth cur rd E P T hE hinv) fun r rd1 hle h => ?_
    obtain ⟨cur', b⟩ := r
    dsimp only at h ⊢
    cases b with
    | true => exact ih cur' rd1 (by omega) h
    | false => exact .ret h

theorem Wt.enumDeser (rec : Path → D Val) (B s0 Y : Nat) (s : Path → Nat) (hB1 : 1 ≤ B) (hBc : c ≤ B) (hY : s0 + c + 1 ≤ Y)
    (hK : B + Y + 3 ≤ K) (hrec : ∀ p rd E, rd.pot f ≤ E → Wt f E (rec p) rd (Paid f B (s p) rd)) (d : EnumDef)
    (hs : ∀ v ∈ d.variants, ∀ t q, v.shape = .newtype t → t.core = .struct q → Y + 2 ≤ s q) (hdf : d.dflt.size ≤ c) (fuel : Nat)
    (rd : Rd) (E : Nat) (hE : rd.pot f ≤ E) :
    Wt f E (enumDeser L rec fuel d) rd (Paid f B s0 rd) := by
  unfold Yaserde.enumDeser
  refine .bind (.peek hp.fin hE) fun e rd1 hle1 h1 => ?_
  refine .get ?_
  unfold enumBody
  refine .bind (Q := fun _ rd2 => rd2 = rd1) (.ofExcept (by omega) fun _ _ => rfl) fun _ rd2 _ h2 => ?_
  subst h2
  refine .bind (Wt.enumLoop hp L rec B s0 Y s hB1 hY hK hrec d hs _ _ E (rd.pot f) (rd.tl f) fuel none rd2 (by omega)
    (.inl ⟨h1.pot, h1.tl, rfl⟩)) fun cur rd3 hle3 h3 => .ret ?_
  have h4 := tl_le_pot f rd3
  unfold StepPost at h3
  rw [if_neg (by simp)] at h3
  unfold Paid
  rcases h3 with ⟨h5, h6, h7⟩ | h5
  · refine .inl ⟨h5, h6, ?_⟩
    cases cur with
    | none => exact Nat.le_trans hdf hBc
    | some v => exact h7 v rfl
  · refine .inr ?_
    cases cur with
    | none => simp only [Option.map_none, Option.getD_none] at h5 ⊢; omega
    | some v => simp only [Option.map_some, Option.getD_some] at h5 ⊢; omega

theorem Wt.primDeser (B s0 : Nat) (hK : s0 + c ≤ K) (d : PrimDef) (hd : ∀ t v, d.fromStr t = .ok v → v.size ≤ c * (1 + t.length))
    (rd : Rd) (E : Nat) (hE : rd.pot f ≤ E) : Wt f E (primDeser d) rd (Paid f B s0 rd) := by
  unfold Yaserde.primDeser
  refine .bind (.apeek hp.fin) fun r rd1 hle1 h1 => ?_
  split
  · rename_i n as m
    have h2 := hp.start n as m
    have h3 := h1.2.2 _ rfl
    refine .bind (.next hp.fin (Nat.le_trans (tl_le_pot f rd1) (by omega))) fun e rd2 hle2 h4 => ?_
    refine .bind (.apeek hp.fin) fun r2 rd3 hle3 h5 => ?_
    have h6 := tl_le_pot f rd3
    split
    · rename_i t
      have h7 := h5.2.2 _ rfl
      have h8 := hp.text t
      rw [Nat.add_mul] at h8
      refine .ofExcept (by omega) fun v hv => .inr ?_
      have := hd t v hv
      omega
    · refine .ofExcept (by omega) fun v hv => .inr ?_
      have := hd [] v hv
      simp only [List.length_nil, Nat.add_zero, Nat.mul_one] at this
      omega
  · exact .throw (by omega)

end

theorem pot_filter_le (f : REv → Nat) (A : Nat) (src : Src) (h : ∀ e ∈ src.evs, f e ≤ A * e.size) :
    (Rd.new src).pot f ≤ A * docSize src.evs := by
  unfold Rd.pot docSize
  rw [(at_new _).vis]
  generalize src.evs = es at h
  induction es with
  | nil => simp
  | cons e es ih =>
    have h1 := h e (List.mem_cons_self ..)
    have h2 := ih fun e he => h e (List.mem_cons_of_mem _ he)
    rw [List.filter_cons]
    split <;> simp only [List.map_cons, List.sum_cons, Nat.mul_add] <;> omega

/-- The document in which an attribute of a derived type is read pays for the value. -/
theorem visit_paid {f : REv → Nat} (A : Nat) (L : Lib) (rec : Path → D Val) (q : Path) (B s : Nat)
    (hB : B ≤ A) (hrec : ∀ rd E, rd.pot f ≤ E → Wt f E (rec q) rd (Paid f B s rd)) (t : Str)
    (hunit : ∀ e ∈ (L.parse (attrDoc q t)).evs, f e ≤ A * e.size)
    (hL : docSize (L.parse (attrDoc q t)).evs ≤ t.length + 3) (v : Val) (h : visitStructStr L rec q t = .ok v) :
    v.size ≤ A * (3 + t.length) := by
  have h1 := ((hrec (Rd.new (L.parse (attrDoc q t))) _ (Nat.le_refl _)).1 v _ (Prod.ext h rfl)).2
  have hpot := pot_filter_le f A _ hunit
  have h2 := Nat.mul_le_mul_left A hL
  have h3 : A * (t.length + 3) = A * (3 + t.length) := by rw [Nat.add_comm]
  have h4 : A ≤ A * (3 + t.length) := Nat.le_mul_of_pos_right A (by omega)
  unfold Paid at h1
  rcases h1 with ⟨-, -, h1⟩ | h1
  · omega
  · omega

/-- What the theorems need to know of the parser, for the attributes of derived types of the program: the document is larger than the
value by at most 3, and it has no attributes if the value is a word. -/
def SmallDocs (L : Lib) (env : Env) (A0 A : Nat) : Prop :=
  ∀ p d, env p = some (.struct d) → ∀ g ∈ d.fields, g.attrs.isAttr = true → ∀ q, g.ty.core = .struct q →
    (∀ t, docSize (L.parse (attrDoc q t)).evs ≤ t.length + 3) ∧
    (g.ty = .vec (.struct q) → 3 * A0 ≤ A ∧ ∀ w, (∀ c ∈ w, c.toNat ∉ blanks) → (L.parse (attrDoc q w)).evs.all bareEv = true)

/-- All types of the program. -/
theorem Wt.deser {f : REv → Nat} {c K A A0 : Nat} (hp : Pays f c K A) (hunit : ∀ e, f e ≤ A * e.size)
    (hbare : ∀ e, bareEv e = true → f e ≤ A0 * e.size) (hK0 : K ≤ A0) (hKA : K ≤ A) (L : Lib) (env : Env)
    (rank : Path → Nat) (bound : Nat) (he : RankedApart env rank bound) (hL : SmallDocs L env A0 A) (hm : Modest env c) (B : Nat) (hB : 1 + c * (c + 1) + c ≤ B)
    (hK : B + (c + 3) * (bound + 1) + 3 + (1 + c * (c + 1)) ≤ K) (n : Nat) : ∀ (p : Path) (rd : Rd) (E : Nat), rd.pot f ≤ E →
    Wt f E (deser L env n p) rd (Paid f B ((c + 3) * (bound - rank p)) rd) := by
  induction n with
  | zero => intro p rd E _; exact .diverge
  | succ n ih =>
    intro p rd E hE
    have hr := he.bounded p
    have hs0 : (c + 3) * (bound - rank p) ≤ (c + 3) * bound := Nat.mul_le_mul_left _ (by omega)
    have hs1 : (c + 3) * (bound + 1) = (c + 3) * bound + (c + 3) := by rw [Nat.mul_add, Nat.mul_one]
    unfold Yaserde.deser
    split
    · rename_i d hd
      have hno : d.hasFlat = false := by
        unfold StructDef.hasFlat
        rw [List.any_eq_false]
        intro f hf hc
        refine he.noFlat p d hd ⟨f, hf, ?_⟩
        simpa using hc
      have hlen := hm.fields p d hd
      refine Wt.structDeser hp L (Yaserde.deser L env n) B _ (fun q => (c + 3) * (bound - rank q)) (by omega) (by omega) (by omega) ih n d hno
        hlen (loadAttrs_size L _ A d.fields (by omega) (he.attrs p d hd).names fun g hg hi => ?_) (hm.dflts p d hd) rd E hE
      refine ((he.attrs p d hd).types g hg hi).imp_right fun ⟨q, hq, _⟩ => ⟨q, hq, fun t v h => ?_, fun hv => ?_⟩
      · exact visit_paid A L _ q B _ (by omega) (ih q) t (fun e _ => hunit e) ((hL p d hd g hg hi q hq).1 t) v h
      · obtain ⟨h1, h2⟩ := (hL p d hd g hg hi q hq).2 hv
        refine ⟨A0, h1, fun w v hw h => ?_⟩
        exact visit_paid A0 L _ q B _ (by omega) (ih q) w (fun e he => hbare e (List.all_eq_true.mp (h2 w hw) e he))
          ((hL p d hd g hg hi q hq).1 w) v h
    · rename_i d hd
      refine Wt.enumDeser hp L (Yaserde.deser L env n) B _ ((c + 3) * (bound - rank p) + (c + 1)) (fun q => (c + 3) * (bound - rank q)) (by omega)
        (by omega) (by omega) (by omega) ih d ?_ (hm.enums p d hd) n rd E hE
      intro v hv t q ht hq
      have hlt := he.payload p d hd v hv t q ht hq
      have : (c + 3) * (bound - rank p + 1) ≤ (c + 3) * (bound - rank q) := Nat.mul_le_mul_left _ (by omega)
      rw [Nat.mul_add, Nat.mul_one] at this
      omega
    · rename_i d hd
      exact Wt.primDeser hp B _ (by omega) d (hm.prims p d hd) rd E hE
    · exact .panic

end Yaserde
