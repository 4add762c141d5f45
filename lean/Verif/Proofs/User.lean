import Verif.Spec.User
import Verif.Proofs.DecodeStruct
/-
The struct deserializer over arbitrary implementations of its fields' types (for C80).
-/

set_option autoImplicit false

namespace Yaserde

section
variable (L : Lib) (dec : Node → Path → Res Val)

/-- All children of one element. -/
def kidsBy (d : StructDef) (ks : List Node) : Res (List Contrib) :=
  kidContribs L d ks (ks.map dec)

theorem kidsBy_cons (d : StructDef) (k : Node) (ks : List Node) :
    kidsBy L dec d (k :: ks) = (kidContrib L d (dec k) k).bind fun a =>
      (kidsBy L dec d ks).bind fun b => .ok (a ++ b) := by
  simp only [kidsBy, kidContribs, List.map_cons, List.zip_cons_cons, collect_cons,
    Res.bind_assoc, Res.bind_ok, List.flatten_cons]

/-- The loop over the children of the struct's element. -/
theorem structLoop_kidsBy (rec : Path → D Val) (skipFuel : Nat) (d : StructDef)
    (hplain : d.Plain) (hff : d.hasFlat = false) (own : Name) (dep : Nat) (rest : List REv)
    (fin : Option Str) :
    ∀ (ks : List Node) (acc : List Contrib) (st : LoopSt) (n : Nat) (rd : Rd),
      (∀ k ∈ ks, d.KidOk k) →
      (∀ k ∈ ks, ∀ name as m kids q, k = .elem name as m kids → d.FieldOfType k q →
        ∃ left : List REv, (left = [] ∨ ∃ t, left = [.chars t]) ∧ ReadsAs 1 (rec q) name k.events left (dec k q)) →
      (Node.eventsL ks).length + 1 < skipFuel →
      (Node.eventsL ks).length < n →
      st.depth ≥ 1 → st.slots = slotsFrom acc d.fields 0 →
      At (dep + 1) (Node.eventsL ks ++ .endE own :: rest) fin rd →
      Runs (structLoop L rec skipFuel d own.loc dep n st rd) (kidsBy L dec d ks)
        fun cs st' rd' => st'.slots = slotsFrom (acc ++ cs) d.fields 0 ∧
          At (dep + 1) (.endE own :: rest) fin rd' := by
  intro ks
  induction ks with
  | nil =>
    intro acc st n rd _ _ _ hn _ hsl hat
    obtain ⟨n, rfl⟩ : ∃ k, n = k + 1 := ⟨n - 1, by omega⟩
    simp only [Node.eventsL, List.nil_append] at hat
    obtain ⟨rd', h1, h2⟩ := structLoop_own_end L rec skipFuel d own.loc dep (n := n) (st := st) rfl hat
    exact ⟨_, rd', h1, by simpa using hsl, h2⟩
  | cons k ks ih =>
    intro acc st n rd hconf hrec hsk hn hd hsl hat
    have hlen : (Node.eventsL (k :: ks)).length = k.events.length + (Node.eventsL ks).length := by
      simp [Node.eventsL]
    have hck := hconf k (List.mem_cons_self ..)
    have hcks := fun k' hk' => hconf k' (List.mem_cons_of_mem _ hk')
    rw [kidsBy_cons]
    -- what remains to be done once the child has contributed `a`
    have finish : ∀ (a : List Contrib) (st1 : LoopSt) (n' : Nat) (rd1 : Rd),
        (Node.eventsL ks).length < n' → st1.depth ≥ 1 → st1.slots = slotsFrom (acc ++ a) d.fields 0 →
        At (dep + 1) (Node.eventsL ks ++ .endE own :: rest) fin rd1 →
        Runs (structLoop L rec skipFuel d own.loc dep n' st1 rd1)
          ((kidsBy L dec d ks).bind fun b => Res.ok (a ++ b))
          fun cs st' rd' => st'.slots = slotsFrom (acc ++ cs) d.fields 0 ∧
          At (dep + 1) (.endE own :: rest) fin rd' := by
      intro a st1 n' rd1 hn' hd1 hs1 ha1
      have := ih (acc ++ a) st1 n' rd1 hcks
        (fun k' hk' => hrec k' (List.mem_cons_of_mem _ hk')) (by omega) hn' hd1 hs1 ha1
      have h2 := Runs.bind (f := fun st => M.pure st) (g := fun b => Res.ok (a ++ b)) this
        (Q' := fun cs st' rd' => st'.slots = slotsFrom (acc ++ cs) d.fields 0 ∧
          At (dep + 1) (.endE own :: rest) fin rd') (by
        rintro cs st' rd' _ ⟨hs, ha⟩
        exact ⟨st', rd', rfl, by rw [hs, List.append_assoc], ha⟩)
      rwa [show (structLoop L rec skipFuel d own.loc dep n' st1 >>= fun st => M.pure st)
        = structLoop L rec skipFuel d own.loc dep n' st1 from bind_pure_right _] at h2
    obtain ⟨n, rfl⟩ : ∃ k, n = k + 1 := ⟨n - 1, by omega⟩
    cases k with
    | text s =>
      have hat' : At (dep + 1) (.chars s :: (Node.eventsL ks ++ .endE own :: rest)) fin rd := by
        simpa [Node.eventsL, Node.events] using hat
      obtain ⟨rd1, h1, a1⟩ := structLoop_text L rec skipFuel d own.loc dep (n := n) (st := st) hat'
      rw [h1]
      exact finish (textContrib d s) _ n rd1 (by simp [Node.events] at hlen; omega) hd
        (by simp only [hsl, setText_slotsFrom acc s hck d.fields hplain.textTy]; rfl) a1
    | elem name as m kids =>
      obtain ⟨hns, hck⟩ := hck
      rw [eventsL_elem_cons] at hat
      have hkl : (Node.elem name as m kids).events.length = (Node.eventsL kids).length + 2 := by
        simp [Node.events]
      refine structLoop_start L rec skipFuel d own.loc dep hat ?_
      intro rd1 a1
      cases hf : d.fieldFor name with
      | none =>
        simp only [kidContrib, hf]
        obtain ⟨rd2, h2, a2⟩ := structStart_unknown L rec skipFuel d hd hf (by omega) a1
        refine ⟨_, _, h2, ?_⟩
        exact finish [] _ n rd2 (by omega) (by simp; omega) (by simpa using hsl) a2
      | some i =>
        obtain ⟨f, hfi, hfm, hcl⟩ := fieldFor_some hf
        rcases hplain.elemTy f hfm with ⟨t, hty⟩ | ⟨q, hty⟩
        · -- scalar
          simp only [kidContrib, hf, hfi, hty]
          have hto := hck i f t hf hfi hty
          obtain ⟨st2, rd2, h2, h3⟩ := structStart_simple L rec skipFuel d hd hto hns hf hfi hty a1
          refine ⟨_, _, h2, ?_⟩
          cases hv : scalarContent L t kids with
          | some v =>
            rw [hv] at h3
            obtain ⟨rfl, a2⟩ := h3
            refine finish [(i, v)] _ n rd2 (by omega) (by simp; omega) ?_ a2
            simp only [LoopSt.setSlot, hsl, modify_slotsFrom, Nat.zero_add]
          | none =>
            rw [hv] at h3
            obtain ⟨rfl, a2⟩ := h3
            obtain ⟨n, rfl⟩ : ∃ k, n = k + 1 := ⟨n - 1, by omega⟩
            obtain ⟨rd3, h3, a3⟩ := structLoop_end L rec skipFuel d own.loc dep (n := n)
              (st := { st with depth := st.depth + 1 }) (by omega) a2
            rw [h3]
            exact finish [] _ n rd3 (by omega) (by simp; omega) (by simpa using hsl) a3
        · -- another type
          simp only [kidContrib, hf, hfi, hty]
          obtain ⟨left, hleft, hreads⟩ := hrec _ (List.mem_cons_self ..) name as m kids q rfl ⟨i, f, hf, hfi, hty⟩
          have hst := structStart_struct L rec skipFuel d hd (by omega) hf hfi hty a1
            (hleft.imp_right .inl) hreads
          have hst2 := Runs.bind (f := fun st => M.pure st) (g := fun v => Res.ok [(i, v)]) hst
            (Q' := fun a st' rd' => Runs (structLoop L rec skipFuel d own.loc dep n st' rd')
              ((kidsBy L dec d ks).bind fun b => Res.ok (a ++ b))
                fun cs st' rd' => st'.slots = slotsFrom (acc ++ cs) d.fields 0 ∧
                At (dep + 1) (.endE own :: rest) fin rd') (by
            rintro v st2 rd2 _ ⟨rfl, h2⟩
            refine ⟨_, rd2, rfl, ?_⟩
            have hslots : (st.setSlot i (Slot.put v)).slots = slotsFrom (acc ++ [(i, v)]) d.fields 0 := by
              simp only [LoopSt.setSlot, hsl, modify_slotsFrom, Nat.zero_add]
            rcases h2 with ⟨-, a2⟩ | ⟨hl, a2⟩
            · exact finish [(i, v)] { st.setSlot i (Slot.put v) with depth := st.depth + 1 } n rd2
                (by omega) (by simp; omega) hslots a2
            · obtain ⟨n, rfl⟩ : ∃ k, n = k + 1 := ⟨n - 1, by omega⟩
              obtain ⟨rd3, h3, a3⟩ := structLoop_end L rec skipFuel d own.loc dep (n := n)
                (st := { st.setSlot i (Slot.put v) with depth := st.depth + 1 }) (by omega) a2
              refine Runs.of_eq h3 ?_
              exact finish [(i, v)] _ n rd3 (by omega) (by simp; omega) hslots a3)
          rwa [show (structStart L rec skipFuel d st name as >>= fun st => M.pure st)
            = structStart L rec skipFuel d st name as from bind_pure_right _] at hst2

/-- The struct deserializer. -/
theorem structBody_by (u : Path → Str → Res Val)
    (rec : Path → D Val) (fuel : Nat) (d : StructDef) {own : Name} {as : List Attr} {m : NsMap}
    {ks : List Node} (hplain : d.Plain) (hff : d.hasFlat = false)
    (hname : (own.loc = d.attrs.rename.getD d.name ∧
            own.ns.getD [] = (d.attrs.namespaces.find d.attrs.pfx).getD []) ∨ d.fieldFor own = none)
    (hkids : ∀ k ∈ ks, d.KidOk k)
    (hrec : ∀ k ∈ ks, ∀ name as m kids q, k = .elem name as m kids → d.FieldOfType k q →
        ∃ left : List REv, (left = [] ∨ ∃ t, left = [.chars t]) ∧ ReadsAs 1 (rec q) name k.events left (dec k q))
    (huser : ∀ f ∈ d.fields, f.attrs.isAttr = true → ∀ q, f.ty.core = .struct q → ∀ a ∈ as, a.name.loc = f.label →
      ∀ s ∈ f.ty.attrTexts a.value, visitStructStr L rec q s = u q s ∧ u q s ≠ .diverge)
    (hfuel : (Node.eventsL ks).length + 1 < fuel)
    {dep : Nat} {rest : List REv} {fin : Option Str} {rd : Rd}
    (hns : dep = 0 → nsOk d.attrs own)
    (hat : At dep ((Node.elem own as m ks).events ++ rest) fin rd) :
    Runs (structBody L rec fuel d (own.loc, own.ns) dep rd)
      (decodeStruct L (attrsBy u) d own as m ks (ks.map dec)) fun v b rd' =>
        b = v ∧ At (dep + 1) (.endE own :: rest) fin rd' := by
  have hat' : At dep (.start own as m :: (Node.eventsL ks ++ .endE own :: rest)) fin rd := by
    simpa [Node.events] using hat
  unfold structBody
  have h0 : (if dep = 0 then M.ofExcept (nsMatching d.attrs.namespaces d.attrs.pfx own.ns own.loc)
      else M.pure () : D Unit) rd = (.ok (), rd) := by
    split
    · rename_i hd
      have : nsMatching d.attrs.namespaces d.attrs.pfx own.ns own.loc = .ok () := by
        unfold nsMatching
        cases hn : own.ns with
        | none => rfl
        | some u =>
          obtain ⟨e, he, h1, h2⟩ := hns hd u hn
          dsimp only
          rw [if_pos]
          rw [List.any_eq_true]
          exact ⟨e, he, by simp [h1, h2]⟩
      rw [this]; rfl
    · rfl
  rw [bind_ok h0, slotsFrom_init d.fields 0]
  obtain ⟨n, rfl⟩ : ∃ k, fuel = k + 1 := ⟨fuel - 1, by omega⟩
  -- the loop
  have hloop : Runs (structLoop L rec (n + 1) d own.loc dep (n + 1)
      ⟨0, slotsFrom [] d.fields 0, some {}⟩ rd)
      ((attrContribs L (userAttr (attrsBy u)) d as).bind fun ca => (kidsBy L dec d ks).bind fun ck => .ok (ca ++ ck))
      fun cs st' rd' => st'.slots = slotsFrom cs d.fields 0 ∧
        At (dep + 1) (.endE own :: rest) fin rd' := by
    refine structLoop_start L rec (n + 1) d own.loc dep hat' ?_
    intro rd1 a1
    refine (structStart_own L rec (userAttr (attrsBy u)) (n + 1) d hplain hname (w := some {}) huser a1).mono ?_
    rintro ca st2 rd2 - ⟨rfl, a2⟩
    have := structLoop_kidsBy L dec rec (n + 1) d hplain hff own dep rest fin ks ca
      ⟨1, slotsFrom ca d.fields 0, wput d.hasFlat (some {}) (.start own as m)⟩ n rd2 hkids hrec hfuel
      (by omega) (by simp) rfl a2
    have h2 := Runs.bind (f := fun st => M.pure st) (g := fun b => Res.ok (ca ++ b)) this
        (Q' := fun cs st' rd' => st'.slots = slotsFrom cs d.fields 0 ∧
          At (dep + 1) (.endE own :: rest) fin rd') (by
        rintro cs st' rd' _ ⟨hs, ha⟩
        exact ⟨st', rd', rfl, hs, ha⟩)
    rwa [bind_pure_right] at h2
  unfold decodeStruct
  rw [flatContribs_noFlat hff]
  have hre : ∀ g : List Contrib → Res Val,
      ((attrContribs L (userAttr (attrsBy u)) d as).bind fun ca => (kidContribs L d ks (ks.map dec)).bind fun ck =>
        g (ca ++ ck)) =
      (((attrContribs L (userAttr (attrsBy u)) d as).bind fun ca => (kidsBy L dec d ks).bind fun ck => .ok (ca ++ ck)).bind
        g) := by
    intro g; simp only [Res.bind_assoc, Res.bind_ok]; rfl
  simp only [Res.bind_ok, List.append_nil]
  rw [hre fun cs => assemble d cs]
  refine Runs.bind hloop ?_
  rintro cs st' rd' hcs ⟨hsl, ha⟩
  rw [hff]
  dsimp only
  rw [bind_ok (x := M.pure st'.slots) (a := st'.slots) (s' := rd') rfl, hsl, buildFields_slotsFrom]
  unfold assemble
  have hnd : Res.collect (d.fields.zipIdx.map fun p => fieldValue d.name p.1 (valuesOf cs p.2))
      ≠ .diverge := by
    refine collect_ne_diverge _ ?_
    intro r hr
    obtain ⟨p, -, rfl⟩ := List.mem_map.mp hr
    unfold fieldValue
    split
    · simp
    · simp
    · split <;> simp
  revert hnd
  cases Res.collect (d.fields.zipIdx.map fun p => fieldValue d.name p.1 (valuesOf cs p.2)) with
  | ok vs => exact fun _ => ⟨_, _, rfl, rfl, ha⟩
  | err e => exact fun _ => ⟨_, rfl⟩
  | panic e => exact fun _ => ⟨_, rfl⟩
  | diverge => exact fun h => (h rfl).elim

end

end Yaserde
