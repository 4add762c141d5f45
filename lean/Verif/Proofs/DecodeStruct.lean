import Verif.Proofs.Decode
/-
The whole struct deserializer on a conforming element, including flattened fields.
-/

set_option autoImplicit false

namespace Yaserde

/-! ### The writer that collects unused events -/

/-- A writer that never fails. -/
def EW.Quiet (w : EW) : Prop := ∀ n, w.io n = none

theorem write_start {w : EW} (h : w.Quiet) (n : Name) (as : List Attr) (m : NsMap) :
    EW.write (.start n as m) w
      = (.ok (), { w with calls := w.calls + 1, out := w.out ++ [.start n as m], opened := n :: w.opened }) := by
  unfold EW.write; rw [h]

theorem write_chars {w : EW} (h : w.Quiet) (s : Str) :
    EW.write (.chars s) w = (.ok (), { w with calls := w.calls + 1, out := w.out ++ [.chars s] }) := by
  unfold EW.write; rw [h]

theorem write_end {w : EW} (h : w.Quiet) {n : Name} {os : List Name} (ho : w.opened = n :: os) :
    EW.write (.endE (some n)) w
      = (.ok (), { w with calls := w.calls + 1, out := w.out ++ [.endE (some n)], opened := os }) := by
  unfold EW.write; rw [h, ho]; simp

mutual
  theorem wputs_events (x : Node) (w : EW) (h : w.Quiet) :
      ∃ w', wputs true (some w) x.events = some w' ∧ w'.out = w.out ++ x.wevents ∧
        w'.opened = w.opened ∧ w'.Quiet := by
    cases x with
    | text s =>
      refine ⟨{ w with calls := w.calls + 1, out := w.out ++ [.chars s] }, ?_, rfl, rfl, h⟩
      simp [Node.events, wputs, wput, REv.asWriterEvent, write_chars h]
    | elem n as m ks =>
      let w1 : EW := { w with calls := w.calls + 1, out := w.out ++ [.start n as m], opened := n :: w.opened }
      obtain ⟨w2, h2, ho, hop, hq⟩ := wputs_eventsL ks w1 h
      refine ⟨{ w2 with calls := w2.calls + 1, out := w2.out ++ [.endE (some n)], opened := w.opened },
        ?_, ?_, rfl, hq⟩
      · have e1 : wput true (some w) (.start n as m) = some w1 := by
          simp only [wput, REv.asWriterEvent, write_start h]; rfl
        rw [Node.events, wputs_cons, e1, wputs_append, h2, wputs_cons]
        simp only [wput, REv.asWriterEvent, write_end hq hop]; rfl
      · simp [ho, w1, Node.wevents]
  theorem wputs_eventsL (ks : List Node) (w : EW) (h : w.Quiet) :
      ∃ w', wputs true (some w) (Node.eventsL ks) = some w' ∧ w'.out = w.out ++ Node.weventsL ks ∧
        w'.opened = w.opened ∧ w'.Quiet := by
    cases ks with
    | nil => exact ⟨w, rfl, by simp [Node.weventsL], rfl, h⟩
    | cons k ks =>
      obtain ⟨w1, h1, ho1, hop1, hq1⟩ := wputs_events k w h
      obtain ⟨w2, h2, ho2, hop2, hq2⟩ := wputs_eventsL ks w1 hq1
      exact ⟨w2, by rw [Node.eventsL, wputs_append, h1, h2], by simp [ho2, ho1, Node.weventsL],
        by rw [hop2, hop1], hq2⟩
end

/-! ### Flattened fields -/

/-- No contribution is for a flattened field. -/
def NoFlatContrib (fs : List FieldDef) (i : Nat) (cs : List Contrib) : Prop :=
  ∀ j f, fs[j]? = some f → f.attrs.isAttr = false → f.attrs.flatten = true → valuesOf cs (i + j) = []

theorem flatContrib_idx {flat : Path → Res Val} {i : Nat} {f : FieldDef} {cs : List Contrib}
    (hc : flatContrib flat i f = .ok cs) : ∀ c ∈ cs, c.1 = i := by
  intro c hc'
  unfold flatContrib at hc
  split at hc
  · split at hc
    · obtain ⟨v, -, h⟩ := Res.bind_eq_ok.mp hc
      cases h; simp at hc'; simp [hc']
    · split at hc <;> simp at hc
      · subst hc; simp at hc'; simp [hc']
      · subst hc; simp at hc'
    · simp at hc; subst hc; simp at hc'
  · simp at hc; subst hc; simp at hc'

theorem contribs_idx {g : Nat → FieldDef → Res (List Contrib)} (fs : List FieldDef) (i : Nat)
    {css : List (List Contrib)}
    (h : Res.collect ((fs.zipIdx i).map fun p => g p.2 p.1) = .ok css) :
    ∀ c ∈ css.flatten, ∃ p ∈ fs.zipIdx i, ∃ cs, g p.2 p.1 = .ok cs ∧ c ∈ cs := by
  intro c hc
  rw [collect_ok_iff] at h
  rw [List.mem_flatten] at hc
  obtain ⟨cs, hcs, hc⟩ := hc
  have : Res.ok cs ∈ css.map Res.ok := List.mem_map_of_mem hcs
  rw [← h] at this
  obtain ⟨p, hp, he⟩ := List.mem_map.mp this
  exact ⟨p, hp, cs, he, hc⟩

theorem flattenFields_slotsFrom (L : Lib) (rec : Path → D Val) (unused : Str) (cs : List Contrib)
    (fs : List FieldDef)
    (hty : ∀ f ∈ fs, f.attrs.isAttr = false → f.attrs.flatten = true →
      (∃ q, f.ty = .struct q) ∨ ∃ q, f.ty = .opt (.struct q)) :
    ∀ i, NoFlatContrib fs i cs →
    flattenFields L rec unused fs (slotsFrom cs fs i) =
      (Res.collect ((fs.zipIdx i).map fun p => flatContrib (fun q => fromStr L rec q unused) p.2 p.1)).bind
        fun css => .ok (slotsFrom (cs ++ css.flatten) fs i) := by
  induction fs with
  | nil => intro i _; rfl
  | cons f fs ih =>
    intro i hno
    have ih := ih (fun g hg => hty g (List.mem_cons_of_mem _ hg)) (i + 1) (fun j g hg h1 h2 => by
      have := hno (j + 1) g (by simpa using hg) h1 h2
      rwa [show i + (j + 1) = i + 1 + j by omega] at this)
    simp only [slotsFrom, flattenFields, ih, List.zipIdx_cons, List.map_cons, collect_cons]
    -- one field
    have hone : flattenField L rec unused f (slotOf f (valuesOf cs i)) =
        (flatContrib (fun q => fromStr L rec q unused) i f).bind fun a =>
          .ok (slotOf f (valuesOf (cs ++ a) i)) := by
      unfold flattenField flatContrib
      by_cases hf : (!f.attrs.isAttr && f.attrs.flatten) = true
      · rw [if_pos hf, if_pos hf]
        simp only [Bool.and_eq_true, Bool.not_eq_true'] at hf
        have hv : valuesOf cs i = [] := by simpa using hno 0 f rfl hf.1 hf.2
        rcases hty f (List.mem_cons_self ..) hf.1 hf.2 with ⟨q, hq⟩ | ⟨q, hq⟩
        · rw [hq]
          dsimp only
          cases fromStr L rec q unused with
          | ok v => simp [slotOf, hq, valuesOf]
          | err m => rfl
          | panic m => rfl
          | diverge => rfl
        · rw [hq]
          dsimp only
          cases fromStr L rec q unused with
          | ok v => simp [slotOf, hq, valuesOf]
          | err m => simp [slotOf, hq, hv]
          | panic m => rfl
          | diverge => rfl
      · rw [if_neg hf, if_neg hf]; simp
    rw [hone]
    cases hc : flatContrib (fun q => fromStr L rec q unused) i f with
    | ok a =>
      simp only [Res.bind_ok]
      cases hr : Res.collect ((fs.zipIdx (i + 1)).map fun p =>
          flatContrib (fun q => fromStr L rec q unused) p.2 p.1) with
      | ok css =>
        simp only [Res.bind_ok, Res.ok.injEq, List.flatten_cons, slotsFrom]
        have ha : ∀ c ∈ a, c.1 = i := flatContrib_idx hc
        have hb : ∀ c ∈ css.flatten, i + 1 ≤ c.1 := by
          intro c hc'
          obtain ⟨p, hp, cs', he, hm⟩ := contribs_idx fs (i + 1) hr c hc'
          rw [flatContrib_idx he c hm]
          exact List.le_snd_of_mem_zipIdx hp
        congr 1
        · rw [valuesOf_append, valuesOf_append, valuesOf_append,
            valuesOf_none (cs := css.flatten) (fun c hc => by have := hb c hc; omega), List.append_nil]
        · apply slotsFrom_congr
          intro j hj
          rw [valuesOf_append, valuesOf_append, valuesOf_append,
            valuesOf_none (cs := a) (fun c hc => by have := ha c hc; omega), List.nil_append]
      | err m => rfl
      | panic m => rfl
      | diverge => rfl
    | err m => rfl
    | panic m => rfl
    | diverge => rfl

theorem zipIdx_mem {fs : List FieldDef} {p : FieldDef × Nat} (h : p ∈ fs.zipIdx) :
    fs[p.2]? = some p.1 := by
  have := List.mem_zipIdx_iff_getElem?.mp h
  exact this

theorem attrContribs_field {L : Lib} {user : Path → Str → Res Val} {d : StructDef} {as : List Attr} {cs : List Contrib}
    (h : attrContribs L user d as = .ok cs) :
    ∀ c ∈ cs, ∃ f, d.fields[c.1]? = some f ∧ f.attrs.isAttr = true := by
  intro c hc
  unfold attrContribs at h
  obtain ⟨css, h1, h2⟩ := Res.bind_eq_ok.mp h
  simp only [Res.ok.injEq] at h2
  subst h2
  obtain ⟨p, hp, cs', he, hm⟩ := contribs_idx (g := fun i f => attrContrib L user i f as) d.fields 0 h1 c hc
  refine ⟨p.1, ?_, ?_⟩
  · rw [attrContrib_idx he c hm]; exact zipIdx_mem hp
  · unfold attrContrib at he
    split at he
    · assumption
    · simp at he; subst he; simp at hm

theorem kidContrib_field {L : Lib} {d : StructDef} {dec : Path → Res Val} {x : Node} {cs : List Contrib}
    (h : kidContrib L d dec x = .ok cs) :
    ∀ c ∈ cs, ∃ f, d.fields[c.1]? = some f ∧ (f.isElem = true ∨ f.attrs.text = true) := by
  intro c hc
  cases x with
  | text s =>
    simp only [kidContrib, Res.ok.injEq] at h
    subst h
    simp only [textContrib, List.mem_map, List.mem_filter] at hc
    obtain ⟨p, ⟨hp, ht⟩, rfl⟩ := hc
    exact ⟨p.1, zipIdx_mem hp, .inr ht⟩
  | elem n as m ks =>
    simp only [kidContrib] at h
    split at h
    · simp at h; subst h; simp at hc
    · rename_i i hf
      obtain ⟨f, hfi, -, hcl⟩ := fieldFor_some hf
      rw [hfi] at h
      have key : ∀ c ∈ cs, c.1 = i := by
        dsimp only at h
        split at h
        · simp only [Res.ok.injEq] at h
          subst h
          intro c hc
          simp only [List.mem_map] at hc
          obtain ⟨v, -, rfl⟩ := hc
          rfl
        · obtain ⟨v, -, h⟩ := Res.bind_eq_ok.mp h
          simp only [Res.ok.injEq] at h
          subst h
          intro c hc
          simp at hc; simp [hc]
        · simp at h; subst h; simp
      exact ⟨f, by rw [key c hc]; exact hfi, .inl hcl.1⟩

theorem kidContribs_field {L : Lib} {d : StructDef} {ks : List Node} {decs : List (Path → Res Val)}
    {cs : List Contrib} (h : kidContribs L d ks decs = .ok cs) :
    ∀ c ∈ cs, ∃ f, d.fields[c.1]? = some f ∧ (f.isElem = true ∨ f.attrs.text = true) := by
  intro c hc
  unfold kidContribs at h
  obtain ⟨css, h1, h2⟩ := Res.bind_eq_ok.mp h
  simp only [Res.ok.injEq] at h2
  subst h2
  rw [collect_ok_iff] at h1
  obtain ⟨cs, hcs, hc⟩ := List.mem_flatten.mp hc
  have : Res.ok cs ∈ css.map Res.ok := List.mem_map_of_mem hcs
  rw [← h1] at this
  obtain ⟨p, -, he⟩ := List.mem_map.mp this
  exact kidContrib_field he c hc

theorem noFlatContrib {L : Lib} {user : Path → Str → Res Val} {d : StructDef} (hp : d.Plain) {as : List Attr} {ks : List Node}
    {decs : List (Path → Res Val)} {ca ck : List Contrib}
    (ha : attrContribs L user d as = .ok ca) (hk : kidContribs L d ks decs = .ok ck) :
    NoFlatContrib d.fields 0 (ca ++ ck) := by
  intro j f hf h1 h2
  apply valuesOf_none
  intro c hc hcj
  rw [Nat.zero_add] at hcj
  rcases List.mem_append.mp hc with hc | hc
  · obtain ⟨g, hg, hga⟩ := attrContribs_field ha c hc
    rw [hcj, hf] at hg
    cases hg
    simp_all
  · obtain ⟨g, hg, hge⟩ := kidContribs_field hk c hc
    rw [hcj, hf] at hg
    cases hg
    rcases hge with hge | hge
    · simp [FieldDef.isElem, h1, h2] at hge
    · have hm : f ∈ d.fields := List.mem_of_getElem? hf
      rcases hp.textTy f hm hge with ht | ht <;> rcases hp.flatTy f hm h1 h2 with ⟨q, hq⟩ | ⟨q, hq⟩ <;>
        simp [ht] at hq

/-- `flatContribs` depends only on the types of the flattened fields. -/
theorem flatContribs_congr {d : StructDef} (hp : d.Plain) {g h : Path → Res Val}
    (hgh : ∀ f ∈ d.fields, f.attrs.isAttr = false → f.attrs.flatten = true →
      ∀ q, f.ty.core = .struct q → g q = h q) :
    flatContribs g d = flatContribs h d := by
  unfold flatContribs
  congr 2
  apply List.map_congr_left
  intro p hp'
  unfold flatContrib
  split
  · rename_i hf
    simp only [Bool.and_eq_true, Bool.not_eq_true'] at hf
    have hm : p.1 ∈ d.fields := List.mem_of_getElem? (zipIdx_mem hp')
    have := hgh p.1 hm hf.1 hf.2
    rcases hp.flatTy p.1 hm hf.1 hf.2 with ⟨q, hq⟩ | ⟨q, hq⟩
    · rw [hq] at this ⊢
      dsimp only
      rw [this q rfl]
    · rw [hq] at this ⊢
      dsimp only
      rw [this q rfl]
  · rfl

theorem flatContribs_noFlat {d : StructDef} (h : d.hasFlat = false) (g : Path → Res Val) :
    flatContribs g d = .ok [] := by
  have : ∀ fs : List FieldDef, (∀ f ∈ fs, (!f.attrs.isAttr && f.attrs.flatten) = false) → ∀ i,
      (Res.collect ((fs.zipIdx i).map fun p => flatContrib g p.2 p.1)).bind
        (fun cs => Res.ok cs.flatten) = .ok [] := by
    intro fs
    induction fs with
    | nil => intros; rfl
    | cons f fs ih =>
      intro hf i
      have h1 := ih (fun x hx => hf x (List.mem_cons_of_mem _ hx)) (i + 1)
      have h2 : flatContrib g i f = .ok [] := by
        unfold flatContrib; rw [hf f (List.mem_cons_self ..)]; simp
      simp only [List.zipIdx_cons, List.map_cons, collect_cons, h2, Res.bind_ok, Res.bind_assoc,
        List.flatten_cons, List.nil_append]
      exact h1
  refine this d.fields ?_ 0
  intro f hf
  simp only [StructDef.hasFlat, List.any_eq_false] at h
  simpa using h f hf

/-- The struct deserializer on a conforming element. -/
theorem structBody_tree (L : Lib) (env : Env) (flat : Node → Path → Res Val) (fc : Node → Path → Prop)
    (rec : Path → D Val) (fuel : Nat) (d : StructDef) {own : Name} {as : List Attr} {m : NsMap}
    {ks : List Node} (hplain : d.Plain)
    (hname : (own.loc = d.attrs.rename.getD d.name ∧
            own.ns.getD [] = (d.attrs.namespaces.find d.attrs.pfx).getD []) ∨ d.fieldFor own = none)
    (hkids : ConfKids L env fc d ks)
    (hrec : ∀ k ∈ ks, ∀ name as m kids q, k = .elem name as m kids → ConfWith L env fc k q →
        ReadsAs 1 (rec q) name k.events (leftover env k q) (decodeWith L env flat k q))
    (hflat : ∀ f ∈ d.fields, f.attrs.isAttr = false → f.attrs.flatten = true →
        ∀ q, f.ty.core = .struct q →
          fromStr L rec q (L.emit unusedCfg (d.residue own as m ks).wevents)
              = flat (d.residue own as m ks) q ∧
            flat (d.residue own as m ks) q ≠ .diverge)
    (huser : ∀ f ∈ d.fields, f.attrs.isAttr = true → ∀ q, f.ty.core = .struct q → ∀ a ∈ as, a.name.loc = f.label →
      ∀ s ∈ f.ty.attrTexts a.value, visitStructStr L rec q s = userAttr flat q s ∧ userAttr flat q s ≠ .diverge)
    (hfuel : (Node.eventsL ks).length + 1 < fuel)
    {dep : Nat} {rest : List REv} {fin : Option Str} {rd : Rd}
    (hns : dep = 0 → nsOk d.attrs own)
    (hat : At dep ((Node.elem own as m ks).events ++ rest) fin rd) :
    Runs (structBody L rec fuel d (own.loc, own.ns) dep rd)
      (decodeStruct L flat d own as m ks (decodeL L env flat ks)) fun v b rd' =>
        b = v ∧ At (dep + 1) (.endE own :: rest) fin rd' := by
  have hat' : At dep (.start own as m :: (Node.eventsL ks ++ .endE own :: rest)) fin rd := by
    simpa [Node.events] using hat
  unfold structBody
  have h0 : (if dep = 0 then M.ofExcept (nsMatching d.attrs.namespaces d.attrs.pfx own.ns own.loc)
      else M.pure () : D Unit) rd = (.ok (), rd) := by
    split
    · rename_i hd
      have : nsMatching d.attrs.namespaces d.attrs.pfx own.ns own.loc = .ok () := by
        unfold nsMatching
        cases hn : own.ns with
        | none => rfl
        | some u =>
          obtain ⟨e, he, h1, h2⟩ := hns hd u hn
          dsimp only
          rw [if_pos]
          rw [List.any_eq_true]
          exact ⟨e, he, by simp [h1, h2]⟩
      rw [this]; rfl
    · rfl
  rw [bind_ok h0, slotsFrom_init d.fields 0]
  obtain ⟨n, rfl⟩ : ∃ k, fuel = k + 1 := ⟨fuel - 1, by omega⟩
  -- the loop
  have hloop : Runs (structLoop L rec (n + 1) d own.loc dep (n + 1)
      ⟨0, slotsFrom [] d.fields 0, some {}⟩ rd)
      ((attrContribs L (userAttr flat) d as).bind fun ca => (kidsDecoded L env flat d ks).bind fun ck => .ok (ca ++ ck))
      fun cs st' rd' => st'.slots = slotsFrom cs d.fields 0 ∧
        st'.writer = wputs d.hasFlat (some {}) (d.residue own as m ks).events ∧
        At (dep + 1) (.endE own :: rest) fin rd' := by
    refine structLoop_start L rec (n + 1) d own.loc dep hat' ?_
    intro rd1 a1
    refine (structStart_own L rec (userAttr flat) (n + 1) d hplain hname (w := some {}) huser a1).mono ?_
    rintro ca st2 rd2 - ⟨rfl, a2⟩
    have := structLoop_kids L env flat fc rec (n + 1) d hplain own dep rest fin ks ca
      ⟨1, slotsFrom ca d.fields 0, wput d.hasFlat (some {}) (.start own as m)⟩ n rd2 hkids hrec hfuel
      (by omega) (by simp) rfl a2
    have h2 := Runs.bind (f := fun st => M.pure st) (g := fun b => Res.ok (ca ++ b)) this
        (Q' := fun cs st' rd' => st'.slots = slotsFrom cs d.fields 0 ∧
          st'.writer = wputs d.hasFlat (some {}) (d.residue own as m ks).events ∧
          At (dep + 1) (.endE own :: rest) fin rd') (by
        rintro cs st' rd' _ ⟨hs, hw, ha⟩
        refine ⟨st', rd', rfl, hs, ?_, ha⟩
        rw [hw, StructDef.residue, Node.events, wputs_cons])
    rwa [bind_pure_right] at h2
  unfold decodeStruct
  have hre : ∀ g : List Contrib → Res Val,
      ((attrContribs L (userAttr flat) d as).bind fun ca => (kidContribs L d ks (decodeL L env flat ks)).bind fun ck =>
        g (ca ++ ck)) =
      (((attrContribs L (userAttr flat) d as).bind fun ca => (kidsDecoded L env flat d ks).bind fun ck => .ok (ca ++ ck)).bind
        g) := by
    intro g; simp only [Res.bind_assoc, Res.bind_ok]; rfl
  rw [hre fun cs => (flatContribs (flat (d.residue own as m ks)) d).bind fun fs => assemble d (cs ++ fs)]
  refine Runs.bind hloop ?_
  rintro cs st' rd' hcs ⟨hsl, hw, ha⟩
  have hno : NoFlatContrib d.fields 0 cs := by
    obtain ⟨ca, h1, h2⟩ := Res.bind_eq_ok.mp hcs
    obtain ⟨ck, h3, h4⟩ := Res.bind_eq_ok.mp h2
    simp only [Res.ok.injEq] at h4
    subst h4
    exact noFlatContrib hplain h1 h3
  -- flattened fields
  have hfl : Runs ((match d.hasFlat, st'.writer with
        | true, some w => M.lift (flattenFields L rec (L.emit unusedCfg w.out) d.fields st'.slots)
        | _, _ => M.pure st'.slots : D (List Slot)) rd')
      (flatContribs (flat (d.residue own as m ks)) d) fun fs slots rd'' =>
        slots = slotsFrom (cs ++ fs) d.fields 0 ∧ rd'' = rd' := by
    cases hf : d.hasFlat with
    | false =>
      rw [flatContribs_noFlat hf]
      exact ⟨_, _, rfl, by simpa using hsl, rfl⟩
    | true =>
      rw [hf] at hw
      obtain ⟨w, hw1, hw2, -, -⟩ := wputs_events (d.residue own as m ks) {} (fun _ => rfl)
      rw [hw, hw1]
      dsimp only
      have hout : w.out = (d.residue own as m ks).wevents := by simpa using hw2
      rw [hout, hsl, flattenFields_slotsFrom L rec _ cs d.fields hplain.flatTy 0 hno,
        flatContribs_congr hplain fun f hf h1 h2 q hq => ((hflat f hf h1 h2 q hq).1).symm]
      have hnd : flatContribs (fun q => fromStr L rec q (L.emit unusedCfg (d.residue own as m ks).wevents)) d
          ≠ .diverge := by
        rw [flatContribs_congr hplain fun f hf h1 h2 q hq => ((hflat f hf h1 h2 q hq).1)]
        refine bind_ne_diverge (collect_ne_diverge _ ?_) (by simp)
        intro r hr
        obtain ⟨p, hp, rfl⟩ := List.mem_map.mp hr
        have hm : p.1 ∈ d.fields := List.mem_of_getElem? (zipIdx_mem hp)
        unfold flatContrib
        split
        · rename_i hf
          simp only [Bool.and_eq_true, Bool.not_eq_true'] at hf
          have := fun q hq => (hflat p.1 hm hf.1 hf.2 q hq).2
          rcases hplain.flatTy p.1 hm hf.1 hf.2 with ⟨q, hq⟩ | ⟨q, hq⟩
          · rw [hq] at this ⊢
            exact bind_ne_diverge (this q rfl) (by simp)
          · rw [hq] at this ⊢
            have := this q rfl
            dsimp only
            split <;> simp_all
        · simp
      unfold flatContribs at hnd ⊢
      revert hnd
      cases Res.collect (d.fields.zipIdx.map fun p => flatContrib (fun q => fromStr L rec q
          (L.emit unusedCfg (d.residue own as m ks).wevents)) p.2 p.1) with
      | ok css => exact fun _ => ⟨_, rd', rfl, rfl, rfl⟩
      | err e => exact fun _ => ⟨rd', rfl⟩
      | panic e => exact fun _ => ⟨rd', rfl⟩
      | diverge => exact fun h => (h rfl).elim
  refine Runs.bind hfl ?_
  rintro fs slots rd'' - ⟨rfl, rfl⟩
  rw [buildFields_slotsFrom]
  unfold assemble
  have hnd : Res.collect (d.fields.zipIdx.map fun p => fieldValue d.name p.1 (valuesOf (cs ++ fs) p.2))
      ≠ .diverge := by
    refine collect_ne_diverge _ ?_
    intro r hr
    obtain ⟨p, -, rfl⟩ := List.mem_map.mp hr
    unfold fieldValue
    split
    · simp
    · simp
    · split <;> simp
  revert hnd
  cases Res.collect (d.fields.zipIdx.map fun p => fieldValue d.name p.1 (valuesOf (cs ++ fs) p.2)) with
  | ok vs => exact fun _ => ⟨_, _, rfl, rfl, ha⟩
  | err e => exact fun _ => ⟨_, rfl⟩
  | panic e => exact fun _ => ⟨_, rfl⟩
  | diverge => exact fun h => (h rfl).elim

end Yaserde
