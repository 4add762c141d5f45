import Verif.Proofs.Nest
import Verif.Spec.Total
/-
No panics: for each construct of the generated code.
-/

set_option autoImplicit false

namespace Yaserde

/-- The reader will not underflow its depth, and EndDocument comes at depth 0 only. -/
structure Good (rd : Rd) : Prop where
  safe : Safe rd
  closed : ∀ k, rd.stream k = .ok .endDocument → (rd.depth : Int) + weightSum rd.stream k = 0

theorem Good.adv {k : Nat} {a b : Rd} (h : Good a) (hab : Adv k a b) : Good b := by
  refine ⟨h.safe.adv hab, fun l hl => ?_⟩
  rw [hab.1] at hl
  have := h.closed _ hl
  rw [Nat.add_comm, weightSum_add] at this
  have hs : b.stream = fun n => a.stream (n + k) := funext hab.1
  rw [hab.2, hs]
  omega

theorem Good.new {src : Src} (h : WellFormed src) : Good (Rd.new src) := by
  refine ⟨safe_new h.nested, fun k hk => ?_⟩
  have hs := (at_new' src).stream
  rw [hs] at hk ⊢
  rw [weightSum_strm]
  have hnil : (content src.evs)[k]? = none := by
    unfold strm at hk
    cases hg : (content src.evs)[k]? with
    | none => rfl
    | some e =>
      rw [hg] at hk
      cases hk
      exact (h.noEnd (List.mem_filter.mp (List.mem_of_getElem? hg)).1).elim
  have hfin : src.fin = none := by
    unfold strm at hk
    rw [hnil] at hk
    cases hf : src.fin with
    | none => rfl
    | some m => rw [hf] at hk; cases hk
  rw [List.take_of_length_le (List.getElem?_eq_none_iff.mp hnil), bal_content]
  have := h.closed hfin
  simp only [Rd.new, bal]
  omega

/-- From a good state the computation panics with the messages in `A` only; `Q` holds of an `Ok` result. -/
def NPat {α : Type} (A : Str → Prop) (x : D α) (rd : Rd) (Q : α → Rd → Prop) : Prop :=
  match x rd with
  | (.ok a, rd') => Good rd' ∧ Q a rd'
  | (.err _, rd') => Good rd'
  | (.panic m, _) => A m
  | (.diverge, _) => True

/-- … from every good state. -/
def NP {α : Type} (A : Str → Prop) (x : D α) (Q : α → Prop := fun _ => True) : Prop :=
  ∀ rd, Good rd → NPat A x rd fun a _ => Q a

variable {A : Str → Prop}

section
variable {α β : Type}

theorem NPat.mono {x : D α} {rd : Rd} {Q R : α → Rd → Prop} (h : NPat A x rd Q) (hq : ∀ a rd', Q a rd' → R a rd') :
    NPat A x rd R := by
  unfold NPat at *
  split <;> rename_i heq <;> rw [heq] at h
  · exact ⟨h.1, hq _ _ h.2⟩
  · exact h
  · exact h
  · trivial

theorem NPat.bind {x : D α} {f : α → D β} {rd : Rd} {Q : α → Rd → Prop} {R : β → Rd → Prop}
    (hx : NPat A x rd Q) (hf : ∀ a rd', Good rd' → Q a rd' → NPat A (f a) rd' R) : NPat A (x >>= f) rd R := by
  unfold NPat at hx
  cases h : x rd with
  | mk r rd' =>
    rw [h] at hx
    cases r with
    | ok a =>
      have := hf a rd' hx.1 hx.2
      unfold NPat at this ⊢
      rw [bind_ok h]
      exact this
    | err m => unfold NPat; rw [bind_err h]; exact hx
    | panic m => unfold NPat; rw [bind_panic h]; exact hx
    | diverge => unfold NPat; rw [bind_diverge h]; trivial

theorem NPat.attempt {x : D α} {rd : Rd} {Q : α → Rd → Prop} (hx : NPat A x rd Q) :
    NPat A (M.attempt x) rd fun r rd' => ∀ a, r = .ok a → Q a rd' := by
  unfold NPat M.attempt at *
  cases h : x rd with
  | mk r rd' =>
    rw [h] at hx
    cases r with
    | ok a => exact ⟨hx.1, fun b hb => by cases hb; exact hx.2⟩
    | err m => exact ⟨hx, fun b hb => by cases hb⟩
    | panic m => exact hx
    | diverge => trivial

theorem NPat.pure {a : α} {rd : Rd} {Q : α → Rd → Prop} (hg : Good rd) (hq : Q a rd) : NPat A (M.pure a) rd Q :=
  ⟨hg, hq⟩

theorem NPat.throw {m : Str} {rd : Rd} {Q : α → Rd → Prop} (hg : Good rd) : NPat A (M.throw m) rd Q := hg

theorem NPat.ofExcept {r : Except Str α} {rd : Rd} {Q : α → Rd → Prop} (hg : Good rd)
    (hq : ∀ a, r = .ok a → Q a rd) : NPat A (M.ofExcept r) rd Q := by
  cases r with
  | ok a => exact ⟨hg, hq a rfl⟩
  | error m => exact hg

theorem NPat.liftA {r : Res α} {rd : Rd} {Q : α → Rd → Prop} (hg : Good rd) (hr : ∀ m, r = .panic m → A m)
    (hq : ∀ a, r = .ok a → Q a rd) : NPat A (M.lift r) rd Q := by
  cases r with
  | ok a => exact ⟨hg, hq a rfl⟩
  | err m => exact hg
  | panic m => exact hr m rfl
  | diverge => trivial

theorem NPat.lift {r : Res α} {rd : Rd} {Q : α → Rd → Prop} (hg : Good rd) (hr : ∀ m, r ≠ .panic m)
    (hq : ∀ a, r = .ok a → Q a rd) : NPat A (M.lift r) rd Q := .liftA hg (fun m h => (hr m h).elim) hq

theorem NPat.peek {rd : Rd} (hg : Good rd) :
    NPat A peek rd fun e rd' => rd'.stream 0 = .ok e ∧ rd'.depth = rd.depth ∧ rd.stream 0 = .ok e := by
  obtain ⟨h1, h2, h3⟩ := peek_stream rd
  have hg' := hg.adv (peek_adv rd)
  unfold NPat
  cases h : Yaserde.peek rd with
  | mk r rd' =>
    rw [h] at h1 h2 h3 hg'
    simp only at h1 h2 h3 hg'
    cases r with
    | ok a => exact ⟨hg', by rw [h2, ← h1], h3, h1.symm⟩
    | err m => exact hg'
    | panic m =>
      exfalso
      have := h1.symm
      unfold Rd.stream strm at this
      split at this
      · cases this
      · cases hf : rd.reader.fin <;> rw [hf] at this <;> cases this
    | diverge => trivial

theorem NPat.next {rd : Rd} (hg : Good rd) :
    NPat A nextEvent rd fun e rd' => rd.stream 0 = .ok e ∧ (rd'.depth : Int) = rd.depth + weight (.ok e) := by
  obtain ⟨h1, h2⟩ := hg.safe.next
  have hg' := hg.adv h2
  have hd := h2.2
  unfold NPat
  cases h : Yaserde.nextEvent rd with
  | mk r rd' =>
    rw [h] at h1 hg' hd
    simp only at h1 hg' hd
    cases r with
    | ok a =>
      refine ⟨hg', h1.symm, ?_⟩
      rw [hd]
      simp only [weightSum, ← h1]
      omega
    | err m => exact hg'
    | panic m =>
      exfalso
      have := h1.symm
      unfold Rd.stream strm at this
      split at this
      · cases this
      · cases hf : rd.reader.fin <;> rw [hf] at this <;> cases this
    | diverge => trivial

theorem NPat.get {f : Rd → D β} {rd : Rd} {R : β → Rd → Prop} (h : NPat A (f rd) rd R) : NPat A (M.get >>= f) rd R := by
  unfold NPat at *
  rw [bind_get]
  exact h

end

theorem NPat.tnext {rd : Rd} (hg : Good rd) : NPat A nextEvent rd fun _ _ => True :=
  (NPat.next hg).mono fun _ _ _ => trivial

theorem NPat.tpeek {rd : Rd} (hg : Good rd) : NPat A Yaserde.peek rd fun _ _ => True :=
  (NPat.peek hg).mono fun _ _ _ => trivial

theorem NPat.anext {rd : Rd} (hg : Good rd) : NPat A (M.attempt nextEvent) rd fun _ _ => True :=
  (NPat.attempt (.tnext hg)).mono fun _ _ _ => trivial

theorem NPat.apeek {rd : Rd} (hg : Good rd) : NPat A (M.attempt Yaserde.peek) rd fun _ _ => True :=
  (NPat.attempt (.tpeek hg)).mono fun _ _ _ => trivial

theorem NPat.skipLoop (n depth : Nat) (hd : 1 ≤ depth) : ∀ (acc : List REv) (rd : Rd), Good rd →
    REv.endDocument ∉ acc → NPat A (skipLoop n depth acc) rd fun evs _ => REv.endDocument ∉ evs := by
  induction n with
  | zero => intro acc rd _ _; trivial
  | succ n ih =>
    intro acc rd hg hacc
    unfold NPat Yaserde.skipLoop
    by_cases h : rd.depth ≥ depth
    · rw [if_pos h]
      refine NPat.bind (.next hg) fun e rd' hg' hq => ih _ _ hg' ?_
      intro hmem
      rcases List.mem_append.mp hmem with h' | h'
      · exact hacc h'
      · simp only [List.mem_singleton] at h'
        subst h'
        have := hg.closed 0 hq.1
        simp only [weightSum] at this
        omega
    · rw [if_neg h]
      exact ⟨hg, hacc⟩

theorem writeUnused_np (hf : Bool) (e : REv) (w : Option EW) (he : e ≠ .endDocument) (m : Str) :
    writeUnused hf e w ≠ .panic m := by
  unfold writeUnused
  split
  · simp
  · split
    · simp
    · split
      · rename_i h
        cases e <;> simp [REv.asWriterEvent] at h
        exact (he rfl).elim
      · split <;> simp

theorem writeUnusedAll_np (hf : Bool) (es : List REv) (w : Option EW) (he : REv.endDocument ∉ es) (m : Str) :
    writeUnusedAll hf es w ≠ .panic m := by
  induction es generalizing w with
  | nil => simp [writeUnusedAll]
  | cons e es ih =>
    simp only [List.mem_cons, not_or] at he
    unfold writeUnusedAll
    have h1 := fun m => writeUnused_np hf e w (Ne.symm he.1) m
    cases h : writeUnused hf e w with
    | ok w' => exact ih w' he.2
    | err m' => simp [Res.bind]
    | panic m' => exact (h1 m' h).elim
    | diverge => simp [Res.bind]

/-- Slots have the shape of their fields. -/
def Shaped (fs : List FieldDef) (ss : List Slot) : Prop :=
  ∀ (i : Nat) (f : FieldDef) (vs : List Val), fs[i]? = some f → ss[i]? = some (.many vs) → ∃ t, f.ty = .vec t

theorem Shaped.init (fs : List FieldDef) : Shaped fs (fs.map fun f => Slot.init f.ty) := by
  intro i f vs hf hs
  rw [List.getElem?_map, hf] at hs
  simp only [Option.map_some, Option.some.injEq] at hs
  cases hty : f.ty <;> rw [hty] at hs <;> simp [Slot.init] at hs ⊢

theorem Shaped.set {fs : List FieldDef} {st : LoopSt} (h : Shaped fs st.slots) (j : Nat) (v : Val) :
    Shaped fs (st.setSlot j (Slot.put v)).slots := by
  intro i f vs hf hs
  simp only [LoopSt.setSlot, List.getElem?_modify] at hs
  split at hs
  · cases hsi : st.slots[i]? with
    | none => simp [hsi] at hs
    | some s =>
      cases s with
      | one o => simp [hsi, Slot.put] at hs
      | many us => exact h i f us hf hsi
  · cases hsi : st.slots[i]? with
    | none => simp [hsi] at hs
    | some s =>
      simp only [hsi, Option.map_eq_map, Option.map_some, Option.some.injEq] at hs
      subst hs
      exact h i f vs hf hsi

theorem Shaped.cons {f : FieldDef} {fs : List FieldDef} {s : Slot} {ss : List Slot} :
    Shaped (f :: fs) (s :: ss) ↔ (∀ vs, s = .many vs → ∃ t, f.ty = .vec t) ∧ Shaped fs ss := by
  constructor
  · intro h
    exact ⟨fun vs hs => h 0 f vs rfl (by rw [hs]; rfl), fun i g vs hg hs => h (i + 1) g vs hg hs⟩
  · rintro ⟨h1, h2⟩ i g vs hg hs
    cases i with
    | zero => cases hg; exact h1 vs (by cases hs; rfl)
    | succ i => exact h2 i g vs hg hs

theorem Shaped.setText {fs : List FieldDef} {ss : List Slot} (h : Shaped fs ss) (t : Str) :
    Shaped fs (Yaserde.setText fs t ss) := by
  induction fs generalizing ss with
  | nil => intro i f vs hf; simp at hf
  | cons f fs ih =>
    cases ss with
    | nil => exact h
    | cons s ss =>
      rw [Shaped.cons] at h
      unfold Yaserde.setText
      rw [Shaped.cons]
      refine ⟨fun vs hs => ?_, ih h.2⟩
      split at hs
      · split at hs
        · cases hs
        · split at hs <;> cases hs
        · exact h.1 vs hs
      · exact h.1 vs hs

theorem buildFields_np (name : Str) (fs : List FieldDef) (ss : List Slot) (h : Shaped fs ss) (m : Str) :
    buildFields name fs ss ≠ .panic m := by
  induction fs generalizing ss m with
  | nil => simp [buildFields]
  | cons f fs ih =>
    cases ss with
    | nil => simp [buildFields]
    | cons s ss =>
      rw [Shaped.cons] at h
      unfold buildFields
      have h1 : ∀ m, buildField name f s ≠ .panic m := by
        intro m
        unfold buildField
        split
        · simp
        · simp
        · simp
        · simp
        · split <;> simp
        · rename_i vs _ hnv
          obtain ⟨t, ht⟩ := h.1 _ rfl
          exact (hnv t ht).elim
      cases hb : buildField name f s with
      | ok v =>
        simp only [Res.bind]
        cases hbs : buildFields name fs ss with
        | panic m' => exact (ih ss h.2 m' hbs).elim
        | _ => simp
      | err m' => simp [Res.bind]
      | panic m' => exact (h1 m' hb).elim
      | diverge => simp [Res.bind]

/-- The types a field refers to are in `R`. -/
def FTy.KnownIn (R : Path → Prop) (t : FTy) : Prop := (∃ s, t.core = .simple s) ∨ ∃ q, t.core = .struct q ∧ R q

/-- The payload of a variant: `A` holds of the message if a text cannot be parsed. -/
def Payload (L : Lib) (R : Path → Prop) (A : Str → Prop) (t : FTy) : Prop :=
  (∀ s x e, t.core = .simple s → parseS L s x = .error e → A c!"called `Result::unwrap()` on an `Err` value") ∧ t.KnownIn R

section
variable {L : Lib} {rec : Path → D Val} {R : Path → Prop} (hL : ∀ s, WellFormed (L.parse s))
  (hrec : ∀ p, R p → NP A (rec p))

theorem foldRes_np {α β : Type} (f : β → α → Res β) (P : β → Prop) (l : List α) (b : β) (hb : P b)
    (h : ∀ b a, P b → (∀ m, f b a = .panic m → A m) ∧ ∀ b', f b a = .ok b' → P b') :
    (∀ m, foldRes f b l = .panic m → A m) ∧ ∀ b', foldRes f b l = .ok b' → P b' := by
  induction l generalizing b with
  | nil => exact ⟨by simp [foldRes], fun b' h' => by simp only [foldRes, Res.ok.injEq] at h'; rw [← h']; exact hb⟩
  | cons a l ih =>
    unfold foldRes
    obtain ⟨h1, h2⟩ := h b a hb
    cases hf : f b a with
    | ok b' => exact ih b' (h2 b' hf)
    | err m => simp [Res.bind]
    | panic m => simpa [Res.bind] using h1 m hf
    | diverge => simp [Res.bind]

include hL hrec

theorem fromStr_np (p : Path) (hp : R p) (s : Str) (m : Str) (h : fromStr L rec p s = .panic m) : A m := by
  unfold fromStr at h
  have := hrec p hp _ (Good.new (hL s))
  unfold NPat at this
  split at this
  · rename_i heq; rw [heq] at h; cases h
  · rename_i heq; rw [heq] at h; cases h
  · rename_i heq; rw [heq] at h; cases h; exact this
  · rename_i heq; rw [heq] at h; cases h

theorem visitAttr_np (t : FTy) (ht : (∃ s, t = .simple s) ∨ ∃ q, t = .struct q ∧ R q) (v : Str) (m : Str)
    (h : visitAttr L rec t v = .panic m) : A m := by
  unfold visitAttr at h
  rcases ht with ⟨s, rfl⟩ | ⟨q, rfl, hq⟩
  · dsimp only at h
    split at h <;> cases h
  · exact fromStr_np hL hrec q hq _ m h

theorem loadAttrs_np (fs : List FieldDef) (hfs : ∀ f ∈ fs, f.ty.KnownIn R) (as : List Attr) (ss : List Slot)
    (hs : Shaped fs ss) :
    (∀ m, loadAttrs L rec fs as ss = .panic m → A m) ∧ ∀ ss', loadAttrs L rec fs as ss = .ok ss' → Shaped fs ss' := by
  induction fs generalizing ss with
  | nil =>
    refine ⟨by simp [loadAttrs], fun ss' _ => ?_⟩
    intro i f vs hf
    simp at hf
  | cons f fs ih =>
    cases ss with
    | nil =>
      refine ⟨by simp [loadAttrs], fun ss' h => ?_⟩
      simp only [loadAttrs, Res.ok.injEq] at h
      rw [← h]
      exact hs
    | cons s ss =>
      rw [Shaped.cons] at hs
      unfold loadAttrs
      obtain ⟨i1, i2⟩ := ih (fun g hg => hfs g (List.mem_cons_of_mem _ hg)) ss hs.2
      have key : (∀ m, (if f.attrs.isAttr then loadAttrField L rec f as s else .ok s) = .panic m → A m) ∧
          ∀ s', (if f.attrs.isAttr then loadAttrField L rec f as s else .ok s) = .ok s' →
            ∀ vs, s' = .many vs → ∃ t, f.ty = .vec t := by
        split
        · have hk : ∀ v m, visitAttr L rec f.ty.core v = .panic m → A m := fun v m =>
            visitAttr_np hL hrec _ (hfs f (List.mem_cons_self ..)) v m
          have hput : ∀ (s : Slot) (v : Val), (∀ vs, s = .many vs → ∃ t, f.ty = .vec t) →
              ∀ vs, s.put v = .many vs → ∃ t, f.ty = .vec t := by
            intro s v h vs hv
            cases s with
            | one o => cases hv
            | many us => exact h us rfl
          have hone : ∀ (s : Slot) (v : Str), (∀ vs, s = .many vs → ∃ t, f.ty = .vec t) →
              (∀ m, ((visitAttr L rec f.ty.core v).bind fun v => .ok (s.put v)) = .panic m → A m) ∧
              ∀ b', ((visitAttr L rec f.ty.core v).bind fun v => .ok (s.put v)) = .ok b' →
                ∀ vs, b' = .many vs → ∃ t, f.ty = .vec t := by
            intro s v hs
            cases hv : visitAttr L rec f.ty.core v with
            | ok x =>
              simp only [Res.bind, Res.ok.injEq]
              exact ⟨by simp, fun b' hb' => by rw [← hb']; exact hput s x hs⟩
            | err m => simp [Res.bind]
            | panic m => simpa [Res.bind] using hk v m hv
            | diverge => simp [Res.bind]
          refine foldRes_np _ (fun s : Slot => ∀ vs, s = .many vs → ∃ t, f.ty = .vec t) as s hs.1 ?_
          intro b a hb
          split
          · cases hty : f.ty with
            | vec t =>
              have hcore : f.ty.core = t := by rw [hty]; rfl
              rw [hcore] at hone
              rw [hty] at hone hb
              exact foldRes_np _ (fun s : Slot => ∀ vs, s = .many vs → ∃ t', FTy.vec t = .vec t') _ b hb
                fun b w hb => hone b w hb
            | simple t => rw [hty] at hone hb; exact hone b a.value hb
            | opt t => rw [hty] at hone hb; exact hone b a.value hb
            | struct q => rw [hty] at hone hb; exact hone b a.value hb
          · exact ⟨by simp, fun b' hb' => by cases hb'; exact hb⟩
        · exact ⟨by simp, fun s' hs' => by cases hs'; exact hs.1⟩
      obtain ⟨k1, k2⟩ := key
      cases hx : (if f.attrs.isAttr then loadAttrField L rec f as s else .ok s) with
      | ok s' =>
        simp only [Res.bind]
        cases hl : loadAttrs L rec fs as ss with
        | ok ss' =>
          simp only [Res.ok.injEq]
          exact ⟨by simp, fun ss'' h => by rw [← h, Shaped.cons]; exact ⟨k2 s' hx, i2 ss' hl⟩⟩
        | err m => simp
        | panic m => simpa using i1 m hl
        | diverge => simp
      | err m => simp [Res.bind]
      | panic m => simpa [Res.bind] using k1 m hx
      | diverge => simp [Res.bind]

theorem flattenFields_np (u : Str) (fs : List FieldDef) (hfs : ∀ f ∈ fs, f.ty.KnownIn R)
    (hfl : ∀ f ∈ fs, f.attrs.isAttr = false → f.attrs.flatten = true →
      (∃ q, f.ty = .struct q) ∨ ∃ q, f.ty = .opt (.struct q)) (ss : List Slot) (hs : Shaped fs ss) :
    (∀ m, flattenFields L rec u fs ss = .panic m → A m) ∧ ∀ ss', flattenFields L rec u fs ss = .ok ss' → Shaped fs ss' := by
  induction fs generalizing ss with
  | nil =>
    refine ⟨by simp [flattenFields], fun ss' _ => ?_⟩
    intro i f vs hf
    simp at hf
  | cons f fs ih =>
    cases ss with
    | nil =>
      refine ⟨by simp [flattenFields], fun ss' h => ?_⟩
      simp only [flattenFields, Res.ok.injEq] at h
      rw [← h]
      exact hs
    | cons s ss =>
      rw [Shaped.cons] at hs
      unfold flattenFields
      obtain ⟨i1, i2⟩ := ih (fun g hg => hfs g (List.mem_cons_of_mem _ hg))
        (fun g hg => hfl g (List.mem_cons_of_mem _ hg)) ss hs.2
      have key : (∀ m, flattenField L rec u f s = .panic m → A m) ∧
          ∀ s', flattenField L rec u f s = .ok s' → ∀ vs, s' = .many vs → ∃ t, f.ty = .vec t := by
        unfold flattenField
        split
        · rename_i hc
          simp only [Bool.and_eq_true, Bool.not_eq_true'] at hc
          have hk := hfs f (List.mem_cons_self ..)
          rcases hfl f (List.mem_cons_self ..) hc.1 hc.2 with ⟨q, hq⟩ | ⟨q, hq⟩
          · have hq' : R q := by
              unfold FTy.KnownIn at hk
              rw [hq] at hk
              rcases hk with ⟨s, h⟩ | ⟨q', h, h'⟩
              · cases h
              · cases h; exact h'
            have hn := fun m => fromStr_np hL hrec q hq' u m
            rw [hq]
            dsimp only
            cases hv : fromStr L rec q u with
            | ok v =>
              simp only [Res.bind, Res.ok.injEq]
              exact ⟨by simp, fun s' h vs hs' => by rw [hs'] at h; cases h⟩
            | err m => simp [Res.bind]
            | panic m => simpa [Res.bind] using hn m hv
            | diverge => simp [Res.bind]
          · have hq' : R q := by
              unfold FTy.KnownIn at hk
              rw [hq] at hk
              rcases hk with ⟨s, h⟩ | ⟨q', h, h'⟩
              · cases h
              · cases h; exact h'
            have hn := fun m => fromStr_np hL hrec q hq' u m
            rw [hq]
            dsimp only
            cases hv : fromStr L rec q u with
            | ok v =>
              simp only [Res.ok.injEq]
              exact ⟨by simp, fun s' h vs hs' => by rw [hs'] at h; cases h⟩
            | err m =>
              simp only [Res.ok.injEq]
              exact ⟨by simp, fun s' h vs hs' => by rw [hs'] at h; cases h⟩
            | panic m => simpa using hn m hv
            | diverge => simp
        · exact ⟨by simp, fun s' hs' => by cases hs'; exact hs.1⟩
      obtain ⟨k1, k2⟩ := key
      cases hx : flattenField L rec u f s with
      | ok s' =>
        simp only [Res.bind]
        cases hl : flattenFields L rec u fs ss with
        | ok ss' =>
          simp only [Res.ok.injEq]
          exact ⟨by simp, fun ss'' h => by rw [← h, Shaped.cons]; exact ⟨k2 s' hx, i2 ss' hl⟩⟩
        | err m => simp
        | panic m => simpa using i1 m hl
        | diverge => simp
      | err m => simp [Res.bind]
      | panic m => simpa [Res.bind] using k1 m hx
      | diverge => simp [Res.bind]

omit hL hrec in
theorem NPat.readInnerValue {α : Type} {f : D α} (hf : ∀ rd, Good rd → NPat A f rd fun _ _ => True) {rd : Rd} (hg : Good rd) :
    NPat A (Yaserde.readInnerValue f) rd fun _ _ => True := by
  refine .bind (.anext hg) fun r rd1 hg1 _ => ?_
  split
  · refine .bind (hf _ hg1) fun v rd2 hg2 _ => .bind (Q := fun _ _ => True) ?_ fun _ rd3 hg3 _ => .pure hg3 trivial
    refine .bind (.tnext hg2) fun e rd3 hg3 _ => ?_
    split
    · split
      · exact .pure hg3 trivial
      · exact .throw hg3
    · exact .throw hg3
  · exact .throw hg1

omit hL hrec in
theorem NPat.callSimple (root : Attrs) (f : FieldDef) (i : Nat) (t : STy) (name : Name) (st : LoopSt)
    (fs : List FieldDef) (hs : Shaped fs st.slots) {rd : Rd} (hg : Good rd) :
    NPat A (Yaserde.callSimple L root f i t name st) rd fun st' _ => Shaped fs st'.slots := by
  refine .bind (.ofExcept (Q := fun _ _ => True) hg fun _ _ => trivial) fun _ rd1 hg1 _ =>
    .bind (Q := fun _ _ => True) ((NPat.attempt (.readInnerValue ?_ hg1)).mono fun _ _ _ => trivial)
      fun r rd2 hg2 _ => ?_
  · intro rd hg
    refine .bind (.apeek hg) fun r rd1 hg1 _ => ?_
    split
    · refine .bind (.tnext hg1) fun _ rd2 hg2 _ => ?_
      split
      · exact .pure hg2 trivial
      · exact .throw hg2
    · exact .throw hg1
  · split
    · exact .pure hg2 (hs.set _ _)
    · exact .pure hg2 hs

omit hL in
theorem NPat.callStruct (i : Nat) (p : Path) (hp : R p) (st : LoopSt)
    (fs : List FieldDef) (hs : Shaped fs st.slots) {rd : Rd} (hg : Good rd) :
    NPat A (Yaserde.callStruct rec i p st) rd fun st' _ => Shaped fs st'.slots := by
  refine .bind (Q := fun _ _ => True) ?_ fun _ rd1 hg1 _ => .bind (.apeek hg1) fun r rd2 hg2 _ => ?_
  · split
    · exact .bind (.anext hg) fun _ rd1 hg1 _ => .pure hg1 trivial
    · exact .pure hg trivial
  · split
    · exact .bind (hrec p hp _ hg2) fun v rd3 hg3 _ => .bind (.tnext hg3) fun _ rd4 hg4 _ =>
        .pure hg4 (hs.set _ _)
    · exact .pure hg2 hs

theorem NPat.structStart (fuel : Nat) (d : StructDef) (hd : ∀ f ∈ d.fields, f.ty.KnownIn R)
    (st : LoopSt) (hs : Shaped d.fields st.slots) (name : Name) (attrs : List Attr) (m : NsMap) {rd : Rd} (hg : Good rd)
    (h0 : rd.stream 0 = .ok (.start name attrs m)) :
    NPat A (Yaserde.structStart L rec fuel d st name attrs) rd fun st' _ => Shaped d.fields st'.slots := by
  have hnext : NPat A nextEvent rd fun e rd' => e = .start name attrs m ∧ rd'.depth ≥ 1 := by
    refine (NPat.next hg).mono fun e rd' h => ?_
    rw [h0] at h
    obtain ⟨h1, h2⟩ := h
    cases h1
    refine ⟨rfl, ?_⟩
    simp only [weight] at h2
    omega
  refine .bind (Q := fun (st' : LoopSt) _ => Shaped d.fields st'.slots) ?_ fun st' rd' hg' hs' =>
    .bind (Q := fun (st' : LoopSt) _ => Shaped d.fields st'.slots) ?_ fun st'' rd'' hg'' hs'' => .pure hg'' hs''
  · split
    · refine .bind hnext fun e rd1 hg1 he => ?_
      refine .bind (.lift (Q := fun _ _ => True) hg1 (fun m => writeUnused_np _ _ _ (by rw [he.1]; simp) m)
        fun _ _ => trivial) fun w rd2 hg2 _ => .pure hg2 hs
    · split
      · rename_i i _
        split
        · rename_i f hf
          have hk := hd f (List.mem_of_getElem? hf)
          unfold Yaserde.callVisitor
          rcases hk with ⟨s, h⟩ | ⟨q, h, hq⟩
          · rw [h]; exact .callSimple _ _ _ _ _ _ _ hs hg
          · rw [h]; exact .callStruct hrec _ _ hq _ _ hs hg
        · exact .pure hg hs
      · refine .bind hnext fun e rd1 hg1 he => ?_
        refine .bind (.lift (Q := fun _ rd => rd.depth ≥ 1) hg1 (fun m => writeUnused_np _ _ _ (by rw [he.1]; simp) m)
          fun _ _ => he.2) fun w rd2 hg2 hdep => ?_
        split
        · refine .bind (x := Yaserde.skipElement fuel) (Q := fun evs _ => REv.endDocument ∉ evs) ?_ fun evs rd3 hg3 hevs => ?_
          · unfold NPat Yaserde.skipElement
            exact NPat.skipLoop fuel rd2.depth hdep [] rd2 hg2 (by simp)
          · exact .bind (.lift (Q := fun _ _ => True) hg3 (fun m => writeUnusedAll_np _ _ _ hevs m)
              fun _ _ => trivial) fun w rd4 hg4 _ => .pure hg4 hs
        · exact .pure hg2 hs
  · split
    · obtain ⟨h1, h2⟩ := loadAttrs_np hL hrec d.fields hd attrs st'.slots hs'
      exact .bind (.liftA (Q := fun ss _ => Shaped d.fields ss) hg' h1 h2) fun ss rd2 hg2 hss => .pure hg2 hss
    · exact .pure hg' hs'

theorem NPat.structStep (fuel : Nat) (d : StructDef) (hd : ∀ f ∈ d.fields, f.ty.KnownIn R) (named : Str)
    (startDepth : Nat) (st : LoopSt) (hs : Shaped d.fields st.slots) {rd : Rd} (hg : Good rd) :
    NPat A (Yaserde.structStep L rec fuel d named startDepth st) rd fun r _ => Shaped d.fields r.1.slots := by
  refine .bind (.peek hg) fun e rd1 hg1 he => ?_
  have hnext : NPat A nextEvent rd1 fun e' _ => e' = e := by
    refine (NPat.next hg1).mono fun e' rd' h => ?_
    rw [he.1] at h
    cases h.1
    rfl
  cases e with
  | start name attrs m =>
    exact .bind (.structStart hL hrec fuel d hd st hs name attrs m hg1 he.1) fun st' rd2 hg2 hs2 => .pure hg2 hs2
  | endE name =>
    refine .get ?_
    split
    · exact .bind (.lift (Q := fun _ _ => True) hg1 (fun m => writeUnused_np _ _ _ (by simp) m)
        fun _ _ => trivial) fun w rd2 hg2 _ => .pure hg2 hs
    · refine .bind hnext fun e' rd2 hg2 he' => ?_
      exact .bind (.lift (Q := fun _ _ => True) hg2 (fun m => writeUnused_np _ _ _ (by rw [he']; simp) m)
        fun _ _ => trivial) fun w rd3 hg3 _ => .pure hg3 hs
  | endDocument =>
    show NPat A (if d.attrs.flatten then M.pure (st, false) else M.pure (st, true)) rd1 _
    by_cases h : d.attrs.flatten = true
    · rw [if_pos h]; exact .pure hg1 hs
    · rw [if_neg h]; exact .pure hg1 hs
  | chars t =>
    refine .bind hnext fun e' rd2 hg2 he' => ?_
    exact .bind (.lift (Q := fun _ _ => True) hg2 (fun m => writeUnused_np _ _ _ (by rw [he']; simp) m)
      fun _ _ => trivial) fun w rd3 hg3 _ => .pure hg3 (hs.setText t)
  | _ => exact .throw hg1

theorem NPat.structLoop (skipFuel : Nat) (d : StructDef) (hd : ∀ f ∈ d.fields, f.ty.KnownIn R) (named : Str)
    (startDepth : Nat) (n : Nat) : ∀ (st : LoopSt) (rd : Rd), Shaped d.fields st.slots → Good rd →
    NPat A (Yaserde.structLoop L rec skipFuel d named startDepth n st) rd fun st _ => Shaped d.fields st.slots := by
  induction n with
  | zero => intro st rd _ _; trivial
  | succ n ih =>
    intro st rd hs hg
    refine .bind (.structStep hL hrec skipFuel d hd named startDepth st hs hg) fun r rd1 hg1 hs1 => ?_
    dsimp only
    split
    · exact ih _ _ hs1 hg1
    · exact .pure hg1 hs1

theorem NP.structDeser (fuel : Nat) (d : StructDef) (hd : ∀ f ∈ d.fields, f.ty.KnownIn R)
    (hfl : ∀ f ∈ d.fields, f.attrs.isAttr = false → f.attrs.flatten = true →
      (∃ q, f.ty = .struct q) ∨ ∃ q, f.ty = .opt (.struct q)) : NP A (Yaserde.structDeser L rec fuel d) := by
  intro rd hg
  refine .bind (.tpeek hg) fun e rd1 hg1 _ => .get ?_
  refine .bind (Q := fun _ _ => True) ?_ fun _ rd2 hg2 _ =>
    .bind (.structLoop hL hrec fuel d hd _ _ _ _ _ (Shaped.init _) hg2) fun st rd3 hg3 hs =>
    .bind (Q := fun ss _ => Shaped d.fields ss) ?_ fun slots rd4 hg4 hs4 =>
    .bind (.lift (Q := fun _ _ => True) hg4 (fun m => buildFields_np _ _ _ hs4 m) fun _ _ => trivial) fun vs rd5 hg5 _ =>
    .pure hg5 trivial
  · split
    · exact .ofExcept hg1 fun _ _ => trivial
    · exact .pure hg1 trivial
  · split
    · obtain ⟨h1, h2⟩ := flattenFields_np hL hrec (L.emit unusedCfg (Option.getD st.writer {}).out) d.fields hd hfl st.slots hs
      rename_i w _ hw
      rw [hw] at h1 h2
      exact .liftA hg3 h1 h2
    · exact .pure hg3 hs

omit hL in
theorem NPat.variantArm (i : Nat) (v : VariantDef) (cur : Option Val)
    (hv : ∀ t, v.shape = .newtype t → Payload L R A t)
    {rd : Rd} (hg : Good rd) : NPat A (Yaserde.variantArm L rec i v cur) rd fun _ _ => True := by
  unfold Yaserde.variantArm
  split
  · exact .pure hg trivial
  · exact .pure hg trivial
  · rename_i t ht
    have hu : ∀ (s : STy) (x : Str) (rd : Rd), t.core = .simple s → Good rd → NPat A (visitUnwrap L s x) rd fun _ _ => True := by
      intro s x rd hs hg
      unfold visitUnwrap
      cases hx : parseS L s x with
      | ok v => exact .pure hg trivial
      | error e => exact (hv t ht).1 s x e hs hx
    rcases (hv t ht).2 with ⟨s, h⟩ | ⟨q, h, hq⟩
    · rw [h]
      refine .bind (Q := fun _ _ => True) ((NPat.attempt (.readInnerValue ?_ hg)).mono fun _ _ _ => trivial)
        fun r rd1 hg1 _ => ?_
      · intro rd hg
        refine .bind (.tpeek hg) fun e rd1 hg1 _ => ?_
        split
        · exact hu _ _ _ h hg1
        · refine .bind (.anext hg1) fun r rd2 hg2 _ => ?_
          split
          · exact hu _ _ _ h hg2
          · exact .throw hg2
      · split
        · exact .bind (.ofExcept (Q := fun _ _ => True) hg1 fun _ _ => trivial) fun _ rd2 hg2 _ => .pure hg2 trivial
        · exact .pure hg1 trivial
    · rw [h]
      exact .bind (hrec q hq _ hg) fun x rd1 hg1 _ =>
        .bind (.ofExcept (Q := fun _ _ => True) hg1 fun _ _ => trivial) fun _ rd2 hg2 _ =>
        .bind (.anext hg2) fun _ rd3 hg3 _ => .pure hg3 trivial

omit hL in
theorem NPat.enumMatch (d : EnumDef)
    (hv : ∀ v ∈ d.variants, ∀ t, v.shape = .newtype t → Payload L R A t)
    (key : Str) (cur : Option Val) {dflt : D (Option Val × Bool)} {rd : Rd} (hg : Good rd)
    (hd : NPat A dflt rd fun _ _ => True) : NPat A (Yaserde.enumMatch L rec d key cur dflt) rd fun _ _ => True := by
  unfold Yaserde.enumMatch
  split
  · split
    · rename_i v hvi
      exact .variantArm hrec _ _ _ (hv v (List.mem_of_getElem? hvi)) hg
    · exact hd
  · exact hd

omit hL in
theorem NPat.enumLoop (d : EnumDef)
    (hv : ∀ v ∈ d.variants, ∀ t, v.shape = .newtype t → Payload L R A t)
    (named : Str) (startDepth : Nat) (n : Nat) : ∀ (cur : Option Val) (rd : Rd), Good rd →
    NPat A (Yaserde.enumLoop L rec d named startDepth n cur) rd fun _ _ => True := by
  induction n with
  | zero => intro cur rd _; trivial
  | succ n ih =>
    intro cur rd hg
    refine .bind (Q := fun _ _ => True) ?_ fun r rd1 hg1 _ => ?_
    · refine .bind (.tpeek hg) fun e rd1 hg1 _ => ?_
      cases e with
      | start name attrs m =>
        refine .bind (.ofExcept (Q := fun _ _ => True) hg1 fun _ _ => trivial) fun key rd2 hg2 _ =>
          .bind (.enumMatch hrec d hv key cur hg2 (.bind (.anext hg2) fun _ rd3 hg3 _ => .pure hg3 trivial))
            fun r rd3 hg3 _ => ?_
        dsimp only
        split
        · refine .bind (.tpeek hg3) fun e' rd4 hg4 _ => ?_
          split
          · exact .enumMatch hrec d hv _ _ hg4 (.pure hg4 trivial)
          · exact .pure hg4 trivial
        · exact .pure hg3 trivial
      | endE name =>
        refine .get ?_
        split
        · exact .pure hg1 trivial
        · exact .bind (.anext hg1) fun _ rd2 hg2 _ => .pure hg2 trivial
      | chars t => exact .bind (.anext hg1) fun _ rd2 hg2 _ => .pure hg2 trivial
      | endDocument =>
        dsimp only
        split
        · exact .pure hg1 trivial
        · exact .throw hg1
      | _ => exact .throw hg1
    · dsimp only
      split
      · exact ih _ _ hg1
      · exact .pure hg1 trivial

omit hL in
theorem NP.enumDeser (fuel : Nat) (d : EnumDef)
    (hv : ∀ v ∈ d.variants, ∀ t, v.shape = .newtype t → Payload L R A t) :
    NP A (Yaserde.enumDeser L rec fuel d) := by
  intro rd hg
  refine .bind (.tpeek hg) fun e rd1 hg1 _ => .get ?_
  exact .bind (.ofExcept (Q := fun _ _ => True) hg1 fun _ _ => trivial) fun _ rd2 hg2 _ =>
    .bind (.enumLoop hrec d hv _ _ _ _ _ hg2) fun _ rd3 hg3 _ => .pure hg3 trivial

omit hL hrec in
theorem NP.primDeser (d : PrimDef) : NP A (Yaserde.primDeser d) := by
  intro rd hg
  refine .bind (.apeek hg) fun r rd1 hg1 _ => ?_
  split
  · refine .bind (.tnext hg1) fun _ rd2 hg2 _ => .bind (.apeek hg2) fun r rd3 hg3 _ => ?_
    split <;> exact .ofExcept hg3 fun _ _ => trivial
  · exact .throw hg1

end

/-- What the types reached from each other refer to. -/
structure Closed (L : Lib) (env : Env) (R : Path → Prop) (A : Str → Prop) : Prop where
  known : ∀ p, R p → env p ≠ none
  fields : ∀ p d, R p → env p = some (.struct d) → ∀ f ∈ d.fields, f.ty.KnownIn R
  flats : ∀ p d, R p → env p = some (.struct d) → ∀ f ∈ d.fields, f.attrs.isAttr = false → f.attrs.flatten = true →
    (∃ q, f.ty = .struct q) ∨ ∃ q, f.ty = .opt (.struct q)
  variants : ∀ p d, R p → env p = some (.enum d) → ∀ v ∈ d.variants, ∀ t, v.shape = .newtype t → Payload L R A t

theorem NP.closed (L : Lib) (hL : ∀ s, WellFormed (L.parse s)) (env : Env) {R : Path → Prop} (he : Closed L env R A) (n : Nat) :
    ∀ p, R p → NP A (deser L env n p) := by
  induction n with
  | zero => intro p _ rd _; trivial
  | succ n ih =>
    intro p hp
    unfold Yaserde.deser
    split
    · rename_i d hd
      exact .structDeser hL ih n d (he.fields p d hp hd) (he.flats p d hp hd)
    · rename_i d hd
      exact .enumDeser ih n d (he.variants p d hp hd)
    · exact .primDeser _
    · rename_i h; exact (he.known p hp h).elim

theorem NP.deser (L : Lib) (hL : ∀ s, WellFormed (L.parse s)) (env : Env) (he : PanicFree env) (n : Nat) :
    ∀ p, env p ≠ none → NP (fun _ => False) (deser L env n p) :=
  NP.closed L hL env (R := fun p => env p ≠ none)
    { known := fun _ h => h
      fields := fun p d _ => he.fields p d
      flats := fun p d _ => he.flats p d
      variants := fun p d _ hd v hv t ht => by
        rcases he.variants p d hd v hv t ht with h | ⟨q, h, hq⟩
        · exact ⟨(fun s x e hs hx => by rw [h] at hs; cases hs; cases hx), .inl ⟨_, h⟩⟩
        · exact ⟨(fun s x e hs hx => by rw [h] at hs; cases hs), .inr ⟨q, h, hq⟩⟩ } n

end Yaserde
