import Verif.Spec.Stable
import Verif.Proofs.Sound
import Verif.Proofs.Simple
/-
Lemmas: what is read from a plain document is canonical.
-/

set_option autoImplicit false

namespace Yaserde

/-- The computation preserves `I`, and what it returns satisfies `Q`. -/
def Keeps {α : Type} (I : Rd → Prop) (x : D α) (Q : α → Prop) : Prop :=
  ∀ rd, I rd → I (x rd).2 ∧ ∀ a, (x rd).1 = .ok a → Q a

section
variable {α β : Type} {I : Rd → Prop} {Q : α → Prop} {R : β → Prop}

theorem Keeps.mono {x : D α} {Q' : α → Prop} (h : Keeps I x Q) (hq : ∀ a, Q a → Q' a) : Keeps I x Q' :=
  fun rd hI => ⟨(h rd hI).1, fun a e => hq a ((h rd hI).2 a e)⟩

theorem Keeps.bind {x : D α} {f : α → D β} (h : Keeps I x Q) (hf : ∀ a, Q a → Keeps I (f a) R) :
    Keeps I (x >>= f) R := by
  intro rd hI
  obtain ⟨h1, h2⟩ := h rd hI
  cases hx : x rd with
  | mk r s1 =>
    rw [hx] at h1 h2
    cases r with
    | ok a =>
      rw [bind_ok hx]
      exact hf a (h2 a rfl) s1 h1
    | err m => rw [bind_err hx]; exact ⟨h1, fun a e => by simp at e⟩
    | panic m => rw [bind_panic hx]; exact ⟨h1, fun a e => by simp at e⟩
    | diverge => rw [bind_diverge hx]; exact ⟨h1, fun a e => by simp at e⟩

theorem Keeps.pure {a : α} (h : Q a) : Keeps I (M.pure a) Q :=
  fun _ hI => ⟨hI, fun b e => by simp only [M.pure, Res.ok.injEq] at e; exact e ▸ h⟩

theorem Keeps.throw (m : Str) : Keeps I (M.throw m) Q := fun _ hI => ⟨hI, fun b e => by simp [M.throw] at e⟩

theorem Keeps.panic (m : Str) : Keeps I (M.panic m) Q := fun _ hI => ⟨hI, fun b e => by simp [M.panic] at e⟩

theorem Keeps.diverge : Keeps I (M.diverge : D α) Q := fun _ hI => ⟨hI, fun b e => by simp [M.diverge] at e⟩

theorem Keeps.lift {x : Res α} (h : x.Yields Q) : Keeps I (M.lift x) Q :=
  fun _ hI => ⟨hI, fun b e => h b e⟩

theorem Keeps.get : Keeps I (M.get : D Rd) fun _ => True := fun _ hI => ⟨hI, fun _ _ => trivial⟩

theorem Keeps.ofExcept {x : Except Str α} (h : ∀ a, x = .ok a → Q a) : Keeps I (M.ofExcept x) Q := by
  intro rd hI
  cases x with
  | ok a =>
    refine ⟨hI, fun b e => ?_⟩
    simp only [M.ofExcept, Res.ok.injEq] at e
    exact e ▸ h a rfl
  | error m => exact ⟨hI, fun b e => by simp [M.ofExcept] at e⟩

theorem Keeps.attempt {x : D α} (h : Keeps I x Q) : Keeps I (M.attempt x) fun r => ∀ a, r = .ok a → Q a := by
  intro rd hI
  obtain ⟨h1, h2⟩ := h rd hI
  unfold M.attempt
  cases hx : x rd with
  | mk r s1 =>
    rw [hx] at h1 h2
    cases r with
    | ok a' =>
      refine ⟨h1, fun b e a hb => ?_⟩
      subst hb
      simp only [Res.ok.injEq, Except.ok.injEq] at e
      exact e ▸ h2 a' rfl
    | err m =>
      refine ⟨h1, fun b e a hb => ?_⟩
      subst hb
      simp at e
    | panic m => exact ⟨h1, fun b e => by simp at e⟩
    | diverge => exact ⟨h1, fun b e => by simp at e⟩

end

/-! ### The reader -/

/-- What is still to be read is plain. -/
structure PlainRd (P : REv → Prop) (rd : Rd) : Prop where
  rest : ∀ e ∈ rd.reader.evs, P e
  peeked : ∀ e, rd.peeked = some e → P e

theorem innerNextL_plain {P : REv → Prop} (h0 : P .endDocument) (fin : Option Str) : ∀ (es : List REv), (∀ e ∈ es, P e) →
    (∀ e ∈ (innerNextL es fin).2.evs, P e) ∧ ∀ e, (innerNextL es fin).1 = .ok e → P e
  | [], _ => by
    cases fin with
    | none =>
      refine ⟨by simp [innerNextL], fun e h => ?_⟩
      simp only [innerNextL, Res.ok.injEq] at h
      subst h
      exact h0
    | some m => exact ⟨by simp [innerNextL], fun e h => by simp [innerNextL] at h⟩
  | e :: es, h => by
    simp only [innerNextL]
    split
    · exact innerNextL_plain h0 fin es fun x hx => h x (by simp [hx])
    · refine ⟨fun x hx => h x (by simp [hx]), fun x hx => ?_⟩
      simp only [Res.ok.injEq] at hx
      exact hx ▸ h e (by simp)

section
variable {L : Lib} {P : REv → Prop} (h0 : P .endDocument)

include h0 in
theorem peek_plain : Keeps (PlainRd P) peek P := by
  intro rd hI
  unfold peek
  cases hp : rd.peeked with
  | some e =>
    refine ⟨hI, fun a ha => ?_⟩
    simp only [Res.ok.injEq] at ha
    exact ha ▸ hI.peeked e hp
  | none =>
    have hk := innerNextL_plain h0 rd.reader.fin rd.reader.evs hI.rest
    simp only [innerNext]
    cases hr : innerNextL rd.reader.evs rd.reader.fin with
    | mk r s =>
      rw [hr] at hk
      cases r with
      | ok e =>
        refine ⟨⟨hk.1, fun x hx => ?_⟩, fun x hx => ?_⟩
        · simp only [Option.some.injEq] at hx
          exact hx ▸ hk.2 e rfl
        · simp only [Res.ok.injEq] at hx
          exact hx ▸ hk.2 e rfl
      | err m => exact ⟨⟨hk.1, fun x hx => by simp [hp] at hx⟩, fun x hx => by simp at hx⟩
      | panic m => exact ⟨⟨hk.1, fun x hx => by simp [hp] at hx⟩, fun x hx => by simp at hx⟩
      | diverge => exact ⟨⟨hk.1, fun x hx => by simp [hp] at hx⟩, fun x hx => by simp at hx⟩

theorem trackDepth_plain {e : REv} (he : P e) : Keeps (PlainRd P) (trackDepth e) P := by
  intro rd hI
  unfold trackDepth
  have hd : ∀ k, PlainRd P { rd with depth := k } := fun k => ⟨hI.rest, hI.peeked⟩
  have ho : ∀ a, Res.ok e = Res.ok a → P a := fun a ha => by
    simp only [Res.ok.injEq] at ha
    exact ha ▸ he
  split
  · exact ⟨hd _, ho⟩
  · split
    · exact ⟨hI, fun a ha => by simp at ha⟩
    · exact ⟨hd _, ho⟩
  · exact ⟨hI, ho⟩

include h0 in
theorem innerNext_plain (rd : Rd) (hI : PlainRd P rd) :
    PlainRd P (innerNext rd).2 ∧ ∀ a, (innerNext rd).1 = .ok a → P a := by
  have hk := innerNextL_plain h0 rd.reader.fin rd.reader.evs hI.rest
  unfold innerNext
  exact ⟨⟨hk.1, hI.peeked⟩, hk.2⟩

include h0 in
theorem nextEvent_plain : Keeps (PlainRd P) nextEvent P := by
  intro rd hI
  unfold nextEvent
  cases hp : rd.peeked with
  | some e =>
    exact trackDepth_plain (hI.peeked e hp) _ ⟨hI.rest, fun x hx => by simp at hx⟩
  | none => exact Keeps.bind (fun rd hI => (innerNext_plain h0) rd hI) (fun a ha => trackDepth_plain ha) rd hI

include h0 in
theorem skipLoop_plain : ∀ (n depth : Nat) (acc : List REv), (∀ e ∈ acc, P e) →
    Keeps (PlainRd P) (skipLoop n depth acc) fun es => ∀ e ∈ es, P e
  | 0, _, _, _ => by
    simp only [skipLoop]
    exact Keeps.diverge
  | n + 1, depth, acc, hacc => by
    intro rd hI
    simp only [skipLoop]
    split
    · exact Keeps.bind (nextEvent_plain h0) (fun e he => skipLoop_plain n depth _ fun x hx => by
        rcases List.mem_append.mp hx with hx | hx
        · exact hacc x hx
        · simp only [List.mem_singleton] at hx
          exact hx ▸ he) rd hI
    · refine ⟨hI, fun es hes => ?_⟩
      simp only [Res.ok.injEq] at hes
      exact hes ▸ hacc

include h0 in
theorem skipElement_plain (fuel : Nat) : Keeps (PlainRd P) (skipElement fuel) fun es => ∀ e ∈ es, P e := by
  intro rd hI
  unfold skipElement
  exact (skipLoop_plain h0) fuel rd.depth [] (by simp) rd hI

include h0 in
theorem expectEnd_plain (name : Name) : Keeps (PlainRd P) (expectEndElement name) fun _ => True := by
  unfold expectEndElement
  refine Keeps.bind (nextEvent_plain h0) fun e _ => ?_
  split
  · split
    · exact Keeps.pure trivial
    · exact Keeps.throw _
  · exact Keeps.throw _

include h0 in
theorem readInner_plain {α : Type} {Q : α → Prop} {x : D α} (h : Keeps (PlainRd P) x Q) :
    Keeps (PlainRd P) (readInnerValue x) Q := by
  unfold readInnerValue
  refine Keeps.bind (Keeps.attempt (nextEvent_plain h0)) fun r _ => ?_
  split
  · exact Keeps.bind h fun a ha => Keeps.bind ((expectEnd_plain h0) _) fun _ _ => Keeps.pure ha
  · exact Keeps.throw _

/-! ### Scalars -/

/-- Scalars other than strings. -/
theorem tame_of_parse {t : STy} {s : Str} {v : Val} (ht : t ≠ .string) (hf : FloatsOk L s)
    (h : parseS L t s = .ok v) : v.Tame L := by
  cases t with
  | string => exact absurd rfl ht
  | bool =>
    simp only [parseS] at h
    cases hp : parseBool s with
    | error m => rw [hp] at h; simp [Except.map] at h
    | ok b => rw [hp] at h; simp only [Except.map, Except.ok.injEq] at h; subst h; simp [Val.Tame]
  | int t =>
    simp only [parseS] at h
    cases hp : parseInt t s with
    | error m => rw [hp] at h; simp [Except.map] at h
    | ok b => rw [hp] at h; simp only [Except.map, Except.ok.injEq] at h; subst h; simp [Val.Tame]
  | f32 =>
    simp only [parseS] at h
    cases hp : L.parseF32 s with
    | error m => rw [hp] at h; simp [Except.map] at h
    | ok b => rw [hp] at h; simp only [Except.map, Except.ok.injEq] at h; subst h; exact hf.1 b hp
  | f64 =>
    simp only [parseS] at h
    cases hp : L.parseF64 s with
    | error m => rw [hp] at h; simp [Except.map] at h
    | ok b => rw [hp] at h; simp only [Except.map, Except.ok.injEq] at h; subst h; exact hf.2 b hp

theorem tame_of_visit {t : STy} {s : Str} {v : Val} (ht : t ≠ .string) (hf : FloatsOk L s)
    (h : visitS L t s = .ok v) : v.Tame L := by
  unfold visitS at h
  split at h
  · rename_i hb
    subst hb
    simp only [parseS] at h
    cases hp : parseBool (mapIfBool s) with
    | error m => rw [hp] at h; simp [Except.map] at h
    | ok b => rw [hp] at h; simp only [Except.map, Except.ok.injEq] at h; subst h; simp [Val.Tame]
  · exact tame_of_parse ht hf h

theorem scalarOk_of_visit {t : STy} {s : Str} {v : Val} (hc : CleanText s) (hf : FloatsOk L s)
    (h : visitS L t s = .ok v) : ScalarOk L t v := by
  by_cases ht : t = .string
  · subst ht
    simp only [visitS, parseS, reduceCtorEq, if_false, Except.ok.injEq] at h
    subst h
    exact ⟨hc, rfl⟩
  · exact (scalar_of_tame (visitS_typed L (fun _ => none) h) (tame_of_visit ht hf h)).1

theorem attrScalarOk_of_visit {t : STy} {s : Str} {v : Val} (hc : isAttrText s = true) (hf : FloatsOk L s)
    (h : visitS L t s = .ok v) : AttrScalarOk L t v := by
  by_cases ht : t = .string
  · subst ht
    simp only [visitS, parseS, reduceCtorEq, if_false, Except.ok.injEq] at h
    subst h
    exact ⟨hc, rfl⟩
  · exact (scalar_of_tame (visitS_typed L (fun _ => none) h) (tame_of_visit ht hf h)).2

theorem payloadOk_of_parse {t : STy} {s : Str} {v : Val} (hc : CleanText s ∨ s = []) (hf : FloatsOk L s)
    (h : parseS L t s = .ok v) : PayloadOk L t v := by
  by_cases ht : t = .string
  · subst ht
    simp only [parseS, Except.ok.injEq] at h
    subst h
    rcases hc with hc | rfl
    · refine ⟨hc.chars, ?_⟩
      simp only [showS, hc.trimmed]
      rfl
    · exact ⟨rfl, rfl⟩
  · exact payload_of_tame (parseS_typed L (fun _ => none) h) (tame_of_parse ht hf h)

/-! ### Slots -/

/-- A value read for the field. -/
def ReadOk (L : Lib) (env : Env) (f : FieldDef) (x : Val) : Prop :=
  if f.attrs.isAttr = true then ∀ t, f.ty.core = .simple t → AttrScalarOk L t x else Canon L env f.ty.core x

def SlotOk (L : Lib) (env : Env) (f : FieldDef) : Slot → Prop
  | .one v => (∀ u, f.ty ≠ .vec u) ∧ ∀ x, v = some x → ReadOk L env f x
  | .many vs => (∃ u, f.ty = .vec u) ∧ ∀ v ∈ vs, ReadOk L env f v

def SlotsOk (L : Lib) (env : Env) : List FieldDef → List Slot → Prop
  | [], [] => True
  | f :: fs, s :: ss => SlotOk L env f s ∧ SlotsOk L env fs ss
  | _, _ => False

end

section
variable {L : Lib} {env : Env} {P : REv → Prop}

/-- What has been kept for the flattened fields. -/
def WrOk (P : REv → Prop) (w : Option EW) : Prop :=
  ∀ ew, w = some ew → ∀ we ∈ ew.out, ∃ e, P e ∧ e.asWriterEvent = some we

/-- The local variables of the generated function. -/
def StOk (L : Lib) (env : Env) (P : REv → Prop) (fs : List FieldDef) (st : LoopSt) : Prop :=
  SlotsOk L env fs st.slots ∧ WrOk P st.writer

theorem wrOk_write (b : Bool) {e : REv} (he : P e) {w : Option EW} (hw : WrOk P w) :
    (writeUnused b e w).Yields (WrOk P) := by
  unfold writeUnused
  split
  · exact Res.Yields.ok hw
  · split
    · exact Res.Yields.ok hw
    · rename_i ew
      split
      · exact Res.Yields.panic _
      · rename_i we hwe
        split
        · rename_i ew' hr
          refine Res.Yields.ok ?_
          rintro _ ⟨⟩ x hx
          have hout : ∀ x ∈ ew'.out, x ∈ ew.out ∨ x = we := by
            unfold EW.write at hr
            dsimp only at hr
            split at hr
            · simp at hr
            · split at hr
              · simp only [Prod.mk.injEq, true_and] at hr
                subst hr
                intro x hx
                simpa using hx
              · split at hr
                · simp at hr
                · split at hr
                  all_goals first
                    | (simp at hr; done)
                    | (split at hr
                       all_goals first
                        | (simp at hr; done)
                        | (simp only [Prod.mk.injEq, true_and] at hr
                           subst hr
                           intro x hx
                           simpa using hx))
                    | (simp only [Prod.mk.injEq, true_and] at hr
                       subst hr
                       intro x hx
                       simpa using hx)
              · simp only [Prod.mk.injEq, true_and] at hr
                subst hr
                intro x hx
                simpa using hx
          rcases hout x hx with hx | rfl
          · exact hw ew rfl x hx
          · exact ⟨e, he, hwe⟩
        · refine Res.Yields.ok ?_
          rintro _ ⟨⟩

theorem wrOk_writeAll (b : Bool) : ∀ {es : List REv} {w : Option EW}, (∀ e ∈ es, P e) → WrOk P w →
    (writeUnusedAll b es w).Yields (WrOk P)
  | [], _, _, hw => by
    simp only [writeUnusedAll]
    exact Res.Yields.ok hw
  | e :: es, w, h, hw => by
    simp only [writeUnusedAll]
    exact Res.Yields.bind (wrOk_write b (h e (by simp)) hw) fun w' hw' => wrOk_writeAll b (fun x hx => h x (by simp [hx])) hw'

theorem slotsOk_init : ∀ (fs : List FieldDef), SlotsOk L env fs (fs.map fun f => Slot.init f.ty)
  | [] => trivial
  | f :: fs => by
    refine ⟨?_, slotsOk_init fs⟩
    cases h : f.ty <;> simp [Slot.init, SlotOk, h]

theorem slotOk_put {f : FieldDef} {s : Slot} {v : Val} (h : SlotOk L env f s) (hv : ReadOk L env f v) :
    SlotOk L env f (s.put v) := by
  cases s with
  | one o =>
    refine ⟨h.1, fun x hx => ?_⟩
    simp only [Option.some.injEq] at hx
    exact hx ▸ hv
  | many vs =>
    refine ⟨h.1, fun w hw => ?_⟩
    rcases List.mem_append.mp hw with hw | hw
    · exact h.2 w hw
    · simp only [List.mem_singleton] at hw
      exact hw ▸ hv

theorem slotsOk_put {v : Val} : ∀ {fs : List FieldDef} {ss : List Slot} {i : Nat} {f : FieldDef},
    SlotsOk L env fs ss → fs[i]? = some f → ReadOk L env f v → SlotsOk L env fs (ss.modify i (Slot.put v))
  | [], [], i, f, _, hi, _ => by simp at hi
  | g :: fs, s :: ss, 0, f, h, hi, hv => by
    simp only [List.getElem?_cons_zero, Option.some.injEq] at hi
    subst hi
    exact ⟨slotOk_put h.1 hv, h.2⟩
  | g :: fs, s :: ss, i + 1, f, h, hi, hv => by
    simp only [List.getElem?_cons_succ] at hi
    exact ⟨h.1, slotsOk_put h.2 hi hv⟩
  | [], _ :: _, _, _, h, _, _ => h.elim
  | _ :: _, [], _, _, h, _, _ => h.elim

theorem canon_str {s : Str} (h : CleanText s) : Canon L env (.simple .string) (.str s) := .scalar _ _ ⟨h, rfl⟩

theorem slotsOk_setText {t : Str} (ht : CleanText t) : ∀ {fs : List FieldDef} {ss : List Slot},
    (∀ f ∈ fs, f.attrs.isAttr = true → f.attrs.text = false) → SlotsOk L env fs ss →
    SlotsOk L env fs (setText fs t ss)
  | [], [], _, h => h
  | f :: fs, s :: ss, ha, h => by
    refine ⟨?_, slotsOk_setText ht (fun g hg => ha g (by simp [hg])) h.2⟩
    split
    · rename_i htx
      have hna : ¬ f.attrs.isAttr = true := fun hc => by
        rw [ha f (by simp) hc] at htx
        cases htx
      split
      · rename_i hty
        refine ⟨by simp [hty], ?_⟩
        rintro x ⟨⟩
        rw [ReadOk, if_neg hna, hty]
        exact canon_str ht
      · rename_i hty
        split
        · exact ⟨by simp [hty], by simp⟩
        · refine ⟨by simp [hty], ?_⟩
          rintro x ⟨⟩
          rw [ReadOk, if_neg hna, hty]
          exact canon_str ht
      · exact h.1
    · exact h.1
  | [], _ :: _, _, h => h.elim
  | _ :: _, [], _, h => h.elim

section
variable (hP : PlainEvs L P)
variable {rec : Path → D Val} (hrec : ∀ p, Keeps (PlainRd P) (rec p) (Canon L env (.struct p)))

theorem loadAttrField_canon {f : FieldDef} (ha : f.attrs.isAttr = true)
    (hnv : ∀ u, f.ty ≠ .vec u) {attrs : List Attr} (hat : ∀ a ∈ attrs, isAttrText a.value = true ∧ FloatsOk L a.value)
    {s : Slot} (h : SlotOk L env f s) : (loadAttrField L rec f attrs s).Yields (SlotOk L env f) := by
  unfold loadAttrField
  induction attrs generalizing s with
  | nil => exact Res.Yields.ok h
  | cons a as ih =>
    rw [foldRes]
    refine Res.Yields.bind (Q := SlotOk L env f) ?_ fun s' hs' => ih (fun b hb => hat b (by simp [hb])) hs'
    split
    · split
      · rename_i u hu
        exact absurd hu (hnv u)
      · refine Res.Yields.bind (Q := ReadOk L env f) ?_ fun v hv => Res.Yields.ok (slotOk_put h hv)
        intro x hx
        rw [ReadOk, if_pos ha]
        intro t hty
        rw [hty, visitAttr] at hx
        split at hx
        · rename_i y hy
          have := hat a (by simp)
          cases hx
          exact attrScalarOk_of_visit this.1 this.2 hy
        · cases hx
    · exact Res.Yields.ok h

theorem loadAttrs_canon {attrs : List Attr} (hat : ∀ a ∈ attrs, isAttrText a.value = true ∧ FloatsOk L a.value) :
    ∀ {fs : List FieldDef} {ss : List Slot},
    (∀ f ∈ fs, f.attrs.isAttr = true → ∀ u, f.ty ≠ .vec u) → SlotsOk L env fs ss →
    (loadAttrs L rec fs attrs ss).Yields (SlotsOk L env fs)
  | [], [], _, h => by
    simp only [loadAttrs]
    exact Res.Yields.ok h
  | f :: fs, s :: ss, hf, h => by
    simp only [loadAttrs]
    refine Res.Yields.bind (Q := SlotOk L env f) ?_ fun s' hs' =>
      Res.Yields.bind (loadAttrs_canon hat (fun g hg => hf g (by simp [hg])) h.2) fun ss' hss' => Res.Yields.ok ⟨hs', hss'⟩
    split
    · rename_i ha
      exact loadAttrField_canon ha (hf f (by simp) ha) hat h.1
    · exact Res.Yields.ok h.1
  | [], _ :: _, _, h => h.elim
  | _ :: _, [], _, h => h.elim

include hP in
theorem simpleInner_canon (f : FieldDef) (t : STy) : Keeps (PlainRd P) (simpleInner L f t) (ScalarOk L t) := by
  unfold simpleInner
  refine Keeps.bind (Keeps.attempt (peek_plain hP.eod)) fun r hr => ?_
  split
  · rename_i s
    have hs := hP.plain _ (hr _ rfl)
    refine Keeps.bind (nextEvent_plain hP.eod) fun _ _ => ?_
    split
    · rename_i v hv
      exact Keeps.pure (scalarOk_of_visit hs.1 hs.2 hv)
    · exact Keeps.throw _
  · exact Keeps.throw _

theorem findArm_notAttr {root : Attrs} {ns loc : Str} {fs : List FieldDef} {i : Nat} {f : FieldDef}
    (h : findArm root ns loc fs = some i) (hi : fs[i]? = some f) : f.attrs.isAttr = false := by
  unfold findArm at h
  obtain ⟨hlt, hp, -⟩ := List.findIdx?_eq_some_iff_getElem.mp h
  rw [List.getElem?_eq_getElem hlt] at hi
  simp only [Option.some.injEq] at hi
  subst hi
  simp only [Bool.and_eq_true, Bool.not_eq_true'] at hp
  exact hp.1.1.1

include hP hrec in
theorem callVisitor_canon (root : Attrs) {fs : List FieldDef} {f : FieldDef} {i : Nat} (hi : fs[i]? = some f)
    (hna : f.attrs.isAttr = false) (name : Name) {st : LoopSt} (h : StOk L env P fs st) :
    Keeps (PlainRd P) (callVisitor L rec root f i name st) (StOk L env P fs) := by
  have hR : ∀ v, Canon L env f.ty.core v → ReadOk L env f v := fun v hv => by
    rw [ReadOk, if_neg (by simp [hna])]
    exact hv
  unfold callVisitor
  split
  · rename_i p hp
    unfold callStruct
    refine Keeps.bind (Q := fun _ => True) ?_ fun _ _ => Keeps.bind (Keeps.attempt (peek_plain hP.eod)) fun r _ => ?_
    · split
      · exact Keeps.bind (Keeps.attempt (nextEvent_plain hP.eod)) fun _ _ => Keeps.pure trivial
      · exact Keeps.pure trivial
    · split
      · refine Keeps.bind (hrec p) fun v hv => Keeps.bind (nextEvent_plain hP.eod) fun _ _ => Keeps.pure ?_
        exact ⟨slotsOk_put h.1 hi (hR v (hp ▸ hv)), h.2⟩
      · exact Keeps.pure h
  · rename_i t ht
    unfold callSimple
    refine Keeps.bind (Q := fun _ => True) (Keeps.ofExcept fun _ _ => trivial) fun _ _ => Keeps.bind
      (Keeps.attempt ((readInner_plain hP.eod) (simpleInner_canon hP f t))) fun r hr => ?_
    split
    · rename_i v
      exact Keeps.pure ⟨slotsOk_put h.1 hi (hR v (ht ▸ .scalar t v (hr v rfl))), h.2⟩
    · exact Keeps.pure h
  · exact Keeps.panic _

include hP hrec in
theorem structStart_canon (fuel : Nat) {d : StructDef} {st : LoopSt} (name : Name) {attrs : List Attr}
    (hf : ∀ f ∈ d.fields, f.attrs.isAttr = true → ∀ u, f.ty ≠ .vec u)
    (hat : ∀ a ∈ attrs, isAttrText a.value = true ∧ FloatsOk L a.value) (h : StOk L env P d.fields st) :
    Keeps (PlainRd P) (structStart L rec fuel d st name attrs) (StOk L env P d.fields) := by
  unfold structStart
  dsimp only
  refine Keeps.bind (Q := StOk L env P d.fields) ?_ fun st' h' =>
    Keeps.bind (Q := StOk L env P d.fields) ?_ fun st'' h'' => Keeps.pure ⟨h''.1, h''.2⟩
  · split
    · exact Keeps.bind (nextEvent_plain hP.eod) fun _ he => Keeps.bind (Keeps.lift (wrOk_write _ he h.2)) fun _ hw =>
        Keeps.pure ⟨h.1, hw⟩
    · split
      · rename_i i hi
        split
        · rename_i f hf
          exact callVisitor_canon hP hrec d.attrs hf (findArm_notAttr hi hf) name h
        · exact Keeps.pure h
      · refine Keeps.bind (nextEvent_plain hP.eod) fun _ he => Keeps.bind (Keeps.lift (wrOk_write _ he h.2)) fun _ hw => ?_
        split
        · exact Keeps.bind (skipElement_plain hP.eod fuel) fun _ hes => Keeps.bind (Keeps.lift (wrOk_writeAll _ hes hw))
            fun _ hw' => Keeps.pure ⟨h.1, hw'⟩
        · exact Keeps.pure ⟨h.1, hw⟩
  · split
    · exact Keeps.bind (Keeps.lift (loadAttrs_canon hat hf h'.1)) fun ss hss => Keeps.pure ⟨hss, h'.2⟩
    · exact Keeps.pure h'

include hP hrec in
theorem structStep_canon (fuel : Nat) {d : StructDef} (named : Str) (startDepth : Nat) {st : LoopSt}
    (hf : ∀ f ∈ d.fields, f.attrs.isAttr = true → ∀ u, f.ty ≠ .vec u)
    (htx : ∀ f ∈ d.fields, f.attrs.isAttr = true → f.attrs.text = false)
    (h : StOk L env P d.fields st) :
    Keeps (PlainRd P) (structStep L rec fuel d named startDepth st) fun r => StOk L env P d.fields r.1 := by
  unfold structStep
  refine Keeps.bind (peek_plain hP.eod) fun e he => ?_
  split
  · exact Keeps.bind (structStart_canon hP hrec fuel _ hf (hP.plain _ he) h) fun st' h' => Keeps.pure h'
  · refine Keeps.bind Keeps.get fun rd _ => ?_
    split
    · exact Keeps.bind (Keeps.lift (wrOk_write _ he h.2)) fun _ hw => Keeps.pure ⟨h.1, hw⟩
    · exact Keeps.bind (nextEvent_plain hP.eod) fun _ he' => Keeps.bind (Keeps.lift (wrOk_write _ he' h.2)) fun _ hw =>
        Keeps.pure ⟨h.1, hw⟩
  · split <;> exact Keeps.pure h
  · exact Keeps.bind (nextEvent_plain hP.eod) fun _ he' => Keeps.bind (Keeps.lift (wrOk_write _ he' h.2)) fun _ hw =>
      Keeps.pure ⟨slotsOk_setText (hP.plain _ he).1 htx h.1, hw⟩
  · exact Keeps.throw _

include hP hrec in
theorem structLoop_canon (skipFuel : Nat) {d : StructDef} (named : Str) (startDepth : Nat)
    (hf : ∀ f ∈ d.fields, f.attrs.isAttr = true → ∀ u, f.ty ≠ .vec u)
    (htx : ∀ f ∈ d.fields, f.attrs.isAttr = true → f.attrs.text = false) :
    ∀ (n : Nat) {st : LoopSt}, StOk L env P d.fields st →
    Keeps (PlainRd P) (structLoop L rec skipFuel d named startDepth n st) (StOk L env P d.fields)
  | 0, st, _ => by
    simp only [structLoop]
    exact Keeps.diverge
  | n + 1, st, h => by
    simp only [structLoop]
    refine Keeps.bind (structStep_canon hP hrec skipFuel named startDepth hf htx h) fun r h' => ?_
    split
    · exact structLoop_canon skipFuel named startDepth hf htx n h'
    · exact Keeps.pure h'

/-! ### Flattened fields -/

include hrec in
theorem fromStr_canon (p : Path) {u : Str} (hu : ∀ e ∈ (L.parse u).evs, P e) :
    (fromStr L rec p u).Yields (Canon L env (.struct p)) := by
  intro v hv
  exact (hrec p (Rd.new (L.parse u)) ⟨hu, fun e he => by simp [Rd.new] at he⟩).2 v hv

include hrec in
theorem flattenFields_canon {u : Str} (hu : ∀ e ∈ (L.parse u).evs, P e) : ∀ {fs : List FieldDef} {ss : List Slot},
    SlotsOk L env fs ss → (flattenFields L rec u fs ss).Yields (SlotsOk L env fs)
  | [], [], h => by
    simp only [flattenFields]
    exact Res.Yields.ok h
  | f :: fs, s :: ss, h => by
    simp only [flattenFields]
    refine Res.Yields.bind (Q := SlotOk L env f) ?_ fun s' hs' =>
      Res.Yields.bind (flattenFields_canon hu h.2) fun ss' hss' => Res.Yields.ok ⟨hs', hss'⟩
    unfold flattenField
    split
    · rename_i hc
      have hna : f.attrs.isAttr = false := by
        cases hi : f.attrs.isAttr <;> simp [hi] at hc ⊢
      have hR : ∀ q v, f.ty.core = .struct q → Canon L env (.struct q) v → ReadOk L env f v := fun q v hq hv => by
        rw [ReadOk, if_neg (by simp [hna]), hq]
        exact hv
      split
      · rename_i q hq
        refine Res.Yields.bind (fromStr_canon hrec q hu) fun v hv => Res.Yields.ok ⟨by simp [hq], ?_⟩
        rintro x ⟨⟩
        exact hR q v (by rw [hq]; rfl) hv
      · rename_i q hq
        split
        · rename_i v hv
          refine Res.Yields.ok ⟨by simp [hq], ?_⟩
          rintro x ⟨⟩
          exact hR q v (by rw [hq]; rfl) (fromStr_canon hrec q hu v hv)
        · exact Res.Yields.ok ⟨by simp [hq], by simp⟩
        · exact Res.Yields.panic _
        · intro a ha; simp at ha
      · exact Res.Yields.panic _
    · exact Res.Yields.ok h.1
  | [], _ :: _, h => h.elim
  | _ :: _, [], h => h.elim

/-! ### Building the struct -/

/-- A field of the result: read, or filled in. -/
def FilledOk (L : Lib) (env : Env) (f : FieldDef) (v : Val) : Prop :=
  f.absent = some v ∨ (∃ x, f.ty.core = f.ty ∧ v = x ∧ ReadOk L env f x) ∨
    (∃ u x, f.ty = .opt u ∧ v = .some x ∧ ReadOk L env f x) ∨
    ∃ u xs, f.ty = .vec u ∧ v = .vec xs ∧ ∀ x ∈ xs, ReadOk L env f x

theorem buildField_canon (name : Str) (f : FieldDef) {s : Slot} (h : SlotOk L env f s) :
    (buildField name f s).Yields (FilledOk L env f) := by
  unfold buildField
  split
  · rename_i u vs hty
    exact Res.Yields.ok (.inr (.inr (.inr ⟨u, vs, hty, rfl, h.2⟩)))
  · rename_i u hty
    refine Res.Yields.ok (.inl ?_)
    simp [FieldDef.absent, hty]
  · rename_i u v hty
    exact Res.Yields.ok (.inr (.inr (.inl ⟨u, v, hty, rfl, h.2 v rfl⟩)))
  · rename_i v hno
    refine Res.Yields.ok (.inr (.inl ⟨v, ?_, rfl, h.2 v rfl⟩))
    cases hty : f.ty with
    | vec u => exact absurd hty (h.1 u)
    | opt u => exact (hno u hty).elim
    | simple t => rfl
    | struct p => rfl
  · rename_i hno
    split
    · rename_i dv hdv
      refine Res.Yields.ok (.inl ?_)
      cases hty : f.ty with
      | vec u => exact absurd hty (h.1 u)
      | opt u => exact (hno u hty).elim
      | simple t => simp [FieldDef.absent, hty, hdv]
      | struct p => simp [FieldDef.absent, hty, hdv]
    · intro a e; simp at e
  · exact Res.Yields.panic _

theorem buildFields_canon (name : Str) : ∀ {fs : List FieldDef} {ss : List Slot}, SlotsOk L env fs ss →
    (buildFields name fs ss).Yields fun vs => vs.length = fs.length ∧
      ∀ (i : Nat) (f : FieldDef) (v : Val), fs[i]? = some f → vs[i]? = some v → FilledOk L env f v
  | [], [], _ => by
    simp only [buildFields]
    exact Res.Yields.ok ⟨rfl, by simp⟩
  | f :: fs, s :: ss, h => by
    simp only [buildFields]
    refine Res.Yields.bind (buildField_canon name f h.1) fun v hv =>
      Res.Yields.bind (buildFields_canon name h.2) fun vs hvs => Res.Yields.ok ?_
    refine ⟨by simp [hvs.1], fun i g w hg hw => ?_⟩
    cases i with
    | zero =>
      simp only [List.getElem?_cons_zero, Option.some.injEq] at hg hw
      exact hg ▸ hw ▸ hv
    | succ i =>
      simp only [List.getElem?_cons_succ] at hg hw
      exact hvs.2 i g w hg hw
  | [], _ :: _, h => h.elim
  | _ :: _, [], h => h.elim

include hP hrec in
theorem structDeser_canon (fuel : Nat) {d : StructDef} (hfl : d.hasFlat = true → Relays L P)
    (htx : ∀ f ∈ d.fields, f.attrs.isAttr = true → f.attrs.text = false)
    (hnv : ∀ f ∈ d.fields, f.attrs.isAttr = true → ∀ t, f.ty ≠ .vec t) :
    Keeps (PlainRd P) (structDeser L rec fuel d) fun v => ∃ fs, v = .struct fs ∧ fs.length = d.fields.length ∧
      ∀ (i : Nat) (f : FieldDef) (v : Val), d.fields[i]? = some f → fs[i]? = some v → FilledOk L env f v := by
  unfold structDeser structBody
  refine Keeps.bind (peek_plain hP.eod) fun e _ => Keeps.bind Keeps.get fun rd _ => Keeps.bind (Q := fun _ => True) ?_ fun _ _ =>
    Keeps.bind (structLoop_canon hP hrec fuel _ _ hnv htx fuel ⟨slotsOk_init d.fields, ?_⟩) fun st hst =>
    Keeps.bind (Q := SlotsOk L env d.fields) ?_ fun slots hslots =>
    Keeps.bind (Keeps.lift (buildFields_canon d.name hslots)) fun vs hvs => Keeps.pure ⟨vs, rfl, hvs.1, hvs.2⟩
  · split
    · exact Keeps.ofExcept fun _ _ => trivial
    · exact Keeps.pure trivial
  · rintro ew ⟨⟩ we hwe
    simp at hwe
  · split
    · rename_i w h1 h2
      exact Keeps.lift (flattenFields_canon hrec (hfl h1 _ (hst.2 w h2)) hst.1)
    · exact Keeps.pure hst.1

end

theorem readOk_core {f : FieldDef} {x : Val} (hna : f.attrs.isAttr = false) (h : ReadOk L env f x) :
    Canon L env f.ty.core x := by
  rwa [ReadOk, if_neg (by simp [hna])] at h

theorem readOk_attr {f : FieldDef} {x : Val} (ha : f.attrs.isAttr = true) (h : ReadOk L env f x) :
    ∀ t, f.ty.core = .simple t → AttrScalarOk L t x := by
  rwa [ReadOk, if_pos ha] at h

theorem str_of_canon {x : Val} (h : Canon L env (.simple .string) x) : ∃ s, x = .str s ∧ CleanText s := by
  cases h with
  | scalar _ _ h =>
    have h1 := h.parses
    simp only [visitS, parseS, reduceCtorEq, if_false, Except.ok.injEq] at h1
    have h2 := h.clean
    exact ⟨_, h1.symm, h2⟩

/-- A field with its default value is left out. -/
theorem not_selected {f : FieldDef} {self : Val} {dv : Dflt} (h : f.dflt = some dv) (hne : dv.ne dv.val = false) :
    ¬ f.selected self dv.val := fun hs => by
  have := hs.2 dv h
  rw [hne] at this
  cases this

theorem canon_of_fields (hL : XmlLaw L) {G : NsMap} (hR : RtOk env G) (hC : Carries env) (hpr : ∀ p d, env p = some (.prim d) → Inverts d) (hw : Restores env) (hsd : SettledDefaults L env) {p : Path}
    {d : StructDef} (hp : env p = some (.struct d)) {fs : List Val}
    (hty : HasTy env (.struct p) (.struct fs)) (hlen : fs.length = d.fields.length)
    (h : ∀ (i : Nat) (f : FieldDef) (v : Val), d.fields[i]? = some f → fs[i]? = some v → FilledOk L env f v) :
    Canon L env (.struct p) (.struct fs) := by
  have hT : ∀ (i : Nat) (f : FieldDef) (v : Val), d.fields[i]? = some f → fs[i]? = some v → HasTy env f.ty v := by
    cases hty with
    | struct _ d' _ hp' _ h' =>
      rw [hp] at hp'
      simp only [Option.some.injEq, TypeDef.struct.injEq] at hp'
      subst hp'
      exact h'
    | prim _ d' _ hp' => rw [hp] at hp'; simp at hp'
  have hs := hR.struct p d hp
  have hmem : ∀ {i : Nat} {f : FieldDef}, d.fields[i]? = some f → f ∈ d.fields := fun hf => List.mem_of_getElem? hf
  refine .struct p d fs hp hlen ?_ ?_ ?_ ?_ ?_ ?_
  · -- attributes
    intro i f v hf hv ha
    have htx := attr_not_text hs (hmem hf) ha
    have hnv := (hw p d hp f (hmem hf)).2.2 ha
    by_cases hsel : f.selected (.struct fs) v
    · rcases h i f v hf hv with hab | ⟨x, hc, rfl, hx⟩ | ⟨u, x, hu, rfl, hx⟩ | ⟨u, xs, hu, -, -⟩
      · cases hft : f.ty with
        | vec u => exact absurd hft (hnv u)
        | opt u =>
          have hv' : v = .none := by
            rw [FieldDef.absent, hft] at hab
            simpa using hab.symm
          exact .absent v (.inr (.inl ⟨u, hft, hv'⟩)) hab
        | simple t =>
          refine .absent v (.inl ?_) hab
          rw [FieldDef.absent, hft] at hab
          simp only [Option.map_eq_some_iff] at hab
          obtain ⟨dv, hdv, rfl⟩ := hab
          exact not_selected hdv ((hsd.fields p d hp f (hmem hf) dv hdv).1 htx)
        | struct q =>
          refine .absent v (.inl ?_) hab
          rw [FieldDef.absent, hft] at hab
          simp only [Option.map_eq_some_iff] at hab
          obtain ⟨dv, hdv, rfl⟩ := hab
          exact not_selected hdv ((hsd.fields p d hp f (hmem hf) dv hdv).1 htx)
      · have hx := readOk_attr ha hx
        rcases hs.plain.elemTy f (hmem hf) with ⟨t, ht⟩ | ⟨q, hq⟩
        · exact .plain t v (hc ▸ ht) hsel (hx t ht)
        · have hty := hT i f v hf hv
          have he : f.ty = .struct q := by rw [← hq, hc]
          rw [he] at hty
          exact .user q v he hsel (attrUser_carried hL hR hpr (hC.attr p d hp f (hmem hf) ha q hq) hty)
      · have hx := readOk_attr ha hx
        rcases hs.plain.elemTy f (hmem hf) with ⟨t, ht⟩ | ⟨q, hq⟩
        · have hx := hx t ht
          rw [hu] at ht
          simp only [FTy.core] at ht
          exact .some t x (ht ▸ hu) hsel hx
        · have hty := hT i f _ hf hv
          have hq' := hq
          rw [hu] at hq' hty
          simp only [FTy.core] at hq'
          subst hq'
          cases hty with
          | some _ _ hty =>
            exact .userSome q x hu hsel (attrUser_carried hL hR hpr (hC.attr p d hp f (hmem hf) ha q hq) hty)
      · exact absurd hu (hnv u)
    · exact .absent v (.inl hsel) ((hw p d hp f (hmem hf)).1 htx _ v (hT i f v hf hv) (.inr hsel))
  · -- attributes of derived types
    intro i f v q x hf hv ha hor _
    have hty := hT i f v hf hv
    rcases hor with ⟨h1, rfl⟩ | ⟨h1, rfl⟩
    · rw [h1] at hty
      exact canon_attrUser hpr (hC.attr p d hp f (hmem hf) ha q (by rw [h1]; rfl)) hty
    · rw [h1] at hty
      cases hty with
      | some _ _ hty => exact canon_attrUser hpr (hC.attr p d hp f (hmem hf) ha q (by rw [h1]; rfl)) hty
  · -- text
    intro i f v hf hv hna htx
    have htt := hs.plain.textTy f (hmem hf) htx
    rcases h i f v hf hv with hab | ⟨x, hc, rfl, hx⟩ | ⟨u, x, hu, rfl, hx⟩ | ⟨u, xs, hu, -, -⟩
    · rcases htt with ht | ht
      · have hab' := hab
        rw [FieldDef.absent, ht] at hab
        simp only [Option.map_eq_some_iff] at hab
        obtain ⟨dv, hdv, rfl⟩ := hab
        obtain ⟨s, hs1, hs2⟩ := (hsd.fields p d hp f (hmem hf) dv hdv).2 htx ht
        rcases hs2 with rfl | hs2
        · exact .absent _ (by rw [hs1]; rfl) hab'
        · rw [hs1]
          exact .str s ht hs2
      · refine .absent v ?_ hab
        rw [FieldDef.absent, ht] at hab
        simp only [Option.some.injEq] at hab
        subst hab
        rfl
    · rcases htt with ht | ht
      · have := readOk_core hna hx
        rw [ht] at this
        obtain ⟨s, rfl, hc⟩ := str_of_canon this
        exact .str s ht hc
      · rw [ht] at hc
        simp [FTy.core] at hc
    · rcases htt with ht | ht
      · rw [ht] at hu
        cases hu
      · have := readOk_core hna hx
        rw [ht] at this
        obtain ⟨s, rfl, hc⟩ := str_of_canon this
        exact .some s ht hc
    · rcases htt with ht | ht <;> rw [ht] at hu <;> cases hu
  · intro i f v hf hv hna htx ho
    exact ⟨flat_omitted (hC.flat p d hp f (hmem hf) hna) ho, (hw p d hp f (hmem hf)).1 htx _ v (hT i f v hf hv) ho⟩
  · intro i f v hf hv _ _ _ hc
    rw [(hw p d hp f (hmem hf)).2.1] at hc
    cases hc
  · intro i f v hf hv hna htx hno _
    rcases h i f v hf hv with hab | ⟨x, hc, rfl, hx⟩ | ⟨u, x, hu, rfl, hx⟩ | ⟨u, xs, hu, rfl, hx⟩
    · have key : ∀ dv, f.dflt = some dv → dv.val = v → Canon L env f.ty v := by
        rintro dv hdv rfl
        exact absurd (.inr (not_selected hdv ((hsd.fields p d hp f (hmem hf) dv hdv).1 htx))) hno
      cases hft : f.ty with
      | vec u =>
        rw [FieldDef.absent, hft] at hab
        simp only [Option.some.injEq] at hab
        subst hab
        exact .vec u [] (by simp)
      | opt u =>
        rw [FieldDef.absent, hft] at hab
        simp only [Option.some.injEq] at hab
        subst hab
        exact .none u
      | simple t =>
        rw [FieldDef.absent, hft] at hab
        simp only [Option.map_eq_some_iff] at hab
        obtain ⟨dv, hdv, hv'⟩ := hab
        exact hft ▸ key dv hdv hv'
      | struct q =>
        rw [FieldDef.absent, hft] at hab
        simp only [Option.map_eq_some_iff] at hab
        obtain ⟨dv, hdv, hv'⟩ := hab
        exact hft ▸ key dv hdv hv'
    · exact hc ▸ readOk_core hna hx
    · have := readOk_core hna hx
      rw [hu] at this ⊢
      exact .some u x this
    · rw [hu]
      refine .vec u xs fun y hy => ?_
      have := readOk_core hna (hx y hy)
      rw [hu] at this
      exact this

/-! ### Enums -/

section
variable (hP : PlainEvs L P)
variable {rec : Path → D Val} (hrec : ∀ p, Keeps (PlainRd P) (rec p) (Canon L env (.struct p)))
variable (h0 : FloatsOk L [])

include hP h0 in
theorem variantInner_canon (t : STy) : Keeps (PlainRd P) (variantInner L t) (PayloadOk L t) := by
  have hu : ∀ s, (CleanText s ∨ s = []) → FloatsOk L s → Keeps (PlainRd P) (visitUnwrap L t s) (PayloadOk L t) := by
    intro s hs hf
    unfold visitUnwrap
    split
    · rename_i v hv
      exact Keeps.pure (payloadOk_of_parse hs hf hv)
    · exact Keeps.panic _
  unfold variantInner
  refine Keeps.bind (peek_plain hP.eod) fun e he => ?_
  split
  · exact hu _ (.inr rfl) h0
  · refine Keeps.bind (Keeps.attempt (nextEvent_plain hP.eod)) fun r hr => ?_
    split
    · have := hP.plain _ (hr _ rfl)
      exact hu _ (.inl this.1) this.2
    · exact Keeps.throw _

/-- The value collected so far. -/
def CurOk (L : Lib) (env : Env) (p : Path) (cur : Option Val) : Prop := ∀ v, cur = some v → Canon L env (.struct p) v

include hP hrec h0 in
theorem variantArm_canon (hC : Carries env) {p : Path} {d : EnumDef} (hp : env p = some (.enum d)) {i : Nat}
    {vd : VariantDef} (hi : d.variants[i]? = some vd) {cur : Option Val} (hc : CurOk L env p cur) :
    Keeps (PlainRd P) (variantArm L rec i vd cur) fun r => CurOk L env p r.1 := by
  have hset : ∀ {t : FTy}, vd.shape = .newtype t → d.attrs.tag = none → ∀ x,
      (∀ s, t.core = .simple s → PayloadOk L s x) →
      (∀ q, t.core = .struct q → Canon L env (.struct q) x ∧ encTyAttrs L env q x = [] ∧ ∀ e ∈ encTyDecls env q x, e ∈ d.attrs.decls) →
      (∃ s, t.core = .simple s) ∨ (∃ q, t.core = .struct q) →
      ∀ r, setVariant i t x cur = .ok r → CurOk L env p r := by
    intro t hsh htag x h1 h2 hor r hr
    unfold setVariant at hr
    split at hr
    · -- Option
      rename_i u
      simp only [Except.ok.injEq] at hr
      subst hr
      rintro v ⟨⟩
      rcases hor with ⟨s, hs⟩ | ⟨q, hq⟩
      · have := h1 s hs
        rw [FTy.core] at hs; subst hs
        exact .payloadSome p d i vd s x hp htag hi hsh this
      · have := h2 q hq
        rw [FTy.core] at hq; subst hq
        exact .payloadSomeStruct p d i vd q x hp htag hi hsh this.1 this.2.1 this.2.2
    · -- Vec
      rename_i u
      split at hr
      · rename_i j vs
        split at hr
        · rename_i hij
          subst hij
          simp only [Except.ok.injEq] at hr
          subst hr
          rintro v ⟨⟩
          have hcur := hc _ rfl
          have hvs : ∀ {vd' : VariantDef}, d.variants[j]? = some vd' → vd' = vd := fun h => by
            rw [hi] at h; cases h; rfl
          rcases hor with ⟨s, hs⟩ | ⟨q, hq⟩
          · have hx := h1 s hs
            rw [FTy.core] at hs; subst hs
            refine .payloadItems p d j vd s _ hp htag hi hsh (by simp) fun y hy => ?_
            rcases List.mem_append.mp hy with hy | hy
            · cases hcur with
              | payload _ d' _ vd' t' _ hp' _ hv' hs' =>
                rw [hp] at hp'; cases hp'; rw [hvs hv', hsh] at hs'; cases hs'
              | payloadItems _ d' _ vd' t' _ hp' _ hv' hs' hne h =>
                rw [hp] at hp'; cases hp'; rw [hvs hv', hsh] at hs'; cases hs'
                exact h y hy
              | payloadStruct _ d' _ vd' t' _ hp' _ hv' hs' =>
                rw [hp] at hp'; cases hp'; rw [hvs hv', hsh] at hs'; cases hs'
              | payloadStructs _ d' _ vd' t' _ hp' _ hv' hs' =>
                rw [hp] at hp'; cases hp'; rw [hvs hv', hsh] at hs'; cases hs'
              | payloadEmpty => simp at hy
              | prim _ d' _ hp' => rw [hp] at hp'; cases hp'
            · simp only [List.mem_singleton] at hy
              exact hy ▸ hx
          · have hx := h2 q hq
            rw [FTy.core] at hq; subst hq
            have key : ∀ y ∈ vs ++ [x], Canon L env (.struct q) y ∧ encTyAttrs L env q y = [] ∧
                ∀ e ∈ encTyDecls env q y, e ∈ d.attrs.decls := by
              intro y hy
              rcases List.mem_append.mp hy with hy | hy
              · cases hcur with
                | payload _ d' _ vd' t' _ hp' _ hv' hs' =>
                  rw [hp] at hp'; cases hp'; rw [hvs hv', hsh] at hs'; cases hs'
                | payloadItems _ d' _ vd' t' _ hp' _ hv' hs' hne h =>
                  rw [hp] at hp'; cases hp'; rw [hvs hv', hsh] at hs'; cases hs'
                | payloadStruct _ d' _ vd' t' _ hp' _ hv' hs' =>
                  rw [hp] at hp'; cases hp'; rw [hvs hv', hsh] at hs'; cases hs'
                | payloadStructs _ d' _ vd' t' _ hp' _ hv' hs' hne h hb hn =>
                  rw [hp] at hp'; cases hp'; rw [hvs hv', hsh] at hs'; cases hs'
                  exact ⟨h y hy, hb y hy, hn y hy⟩
                | payloadEmpty => simp at hy
                | prim _ d' _ hp' => rw [hp] at hp'; cases hp'
              · simp only [List.mem_singleton] at hy
                exact hy ▸ hx
            exact .payloadStructs p d j vd q _ hp htag hi hsh (by simp) (fun y hy => (key y hy).1) (fun y hy => (key y hy).2.1)
              fun y hy => (key y hy).2.2
        · cases hr
      · cases hr
      · simp only [Except.ok.injEq] at hr
        subst hr
        rintro v ⟨⟩
        rcases hor with ⟨s, hs⟩ | ⟨q, hq⟩
        · have hx := h1 s hs
          rw [FTy.core] at hs; subst hs
          refine .payloadItems p d i vd s _ hp htag hi hsh (by simp) fun y hy => ?_
          simp only [List.mem_singleton] at hy
          exact hy ▸ hx
        · have hx := h2 q hq
          rw [FTy.core] at hq; subst hq
          refine .payloadStructs p d i vd q _ hp htag hi hsh (by simp) ?_ ?_ ?_ <;>
            (intro y hy; simp only [List.mem_singleton] at hy; subst hy)
          · exact hx.1
          · exact hx.2.1
          · exact hx.2.2
    · rename_i hno1 hno2
      simp only [Except.ok.injEq] at hr
      subst hr
      rintro v ⟨⟩
      cases t with
      | opt u => exact (hno1 u rfl).elim
      | vec u => exact (hno2 u rfl).elim
      | simple s => exact .payload p d i vd s x hp htag hi hsh (h1 s rfl)
      | struct q =>
        have := h2 q rfl
        exact .payloadStruct p d i vd q x hp htag hi hsh this.1 this.2.1 this.2.2
  cases hsh : vd.shape with
  | unit =>
    simp only [variantArm, hsh]
    refine Keeps.pure fun v hv => ?_
    simp only [Option.some.injEq] at hv
    exact hv ▸ .unit p d i vd hp hi hsh
  | named fds =>
    simp only [variantArm, hsh]
    exact Keeps.pure hc
  | newtype t =>
    obtain ⟨htag, hpay⟩ := hC.payload p d hp vd (List.mem_of_getElem? hi) t hsh
    simp only [variantArm, hsh]
    split
    · rename_i q hq
      have hb : BareIn env d.attrs.decls q := by
        rcases hpay with ⟨s, hs⟩ | ⟨q', hq', hb⟩
        · rw [hq] at hs; cases hs
        · rw [hq] at hq'; cases hq'; exact hb
      refine Keeps.bind (hrec q) fun x hx => Keeps.bind (Q := CurOk L env p) (Keeps.ofExcept fun r' hr' => ?_) fun cur' hc' =>
        Keeps.bind (Keeps.attempt (nextEvent_plain hP.eod)) fun _ _ => Keeps.pure hc'
      refine hset hsh htag x ?_ ?_ (.inr ⟨q, hq⟩) r' hr'
      · intro s hs; rw [hq] at hs; cases hs
      · intro q' hq'
        rw [hq] at hq'; cases hq'
        exact ⟨hx, bare_in hb x⟩
    · rename_i s hs
      refine Keeps.bind (Keeps.attempt (readInner_plain hP.eod (variantInner_canon hP h0 s))) fun r hr => ?_
      split
      · rename_i x
        refine Keeps.bind (Q := CurOk L env p) (Keeps.ofExcept fun r' hr' => ?_) fun cur' hc' => Keeps.pure hc'
        refine hset hsh htag x ?_ ?_ (.inl ⟨s, hs⟩) r' hr'
        · intro s' hs'; rw [hs] at hs'; cases hs'; exact hr x rfl
        · intro q hq; rw [hs] at hq; cases hq
      · exact Keeps.pure hc
    · exact Keeps.panic _

include hP hrec h0 in
theorem enumMatch_canon (hC : Carries env) {p : Path} {d : EnumDef} (hp : env p = some (.enum d)) (key : Str)
    {cur : Option Val} (hc : CurOk L env p cur) {dflt : D (Option Val × Bool)}
    (hd : Keeps (PlainRd P) dflt fun r => CurOk L env p r.1) :
    Keeps (PlainRd P) (enumMatch L rec d key cur dflt) fun r => CurOk L env p r.1 := by
  unfold enumMatch
  split
  · split
    · rename_i v hv
      exact variantArm_canon hP hrec h0 hC hp hv hc
    · exact hd
  · exact hd

include hP hrec h0 in
theorem enumStep_canon (hC : Carries env) {p : Path} {d : EnumDef} (hp : env p = some (.enum d)) (named : Str)
    (startDepth : Nat) {cur : Option Val} (hc : CurOk L env p cur) :
    Keeps (PlainRd P) (enumStep L rec d named startDepth cur) fun r => CurOk L env p r.1 := by
  unfold enumStep
  refine Keeps.bind (peek_plain hP.eod) fun e _ => ?_
  split
  · refine Keeps.bind (Q := fun _ => True) (Keeps.ofExcept fun _ _ => trivial) fun key _ =>
      Keeps.bind (enumMatch_canon hP hrec h0 hC hp key hc
        (Keeps.bind (Keeps.attempt (nextEvent_plain hP.eod)) fun _ _ => Keeps.pure hc)) fun r hr => ?_
    obtain ⟨cur', cont⟩ := r
    dsimp only at hr ⊢
    split
    · refine Keeps.bind (peek_plain hP.eod) fun e' _ => ?_
      split
      · exact enumMatch_canon hP hrec h0 hC hp _ hr (Keeps.pure hr)
      · exact Keeps.pure hr
    · exact Keeps.pure hr
  · refine Keeps.bind Keeps.get fun rd _ => ?_
    split
    · exact Keeps.pure hc
    · exact Keeps.bind (Keeps.attempt (nextEvent_plain hP.eod)) fun _ _ => Keeps.pure hc
  · exact Keeps.bind (Keeps.attempt (nextEvent_plain hP.eod)) fun _ _ => Keeps.pure hc
  · split
    · exact Keeps.pure hc
    · exact Keeps.throw _
  · exact Keeps.throw _

include hP hrec h0 in
theorem enumLoop_canon (hC : Carries env) {p : Path} {d : EnumDef} (hp : env p = some (.enum d)) (named : Str)
    (startDepth : Nat) : ∀ (n : Nat) {cur : Option Val}, CurOk L env p cur →
    Keeps (PlainRd P) (enumLoop L rec d named startDepth n cur) (CurOk L env p)
  | 0, _, _ => by
    simp only [enumLoop]
    exact Keeps.diverge
  | n + 1, cur, hc => by
    simp only [enumLoop]
    refine Keeps.bind (enumStep_canon hP hrec h0 hC hp named startDepth hc) fun r hr => ?_
    split
    · exact enumLoop_canon hC hp named startDepth n hr
    · exact Keeps.pure hr

include hP hrec h0 in
theorem enumDeser_canon (fuel : Nat) (hC : Carries env) {p : Path} {d : EnumDef} (hp : env p = some (.enum d))
    (hd : Canon L env (.struct p) d.dflt) : Keeps (PlainRd P) (enumDeser L rec fuel d) (Canon L env (.struct p)) := by
  unfold enumDeser enumBody
  refine Keeps.bind (peek_plain hP.eod) fun e _ => Keeps.bind Keeps.get fun rd _ =>
    Keeps.bind (Q := fun _ => True) (Keeps.ofExcept fun _ _ => trivial) fun _ _ =>
    Keeps.bind (enumLoop_canon hP hrec h0 hC hp _ _ fuel (cur := none) (by intro v hv; simp at hv)) fun cur hc => Keeps.pure ?_
  cases cur with
  | none => exact hd
  | some v => exact hc v rfl

end

theorem primDeser_canon (hP : PlainEvs L P) {p : Path} {d : PrimDef} (hp : env p = some (.prim d))
    (hd : ∀ s v, d.fromStr s = .ok v → d.dom v = true) (hi : Inverts d) :
    Keeps (PlainRd P) (primDeser d) (Canon L env (.struct p)) := by
  have key : ∀ s v, d.fromStr s = .ok v → Canon L env (.struct p) v := fun s v h =>
    have := hi.2 v (hd s v h)
    .prim p d v hp hi.1 this.1 this.2
  unfold primDeser
  refine Keeps.bind (Keeps.attempt (peek_plain hP.eod)) fun r _ => ?_
  split
  · refine Keeps.bind (nextEvent_plain hP.eod) fun _ _ => Keeps.bind (Keeps.attempt (peek_plain hP.eod)) fun r _ => ?_
    split
    · exact Keeps.ofExcept fun v hv => key _ v hv
    · exact Keeps.ofExcept fun v hv => key _ v hv
  · exact Keeps.throw _

theorem deser_canon (hL : XmlLaw L) {G : NsMap} (hR : RtOk env G) (hC : Carries env) (hw : Restores env) (hT : Typed env)
    (hsd : SettledDefaults L env) (hpr : ∀ p d, env p = some (.prim d) → Inverts d) (h0 : FloatsOk L []) (hP : PlainEvs L P)
    (hfl : NoFlatten env ∨ Relays L P) : ∀ (n : Nat) (p : Path), Keeps (PlainRd P) (deser L env n p) (Canon L env (.struct p))
  | 0, p => by
    simp only [deser]
    exact Keeps.diverge
  | n + 1, p => by
    have ih := deser_canon hL hR hC hw hT hsd hpr h0 hP hfl n
    have hty := deser_typed L env hT (n + 1) p
    simp only [deser] at hty ⊢
    cases hp : env p with
    | none => exact Keeps.panic _
    | some td =>
      rw [hp] at hty
      cases td with
      | struct d =>
        intro rd hI
        have hfl' : d.hasFlat = true → Relays L P := by
          rcases hfl with h | h
          · intro hc
            obtain ⟨f, hf, hc⟩ := List.any_eq_true.mp hc
            simp only [Bool.and_eq_true, Bool.not_eq_true'] at hc
            rw [h p d hp f hf hc.1] at hc
            exact absurd hc.2 (by simp)
          · exact fun _ => h
        obtain ⟨h1, h2⟩ := structDeser_canon hP ih n hfl' (fun f hf ha => attr_not_text (hR.struct p d hp) hf ha)
          (fun f hf => (hw p d hp f hf).2.2) rd hI
        refine ⟨h1, fun a ha => ?_⟩
        obtain ⟨fs, rfl, hlen, hf⟩ := h2 a ha
        exact canon_of_fields hL hR hC hpr hw hsd hp (hty rd _ _ (Prod.ext ha rfl)) hlen hf
      | enum d => exact enumDeser_canon hP ih h0 n hC hp (hsd.enums p d hp)
      | prim d => exact primDeser_canon hP hp (hT.prim p d hp) (hpr p d hp)

end

theorem noFlat_simple {env : Env} (h : SimpleProgram env) : NoFlatten env :=
  fun _ _ hp f hf _ => ((struct_simple h hp).fields f hf).2.1

end Yaserde
