import Verif.Spec.Open
import Verif.Proofs.Expose
/-
The struct deserializer on elements of recursive types, with elements inside scalars (for C94).
-/

set_option autoImplicit false

namespace Yaserde

theorem claim_of {d : StructDef} {n : Name} {i : Nat} {f : FieldDef} (hf : d.fieldFor n = some i)
    (hfi : d.fields[i]? = some f) : d.claim n = some (i, f.ty.core) := by
  simp [StructDef.claim, hf, hfi]

theorem claim_none {d : StructDef} {n : Name} (hf : d.fieldFor n = none) : d.claim n = none := by
  simp [StructDef.claim, hf]

theorem takes_some {d : StructDef} {n : Name} {i : Nat} {q : Path} (h : d.takes n = some (i, q)) :
    d.isOwn n = false ∧ d.fieldFor n = some i ∧ ∃ f, d.fields[i]? = some f ∧ f.ty.core = .struct q := by
  unfold StructDef.takes at h
  split at h
  · cases h
  · rename_i ho
    refine ⟨by simpa using ho, ?_⟩
    cases hf : d.fieldFor n with
    | none => rw [claim_none hf] at h; cases h
    | some j =>
      obtain ⟨f, hfj, -, -⟩ := fieldFor_some hf
      rw [claim_of hf hfj] at h
      split at h
      · rename_i heq
        simp only [Option.some.injEq, Prod.mk.injEq] at h heq
        obtain ⟨rfl, rfl⟩ := h
        obtain ⟨rfl, hty⟩ := heq
        exact ⟨rfl, f, hfj, hty⟩
      · cases h

/-! ### The element's own start tag, taken for that of a child -/

section
variable (L : Lib) (rec : Path → D Val) (user : Path → Str → Res Val) (skipFuel : Nat) (d : StructDef)

theorem structStart_takes (hplain : d.Plain) {own : Name} {as : List Attr} {i : Nat} {q : Path}
    (ht : d.takes own = some (i, q)) {w : Option EW}
    (hu : ∀ f ∈ d.fields, f.attrs.isAttr = true → ∀ q, f.ty.core = .struct q → ∀ a ∈ as, a.name.loc = f.label →
      ∀ s ∈ f.ty.attrTexts a.value, visitStructStr L rec q s = user q s ∧ user q s ≠ .diverge)
    {rd : Rd} {α : Type} {r : Res α} {g : α → List Contrib} {P : α → Rd → Prop}
    (hc : Runs (callStruct rec i q ⟨0, slotsFrom [] d.fields 0, w⟩ rd) r fun v st' rd' =>
      st' = ⟨0, slotsFrom (g v) d.fields 0, w⟩ ∧ P v rd') :
    Runs (structStart L rec skipFuel d ⟨0, slotsFrom [] d.fields 0, w⟩ own as rd)
      (r.bind fun v => (attrContribs L user d as).bind fun ca => .ok (v, ca)) fun vc st' rd' =>
        st' = ⟨1, slotsFrom (g vc.1 ++ vc.2) d.fields 0, w⟩ ∧ P vc.1 rd' := by
  obtain ⟨hno, hf, f, hfi, hty⟩ := takes_some ht
  have hvis : callVisitor L rec d.attrs f i own ⟨0, slotsFrom [] d.fields 0, w⟩
      = callStruct rec i q ⟨0, slotsFrom [] d.fields 0, w⟩ := by
    unfold callVisitor; rw [hty]
  unfold structStart
  rw [if_neg, findArm_eq, hf]
  rotate_left
  · rintro ⟨-, h1, h2⟩
    have : d.isOwn own = true := decide_eq_true ⟨h1, h2⟩
    rw [hno] at this
    cases this
  dsimp only
  rw [hfi]
  dsimp only
  rw [hvis]
  refine Runs.bind hc ?_
  rintro v st' rd' - ⟨rfl, hp⟩
  dsimp only
  rw [if_pos rfl, loadAttrs_slotsFrom L rec user as (g v) d.fields hplain.elemTy
    fun f hf hatt q hq a ha hl s hs => (hu f hf hatt q hq a ha hl s hs).1]
  have hnd := attrContribs_ne_diverge L user d as fun f hf hatt q hq a ha hl s hs => (hu f hf hatt q hq a ha hl s hs).2
  unfold attrContribs at hnd ⊢
  revert hnd
  cases Res.collect (d.fields.zipIdx.map fun p => attrContrib L user p.2 p.1 as) with
  | ok css => exact fun _ => ⟨_, rd', rfl, by simp [LoopSt.mk.injEq], hp⟩
  | err e => exact fun _ => ⟨rd', rfl⟩
  | panic e => exact fun _ => ⟨rd', rfl⟩
  | diverge => exact fun h => (h rfl).elim

theorem skipTag {e : REv} {rd rd1 : Rd} (h : nextEvent rd = (.ok e, rd1)) :
    (if (0 : Int) = 0 then M.attempt nextEvent >>= fun _ => M.pure () else M.pure () : D Unit) rd = (.ok (), rd1) := by
  rw [if_pos rfl, bind_ok (attempt_ok h)]
  rfl

/-- No element follows. -/
theorem callStruct_bare {i : Nat} {q : Path} {sl : List Slot} {w : Option EW} {own : Name} {as : List Attr} {m : NsMap}
    {e : REv} {evs : List REv} {fin : Option Str} {rd : Rd} {D' : Nat} (he : ∀ n as m, e ≠ .start n as m)
    (h : At D' (.start own as m :: e :: evs) fin rd) :
    ∃ rd2, callStruct rec i q ⟨0, sl, w⟩ rd = (.ok ⟨0, sl, w⟩, rd2) ∧ At (D' + 1) (e :: evs) fin rd2 := by
  obtain ⟨rd1, h1, a1⟩ := next_start h
  obtain ⟨rd2, h2, a2⟩ := peek_at a1
  refine ⟨rd2, ?_, a2⟩
  unfold callStruct
  rw [bind_ok (skipTag h1), bind_ok (attempt_ok h2)]
  cases e with
  | start n as m => exact (he n as m rfl).elim
  | _ => rfl

/-- An element follows. -/
theorem callStruct_taken {i : Nat} {q : Path} {sl : List Slot} {w : Option EW} {own : Name} {as : List Attr} {m : NsMap}
    {name : Name} {as1 : List Attr} {m1 : NsMap} {ks : List Node} {r : Res Val} {left : List REv}
    {rest : List REv} {fin : Option Str} {rd : Rd} {D' : Nat}
    (h : At D' (.start own as m :: ((Node.elem name as1 m1 ks).events ++ rest)) fin rd)
    (hleft : left = [] ∨ (∃ t, left = [.chars t]) ∨ ∃ n' as' m', left = [.start n' as' m'])
    (hrec : ReadsAs 1 (rec q) name (Node.elem name as1 m1 ks).events left r) :
    Runs (callStruct rec i q ⟨0, sl, w⟩ rd) r fun v st' rd' =>
      st' = ⟨0, sl.modify i (Slot.put v), w⟩ ∧
        ((left = [] ∧ At (D' + 1) rest fin rd') ∨ (left ≠ [] ∧ At (D' + 1 + 1) (.endE name :: rest) fin rd')) := by
  obtain ⟨rd1, h1, a1⟩ := next_start h
  obtain ⟨rd2, h2, a2⟩ := peek_at (show At (D' + 1) (.start name as1 m1 :: _) fin rd1 by
    simpa only [Node.events, List.cons_append] using a1)
  have a2' : At (D' + 1) ((Node.elem name as1 m1 ks).events ++ rest) fin rd2 := by
    simpa only [Node.events, List.cons_append] using a2
  have hr := hrec (D' + 1) rest fin rd2 (by omega) a2'
  unfold callStruct
  rw [bind_ok (skipTag h1), bind_ok (attempt_ok h2)]
  dsimp only
  rw [← Res.bind_ok_right r]
  refine Runs.bind hr ?_
  rintro v b rd3 _ ⟨rfl, a3⟩
  rcases hleft with rfl | ⟨t, rfl⟩ | ⟨n', as', m', rfl⟩
  · obtain ⟨rd4, h4, a4⟩ := next_end (by simpa [opens] using a3)
    rw [bind_ok h4]
    exact ⟨_, _, rfl, rfl, .inl ⟨rfl, a4⟩⟩
  · obtain ⟨rd4, h4, a4⟩ := next_chars (by simpa [opens] using a3)
    rw [bind_ok h4]
    exact ⟨_, _, rfl, rfl, .inr ⟨by simp, a4⟩⟩
  · obtain ⟨rd4, h4, a4⟩ := next_start (by simpa [opens] using a3)
    rw [bind_ok h4]
    exact ⟨_, _, rfl, rfl, .inr ⟨by simp, a4⟩⟩

end

section
variable (L : Lib) (env : Env) (flat : Node → Path → Res Val) (fc : Node → Path → Prop)

/-- The loop over children with elements inside scalars, and what comes after them. -/
theorem structLoop_open {γ : Type} (rec : Path → D Val) (skipFuel : Nat) (d : StructDef) (hplain : d.Plain)
    (named : Str) (dep : Nat) (fin : Option Str) (N0 : Nat)
    (hrec : ∀ name as m kids q, (Node.elem name as m kids).events.length ≤ N0 →
      openFitsNode L env fc (.elem name as m kids) q → floatNode L env (.elem name as m kids) q = true →
      ReadsAs 1 (rec q) name (Node.elem name as m kids).events (leftover env (.elem name as m kids) q)
        (openNode L env flat (.elem name as m kids) q))
    (hsk : N0 + 1 < skipFuel) (Q : γ → LoopSt → Rd → Prop) :
    ∀ (N : Nat) (ks : List Node) (tail : List REv) (acc : List Contrib) (st : LoopSt) (n : Nat) (rd : Rd) (D' : Nat)
      (c c' : Int) (g : List Contrib → Res γ),
      (Node.eventsL ks).length ≤ N → N ≤ N0 →
      openFits L env fc d ks → floatKids L env d ks c = some c' → c ≤ st.depth →
      st.slots = slotsFrom acc d.fields 0 → dep + 1 ≤ D' → (Node.eventsL ks).length < n →
      At D' (Node.eventsL ks ++ tail) fin rd →
      (∀ cs st1 n1 rd1, c' ≤ st1.depth → st1.slots = slotsFrom (acc ++ cs) d.fields 0 →
        n ≤ n1 + (Node.eventsL ks).length → At D' tail fin rd1 →
        Runs (structLoop L rec skipFuel d named dep n1 st1 rd1) (g cs) Q) →
      Runs (structLoop L rec skipFuel d named dep n st rd)
        ((openKids L env flat d ks).bind g) Q := by
  intro N
  induction N with
  | zero =>
    intro ks tail acc st n rd D' c c' g hN _ hconf hfl hc hsl hD hn hat hk
    cases ks with
    | nil =>
      simp only [openKids, floatKids, Option.some.injEq, Res.bind_ok] at hfl ⊢
      subst hfl
      exact hk [] st n rd hc (by simpa using hsl) (by omega) (by simpa [Node.eventsL] using hat)
    | cons k ks => cases k <;> simp [Node.eventsL, Node.events] at hN
  | succ N ih =>
    intro ks tail acc st n rd D' c c' g hN hN0 hconf hfl hc hsl hD hn hat hk
    cases ks with
    | nil =>
      simp only [openKids, floatKids, Option.some.injEq, Res.bind_ok] at hfl ⊢
      subst hfl
      exact hk [] st n rd hc (by simpa using hsl) (by omega) (by simpa [Node.eventsL] using hat)
    | cons k ks =>
      have hlen : (Node.eventsL (k :: ks)).length = k.events.length + (Node.eventsL ks).length := by
        simp [Node.eventsL]
      rw [openFits] at hconf
      obtain ⟨hck, hcks⟩ := hconf
      rw [floatKids, Option.bind_eq_some_iff] at hfl
      obtain ⟨c1, hfk, hfks⟩ := hfl
      rw [openKids]
      simp only [Res.bind_assoc, Res.bind_ok]
      have hpos : 1 ≤ k.events.length := by cases k <;> simp [Node.events]
      -- what remains once the child has contributed `a`
      have finish : ∀ (a : List Contrib) (st1 : LoopSt) (n1 : Nat) (rd1 : Rd), c1 ≤ st1.depth →
          st1.slots = slotsFrom (acc ++ a) d.fields 0 → n ≤ n1 + k.events.length →
          At D' (Node.eventsL ks ++ tail) fin rd1 →
          Runs (structLoop L rec skipFuel d named dep n1 st1 rd1)
            ((openKids L env flat d ks).bind fun b => g (a ++ b)) Q := by
        intro a st1 n1 rd1 h1 h2 h3 h4
        refine ih ks tail (acc ++ a) st1 n1 rd1 D' c1 c' (fun b => g (a ++ b)) (by omega) (by omega) hcks hfks h1 h2 hD
          (by omega) h4 ?_
        intro cs st2 n2 rd2 i1 i2 i3 i4
        exact hk (a ++ cs) st2 n2 rd2 i1 (by rw [i2, List.append_assoc]) (by omega) i4
      obtain ⟨n, rfl⟩ : ∃ k, n = k + 1 := ⟨n - 1, by omega⟩
      cases k with
      | text s =>
        rw [openFitsKid] at hck
        simp only [floatKid, Option.some.injEq] at hfk
        subst hfk
        have hat' : At D' (.chars s :: (Node.eventsL ks ++ tail)) fin rd := by
          simpa [Node.eventsL, Node.events] using hat
        obtain ⟨rd1, h1, a1⟩ := structLoop_text L rec skipFuel d named dep (n := n) (st := st) hat'
        rw [openKid, Res.bind_ok, h1]
        exact finish (textContrib d s) _ n rd1 hc
          (by simp only [hsl, setText_slotsFrom acc s hck d.fields hplain.textTy]; rfl) (by simp [Node.events]) a1
      | elem name as m kids =>
        rw [eventsL_elem_cons] at hat
        have hkl : (Node.elem name as m kids).events.length = (Node.eventsL kids).length + 2 := by
          simp [Node.events]
        rw [floatKid] at hfk
        split at hfk
        · cases hfk
        rename_i hc0
        have hd : st.depth ≥ 1 := by omega
        cases hf : d.fieldFor name with
        | none =>
          rw [claim_none hf] at hfk
          simp only [Option.some.injEq] at hfk
          rw [openKid, claim_none hf]
          dsimp only
          refine structLoop_start L rec skipFuel d named dep hat ?_
          intro rd1 a1
          obtain ⟨rd2, h2, a2⟩ := structStart_unknown L rec skipFuel d hd hf (by omega) a1
          refine ⟨_, _, h2, ?_⟩
          exact finish [] _ n rd2 (by simp; omega) (by simpa using hsl) (by omega) a2
        | some i =>
          obtain ⟨f, hfi, hfm, hcl⟩ := fieldFor_some hf
          rcases hplain.elemTy f hfm with ⟨t, hty⟩ | ⟨q, hty⟩
          · -- scalar
            rw [claim_of hf hfi, hty] at hfk
            simp only [Option.map_eq_some_iff] at hfk
            obtain ⟨c2, hfk, rfl⟩ := hfk
            rw [openFitsKid, claim_of hf hfi, hty] at hck
            rw [openKid, claim_of hf hfi, hty]
            dsimp only at hck ⊢
            obtain ⟨hns, hck⟩ := hck
            -- the child has been given up, after its first events
            have broken : ∀ (e : Str) (rd1 rd2 : Rd), At D' (.start name as m :: (Node.eventsL kids ++ .endE name ::
                  (Node.eventsL ks ++ tail))) fin rd1 →
                readInnerValue (simpleInner L f t) rd1 = (.err e, rd2) → ∀ (r : Res Unit) (G : Unit → Res γ), r = .ok () →
                Runs (structLoop L rec skipFuel d named dep n { st with depth := st.depth + 1 } rd2) (G ()) Q →
                Runs (structStart L rec skipFuel d st name as rd1) r fun a st' rd' =>
                  Runs (structLoop L rec skipFuel d named dep n st' rd') (G a) Q := by
              intro e rd1 rd2 _ hr r G hG hrun
              subst hG
              exact ⟨_, _, structStart_fail L rec skipFuel d hd hns hf hfi hty hr, hrun⟩
            -- an end tag, then the rest
            have close : ∀ (a : List Contrib) (st1 : LoopSt) (n1 : Nat) (rd1 : Rd), c2 ≤ st1.depth →
                st1.slots = slotsFrom (acc ++ a) d.fields 0 → n + 1 ≤ n1 + ((Node.eventsL kids).length + 1) → 1 ≤ n1 →
                At (D' + 1) (.endE name :: (Node.eventsL ks ++ tail)) fin rd1 →
                Runs (structLoop L rec skipFuel d named dep n1 st1 rd1)
                  ((openKids L env flat d ks).bind fun b => g (a ++ b)) Q := by
              intro a st1 n1 rd1 h1 h2 h3 h4 h5
              obtain ⟨n1, rfl⟩ : ∃ k, n1 = k + 1 := ⟨n1 - 1, by omega⟩
              obtain ⟨rd3, h6, a3⟩ := structLoop_end L rec skipFuel d named dep (n := n1) (st := st1) (by omega) h5
              rw [h6]
              exact finish a _ n1 rd3 (by simp; omega) h2 (by omega) a3
            have started : ∀ (R : Res γ), (∀ rd1, At D' (.start name as m :: (Node.eventsL kids ++ .endE name ::
                  (Node.eventsL ks ++ tail))) fin rd1 → ∃ e rd2, readInnerValue (simpleInner L f t) rd1 = (.err e, rd2) ∧
                  Runs (structLoop L rec skipFuel d named dep n { st with depth := st.depth + 1 } rd2) R Q) →
                Runs (structLoop L rec skipFuel d named dep (n + 1) st rd) R Q := by
              intro R hR
              have := structLoop_start L rec skipFuel d named dep (n := n) (st := st) hat (r := Res.ok ()) (g := fun _ => R)
                (Q := Q) (by
                intro rd1 a1
                obtain ⟨e, rd2, h1, h2⟩ := hR rd1 a1
                exact broken e rd1 rd2 a1 h1 (.ok ()) (fun _ => R) rfl h2)
              simpa using this
            have read : textOnly kids →
                (c2 ≤ c + if (scalarContent L t kids).isSome then 2 else 1) →
                Runs (structLoop L rec skipFuel d named dep (n + 1) st rd)
                  ((Res.ok (match scalarContent L t kids with | some v => [(i, v)] | none => [] : List Contrib)).bind fun a =>
                    (openKids L env flat d ks).bind fun b => g (a ++ b)) Q := by
              intro hto hc2
              refine structLoop_start L rec skipFuel d named dep hat ?_
              intro rd1 a1
              obtain ⟨st2, rd2, h2, h3⟩ := structStart_simple L rec skipFuel d hd hto hns hf hfi hty a1
              refine ⟨_, _, h2, ?_⟩
              cases hv : scalarContent L t kids with
              | some v =>
                rw [hv] at h3 hc2
                obtain ⟨rfl, a2⟩ := h3
                simp at hc2
                refine finish [(i, v)] _ n rd2 (by simp; omega) ?_ (by omega) a2
                simp only [LoopSt.setSlot, hsl, modify_slotsFrom, Nat.zero_add]
              | none =>
                rw [hv] at h3 hc2
                obtain ⟨rfl, a2⟩ := h3
                simp at hc2
                exact close [] _ n rd2 (by simp; omega) (by simpa using hsl) (by omega) (by omega) a2
            match kids, hck, hfk, hat, hkl, hlen, hN, hn, broken, close, started, read, finish with
            | [], hck, hfk, _, _, _, _, _, _, _, _, read, _ =>
              rw [openScalar]
              rw [floatScalar, Option.some.injEq] at hfk
              exact read trivial (by simp [scalarContent]; omega)
            | .elem n' as' m' ks' :: more, hck, hfk, hat, hkl, hlen, hN, hn, _, close, started, _, _ =>
              rw [show openFitsScalar L env fc d t (.elem n' as' m' ks' :: more)
                = openFits L env fc d (.elem n' as' m' ks' :: more) by rw [openFitsScalar, openFits]] at hck
              rw [show openScalar L env flat d i t (.elem n' as' m' ks' :: more)
                = openKids L env flat d (.elem n' as' m' ks' :: more) by rw [openScalar, openKids]]
              rw [show floatScalar L env d t (.elem n' as' m' ks' :: more) (c + 1)
                = floatKids L env d (.elem n' as' m' ks' :: more) (c + 1) by rw [floatScalar, floatKids]] at hfk
              refine started _ ?_
              intro rd1 a1
              obtain ⟨e, rd2, h1, a2⟩ := inner_led (f := f) (t := t) L (by simpa [Node.eventsL, Node.events] using a1)
              refine ⟨e, rd2, h1, ?_⟩
              refine ih (.elem n' as' m' ks' :: more) (.endE name :: (Node.eventsL ks ++ tail)) acc _ n rd2 (D' + 1) (c + 1) c2 _
                (by omega) (by omega) hck hfk (by simp; omega) hsl (by omega) (by omega)
                (by simpa [Node.eventsL, Node.events] using a2) ?_
              intro cs st1 n1 rd3 i1 i2 i3 i4
              exact close cs st1 n1 rd3 i1 i2 (by omega) (by omega) i4
            | .text s :: more, hck, hfk, hat, hkl, hlen, hN, hn, _, close, started, read, _ =>
              rw [openFitsScalar] at hck
              rw [openScalar]
              rw [floatScalar] at hfk
              cases more with
              | nil =>
                simp only [List.isEmpty_nil, if_true] at hfk ⊢
                have := read trivial ?_
                · cases hv : scalarContent L t [.text s] with
                  | some v => simpa [hv] using this
                  | none => simpa [hv, openKids] using this
                cases hv : (scalarContent L t [.text s]).isSome with
                | true => rw [hv] at hfk; simp at hfk ⊢; omega
                | false => rw [hv] at hfk; simp [floatKids] at hfk ⊢; omega
              | cons x more =>
                simp only [List.isEmpty_cons, Bool.false_eq_true, if_false] at hfk ⊢
                have hel : (Node.eventsL (.text s :: x :: more)).length = 1 + (Node.eventsL (x :: more)).length := by
                  simp [Node.eventsL, Node.events]; omega
                cases hv : visitS L t s with
                | error e =>
                  have hsc : (scalarContent L t [.text s]).isSome = false := by simp [scalarContent, hv]
                  simp only [hsc, Bool.false_eq_true, if_false] at hck hfk ⊢
                  rw [show scalarContent L t [.text s] = none by simpa using hsc]
                  dsimp only
                  refine started _ ?_
                  intro rd1 a1
                  obtain ⟨e, rd2, h1, a2⟩ := inner_malformed (f := f) L hv
                    (evs := Node.eventsL (x :: more) ++ .endE name :: (Node.eventsL ks ++ tail))
                    (by simpa [Node.eventsL, Node.events] using a1)
                  refine ⟨e, rd2, h1, ?_⟩
                  refine ih (x :: more) (.endE name :: (Node.eventsL ks ++ tail)) acc _ n rd2 (D' + 1) (c + 1) c2 _
                    (by omega) (by omega) hck hfk (by simp; omega) hsl (by omega) (by omega) a2 ?_
                  intro cs st1 n1 rd3 i1 i2 i3 i4
                  exact close cs st1 n1 rd3 i1 i2 (by omega) (by omega) i4
                | ok v =>
                  have hsc : (scalarContent L t [.text s]).isSome = true := by simp [scalarContent, hv]
                  simp only [hsc, if_true] at hck hfk ⊢
                  rw [show scalarContent L t [.text s] = some v by simp [scalarContent, hv]]
                  dsimp only
                  cases x with
                  | text s' =>
                    rw [openFitsAfter] at hck
                    rw [openAfter]
                    rw [floatAfter] at hfk
                    have hel2 : (Node.eventsL (.text s' :: more)).length = 1 + (Node.eventsL more).length := by
                      simp [Node.eventsL, Node.events]; omega
                    refine started _ ?_
                    intro rd1 a1
                    obtain ⟨e, rd2, h1, a2⟩ := inner_text (f := f) L hv (s' := s')
                      (evs := Node.eventsL more ++ .endE name :: (Node.eventsL ks ++ tail))
                      (by simpa [Node.eventsL, Node.events] using a1)
                    refine ⟨e, rd2, h1, ?_⟩
                    refine ih more (.endE name :: (Node.eventsL ks ++ tail)) acc _ n rd2 (D' + 1) (c + 1) c2 _
                      (by omega) (by omega) hck hfk (by simp; omega) hsl (by omega) (by omega) a2 ?_
                    intro cs st1 n1 rd3 i1 i2 i3 i4
                    exact close cs st1 n1 rd3 i1 i2 (by omega) (by omega) i4
                  | elem n' as' m' ks' =>
                    rw [openFitsAfter] at hck
                    obtain ⟨hck1, hck2⟩ := hck
                    rw [openAfter]
                    simp only [Res.bind_assoc, Res.bind_ok]
                    rw [floatAfter, Option.bind_eq_some_iff] at hfk
                    obtain ⟨c3, hf1, hf2⟩ := hfk
                    have hel2 : (Node.eventsL (.elem n' as' m' ks' :: more)).length
                        = 2 + (Node.eventsL ks').length + (Node.eventsL more).length := by
                      simp [Node.eventsL, Node.events]; omega
                    refine started _ ?_
                    intro rd1 a1
                    obtain ⟨e, rd2, h1, a2⟩ := inner_elem (f := f) L hv (n' := n') (as' := as') (m' := m')
                      (evs := Node.eventsL ks' ++ .endE n' :: (Node.eventsL more ++ .endE name :: (Node.eventsL ks ++ tail)))
                      (by simpa [Node.eventsL, Node.events] using a1)
                    refine ⟨e, rd2, h1, ?_⟩
                    refine ih ks' (.endE n' :: (Node.eventsL more ++ .endE name :: (Node.eventsL ks ++ tail))) acc _ n rd2
                      (D' + 1 + 1) (c + 1) c3 _
                      (by omega) (by omega) hck1 hf1 (by simp; omega) hsl (by omega) (by omega) a2 ?_
                    intro cs1 st1 n1 rd3 i1 i2 i3 i4
                    obtain ⟨n1, rfl⟩ : ∃ k, n1 = k + 1 := ⟨n1 - 1, by omega⟩
                    obtain ⟨rd4, h6, a4⟩ := structLoop_end L rec skipFuel d named dep (n := n1) (st := st1) (by omega) i4
                    rw [h6]
                    refine ih more (.endE name :: (Node.eventsL ks ++ tail)) (acc ++ cs1) _ n1 rd4 (D' + 1) (c3 - 1) c2 _
                      (by omega) (by omega) hck2 hf2 (by simp; omega) i2 (by omega) (by omega) a4 ?_
                    intro cs2 st2 n2 rd5 j1 j2 j3 j4
                    exact close (cs1 ++ cs2) st2 n2 rd5 j1 (by rw [j2, List.append_assoc]) (by omega) (by omega) j4
          · -- another type
            rw [openFitsKid, claim_of hf hfi, hty] at hck
            obtain ⟨hns, hck⟩ := hck
            have hcw : openFitsNode L env fc (.elem name as m kids) q := hck
            rw [claim_of hf hfi, hty] at hfk
            dsimp only at hfk
            have haf : floatNode L env (.elem name as m kids) q = true ∧
                c1 ≤ c + if leftover env (.elem name as m kids) q = [] then 1 else 0 := by
              unfold floatNode
              cases hu : env.unflat q with
              | some d' =>
                rw [hu] at hfk
                dsimp only at hfk ⊢
                split at hfk
                · rename_i h3
                  refine ⟨by rw [hu]; exact h3, ?_⟩
                  rw [if_pos (leftover_struct (unflat_struct hu).1 _)]
                  simp only [Option.some.injEq] at hfk; omega
                · cases hfk
              | none =>
                rw [hu] at hfk
                refine ⟨by dsimp only; rw [hu], ?_⟩
                simp only [Option.some.injEq] at hfk
                by_cases hl : leftover env (.elem name as m kids) q = []
                · rw [if_pos hl]; split at hfk <;> omega
                · rw [if_neg hl, ← hfk, if_pos (byText_of_left hl)]; omega
            rw [show openKid L env flat d (.elem name as m kids)
                = (openNode L env flat (.elem name as m kids) q).bind fun v => .ok [(i, v)] by
              rw [openKid, claim_of hf hfi, hty]; rfl]
            refine structLoop_start L rec skipFuel d named dep hat ?_
            intro rd1 a1
            have hreads := hrec name as m kids q (by omega) hcw haf.1
            have hst := structStart_struct L rec skipFuel d hd (by omega) hf hfi hty a1
              (leftover_cases env _ q) hreads
            have hst2 := Runs.bind (f := fun st => M.pure st) (g := fun v => Res.ok [(i, v)]) hst
              (Q' := fun a st' rd' => Runs (structLoop L rec skipFuel d named dep n st' rd')
                ((openKids L env flat d ks).bind fun b => g (a ++ b)) Q) (by
              rintro v st2 rd2 _ ⟨rfl, h2⟩
              refine ⟨_, rd2, rfl, ?_⟩
              have hslots : (st.setSlot i (Slot.put v)).slots = slotsFrom (acc ++ [(i, v)]) d.fields 0 := by
                simp only [LoopSt.setSlot, hsl, modify_slotsFrom, Nat.zero_add]
              rcases h2 with ⟨hl, a2⟩ | ⟨hl, a2⟩
              · have := haf.2
                rw [if_pos hl] at this
                exact finish [(i, v)] { st.setSlot i (Slot.put v) with depth := st.depth + 1 } n rd2
                  (by simp; omega) hslots (by omega) a2
              · have := haf.2
                rw [if_neg hl] at this
                obtain ⟨n, rfl⟩ : ∃ k, n = k + 1 := ⟨n - 1, by omega⟩
                obtain ⟨rd3, h3, a3⟩ := structLoop_end L rec skipFuel d named dep (n := n)
                  (st := { st.setSlot i (Slot.put v) with depth := st.depth + 1 }) (by omega) a2
                refine Runs.of_eq h3 ?_
                exact finish [(i, v)] _ n rd3 (by simp; omega) hslots (by omega) a3)
            rwa [show (structStart L rec skipFuel d st name as >>= fun st => M.pure st)
              = structStart L rec skipFuel d st name as from bind_pure_right _] at hst2


/-- What goes into the fields. -/
def openList (d : StructDef) (n : Name) (as : List Attr) (ks : List Node) : Res (List Contrib) :=
  match ks, d.takes n with
  | .elem n1 as1 m1 ks1 :: more, some (i, q) =>
    (openNode L env flat (.elem n1 as1 m1 ks1) q).bind fun v =>
    (attrContribs L (userAttr flat) d as).bind fun ca => (openKids L env flat d more).bind fun ck => .ok ([(i, v)] ++ ca ++ ck)
  | _, _ =>
    (attrContribs L (userAttr flat) d as).bind fun ca => (openKids L env flat d ks).bind fun ck => .ok (ca ++ ck)

theorem openStruct_eq (d : StructDef) (n : Name) (as : List Attr) (ks : List Node) :
    openStruct L env flat d n as ks = (openList L env flat d n as ks).bind fun cs => assemble d cs := by
  unfold openList
  cases ks with
  | nil => simp only [openStruct, openKids, Res.bind_assoc, Res.bind_ok, List.append_nil]
  | cons k more =>
    cases k with
    | text s => simp only [openStruct, openKids, openKid, Res.bind_assoc, Res.bind_ok]
    | elem n1 as1 m1 ks1 =>
      rw [openStruct]
      cases d.takes n with
      | none => simp only [openKids, Res.bind_assoc, Res.bind_ok]
      | some iq =>
        obtain ⟨i, q⟩ := iq
        simp only [openNode, Res.bind_assoc, Res.bind_ok, List.cons_append, List.nil_append]

/-- The first start tag leaves the attributes in place: the element is the struct's own, or unknown, or no element follows. -/
def entered (d : StructDef) (n : Name) (ks : List Node) : Prop :=
  d.isOwn n = true ∨ d.fieldFor n = none ∨ ((d.takes n).isSome ∧ ∀ n1 as1 m1 ks1 more, ks ≠ .elem n1 as1 m1 ks1 :: more)

theorem openFitsStruct_cases {d : StructDef} {n : Name} {as : List Attr} {ks : List Node}
    (h : openFitsStruct L env fc d n as ks) (hfl : floatStruct L env d n ks = true) :
    d.Plain ∧ AttrsFit fc d as ∧
      ((entered d n ks ∧ openFits L env fc d ks ∧ (floatKids L env d ks 1).isSome = true ∧
          openList L env flat d n as ks = (attrContribs L (userAttr flat) d as).bind fun ca =>
            (openKids L env flat d ks).bind fun ck => .ok (ca ++ ck)) ∨
        ∃ n1 as1 m1 ks1 more i q, ks = .elem n1 as1 m1 ks1 :: more ∧ d.takes n = some (i, q) ∧
          openFitsNode L env fc (.elem n1 as1 m1 ks1) q ∧ floatNode L env (.elem n1 as1 m1 ks1) q = true ∧
          openFits L env fc d more ∧
          (floatKids L env d more (if standsIn env (.elem n1 as1 m1 ks1) q then 0 else 1)).isSome = true) := by
  cases ks with
  | nil =>
    rw [openFitsStruct] at h
    obtain ⟨h1, h2, h3⟩ := h
    refine ⟨h1, h2, .inl ⟨?_, trivial, rfl, rfl⟩⟩
    rcases h3 with h3 | h3 | h3
    · exact .inl h3
    · exact .inr (.inl h3)
    · exact .inr (.inr ⟨h3, by simp⟩)
  | cons k more =>
    cases k with
    | text s =>
      rw [openFitsStruct] at h
      rw [floatStruct] at hfl
      obtain ⟨h1, h2, h3, h4, h5⟩ := h
      refine ⟨h1, h2, .inl ⟨?_, ?_, ?_, rfl⟩⟩
      · rcases h5 with h3 | h3 | h3
        · exact .inl h3
        · exact .inr (.inl h3)
        · exact .inr (.inr ⟨h3, by simp⟩)
      · rw [openFits, openFitsKid]; exact ⟨h4, h3⟩
      · rw [floatKids, floatKid]; exact hfl
    | elem n1 as1 m1 ks1 =>
      rw [openFitsStruct] at h
      rw [floatStruct] at hfl
      obtain ⟨⟨h1, h2, h3⟩, h4⟩ := h
      refine ⟨h1, h2, ?_⟩
      cases ht : d.takes n with
      | none =>
        rw [ht] at h4 hfl
        obtain ⟨h4, h5⟩ := h4
        refine .inl ⟨?_, ?_, ?_, by unfold openList; rw [ht]⟩
        · rcases h4 with h4 | h4
          · exact .inl h4
          · exact .inr (.inl h4)
        · rw [openFits]; exact ⟨h5, h3⟩
        · rw [floatKids]; exact hfl
      | some iq =>
        obtain ⟨i, q⟩ := iq
        rw [ht] at h4 hfl
        refine .inr ⟨n1, as1, m1, ks1, more, i, q, rfl, rfl, h4, ?_, h3, ?_⟩
        · unfold floatNode
          dsimp only at hfl ⊢
          cases hu : env.unflat q with
          | none => rfl
          | some d1 => rw [hu] at hfl; simp only [Bool.and_eq_true] at hfl; exact hfl.1
        · dsimp only at hfl
          cases hu : env.unflat q with
          | none => rw [hu] at hfl; exact hfl
          | some d1 =>
            rw [hu] at hfl
            simp only [Bool.and_eq_true] at hfl
            have : standsIn env (.elem n1 as1 m1 ks1) q = false := by
              unfold standsIn; rw [(unflat_struct hu).1]
            rw [this]
            exact hfl.2

/-- The struct deserializer. -/
theorem structBody_open (rec : Path → D Val) (fuel : Nat) (d : StructDef) {own : Name} {as : List Attr} {m : NsMap}
    {ks : List Node} (hff : d.hasFlat = false) (hfit : openFitsStruct L env fc d own as ks)
    (hfloat : floatStruct L env d own ks = true)
    (hrec : ∀ name as m kids q, (Node.elem name as m kids).events.length ≤ (Node.eventsL ks).length →
      openFitsNode L env fc (.elem name as m kids) q → floatNode L env (.elem name as m kids) q = true →
      ReadsAs 1 (rec q) name (Node.elem name as m kids).events (leftover env (.elem name as m kids) q)
        (openNode L env flat (.elem name as m kids) q))
    (huser : ∀ f ∈ d.fields, f.attrs.isAttr = true → ∀ q, f.ty.core = .struct q → ∀ a ∈ as, a.name.loc = f.label →
      ∀ s ∈ f.ty.attrTexts a.value, visitStructStr L rec q s = userAttr flat q s ∧ userAttr flat q s ≠ .diverge)
    (hfuel : (Node.eventsL ks).length + 1 < fuel)
    {dep : Nat} {rest : List REv} {fin : Option Str} {rd : Rd}
    (hns : dep = 0 → nsOk d.attrs own)
    (hat : At dep ((Node.elem own as m ks).events ++ rest) fin rd) :
    Runs (structBody L rec fuel d (own.loc, own.ns) dep rd) (openStruct L env flat d own as ks)
      fun v b rd' => b = v ∧ At (dep + 1) (.endE own :: rest) fin rd' := by
  have hat' : At dep (.start own as m :: (Node.eventsL ks ++ .endE own :: rest)) fin rd := by
    simpa [Node.events] using hat
  unfold structBody
  have h0 : (if dep = 0 then M.ofExcept (nsMatching d.attrs.namespaces d.attrs.pfx own.ns own.loc)
      else M.pure () : D Unit) rd = (.ok (), rd) := by
    split
    · rename_i hd
      have : nsMatching d.attrs.namespaces d.attrs.pfx own.ns own.loc = .ok () := by
        unfold nsMatching
        cases hn : own.ns with
        | none => rfl
        | some u =>
          obtain ⟨e, he, h1, h2⟩ := hns hd u hn
          dsimp only
          rw [if_pos]
          rw [List.any_eq_true]
          exact ⟨e, he, by simp [h1, h2]⟩
      rw [this]; rfl
    · rfl
  rw [bind_ok h0, slotsFrom_init d.fields 0]
  obtain ⟨n, rfl⟩ : ∃ k, fuel = k + 1 := ⟨fuel - 1, by omega⟩
  obtain ⟨hplain, hattr, hcase⟩ := openFitsStruct_cases L env flat fc hfit hfloat
  -- the children after the first start tag
  have hkids : ∀ (ks' : List Node) (c c' : Int) (acc : List Contrib) (n' : Nat) (st : LoopSt) (rd' : Rd),
      (Node.eventsL ks').length ≤ (Node.eventsL ks).length → openFits L env fc d ks' → floatKids L env d ks' c = some c' →
      c ≤ st.depth → st.slots = slotsFrom acc d.fields 0 → (Node.eventsL ks').length < n' →
      At (dep + 1) (Node.eventsL ks' ++ .endE own :: rest) fin rd' →
      Runs (structLoop L rec (n + 1) d own.loc dep n' st rd')
        ((openKids L env flat d ks').bind fun ck => .ok (acc ++ ck))
        fun cs st' rd' => st'.slots = slotsFrom cs d.fields 0 ∧ At (dep + 1) (.endE own :: rest) fin rd' := by
    intro ks' c c' acc n' st rd' hle hfit' hfl hc hsl hn' ha
    refine structLoop_open L env flat fc rec (n + 1) d hplain own.loc dep fin (Node.eventsL ks).length hrec hfuel _
      _ ks' (.endE own :: rest) acc st n' rd' (dep + 1) c c' _ (Nat.le_refl _) hle hfit' hfl hc hsl
      (Nat.le_refl _) hn' ha ?_
    intro cs st1 n1 rd3 _ h2 h3 h4
    obtain ⟨n1, rfl⟩ : ∃ k, n1 = k + 1 := ⟨n1 - 1, by omega⟩
    obtain ⟨rd4, h5, a5⟩ := structLoop_own_end L rec (n + 1) d own.loc dep (n := n1) (st := st1) rfl h4
    exact ⟨_, rd4, h5, h2, a5⟩
  -- the loop
  have hloop : Runs (structLoop L rec (n + 1) d own.loc dep (n + 1)
      ⟨0, slotsFrom [] d.fields 0, some {}⟩ rd) (openList L env flat d own as ks)
      fun cs st' rd' => st'.slots = slotsFrom cs d.fields 0 ∧
        At (dep + 1) (.endE own :: rest) fin rd' := by
    rcases hcase with ⟨hent, hfits, hfl, hopen⟩ | ⟨n1, as1, m1, ks1, more, i, q, rfl, ht, hf1, hfl1, hfits, hfl⟩
    · rw [hopen]
      obtain ⟨c', hc'⟩ := Option.isSome_iff_exists.mp hfl
      have hentry : ∀ rd1, At dep (.start own as m :: (Node.eventsL ks ++ .endE own :: rest)) fin rd1 →
          Runs (structStart L rec (n + 1) d ⟨0, slotsFrom [] d.fields 0, some {}⟩ own as rd1)
            (attrContribs L (userAttr flat) d as) fun cs st' rd' =>
            st'.depth = 1 ∧ st'.slots = slotsFrom cs d.fields 0 ∧
            At (dep + 1) (Node.eventsL ks ++ .endE own :: rest) fin rd' := by
        intro rd1 a1
        have hown : ∀ hname : (own.loc = d.attrs.rename.getD d.name ∧
            own.ns.getD [] = (d.attrs.namespaces.find d.attrs.pfx).getD []) ∨ d.fieldFor own = none, _ := fun hname =>
          (structStart_own L rec (userAttr flat) (n + 1) d hplain hname (w := some {}) huser a1).mono (Q' := fun cs st' rd' =>
            st'.depth = 1 ∧ st'.slots = slotsFrom cs d.fields 0 ∧
            At (dep + 1) (Node.eventsL ks ++ .endE own :: rest) fin rd') (by
            rintro ca st2 rd2 - ⟨rfl, a2⟩
            exact ⟨rfl, rfl, a2⟩)
        rcases hent with hent | hent | ⟨hent, hno⟩
        · exact hown (.inl (of_decide_eq_true hent))
        · exact hown (.inr hent)
        · obtain ⟨⟨i, q⟩, ht⟩ := Option.isSome_iff_exists.mp hent
          obtain ⟨e, evs, hevs, hne⟩ : ∃ e evs, Node.eventsL ks ++ .endE own :: rest = e :: evs ∧
              ∀ n as m, e ≠ .start n as m := by
            cases ks with
            | nil => exact ⟨_, _, rfl, by simp⟩
            | cons k more =>
              cases k with
              | text s => exact ⟨.chars s, Node.eventsL more ++ .endE own :: rest, by simp [Node.eventsL, Node.events], by simp⟩
              | elem n1 as1 m1 ks1 => exact (hno _ _ _ _ _ rfl).elim
          rw [hevs] at a1 ⊢
          obtain ⟨rd2, h2, a2⟩ := callStruct_bare rec (i := i) (q := q) (sl := slotsFrom [] d.fields 0) (w := some {}) hne a1
          have := structStart_takes L rec (userAttr flat) (n + 1) d hplain ht (w := some {}) huser (rd := rd1)
            (r := Res.ok ()) (g := fun _ => []) (P := fun _ rd' => At (dep + 1) (e :: evs) fin rd')
            ⟨_, rd2, h2, rfl, a2⟩
          simp only [Res.bind_ok, List.nil_append] at this
          have h3 := Runs.bind (f := fun st => M.pure st) (g := fun vc : Unit × List Contrib => Res.ok vc.2) this
            (Q' := fun cs st' rd' => st'.depth = 1 ∧ st'.slots = slotsFrom cs d.fields 0 ∧ At (dep + 1) (e :: evs) fin rd') (by
            rintro vc st' rd' - ⟨rfl, hp⟩
            exact ⟨_, rd', rfl, rfl, rfl, hp⟩)
          rw [show (structStart L rec (n + 1) d ⟨0, slotsFrom [] d.fields 0, some {}⟩ own as >>= fun st => M.pure st)
            = structStart L rec (n + 1) d ⟨0, slotsFrom [] d.fields 0, some {}⟩ own as from bind_pure_right _,
            Res.bind_assoc] at h3
          simpa only [Res.bind_ok, Res.bind_ok_right] using h3
      refine structLoop_start L rec (n + 1) d own.loc dep hat' ?_
      intro rd1 a1
      refine (hentry rd1 a1).mono ?_
      rintro ca st2 rd2 - ⟨hd, hsl, a2⟩
      exact hkids ks 1 c' ca n st2 rd2 (Nat.le_refl _) hfits hc' (by omega) hsl (by omega) a2
    · have hel : (Node.eventsL (.elem n1 as1 m1 ks1 :: more)).length
          = (Node.elem n1 as1 m1 ks1).events.length + (Node.eventsL more).length := by simp [Node.eventsL]
      have hpos : 2 ≤ (Node.elem n1 as1 m1 ks1).events.length := by simp [Node.events]
      obtain ⟨c', hc'⟩ := Option.isSome_iff_exists.mp hfl
      have hopen : openList L env flat d own as (.elem n1 as1 m1 ks1 :: more) =
          ((openNode L env flat (.elem n1 as1 m1 ks1) q).bind fun v =>
            (attrContribs L (userAttr flat) d as).bind fun ca => .ok (v, ca)).bind fun vc =>
          (openKids L env flat d more).bind fun ck => .ok ([(i, vc.1)] ++ vc.2 ++ ck) := by
        unfold openList; rw [ht]; simp only [Res.bind_assoc, Res.bind_ok]
      rw [hopen]
      refine structLoop_start L rec (n + 1) d own.loc dep hat' ?_
      intro rd1 a1
      have hcall := callStruct_taken rec (i := i) (q := q) (sl := slotsFrom [] d.fields 0) (w := some {})
        (rest := Node.eventsL more ++ .endE own :: rest)
        (by simpa [Node.eventsL] using a1) (leftover_cases env (.elem n1 as1 m1 ks1) q)
        (hrec n1 as1 m1 ks1 q (by omega) hf1 hfl1)
      refine (structStart_takes L rec (userAttr flat) (n + 1) d hplain ht (w := some {}) huser (rd := rd1)
        (g := fun v => [(i, v)])
        (P := fun _ rd' => (leftover env (.elem n1 as1 m1 ks1) q = [] ∧ At (dep + 1) (Node.eventsL more ++ .endE own :: rest) fin rd') ∨
          (leftover env (.elem n1 as1 m1 ks1) q ≠ [] ∧ At (dep + 1 + 1) (.endE n1 :: (Node.eventsL more ++ .endE own :: rest)) fin rd'))
        (hcall.mono ?_)).mono ?_
      · rintro v st' rd' - ⟨rfl, hp⟩
        refine ⟨?_, hp⟩
        simp only [modify_slotsFrom, Nat.zero_add, List.nil_append]
      · rintro ⟨v, ca⟩ st' rd' - ⟨rfl, hp⟩
        dsimp only at hp ⊢
        rcases hp with ⟨hl, a2⟩ | ⟨hl, a2⟩
        · refine hkids more _ c' ([(i, v)] ++ ca) n _ rd' (by omega) hfits hc' ?_ rfl (by omega) a2
          dsimp only
          split <;> omega
        · obtain ⟨n, rfl⟩ : ∃ k, n = k + 1 := ⟨n - 1, by omega⟩
          obtain ⟨rd3, h3, a3⟩ := structLoop_end L rec (n + 1 + 1) d own.loc dep (n := n)
            (st := ⟨1, slotsFrom ([(i, v)] ++ ca) d.fields 0, some {}⟩) (by omega) a2
          refine Runs.of_eq h3 ?_
          refine hkids more _ c' ([(i, v)] ++ ca) n _ rd3 (by omega) hfits hc' ?_ rfl (by omega) a3
          rw [byText_of_left hl]
          simp
  rw [openStruct_eq]
  refine Runs.bind hloop ?_
  rintro cs st' rd' hcs ⟨hsl, ha⟩
  rw [hff]
  dsimp only
  rw [bind_ok (x := M.pure st'.slots) (a := st'.slots) (s' := rd') rfl, hsl, buildFields_slotsFrom]
  unfold assemble
  have hnd : Res.collect (d.fields.zipIdx.map fun p => fieldValue d.name p.1 (valuesOf cs p.2))
      ≠ .diverge := by
    refine collect_ne_diverge _ ?_
    intro r hr
    obtain ⟨p, -, rfl⟩ := List.mem_map.mp hr
    unfold fieldValue
    split
    · simp
    · simp
    · split <;> simp
  revert hnd
  cases Res.collect (d.fields.zipIdx.map fun p => fieldValue d.name p.1 (valuesOf cs p.2)) with
  | ok vs => exact fun _ => ⟨_, _, rfl, rfl, ha⟩
  | err e => exact fun _ => ⟨_, rfl⟩
  | panic e => exact fun _ => ⟨_, rfl⟩
  | diverge => exact fun h => (h rfl).elim

end

/-- `openNode`, as document or inside another element. -/
def openAt (L : Lib) (env : Env) (k dep : Nat) (x : Node) (p : Path) : Res Val :=
  if dep = 0 then decodeDocWith env (openNode L env (flatN L env k)) x p else openNode L env (flatN L env k) x p

/-- The generated deserializers. -/
theorem deser_open (L : Lib) (env : Env) : ∀ (n k : Nat) (x : Node) (p : Path),
    openFitsNode L env (flatConfN L env k) x p → floatNode L env x p = true → x.events.length + levelFuel k < n →
    ∀ (dep : Nat) (rest : List REv) (fin : Option Str) (rd : Rd), At dep (x.events ++ rest) fin rd →
      Runs (deser L env n p rd) (openAt L env k dep x p) fun v b rd' =>
        b = v ∧ At (dep + 1 - opens (leftover env x p)) (leftover env x p ++ .endE x.name :: rest) fin rd' := by
  intro n
  induction n with
  | zero => intro k x p _ _ h; omega
  | succ n ih =>
    intro k x p hconf hfloat hlen dep rest fin rd hat
    cases x with
    | text s => exact hconf.elim
    | elem own as m ks =>
      have hln : (Node.elem own as m ks).events.length = (Node.eventsL ks).length + 2 := by
        simp [Node.events]
      cases hu : env.unflat p with
      | none =>
        have hc : ConfN L env k (.elem own as m ks) p := by
          rw [confN_eq]
          unfold openFitsNode at hconf
          dsimp only at hconf
          rwa [hu] at hconf
        have hx : openAt L env k dep (.elem own as m ks) p = decodeAt L env k dep (.elem own as m ks) p := by
          have h1 : openNode L env (flatN L env k) (.elem own as m ks) p = decodeN L env k (.elem own as m ks) p := by
            rw [decodeN_eq]; unfold openNode; dsimp only; rw [hu]
          unfold openAt decodeAt decodeDocWith
          rw [h1]
        rw [hx]
        exact deser_tree L env (n + 1) k _ p hc hlen dep rest fin rd hat
      | some d =>
        obtain ⟨he, hff⟩ := unflat_struct hu
        have hx : openNode L env (flatN L env k) (.elem own as m ks) p = openStruct L env (flatN L env k) d own as ks := by
          unfold openNode; dsimp only; rw [hu]
        have hfit : openFitsStruct L env (flatConfN L env k) d own as ks := by
          unfold openFitsNode at hconf; dsimp only at hconf; rwa [hu] at hconf
        have hfl : floatStruct L env d own ks = true := by
          unfold floatNode at hfloat; dsimp only at hfloat; rwa [hu] at hfloat
        by_cases hns : dep = 0 → nsOk d.attrs own
        · have hrec : ∀ name as m kids q, (Node.elem name as m kids).events.length ≤ (Node.eventsL ks).length →
              openFitsNode L env (flatConfN L env k) (.elem name as m kids) q →
              floatNode L env (.elem name as m kids) q = true →
              ReadsAs 1 (deser L env n q) name (Node.elem name as m kids).events (leftover env (.elem name as m kids) q)
                (openNode L env (flatN L env k) (.elem name as m kids) q) := by
            intro name as' m' kids q hle hc hf dep' rest' fin' rd' hd ha
            have h1 := ih k (.elem name as' m' kids) q hc hf (by omega) dep' rest' fin' rd' ha
            rw [show openAt L env k dep' (.elem name as' m' kids) q = openNode L env (flatN L env k) (.elem name as' m' kids) q by
              unfold openAt; rw [if_neg (by omega)]] at h1
            exact h1
          obtain ⟨-, hattr, -⟩ := openFitsStruct_cases L env (flatN L env k) _ hfit hfl
          unfold deser
          rw [he]
          dsimp only
          obtain ⟨rd1, h1, a1⟩ := peek_at (show At dep (.start own as m :: (Node.eventsL ks ++ .endE own :: rest)) fin rd by
            simpa [Node.events] using hat)
          unfold structDeser
          rw [bind_ok h1, bind_get, a1.depth]
          rw [show openAt L env k dep (.elem own as m ks) p = openStruct L env (flatN L env k) d own as ks by
            unfold openAt decodeDocWith
            rw [he, hx]
            dsimp only
            split
            · rename_i h0; rw [if_pos (show nsOk d.attrs (Node.elem own as m ks).name from hns h0)]
            · rfl]
          rw [leftover_struct he]
          refine structBody_open L env (flatN L env k) (flatConfN L env k) (deser L env n) n d hff hfit hfl hrec ?_ (by omega) hns (by simpa [Node.events] using a1)
          intro f hf hatt q hq a ha hl s hs
          have hac := hattr f hf hatt q hq a ha hl s hs
          cases k with
          | zero => exact hac.elim
          | succ k =>
            obtain ⟨y, hdoc, hylen, hcy⟩ := hac
            cases y with
            | text s => rw [confN_eq, ConfWith] at hcy; exact hcy.elim
            | elem yn yas ym yks =>
              have h7 := flatN_text (env := env) (k := k) hdoc
              obtain ⟨post, hdoc⟩ := hdoc
              have hnew := at_new (L.parse (attrDoc q s))
              rw [skipped_eq_isMisc, show (L.parse (attrDoc q s)).evs.filter (fun e => !isMisc e)
                = content (L.parse (attrDoc q s)).evs from rfl, hdoc] at hnew
              have hr := deser_tree L env n k _ q hcy (by simp only [levelFuel] at hlen; omega) 0 post _ _ hnew
              obtain ⟨h5, h6⟩ := hr.doc
              simp only [decodeAt, if_true] at h5 h6
              rw [← h7] at h5 h6
              exact ⟨h5, h6⟩
        · -- wrong namespace
          have h0 : dep = 0 := by
            by_cases h : dep = 0
            · exact h
            · exact (hns fun h' => (h h').elim).elim
          subst h0
          have hnk : ¬ nsOk d.attrs own := fun h => hns fun _ => h
          have hnm : nsMatching d.attrs.namespaces d.attrs.pfx own.ns own.loc
              = .error (c!"bad namespace for " ++ own.loc ++ c!", found " ++ own.ns.getD []) := by
            unfold nsMatching
            cases hn : own.ns with
            | none => exact (hnk (by intro u hu; rw [hn] at hu; cases hu)).elim
            | some u =>
              dsimp only
              rw [if_neg]
              · rfl
              intro h
              rw [List.any_eq_true] at h
              obtain ⟨e, he', h2⟩ := h
              refine hnk ?_
              intro u' hu'
              rw [hn] at hu'
              cases hu'
              simp at h2
              exact ⟨e, he', by simp [h2.1], h2.2⟩
          unfold deser
          rw [he]
          dsimp only
          obtain ⟨rd1, h1, a1⟩ := peek_at (show At 0 (.start own as m :: (Node.eventsL ks ++ .endE own :: rest)) fin rd by
            simpa [Node.events] using hat)
          unfold structDeser
          rw [bind_ok h1, bind_get, a1.depth]
          unfold structBody
          have h2 : (M.ofExcept (nsMatching d.attrs.namespaces d.attrs.pfx own.ns own.loc) : D Unit) rd1
              = (.err (c!"bad namespace for " ++ own.loc ++ c!", found " ++ own.ns.getD []), rd1) := by
            rw [hnm]; rfl
          dsimp only [startInfo]
          rw [if_pos rfl, bind_err h2]
          unfold openAt decodeDocWith
          rw [if_pos rfl, he]
          dsimp only
          rw [if_neg (show ¬ nsOk d.attrs (Node.elem own as m ks).name from hnk)]
          exact ⟨rd1, rfl⟩


end Yaserde
