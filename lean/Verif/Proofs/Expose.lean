import Verif.Spec.Expose
import Verif.Proofs.User
import Verif.Proofs.DecodeAll
/-
The loop of the struct deserializer over children with elements inside scalars (for C08).
-/

set_option autoImplicit false

namespace Yaserde

/-! ### A child of a scalar field that is not read -/

section
variable (L : Lib)

theorem inner_led {f : FieldDef} {t : STy} {n n' : Name} {as as' : List Attr} {m m' : NsMap} {evs : List REv}
    {fin : Option Str} {rd : Rd} {D' : Nat} (h : At D' (.start n as m :: .start n' as' m' :: evs) fin rd) :
    ∃ e rd2, readInnerValue (simpleInner L f t) rd = (.err e, rd2) ∧ At (D' + 1) (.start n' as' m' :: evs) fin rd2 := by
  obtain ⟨rd1, h1, a1⟩ := next_start h
  obtain ⟨rd2, h2, a2⟩ := peek_at a1
  refine ⟨c!"unable to parse content for " ++ f.label, rd2, ?_, a2⟩
  have hi : simpleInner L f t rd1 = (.err (c!"unable to parse content for " ++ f.label), rd2) := by
    unfold simpleInner
    rw [bind_ok (attempt_ok h2)]
    rfl
  unfold readInnerValue
  rw [bind_ok (attempt_ok h1)]
  dsimp only
  rw [bind_err hi]

theorem inner_malformed {f : FieldDef} {t : STy} {n : Name} {as : List Attr} {m : NsMap} {s e : Str} {evs : List REv}
    {fin : Option Str} {rd : Rd} {D' : Nat} (hv : visitS L t s = .error e)
    (h : At D' (.start n as m :: .chars s :: evs) fin rd) :
    ∃ e rd2, readInnerValue (simpleInner L f t) rd = (.err e, rd2) ∧ At (D' + 1) evs fin rd2 := by
  obtain ⟨rd1, h1, a1⟩ := next_start h
  obtain ⟨rd2, h2, a2⟩ := peek_at a1
  obtain ⟨rd3, h3, a3⟩ := next_chars a2
  refine ⟨e, rd3, ?_, a3⟩
  have hi : simpleInner L f t rd1 = (.err e, rd3) := by
    unfold simpleInner
    rw [bind_ok (attempt_ok h2)]
    dsimp only
    rw [bind_ok h3, hv]
    rfl
  unfold readInnerValue
  rw [bind_ok (attempt_ok h1)]
  dsimp only
  rw [bind_err hi]

theorem inner_more {f : FieldDef} {t : STy} {n : Name} {as : List Attr} {m : NsMap} {s : Str} {v : Val} {evs : List REv}
    {fin : Option Str} {rd : Rd} {D' : Nat} (hv : visitS L t s = .ok v)
    (h : At D' (.start n as m :: .chars s :: evs) fin rd) :
    ∃ rd3, At (D' + 1) evs fin rd3 ∧ ∀ ev rd4, nextEvent rd3 = (.ok ev, rd4) → (∀ n, ev ≠ .endE n) →
      ∃ e, readInnerValue (simpleInner L f t) rd = (.err e, rd4) := by
  obtain ⟨rd1, h1, a1⟩ := next_start h
  obtain ⟨rd2, h2, a2⟩ := peek_at a1
  obtain ⟨rd3, h3, a3⟩ := next_chars a2
  refine ⟨rd3, a3, ?_⟩
  intro ev rd4 h4 hne
  have hi : simpleInner L f t rd1 = (.ok v, rd3) := by
    unfold simpleInner
    rw [bind_ok (attempt_ok h2)]
    dsimp only
    rw [bind_ok h3, hv]
    rfl
  refine ⟨c!"Unexpected token </" ++ n.loc ++ c!">", ?_⟩
  unfold readInnerValue
  rw [bind_ok (attempt_ok h1)]
  dsimp only
  rw [bind_ok hi]
  have : expectEndElement n rd3 = (.err (c!"Unexpected token </" ++ n.loc ++ c!">"), rd4) := by
    unfold expectEndElement
    rw [bind_ok h4]
    cases ev with
    | endE n => exact (hne n rfl).elim
    | _ => rfl
  rw [bind_err this]

theorem inner_text {f : FieldDef} {t : STy} {n : Name} {as : List Attr} {m : NsMap} {s s' : Str} {v : Val} {evs : List REv}
    {fin : Option Str} {rd : Rd} {D' : Nat} (hv : visitS L t s = .ok v)
    (h : At D' (.start n as m :: .chars s :: .chars s' :: evs) fin rd) :
    ∃ e rd2, readInnerValue (simpleInner L f t) rd = (.err e, rd2) ∧ At (D' + 1) evs fin rd2 := by
  obtain ⟨rd3, a3, h3⟩ := inner_more (f := f) L hv h
  obtain ⟨rd4, h4, a4⟩ := next_chars a3
  obtain ⟨e, h5⟩ := h3 _ _ h4 (by simp)
  exact ⟨e, rd4, h5, a4⟩

theorem inner_elem {f : FieldDef} {t : STy} {n n' : Name} {as as' : List Attr} {m m' : NsMap} {s : Str} {v : Val}
    {evs : List REv} {fin : Option Str} {rd : Rd} {D' : Nat} (hv : visitS L t s = .ok v)
    (h : At D' (.start n as m :: .chars s :: .start n' as' m' :: evs) fin rd) :
    ∃ e rd2, readInnerValue (simpleInner L f t) rd = (.err e, rd2) ∧ At (D' + 1 + 1) evs fin rd2 := by
  obtain ⟨rd3, a3, h3⟩ := inner_more (f := f) L hv h
  obtain ⟨rd4, h4, a4⟩ := next_start a3
  obtain ⟨e, h5⟩ := h3 _ _ h4 (by simp)
  exact ⟨e, rd4, h5, a4⟩

theorem structStart_fail (rec : Path → D Val) (skipFuel : Nat) (d : StructDef) {st : LoopSt} (hd : st.depth ≥ 1) {i : Nat}
    {f : FieldDef} {t : STy} {name : Name} {as : List Attr} (hns : name.ns ≠ some []) (hf : d.fieldFor name = some i)
    (hfi : d.fields[i]? = some f) (hty : f.ty.core = .simple t) {e : Str} {rd rd2 : Rd}
    (hr : readInnerValue (simpleInner L f t) rd = (.err e, rd2)) :
    structStart L rec skipFuel d st name as rd = (.ok { st with depth := st.depth + 1 }, rd2) := by
  obtain ⟨f', hfi', -, hcl⟩ := fieldFor_some hf
  obtain rfl : f' = f := by rw [hfi] at hfi'; exact (Option.some.inj hfi').symm
  have hnsm := nsMatching_of_claims hcl hns name.loc
  have hne : (M.ofExcept (nsMatching d.attrs.namespaces f'.attrs.pfx name.ns name.loc) : D Unit) rd
      = (.ok (), rd) := by rw [hnsm]; rfl
  rw [structStart_inner L rec skipFuel d hd, hf]
  dsimp only
  rw [hfi]
  dsimp only
  have hvis : callVisitor L rec d.attrs f' i name st = callSimple L d.attrs f' i t name st := by
    unfold callVisitor; rw [hty]
  have hcall : callSimple L d.attrs f' i t name st rd = (.ok st, rd2) := by
    unfold callSimple
    rw [bind_ok hne, bind_ok (attempt_err hr)]
    rfl
  rw [hvis, bind_ok hcall, afterArm L rec d hd]

end

/-! ### Lists of children -/

theorem claimedTy_of {d : StructDef} {n : Name} {i : Nat} {f : FieldDef} (hf : d.fieldFor n = some i)
    (hfi : d.fields[i]? = some f) : d.claimedTy n = some f.ty.core := by
  simp [StructDef.claimedTy, hf, hfi]

theorem claimedTy_none {d : StructDef} {n : Name} (hf : d.fieldFor n = none) : d.claimedTy n = none := by
  simp [StructDef.claimedTy, hf]

theorem confKids_append {L : Lib} {env : Env} {fc : Node → Path → Prop} {d : StructDef} (a b : List Node) :
    ConfKids L env fc d (a ++ b) ↔ ConfKids L env fc d a ∧ ConfKids L env fc d b := by
  induction a with
  | nil => simp [ConfKids]
  | cons k a ih => simp [ConfKids, ih, and_assoc]

theorem kidsBy_append (L : Lib) (dec : Node → Path → Res Val) (d : StructDef) (a b : List Node) :
    kidsBy L dec d (a ++ b) = (kidsBy L dec d a).bind fun x => (kidsBy L dec d b).bind fun y => .ok (x ++ y) := by
  induction a with
  | nil =>
    simp only [List.nil_append]
    show _ = (kidsBy L dec d b).bind fun y => .ok ([] ++ y)
    exact (Res.bind_ok_right _).symm
  | cons k a ih =>
    simp only [List.cons_append, kidsBy_cons, ih, Res.bind_assoc, Res.bind_ok, List.append_assoc]

theorem byText_of_left {env : Env} {x : Node} {q : Path} (h : leftover env x q ≠ []) : standsIn env x q = true := by
  by_cases hb : byText env x q
  · unfold byText at hb
    unfold standsIn
    cases he : env q with
    | none => rw [he] at hb; exact hb.elim
    | some td =>
      rw [he] at hb
      cases td with
      | struct d => exact hb.elim
      | prim d =>
        dsimp only at hb ⊢
        cases hc : x.content with
        | nil => exact (hb hc).elim
        | cons _ _ => rfl
      | enum d =>
        dsimp only at hb ⊢
        rcases hb with hb | hb
        · cases hu : unitByText d x.content with
          | none => exact (hb hu).elim
          | some _ => rfl
        · cases hu : d.variantOf x.name x.attrs with
          | none => exact (hb hu).elim
          | some _ => simp
  · exact (h (leftover_nil hb)).elim

theorem unflat_struct {env : Env} {p : Path} {d : StructDef} (h : env.unflat p = some d) :
    env p = some (.struct d) ∧ d.hasFlat = false := by
  unfold Env.unflat at h
  split at h
  · rename_i d' he
    split at h
    · cases h
    · rename_i hf; cases h; exact ⟨he, by simpa using hf⟩
  · cases h

theorem leftover_struct {env : Env} {p : Path} {d : StructDef} (h : env p = some (.struct d)) (x : Node) :
    leftover env x p = [] := by
  unfold leftover; rw [h]

section
variable (L : Lib) (env : Env) (flat : Node → Path → Res Val) (fc : Node → Path → Prop)

/-- The loop over children with elements inside scalars, and what comes after them. -/
theorem structLoop_exposed {γ : Type} (rec : Path → D Val) (skipFuel : Nat) (d : StructDef) (hplain : d.Plain)
    (hff : d.hasFlat = false) (named : Str) (dep : Nat) (fin : Option Str) (N0 : Nat)
    (hrec : ∀ name as m kids q, (Node.elem name as m kids).events.length ≤ N0 →
      ConfWith L env fc ((Node.elem name as m kids).exposed L env q) q → (Node.elem name as m kids).afloat L env q →
      ReadsAs 1 (rec q) name (Node.elem name as m kids).events (leftover env (.elem name as m kids) q)
        (decodeWith L env flat ((Node.elem name as m kids).exposed L env q) q))
    (hsk : N0 + 1 < skipFuel) (Q : γ → LoopSt → Rd → Prop) :
    ∀ (N : Nat) (ks : List Node) (tail : List REv) (acc : List Contrib) (st : LoopSt) (n : Nat) (rd : Rd) (D' : Nat)
      (c c' : Int) (g : List Contrib → Res γ),
      (Node.eventsL ks).length ≤ N → N ≤ N0 →
      ConfKids L env fc d (exposedKids L env d ks) → afloatKids L env d ks c = some c' → c ≤ st.depth →
      st.slots = slotsFrom acc d.fields 0 → dep + 1 ≤ D' → (Node.eventsL ks).length < n →
      At D' (Node.eventsL ks ++ tail) fin rd →
      (∀ cs st1 n1 rd1, c' ≤ st1.depth → st1.slots = slotsFrom (acc ++ cs) d.fields 0 →
        n ≤ n1 + (Node.eventsL ks).length → At D' tail fin rd1 →
        Runs (structLoop L rec skipFuel d named dep n1 st1 rd1) (g cs) Q) →
      Runs (structLoop L rec skipFuel d named dep n st rd)
        ((kidsBy L (decodeWith L env flat) d (exposedKids L env d ks)).bind g) Q := by
  intro N
  induction N with
  | zero =>
    intro ks tail acc st n rd D' c c' g hN _ hconf hfl hc hsl hD hn hat hk
    cases ks with
    | nil =>
      simp only [exposedKids, afloatKids, Option.some.injEq] at hfl ⊢
      subst hfl
      exact hk [] st n rd hc (by simpa using hsl) (by omega) (by simpa [Node.eventsL] using hat)
    | cons k ks => cases k <;> simp [Node.eventsL, Node.events] at hN
  | succ N ih =>
    intro ks tail acc st n rd D' c c' g hN hN0 hconf hfl hc hsl hD hn hat hk
    cases ks with
    | nil =>
      simp only [exposedKids, afloatKids, Option.some.injEq] at hfl ⊢
      subst hfl
      exact hk [] st n rd hc (by simpa using hsl) (by omega) (by simpa [Node.eventsL] using hat)
    | cons k ks =>
      have hlen : (Node.eventsL (k :: ks)).length = k.events.length + (Node.eventsL ks).length := by
        simp [Node.eventsL]
      rw [exposedKids, confKids_append] at hconf
      obtain ⟨hck, hcks⟩ := hconf
      rw [afloatKids, Option.bind_eq_some_iff] at hfl
      obtain ⟨c1, hfk, hfks⟩ := hfl
      rw [exposedKids, kidsBy_append]
      simp only [Res.bind_assoc, Res.bind_ok]
      have hpos : 1 ≤ k.events.length := by cases k <;> simp [Node.events]
      -- what remains once the child has contributed `a`
      have finish : ∀ (a : List Contrib) (st1 : LoopSt) (n1 : Nat) (rd1 : Rd), c1 ≤ st1.depth →
          st1.slots = slotsFrom (acc ++ a) d.fields 0 → n ≤ n1 + k.events.length →
          At D' (Node.eventsL ks ++ tail) fin rd1 →
          Runs (structLoop L rec skipFuel d named dep n1 st1 rd1)
            ((kidsBy L (decodeWith L env flat) d (exposedKids L env d ks)).bind fun b => g (a ++ b)) Q := by
        intro a st1 n1 rd1 h1 h2 h3 h4
        refine ih ks tail (acc ++ a) st1 n1 rd1 D' c1 c' (fun b => g (a ++ b)) (by omega) (by omega) hcks hfks h1 h2 hD
          (by omega) h4 ?_
        intro cs st2 n2 rd2 i1 i2 i3 i4
        exact hk (a ++ cs) st2 n2 rd2 i1 (by rw [i2, List.append_assoc]) (by omega) i4
      obtain ⟨n, rfl⟩ : ∃ k, n = k + 1 := ⟨n - 1, by omega⟩
      have one : ∀ (x : Node) (G : List Contrib → Res γ), (kidsBy L (decodeWith L env flat) d [x]).bind G
          = (kidContrib L d (decodeWith L env flat x) x).bind G := by
        intro x G
        rw [kidsBy_cons]
        simp only [Res.bind_assoc]
        congr 1
        funext a
        show ((Res.ok ([] : List Contrib)).bind _).bind _ = _
        simp
      cases k with
      | text s =>
        simp only [exposedKid, ConfKids, ConfKid, and_true] at hck
        simp only [afloatKid, Option.some.injEq] at hfk
        subst hfk
        have hat' : At D' (.chars s :: (Node.eventsL ks ++ tail)) fin rd := by
          simpa [Node.eventsL, Node.events] using hat
        obtain ⟨rd1, h1, a1⟩ := structLoop_text L rec skipFuel d named dep (n := n) (st := st) hat'
        rw [exposedKid, one, h1]
        exact finish (textContrib d s) _ n rd1 hc
          (by simp only [hsl, setText_slotsFrom acc s hck d.fields hplain.textTy]; rfl) (by simp [Node.events]) a1
      | elem name as m kids =>
        rw [eventsL_elem_cons] at hat
        have hkl : (Node.elem name as m kids).events.length = (Node.eventsL kids).length + 2 := by
          simp [Node.events]
        rw [afloatKid] at hfk
        split at hfk
        · cases hfk
        rename_i hc0
        have hd : st.depth ≥ 1 := by omega
        cases hf : d.fieldFor name with
        | none =>
          rw [claimedTy_none hf] at hfk
          simp only [Option.some.injEq] at hfk
          have hex : exposedKid L env d (.elem name as m kids) = [.elem name as m kids] := by
            rw [exposedKid, claimedTy_none hf]
          rw [hex, one]
          refine structLoop_start L rec skipFuel d named dep hat ?_
          intro rd1 a1
          simp only [kidContrib, hf]
          obtain ⟨rd2, h2, a2⟩ := structStart_unknown L rec skipFuel d hd hf (by omega) a1
          refine ⟨_, _, h2, ?_⟩
          exact finish [] _ n rd2 (by simp; omega) (by simpa using hsl) (by omega) a2
        | some i =>
          obtain ⟨f, hfi, hfm, hcl⟩ := fieldFor_some hf
          rcases hplain.elemTy f hfm with ⟨t, hty⟩ | ⟨q, hty⟩
          · -- scalar
            rw [claimedTy_of hf hfi, hty] at hfk
            simp only [Option.map_eq_some_iff] at hfk
            obtain ⟨c2, hfk, rfl⟩ := hfk
            rw [exposedKid, claimedTy_of hf hfi, hty] at hck
            rw [exposedKid, claimedTy_of hf hfi, hty]
            dsimp only at hck ⊢
            by_cases hns : name.ns = some []
            · rw [if_pos hns, ConfKids, ConfKid] at hck
              exact (hck.1.1 hns).elim
            rw [if_neg hns] at hck ⊢
            -- the child has been given up, after its first events
            have broken : ∀ (e : Str) (rd1 rd2 : Rd), At D' (.start name as m :: (Node.eventsL kids ++ .endE name ::
                  (Node.eventsL ks ++ tail))) fin rd1 →
                readInnerValue (simpleInner L f t) rd1 = (.err e, rd2) → ∀ (r : Res Unit) (G : Unit → Res γ), r = .ok () →
                Runs (structLoop L rec skipFuel d named dep n { st with depth := st.depth + 1 } rd2) (G ()) Q →
                Runs (structStart L rec skipFuel d st name as rd1) r fun a st' rd' =>
                  Runs (structLoop L rec skipFuel d named dep n st' rd') (G a) Q := by
              intro e rd1 rd2 _ hr r G hG hrun
              subst hG
              exact ⟨_, _, structStart_fail L rec skipFuel d hd hns hf hfi hty hr, hrun⟩
            -- an end tag, then the rest
            have close : ∀ (a : List Contrib) (st1 : LoopSt) (n1 : Nat) (rd1 : Rd), c2 ≤ st1.depth →
                st1.slots = slotsFrom (acc ++ a) d.fields 0 → n + 1 ≤ n1 + ((Node.eventsL kids).length + 1) → 1 ≤ n1 →
                At (D' + 1) (.endE name :: (Node.eventsL ks ++ tail)) fin rd1 →
                Runs (structLoop L rec skipFuel d named dep n1 st1 rd1)
                  ((kidsBy L (decodeWith L env flat) d (exposedKids L env d ks)).bind fun b => g (a ++ b)) Q := by
              intro a st1 n1 rd1 h1 h2 h3 h4 h5
              obtain ⟨n1, rfl⟩ : ∃ k, n1 = k + 1 := ⟨n1 - 1, by omega⟩
              obtain ⟨rd3, h6, a3⟩ := structLoop_end L rec skipFuel d named dep (n := n1) (st := st1) (by omega) h5
              rw [h6]
              exact finish a _ n1 rd3 (by simp; omega) h2 (by omega) a3
            have started : ∀ (R : Res γ), (∀ rd1, At D' (.start name as m :: (Node.eventsL kids ++ .endE name ::
                  (Node.eventsL ks ++ tail))) fin rd1 → ∃ e rd2, readInnerValue (simpleInner L f t) rd1 = (.err e, rd2) ∧
                  Runs (structLoop L rec skipFuel d named dep n { st with depth := st.depth + 1 } rd2) R Q) →
                Runs (structLoop L rec skipFuel d named dep (n + 1) st rd) R Q := by
              intro R hR
              have := structLoop_start L rec skipFuel d named dep (n := n) (st := st) hat (r := Res.ok ()) (g := fun _ => R)
                (Q := Q) (by
                intro rd1 a1
                obtain ⟨e, rd2, h1, h2⟩ := hR rd1 a1
                exact broken e rd1 rd2 a1 h1 (.ok ()) (fun _ => R) rfl h2)
              simpa using this
            have read : textOnly kids → ConfKids L env fc d [.elem name as m kids] →
                (c2 ≤ c + if (scalarContent L t kids).isSome then 2 else 1) →
                Runs (structLoop L rec skipFuel d named dep (n + 1) st rd)
                  ((kidsBy L (decodeWith L env flat) d [.elem name as m kids]).bind fun a =>
                    (kidsBy L (decodeWith L env flat) d (exposedKids L env d ks)).bind fun b => g (a ++ b)) Q := by
              intro hto _ hc2
              rw [one]
              refine structLoop_start L rec skipFuel d named dep hat ?_
              intro rd1 a1
              simp only [kidContrib, hf, hfi, hty]
              obtain ⟨st2, rd2, h2, h3⟩ := structStart_simple L rec skipFuel d hd hto hns hf hfi hty a1
              refine ⟨_, _, h2, ?_⟩
              cases hv : scalarContent L t kids with
              | some v =>
                rw [hv] at h3 hc2
                obtain ⟨rfl, a2⟩ := h3
                simp at hc2
                refine finish [(i, v)] _ n rd2 (by simp; omega) ?_ (by omega) a2
                simp only [LoopSt.setSlot, hsl, modify_slotsFrom, Nat.zero_add]
              | none =>
                rw [hv] at h3 hc2
                obtain ⟨rfl, a2⟩ := h3
                simp at hc2
                exact close [] _ n rd2 (by simp; omega) (by simpa using hsl) (by omega) (by omega) a2
            match kids, hck, hfk, hat, hkl, hlen, hN, hn, broken, close, started, read, finish with
            | [], hck, hfk, _, _, _, _, _, _, _, _, read, _ =>
              rw [exposedScalar] at hck ⊢
              rw [afloatScalar, Option.some.injEq] at hfk
              exact read trivial hck (by simp [scalarContent]; omega)
            | .elem n' as' m' ks' :: more, hck, hfk, hat, hkl, hlen, hN, hn, _, close, started, _, _ =>
              rw [show exposedScalar L env d t [.elem name as m (.elem n' as' m' ks' :: more)] (.elem n' as' m' ks' :: more)
                = exposedKids L env d (.elem n' as' m' ks' :: more) by rw [exposedScalar, exposedKids]] at hck ⊢
              rw [show afloatScalar L env d t (.elem n' as' m' ks' :: more) (c + 1)
                = afloatKids L env d (.elem n' as' m' ks' :: more) (c + 1) by rw [afloatScalar, afloatKids]] at hfk
              refine started _ ?_
              intro rd1 a1
              obtain ⟨e, rd2, h1, a2⟩ := inner_led (f := f) (t := t) L (by simpa [Node.eventsL, Node.events] using a1)
              refine ⟨e, rd2, h1, ?_⟩
              refine ih (.elem n' as' m' ks' :: more) (.endE name :: (Node.eventsL ks ++ tail)) acc _ n rd2 (D' + 1) (c + 1) c2 _
                (by omega) (by omega) hck hfk (by simp; omega) hsl (by omega) (by omega)
                (by simpa [Node.eventsL, Node.events] using a2) ?_
              intro cs st1 n1 rd3 i1 i2 i3 i4
              exact close cs st1 n1 rd3 i1 i2 (by omega) (by omega) i4
            | .text s :: more, hck, hfk, hat, hkl, hlen, hN, hn, _, close, started, read, _ =>
              rw [exposedScalar] at hck ⊢
              rw [afloatScalar] at hfk
              cases more with
              | nil =>
                simp only [List.isEmpty_nil, if_true] at hck hfk ⊢
                refine read trivial hck ?_
                cases hv : (scalarContent L t [.text s]).isSome with
                | true => rw [hv] at hfk; simp at hfk ⊢; omega
                | false => rw [hv] at hfk; simp [afloatKids] at hfk ⊢; omega
              | cons x more =>
                simp only [List.isEmpty_cons, Bool.false_eq_true, if_false] at hck hfk ⊢
                have hel : (Node.eventsL (.text s :: x :: more)).length = 1 + (Node.eventsL (x :: more)).length := by
                  simp [Node.eventsL, Node.events]; omega
                cases hv : visitS L t s with
                | error e =>
                  have hsc : (scalarContent L t [.text s]).isSome = false := by simp [scalarContent, hv]
                  simp only [hsc, Bool.false_eq_true, if_false] at hck hfk ⊢
                  refine started _ ?_
                  intro rd1 a1
                  obtain ⟨e, rd2, h1, a2⟩ := inner_malformed (f := f) L hv
                    (evs := Node.eventsL (x :: more) ++ .endE name :: (Node.eventsL ks ++ tail))
                    (by simpa [Node.eventsL, Node.events] using a1)
                  refine ⟨e, rd2, h1, ?_⟩
                  refine ih (x :: more) (.endE name :: (Node.eventsL ks ++ tail)) acc _ n rd2 (D' + 1) (c + 1) c2 _
                    (by omega) (by omega) hck hfk (by simp; omega) hsl (by omega) (by omega) a2 ?_
                  intro cs st1 n1 rd3 i1 i2 i3 i4
                  exact close cs st1 n1 rd3 i1 i2 (by omega) (by omega) i4
                | ok v =>
                  have hsc : (scalarContent L t [.text s]).isSome = true := by simp [scalarContent, hv]
                  simp only [hsc, if_true] at hck hfk ⊢
                  cases x with
                  | text s' =>
                    rw [exposedAfter] at hck ⊢
                    rw [afloatAfter] at hfk
                    have hel2 : (Node.eventsL (.text s' :: more)).length = 1 + (Node.eventsL more).length := by
                      simp [Node.eventsL, Node.events]; omega
                    refine started _ ?_
                    intro rd1 a1
                    obtain ⟨e, rd2, h1, a2⟩ := inner_text (f := f) L hv (s' := s')
                      (evs := Node.eventsL more ++ .endE name :: (Node.eventsL ks ++ tail))
                      (by simpa [Node.eventsL, Node.events] using a1)
                    refine ⟨e, rd2, h1, ?_⟩
                    refine ih more (.endE name :: (Node.eventsL ks ++ tail)) acc _ n rd2 (D' + 1) (c + 1) c2 _
                      (by omega) (by omega) hck hfk (by simp; omega) hsl (by omega) (by omega) a2 ?_
                    intro cs st1 n1 rd3 i1 i2 i3 i4
                    exact close cs st1 n1 rd3 i1 i2 (by omega) (by omega) i4
                  | elem n' as' m' ks' =>
                    rw [exposedAfter, confKids_append] at hck
                    obtain ⟨hck1, hck2⟩ := hck
                    rw [exposedAfter, kidsBy_append]
                    simp only [Res.bind_assoc, Res.bind_ok]
                    rw [afloatAfter, Option.bind_eq_some_iff] at hfk
                    obtain ⟨c3, hf1, hf2⟩ := hfk
                    have hel2 : (Node.eventsL (.elem n' as' m' ks' :: more)).length
                        = 2 + (Node.eventsL ks').length + (Node.eventsL more).length := by
                      simp [Node.eventsL, Node.events]; omega
                    refine started _ ?_
                    intro rd1 a1
                    obtain ⟨e, rd2, h1, a2⟩ := inner_elem (f := f) L hv (n' := n') (as' := as') (m' := m')
                      (evs := Node.eventsL ks' ++ .endE n' :: (Node.eventsL more ++ .endE name :: (Node.eventsL ks ++ tail)))
                      (by simpa [Node.eventsL, Node.events] using a1)
                    refine ⟨e, rd2, h1, ?_⟩
                    refine ih ks' (.endE n' :: (Node.eventsL more ++ .endE name :: (Node.eventsL ks ++ tail))) acc _ n rd2
                      (D' + 1 + 1) (c + 1) c3 _
                      (by omega) (by omega) hck1 hf1 (by simp; omega) hsl (by omega) (by omega) a2 ?_
                    intro cs1 st1 n1 rd3 i1 i2 i3 i4
                    obtain ⟨n1, rfl⟩ : ∃ k, n1 = k + 1 := ⟨n1 - 1, by omega⟩
                    obtain ⟨rd4, h6, a4⟩ := structLoop_end L rec skipFuel d named dep (n := n1) (st := st1) (by omega) i4
                    rw [h6]
                    refine ih more (.endE name :: (Node.eventsL ks ++ tail)) (acc ++ cs1) _ n1 rd4 (D' + 1) (c3 - 1) c2 _
                      (by omega) (by omega) hck2 hf2 (by simp; omega) i2 (by omega) (by omega) a4 ?_
                    intro cs2 st2 n2 rd5 j1 j2 j3 j4
                    exact close (cs1 ++ cs2) st2 n2 rd5 j1 (by rw [j2, List.append_assoc]) (by omega) (by omega) j4
          · -- another type
            have hex : exposedKid L env d (.elem name as m kids) = [(Node.elem name as m kids).exposed L env q] := by
              rw [exposedKid, claimedTy_of hf hfi, hty]
              unfold Node.exposed
              dsimp only
              split <;> rfl
            obtain ⟨kids', hxe⟩ : ∃ kids', (Node.elem name as m kids).exposed L env q = .elem name as m kids' := by
              unfold Node.exposed
              dsimp only
              split
              · exact ⟨_, rfl⟩
              · exact ⟨_, rfl⟩
            rw [hex, ConfKids, hxe, ConfKid] at hck
            obtain ⟨⟨hns, hck⟩, -⟩ := hck
            obtain ⟨hcw, -⟩ := (hck i f hf hfi).2 q hty
            rw [← hxe] at hcw
            rw [claimedTy_of hf hfi, hty] at hfk
            dsimp only at hfk
            have haf : (Node.elem name as m kids).afloat L env q ∧
                c1 ≤ c + if leftover env (.elem name as m kids) q = [] then 1 else 0 := by
              unfold Node.afloat
              cases hu : env.unflat q with
              | some d' =>
                rw [hu] at hfk
                dsimp only at hfk
                rw [Option.bind_eq_some_iff] at hfk
                obtain ⟨c3, h3, h4⟩ := hfk
                refine ⟨?_, ?_⟩
                · intro d2 h; cases h; simp [Node.content, h3]
                · rw [if_pos (leftover_struct (unflat_struct hu).1 _)]
                  simp only [Option.some.injEq] at h4; omega
              | none =>
                rw [hu] at hfk
                refine ⟨fun d2 h => (by cases h), ?_⟩
                simp only [Option.some.injEq] at hfk
                by_cases hl : leftover env (.elem name as m kids) q = []
                · rw [if_pos hl]; split at hfk <;> omega
                · rw [if_neg hl, ← hfk, if_pos (byText_of_left hl)]; omega
            rw [hex, one, hxe]
            refine structLoop_start L rec skipFuel d named dep hat ?_
            intro rd1 a1
            have hreads := hrec name as m kids q (by omega) hcw haf.1
            have hst := structStart_struct L rec skipFuel d hd (by omega) hf hfi hty a1
              (leftover_cases env _ q) hreads
            simp only [kidContrib, hf, hfi, hty]
            rw [← hxe]
            have hst2 := Runs.bind (f := fun st => M.pure st) (g := fun v => Res.ok [(i, v)]) hst
              (Q' := fun a st' rd' => Runs (structLoop L rec skipFuel d named dep n st' rd')
                ((kidsBy L (decodeWith L env flat) d (exposedKids L env d ks)).bind fun b => g (a ++ b)) Q) (by
              rintro v st2 rd2 _ ⟨rfl, h2⟩
              refine ⟨_, rd2, rfl, ?_⟩
              have hslots : (st.setSlot i (Slot.put v)).slots = slotsFrom (acc ++ [(i, v)]) d.fields 0 := by
                simp only [LoopSt.setSlot, hsl, modify_slotsFrom, Nat.zero_add]
              rcases h2 with ⟨hl, a2⟩ | ⟨hl, a2⟩
              · have := haf.2
                rw [if_pos hl] at this
                exact finish [(i, v)] { st.setSlot i (Slot.put v) with depth := st.depth + 1 } n rd2
                  (by simp; omega) hslots (by omega) a2
              · have := haf.2
                rw [if_neg hl] at this
                obtain ⟨n, rfl⟩ : ∃ k, n = k + 1 := ⟨n - 1, by omega⟩
                obtain ⟨rd3, h3, a3⟩ := structLoop_end L rec skipFuel d named dep (n := n)
                  (st := { st.setSlot i (Slot.put v) with depth := st.depth + 1 }) (by omega) a2
                refine Runs.of_eq h3 ?_
                exact finish [(i, v)] _ n rd3 (by simp; omega) hslots (by omega) a3)
            rwa [show (structStart L rec skipFuel d st name as >>= fun st => M.pure st)
              = structStart L rec skipFuel d st name as from bind_pure_right _] at hst2

/-- The struct deserializer on an element with elements inside scalars. -/
theorem structBody_exposed (rec : Path → D Val) (fuel : Nat) (d : StructDef) {own : Name} {as : List Attr} {m : NsMap}
    {ks : List Node} (hplain : d.Plain) (hff : d.hasFlat = false)
    (hname : (own.loc = d.attrs.rename.getD d.name ∧
            own.ns.getD [] = (d.attrs.namespaces.find d.attrs.pfx).getD []) ∨ d.fieldFor own = none)
    (hkids : ConfKids L env fc d (exposedKids L env d ks)) (hfloat : (afloatKids L env d ks 1).isSome = true)
    (hrec : ∀ name as m kids q, (Node.elem name as m kids).events.length ≤ (Node.eventsL ks).length →
      ConfWith L env fc ((Node.elem name as m kids).exposed L env q) q → (Node.elem name as m kids).afloat L env q →
      ReadsAs 1 (rec q) name (Node.elem name as m kids).events (leftover env (.elem name as m kids) q)
        (decodeWith L env flat ((Node.elem name as m kids).exposed L env q) q))
    (huser : ∀ f ∈ d.fields, f.attrs.isAttr = true → ∀ q, f.ty.core = .struct q → ∀ a ∈ as, a.name.loc = f.label →
      ∀ s ∈ f.ty.attrTexts a.value, visitStructStr L rec q s = userAttr flat q s ∧ userAttr flat q s ≠ .diverge)
    (hfuel : (Node.eventsL ks).length + 1 < fuel)
    {dep : Nat} {rest : List REv} {fin : Option Str} {rd : Rd}
    (hns : dep = 0 → nsOk d.attrs own)
    (hat : At dep ((Node.elem own as m ks).events ++ rest) fin rd) :
    Runs (structBody L rec fuel d (own.loc, own.ns) dep rd)
      (decodeStruct L flat d own as m (exposedKids L env d ks) (decodeL L env flat (exposedKids L env d ks)))
      fun v b rd' => b = v ∧ At (dep + 1) (.endE own :: rest) fin rd' := by
  have hat' : At dep (.start own as m :: (Node.eventsL ks ++ .endE own :: rest)) fin rd := by
    simpa [Node.events] using hat
  unfold structBody
  have h0 : (if dep = 0 then M.ofExcept (nsMatching d.attrs.namespaces d.attrs.pfx own.ns own.loc)
      else M.pure () : D Unit) rd = (.ok (), rd) := by
    split
    · rename_i hd
      have : nsMatching d.attrs.namespaces d.attrs.pfx own.ns own.loc = .ok () := by
        unfold nsMatching
        cases hn : own.ns with
        | none => rfl
        | some u =>
          obtain ⟨e, he, h1, h2⟩ := hns hd u hn
          dsimp only
          rw [if_pos]
          rw [List.any_eq_true]
          exact ⟨e, he, by simp [h1, h2]⟩
      rw [this]; rfl
    · rfl
  rw [bind_ok h0, slotsFrom_init d.fields 0]
  obtain ⟨n, rfl⟩ : ∃ k, fuel = k + 1 := ⟨fuel - 1, by omega⟩
  obtain ⟨c', hc'⟩ := Option.isSome_iff_exists.mp hfloat
  -- the loop
  have hloop : Runs (structLoop L rec (n + 1) d own.loc dep (n + 1)
      ⟨0, slotsFrom [] d.fields 0, some {}⟩ rd)
      ((attrContribs L (userAttr flat) d as).bind fun ca =>
        (kidsBy L (decodeWith L env flat) d (exposedKids L env d ks)).bind fun ck => .ok (ca ++ ck))
      fun cs st' rd' => st'.slots = slotsFrom cs d.fields 0 ∧
        At (dep + 1) (.endE own :: rest) fin rd' := by
    refine structLoop_start L rec (n + 1) d own.loc dep hat' ?_
    intro rd1 a1
    refine (structStart_own L rec (userAttr flat) (n + 1) d hplain hname (w := some {}) huser a1).mono ?_
    rintro ca st2 rd2 - ⟨rfl, a2⟩
    refine structLoop_exposed L env flat fc rec (n + 1) d hplain hff own.loc dep fin (Node.eventsL ks).length hrec hfuel _
      _ ks (.endE own :: rest) ca _ n rd2 (dep + 1) 1 c' _ (Nat.le_refl _) (Nat.le_refl _) hkids hc' (by simp) rfl
      (Nat.le_refl _) (by omega) a2 ?_
    intro cs st1 n1 rd3 _ h2 h3 h4
    obtain ⟨n1, rfl⟩ : ∃ k, n1 = k + 1 := ⟨n1 - 1, by omega⟩
    obtain ⟨rd4, h5, a5⟩ := structLoop_own_end L rec (n + 1) d own.loc dep (n := n1) (st := st1) rfl h4
    exact ⟨_, rd4, h5, h2, a5⟩
  unfold decodeStruct
  rw [flatContribs_noFlat hff, decodeL_eq]
  have hre : ∀ g : List Contrib → Res Val,
      ((attrContribs L (userAttr flat) d as).bind fun ca => (kidContribs L d (exposedKids L env d ks)
        ((exposedKids L env d ks).map (decodeWith L env flat))).bind fun ck => g (ca ++ ck)) =
      (((attrContribs L (userAttr flat) d as).bind fun ca =>
        (kidsBy L (decodeWith L env flat) d (exposedKids L env d ks)).bind fun ck => .ok (ca ++ ck)).bind g) := by
    intro g; simp only [Res.bind_assoc, Res.bind_ok]; rfl
  simp only [Res.bind_ok, List.append_nil]
  rw [hre fun cs => assemble d cs]
  refine Runs.bind hloop ?_
  rintro cs st' rd' hcs ⟨hsl, ha⟩
  rw [hff]
  dsimp only
  rw [bind_ok (x := M.pure st'.slots) (a := st'.slots) (s' := rd') rfl, hsl, buildFields_slotsFrom]
  unfold assemble
  have hnd : Res.collect (d.fields.zipIdx.map fun p => fieldValue d.name p.1 (valuesOf cs p.2))
      ≠ .diverge := by
    refine collect_ne_diverge _ ?_
    intro r hr
    obtain ⟨p, -, rfl⟩ := List.mem_map.mp hr
    unfold fieldValue
    split
    · simp
    · simp
    · split <;> simp
  revert hnd
  cases Res.collect (d.fields.zipIdx.map fun p => fieldValue d.name p.1 (valuesOf cs p.2)) with
  | ok vs => exact fun _ => ⟨_, _, rfl, rfl, ha⟩
  | err e => exact fun _ => ⟨_, rfl⟩
  | panic e => exact fun _ => ⟨_, rfl⟩
  | diverge => exact fun h => (h rfl).elim

end

theorem exposed_name (L : Lib) (env : Env) (x : Node) (p : Path) : (x.exposed L env p).name = x.name := by
  cases x with
  | text s => rfl
  | elem n as m ks => unfold Node.exposed; dsimp only; split <;> rfl

/-- The generated deserializers on an element that conforms once the elements inside scalars have been moved out. -/
theorem deser_exposed (L : Lib) (env : Env) : ∀ (n k : Nat) (x : Node) (p : Path),
    ConfN L env k (x.exposed L env p) p → x.afloat L env p → x.events.length + levelFuel k < n →
    ∀ (dep : Nat) (rest : List REv) (fin : Option Str) (rd : Rd), At dep (x.events ++ rest) fin rd →
      Runs (deser L env n p rd) (decodeAt L env k dep (x.exposed L env p) p) fun v b rd' =>
        b = v ∧ At (dep + 1 - opens (leftover env x p)) (leftover env x p ++ .endE x.name :: rest) fin rd' := by
  intro n
  induction n with
  | zero => intro k x p _ _ h; omega
  | succ n ih =>
    intro k x p hconf hfloat hlen dep rest fin rd hat
    cases x with
    | text s => rw [confN_eq] at hconf; simp only [Node.exposed, ConfWith] at hconf
    | elem own as m ks =>
      have hln : (Node.elem own as m ks).events.length = (Node.eventsL ks).length + 2 := by
        simp [Node.events]
      cases hu : env.unflat p with
      | none =>
        have hx : (Node.elem own as m ks).exposed L env p = .elem own as m ks := by
          unfold Node.exposed; dsimp only; rw [hu]
        rw [hx] at hconf ⊢
        exact deser_tree L env (n + 1) k _ p hconf hlen dep rest fin rd hat
      | some d =>
        obtain ⟨he, hff⟩ := unflat_struct hu
        have hx : (Node.elem own as m ks).exposed L env p = .elem own as m (exposedKids L env d ks) := by
          unfold Node.exposed; dsimp only; rw [hu]
        rw [hx] at hconf ⊢
        have hfl : (afloatKids L env d ks 1).isSome = true := hfloat d hu
        by_cases hns : dep = 0 → nsOk d.attrs own
        · have hrec : ∀ name as m kids q, (Node.elem name as m kids).events.length ≤ (Node.eventsL ks).length →
              ConfWith L env (flatConfN L env k) ((Node.elem name as m kids).exposed L env q) q →
              (Node.elem name as m kids).afloat L env q →
              ReadsAs 1 (deser L env n q) name (Node.elem name as m kids).events (leftover env (.elem name as m kids) q)
                (decodeWith L env (flatN L env k) ((Node.elem name as m kids).exposed L env q) q) := by
            intro name as' m' kids q hle hc hf dep' rest' fin' rd' hd ha
            have h1 := ih k (.elem name as' m' kids) q (by rw [confN_eq]; exact hc) hf (by omega) dep' rest' fin' rd' ha
            rw [decodeAt_eq L env k dep' _ q (by omega), decodeN_eq] at h1
            exact h1
          rw [confN_eq, ConfWith, he] at hconf
          obtain ⟨hplain, hname, hkids, -, hattr⟩ := hconf
          unfold deser
          rw [he]
          dsimp only
          obtain ⟨rd1, h1, a1⟩ := peek_at (show At dep (.start own as m :: (Node.eventsL ks ++ .endE own :: rest)) fin rd by
            simpa [Node.events] using hat)
          unfold structDeser
          rw [bind_ok h1, bind_get, a1.depth]
          rw [decodeAt_eq L env k dep _ p
            (by intro h0 d' h; rw [he] at h; cases h; exact hns h0), decodeN_eq, decodeWith, he]
          rw [leftover_struct he]
          refine structBody_exposed L env (flatN L env k) (flatConfN L env k) (deser L env n) n d hplain hff hname
            hkids hfl hrec ?_ (by omega) hns (by simpa [Node.events] using a1)
          intro f hf hatt q hq a ha hl s hs
          have hac := hattr f hf hatt q hq a ha hl s hs
          cases k with
          | zero => exact hac.elim
          | succ k =>
            obtain ⟨y, hdoc, hylen, hcy⟩ := hac
            cases y with
            | text s => rw [confN_eq, ConfWith] at hcy; exact hcy.elim
            | elem yn yas ym yks =>
              have h7 := flatN_text (env := env) (k := k) hdoc
              obtain ⟨post, hdoc⟩ := hdoc
              have hnew := at_new (L.parse (attrDoc q s))
              rw [skipped_eq_isMisc, show (L.parse (attrDoc q s)).evs.filter (fun e => !isMisc e)
                = content (L.parse (attrDoc q s)).evs from rfl, hdoc] at hnew
              have hr := deser_tree L env n k _ q hcy (by simp only [levelFuel] at hlen; omega) 0 post _ _ hnew
              obtain ⟨h5, h6⟩ := hr.doc
              simp only [decodeAt, if_true] at h5 h6
              rw [← h7] at h5 h6
              exact ⟨h5, h6⟩
        · -- wrong namespace
          have h0 : dep = 0 := by
            by_cases h : dep = 0
            · exact h
            · exact (hns fun h' => (h h').elim).elim
          subst h0
          have hnk : ¬ nsOk d.attrs own := fun h => hns fun _ => h
          have hnm : nsMatching d.attrs.namespaces d.attrs.pfx own.ns own.loc
              = .error (c!"bad namespace for " ++ own.loc ++ c!", found " ++ own.ns.getD []) := by
            unfold nsMatching
            cases hn : own.ns with
            | none => exact (hnk (by intro u hu; rw [hn] at hu; cases hu)).elim
            | some u =>
              dsimp only
              rw [if_neg]
              · rfl
              intro h
              rw [List.any_eq_true] at h
              obtain ⟨e, he', h2⟩ := h
              refine hnk ?_
              intro u' hu'
              rw [hn] at hu'
              cases hu'
              simp at h2
              exact ⟨e, he', by simp [h2.1], h2.2⟩
          unfold deser
          rw [he]
          dsimp only
          obtain ⟨rd1, h1, a1⟩ := peek_at (show At 0 (.start own as m :: (Node.eventsL ks ++ .endE own :: rest)) fin rd by
            simpa [Node.events] using hat)
          unfold structDeser
          rw [bind_ok h1, bind_get, a1.depth]
          unfold structBody
          have h2 : (M.ofExcept (nsMatching d.attrs.namespaces d.attrs.pfx own.ns own.loc) : D Unit) rd1
              = (.err (c!"bad namespace for " ++ own.loc ++ c!", found " ++ own.ns.getD []), rd1) := by
            rw [hnm]; rfl
          dsimp only [startInfo]
          rw [if_pos rfl, bind_err h2]
          unfold decodeAt decodeDocWith
          rw [if_pos rfl, he]
          dsimp only
          rw [if_neg (show ¬ nsOk d.attrs (Node.elem own as m (exposedKids L env d ks)).name from hnk)]
          exact ⟨rd1, rfl⟩

/-! ### Conforming elements are as they are -/

section
variable (L : Lib) (env : Env) (fc : Node → Path → Prop)

mutual
  theorem exposedKid_conf (d : StructDef) (x : Node) (h : ConfKid L env fc d x) :
      exposedKid L env d x = [x] ∧ ∀ c : Int, 1 ≤ c → ∃ c', c ≤ c' ∧ afloatKid L env d x c = some c' := by
    cases x with
    | text s => exact ⟨by rw [exposedKid], fun c _ => ⟨c, Int.le_refl c, by rw [afloatKid]⟩⟩
    | elem n as m ks =>
      rw [ConfKid] at h
      obtain ⟨hns, h⟩ := h
      have hpos : ∀ c : Int, 1 ≤ c → ¬ c ≤ 0 := fun c hc => by omega
      cases hf : d.fieldFor n with
      | none =>
        refine ⟨by rw [exposedKid, claimedTy_none hf], fun c hc => ⟨c + 1, by omega, ?_⟩⟩
        rw [afloatKid, if_neg (hpos c hc), claimedTy_none hf]
      | some i =>
        obtain ⟨f, hfi, -, -⟩ := fieldFor_some hf
        obtain ⟨h1, h2⟩ := h i f hf hfi
        have hcl := claimedTy_of hf hfi
        cases hty : f.ty.core with
        | simple t =>
          rw [hty] at hcl
          obtain ⟨hto, -⟩ := h1 t hty
          match ks, hto with
          | [], _ =>
            refine ⟨by rw [exposedKid, hcl]; dsimp only; rw [if_neg hns, exposedScalar], fun c hc => ⟨c, by omega, ?_⟩⟩
            rw [afloatKid, if_neg (hpos c hc), hcl]
            simp [afloatScalar]
          | [.text s], _ =>
            refine ⟨by rw [exposedKid, hcl]; dsimp only; rw [if_neg hns, exposedScalar]; simp, fun c hc => ?_⟩
            rw [afloatKid, if_neg (hpos c hc), hcl]
            dsimp only
            rw [afloatScalar]
            split
            · exact ⟨c + 1, by omega, by simp⟩
            · exact ⟨c, by omega, by simp [afloatKids]⟩
        | struct q =>
          rw [hty] at hcl
          obtain ⟨hcw, -⟩ := h2 q hty
          cases hu : env.unflat q with
          | none =>
            refine ⟨by rw [exposedKid, hcl]; dsimp only; rw [hu], fun c hc => ?_⟩
            rw [afloatKid, if_neg (hpos c hc), hcl]
            dsimp only
            rw [hu]
            refine ⟨_, ?_, rfl⟩
            split <;> omega
          | some d' =>
            have hk : ConfKids L env fc d' ks := by
              rw [ConfWith, (unflat_struct hu).1] at hcw
              exact hcw.2.2.1
            obtain ⟨h3, h4⟩ := exposedKids_conf d' ks hk
            refine ⟨by rw [exposedKid, hcl]; dsimp only; rw [hu]; dsimp only; rw [h3], fun c hc => ⟨c + 1, by omega, ?_⟩⟩
            obtain ⟨c', -, h5⟩ := h4 1 (Int.le_refl 1)
            rw [afloatKid, if_neg (hpos c hc), hcl]
            dsimp only
            rw [hu]
            dsimp only
            rw [h5]
            rfl
        | opt t =>
          rw [hty] at hcl
          refine ⟨by rw [exposedKid, hcl], fun c hc => ⟨c + 1, by omega, ?_⟩⟩
          rw [afloatKid, if_neg (hpos c hc), hcl]
        | vec t =>
          rw [hty] at hcl
          refine ⟨by rw [exposedKid, hcl], fun c hc => ⟨c + 1, by omega, ?_⟩⟩
          rw [afloatKid, if_neg (hpos c hc), hcl]
  theorem exposedKids_conf (d : StructDef) (ks : List Node) (h : ConfKids L env fc d ks) :
      exposedKids L env d ks = ks ∧ ∀ c : Int, 1 ≤ c → ∃ c', c ≤ c' ∧ afloatKids L env d ks c = some c' := by
    cases ks with
    | nil => exact ⟨by rw [exposedKids], fun c _ => ⟨c, Int.le_refl c, by rw [afloatKids]⟩⟩
    | cons k ks =>
      rw [ConfKids] at h
      obtain ⟨h1, h2⟩ := exposedKid_conf d k h.1
      obtain ⟨h3, h4⟩ := exposedKids_conf d ks h.2
      refine ⟨by rw [exposedKids, h1, h3]; rfl, fun c hc => ?_⟩
      obtain ⟨c1, h5, h6⟩ := h2 c hc
      obtain ⟨c2, h7, h8⟩ := h4 c1 (by omega)
      exact ⟨c2, by omega, by rw [afloatKids, h6]; exact h8⟩
end

theorem exposed_conf (x : Node) (p : Path) (h : ConfWith L env fc x p) :
    x.exposed L env p = x ∧ x.afloat L env p := by
  cases x with
  | text s => rw [ConfWith] at h; exact h.elim
  | elem n as m ks =>
    cases hu : env.unflat p with
    | none =>
      refine ⟨by unfold Node.exposed; dsimp only; rw [hu], ?_⟩
      intro d hd; rw [hu] at hd; cases hd
    | some d =>
      rw [ConfWith, (unflat_struct hu).1] at h
      obtain ⟨h1, h2⟩ := exposedKids_conf L env fc d ks h.2.2.1
      refine ⟨by unfold Node.exposed; dsimp only; rw [hu]; dsimp only; rw [h1], ?_⟩
      intro d' hd
      rw [hu] at hd
      cases hd
      obtain ⟨c', -, h3⟩ := h2 1 (Int.le_refl 1)
      simp [Node.content, h3]

end

/-! ### Moving elements out -/

section
variable (L : Lib) (env : Env)

mutual
  theorem afloatKids_shift (d : StructDef) (ks : List Node) (c c' e : Int) (he : 0 ≤ e)
      (h : afloatKids L env d ks c = some c') : afloatKids L env d ks (c + e) = some (c' + e) := by
    cases ks with
    | nil => rw [afloatKids] at h ⊢; cases h; rfl
    | cons k ks =>
      rw [afloatKids, Option.bind_eq_some_iff] at h
      obtain ⟨c1, h1, h2⟩ := h
      rw [afloatKids, afloatKid_shift d k c c1 e he h1]
      exact afloatKids_shift d ks c1 c' e he h2
  theorem afloatKid_shift (d : StructDef) (x : Node) (c c' e : Int) (he : 0 ≤ e)
      (h : afloatKid L env d x c = some c') : afloatKid L env d x (c + e) = some (c' + e) := by
    cases x with
    | text s => rw [afloatKid] at h ⊢; cases h; rfl
    | elem n as m ks =>
      rw [afloatKid] at h
      split at h
      · cases h
      rename_i hc
      rw [afloatKid, if_neg (by omega)]
      split at h
      · rename_i t hty
        rw [Option.map_eq_some_iff] at h
        obtain ⟨c1, h1, rfl⟩ := h
        have := afloatScalar_shift d t ks (c + 1) c1 e he h1
        rw [show c + e + 1 = c + 1 + e by omega, this]
        simp; omega
      · rename_i q hty
        cases hu : env.unflat q with
        | none =>
          rw [hu] at h
          simp only [Option.some.injEq] at h ⊢
          subst h
          split <;> omega
        | some d' =>
          rw [hu] at h
          dsimp only at h ⊢
          rw [Option.bind_eq_some_iff] at h
          obtain ⟨c1, h1, h2⟩ := h
          rw [h1]
          simp only [Option.bind_some, Option.some.injEq] at h2 ⊢
          omega
      · simp only [Option.some.injEq] at h ⊢; omega
  theorem afloatScalar_shift (d : StructDef) (t : STy) (ks : List Node) (c c' e : Int) (he : 0 ≤ e)
      (h : afloatScalar L env d t ks c = some c') : afloatScalar L env d t ks (c + e) = some (c' + e) := by
    match ks with
    | [] => rw [afloatScalar] at h ⊢; cases h; rfl
    | .elem n as m ks' :: more =>
      rw [afloatScalar, Option.bind_eq_some_iff] at h
      obtain ⟨c1, h1, h2⟩ := h
      rw [afloatScalar, afloatKid_shift d _ c c1 e he h1]
      exact afloatKids_shift d more c1 c' e he h2
    | .text s :: more =>
      rw [afloatScalar] at h ⊢
      split
      · rename_i hs
        rw [if_pos hs] at h
        split
        · rename_i hm
          rw [if_pos hm] at h
          simp only [Option.some.injEq] at h ⊢; omega
        · rename_i hm
          rw [if_neg hm] at h
          exact afloatAfter_shift d more c c' e he h
      · rename_i hs
        rw [if_neg hs] at h
        exact afloatKids_shift d more c c' e he h
  theorem afloatAfter_shift (d : StructDef) (ks : List Node) (c c' e : Int) (he : 0 ≤ e)
      (h : afloatAfter L env d ks c = some c') : afloatAfter L env d ks (c + e) = some (c' + e) := by
    match ks with
    | [] => rw [afloatAfter] at h ⊢; cases h; rfl
    | .text s :: more =>
      rw [afloatAfter] at h ⊢
      exact afloatKids_shift d more c c' e he h
    | .elem n as m ks' :: more =>
      rw [afloatAfter, Option.bind_eq_some_iff] at h
      obtain ⟨c1, h1, h2⟩ := h
      rw [afloatAfter, afloatKids_shift d ks' c c1 e he h1]
      have := afloatKids_shift d more (c1 - 1) c' e he h2
      rw [Option.bind_some, show c1 + e - 1 = c1 - 1 + e by omega]
      exact this
end

theorem exposedKids_append (d : StructDef) (a b : List Node) :
    exposedKids L env d (a ++ b) = exposedKids L env d a ++ exposedKids L env d b := by
  induction a with
  | nil => simp [exposedKids]
  | cons k a ih => simp [exposedKids, ih]

theorem afloatKids_append (d : StructDef) (a b : List Node) (c : Int) :
    afloatKids L env d (a ++ b) c = (afloatKids L env d a c).bind fun c' => afloatKids L env d b c' := by
  induction a generalizing c with
  | nil => simp [afloatKids]
  | cons k a ih =>
    simp only [List.cons_append, afloatKids, Option.bind_assoc, ih]

end

end Yaserde
