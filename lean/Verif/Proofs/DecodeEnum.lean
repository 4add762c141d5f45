import Verif.Proofs.DecodeStruct
/-
The enum deserializer on a conforming element.
-/

set_option autoImplicit false

namespace Yaserde

theorem findVariant_eq (d : EnumDef) (key : Str) : findVariant key d.variants = d.variantFor key := by
  unfold findVariant EnumDef.variantFor
  congr 1
  funext v
  rw [Bool.eq_iff_iff]
  rw [decide_eq_true_iff]
  simp only [VariantDef.named, Bool.and_eq_true, beq_iff_eq, Attrs.xmlElementName]
  cases hs : v.shape <;> simp

theorem ofExcept_setVariant (i : Nat) (t : FTy) (x : Val) (cur : Option Val) :
    (M.ofExcept (setVariant i t x cur) : D (Option Val)) = M.lift (variantAdd cur (some (i, t, x))) := by
  cases t with
  | vec t =>
    simp only [setVariant, variantAdd]
    cases cur with
    | none => rfl
    | some c =>
      match c with
      | .enum j [.vec vs] => dsimp only; split <;> rfl
      | .enum j [] => rfl
      | .enum j (x1 :: x2 :: xs) => cases x1 <;> rfl
      | .enum j [.str _] => rfl
      | .enum j [.bool _] => rfl
      | .enum j [.int _] => rfl
      | .enum j [.f32 _] => rfl
      | .enum j [.f64 _] => rfl
      | .enum j [.none] => rfl
      | .enum j [.some _] => rfl
      | .enum j [.struct _] => rfl
      | .enum j [.enum _ _] => rfl
      | .str _ => rfl
      | .bool _ => rfl
      | .int _ => rfl
      | .f32 _ => rfl
      | .f64 _ => rfl
      | .none => rfl
      | .some _ => rfl
      | .vec _ => rfl
      | .struct _ => rfl
  | _ => rfl

theorem variantAdd_ne_diverge (cur : Option Val) (c : Option (Nat × FTy × Val)) :
    variantAdd cur c ≠ .diverge := by
  unfold variantAdd
  split
  · simp
  · simp
  · split
    · simp
    · split <;> simp
    · simp
  · simp

theorem nsMatching_ok {a : Attrs} {n : Name} (h : nsOk a n) :
    nsMatching a.namespaces a.pfx n.ns n.loc = .ok () := by
  unfold nsMatching
  cases hn : n.ns with
  | none => rfl
  | some u =>
    obtain ⟨e, he, h1, h2⟩ := h u hn
    dsimp only
    rw [if_pos]
    rw [List.any_eq_true]
    exact ⟨e, he, by simp [h1, h2]⟩

/-- If the next event is text, it is not the name of a variant. -/
def QuietHead (d : EnumDef) (es : List REv) : Prop :=
  ∃ e es', es = e :: es' ∧ ∀ s, e = .chars s → d.variantFor s = none

section
variable (L : Lib) (rec : Path → D Val) (d : EnumDef) (named : Str) (dep : Nat)

/-- Own end tag. -/
theorem enumLoop_own_end {n : Nat} {cur : Option Val} {name : Name} {rest : List REv}
    {fin : Option Str} {rd : Rd} (hn : name.loc = named)
    (h : At (dep + 1) (.endE name :: rest) fin rd) :
    ∃ rd', enumLoop L rec d named dep (n + 1) cur rd = (.ok cur, rd') ∧
      At (dep + 1) (.endE name :: rest) fin rd' := by
  obtain ⟨rd1, h1, a1⟩ := peek_at h
  refine ⟨rd1, ?_, a1⟩
  have hstep : enumStep L rec d named dep cur rd = (.ok (cur, false), rd1) := by
    unfold enumStep
    rw [bind_ok h1]
    dsimp only
    rw [bind_get, if_pos ⟨hn, a1.depth⟩]
    rfl
  unfold enumLoop
  rw [bind_ok hstep]
  rfl

theorem enumLoop_end {n : Nat} {cur : Option Val} {name : Name} {rest : List REv}
    {fin : Option Str} {rd : Rd} {D' : Nat} (hD : D' ≠ dep)
    (h : At (D' + 1) (.endE name :: rest) fin rd) :
    ∃ rd', enumLoop L rec d named dep (n + 1) cur rd = enumLoop L rec d named dep n cur rd' ∧
      At D' rest fin rd' := by
  obtain ⟨rd1, h1, a1⟩ := peek_at h
  obtain ⟨rd2, h2, a2⟩ := next_end a1
  refine ⟨rd2, ?_, a2⟩
  have hstep : enumStep L rec d named dep cur rd = (.ok (cur, true), rd2) := by
    unfold enumStep
    rw [bind_ok h1]
    dsimp only
    rw [bind_get, if_neg (by rw [a1.depth]; omega), bind_ok (attempt_ok h2)]
    rfl
  conv => lhs; unfold enumLoop
  rw [bind_ok hstep]
  rfl

theorem enumLoop_text {n : Nat} {cur : Option Val} {s : Str} {rest : List REv}
    {fin : Option Str} {rd : Rd} {D' : Nat}
    (h : At D' (.chars s :: rest) fin rd) :
    ∃ rd', enumLoop L rec d named dep (n + 1) cur rd = enumLoop L rec d named dep n cur rd' ∧
      At D' rest fin rd' := by
  obtain ⟨rd1, h1, a1⟩ := peek_at h
  obtain ⟨rd2, h2, a2⟩ := next_chars a1
  refine ⟨rd2, ?_, a2⟩
  have hstep : enumStep L rec d named dep cur rd = (.ok (cur, true), rd2) := by
    unfold enumStep
    rw [bind_ok h1]
    dsimp only
    rw [bind_ok (attempt_ok h2)]
    rfl
  conv => lhs; unfold enumLoop
  rw [bind_ok hstep]
  rfl

/-- The look-ahead after a start tag, when it finds nothing. -/
theorem peekAfter {cur : Option Val} {es : List REv} {fin : Option Str} {rd : Rd} {D' : Nat}
    (hq : QuietHead d es) (h : At D' es fin rd) :
    ∃ rd', (peek >>= fun e' =>
          match e' with
          | .chars content => enumMatch L rec d content cur (M.pure (cur, true))
          | _ => M.pure (cur, true) : D (Option Val × Bool)) rd = (.ok (cur, true), rd') ∧
      At D' es fin rd' := by
  obtain ⟨e, es', rfl, hc⟩ := hq
  obtain ⟨rd1, h1, a1⟩ := peek_at h
  refine ⟨rd1, ?_, a1⟩
  rw [bind_ok h1]
  cases e with
  | chars s =>
    dsimp only
    unfold enumMatch
    rw [findVariant_eq, hc s rfl]
    rfl
  | _ => rfl

/-- A start tag, with no tag attribute configured. -/
theorem enumLoop_start {α γ : Type} {n : Nat} {cur : Option Val} {name : Name} {as : List Attr}
    {m : NsMap} {rest : List REv} {fin : Option Str} {rd : Rd} {D' : Nat} (htag : d.attrs.tag = none)
    (h : At D' (.start name as m :: rest) fin rd) {r : Res α} {g : α → Res γ}
    {Q : γ → Option Val → Rd → Prop}
    (harm : ∀ rd1, At D' (.start name as m :: rest) fin rd1 →
      Runs (enumMatch L rec d name.loc cur (M.attempt nextEvent >>= fun _ => M.pure (cur, true)) rd1) r
        fun a b rd' => b.2 = true ∧ ∃ D'' es, QuietHead d es ∧ At D'' es fin rd' ∧
          ∀ rd'', At D'' es fin rd'' → Runs (enumLoop L rec d named dep n b.1 rd'') (g a) Q) :
    Runs (enumLoop L rec d named dep (n + 1) cur rd) (r.bind g) Q := by
  obtain ⟨rd1, h1, a1⟩ := peek_at h
  have hstep : Runs (enumStep L rec d named dep cur rd) r fun a b rd' =>
      b.2 = true ∧ Runs (enumLoop L rec d named dep n b.1 rd') (g a) Q := by
    unfold enumStep
    rw [bind_ok h1]
    dsimp only
    have hk : (M.ofExcept (enumKey L d (.start name as m) name as) : D Str) rd1 = (.ok name.loc, rd1) := by
      unfold enumKey; rw [htag]; rfl
    rw [bind_ok hk, ← Res.bind_ok_right r]
    refine Runs.bind (harm rd1 a1) ?_
    rintro a ⟨cur', c⟩ rd' _ ⟨rfl, D'', es, hq, a2, hl⟩
    obtain ⟨rd2, h2, a3⟩ := peekAfter L rec d (cur := cur') hq a2
    refine ⟨(cur', true), rd2, ?_, rfl, hl rd2 a3⟩
    rw [if_pos rfl]
    exact h2
  conv => arg 1; unfold enumLoop
  refine Runs.bind hstep ?_
  rintro a ⟨cur', c⟩ s' _ ⟨rfl, hq⟩
  exact hq

/-- A start tag that names no variant. -/
theorem enumLoop_foreign_start {n : Nat} {cur : Option Val} {name : Name} {as : List Attr}
    {m : NsMap} {rest : List REv} {fin : Option Str} {rd : Rd} {D' : Nat} (htag : d.attrs.tag = none)
    (hv : d.variantFor name.loc = none) (hq : QuietHead d rest)
    (h : At D' (.start name as m :: rest) fin rd) :
    ∃ rd', enumLoop L rec d named dep (n + 1) cur rd = enumLoop L rec d named dep n cur rd' ∧
      At (D' + 1) rest fin rd' := by
  obtain ⟨rd1, h1, a1⟩ := peek_at h
  obtain ⟨rd2, h2, a2⟩ := next_start a1
  obtain ⟨rd3, h3, a3⟩ := peekAfter L rec d (cur := cur) hq a2
  refine ⟨rd3, ?_, a3⟩
  have hstep : enumStep L rec d named dep cur rd = (.ok (cur, true), rd3) := by
    unfold enumStep
    rw [bind_ok h1]
    dsimp only
    have hk : (M.ofExcept (enumKey L d (.start name as m) name as) : D Str) rd1 = (.ok name.loc, rd1) := by
      unfold enumKey; rw [htag]; rfl
    rw [bind_ok hk]
    have hm : enumMatch L rec d name.loc cur (M.attempt nextEvent >>= fun _ => M.pure (cur, true)) rd1
        = (.ok (cur, true), rd2) := by
      unfold enumMatch
      rw [findVariant_eq, hv]
      dsimp only
      rw [bind_ok (attempt_ok h2)]
      rfl
    rw [bind_ok hm]
    dsimp only
    rw [if_pos rfl]
    exact h3
  conv => lhs; unfold enumLoop
  rw [bind_ok hstep]
  rfl

/-- Nothing in these nodes is named like a variant, so the next text is not either. -/
theorem quietHead_foreign (ks : List Node) (hf : Node.foreignL d ks) (name : Name) (rest : List REv) :
    QuietHead d (Node.eventsL ks ++ .endE name :: rest) := by
  cases ks with
  | nil => exact ⟨_, _, rfl, by simp⟩
  | cons k ks =>
    rw [Node.foreignL] at hf
    cases k with
    | text s =>
      rw [Node.foreign] at hf
      exact ⟨.chars s, _, rfl, fun t ht => by cases ht; exact hf.1⟩
    | elem n as m kids => exact ⟨.start n as m, _, rfl, by simp⟩

mutual
  /-- Foreign content is passed over. -/
  theorem enumLoop_foreign (htag : d.attrs.tag = none) (x : Node) (hf : x.foreign d) {n : Nat}
      {cur : Option Val} {rest : List REv} {fin : Option Str} {rd : Rd} {D' : Nat} (hD : dep + 1 ≤ D')
      (h : At D' (x.events ++ rest) fin rd) :
      ∃ rd', enumLoop L rec d named dep (n + x.events.length) cur rd
          = enumLoop L rec d named dep n cur rd' ∧ At D' rest fin rd' := by
    cases x with
    | text s => exact enumLoop_text L rec d named dep h
    | elem name as m ks =>
      rw [Node.foreign] at hf
      have h' : At D' (.start name as m :: (Node.eventsL ks ++ .endE name :: rest)) fin rd := by
        simpa [Node.events] using h
      have hlen : n + (Node.elem name as m ks).events.length = (n + 1 + (Node.eventsL ks).length) + 1 := by
        simp [Node.events]; omega
      obtain ⟨rd1, h1, a1⟩ := enumLoop_foreign_start L rec d named dep (cur := cur)
        (n := n + 1 + (Node.eventsL ks).length) htag hf.1 (quietHead_foreign d ks hf.2 name rest) h'
      obtain ⟨rd2, h2, a2⟩ := enumLoop_foreignL htag ks hf.2 (n := n + 1) (cur := cur) (by omega) a1
      obtain ⟨rd3, h3, a3⟩ := enumLoop_end L rec d named dep (n := n) (cur := cur) (by omega) a2
      exact ⟨rd3, by rw [hlen, h1, h2, h3], a3⟩
  theorem enumLoop_foreignL (htag : d.attrs.tag = none) (ks : List Node) (hf : Node.foreignL d ks)
      {n : Nat} {cur : Option Val} {rest : List REv} {fin : Option Str} {rd : Rd} {D' : Nat}
      (hD : dep + 1 ≤ D') (h : At D' (Node.eventsL ks ++ rest) fin rd) :
      ∃ rd', enumLoop L rec d named dep (n + (Node.eventsL ks).length) cur rd
          = enumLoop L rec d named dep n cur rd' ∧ At D' rest fin rd' := by
    cases ks with
    | nil => exact ⟨rd, rfl, h⟩
    | cons k ks =>
      rw [Node.foreignL] at hf
      have hlen : n + (Node.eventsL (k :: ks)).length = (n + (Node.eventsL ks).length) + k.events.length := by
        simp [Node.eventsL]; omega
      obtain ⟨rd1, h1, a1⟩ := enumLoop_foreign htag k hf.1 (n := n + (Node.eventsL ks).length) (cur := cur)
        hD (by simpa [Node.eventsL] using h)
      obtain ⟨rd2, h2, a2⟩ := enumLoop_foreignL htag ks hf.2 (n := n) (cur := cur) hD a1
      exact ⟨rd2, by rw [hlen, h1, h2], a2⟩
end

/-- The payload of a scalar variant. -/
theorem variant_simple {t : STy} {name : Name} {as : List Attr} {m : NsMap} {ks : List Node}
    (hks : textOnly ks) {rest : List REv} {fin : Option Str} {rd : Rd} {D' : Nat}
    (h : At D' (.start name as m :: (Node.eventsL ks ++ .endE name :: rest)) fin rd) :
    Runs (readInnerValue (variantInner L t) rd)
      (match parseS L t (textContent ks) with
        | .ok v => Res.ok v
        | .error _ => .panic c!"called `Result::unwrap()` on an `Err` value")
      fun v b rd' => b = v ∧ At D' rest fin rd' := by
  obtain ⟨rd1, h1, a1⟩ := next_start h
  have key : ∀ (s : Str) (rd2 : Rd), variantInner L t rd1 = visitUnwrap L t s rd2 →
      At (D' + 1) (.endE name :: rest) fin rd2 →
      Runs (readInnerValue (variantInner L t) rd)
      (match parseS L t s with
        | .ok v => Res.ok v
        | .error _ => .panic c!"called `Result::unwrap()` on an `Err` value")
      fun v b rd' => b = v ∧ At D' rest fin rd' := by
    intro s rd2 hi a2
    obtain ⟨rd3, h3, a3⟩ := next_end a2
    cases hp : parseS L t s with
    | ok v =>
      have hi' : variantInner L t rd1 = (.ok v, rd2) := by rw [hi]; unfold visitUnwrap; rw [hp]; rfl
      exact ⟨v, rd3, (readInnerValue_iff ..).mpr ⟨name, as, m, rd1, rd2, h1, hi', h3⟩, rfl, a3⟩
    | error e =>
      have hi' : variantInner L t rd1
          = (.panic c!"called `Result::unwrap()` on an `Err` value", rd2) := by
        rw [hi]; unfold visitUnwrap; rw [hp]; rfl
      refine ⟨rd2, ?_⟩
      unfold readInnerValue
      rw [bind_ok (attempt_ok h1)]
      dsimp only
      rw [bind_panic hi']
  match ks, hks with
  | [], _ =>
    simp only [Node.eventsL, List.nil_append] at a1
    obtain ⟨rd2, h2, a2⟩ := peek_at a1
    refine key [] rd2 ?_ a2
    unfold variantInner
    rw [bind_ok h2]
  | [.text s], _ =>
    simp only [Node.eventsL, Node.events, List.append_nil, List.cons_append, List.nil_append] at a1
    obtain ⟨rd2, h2, a2⟩ := peek_at a1
    obtain ⟨rd3, h3, a3⟩ := next_chars a2
    refine key s rd3 ?_ a3
    unfold variantInner
    rw [bind_ok h2]
    dsimp only
    rw [bind_ok (attempt_ok h3)]

end

theorem variantFor_some {d : EnumDef} {key : Str} {i : Nat} (h : d.variantFor key = some i) :
    ∃ v, d.variants[i]? = some v ∧ v.named key := by
  unfold EnumDef.variantFor at h
  rw [List.findIdx?_eq_some_iff_getElem] at h
  obtain ⟨hlt, h1, -⟩ := h
  exact ⟨d.variants[i], List.getElem?_eq_getElem hlt, of_decide_eq_true h1⟩

section
variable (L : Lib) (env : Env) (flat : Node → Path → Res Val) (fc : Node → Path → Prop)

theorem quietHead_conf (d : EnumDef) (ks : List Node) (hc : ConfVariants L env fc d ks) (name : Name)
    (rest : List REv) : QuietHead d (Node.eventsL ks ++ .endE name :: rest) := by
  cases ks with
  | nil => exact ⟨_, _, rfl, by simp⟩
  | cons k ks =>
    rw [ConfVariants] at hc
    cases k with
    | text s =>
      rw [ConfVariant] at hc
      exact ⟨.chars s, _, rfl, fun t ht => by cases ht; exact hc.1⟩
    | elem n as m kids => exact ⟨.start n as m, _, rfl, by simp⟩

/-- The loop over the children of the enum's element. -/
theorem enumLoop_kids (rec : Path → D Val) (d : EnumDef) (htag : d.attrs.tag = none) (own : Name)
    (dep : Nat) (rest : List REv) (fin : Option Str) :
    ∀ (ks : List Node) (cur : Option Val) (n : Nat) (rd : Rd),
      ConfVariants L env fc d ks →
      (∀ k ∈ ks, ∀ name as m kids q, k = .elem name as m kids → ConfWith L env fc k q →
        ReadsAs 1 (rec q) name k.events (leftover env k q) (decodeWith L env flat k q)) →
      (Node.eventsL ks).length < n →
      At (dep + 1) (Node.eventsL ks ++ .endE own :: rest) fin rd →
      Runs (enumLoop L rec d own.loc dep n cur rd)
        (variantKids L d (ks.zip (decodeL L env flat ks)) cur) fun r b rd' =>
          b = r ∧ At (dep + 1) (.endE own :: rest) fin rd' := by
  intro ks
  induction ks with
  | nil =>
    intro cur n rd _ _ hn hat
    obtain ⟨n, rfl⟩ : ∃ k, n = k + 1 := ⟨n - 1, by omega⟩
    obtain ⟨rd', h1, a1⟩ := enumLoop_own_end L rec d own.loc dep (n := n) (cur := cur) rfl hat
    exact ⟨cur, rd', h1, rfl, a1⟩
  | cons k ks ih =>
    intro cur n rd hconf hrec hn hat
    have hlen : (Node.eventsL (k :: ks)).length = k.events.length + (Node.eventsL ks).length := by
      simp [Node.eventsL]
    rw [ConfVariants] at hconf
    obtain ⟨hck, hcks⟩ := hconf
    have ih' := fun cur n rd => ih cur n rd hcks (fun k' hk' => hrec k' (List.mem_cons_of_mem _ hk'))
    simp only [decodeL, List.zip_cons_cons, variantKids]
    cases k with
    | text s =>
      obtain ⟨n, rfl⟩ : ∃ k, n = k + 1 := ⟨n - 1, by omega⟩
      have hat' : At (dep + 1) (.chars s :: (Node.eventsL ks ++ .endE own :: rest)) fin rd := by
        simpa [Node.eventsL, Node.events] using hat
      obtain ⟨rd1, h1, a1⟩ := enumLoop_text L rec d own.loc dep (n := n) (cur := cur) hat'
      rw [h1]
      exact ih' cur n rd1 (by simp [Node.events] at hlen; omega) a1
    | elem name as m kids =>
      have hkl : (Node.elem name as m kids).events.length = (Node.eventsL kids).length + 2 := by
        simp [Node.events]
      rw [ConfVariant] at hck
      rcases hck with hfor | ⟨i, v, t, hvf, hvi, hsh, hpay⟩
      · -- foreign element
        have hv : d.variantFor name.loc = none := by rw [Node.foreign] at hfor; exact hfor.1
        simp only [variantKid, hv, Res.bind_ok, variantAdd]
        obtain ⟨n', rfl⟩ : ∃ k, n = k + (Node.elem name as m kids).events.length := 
          ⟨n - (Node.elem name as m kids).events.length, by omega⟩
        obtain ⟨rd1, h1, a1⟩ := enumLoop_foreign L rec d own.loc dep htag _ hfor (D' := dep + 1) (n := n') (cur := cur)
          (rest := Node.eventsL ks ++ .endE own :: rest) (by omega) (by simpa [Node.eventsL] using hat)
        rw [h1]
        exact ih' cur n' rd1 (by omega) a1
      · -- a variant
        obtain ⟨n, rfl⟩ : ∃ k, n = k + 1 := ⟨n - 1, by omega⟩
        rw [eventsL_elem_cons] at hat
        obtain ⟨vi, va, vs⟩ := v
        simp only at hsh
        subst hsh
        have hmatch : ∀ dflt, enumMatch L rec d name.loc cur dflt = variantArm L rec i ⟨vi, va, .newtype t⟩ cur := by
          intro dflt
          unfold enumMatch
          rw [findVariant_eq, hvf]
          dsimp only
          rw [hvi]
        rw [show (variantKid L d (decodeWith L env flat (Node.elem name as m kids)) (Node.elem name as m kids)).bind
            (fun c => (variantAdd cur c).bind fun cur' =>
              variantKids L d (ks.zip (decodeL L env flat ks)) cur') =
            ((variantKid L d (decodeWith L env flat (Node.elem name as m kids)) (Node.elem name as m kids)).bind
            (fun c => variantAdd cur c)).bind fun cur' =>
              variantKids L d (ks.zip (decodeL L env flat ks)) cur' from (Res.bind_assoc ..).symm]
        refine enumLoop_start L rec d own.loc dep htag hat ?_
        intro rd1 a1
        rw [hmatch]
        have hqh := quietHead_conf L env fc d ks hcks own rest
        rcases hpay with ⟨s, hts, hto⟩ | ⟨q, htq, hcq⟩
        · simp only [variantKid, hvf, hvi, hts]
          unfold variantArm
          dsimp only
          rw [hts]
          dsimp only
          have hr := variant_simple L (t := s) hto a1
          cases hp : parseS L s (textContent kids) with
          | error e =>
            rw [hp] at hr
            obtain ⟨rd2, h2⟩ := hr
            refine ⟨rd2, ?_⟩
            have : M.attempt (readInnerValue (variantInner L s)) rd1
                = (.panic c!"called `Result::unwrap()` on an `Err` value", rd2) := by
              unfold M.attempt; rw [h2]
            rw [bind_panic this]
          | ok v =>
            rw [hp] at hr
            obtain ⟨b, rd2, h2, rfl, a2⟩ := hr
            rw [bind_ok (attempt_ok h2)]
            dsimp only
            simp only [Res.bind_ok]
            rw [ofExcept_setVariant]
            have hnd := variantAdd_ne_diverge cur (some (i, t, b))
            revert hnd
            cases variantAdd cur (some (i, t, b)) with
            | ok cur' =>
              intro _
              exact ⟨(cur', true), rd2, rfl, rfl, _, _, hqh, a2, fun rd3 a3 => ih' cur' n rd3 (by omega) a3⟩
            | err e => exact fun _ => ⟨rd2, rfl⟩
            | panic e => exact fun _ => ⟨rd2, rfl⟩
            | diverge => exact fun h => (h rfl).elim
        · simp only [variantKid, hvf, hvi, htq]
          unfold variantArm
          dsimp only
          rw [htq]
          dsimp only
          have hreads := hrec _ (List.mem_cons_self ..) name as m kids q rfl hcq (dep + 1)
            (Node.eventsL ks ++ .endE own :: rest) fin rd1 (by omega) (by simpa [Node.events] using a1)
          rw [Res.bind_assoc]
          refine Runs.bind hreads ?_
          rintro v b rd2 - ⟨rfl, a2⟩
          simp only [Res.bind_ok]
          rw [ofExcept_setVariant]
          have hnd := variantAdd_ne_diverge cur (some (i, t, b))
          revert hnd
          cases variantAdd cur (some (i, t, b)) with
          | ok cur' =>
            intro _
            rw [bind_lift_ok]
            have hgo : ∀ rd3, At (dep + 1 + 1) (.endE name :: (Node.eventsL ks ++ .endE own :: rest)) fin rd3 →
                Runs (enumLoop L rec d own.loc dep n cur' rd3)
                  (variantKids L d (ks.zip (decodeL L env flat ks)) cur') fun r b rd' =>
                    b = r ∧ At (dep + 1) (.endE own :: rest) fin rd' := by
              intro rd3 a4
              obtain ⟨n, rfl⟩ : ∃ k, n = k + 1 := ⟨n - 1, by omega⟩
              obtain ⟨rd5, h5, a5⟩ := enumLoop_end L rec d own.loc dep (n := n) (cur := cur') (by omega) a4
              rw [h5]
              exact ih' cur' n rd5 (by omega) a5
            rcases leftover_cases env (.elem name as m kids) q with hl | ⟨txt, hl⟩ | ⟨n1, as1, m1, hl⟩
            · rw [hl] at a2
              obtain ⟨rd3, h3, a3⟩ := next_end (by simpa [opens] using a2)
              rw [bind_ok (attempt_ok h3)]
              exact ⟨(cur', true), rd3, rfl, rfl, _, _, hqh, a3, fun rd4 a4 => ih' cur' n rd4 (by omega) a4⟩
            · rw [hl] at a2
              obtain ⟨rd3, h3, a3⟩ := next_chars (by simpa [opens] using a2)
              rw [bind_ok (attempt_ok h3)]
              exact ⟨(cur', true), rd3, rfl, rfl, dep + 1 + 1, _, ⟨_, _, rfl, by simp⟩, a3, fun rd4 a4 => hgo rd4 a4⟩
            · rw [hl] at a2
              obtain ⟨rd3, h3, a3⟩ := next_start (by simpa [opens] using a2)
              rw [bind_ok (attempt_ok h3)]
              exact ⟨(cur', true), rd3, rfl, rfl, dep + 1 + 1, _, ⟨_, _, rfl, by simp⟩, a3, fun rd4 a4 => hgo rd4 a4⟩
          | err e => exact fun _ => ⟨rd2, rfl⟩
          | panic e => exact fun _ => ⟨rd2, rfl⟩
          | diverge => exact fun h => (h rfl).elim

theorem variantKids_ne_diverge_of {α : Type} {x : Res (Option Val) × Rd} {r : Res α}
    {Q : α → Option Val → Rd → Prop} (h : Runs x r Q) : r ≠ .diverge := by
  intro hr; rw [hr] at h; exact h

/-- The enum deserializer on a conforming element whose start tag plays no role. -/
theorem enumBody_untagged (rec : Path → D Val) (fuel : Nat) (d : EnumDef) {own : Name} {as : List Attr}
    {m : NsMap} {ks : List Node} (htag : d.attrs.tag = none) (hns : nsOk d.attrs own)
    (hname : d.variantFor own.loc = none)
    (hconf : (∃ i v, unitByText d ks = some i ∧ d.variants[i]? = some v ∧ v.shape = .unit) ∨
          ConfVariants L env fc d ks)
    (hrec : ∀ k ∈ ks, ∀ name as m kids q, k = .elem name as m kids → ConfWith L env fc k q →
        ReadsAs 1 (rec q) name k.events (leftover env k q) (decodeWith L env flat k q))
    (hfuel : (Node.eventsL ks).length + 1 < fuel)
    {dep : Nat} {rest : List REv} {fin : Option Str} {rd : Rd}
    (hat : At dep ((Node.elem own as m ks).events ++ rest) fin rd) :
    Runs (enumBody L rec fuel d (own.loc, own.ns) dep rd)
      (decodeEnum L d own as ks (decodeL L env flat ks)) fun v b rd' =>
        b = v ∧ At (dep + 1)
          ((match unitByText d ks with | some _ => Node.eventsL ks | none => []) ++ .endE own :: rest) fin rd' := by
  have hof : d.variantOf own as = none := by simp [EnumDef.variantOf, EnumDef.keyOf, htag, hname]
  have hat' : At dep (.start own as m :: (Node.eventsL ks ++ .endE own :: rest)) fin rd := by
    simpa [Node.events] using hat
  unfold enumBody
  have h0 : (M.ofExcept (nsMatching d.attrs.namespaces d.attrs.pfx own.ns own.loc) : D Unit) rd
      = (.ok (), rd) := by rw [nsMatching_ok hns]; rfl
  rw [bind_ok h0]
  obtain ⟨n, rfl⟩ : ∃ k, fuel = k + 1 := ⟨fuel - 1, by omega⟩
  dsimp only
  unfold decodeEnum
  rw [hof]
  rcases hconf with ⟨i, v, hu, hvi, hunit⟩ | hconf
  · rw [hu]
    dsimp only
    -- a unit variant named by the text
    obtain ⟨s, rfl, hs⟩ : ∃ s, ks = [.text s] ∧ d.variantFor s = some i := by
      unfold unitByText at hu
      split at hu
      · exact ⟨_, rfl, hu⟩
      · cases hu
    simp only [Node.eventsL, Node.events, List.append_nil, List.cons_append, List.nil_append] at hat' ⊢
    obtain ⟨rd1, h1, a1⟩ := peek_at hat'
    obtain ⟨rd2, h2, a2⟩ := next_start a1
    obtain ⟨rd3, h3, a3⟩ := peek_at a2
    have hstep : enumStep L rec d own.loc dep none rd = (.ok (some (.enum i []), false), rd3) := by
      unfold enumStep
      rw [bind_ok h1]
      dsimp only
      have hk : (M.ofExcept (enumKey L d (.start own as m) own as) : D Str) rd1 = (.ok own.loc, rd1) := by
        unfold enumKey; rw [htag]; rfl
      rw [bind_ok hk]
      have hm : enumMatch L rec d own.loc none (M.attempt nextEvent >>= fun _ => M.pure (none, true)) rd1
          = (.ok (none, true), rd2) := by
        unfold enumMatch
        rw [findVariant_eq, hname]
        dsimp only
        rw [bind_ok (attempt_ok h2)]
        rfl
      rw [bind_ok hm]
      dsimp only
      rw [if_pos rfl, bind_ok h3]
      dsimp only
      unfold enumMatch
      rw [findVariant_eq, hs]
      dsimp only
      rw [hvi]
      dsimp only
      unfold variantArm
      rw [hunit]
      rfl
    have hl : enumLoop L rec d own.loc dep (n + 1) none rd = (.ok (some (.enum i [])), rd3) := by
      unfold enumLoop
      rw [bind_ok hstep]
      rfl
    rw [bind_ok hl]
    exact ⟨_, rd3, rfl, rfl, a3⟩
  · have hun : unitByText d ks = none := by
      unfold unitByText
      split
      · rw [ConfVariants, ConfVariant] at hconf; exact hconf.1
      · rfl
    rw [hun]
    dsimp only
    obtain ⟨rd1, h1, a1⟩ := enumLoop_foreign_start L rec d own.loc dep (n := n) (cur := none) htag hname
      (quietHead_conf L env fc d ks hconf own rest) hat'
    have hk := enumLoop_kids L env flat fc rec d htag own dep rest fin ks none n rd1 hconf hrec (by omega) a1
    rw [← h1] at hk
    refine Runs.bind hk ?_
    rintro r b rd2 - ⟨rfl, a2⟩
    exact ⟨_, rd2, rfl, rfl, by simpa using a2⟩

/-- The key found on a start tag. -/
theorem enumKey_eq (d : EnumDef) (e : REv) (n : Name) (as : List Attr) {key : Str} (h : d.keyOf n as = some key) :
    enumKey L d e n as = .ok key := by
  unfold EnumDef.keyOf at h
  unfold enumKey
  cases ht : d.attrs.tag with
  | none => rw [ht] at h; simpa using h
  | some t =>
    rw [ht] at h
    dsimp only at h ⊢
    have hf : (as.find? fun a => a.name.loc == t) = as.find? fun a => decide (a.name.loc = t) := by
      congr 1
      funext a
      rw [Bool.eq_iff_iff]
      simp
    rw [hf]
    cases hc : as.find? (fun a => decide (a.name.loc = t)) with
    | none => rw [hc] at h; cases h
    | some a => rw [hc] at h; simpa using h

/-- The enum deserializer on a conforming element. -/
theorem enumBody_tree (rec : Path → D Val) (fuel : Nat) (d : EnumDef) {own : Name} {as : List Attr}
    {m : NsMap} {ks : List Node} (hns : nsOk d.attrs own)
    (hconf : (d.attrs.tag = none ∧ d.variantFor own.loc = none ∧
            ((∃ i v, unitByText d ks = some i ∧ d.variants[i]? = some v ∧ v.shape = .unit) ∨
              ConfVariants L env fc d ks)) ∨
          (ks = [] ∧ ∃ key, d.keyOf own as = some key ∧
            ∀ i v, d.variantFor key = some i → d.variants[i]? = some v → v.shape = .unit))
    (hrec : ∀ k ∈ ks, ∀ name as m kids q, k = .elem name as m kids → ConfWith L env fc k q →
        ReadsAs 1 (rec q) name k.events (leftover env k q) (decodeWith L env flat k q))
    (hfuel : (Node.eventsL ks).length + 1 < fuel)
    {dep : Nat} {rest : List REv} {fin : Option Str} {rd : Rd} {p : Path} (hp : env p = some (.enum d))
    (hat : At dep ((Node.elem own as m ks).events ++ rest) fin rd) :
    Runs (enumBody L rec fuel d (own.loc, own.ns) dep rd)
      (decodeEnum L d own as ks (decodeL L env flat ks)) fun v b rd' =>
        b = v ∧ At (dep + 1 - opens (leftover env (.elem own as m ks) p))
          (leftover env (.elem own as m ks) p ++ .endE own :: rest) fin rd' := by
  rcases hconf with ⟨htag, hname, hconf⟩ | ⟨rfl, key, hkey, hunit⟩
  · have hof : d.variantOf own as = none := by simp [EnumDef.variantOf, EnumDef.keyOf, htag, hname]
    refine (enumBody_untagged L env flat fc rec fuel d htag hns hname hconf hrec hfuel hat).mono ?_
    rintro v b rd' - ⟨rfl, h⟩
    refine ⟨rfl, ?_⟩
    have hl : leftover env (.elem own as m ks) p
        = match unitByText d ks with | some _ => Node.eventsL ks | none => [] := by
      unfold leftover
      rw [hp]
      simp only [hof]
      cases unitByText d ks <;> rfl
    have ho : opens (leftover env (.elem own as m ks) p) = 0 := by
      rw [hl]
      cases hu : unitByText d ks with
      | none => rfl
      | some i =>
        unfold unitByText at hu
        split at hu
        · simp [Node.eventsL, Node.events, opens]
        · cases hu
    rw [ho, hl]
    exact h
  · have hat' : At dep (.start own as m :: .endE own :: rest) fin rd := by
      simpa [Node.events, Node.eventsL] using hat
    unfold enumBody
    have h0 : (M.ofExcept (nsMatching d.attrs.namespaces d.attrs.pfx own.ns own.loc) : D Unit) rd
        = (.ok (), rd) := by rw [nsMatching_ok hns]; rfl
    rw [bind_ok h0]
    obtain ⟨n, rfl⟩ : ∃ k, fuel = k + 1 + 1 := ⟨fuel - 2, by omega⟩
    dsimp only
    obtain ⟨rd1, h1, a1⟩ := peek_at hat'
    have hk : (M.ofExcept (enumKey L d (.start own as m) own as) : D Str) rd1 = (.ok key, rd1) := by
      rw [enumKey_eq L d _ own as hkey]; rfl
    cases hvf : d.variantFor key with
    | some i =>
      have hof : d.variantOf own as = some i := by simp [EnumDef.variantOf, hkey, hvf]
      obtain ⟨v, hvi, -⟩ := variantFor_some hvf
      have hs := hunit i v hvf hvi
      have hstep : enumStep L rec d own.loc dep none rd = (.ok (some (.enum i []), false), rd1) := by
        unfold enumStep
        rw [bind_ok h1]
        dsimp only
        rw [bind_ok hk]
        have hm : enumMatch L rec d key none (M.attempt nextEvent >>= fun _ => M.pure (none, true)) rd1
            = (.ok (some (.enum i []), false), rd1) := by
          unfold enumMatch
          rw [findVariant_eq, hvf]
          dsimp only
          rw [hvi]
          dsimp only
          unfold variantArm
          rw [hs]
          rfl
        rw [bind_ok hm]
        rfl
      have hl : enumLoop L rec d own.loc dep (n + 1 + 1) none rd = (.ok (some (.enum i [])), rd1) := by
        unfold enumLoop
        rw [bind_ok hstep]
        rfl
      rw [bind_ok hl]
      unfold decodeEnum
      rw [hof]
      refine ⟨_, rd1, rfl, rfl, ?_⟩
      have hlo : leftover env (.elem own as m []) p = [.start own as m] := by
        unfold leftover
        rw [hp]
        simp only [hof]
      rw [hlo]
      simpa [opens] using a1
    | none =>
      have hof : d.variantOf own as = none := by simp [EnumDef.variantOf, hkey, hvf]
      obtain ⟨rd2, h2, a2⟩ := next_start a1
      obtain ⟨rd3, h3, a3⟩ := peekAfter L rec d (cur := none) (es := .endE own :: rest) ⟨_, _, rfl, by simp⟩ a2
      have hstep : enumStep L rec d own.loc dep none rd = (.ok (none, true), rd3) := by
        unfold enumStep
        rw [bind_ok h1]
        dsimp only
        rw [bind_ok hk]
        have hm : enumMatch L rec d key none (M.attempt nextEvent >>= fun _ => M.pure (none, true)) rd1
            = (.ok (none, true), rd2) := by
          unfold enumMatch
          rw [findVariant_eq, hvf]
          dsimp only
          rw [bind_ok (attempt_ok h2)]
          rfl
        rw [bind_ok hm]
        dsimp only
        rw [if_pos rfl]
        exact h3
      obtain ⟨rd4, h4, a4⟩ := enumLoop_own_end L rec d own.loc dep (n := n) (cur := none) rfl a3
      have hl : enumLoop L rec d own.loc dep (n + 1 + 1) none rd = (.ok none, rd4) := by
        rw [← h4]
        conv => lhs; unfold enumLoop
        rw [bind_ok hstep]
        rfl
      rw [bind_ok hl]
      unfold decodeEnum
      rw [hof]
      refine ⟨_, rd4, rfl, rfl, ?_⟩
      have hlo : leftover env (.elem own as m []) p = [] := by
        unfold leftover
        rw [hp]
        simp only [hof]
        rfl
      rw [hlo]
      simpa [opens] using a4

end

end Yaserde
