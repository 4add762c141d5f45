import Verif.Spec.Panic
import Verif.Proofs.DecodeEnum
import Verif.Props.Total
import Verif.Props.Spell
/-
Property C22: exactly which panics there are, and which programs have them.
-/

set_option autoImplicit false
set_option maxRecDepth 100000

namespace Yaserde

/-- **C22**, for every program and every text: the only panic there is comes from `unwrap` on the text of a scalar in a
one-field variant, and only if the type read can contain such a variant. -/
theorem C22_panic_only_partial (L : Lib) (hL : ∀ s, WellFormed (L.parse s)) (env : Env) (p : Path)
    (hc : ∀ q, Reaches env p q → Checked env q) (s : Str) (m : Str) (h : Returns L env p s (.panic m)) :
    m = c!"called `Result::unwrap()` on an `Err` value" ∧ ∃ q, Reaches env p q ∧ Unwraps L env q := by
  obtain ⟨-, n, hn⟩ := h
  have he : Closed L env (Reaches env p)
      (fun m => m = c!"called `Result::unwrap()` on an `Err` value" ∧ ∃ q, Reaches env p q ∧ Unwraps L env q) :=
    { known := fun q hq => (hc q hq).declared
      fields := fun q d hq hd f hf => by
        rcases (hc q hq).fields d hd f hf with h | ⟨r, hr⟩
        · exact .inl h
        · exact .inr ⟨r, hr, hq.step (.field hd hf hr)⟩
      flats := fun q d hq hd => (hc q hq).flats d hd
      variants := fun q d hq hd v hv t ht => by
        refine ⟨fun s x e hs hx => ⟨rfl, q, hq, d, v, t, s, x, e, hd, hv, ht, hs, hx⟩, ?_⟩
        rcases (hc q hq).variants d hd v hv t ht with h | ⟨r, hr⟩
        · exact .inl h
        · exact .inr ⟨r, hr, hq.step (.variant hd hv ht hr)⟩ }
  have h := NP.closed L hL env he n p .refl _ (Good.new (hL s))
  unfold NPat at h
  unfold deFromStr fromStr at hn
  split at h <;> rename_i heq <;> rw [heq] at hn <;> cases hn
  exact h

/-- No panic on any text if no such variant can be reached. -/
theorem C22_no_unwrap_partial (L : Lib) (hL : ∀ s, WellFormed (L.parse s)) (env : Env) (p : Path)
    (hc : ∀ q, Reaches env p q → Checked env q) (hu : ∀ q, Reaches env p q → ¬ Unwraps L env q) (s : Str) (m : Str) :
    ¬ Returns L env p s (.panic m) := by
  intro h
  obtain ⟨-, q, hq, h⟩ := C22_panic_only_partial L hL env p hc s m h
  exact hu q hq h

/-- The other direction: an element that names such a variant, empty or with a text that is not the text of a scalar, panics. -/
theorem C22_unwrap_panics (L : Lib) (env : Env) {p : Path} {d : EnumDef} (hp : env p = some (.enum d)) {s : Str} {n : Name} {as : List Attr}
    {m : NsMap} {ks : List Node} (hdoc : IsDoc (L.parse s) (.elem n as m ks)) (hns : nsOk d.attrs n) {key : Str} (hkey : d.keyOf n as = some key)
    {i : Nat} {v : VariantDef} (hi : d.variantFor key = some i) (hv : d.variants[i]? = some v) {t : FTy} (ht : v.shape = .newtype t)
    {ty : STy} (hty : t.core = .simple ty) {x e : Str} (hx : parseS L ty x = .error e) (hks : ks = [.text x] ∨ (ks = [] ∧ x = [])) :
    Returns L env p s (.panic c!"called `Result::unwrap()` on an `Err` value") := by
  obtain ⟨post, hpost⟩ := hdoc
  have hat : At 0 (.start n as m :: (Node.eventsL ks ++ .endE n :: post)) (L.parse s).fin (Rd.new (L.parse s)) := by
    have := at_new' (L.parse s)
    rw [hpost] at this
    simpa [Node.events] using this
  obtain ⟨rd1, h1, a1⟩ := peek_at hat
  obtain ⟨rd2, h2, a2⟩ := peek_at a1
  obtain ⟨rd3, h3, a3⟩ := next_start a2
  have hu : ∀ rd, visitUnwrap L ty x rd = (.panic c!"called `Result::unwrap()` on an `Err` value", rd) := by
    intro rd
    unfold visitUnwrap
    rw [hx]
    rfl
  have hin : ∃ rd4, variantInner L ty rd3 = (.panic c!"called `Result::unwrap()` on an `Err` value", rd4) := by
    unfold variantInner
    rcases hks with rfl | ⟨rfl, rfl⟩
    · obtain ⟨rd4, h4, a4⟩ := peek_at (e := .chars x) a3
      obtain ⟨rd5, h5, -⟩ := next_chars a4
      refine ⟨rd5, ?_⟩
      rw [bind_ok h4]
      dsimp only
      rw [bind_ok (attempt_ok h5)]
      exact hu _
    · obtain ⟨rd4, h4, a4⟩ := peek_at (e := .endE n) a3
      refine ⟨rd4, ?_⟩
      rw [bind_ok h4]
      exact hu _
  obtain ⟨rd4, h4⟩ := hin
  have harm : ∀ rec, variantArm L rec i v none rd2 = (.panic c!"called `Result::unwrap()` on an `Err` value", rd4) := by
    intro rec
    unfold variantArm
    rw [ht]
    dsimp only
    rw [hty]
    dsimp only
    refine bind_panic ?_
    have hr : readInnerValue (variantInner L ty) rd2 = (.panic c!"called `Result::unwrap()` on an `Err` value", rd4) := by
      unfold readInnerValue
      rw [bind_ok (attempt_ok h3)]
      dsimp only
      exact bind_panic h4
    unfold M.attempt
    rw [hr]
  refine ⟨by simp, 2, ?_⟩
  have hd : (deser L env 2 p (Rd.new (L.parse s))) = (.panic c!"called `Result::unwrap()` on an `Err` value", rd4) := by
    unfold deser
    rw [hp]
    dsimp only
    unfold enumDeser
    rw [bind_ok h1, bind_get]
    unfold enumBody
    have h0 : (M.ofExcept (nsMatching d.attrs.namespaces d.attrs.pfx n.ns n.loc) : D Unit) rd1 = (.ok (), rd1) := by
      rw [nsMatching_ok hns]; rfl
    dsimp only [startInfo]
    rw [bind_ok h0]
    refine bind_panic ?_
    unfold enumLoop
    refine bind_panic ?_
    unfold enumStep
    rw [bind_ok h2]
    dsimp only
    have hk : (M.ofExcept (enumKey L d (.start n as m) n as) : D Str) rd2 = (.ok key, rd2) := by
      rw [enumKey_eq L d _ n as hkey]; rfl
    rw [bind_ok hk]
    refine bind_panic ?_
    unfold enumMatch
    rw [findVariant_eq, hi]
    dsimp only
    rw [hv]
    exact harm _
  unfold deFromStr fromStr
  rw [hd]

/-- The simplest text. -/
theorem doc_empty {V : Str} (h : isNCName V = true) : Spell.Doc (.elem ⟨V, none, none⟩ [] [] []) (c!"<" ++ V ++ c!"/>") := by
  obtain ⟨h1, -, -, h2⟩ := ncName_read h
  have := Spell.Doc.mk (x := .elem ⟨V, none, none⟩ [] [] []) (a := []) (s := c!"<" ++ V ++ [] ++ [] ++ c!"/>") (b := []) .nil
    (.empty (sc := []) .nil (by intro c hc; cases hc)
      { name := h1, nodup := by simp, scope := rfl, elem := .bare h2, attrs := .nil }) .nil
  simpa using this

/-- **C22 is false of exactly these enums.**  An enum without tag attribute, whose variants have distinct XML names and carry
nothing or scalars: there is a text that panics if and only if there is a variant with a scalar not read from the empty text. -/
theorem C22_enum_iff (L : Lib) (hL : L.parse = XmlText.parse) (env : Env) {p : Path} {d : EnumDef} (hp : env p = some (.enum d))
    (htag : d.attrs.tag = none) (hnames : ∀ v ∈ d.variants, isNCName (v.attrs.xmlElementName v.ident) = true)
    (hdist : (d.variants.map fun v => v.attrs.xmlElementName v.ident).Nodup)
    (hsc : ∀ v ∈ d.variants, ∀ t, v.shape = .newtype t → ∃ s, t.core = .simple s)
    (hstrict : ∀ s x e, parseS L s x = .error e → ∃ e', parseS L s [] = .error e') :
    (∃ s m, Returns L env p s (.panic m)) ↔
      ∃ v ∈ d.variants, ∃ t s e, v.shape = .newtype t ∧ t.core = .simple s ∧ parseS L s [] = .error e := by
  have hreach : ∀ q, Reaches env p q → q = p := by
    intro q h
    induction h with
    | refl => rfl
    | step _ hr ih =>
      subst ih
      cases hr with
      | field h => rw [hp] at h; cases h
      | variant h hv ht hc =>
        rw [hp] at h; cases h
        obtain ⟨s, hs⟩ := hsc _ hv _ ht
        rw [hs] at hc; cases hc
  constructor
  · rintro ⟨s, m, h⟩
    have hwf : ∀ s, WellFormed (L.parse s) := by rw [hL]; exact XmlText.parse_wellFormed
    obtain ⟨-, q, hq, d', v, t, s, x, e, hd, hv, ht, hs, hx⟩ := C22_panic_only_partial L hwf env p (fun q hq => by
      rw [hreach q hq]
      refine ⟨by rw [hp]; simp, (fun d h => by rw [hp] at h; cases h), (fun d h => by rw [hp] at h; cases h), fun d' h v hv t ht => ?_⟩
      rw [hp] at h; cases h
      exact .inl (hsc v hv t ht)) s m h
    rw [hreach q hq, hp] at hd
    cases hd
    obtain ⟨e', he'⟩ := hstrict s x e hx
    exact ⟨v, hv, t, s, e', ht, hs, he'⟩
  · rintro ⟨v, hv, t, s, e, ht, hs, he⟩
    obtain ⟨i, hi, hiv⟩ := List.getElem_of_mem hv
    have hf : d.variantFor (v.attrs.xmlElementName v.ident) = some i := by
      unfold EnumDef.variantFor
      rw [List.findIdx?_eq_some_iff_getElem]
      refine ⟨hi, ?_, ?_⟩
      · rw [hiv]
        exact decide_eq_true ⟨by simp [ht], rfl⟩
      · intro j hj h
        have h' : (d.variants[j]).attrs.xmlElementName (d.variants[j]).ident = v.attrs.xmlElementName v.ident := by
          exact (of_decide_eq_true h).2
        have := (List.nodup_iff_getElem?_ne_getElem?.mp hdist) j i hj (by simpa using hi)
        apply this
        simp only [List.getElem?_map, List.getElem?_eq_getElem hi, List.getElem?_eq_getElem (Nat.lt_trans hj hi), Option.map_some, hiv, h']
    refine ⟨c!"<" ++ v.attrs.xmlElementName v.ident ++ c!"/>", _,
      C22_unwrap_panics L env hp (n := ⟨v.attrs.xmlElementName v.ident, none, none⟩) (as := []) (m := []) (ks := []) ?_ ?_ (key := v.attrs.xmlElementName v.ident) ?_
        hf (by rw [List.getElem?_eq_getElem hi, hiv]) ht hs he (.inr ⟨rfl, rfl⟩)⟩
    · refine ⟨[], ?_⟩
      rw [hL, C74_parse (doc_empty (hnames v hv)), List.append_nil]
      exact content_node _
    · intro u hu; cases hu
    · simp [EnumDef.keyOf, htag]

/-! ### Examples -/

namespace PanicSample
open Tests

/-- `enum Level { Off, #[yaserde(rename = "name")] Name(String), Value(u8) }` -/
def level : EnumDef :=
  { name := c!"Level"
    variants := [vU c!"Off", vN c!"Name" Tests.S (rn c!"name"), vN c!"Value" (.simple (.int .u8))]
    dflt := .enum 0 [] }

/-- The same without the number. -/
def quiet : EnumDef := { level with variants := [vU c!"Off", vN c!"Name" Tests.S (rn c!"name")] }

def env : Env := envOf [([c!"Level"], .enum level), ([c!"Quiet"], .enum quiet)]

theorem strict (s : STy) (x e : Str) (h : parseS lib s x = .error e) : ∃ e', parseS lib s [] = .error e' := by
  cases s with
  | string => cases h
  | bool => exact ⟨_, rfl⟩
  | int t => cases t <;> exact ⟨_, rfl⟩
  | f32 => exact ⟨_, rfl⟩
  | f64 => exact ⟨_, rfl⟩

example : ∃ s m, Returns lib env [c!"Level"] s (.panic m) :=
  (C22_enum_iff lib rfl env (p := [c!"Level"]) (d := level) rfl rfl (by decide) (by decide) (by
    intro v hv t ht
    simp only [level, List.mem_cons, List.not_mem_nil, or_false] at hv
    rcases hv with rfl | rfl | rfl <;> cases ht <;> exact ⟨_, rfl⟩) strict).mpr ⟨_, List.mem_cons_of_mem _ (List.mem_cons_of_mem _ (List.mem_cons_self ..)),
      _, _, _, rfl, rfl, rfl⟩

example : ¬ ∃ s m, Returns lib env [c!"Quiet"] s (.panic m) := by
  rw [C22_enum_iff lib rfl env (p := [c!"Quiet"]) (d := quiet) rfl rfl (by decide) (by decide) (by
    intro v hv t ht
    simp only [quiet, List.mem_cons, List.not_mem_nil, or_false] at hv
    rcases hv with rfl | rfl <;> cases ht <;> exact ⟨_, rfl⟩) strict]
  rintro ⟨v, hv, t, s, e, ht, hs, he⟩
  simp only [quiet, List.mem_cons, List.not_mem_nil, or_false] at hv
  rcases hv with rfl | rfl <;> cases ht
  cases hs
  cases he

end PanicSample

end Yaserde
