import Verif.Proofs.Generic
import Verif.Props.Bare
import Verif.Props.Sample
/-
C90: a type behaves in the same way under any name: as the instance of a generic type, under a longer path, renamed.
-/

set_option autoImplicit false
set_option maxRecDepth 100000

namespace Yaserde

/-- **C90**, for generic types, in one direction: whatever a program with generic types does, one without does too.  Each
instance has a definition without parameters, and the deserializers and serializers of the two do the same, on all inputs.
So what is proved here for all `Env` holds for programs with generic types. -/
theorem C90_monomorphic (P : GProg) : ∃ (env : Env) (key : Str → GTy → Path),
    (∀ x t, structId (key x t) = x) ∧
    (∀ x segs as g, P segs = some g → g.params.length = as.length →
      ∃ b arg, env (key x (.app segs as)) = some b ∧ g.WrittenAs as b arg fun q => key (structId q)) ∧
    ∀ (L : Lib) (n : Nat) (x : Str) (t : GTy),
      deserG L P n t = deser L env n (key x t) ∧
      (∀ v, (serG L P n).ser t v = (serU L env (fun _ => none) n).ser (key x t) v) ∧
      (∀ v, v.levels < n → (serG L P n).ser t v = serTy L env (key x t) v) := by
  classical
  obtain ⟨num, hnum⟩ := exists_injective_nat GTy
  let key : Str → GTy → Path := fun x t => x :: List.replicate (num t) []
  have hinj : ∀ {x y t u}, key x t = key y u → t = u := by
    intro x y t u h
    have := congrArg List.length h
    simp only [key, List.length_cons, List.length_replicate] at this
    exact hnum (by omega)
  have hid : ∀ x t, structId (key x t) = x := by
    intro x t
    simp [key, structId, List.flatten_cons]
  let env : Env := fun q =>
    if h : ∃ e : Str × GTy, q = key e.1 e.2 then
      (P.inst (Classical.choose h).2).map fun e => e.1.mapPaths fun q => key (structId q) (e.2 q)
    else none
  have henv : ∀ x t, env (key x t) = (P.inst t).map fun e => e.1.mapPaths fun q => key (structId q) (e.2 q) := by
    intro x t
    have h : ∃ e : Str × GTy, key x t = key e.1 e.2 := ⟨(x, t), rfl⟩
    have ht : t = (Classical.choose h).2 := hinj (Classical.choose_spec h)
    simp only [env, dif_pos h]
    rw [← ht]
  have hsome : ∀ x t b arg, P.inst t = some (b, arg) → env (key x t) = some (b.mapPaths fun q => key (structId q) (arg q)) := by
    intro x t b arg h
    rw [henv, h]
    rfl
  have hnone : ∀ x t, P.inst t = none → env (key x t) = none := by
    intro x t h
    rw [henv, h]
    rfl
  have hser : ∀ (L : Lib) (n : Nat) (x : Str) (t : GTy) (v : Val),
      (serG L P n).ser t v = (serU L env (fun _ => none) n).ser (key x t) v ∧
      (serG L P n).attrs t v = (serU L env (fun _ => none) n).attrs (key x t) v := by
    intro L n
    induction n with
    | zero => intro x t v; exact ⟨rfl, rfl⟩
    | succ n ih =>
      intro x t v
      show (match P.inst t with | some (b, arg) => _ | none => _) = serTyBy L env (serU L env (fun _ => none) n) (key x t) v ∧
        (match P.inst t with | some (b, arg) => _ | none => _) = attrsOfBy L env (serU L env (fun _ => none) n) (key x t) v
      rcases h : P.inst t with _ | ⟨b, arg⟩
      · unfold serTyBy attrsOfBy
        rw [hnone x t h]
        exact ⟨rfl, rfl⟩
      · exact serDef_mapPaths L _ _ (fun q => key (structId q) (arg q)) _ env [] (key x t) b rfl (hsome x t b arg h)
          (fun q y _ => (ih (structId q) (arg q) y).1) (fun q y _ => (ih (structId q) (arg q) y).2) v
  have hdef : ∀ x segs as g, P segs = some g → g.params.length = as.length →
      ∃ b arg, env (key x (.app segs as)) = some b ∧ g.WrittenAs as b arg fun q => key (structId q) :=
    fun x segs as g hg hl => ⟨_, _, hsome x _ _ _ (inst_some hg hl), hl, fun q _ => GTy.put_subst hl _, rfl⟩
  refine ⟨env, key, hid, hdef, fun L n x t => ⟨?_, fun v => (hser L n x t v).1, fun v hv => ?_⟩⟩
  · induction n generalizing x t with
    | zero => rfl
    | succ n ih =>
      rcases h : P.inst t with _ | ⟨b, arg⟩
      · rw [deserG, deser, h, hnone x t h]
      · rw [deserG_def h, deser_def (hsome x t b arg h)]
        exact deserDef_mapPaths L (fun q => key (structId q) (arg q)) n b (fun q _ => ih _ _) fun q _ => hid _ _
  · rw [(hser L n x t v).1]
    exact (serB_nests L env .diverge n).ser (key x t) v (nests_levels env n (key x t) v hv)

/-- **C90, writing**: an instance of a generic type is written as the type written out by hand, if the arguments are types with
derived implementations. -/
theorem C90_serialize {P : GProg} {U : GTy → Prop} {env : Env} {ρ : GTy → Path} (h : WrittenOut P U env ρ)
    (L : Lib) (n : Nat) (c : Config) (t : GTy) (ht : U t) (v : Val) (hv : v.levels < n) :
    toStringG L P n c t v = toStringWithConfig L env c (ρ t) v := by
  have hser : ∀ (n : Nat) (t : GTy) (v : Val), U t →
      (serG L P n).ser t v = (serU L env (fun _ => none) n).ser (ρ t) v ∧
      (serG L P n).attrs t v = (serU L env (fun _ => none) n).attrs (ρ t) v := by
    intro n
    induction n with
    | zero => intro t v _; exact ⟨rfl, rfl⟩
    | succ n ih =>
      intro t v ht
      obtain ⟨segs, as⟩ := t
      obtain ⟨g, _, arg, hg, he, ⟨hl, hput, rfl⟩, hU⟩ := h segs as ht
      have hi := inst_some hg hl
      generalize ht' : GTy.app segs as = t at he hi ⊢
      have harg : ∀ q, (g.body as).Contains q → (g.written q).subst (g.arg as) = arg q := fun q hq => (hput q hq).subst
      show (match P.inst t with | some (b, arg) => _ | none => _) = serTyBy L env (serU L env (fun _ => none) n) (ρ t) v ∧
        (match P.inst t with | some (b, arg) => _ | none => _) = attrsOfBy L env (serU L env (fun _ => none) n) (ρ t) v
      rw [hi]
      refine serDef_mapPaths L _ _ (fun q => ρ (arg q)) _ env [] (ρ t) (g.body as) rfl he
        (fun q y hq => ?_) (fun q y hq => ?_) v <;> dsimp only <;> rw [harg q hq]
      · exact (ih (arg q) y (hU q hq)).1
      · exact (ih (arg q) y (hU q hq)).2
  unfold toStringG toStringWithConfig serializeWithWriter
  rw [(hser n t v ht).1, show (serU L env (fun _ => none) n).ser (ρ t) v = serTy L env (ρ t) v from
    (serB_nests L env .diverge n).ser (ρ t) v (nests_levels env n (ρ t) v hv)]
  rcases serTy L env (ρ t) v (Sr.new {}) with ⟨r, s⟩
  rcases r with u | m | m | _ <;> rfl

/-- **C90, reading**, if the program compiles, and if the types of attributes, which do not depend on the arguments then, keep their names. -/
theorem C90_deserialize_partial {P : GProg} {U : GTy → Prop} {env : Env} {ρ : GTy → Path} (h : WrittenOut P U env ρ)
    (hP : ∀ segs g, P segs = some g → g.DeCompiles) (ha : KeepsAttrs P ρ) (L : Lib) (n : Nat) (t : GTy) (ht : U t) : deserG L P n t = deser L env n (ρ t) := by
  induction n generalizing t with
  | zero => rfl
  | succ n ih =>
    obtain ⟨segs, as⟩ := t
    obtain ⟨g, _, arg, hg, he, ⟨hl, hput, rfl⟩, hU⟩ := h segs as ht
    have harg : ∀ q, (g.body as).Contains q → (g.written q).subst (g.arg as) = arg q := fun q hq => (hput q hq).subst
    rw [deserG_def (inst_some hg hl), deser_def he]
    refine deserDef_mapPaths L (fun q => ρ (arg q)) n (g.body as) (fun q hq => ?_) fun q hq => ?_
    · show _ = deser L env n (ρ (arg q))
      rw [harg q hq]
      exact ih (arg q) (hU q hq)
    · rw [← harg q hq.contains, attr_same (hP segs g hg) hq]
      exact ha segs g as q hg hq

/-- **C90, renamed types**: writing does not depend on the names of the types of the fields, and reading does not either, where attributes keep
the names of their types. -/
theorem C90_renamed_partial {U : Path → Prop} {env env' : Env} {ρ : Path → Path} (h : Renamed U env env' ρ) (L : Lib) (p : Path) (hp : U p) :
    (∀ v, serTy L env p v = serTy L env' (ρ p) v) ∧
    ((∀ p b, U p → env p = some b → ∀ q, b.AttrType q → structId (ρ q) = structId q) →
      ∀ n, deser L env n p = deser L env' n (ρ p)) := by
  constructor
  · intro v
    have hser : ∀ (n : Nat) (p : Path) (v : Val), U p →
        (serU L env (fun _ => none) n).ser p v = (serU L env' (fun _ => none) n).ser (ρ p) v ∧
        (serU L env (fun _ => none) n).attrs p v = (serU L env' (fun _ => none) n).attrs (ρ p) v := by
      intro n
      induction n with
      | zero => intro p v _; exact ⟨rfl, rfl⟩
      | succ n ih =>
        intro p v hp
        obtain ⟨b, he, he', hU⟩ := h p hp
        exact serDef_mapPaths L (serU L env (fun _ => none) n) (serU L env' (fun _ => none) n) ρ env env' p (ρ p) b he he'
          (fun q y hq => (ih q y (hU q hq)).1) (fun q y hq => (ih q y (hU q hq)).2) v
    have h1 := (serB_nests L env .diverge (v.levels + 1)).ser p v (nests_levels env _ p v (Nat.lt_succ_self _))
    have h2 := (serB_nests L env' .diverge (v.levels + 1)).ser (ρ p) v (nests_levels env' _ (ρ p) v (Nat.lt_succ_self _))
    exact h1.symm.trans ((hser (v.levels + 1) p v hp).1.trans h2)
  · intro ha n
    induction n generalizing p with
    | zero => rfl
    | succ n ih =>
      obtain ⟨b, he, he', hU⟩ := h p hp
      rw [deser_def he, deser_def he']
      exact deserDef_mapPaths L ρ n b (fun q hq => ih q (hU q hq)) (ha p b hp he)

/-! #### The test of the repository -/

namespace GenericSample
open Tests

def ty (x : Str) : GTy := .app [x] []

/-- A program with generic types given by its definitions. -/
def progOf (l : List (Path × GDef)) : GProg := fun p => (l.find? fun e => e.1 == p).map Prod.snd

/-- In most definitions the paths are the types. -/
def plain (params : List Str) (e : Path × TypeDef) : Path × GDef := (e.1, ⟨params, fun _ => e.2, fun q => .app q []⟩)

/-- `/repo/yaserde/tests/generic.rs:13-26`: `struct Base<G> { background: G }`, `struct Generic { #[yaserde(attribute = true)] color: String }`. -/
def prog : GProg := progOf [plain [c!"G"] (mkS c!"Base" [F c!"background" (T c!"G")] (rn c!"base")),
  plain [] (mkS c!"Generic" [F c!"color" Tests.S attr])]

def inst : GTy := .app [c!"Base"] [ty c!"Generic"]
def types (t : GTy) : Prop := t = inst ∨ t = ty c!"Generic"

/-- `struct Base { background: Generic }` -/
def env : Env := envOf [mkS c!"Base" [F c!"background" (T c!"Generic")] (rn c!"base"), mkS c!"Generic" [F c!"color" Tests.S attr]]

/-- The name of the type, without its arguments. -/
def name : GTy → Path
  | .app segs _ => segs

theorem writtenOut : WrittenOut prog types env name := by
  rintro segs as (h | h) <;> cases h
  · refine ⟨_, _, fun _ => ty c!"Generic", rfl, rfl, ⟨rfl, ?_, rfl⟩, fun q _ => .inr rfl⟩
    rintro q ⟨f, hf, hq⟩
    cases List.mem_singleton.1 hf
    cases hq
    exact .param (i := 0) rfl (fun j hj => absurd hj (by omega)) rfl
  · refine ⟨_, _, fun _ => ty c!"Generic", rfl, rfl, ⟨rfl, ?_, rfl⟩, ?_⟩ <;>
    · rintro q ⟨f, hf, hq⟩
      cases List.mem_singleton.1 hf
      cases hq

theorem mem_prog {l : List (Path × GDef)} {p : Path} {g : GDef} (h : progOf l p = some g) : (p, g) ∈ l := by
  unfold progOf at h
  rw [Option.map_eq_some_iff] at h
  obtain ⟨e, he, rfl⟩ := h
  have h1 := List.find?_some he
  simp at h1
  subst h1
  exact List.mem_of_find?_eq_some he

theorem compiles (segs : Path) (g : GDef) (h : prog segs = some g) : g.DeCompiles := by
  have := mem_prog h
  simp only [List.mem_cons, List.not_mem_nil, or_false, Prod.mk.injEq, plain] at this
  rcases this with ⟨_, rfl⟩ | ⟨_, rfl⟩
  · rintro args q x ⟨f, hf, ha, hq⟩
    cases List.mem_singleton.1 hf
    cases ha
  · rintro args q x ⟨f, hf, ha, hq⟩
    cases List.mem_singleton.1 hf
    cases hq

theorem keepsAttrs : KeepsAttrs prog name := by
  intro segs g args q h hq
  have := mem_prog h
  simp only [List.mem_cons, List.not_mem_nil, or_false, Prod.mk.injEq, plain] at this
  rcases this with ⟨_, rfl⟩ | ⟨_, rfl⟩ <;> rfl

def value : Val := .struct [.struct [.str c!"blue"]]

theorem written : toStringG lib prog 3 {} inst value =
    .ok c!"<?xml version=\"1.0\" encoding=\"utf-8\"?><base><background color=\"blue\" /></base>" := by decide +kernel

theorem read : (match fromStrG lib prog 60 inst c!"<base><background color=\"blue\" /></base>" with
    | .ok v => v.beq value | _ => false) = true := by decide +kernel

example : toStringG lib prog 4 {} inst value = toStringWithConfig lib env {} [c!"Base"] value :=
  C90_serialize writtenOut lib 4 {} inst (.inl rfl) value (by decide)

example (n : Nat) : deserG lib prog n inst = deser lib env n [c!"Base"] :=
  C90_deserialize_partial writtenOut compiles keepsAttrs lib n inst (.inl rfl)

end GenericSample

/-! #### Parameters in visitors -/

namespace PixelSample
open Tests GenericSample

def color : TypeDef := .enum { name := c!"Color", variants := [vU c!"R", vU c!"G", vU c!"B"], dflt := .enum 0 [] }

/-- `struct Pixel<T> { #[yaserde(attribute)] color: T }`, `enum Maybe<T> { Just(T), Nothing }` and `enum Color { R, G, B }`. -/
def pixelG : GDef := (plain [c!"T"] (mkS c!"Pixel" [F c!"color" (T c!"T") attr])).2
def maybeG : GDef := (plain [c!"T"] (mkE c!"Maybe" [vN c!"Just" (T c!"T"), vU c!"Nothing"] (.enum 1 []))).2
def prog : GProg := progOf [([c!"Pixel"], pixelG), ([c!"Maybe"], maybeG), plain [] ([c!"Color"], color)]

/-- The same with `Color` in place of `T`. -/
def env : Env := envOf [mkS c!"Pixel" [F c!"color" (T c!"Color") attr],
  mkE c!"Maybe" [vN c!"Just" (T c!"Color"), vU c!"Nothing"] (.enum 1 []), ([c!"Color"], color)]

def types (t : GTy) : Prop := t = .app [c!"Pixel"] [ty c!"Color"] ∨ t = .app [c!"Maybe"] [ty c!"Color"] ∨ t = ty c!"Color"

theorem writtenOut : WrittenOut prog types env GenericSample.name := by
  rintro segs as (h | h | h) <;> cases h
  · refine ⟨_, _, fun _ => ty c!"Color", rfl, rfl, ⟨rfl, ?_, rfl⟩, fun q _ => .inr (.inr rfl)⟩
    rintro q ⟨f, hf, hq⟩
    cases List.mem_singleton.1 hf
    cases hq
    exact .param (i := 0) rfl (fun j hj => absurd hj (by omega)) rfl
  · refine ⟨_, _, fun _ => ty c!"Color", rfl, rfl, ⟨rfl, ?_, rfl⟩, fun q _ => .inr (.inr rfl)⟩
    rintro q ⟨v, hv, h⟩
    simp only [List.mem_cons, List.not_mem_nil, or_false] at hv
    rcases hv with rfl | rfl
    · rcases h with ⟨t, ht, hq⟩ | ⟨fs, hs, _⟩
      · cases ht
        cases hq
        exact .param (i := 0) rfl (fun j hj => absurd hj (by omega)) rfl
      · cases hs
    · rcases h with ⟨t, ht, hq⟩ | ⟨fs, hs, _⟩
      · cases ht
      · cases hs
  · refine ⟨_, _, fun _ => ty c!"Color", rfl, rfl, ⟨rfl, ?_, rfl⟩, fun q _ => .inr (.inr rfl)⟩
    rintro q ⟨v, hv, h⟩
    simp only [List.mem_cons, List.not_mem_nil, or_false] at hv
    rcases hv with rfl | rfl | rfl <;> (rcases h with ⟨t, ht, hq⟩ | ⟨fs, hs, _⟩; cases ht; cases hs)

def blue : Val := .struct [.enum 2 []]
def green : Val := .struct [.enum 1 []]
def justBlue : Val := .enum 0 [.enum 2 []]
def text : Str := c!"<Pixel color=\"B\" />"
def textJust : Str := c!"<Maybe><Just>B</Just></Maybe>"

theorem readBlue : deOk env c!"Pixel" text blue = true := by decide +kernel
theorem readJust : deOk env c!"Maybe" textJust justBlue = true := by decide +kernel

/-- `use Color as G;` and `struct Pixel { #[yaserde(attribute)] color: G }`. -/
def envAlias : Env := envOf [mkS c!"Pixel" [F c!"color" (T c!"G") attr], ([c!"G"], color)]
def other (p : Path) : Path := if p = [c!"Color"] then [c!"G"] else p
def pixel (p : Path) : Prop := p = [c!"Pixel"] ∨ p = [c!"Color"]

theorem readGreen : deOk envAlias c!"Pixel" text green = true := by decide +kernel

theorem renamed : Renamed pixel env envAlias other := by
  rintro p (rfl | rfl)
  · refine ⟨_, rfl, rfl, ?_⟩
    rintro q ⟨f, hf, hq⟩
    cases List.mem_singleton.1 hf
    cases hq
    exact .inr rfl
  · refine ⟨_, rfl, rfl, ?_⟩
    rintro q ⟨v, hv, h⟩
    simp only [List.mem_cons, List.not_mem_nil, or_false] at hv
    rcases hv with rfl | rfl | rfl <;> (rcases h with ⟨t, ht, hq⟩ | ⟨fs, hs, _⟩; cases ht; cases hs)

example (v : Val) : serTy lib env [c!"Pixel"] v = serTy lib envAlias [c!"Pixel"] v :=
  (C90_renamed_partial renamed lib [c!"Pixel"] (.inl rfl)).1 v

end PixelSample

open PixelSample in
/-- **C90 is false for some generic types**: the derived `YaDeserialize` is rejected by the compiler for an attribute and for the payload of a variant
with a parameter as its type — `struct Pixel<T> { #[yaserde(attribute)] color: T }`, `enum Maybe<T> { Just(T), Nothing }` — while the types written
out are read. -/
theorem C90_false_rejected : ∃ (L : Lib) (P : GProg) (U : GTy → Prop) (env : Env) (ρ : GTy → Path) (g g' : GDef),
    XmlLaw L ∧ WrittenOut P U env ρ ∧ P [c!"Pixel"] = some g ∧ P [c!"Maybe"] = some g' ∧ ¬ g.DeCompiles ∧ ¬ g'.DeCompiles ∧
    Returns L env [c!"Pixel"] c!"<Pixel color=\"B\" />" (.ok (.struct [.enum 2 []])) ∧
    Returns L env [c!"Maybe"] c!"<Maybe><Just>B</Just></Maybe>" (.ok (.enum 0 [.enum 2 []])) := by
  refine ⟨Tests.lib, prog, types, env, GenericSample.name, pixelG, maybeG, Tests.xml, writtenOut, rfl, rfl, fun h => ?_, fun h => ?_,
    Tests.returns_of_deOk readBlue, Tests.returns_of_deOk readJust⟩
  · have := h [] [c!"T"] c!"T" ⟨_, List.mem_singleton_self _, rfl, rfl⟩ (List.mem_singleton_self _)
    revert this
    decide +kernel
  · have := h [] [c!"T"] c!"T" ⟨_, List.mem_cons_self .., rfl⟩ (List.mem_singleton_self _)
    revert this
    decide +kernel

open PixelSample in
/-- **C90 is false for attributes of renamed types**: with `use Color as G;` the struct `Pixel { #[yaserde(attribute)] color: G }` reads a green pixel
from `<Pixel color="B" />`, because the value of the attribute is read as the text `<G>B</G>` and `G` is a variant. -/
theorem C90_false_alias : ∃ (L : Lib) (U : Path → Prop) (env env' : Env) (ρ : Path → Path) (p : Path) (s : Str) (v w : Val),
    XmlLaw L ∧ Renamed U env env' ρ ∧ U p ∧ v ≠ w ∧ Returns L env p s (.ok v) ∧ Returns L env' (ρ p) s (.ok w) :=
  ⟨Tests.lib, pixel, env, envAlias, other, [c!"Pixel"], text, blue, green, Tests.xml, renamed, .inl rfl, Val.ne_of_beq (by decide),
    Tests.returns_of_deOk readBlue, Tests.returns_of_deOk readGreen⟩

/-! #### Scalar arguments -/

namespace CellSample
open Tests GenericSample

def u32Def : PrimDef where
  name := c!"u32"
  toStr := showS lib
  fromStr := parseS lib (.int .u32)
  dom v := STy.holds (.int .u32) v
  bare := true

/-- `struct Cell<T> { x: T, y: T }`; `u32` is a type with the `YaSerialize` of `serialize_type!`. -/
def prog : GProg := progOf [plain [c!"T"] (mkS c!"Cell" [F c!"x" (T c!"T"), F c!"y" (T c!"T")]), plain [] ([c!"u32"], .prim u32Def)]

def inst : GTy := .app [c!"Cell"] [ty c!"u32"]

/-- `struct Cell { x: u32, y: u32 }` -/
def env : Env := envOf [mkS c!"Cell" [F c!"x" (I .u32), F c!"y" (I .u32)]]

def value (a b : Int) : Val := .struct [.int a, .int b]

end CellSample

open CellSample in
/-- **C90 is false for scalar arguments**: `Cell<u32>` with `struct Cell<T> { x: T, y: T }` is written without elements for `x` and `y`, so that
different values are written alike; `struct Cell { x: u32, y: u32 }` has the elements. -/
theorem C90_false_scalar :
    toStringG Tests.lib prog 3 {} inst (value 1 23) = .ok c!"<?xml version=\"1.0\" encoding=\"utf-8\"?><Cell>123</Cell>" ∧
    toStringG Tests.lib prog 3 {} inst (value 12 3) = .ok c!"<?xml version=\"1.0\" encoding=\"utf-8\"?><Cell>123</Cell>" ∧
    toString Tests.lib env [c!"Cell"] (value 1 23) =
      .ok c!"<?xml version=\"1.0\" encoding=\"utf-8\"?><Cell><x>1</x><y>23</y></Cell>" := by
  refine ⟨?_, ?_, ?_⟩ <;> decide +kernel

end Yaserde
