import Verif.Proofs.NewVariant
import Verif.Props.Sample
import Verif.Props.Options
import Verif.Tests.Check
/-
C97: variants added to enums.
-/

set_option autoImplicit false
set_option maxRecDepth 100000

namespace Yaserde

/-- **C97, reading**: a text without the names of the new variants (complete or not, well formed or not, conforming or not) is read by
the newer program as by the older one, step by step. -/
theorem C97_reading (L : Lib) {K : Str → Prop} {env env' : Env} (h : env.Gains K env') (hnf : NoFlatten env) (hat : ScalarAttrs env)
    (p : Path) {s : Str} (hs : ∀ e ∈ (L.parse s).evs, e.Free K) :
    (∀ n, deFromStr L env n p s = deFromStr L env' n p s) ∧ ∀ r, Returns L env p s r ↔ Returns L env' p s r := by
  have h1 : ∀ n, deFromStr L env n p s = deFromStr L env' n p s := by
    intro n
    unfold deFromStr fromStr
    rw [((Lock.deser L h hnf hat n p) (Rd.new (L.parse s)) ⟨hs, fun _ e => by cases e⟩).1]
  refine ⟨h1, fun r => ?_⟩
  unfold Returns
  simp only [h1]

/-- **C97**: variants with named fields, and variants with the name of an earlier one, are never read: in every program, with them or
without, every text is read in the same way. -/
theorem C97_hidden (L : Lib) {env env' : Env} (h : env.Gains (fun _ => False) env') (p : Path) (s : Str) (r : Res Val) :
    Returns L env p s r ↔ Returns L env' p s r := by
  unfold Returns deFromStr fromStr
  simp only [deser_hidden L h]

/-- **C97, writing**: values of the older program are written by the newer one as before: the same events, with the same outcome,
whatever the output does. -/
theorem C97_writing (L : Lib) {K : Str → Prop} {env env' : Env} (h : env.Gains K env') {p : Path} {v : Val}
    (hv : HasTy env (.struct p) v) :
    (∀ io, serializeWithWriter L env p v io = serializeWithWriter L env' p v io) ∧
    (∀ c, toStringWithConfig L env c p v = toStringWithConfig L env' c p v) ∧
    toStringContent L env p v = toStringContent L env' p v := by
  have h1 : ∀ io, serializeWithWriter L env p v io = serializeWithWriter L env' p v io := by
    intro io
    unfold serializeWithWriter
    rw [serTy_gains L h hv]
  refine ⟨h1, fun c => ?_, ?_⟩
  · unfold toStringWithConfig
    rw [h1]
  · unfold toStringContent
    rw [serTy_gains L h hv]

/-- **C97, both**: a value that survives a round trip in the older program is read by the newer program from what either of them
wrote, if the names of the new variants are not in the text. -/
theorem C97_round_trip (L : Lib) {K : Str → Prop} {env env' : Env} (h : env.Gains K env') (hnf : NoFlatten env) (hat : ScalarAttrs env)
    {p : Path} {v : Val} (hv : HasTy env (.struct p) v) {s : Str} (hw : toString L env p v = .ok s)
    (hs : ∀ e ∈ (L.parse s).evs, e.Free K) (hr : Returns L env p s (.ok v)) :
    toString L env' p v = .ok s ∧ Returns L env' p s (.ok v) :=
  ⟨((C97_writing L h hv).2.1 {}).symm.trans hw, ((C97_reading L h hnf hat p hs).2 _).1 hr⟩

/-! #### An example -/

namespace NewVariantSample
open Tests

/-- A car with a colour; `ws` are further colours. -/
def cars (ws : List VariantDef) (a : Attrs := {}) : Env := envOf [
  mkS c!"Car" [F c!"color" (T c!"Color") a, F c!"note" (O Tests.S)],
  mkE c!"Color" ([vU c!"Red", vU c!"Green"] ++ ws) (.enum 0 [])]

def blue : Str → Prop := fun s => s = c!"Blue"

/-- A colour that is read, one that has the name of another, and one with named fields. -/
def more : List VariantDef := [vU c!"Blue", vU c!"Rouge" (rn c!"Red"), { ident := c!"Mixed", shape := .named [F c!"code" Tests.S] }]

theorem gains {K : Str → Prop} {ws : List VariantDef} (a : Attrs)
    (h : ∀ w ∈ ws, w.Hidden [vU c!"Red", vU c!"Green"] ∨ K (w.attrs.rename.getD w.ident)) : (cars [] a).Gains K (cars ws a) := by
  refine OptionsSample.envOf_alike (.cons ⟨rfl, .same _⟩ (.cons ⟨rfl, ?_⟩ .nil))
  exact .enum { name := c!"Color", variants := [vU c!"Red", vU c!"Green"], dflt := .enum 0 [] } ws h

theorem hidden : ∀ w ∈ more.tail, w.Hidden [vU c!"Red", vU c!"Green"] := by
  intro w hw
  simp only [more, List.tail_cons, List.mem_cons, List.not_mem_nil, or_false] at hw
  rcases hw with rfl | rfl
  · exact .inr ⟨vU c!"Red", by simp, by rintro fs ⟨⟩, rfl⟩
  · exact .inl fun h => h _ rfl

theorem gainsMore (a : Attrs) : (cars [] a).Gains blue (cars more a) := by
  refine gains a fun w hw => ?_
  rcases List.mem_cons.1 hw with rfl | hw
  · exact .inr rfl
  · exact .inl (hidden w hw)

theorem cars_cases {ws : List VariantDef} {a : Attrs} {p : Path} {d : StructDef} (h : cars ws a p = some (.struct d)) :
    d.fields = [F c!"color" (T c!"Color") a, F c!"note" (O Tests.S)] := by
  unfold cars envOf at h
  rw [List.find?_cons] at h
  split at h
  · cases h
    rfl
  · rw [List.find?_cons] at h
    split at h <;> cases h

theorem noFlatten : NoFlatten (cars []) := by
  intro p d hp f hf _
  rw [cars_cases hp] at hf
  simp only [List.mem_cons, List.not_mem_nil, or_false] at hf
  rcases hf with rfl | rfl <;> rfl

theorem scalarAttrs : ScalarAttrs (cars []) := by
  intro p d hp f hf ha
  rw [cars_cases hp] at hf
  simp only [List.mem_cons, List.not_mem_nil, or_false] at hf
  rcases hf with rfl | rfl <;> cases ha

/-- A test for `Free`. -/
def freeB (k : Str) : REv → Bool
  | .start n as _ => n.loc != k && as.all fun a => a.value != k
  | .chars s => s != k
  | _ => true

theorem free_of_check {k s : Str} (h : (lib.parse s).evs.all (freeB k) = true) : ∀ e ∈ (lib.parse s).evs, e.Free fun x => x = k := by
  intro e he
  have := List.all_eq_true.1 h e he
  cases e <;> simp_all [freeB, REv.Free]

def text : Str := c!"<Car><color>Green</color><unknown/><note>n</note></Car>"

/-- Read by the newer program because it is read by the older one. -/
example : Returns lib (cars more) [c!"Car"] text (.ok (.struct [.enum 1 [], .some (s c!"n")])) :=
  ((C97_reading lib (gainsMore {}) noFlatten scalarAttrs [c!"Car"] (free_of_check (k := c!"Blue") (by decide +kernel))).2 _).1
    (returns_of_deOk (by decide +kernel))

/-- A cut-off text: the error is the same. -/
example (r : Res Val) : Returns lib (cars []) [c!"Car"] c!"<Car><color>Green" r ↔ Returns lib (cars more) [c!"Car"] c!"<Car><color>Green" r :=
  (C97_reading lib (gainsMore {}) noFlatten scalarAttrs [c!"Car"] (free_of_check (k := c!"Blue") (by decide +kernel))).2 r

/-- A new name for `Red` that `Red` has already: nothing is read as the new variant. -/
example : Returns lib (cars more.tail) [c!"Car"] c!"<Car><color>Red</color></Car>" (.ok (.struct [.enum 0 [], .none])) :=
  (C97_hidden lib (gains {} fun w hw => .inl (hidden w hw)) _ _ _).1 (returns_of_deOk (by decide +kernel))

example : toString lib (cars more) [c!"Car"] (.struct [.enum 1 [], .none]) =
    .ok c!"<?xml version=\"1.0\" encoding=\"utf-8\"?><Car><color>Green</color></Car>" :=
  ((C97_writing lib (gainsMore {}) (hasTy_of_check _ (T c!"Car") _ (by decide))).2.1 {}).symm.trans (by decide +kernel)

example : Returns lib (cars more) [c!"Car"] c!"<?xml version=\"1.0\" encoding=\"utf-8\"?><Car><color>Green</color></Car>"
    (.ok (.struct [.enum 1 [], .none])) :=
  (C97_round_trip lib (gainsMore {}) noFlatten scalarAttrs (hasTy_of_check _ (T c!"Car") (.struct [.enum 1 [], .none]) (by decide))
    (by decide +kernel) (free_of_check (k := c!"Blue") (by decide +kernel)) (returns_of_deOk (by decide +kernel))).2

end NewVariantSample

open Tests NewVariantSample in
/-- **C97**, the conditions are needed: the older program reads the default where the newer one reads the new variant, from a text that
has its name; and from a text that has it only inside the value of an attribute of a derived type, which is parsed as XML. -/
theorem C97_conditions_needed :
    (Returns lib (cars []) [c!"Car"] c!"<Car><color>Blue</color></Car>" (.ok (.struct [.enum 0 [], .none])) ∧
      Returns lib (cars more) [c!"Car"] c!"<Car><color>Blue</color></Car>" (.ok (.struct [.enum 2 [], .none]))) ∧
    (∀ e ∈ (lib.parse c!"<Car color='&lt;Blue/>'/>").evs, e.Free blue) ∧
    Returns lib (cars [] attr) [c!"Car"] c!"<Car color='&lt;Blue/>'/>" (.ok (.struct [.enum 0 [], .none])) ∧
    Returns lib (cars more attr) [c!"Car"] c!"<Car color='&lt;Blue/>'/>" (.ok (.struct [.enum 2 [], .none])) :=
  ⟨⟨returns_of_deOk (by decide +kernel), returns_of_deOk (by decide +kernel)⟩, free_of_check (k := c!"Blue") (by decide +kernel),
    returns_of_deOk (by decide +kernel), returns_of_deOk (by decide +kernel)⟩

end Yaserde
