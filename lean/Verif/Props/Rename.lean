import Verif.Proofs.Rename
import Verif.Props.AnyDoc
/-
C17 for every document: the name of the document element plays no role.
-/

set_option autoImplicit false
set_option maxRecDepth 100000

namespace Yaserde

/-- C17.  For a program without flattened fields: renaming the document element — to a name that, like the old one, is not the name of
a field and is in a namespace the type accepts — changes nothing, whatever the document contains (conforming or not, complete or cut
off): neither the result nor whether there is one. -/
theorem C17_any_document_partial (L : Lib) (env : Env) (henv : NoFlatten env) (p : Path) (d : StructDef)
    (hp : env p = some (.struct d)) (s t : Str) (n n' : Name)
    (hren : RootRenamed n n' (content (L.parse s).evs) (content (L.parse t).evs))
    (hfin : (L.parse s).fin = (L.parse t).fin)
    (hn : ∀ f ∈ d.fields, ¬ f.claims d.attrs n) (hn' : ∀ f ∈ d.fields, ¬ f.claims d.attrs n')
    (hns : nsOk d.attrs n) (hns' : nsOk d.attrs n') :
    (∀ r, Returns L env p s r ↔ Returns L env p t r) ∧
      (NeverReturns L env p (L.parse s) ↔ NeverReturns L env p (L.parse t)) := by
  have h := struct_renamed L env henv p d hp s t n n' hren hfin hn hn' hns hns'
  refine ⟨fun r => ?_, forall_congr' fun k => ?_⟩
  · unfold Returns
    simp only [h]
  · have := h k
    unfold deFromStr fromStr at this
    rw [this]

open Tests

namespace RenameSample

/-- A struct with a scalar, a list of itself and an attribute; a struct with a flattened enum. -/
def prog : List (Path × TypeDef) :=
  [mkS c!"Log" [F c!"id" (O Tests.S) attr, F c!"n" (O (I .i32)), F c!"sub" (V (T c!"Log"))],
   mkE c!"Kind" [vU c!"One", vU c!"Two"] (.enum 0 []),
   mkS c!"Flat" [F c!"kind" (T c!"Kind") { flatten := true }]]

def env : Env := envOf prog

def logs : Env := envOf (prog.take 1)

theorem logs_noFlatten : NoFlatten logs := by
  intro p d h f hf
  simp only [logs, envOf, prog, List.take, List.find?] at h
  split at h
  · simp only [mkS, Option.map_some, Option.some.injEq, TypeDef.struct.injEq] at h
    subst h
    revert f
    decide
  · cases h

open Sample in
def kids : List Node := [el c!"n" [tx c!"1", el c!"Log" []], el c!"sub" [el c!"doc" [tx c!"x"]]]

end RenameSample

open RenameSample in
/-- A document that does not conform: an element inside of a scalar, and a nested element with the name of the document element. -/
example (r : Res Val) :
    Returns lib logs [c!"Log"] c!"<Log id='1'><n>1<Log/></n><sub><doc>x</doc></sub></Log>" r ↔
      Returns lib logs [c!"Log"] c!"<doc id='1'><n>1<Log/></n><sub><doc>x</doc></sub></doc>" r :=
  (C17_any_document_partial lib logs logs_noFlatten [c!"Log"] _ rfl _ _ ⟨c!"Log", none, none⟩ ⟨c!"doc", none, none⟩
    ⟨[⟨⟨c!"id", none, none⟩, c!"1"⟩], [], _, _, by decide +kernel, by decide +kernel,
      .whole (Node.eventsL kids) [] (wellNested_eventsL kids).1 (wellNested_eventsL kids).2 (by simp)⟩
    (by decide +kernel) (by decide) (by decide) (by decide) (by decide)).1 r

/-- **C17 is false** with flattened fields: the document element takes part in the reading of a flattened enum. -/
theorem C17_false : ∃ (L : Lib) (env : Env) (p : Path) (d : StructDef) (s t : Str) (n n' : Name) (v w : Val), XmlLaw L ∧
    env p = some (.struct d) ∧ d.Plain ∧
    RootRenamed n n' (content (L.parse s).evs) (content (L.parse t).evs) ∧ (L.parse s).fin = (L.parse t).fin ∧
    (∀ f ∈ d.fields, ¬ f.claims d.attrs n) ∧ (∀ f ∈ d.fields, ¬ f.claims d.attrs n') ∧ nsOk d.attrs n ∧ nsOk d.attrs n' ∧
    Returns L env p s (.ok v) ∧ Returns L env p t (.ok w) ∧ v ≠ w :=
  ⟨lib, RenameSample.env, [c!"Flat"], _, c!"<Flat></Flat>", c!"<Two></Two>", ⟨c!"Flat", none, none⟩, ⟨c!"Two", none, none⟩,
    .struct [.enum 0 []], .struct [.enum 1 []], xml, rfl, plain_of_check (by decide),
    ⟨[], [], _, _, by decide +kernel, by decide +kernel, .whole [] [] (wellNested_eventsL []).1 rfl (by simp)⟩, by decide +kernel,
    by decide, by decide, by decide, by decide,
    returns_of_deOk (by decide +kernel), returns_of_deOk (by decide +kernel), by simp⟩

end Yaserde
