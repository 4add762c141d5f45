import Verif.Proofs.Bound
import Verif.Props.Total
/-
Property C07 (termination), the part about budgets: a run that has not come to an end within a number
of steps linear in the document never does.  Hence documents that are never finished can be
recognised by a finite run; the shapes known are listed.
-/

set_option autoImplicit false
set_option maxRecDepth 100000

namespace Yaserde

/-- C07, a bound for every text, well-formed or not, conforming or not: `from_str` comes to an end if
and only if it does so within `(events + 1) * (bound + 3) + rank p` steps, where `events` is the number
of events the XML parser delivers.  In particular no loop of the generated code runs more
often, and no recursion of the generated code is deeper, than that, unless `from_str` never ends. -/
theorem C07_bound (L : Lib) (env : Env) (rank : Path → Nat) (bound : Nat) (he : Ranked env rank bound)
    (p : Path) (s : Str) (hend : REv.endDocument ∉ (L.parse s).evs) :
    (∃ r, Returns L env p s r) ↔
      deFromStr L env (((L.parse s).evs.length + 1) * (bound + 3) + rank p) p s ≠ .diverge := by
  have hv := (at_new (L.parse s)).vis
  have hg : EndLast (Rd.new (L.parse s)) := by
    refine .inl ?_
    rw [hv]
    exact fun h => hend (List.mem_filter.mp h).1
  have hmu : (Rd.new (L.parse s)).mu ≤ (L.parse s).evs.length := by
    unfold Rd.mu
    rw [hv]
    exact Nat.le_trans List.countP_le_length (List.length_filter_le ..)
  constructor
  · rintro ⟨r, hr, n, hn⟩ hB
    rcases TB.deser L env rank bound he _ _ p (Nat.le_refl _) _ hg hmu with ⟨r', rd', h1, h2⟩ | h
    · cases (congrArg Prod.fst (h1 _ (Nat.le_refl _))).symm.trans hB
      exact h2
    · have hB' := h (max n ((((L.parse s).evs.length + 1) * (bound + 3) + rank p))) (Nat.le_max_right ..)
      have := (C27_budget_irrelevant L env p s).1 n _ (Nat.le_max_left n (((L.parse s).evs.length + 1) * (bound + 3) + rank p))
        (by rw [hn]; exact hr)
      rw [hn] at this
      exact hr (this.symm.trans hB')
  · intro h
    exact ⟨_, h, _, rfl⟩

open Sample in
/-- The sample program, all texts. -/
example (s : Str) : (∃ r, Returns Tests.lib env2 [c!"Book"] s r) ↔
    deFromStr Tests.lib env2 (((Tests.lib.parse s).evs.length + 1) * 4) [c!"Book"] s ≠ .diverge :=
  C07_bound _ _ _ _ ranked2 _ _ (XmlText.parse_wellFormed s).noEnd

namespace Leaks
open Tests

/-- `struct P { y: String }`, `enum E { A, B(P) }`, a newtype `N(String)`, and
`struct S { x: String, e: E, n: N, p: P }`. -/
def env : Env := envOf [mkS c!"P" [F c!"y" Tests.S], mkE c!"E" [vU c!"A", vN c!"B" (T c!"P")] (.enum 0 []),
  ([c!"N"], .prim { name := c!"N", toStr := fun v => match v with | .str t => t | _ => [], fromStr := fun t => .ok (.str t) }),
  mkS c!"S" [F c!"x" Tests.S, F c!"e" (T c!"E"), F c!"n" (T c!"N"), F c!"p" (T c!"P")]]

theorem env_cases {p : Path} {t : TypeDef} (h : env p = some t) :
    (p = [c!"P"] ∧ t = .struct { name := c!"P", fields := [F c!"y" Tests.S] }) ∨
    (p = [c!"E"] ∧ t = .enum { name := c!"E", variants := [vU c!"A", vN c!"B" (T c!"P")], dflt := .enum 0 [] }) ∨
    (∃ d, t = .prim d) ∨
    (p = [c!"S"] ∧ t = .struct { name := c!"S", fields := [F c!"x" Tests.S, F c!"e" (T c!"E"), F c!"n" (T c!"N"), F c!"p" (T c!"P")] }) := by
  simp only [env, envOf, mkS, mkE, List.find?] at h
  split at h
  · rename_i hp; exact .inl ⟨(beq_iff_eq.mp hp).symm, by simpa using h.symm⟩
  · split at h
    · rename_i hp; exact .inr (.inl ⟨(beq_iff_eq.mp hp).symm, by simpa using h.symm⟩)
    · split at h
      · rename_i hp; exact .inr (.inr (.inl ⟨_, by simpa using h.symm⟩))
      · split at h
        · rename_i hp; exact .inr (.inr (.inr ⟨(beq_iff_eq.mp hp).symm, by simpa using h.symm⟩))
        · simp at h

def rank (p : Path) : Nat := if p = [c!"E"] then 1 else 0

theorem ranked : Ranked env rank 1 := by
  refine ⟨fun p => by unfold rank; split <;> omega, fun p d h => ?_, fun p d h => ?_, fun p d h => ?_⟩
  · rcases env_cases h with ⟨-, h⟩ | ⟨-, h⟩ | ⟨_, h⟩ | ⟨-, h⟩ <;> cases h <;> decide
  · rcases env_cases h with ⟨-, h⟩ | ⟨-, h⟩ | ⟨_, h⟩ | ⟨-, h⟩ <;> cases h
    · intro f hf ha
      simp only [List.mem_cons, List.not_mem_nil, or_false] at hf
      rcases hf with rfl
      cases ha
    · intro f hf ha
      simp only [List.mem_cons, List.not_mem_nil, or_false] at hf
      rcases hf with rfl | rfl | rfl | rfl <;> cases ha
  · rcases env_cases h with ⟨-, h⟩ | ⟨hp, h⟩ | ⟨_, h⟩ | ⟨-, h⟩ <;> cases h
    intro v hv t q ht hq
    subst hp
    simp only [List.mem_cons, List.not_mem_nil, or_false] at hv
    rcases hv with rfl | rfl <;> cases ht
    cases hq
    decide

/-- The run of `from_str` for `S` on a text is never finished. -/
def Stuck (s : Str) : Prop := ¬ ∃ r, Returns lib env [c!"S"] s r

def diverges : Res Val → Bool
  | .diverge => true
  | _ => false

theorem stuck {s : Str}
    (h : diverges (deFromStr lib env (((lib.parse s).evs.length + 1) * (1 + 3) + rank [c!"S"]) [c!"S"] s) = true) : Stuck s := by
  intro hr
  have := (C07_bound lib env rank 1 ranked [c!"S"] s (XmlText.parse_wellFormed s).noEnd).mp hr
  unfold diverges at h
  split at h
  · rename_i hd; exact this hd
  · cases h

end Leaks

open Leaks in
/-- C07 is false of the code also for documents whose document element is the right one (unlike
`C07_false`): the generated loop of the outer struct counts an end tag too many and, having come
to zero, swallows a start tag, when one of its fields contains
* text followed by an element, in a field of scalar type,
* the element of a unit variant, in a field of enum type,
* the name of a unit variant as the text of some element inside a field of enum type,
* the name of a variant that carries a struct as text, in a field of enum type,
* an element, in a field of a type that is read from text. -/
theorem C07_false_inside :
    Stuck c!"<S><x>t<z/></x><p><y>1</y></p></S>" ∧
    Stuck c!"<S><e><A/></e><p><y>1</y></p></S>" ∧
    Stuck c!"<S><e><z>A</z></e><p><y>1</y></p></S>" ∧
    Stuck c!"<S><e>B</e><p><y>1</y></p></S>" ∧
    Stuck c!"<S><n><z/></n><p><y>1</y></p></S>" :=
  ⟨stuck (by decide +kernel), stuck (by decide +kernel), stuck (by decide +kernel), stuck (by decide +kernel),
    stuck (by decide +kernel)⟩

open Leaks in
/-- The same fields without these contents are read. -/
example : ∃ v, Returns Tests.lib env [c!"S"] c!"<S><x>t</x><e>A</e><n>1</n><p><y>1</y></p></S>" (.ok v) :=
  ⟨_, Tests.returns_of_deOk (v := .struct [.str c!"t", .enum 0 [], .str c!"1", .struct [.str c!"1"]]) (by decide +kernel)⟩

end Yaserde
