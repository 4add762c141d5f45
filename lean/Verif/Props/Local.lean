import Verif.Spec.Local
import Verif.Props.Generic
/-
C91: what a type does depends on the types inside it only.
-/

set_option autoImplicit false
set_option maxRecDepth 100000

namespace Yaserde

theorem FTy.mapPaths_id : ∀ t : FTy, t.mapPaths id = t
  | .simple _ => rfl
  | .opt t => congrArg FTy.opt t.mapPaths_id
  | .vec t => congrArg FTy.vec t.mapPaths_id
  | .struct _ => rfl

theorem fields_mapPaths_id (fs : List FieldDef) : fs.map (FieldDef.mapPaths id) = fs := by
  rw [show FieldDef.mapPaths id = id from funext fun f => by unfold FieldDef.mapPaths; rw [FTy.mapPaths_id]; rfl, List.map_id]

theorem TypeDef.mapPaths_id (b : TypeDef) : b.mapPaths id = b := by
  cases b with
  | struct d =>
    show TypeDef.struct _ = _
    rw [fields_mapPaths_id]
  | enum d =>
    show TypeDef.enum _ = _
    rw [show VariantDef.mapPaths id = id from funext fun v => ?_, List.map_id]
    obtain ⟨x, a, s⟩ := v
    unfold VariantDef.mapPaths
    cases s with
    | unit => rfl
    | newtype t => simp only [VShape.mapPaths, FTy.mapPaths_id]; rfl
    | named fs => simp only [VShape.mapPaths, fields_mapPaths_id]; rfl
  | prim d => rfl

theorem SameInside.renamed {env env' : Env} {p : Path} (h : SameInside env env' p) : Renamed (TypeInside env p) env env' id := by
  intro q hq
  obtain ⟨b, hb, hb'⟩ := h q hq
  exact ⟨b, hb, by rw [TypeDef.mapPaths_id]; exact hb', fun r hr => hq.step hb hr⟩

/-- **C91**: two programs that define the types inside `p` alike read and write `p` alike: `from_str` takes the same steps and returns
the same on every text, and `to_string` on every value and in every configuration.  The other types of the program do not matter. -/
theorem C91_local (L : Lib) (env env' : Env) (p : Path) (h : SameInside env env' p) :
    (∀ n s, deFromStr L env n p s = deFromStr L env' n p s) ∧
    (∀ s r, Returns L env p s r ↔ Returns L env' p s r) ∧
    (∀ c v, toStringWithConfig L env c p v = toStringWithConfig L env' c p v) ∧
    ∀ v, toStringContent L env p v = toStringContent L env' p v := by
  obtain ⟨hs, hd⟩ := C90_renamed_partial h.renamed L p .refl
  have hd := hd fun _ _ _ _ _ _ => rfl
  have h1 : ∀ n s, deFromStr L env n p s = deFromStr L env' n p s := by
    intro n s
    unfold deFromStr fromStr
    rw [hd]
    rfl
  refine ⟨h1, fun s r => ?_, fun c v => ?_, fun v => ?_⟩
  · unfold Returns
    simp only [h1]
  · unfold toStringWithConfig serializeWithWriter
    rw [hs]
    rfl
  · unfold toStringContent
    rw [hs]
    rfl

/-- **C91**, for a program that grows: types defined in addition change nothing for those that were there, if these are complete. -/
theorem C91_added (L : Lib) (env more : Env) (p : Path) (h : ∀ q, TypeInside env p q → ∃ b, env q = some b) :
    let env' : Env := fun q => (env q).or (more q)
    (∀ s r, Returns L env p s r ↔ Returns L env' p s r) ∧
    ∀ c v, toStringWithConfig L env c p v = toStringWithConfig L env' c p v := by
  have := C91_local L env (fun q => (env q).or (more q)) p fun q hq => by
    obtain ⟨b, hb⟩ := h q hq
    exact ⟨b, hb, by simp only [hb, Option.some_or]⟩
  exact ⟨this.2.1, this.2.2.1⟩

/-! #### A list, and a type outside and inside of it -/

namespace LocalSample
open Tests

def list := mkS c!"List" [F c!"item" (.vec (T c!"Item")), F c!"rest" (.opt (T c!"Rest"))]
def rest := mkS c!"Rest" [F c!"list" (T c!"List")]
def item := mkS c!"Item" [F c!"id" (.simple (.int .u8)) attr]
def item' := mkS c!"Item" [F c!"id" (.opt (.simple (.int .u8))) attr]
def other := mkS c!"Other" [F c!"list" (T c!"List"), F c!"item" (T c!"Item")]

/-- The first program; one with a further type that uses the others; one in which a type inside the list is different. -/
def env : Env := envOf [list, rest, item]
def wider : Env := envOf [other, list, rest, item]
def changed : Env := envOf [list, rest, item']

theorem inside {q : Path} (h : TypeInside env [c!"List"] q) : q = [c!"List"] ∨ q = [c!"Rest"] ∨ q = [c!"Item"] := by
  induction h with
  | refl => exact .inl rfl
  | step h hb hr ih =>
    rcases ih with rfl | rfl | rfl <;> cases hb <;> obtain ⟨f, hf, hq⟩ := hr
    · simp only [List.mem_cons, List.not_mem_nil, or_false] at hf
      rcases hf with rfl | rfl <;> cases hq <;> rename_i hq <;> cases hq
      · exact .inr (.inr rfl)
      · exact .inr (.inl rfl)
    · cases List.mem_singleton.1 hf
      cases hq
      exact .inl rfl
    · cases List.mem_singleton.1 hf
      cases hq

theorem same : SameInside env wider [c!"List"] := by
  intro q hq
  rcases inside hq with rfl | rfl | rfl <;> exact ⟨_, rfl, rfl⟩

def text : Str := c!"<List><item id=\"1\" /><item /></List>"

theorem reads : deOk env c!"List" c!"<List><item id=\"1\" /><rest><list><item id=\"2\" /></list></rest></List>"
    (.struct [.vec [.struct [.int 1]], .some (.struct [.struct [.vec [.struct [.int 2]], .none]])]) = true := by decide +kernel
theorem refuses : deErr env c!"List" text c!"id is a required field of Item" = true := by decide +kernel
theorem accepts : deOk changed c!"List" text (.struct [.vec [.struct [.some (.int 1)], .struct [.none]], .none]) = true := by decide +kernel

/-- `C91_local` applies to the wider program: lists are read as before. -/
example : Returns lib wider [c!"List"] c!"<List><item id=\"1\" /><rest><list><item id=\"2\" /></list></rest></List>"
    (.ok (.struct [.vec [.struct [.int 1]], .some (.struct [.struct [.vec [.struct [.int 2]], .none]])])) :=
  ((C91_local lib env wider [c!"List"] same).2.1 _ _).1 (returns_of_deOk reads)

/-- The types inside do matter: with another definition of `Item` other lists are read. -/
example : Returns lib env [c!"List"] text (.err c!"id is a required field of Item") ∧
    Returns lib changed [c!"List"] text (.ok (.struct [.vec [.struct [.some (.int 1)], .struct [.none]], .none])) ∧
    ¬ SameInside env changed [c!"List"] := by
  refine ⟨returns_of_deErr refuses, returns_of_deOk accepts, fun h => ?_⟩
  have h1 := ((C91_local lib env changed [c!"List"] h).2.1 _ _).1 (returns_of_deErr refuses)
  have h2 := (C27_budget_irrelevant lib changed [c!"List"] text).2 _ _ h1 (returns_of_deOk accepts)
  cases h2

end LocalSample

end Yaserde
