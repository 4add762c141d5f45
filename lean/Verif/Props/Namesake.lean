import Verif.Proofs.Namesake
import Verif.Props.RoundTrip
import Verif.Props.Open
/-
Property C50 for programs in which structs are written under the name of one of their own fields (recursive types).
`RoundTrips L env p v`: the value is written, and its text is read as the value and as nothing else.
-/

set_option autoImplicit false
set_option maxRecDepth 100000

namespace Yaserde

theorem hhead_owned {env : Env} {own : Path → Option Str}
    (hhead : ∀ p d nm, env p = some (.struct d) → own p = some nm → d.Headed env nm) (p : Path) (d : StructDef) (r : Option Str)
    (hp : env p = some (.struct d)) (hr : env.owned own p = some (.struct (d.ownedBy r))) :
    r.getD d.name = d.attrs.rename.getD d.name ∨ d.Headed env (r.getD d.name) := by
  unfold Env.owned at hr
  rw [hp] at hr
  simp only [Option.some.injEq, TypeDef.struct.injEq] at hr
  have hr' : (own p).or d.attrs.rename = r := congrArg (fun e : StructDef => e.attrs.rename) hr
  cases ho : own p with
  | none => rw [ho] at hr'; left; rw [← hr']; rfl
  | some nm => rw [ho] at hr'; right; rw [← hr']; exact hhead p d nm hp ho

/-- **C50** for recursive types.  The names of a program need to be in order (`SimpleProgram`) only after some structs'
own elements have been given other names (`own`; the generated code knows nothing of them): say that of `struct Node {
node: Vec<Node> }` the name `node`, under which its values are written.  It suffices that then the field `node` of the struct
is the only one written as elements, or the first, and always written (`Headed`).  `C50_false` shows what happens
otherwise. -/
theorem C50_recursive_partial {L : Lib} (hx : XmlLaw L) {env : Env} {own : Path → Option Str} (hs : SimpleProgram (env.owned own))
    (hw : Restores env) (hpr : ∀ p d, env p = some (.prim d) → Inverts d) (hle : LeafEnums env)
    (hhead : ∀ p d nm, env p = some (.struct d) → own p = some nm → d.Headed env nm)
    {p : Path} {td : TypeDef} (hp : env p = some td) (hn : isNCName td.elementName = true)
    (hfit : NameFits (env.owned own) p td.elementName) {v : Val} (hv : HasTy env (.struct p) v) (ht : v.Tame L) :
    RoundTrips L env p v := by
  obtain ⟨s, y, k, h1, h2, h3, h4⟩ := recursive_doc hx (ownOnly_owned env own) hs hw hpr hle
    (hhead_owned hhead) hp hn hfit hv ht {} blank_default
  exact roundTrips_of ⟨s, h1, (C94_recursive L env k p s y h2 h3 v).mpr h4⟩

/-- Nothing else than `C50_simple_partial` if no name is changed. -/
theorem C50_owned_none (env : Env) : env.owned (fun _ => none) = env := by
  funext p
  unfold Env.owned
  split
  · rename_i d hp; rw [hp]; rfl
  · rfl

theorem envOf_owned (l : List (Path × TypeDef)) (own : Path → Option Str) :
    (Tests.envOf l).owned own = Tests.envOf (l.map fun e => (e.1,
      match e.2 with
      | .struct d => .struct (d.ownedBy ((own e.1).or d.attrs.rename))
      | t => t)) := by
  funext p
  unfold Env.owned Tests.envOf
  induction l with
  | nil => rfl
  | cons e l ih =>
    rw [List.map_cons, List.find?_cons, List.find?_cons]
    dsimp only
    by_cases h : e.1 = p
    · have h' : (e.1 == p) = true := by simpa using h
      rw [h']
      subst h
      obtain ⟨q, td⟩ := e
      cases td <;> rfl
    · have h' : (e.1 == p) = false := by simpa using h
      rw [h']
      exact ih

namespace Namesake
open Tests

/-- `struct Tree { #[attribute] id: String, #[text] note: Option<String>, #[attribute] kind: Kind, node: Vec<Tree> }`;
`struct Doc { head: Head, tree: Option<Tree> }`, `struct Head { head: Line, more: Vec<Line> }`, `struct Line { text: String }`,
where both the field of `Doc` and that of `Head` are called `head`. -/
def tree : StructDef :=
  { name := c!"Tree", fields := [F c!"id" Tests.S attr, F c!"note" (O Tests.S) { text := true }, F c!"kind" (T c!"Kind") attr,
      F c!"node" (V (T c!"Tree"))] }
def head : StructDef := { name := c!"Head", fields := [F c!"head" (T c!"Line"), F c!"more" (V (T c!"Line"))] }
def prog : List (Path × TypeDef) :=
  [([c!"Tree"], .struct tree), mkE c!"Kind" [vU c!"Plain", vU c!"Thick"] (.enum 0 []),
   mkS c!"Doc" [F c!"head" (T c!"Head"), F c!"tree" (O (T c!"Tree")), F c!"node" (V (T c!"Tree"))],
   ([c!"Head"], .struct head), mkS c!"Line" [F c!"text" Tests.S]]
def env : Env := envOf prog
def own : Path → Option Str := fun p =>
  if p = [c!"Tree"] then some c!"node" else if p = [c!"Head"] then some c!"head" else none

theorem simple : SimpleProgram (Namesake.env.owned own) := by
  unfold Namesake.env
  rw [envOf_owned]
  exact simple_of_check _ (by decide +kernel)

theorem leaf : LeafEnums Namesake.env := by
  intro p d hp v hv
  have := mem_envOf hp
  simp only [prog, mkS, mkE, List.mem_cons, Prod.mk.injEq, List.not_mem_nil, or_false, reduceCtorEq, and_false, false_or,
    TypeDef.enum.injEq] at this
  obtain ⟨-, rfl⟩ := this
  simp only [List.mem_cons, List.not_mem_nil, or_false] at hv
  rcases hv with rfl | rfl <;> exact .inl rfl

theorem headed : ∀ p d nm, Namesake.env p = some (.struct d) → own p = some nm → d.Headed Namesake.env nm := by
  intro p d nm hp ho
  unfold own at ho
  split at ho
  · rename_i h
    subst h
    cases ho
    rw [show Namesake.env [c!"Tree"] = some (.struct tree) by rfl] at hp
    cases hp
    intro i f hi hf
    rw [show tree.fieldFor ⟨c!"node", none, none⟩ = some 3 by decide] at hi
    cases hi
    cases hf
    refine ⟨[c!"Tree"], tree, rfl, rfl, ?_⟩
    intro j g hg he ht
    match j with
    | 0 => cases hg; cases he
    | 1 => cases hg; cases ht
    | 2 => cases hg; cases he
    | 3 => exact .inl rfl
    | j + 4 => simp [tree] at hg
  · split at ho
    · rename_i h
      subst h
      cases ho
      rw [show Namesake.env [c!"Head"] = some (.struct head) by rfl] at hp
      cases hp
      intro i f hi hf
      rw [show head.fieldFor ⟨c!"head", none, none⟩ = some 0 by decide] at hi
      cases hi
      cases hf
      refine ⟨[c!"Line"], _, rfl, rfl, ?_⟩
      intro j g hg he ht
      match j with
      | 0 => exact .inl rfl
      | j + 1 => exact .inr ⟨by omega, rfl, rfl, rfl, rfl, rfl⟩
    · cases ho

theorem prims : ∀ p d, Namesake.env p = some (.prim d) → Inverts d := by
  intro p d hp
  have := mem_envOf hp
  simp only [prog, mkS, mkE, List.mem_cons, Prod.mk.injEq, List.not_mem_nil, or_false, reduceCtorEq, and_false] at this

def line (s : Str) : Val := .struct [.str s]
def node (id : Str) (note : Option Str) (kind : Nat) (kids : List Val) : Val :=
  .struct [.str id, (match note with | some s => .some (.str s) | none => .none), .enum kind [], .vec kids]
/-- Trees within trees. -/
def forest : Val :=
  node c!"r" (some c!"root") 1 [node c!"a" none 0 [node c!"b" (some c!"x y") 0 [node c!"c" none 1 []]], node c!"d" (some c!"z") 0 []]
def doc : Val := .struct [.struct [line c!"one", .vec [line c!"two", line c!"three"]], .some (node c!"t" none 0 [forest]), .vec [forest, forest]]

theorem roundTrips {p : Path} {td : TypeDef} (hp : Namesake.env p = some td) (hn : isNCName td.elementName = true)
    (hfit : nameFitsB (Namesake.env.owned own) p td.elementName = true) {v : Val} (hv : HasTy Namesake.env (.struct p) v)
    (ht : v.Tame lib) : RoundTrips lib Namesake.env p v :=
  C50_recursive_partial xml simple (restores_of_writesAll (writesAll_of_check prog (by decide))) prims leaf headed hp hn
    (nameFits_of_check hfit) hv ht

end Namesake

open Tests Namesake in
example : RoundTrips lib Namesake.env [c!"Doc"] doc :=
  roundTrips (td := (mkS c!"Doc" [F c!"head" (T c!"Head"), F c!"tree" (O (T c!"Tree")), F c!"node" (V (T c!"Tree"))]).2) rfl
    (by decide) (by decide +kernel) (hasTy_of_check _ (T c!"Doc") _ (by decide +kernel)) (tame_of_check _ _ (by decide +kernel))

open Tests Namesake in
example : RoundTrips lib Namesake.env [c!"Tree"] forest :=
  roundTrips (td := .struct tree) rfl
    (by decide) (by decide +kernel) (hasTy_of_check _ (T c!"Tree") _ (by decide +kernel)) (tame_of_check _ _ (by decide +kernel))

end Yaserde
