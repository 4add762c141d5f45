import Verif.Proofs.OpenTree
import Verif.Proofs.OpenExposed
import Verif.Props.Expose
/-
Property C94: documents with elements named like fields of the struct they are read as (recursive types).
`Returns L env p s r`: `from_str::<p>(s)` returns `r`.
-/

set_option autoImplicit false
set_option maxRecDepth 100000

namespace Yaserde

/-- C94.  What the generated code makes of such a document (`openNode`), both successes and failures. -/
theorem C94_open (L : Lib) (env : Env) (k : Nat) (p : Path) (s : Str) (x : Node) (hdoc : IsDoc (L.parse s) x)
    (hfits : openFitsNode L env (flatConfN L env k) x p) (hfloat : floatNode L env x p = true) (r : Res Val) :
    Returns L env p s r ↔ r = decodeDocWith env (openNode L env (flatN L env k)) x p :=
  returns_open L env k p s x hdoc hfits hfloat r

/-- C94.  Documents of recursive types are read right if every element named like a field of the struct it is read as
begins with a child of that field, or with text, or is empty. -/
theorem C94_recursive (L : Lib) (env : Env) (k : Nat) (p : Path) (s : Str) (x : Node) (hdoc : IsDoc (L.parse s) x)
    (htree : treeNode L env (flatConfN L env k) x p) (v : Val) :
    Returns L env p s (.ok v) ↔ decodeDocN L env k x p = .ok v :=
  returns_tree L env k p s x hdoc htree v

/-- C94.  `openNode` agrees with C93, and so with C08 on conforming documents (`C93_conforming`). -/
theorem C94_exposed (L : Lib) (env : Env) (k : Nat) (p : Path) (x : Node) (hconf : ConfN L env k (x.exposed L env p) p)
    (hfloat : x.afloat L env p) :
    openFitsNode L env (flatConfN L env k) x p ∧ floatNode L env x p = true ∧
      openNode L env (flatN L env k) x p = decodeN L env k (x.exposed L env p) p := by
  rw [confN_eq] at hconf
  rw [decodeN_eq]
  exact openNode_exposed L env _ _ x p hconf hfloat

namespace Forest
open Tests Sample

/-- `struct Tree { #[attribute] id: String, node: Vec<Tree>, label: Option<String> }`. -/
def tree : StructDef :=
  { name := c!"Tree", fields := [F c!"id" Tests.S attr, F c!"node" (V (T c!"Tree")), F c!"label" (O Tests.S)] }
def env : Env := envOf [([c!"Tree"], .struct tree)]

def good : Str := c!"<Tree id=\"r\"><label>top</label><node id=\"a\"><node id=\"b\"/><label>x</label><node id=\"c\">t</node></node></Tree>"
def goodDoc : Node :=
  elA c!"Tree" [(c!"id", c!"r")] [el c!"label" [tx c!"top"],
    elA c!"node" [(c!"id", c!"a")] [elA c!"node" [(c!"id", c!"b")] [], el c!"label" [tx c!"x"],
      elA c!"node" [(c!"id", c!"c")] [tx c!"t"]]]
def goodVal : Val :=
  .struct [.str c!"r", .vec [.struct [.str c!"a", .vec [.struct [.str c!"b", .vec [], .none], .struct [.str c!"c", .vec [], .none]],
    .some (.str c!"x")]], .some (.str c!"top")]

/-- An unknown element comes first, and is taken for a node. -/
def bad : Str := c!"<Tree id=\"r\"><node id=\"a\"><note id=\"L\">x</note></node></Tree>"
def badDoc : Node :=
  elA c!"Tree" [(c!"id", c!"r")] [elA c!"node" [(c!"id", c!"a")] [elA c!"note" [(c!"id", c!"L")] [tx c!"x"]]]
def badVal : Val :=
  .struct [.str c!"r", .vec [.struct [.str c!"a", .vec [.struct [.str c!"L", .vec [], .none]], .none]], .none]
def badMeant : Val :=
  .struct [.str c!"r", .vec [.struct [.str c!"a", .vec [], .none]], .none]

theorem goodIs : IsDoc (lib.parse good) goodDoc := ⟨[], by decide +kernel⟩
theorem badIs : IsDoc (lib.parse bad) badDoc := ⟨[], by decide +kernel⟩

theorem fit (fc : Node → Path → Prop) (as : List Attr) : AttrsFit fc tree as := by
  intro f hf h1 q hq
  simp only [tree, List.mem_cons, List.not_mem_nil, or_false] at hf
  rcases hf with rfl | rfl | rfl <;> simp [F, FTy.core, Tests.S, O, V, T, attr] at h1 hq

theorem kid_label (fc : Node → Path → Prop) (s : Str) : treeKid lib Forest.env fc tree (el c!"label" [tx s]) := by
  rw [el, treeKid]
  exact ⟨by simp, trivial⟩

theorem kid_node (fc : Node → Path → Prop) (as : List (Str × Str)) (ks : List Node)
    (h : soundFirst Forest.env tree ⟨c!"node", none, none⟩ ks) (hk : treeKids lib Forest.env fc tree ks) :
    treeKid lib Forest.env fc tree (elA c!"node" as ks) := by
  rw [elA, treeKid]
  exact ⟨by simp, plain_of_check (by decide), fit _ _, h, hk⟩

theorem goodTree (fc : Node → Path → Prop) : treeNode lib Forest.env fc goodDoc [c!"Tree"] := by
  refine ⟨plain_of_check (by decide), fit _ _, .inl (by decide), ?_⟩
  simp only [treeKids, and_true]
  refine ⟨kid_label _ _, kid_node _ _ _ (.inr (.inr ⟨1, [c!"Tree"], by decide, ?_⟩)) ?_⟩
  · rintro _ _ _ _ _ h
    cases h
    exact ⟨by decide, by decide⟩
  · simp only [treeKids, and_true]
    refine ⟨kid_node _ _ _ (.inr (.inr ⟨1, [c!"Tree"], by decide, by simp⟩)) trivial, kid_label _ _,
      kid_node _ _ _ (.inr (.inr ⟨1, [c!"Tree"], by decide, by simp [tx]⟩)) ?_⟩
    simp only [treeKids, and_true, tx, treeKid]
    simp

theorem goodReturns : Returns lib Forest.env [c!"Tree"] good (.ok goodVal) := returns_of_deOk (by decide +kernel)

theorem badFits (fc : Node → Path → Prop) : openFitsNode lib Forest.env fc badDoc [c!"Tree"] := by
  have hplain : tree.Plain := plain_of_check (by decide)
  show openFitsStruct lib Forest.env fc tree _ _ _
  rw [elA, openFitsStruct]
  refine ⟨⟨hplain, fit _ _, trivial⟩, .inl (by decide), ?_⟩
  rw [openFitsKid]
  refine ⟨by simp, ?_⟩
  show openFitsStruct lib Forest.env fc tree _ _ _
  rw [elA, openFitsStruct]
  refine ⟨⟨hplain, fit _ _, trivial⟩, ?_⟩
  show openFitsStruct lib Forest.env fc tree _ _ _
  rw [tx, openFitsStruct]
  exact ⟨hplain, fit _ _, trivial, by simp, .inr (.inl (by decide))⟩

end Forest

open Tests Sample Forest in
example : decodeDocN lib Forest.env 0 goodDoc [c!"Tree"] = .ok goodVal :=
  (C94_recursive lib Forest.env 0 [c!"Tree"] good goodDoc goodIs (goodTree _) goodVal).mp goodReturns

open Tests Sample Forest in
/-- `soundFirst` is needed: the document means one thing (`decodeDocN`), and is read as another (`openNode`). -/
theorem C94_first_needed : ∃ (L : Lib) (env : Env) (p : Path) (s : Str) (x : Node) (v w : Val), XmlLaw L ∧ IsDoc (L.parse s) x ∧
    openFitsNode L env (flatConfN L env 0) x p ∧ floatNode L env x p = true ∧ Returns L env p s (.ok v) ∧
    decodeDocN L env 0 x p = .ok w ∧ v ≠ w :=
  ⟨lib, Forest.env, [c!"Tree"], bad, badDoc, badVal, badMeant, xml, badIs, badFits _, by decide +kernel,
    returns_of_deOk (by decide +kernel), by rfl, by simp [badVal, badMeant]⟩

open Tests Sample Forest in
example : decodeDocWith Forest.env (openNode lib Forest.env (flatN lib Forest.env 0)) badDoc [c!"Tree"] = .ok badVal :=
  ((C94_open lib Forest.env 0 [c!"Tree"] bad badDoc badIs (badFits _) (by decide +kernel) (.ok badVal)).mp
    (returns_of_deOk (by decide +kernel))).symm

open Tests Sample ExposeSample in
example : openFitsNode lib Sample.env (flatConfN lib Sample.env 0) (.elem nBook attrs2 [] kids2) [c!"Book"] ∧
    openNode lib Sample.env (flatN lib Sample.env 0) (.elem nBook attrs2 [] kids2) [c!"Book"] = .ok (.struct val2) := by
  have hx : (Node.elem nBook attrs2 [] kids2).exposed lib Sample.env [c!"Book"] = .elem nBook attrs2 [] out2 := by rfl
  obtain ⟨h1, -, h3⟩ := C94_exposed lib Sample.env 0 [c!"Book"] (.elem nBook attrs2 [] kids2) (by rw [hx]; exact conf2)
    (by intro d hd; cases hd; exact afloat2)
  exact ⟨h1, by rw [h3]; rfl⟩

end Yaserde
