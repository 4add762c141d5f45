import Verif.Props.Open
import Verif.Props.Total
import Verif.Props.Spell
import Verif.Props.Evolve
import Verif.Props.Namesake
/-
C09, C10 and C16 for documents of recursive types (C94): structs may be named like their own fields.  The properties of
single fields (C08, C11-C14, C19, C21) are stated for these documents as well as for conforming ones, by `OkDoc`.
-/

set_option autoImplicit false
set_option maxRecDepth 100000

namespace Yaserde

section
variable {L : Lib} {env : Env} {k : Nat} {p : Path} {s t : Str} {x y : Node}

theorem tree_congr (hx : IsDoc (L.parse s) x) (hy : IsDoc (L.parse t) y) (htx : treeNode L env (attrConf L env k) x p)
    (hty : treeNode L env (attrConf L env k) y p) (hn : x.name = y.name)
    (h : ∀ v, decodeN L env k x p = .ok v ↔ decodeN L env k y p = .ok v) (v : Val) :
    Returns L env p s (.ok v) ↔ Returns L env p t (.ok v) := by
  rw [(tree_readable htx).returns hx, (tree_readable hty).returns hy]
  unfold decodeDocN decodeDocWith
  rw [hn]
  split
  · split
    · exact h v
    · rfl
  · exact h v

end

/-- C09 for recursive types.  Inserting, in the element of any struct in the document, a child that no field of that struct
claims — but not as the first child of an element named like a field of the struct it is read as — does not change
the value. -/
theorem C09_recursive_partial (L : Lib) (env : Env) (k : Nat) (p : Path) (s t : Str) (x y : Node)
    (hx : IsDoc (L.parse s) x) (hy : IsDoc (L.parse t) y) (htree : treeNode L env (attrConf L env k) x p)
    (hins : Within env InsertLater p x y) (v : Val) :
    Returns L env p s (.ok v) ↔ Returns L env p t (.ok v) := by
  have hun : ∀ {d x y}, InsertLater d x y → InsertUnknown d x y := by
    rintro d x y ⟨n, as, m, pre, post, un, uas, um, uks, h1, h2, h3, h4, -⟩
    exact ⟨n, as, m, pre, post, un, uas, um, uks, h1, h2, h3, h4⟩
  have hC : ∀ p d x y, env p = some (.struct d) → InsertLater d x y → Conf L env k x p → Conf L env k y p :=
    fun p d x y hp h hc => (insertUnknown_local L env k p d x y hp (hun h) hc).1
  have he := within_tree ResRel.eq (R := InsertLater) (L := L) (env := env) (k := k)
    (by rintro d x y ⟨n, as, m, pre, post, un, uas, um, uks, rfl, -⟩; exact ⟨_, _, _, _, rfl⟩) hC
    (fun p d x y hp h h4 => insertUnknown_dec L env k p d x y hp (hun h) h4) hins htree
  refine tree_congr hx hy htree (within_tree_conf hC (fun p d x y => insertLater_tree p d x y) hins htree)
    (within_name ?_ hins) (fun v => ?_) v
  · rintro d x y ⟨n, as, m, pre, post, un, uas, um, uks, rfl, rfl, -⟩
    rfl
  · rw [show decodeN L env k x p = decodeN L env k y p from he]

/-- C16 for recursive types.  Removing, in the element of any struct in the document, an empty or malformed child of a
scalar field does not change the value. -/
theorem C16_recursive_partial (L : Lib) (env : Env) (k : Nat) (p : Path) (s t : Str) (x y : Node)
    (hx : IsDoc (L.parse s) x) (hy : IsDoc (L.parse t) y) (htree : treeNode L env (attrConf L env k) x p)
    (hrem : Within env (RemoveMalformed L) p x y) (v : Val) :
    Returns L env p s (.ok v) ↔ Returns L env p t (.ok v) := by
  have hC : ∀ p d x y, env p = some (.struct d) → RemoveMalformed L d x y → Conf L env k x p → Conf L env k y p :=
    fun p d x y hp h hc => (removeMalformed_local L env k p d x y hp h hc).1
  have he := within_tree ResRel.eq (R := RemoveMalformed L) (L := L) (env := env) (k := k)
    (by rintro d x y ⟨n, as, m, pre, post, cn, cas, cm, cks, i, f, t, rfl, -⟩; exact ⟨_, _, _, _, rfl⟩) hC
    (fun p d x y hp h h4 => removeMalformed_dec L env k p d x y hp h h4) hrem htree
  refine tree_congr hx hy htree (within_tree_conf hC (fun p d x y => removeMalformed_tree p d x y) hrem htree)
    (within_name ?_ hrem) (fun v => ?_) v
  · rintro d x y ⟨n, as, m, pre, post, cn, cas, cm, cks, i, f, t, rfl, rfl, -⟩
    rfl
  · rw [show decodeN L env k x p = decodeN L env k y p from he]

/-- C10 for recursive types.  Permuting the children of any struct's element in the document, keeping the order of children
of the same name, does not change the value, if the new order suits recursive types too. -/
theorem C10_recursive_partial (L : Lib) (env : Env) (k : Nat) (p : Path) (s t : Str) (x y : Node)
    (hx : IsDoc (L.parse s) x) (hy : IsDoc (L.parse t) y) (htree : treeNode L env (attrConf L env k) x p)
    (htree' : treeNode L env (attrConf L env k) y p) (hperm : Within env Permuted p x y) (v : Val) :
    Returns L env p s (.ok v) ↔ Returns L env p t (.ok v) := by
  have hC : ∀ p d x y, env p = some (.struct d) → Permuted d x y → Conf L env k x p → Conf L env k y p :=
    fun p d x y hp h hc => (permuted_local L env k p d x y hp h hc).1
  have he := within_tree ResRel.okEq (R := Permuted) (L := L) (env := env) (k := k)
    (by rintro d x y ⟨n, as, m, ks, ks', rfl, -⟩; exact ⟨_, _, _, _, rfl⟩) hC
    (fun p d x y hp h h4 => permuted_dec L env k p d x y hp h h4) hperm htree
  refine tree_congr hx hy htree htree' (within_name ?_ hperm) he v
  rintro d x y ⟨n, as, m, ks, ks', rfl, rfl, -⟩
  rfl

/-! ### Termination, what follows the document, and spelling: also for documents that are not read as they should be -/

/-- C07.  Every document to which C94 applies is read to an end. -/
theorem C07_open_partial (L : Lib) (env : Env) (k : Nat) (p : Path) (s : Str) (x : Node) (hdoc : IsDoc (L.parse s) x)
    (hfits : openFitsNode L env (flatConfN L env k) x p) (hfloat : floatNode L env x p = true) :
    ∃ r, Returns L env p s r :=
  ⟨_, (C94_open L env k p s x hdoc hfits hfloat _).mpr rfl⟩

/-- C07.  Documents of recursive types are read to an end. -/
theorem C07_recursive_partial (L : Lib) (env : Env) (k : Nat) (p : Path) (s : Str) (x : Node) (hdoc : IsDoc (L.parse s) x)
    (htree : treeNode L env (flatConfN L env k) x p) : ∃ r, Returns L env p s r := by
  obtain ⟨h1, h2, -⟩ := treeNode_ok L env (flatN L env k) _ x p htree
  exact C07_open_partial L env k p s x hdoc h1 h2

/-- C28, all outcomes, for every document to which C94 applies. -/
theorem C28_trailing_open (L : Lib) (env : Env) (k : Nat) (p : Path) (s t : Str) (x : Node) (hs : IsDoc (L.parse s) x)
    (ht : IsDoc (L.parse t) x) (hfits : openFitsNode L env (flatConfN L env k) x p) (hfloat : floatNode L env x p = true)
    (r : Res Val) : Returns L env p s r ↔ Returns L env p t r := by
  rw [C94_open L env k p s x hs hfits hfloat, C94_open L env k p t x ht hfits hfloat]

/-- C74.  What is read of a document of a recursive type is what the document says, however it is spelled. -/
theorem C74_recursive_partial (L : Lib) (hL : L.parse = XmlText.parse) (env : Env) (k : Nat) (p : Path) {x : Node} {s : Str}
    (h : Spell.Doc x s) (htree : treeNode L env (flatConfN L env k) x p) (v : Val) :
    Returns L env p s (.ok v) ↔ decodeDocN L env k x p = .ok v :=
  C94_recursive L env k p s x ⟨[], by rw [hL, C74_parse h, List.append_nil]; exact content_node x⟩ htree v

open Tests Sample Forest in
example : ∃ r, Returns lib Forest.env [c!"Tree"] bad r :=
  C07_open_partial lib Forest.env 0 _ bad badDoc badIs (badFits _) (by decide +kernel)

open Tests Sample Forest in
example : ∃ r, Returns lib Forest.env [c!"Tree"] good r :=
  C07_recursive_partial lib Forest.env 0 _ good goodDoc goodIs (goodTree _)

open Tests Sample Forest in
example (r : Res Val) : Returns lib Forest.env [c!"Tree"] bad r ↔ Returns lib Forest.env [c!"Tree"] (bad ++ c!"<Tree>&!") r :=
  C28_trailing_open lib Forest.env 0 _ bad _ badDoc badIs ⟨[.start ⟨c!"Tree", none, none⟩ [] []], by decide +kernel⟩ (badFits _)
    (by decide +kernel) r

open Tests Sample Forest in
/-- The document of `good`, spelled as `x` allows. -/
example {x : Node} {s : Str} (h : Spell.Doc x s) (hx : x = goodDoc) (v : Val) :
    Returns lib Forest.env [c!"Tree"] s (.ok v) ↔ v = goodVal := by
  subst hx
  rw [C74_recursive_partial lib rfl Forest.env 0 _ h (goodTree _)]
  constructor
  · intro h1
    have h2 := (C94_recursive lib Forest.env 0 [c!"Tree"] good goodDoc goodIs (goodTree _) goodVal).mp goodReturns
    rw [h2] at h1
    cases h1
    rfl
  · rintro rfl
    exact (C94_recursive lib Forest.env 0 [c!"Tree"] good goodDoc goodIs (goodTree _) goodVal).mp goodReturns

/-! ### Added fields -/

/-- C73 with the writer, for recursive types (`C50_recursive_partial`): what the newer program writes is read by the older
one. -/
theorem C73_recursive_writes {L : Lib} (hx : XmlLaw L) {env env' : Env} (hg : Grow env env') (hnf : NoFlatten env')
    {own : Path → Option Str} (hs : SimpleProgram (env'.owned own)) (hw : Restores env')
    (hpr : ∀ p d, env' p = some (.prim d) → Inverts d) (hle : LeafEnums env')
    (hhead : ∀ p d nm, env' p = some (.struct d) → own p = some nm → d.Headed env' nm)
    {p : Path} (hold : env p ≠ none) {td : TypeDef} (hp : env' p = some td) (hn : isNCName td.elementName = true)
    (hfit : NameFits (env'.owned own) p td.elementName) {v' : Val} (hv : HasTy env' (.struct p) v') (ht : v'.Tame L) :
    ∃ s v, toString L env' p v' = .ok s ∧ Returns L env p s (.ok v) ∧ Cut env env' (.struct p) v v' := by
  obtain ⟨s, y, k, h1, h2, h3, h4⟩ := recursive_doc hx (ownOnly_owned env' own) hs hw hpr hle
    (hhead_owned hhead) hp hn hfit hv ht {} blank_default
  obtain ⟨v, h5, h6⟩ := C73_older_program_reads hg hnf hold h2 (.inr h3) ((C94_recursive L env' k p s y h2 h3 v').mpr h4)
  exact ⟨s, v, h1, h5, h6⟩

/-! ### Examples -/

namespace Forest
open Tests Sample

theorem env_tree : Forest.env [c!"Tree"] = some (.struct tree) := rfl

/-- The document of `good`, with an unknown element in the inner node, after its first child. -/
def noted : Str := c!"<Tree id=\"r\"><label>top</label><node id=\"a\"><node id=\"b\"/><note>n</note><label>x</label><node id=\"c\">t</node></node></Tree>"
def notedDoc : Node :=
  elA c!"Tree" [(c!"id", c!"r")] [el c!"label" [tx c!"top"],
    elA c!"node" [(c!"id", c!"a")] [elA c!"node" [(c!"id", c!"b")] [], el c!"note" [tx c!"n"], el c!"label" [tx c!"x"],
      elA c!"node" [(c!"id", c!"c")] [tx c!"t"]]]

theorem notedWithin : Within Forest.env InsertLater [c!"Tree"] goodDoc notedDoc :=
  .field (pre := [_]) (post := []) (i := 1) env_tree (by decide) rfl rfl
    (.here env_tree ⟨_, _, _, [elA c!"node" [(c!"id", c!"b")] []], _, ⟨c!"note", none, none⟩, [], [], _, rfl, rfl,
      by decide, by simp, .inl (by simp)⟩)

example : Returns lib Forest.env [c!"Tree"] noted (.ok goodVal) :=
  (C09_recursive_partial lib Forest.env 0 [c!"Tree"] good noted goodDoc notedDoc goodIs ⟨[], by decide +kernel⟩
    (goodTree _) notedWithin goodVal).mp goodReturns

/-- An empty label in front, which says nothing. -/
def blank : Str := c!"<Tree id=\"r\"><node id=\"a\"><node id=\"b\"/><label/></node></Tree>"
def blankDoc (ks : List Node) : Node :=
  elA c!"Tree" [(c!"id", c!"r")] [elA c!"node" [(c!"id", c!"a")] (elA c!"node" [(c!"id", c!"b")] [] :: ks)]
def plainText : Str := c!"<Tree id=\"r\"><node id=\"a\"><node id=\"b\"/></node></Tree>"
def blankVal : Val :=
  .struct [.str c!"r", .vec [.struct [.str c!"a", .vec [.struct [.str c!"b", .vec [], .none]], .none]], .none]

theorem blankTree (fc : Node → Path → Prop) : treeNode lib Forest.env fc (blankDoc [el c!"label" []]) [c!"Tree"] := by
  refine ⟨plain_of_check (by decide), fit _ _, .inl (by decide), ?_⟩
  simp only [treeKids, and_true]
  refine kid_node _ _ _ (.inr (.inr ⟨1, [c!"Tree"], by decide, ?_⟩)) ?_
  · rintro _ _ _ _ _ h
    cases h
    exact ⟨by decide, by decide⟩
  · simp only [treeKids, and_true]
    refine ⟨kid_node _ _ _ (.inr (.inr ⟨1, [c!"Tree"], by decide, by simp⟩)) trivial, ?_⟩
    rw [el, treeKid]
    exact ⟨by simp, trivial⟩

example : Returns lib Forest.env [c!"Tree"] plainText (.ok blankVal) :=
  (C16_recursive_partial lib Forest.env 0 [c!"Tree"] blank plainText (blankDoc [el c!"label" []]) (blankDoc [])
    ⟨[], by decide +kernel⟩ ⟨[], by decide +kernel⟩ (blankTree _)
    (.field (pre := []) (post := []) (i := 1) env_tree (by decide) rfl rfl
      (.here env_tree ⟨_, _, _, [elA c!"node" [(c!"id", c!"b")] []], [], ⟨c!"label", none, none⟩, [], [], [], 2, _, .string, rfl, rfl,
        by decide, rfl, rfl, .inl rfl⟩)) blankVal).mp (returns_of_deOk (by decide +kernel))

/-- The label after the nodes. -/
def moved : Str := c!"<Tree id=\"r\"><label>top</label><node id=\"a\"><node id=\"b\"/><node id=\"c\">t</node><label>x</label></node></Tree>"
def movedDoc : Node :=
  elA c!"Tree" [(c!"id", c!"r")] [el c!"label" [tx c!"top"],
    elA c!"node" [(c!"id", c!"a")] [elA c!"node" [(c!"id", c!"b")] [], elA c!"node" [(c!"id", c!"c")] [tx c!"t"],
      el c!"label" [tx c!"x"]]]

theorem movedTree (fc : Node → Path → Prop) : treeNode lib Forest.env fc movedDoc [c!"Tree"] := by
  refine ⟨plain_of_check (by decide), fit _ _, .inl (by decide), ?_⟩
  simp only [treeKids, and_true]
  refine ⟨kid_label _ _, kid_node _ _ _ (.inr (.inr ⟨1, [c!"Tree"], by decide, ?_⟩)) ?_⟩
  · rintro _ _ _ _ _ h
    cases h
    exact ⟨by decide, by decide⟩
  · simp only [treeKids, and_true]
    refine ⟨kid_node _ _ _ (.inr (.inr ⟨1, [c!"Tree"], by decide, by simp⟩)) trivial,
      kid_node _ _ _ (.inr (.inr ⟨1, [c!"Tree"], by decide, by simp [tx]⟩)) ?_, kid_label _ _⟩
    simp only [treeKids, and_true, tx, treeKid]
    simp

theorem movedWithin : Within Forest.env Permuted [c!"Tree"] goodDoc movedDoc := by
  refine .field (pre := [_]) (post := []) (i := 1) env_tree (by decide) rfl rfl
    (.here env_tree ⟨_, _, _, _, _, rfl, rfl, (List.Perm.swap ..).cons _, ?_, ?_⟩)
  · intro l
    by_cases h1 : l = some (c!"node", [])
    · subst h1; rfl
    · by_cases h2 : l = some (c!"label", [])
      · subst h2; rfl
      · simp [Node.label, elA, el, Ne.symm h1, Ne.symm h2]
  · intro cn cas cm cks _ f hf ht
    simp only [tree, List.mem_cons, List.not_mem_nil, or_false] at hf
    rcases hf with rfl | rfl | rfl <;> simp [F, attr] at ht

example : Returns lib Forest.env [c!"Tree"] moved (.ok goodVal) :=
  (C10_recursive_partial lib Forest.env 0 [c!"Tree"] good moved goodDoc movedDoc goodIs ⟨[], by decide +kernel⟩
    (goodTree _) (movedTree _) movedWithin goodVal).mp goodReturns

/-- The inner node is taken for a node of its own: the fields of the outer one, all the same (`OkDoc`). -/
theorem goodOk : OkDoc lib Forest.env 0 [c!"Tree"] tree c!"<node id=\"a\"><node id=\"b\"/><label>x</label><node id=\"c\">t</node></node>"
    ⟨c!"node", none, none⟩ [⟨⟨c!"id", none, none⟩, c!"a"⟩] []
    [elA c!"node" [(c!"id", c!"b")] [], el c!"label" [tx c!"x"], elA c!"node" [(c!"id", c!"c")] [tx c!"t"]]
    [.str c!"a", .vec [.struct [.str c!"b", .vec [], .none], .struct [.str c!"c", .vec [], .none]], .some (.str c!"x")] where
  isStruct := rfl
  doc := ⟨[], by decide +kernel⟩
  conf := by
    refine .inr ⟨plain_of_check (by decide), fit _ _, .inr (.inr ⟨1, [c!"Tree"], by decide, ?_⟩), ?_⟩
    · rintro _ _ _ _ _ h
      cases h
      exact ⟨by decide, by decide⟩
    · simp only [treeKids, and_true]
      refine ⟨kid_node _ _ _ (.inr (.inr ⟨1, [c!"Tree"], by decide, by simp⟩)) trivial, kid_label _ _,
        kid_node _ _ _ (.inr (.inr ⟨1, [c!"Tree"], by decide, by simp [tx]⟩)) ?_⟩
      simp only [treeKids, and_true, tx, treeKid]
      simp
  returns := returns_of_deOk (by decide +kernel)

example : ∃ items, ([.str c!"a", .vec [.struct [.str c!"b", .vec [], .none], .struct [.str c!"c", .vec [], .none]],
      .some (.str c!"x")] : List Val)[1]? = some (.vec items) ∧
    List.Forall₂ (fun c v => decodeN lib Forest.env 0 c [c!"Tree"] = .ok v)
      [elA c!"node" [(c!"id", c!"b")] [], elA c!"node" [(c!"id", c!"c")] [tx c!"t"]] items :=
  C11_vec_struct_partial _ _ _ _ _ _ _ _ _ _ _ goodOk 1 _ _ rfl rfl rfl

/-! An older version, `struct Tree { node: Vec<Tree>, #[attribute] id: String }`. -/

def oldTree : StructDef := { name := c!"Tree", fields := [F c!"node" (V (T c!"Tree")), F c!"id" Tests.S attr] }
def oldEnv : Env := envOf [([c!"Tree"], .struct oldTree)]

theorem oldEnv_cases {p : Path} {td : TypeDef} (h : oldEnv p = some td) : p = [c!"Tree"] ∧ td = .struct oldTree := by
  have := mem_envOf h
  simpa using this

theorem grow_old {env' : Env} {d' : StructDef} (hp : env' [c!"Tree"] = some (.struct d')) (hg : GrowStruct oldEnv env' oldTree d') :
    Grow oldEnv env' where
  structs p d h := by
    obtain ⟨rfl, h⟩ := oldEnv_cases h
    cases h
    exact ⟨d', hp, hg⟩
  enums p d h := by
    obtain ⟨-, h⟩ := oldEnv_cases h
    cases h
  prims p d h := by
    obtain ⟨-, h⟩ := oldEnv_cases h
    cases h
  fieldTys p d h f hf q hq := by
    obtain ⟨rfl, h⟩ := oldEnv_cases h
    cases h
    simp only [oldTree, List.mem_cons, List.not_mem_nil, or_false] at hf
    rcases hf with rfl | rfl <;> cases hq
    decide
  payloadTys p d h := by
    obtain ⟨-, h⟩ := oldEnv_cases h
    cases h

theorem growForest : Grow oldEnv Forest.env := by
  refine grow_old rfl (growStruct_of rfl rfl (plain_of_check (by decide)) (by decide) (by decide) (by decide) ?_)
  intro f hf
  simp only [oldTree, List.mem_cons, List.not_mem_nil, or_false] at hf
  rcases hf with rfl | rfl
  · exact ⟨_, by simp [tree], kept_self rfl⟩
  · exact ⟨_, by simp [tree], kept_self rfl⟩

theorem noFlattenForest : NoFlatten Forest.env := by
  intro p d hp
  have := mem_envOf hp
  simp only [List.mem_cons, Prod.mk.injEq, List.not_mem_nil, or_false, TypeDef.struct.injEq] at this
  obtain ⟨-, rfl⟩ := this
  exact noFlat_iff.mpr (by decide)

/-- The older version reads `good`. -/
example : ∃ v, Returns lib oldEnv [c!"Tree"] good (.ok v) ∧ Cut oldEnv Forest.env (.struct [c!"Tree"]) v goodVal :=
  C73_older_program_reads (k := 0) growForest noFlattenForest (by decide) goodIs (.inr (goodTree _)) goodReturns

/-- The newer version reads a document without labels. -/
example : ∃ v', Returns lib Forest.env [c!"Tree"] plainText (.ok v') ∧ Cut oldEnv Forest.env (.struct [c!"Tree"])
    (.struct [.vec [.struct [.vec [.struct [.vec [], .str c!"b"]], .str c!"a"]], .str c!"r"]) v' := by
  have hadded : ∀ f', AddedField oldEnv Forest.env f' → f' = F c!"label" (O Tests.S) := by
    rintro f' ⟨p, d, d', hp, hp', hf', hno⟩
    obtain ⟨rfl, h⟩ := oldEnv_cases hp
    cases h
    rw [env_tree] at hp'
    cases hp'
    simp only [tree, List.mem_cons, List.not_mem_nil, or_false] at hf'
    rcases hf' with rfl | rfl | rfl
    · exact absurd rfl (hno (F c!"id" Tests.S attr) (by simp [oldTree]))
    · exact absurd rfl (hno (F c!"node" (V (T c!"Tree"))) (by simp [oldTree]))
    · rfl
  refine C73_newer_program_reads (x := blankDoc []) growForest noFlattenForest ?_ ⟨[], by decide +kernel⟩ (.inr ?_) ?_
    (returns_of_deOk (by decide +kernel))
  · intro f' h
    rw [hadded f' h]
    exact ⟨rfl, .inl ⟨_, rfl⟩⟩
  · have hfit : ∀ as, AttrsFit (flatConfN lib oldEnv 0) oldTree as := by
      intro as f hf h1 q hq
      simp only [oldTree, List.mem_cons, List.not_mem_nil, or_false] at hf
      rcases hf with rfl | rfl <;> simp [F, FTy.core, Tests.S, V, T, attr] at h1 hq
    have kid : ∀ as ks, soundFirst oldEnv oldTree ⟨c!"node", none, none⟩ ks → treeKids lib oldEnv (flatConfN lib oldEnv 0) oldTree ks →
        treeKid lib oldEnv (flatConfN lib oldEnv 0) oldTree (elA c!"node" as ks) := by
      intro as ks h hk
      rw [elA, treeKid]
      exact ⟨by simp, plain_of_check (by decide), hfit _, h, hk⟩
    refine ⟨plain_of_check (by decide), hfit _, .inl (by decide), ?_⟩
    simp only [treeKids, and_true]
    refine kid _ _ (.inr (.inr ⟨0, [c!"Tree"], by decide, ?_⟩)) ?_
    · rintro _ _ _ _ _ h
      cases h
      exact ⟨by decide, by decide⟩
    · simp only [treeKids, and_true]
      exact kid _ _ (.inr (.inr ⟨0, [c!"Tree"], by decide, by simp⟩)) trivial
  · refine silent_of_check (ls := [c!"label"]) (fun l h => ?_) _ (by decide)
    obtain ⟨f', h1, h2⟩ := h
    rw [hadded f' h1] at h2
    rw [← h2]
    decide

/-- What the program of `Namesake` writes for a tree of nodes is read by the older version. -/
example : ∃ s v, toString lib Namesake.env [c!"Tree"] Namesake.forest = .ok s ∧ Returns lib oldEnv [c!"Tree"] s (.ok v) ∧
    Cut oldEnv Namesake.env (.struct [c!"Tree"]) v Namesake.forest := by
  refine C73_recursive_writes xml (grow_old (d' := Namesake.tree) rfl (growStruct_of rfl rfl (plain_of_check (by decide)) (by decide) (by decide) (by decide) ?_))
    ?_ Namesake.simple (restores_of_writesAll (writesAll_of_check Namesake.prog (by decide))) Namesake.prims Namesake.leaf Namesake.headed
    (by decide) (td := .struct Namesake.tree) rfl (by decide) (nameFits_of_check (by decide +kernel))
    (hasTy_of_check _ (T c!"Tree") _ (by decide +kernel)) (tame_of_check _ _ (by decide +kernel))
  · intro f hf
    simp only [oldTree, List.mem_cons, List.not_mem_nil, or_false] at hf
    rcases hf with rfl | rfl
    · exact ⟨_, by simp [Namesake.tree], kept_self rfl⟩
    · exact ⟨_, by simp [Namesake.tree], kept_self rfl⟩
  · intro p d hp
    have := mem_envOf hp
    simp only [Namesake.prog, mkS, mkE, List.mem_cons, Prod.mk.injEq, List.not_mem_nil, or_false, reduceCtorEq, and_false,
      false_or, TypeDef.struct.injEq] at this
    rcases this with ⟨-, rfl⟩ | ⟨-, rfl⟩ | ⟨-, rfl⟩ | ⟨-, rfl⟩ <;> exact noFlat_iff.mpr (by decide)

end Forest

open Tests Sample Forest in
/-- Inserted first in an element named like a field of the struct it is read as, an unknown child is read as a value of that
field. -/
theorem C09_recursive_false : ∃ (L : Lib) (env : Env) (p : Path) (s t : Str) (x y : Node) (v w : Val), XmlLaw L ∧
    IsDoc (L.parse s) x ∧ IsDoc (L.parse t) y ∧ treeNode L env (attrConf L env 0) x p ∧ Within env InsertUnknown p x y ∧
    Returns L env p s (.ok v) ∧ Returns L env p t (.ok w) ∧ v ≠ w := by
  refine ⟨lib, Forest.env, [c!"Tree"], c!"<Tree id=\"r\"><node id=\"a\"></node></Tree>", bad,
    elA c!"Tree" [(c!"id", c!"r")] [elA c!"node" [(c!"id", c!"a")] []], badDoc, badMeant, badVal, xml, ⟨[], by decide +kernel⟩, badIs,
    ⟨plain_of_check (by decide), fit _ _, .inl (by decide), ?_⟩, ?_, returns_of_deOk (by decide +kernel),
    returns_of_deOk (by decide +kernel), by simp [badVal, badMeant]⟩
  · simp only [treeKids, and_true]
    exact kid_node _ _ _ (.inr (.inr ⟨1, [c!"Tree"], by decide, by simp⟩)) trivial
  · exact .field (pre := []) (post := []) (i := 1) env_tree (by decide) rfl rfl
      (.here env_tree ⟨_, _, _, [], [], ⟨c!"note", none, none⟩, _, [], _, rfl, rfl, by decide, by simp⟩)

end Yaserde
