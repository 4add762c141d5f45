import Verif.Proofs.Expose
import Verif.Props.AnyDoc
/-
Property C93: documents with elements inside scalars.  `Returns L env p s r`: `from_str::<p>(s)` returns `r`.
-/

set_option autoImplicit false
set_option maxRecDepth 100000

namespace Yaserde

/-- C93.  A document with elements inside scalars is read as the document in which these have been moved out, if that
conforms — both successes and failures. -/
theorem C93_exposed (L : Lib) (env : Env) (k : Nat) (p : Path) (s : Str) (x : Node) (hdoc : IsDoc (L.parse s) x)
    (hconf : ConfN L env k (x.exposed L env p) p) (hfloat : x.afloat L env p) (r : Res Val) :
    Returns L env p s r ↔ r = decodeDocN L env k (x.exposed L env p) p := by
  obtain ⟨post, hpost⟩ := hdoc
  have hat := at_new' (L.parse s)
  rw [hpost] at hat
  have hrun := deser_exposed L env (x.events.length + levelFuel k + 1) k x p hconf hfloat (by omega) 0 post _ _ hat
  obtain ⟨h1, h2⟩ := hrun.doc
  have h3 : decodeAt L env k 0 (x.exposed L env p) p = decodeDocN L env k (x.exposed L env p) p := by
    simp only [decodeAt, if_true, decodeDocN]
  rw [h3] at h1 h2
  have hret : Returns L env p s (decodeDocN L env k (x.exposed L env p) p) := ⟨h2, _, h1⟩
  constructor
  · intro h; exact (C27_budget_irrelevant L env p s).2 _ _ h hret
  · rintro rfl; exact hret

/-- C93.  This includes every conforming document: nothing in it moves. -/
theorem C93_conforming (L : Lib) (env : Env) (k : Nat) (p : Path) (x : Node) (h : ConfN L env k x p) :
    x.exposed L env p = x ∧ x.afloat L env p := by
  rw [confN_eq] at h
  exact exposed_conf L env _ x p h

/-- C93, field by field (compare `C08_ok_fields_partial`): the inputs of the fields are those found among the children
once moved out. -/
theorem C93_fields (L : Lib) (env : Env) (k : Nat) (p : Path) (d : StructDef) (hp : env p = some (.struct d))
    (hflat : d.hasFlat = false) (s : Str) (n : Name) (as : List Attr) (m : NsMap) (ks : List Node)
    (hdoc : IsDoc (L.parse s) (.elem n as m ks)) (hconf : ConfN L env k (.elem n as m (exposedKids L env d ks)) p)
    (hfloat : (afloatKids L env d ks 1).isSome = true) (v : Val) :
    Returns L env p s (.ok v) ↔ nsOk d.attrs n ∧
      ∃ vs, v = .struct vs ∧ vs.length = d.fields.length ∧
        ∀ (i : Nat) (f : FieldDef) (w : Val), d.fields[i]? = some f → vs[i]? = some w →
          ∃ ins, fieldInputs L (decodeN L env k) (flatN L env k) d n as m (exposedKids L env d ks) i f = ins.map .ok ∧
            fieldValue d.name f ins = .ok w := by
  have hu : env.unflat p = some d := by unfold Env.unflat; rw [hp]; simp [hflat]
  have hx : (Node.elem n as m ks).exposed L env p = .elem n as m (exposedKids L env d ks) := by
    unfold Node.exposed; dsimp only; rw [hu]
  rw [C93_exposed L env k p s _ hdoc (by rw [hx]; exact hconf) (by intro d' hd; rw [hu] at hd; cases hd; exact hfloat), hx]
  unfold decodeDocN decodeDocWith
  rw [hp]
  dsimp only
  constructor
  · intro h
    split at h
    · rename_i hns
      exact ⟨hns, (decodeN_struct_ok_iff L env k p d hp n as m _ v).mp h.symm⟩
    · cases h
  · rintro ⟨hns, h⟩
    rw [if_pos (show nsOk d.attrs (Node.elem n as m _).name from hns)]
    exact ((decodeN_struct_ok_iff L env k p d hp n as m _ v).mpr h).symm

/-- C93.  A child of a scalar field with an element first in it may be replaced by its content. -/
theorem C93_beside (L : Lib) (env : Env) (k : Nat) (p : Path) (d : StructDef) (hp : env p = some (.struct d))
    (hflat : d.hasFlat = false) (s t : Str) (n cn en : Name) (as cas eas : List Attr) (m cm em : NsMap)
    (pre eks more post : List Node) (ty : STy) (hty : d.claimedTy cn = some (.simple ty)) (hns : cn.ns ≠ some [])
    (hs : IsDoc (L.parse s) (.elem n as m (pre ++ .elem cn cas cm (.elem en eas em eks :: more) :: post)))
    (ht : IsDoc (L.parse t) (.elem n as m (pre ++ (.elem en eas em eks :: more) ++ post)))
    (hconf : ConfN L env k ((Node.elem n as m (pre ++ (.elem en eas em eks :: more) ++ post)).exposed L env p) p)
    (hfloat : (Node.elem n as m (pre ++ (.elem en eas em eks :: more) ++ post)).afloat L env p) (r : Res Val) :
    Returns L env p s r ↔ Returns L env p t r := by
  have hu : env.unflat p = some d := by unfold Env.unflat; rw [hp]; simp [hflat]
  have hkid : exposedKid L env d (.elem cn cas cm (.elem en eas em eks :: more))
      = exposedKids L env d (.elem en eas em eks :: more) := by
    rw [exposedKid, hty]; dsimp only; rw [if_neg hns, exposedScalar, exposedKids]
  have hx : (Node.elem n as m (pre ++ .elem cn cas cm (.elem en eas em eks :: more) :: post)).exposed L env p
      = (Node.elem n as m (pre ++ (.elem en eas em eks :: more) ++ post)).exposed L env p := by
    unfold Node.exposed; dsimp only; rw [hu]; dsimp only
    rw [exposedKids_append, exposedKids_append, exposedKids_append, exposedKids, hkid, List.append_assoc]
  have hf : (Node.elem n as m (pre ++ .elem cn cas cm (.elem en eas em eks :: more) :: post)).afloat L env p := by
    intro d' hd
    rw [hu] at hd
    cases hd
    have h1 := hfloat d hu
    simp only [Node.content] at h1 ⊢
    rw [List.append_assoc, afloatKids_append, Option.isSome_iff_exists] at h1
    obtain ⟨c3, h1⟩ := h1
    rw [Option.bind_eq_some_iff] at h1
    obtain ⟨c1, h1, h2⟩ := h1
    rw [afloatKids_append, Option.bind_eq_some_iff] at h2
    obtain ⟨c2, h2, h3⟩ := h2
    have hpos : ¬ c1 ≤ 0 := by
      intro hle
      rw [afloatKids, afloatKid, if_pos hle] at h2
      cases h2
    have h4 := afloatKids_shift L env d _ c1 c2 1 (by omega) h2
    rw [afloatKids_append, h1, Option.bind_some, afloatKids, afloatKid, if_neg hpos, hty]
    dsimp only
    rw [show afloatScalar L env d ty (.elem en eas em eks :: more) (c1 + 1)
      = afloatKids L env d (.elem en eas em eks :: more) (c1 + 1) by rw [afloatScalar, afloatKids], h4]
    simp only [Option.map_some, Option.bind_some]
    rw [show c2 + 1 - 1 = c2 by omega, h3]
    rfl
  rw [C93_exposed L env k p s _ hs (by rw [hx]; exact hconf) hf, C93_exposed L env k p t _ ht hconf hfloat, hx]

namespace ExposeSample
open Tests Sample

/-- In `<note>` the well-formed text is followed by an element, whose tags are lost; in `<score>` there is an element and
no text. -/
def text2 : Str := c!"<book id=\"7\"><title>T</title><color>red</color><note>N<b><score>4</score></b>tail</note><score><author><name>A</name></author></score></book>"

def attrs2 : List Attr := [⟨⟨c!"id", none, none⟩, c!"7"⟩]
def nBook : Name := ⟨c!"book", none, none⟩
def kids2 : List Node :=
  [el c!"title" [tx c!"T"], el c!"color" [tx c!"red"],
    el c!"note" [tx c!"N", el c!"b" [el c!"score" [tx c!"4"]], tx c!"tail"], el c!"score" [authorA]]
def out2 : List Node :=
  [el c!"title" [tx c!"T"], el c!"color" [tx c!"red"], el c!"score" [tx c!"4"], tx c!"tail", authorA]

theorem isDoc2 : IsDoc (lib.parse text2) (.elem nBook attrs2 [] kids2) := ⟨[], by decide +kernel⟩
theorem exposed2 : exposedKids lib env book kids2 = out2 := by rfl
theorem afloat2 : (afloatKids lib env book kids2 1).isSome = true := by decide +kernel

theorem conf2 : ConfN lib env 0 (.elem nBook attrs2 [] out2) [c!"Book"] := by
  refine conf_book _ _ _ _ (.inr rfl) ?_
  intro k hk
  simp only [out2, List.mem_cons, List.not_mem_nil, or_false] at hk
  rcases hk with rfl | rfl | rfl | rfl | rfl
  · exact conf_title _
  · exact conf_red
  · exact conf_score _
  · exact conf_text _ (by simp)
  · exact conf_kidA

/-- The note is lost; the score, the text and the author inside are taken for those of the book. -/
def val2 : List Val :=
  [.int 7, .vec [], .str c!"T", .vec [.struct [.str c!"A", .none]], .vec [.int 4], .enum 1 [], .none, .some (.str c!"tail"),
    .int 5]

theorem returns2 : Returns lib env [c!"Book"] text2 (.ok (.struct val2)) := returns_of_deOk (by decide +kernel)

end ExposeSample

open Tests Sample ExposeSample in
example : Returns lib Sample.env [c!"Book"] text2 (decodeDocN lib Sample.env 0 (.elem nBook attrs2 [] out2) [c!"Book"]) ∧
    decodeDocN lib Sample.env 0 (.elem nBook attrs2 [] out2) [c!"Book"] = .ok (.struct val2) := by
  have hx : (Node.elem nBook attrs2 [] kids2).exposed lib Sample.env [c!"Book"] = .elem nBook attrs2 [] out2 := by rfl
  have h := C93_exposed lib Sample.env 0 [c!"Book"] text2 _ isDoc2 (by rw [hx]; exact conf2)
    (by intro d hd; cases hd; exact afloat2)
  rw [hx] at h
  exact ⟨(h _).mpr rfl, ((h _).mp returns2).symm⟩

open Tests Sample ExposeSample in
example : ∃ ins, fieldInputs lib (decodeN lib Sample.env 0) (flatN lib Sample.env 0) book nBook attrs2 [] out2 4
    (F c!"score" (V (I .i32))) = ins.map .ok ∧ fieldValue book.name (F c!"score" (V (I .i32))) ins = .ok (.vec [.int 4]) := by
  obtain ⟨-, vs, hv, -, h⟩ := (C93_fields lib Sample.env 0 [c!"Book"] book rfl (by decide) text2 nBook attrs2 [] kids2 isDoc2
    (by rw [exposed2]; exact conf2) afloat2 _).mp returns2
  cases hv
  exact h 4 _ _ rfl rfl

open Tests Sample ExposeSample in
/-- `<score><author>…</author></score>` against `<author>…</author>`. -/
example (r : Res Val) :
    Returns lib Sample.env [c!"Book"] c!"<book id=\"7\"><title>T</title><color>red</color><score><author><name>A</name></author></score>x</book>" r ↔
    Returns lib Sample.env [c!"Book"] c!"<book id=\"7\"><title>T</title><color>red</color><author><name>A</name></author>x</book>" r :=
  C93_beside lib Sample.env 0 [c!"Book"] book rfl (by decide) _ _ nBook ⟨c!"score", none, none⟩ ⟨c!"author", none, none⟩ attrs2 [] []
    [] [] [] [el c!"title" [tx c!"T"], el c!"color" [tx c!"red"]] [el c!"name" [tx c!"A"]] [] [tx c!"x"] (.int .i32) (by decide)
    (by decide) ⟨[], by decide +kernel⟩ ⟨[], by decide +kernel⟩
    (by
      show ConfN lib Sample.env 0 (.elem nBook attrs2 [] [el c!"title" [tx c!"T"], el c!"color" [tx c!"red"], authorA, tx c!"x"])
        [c!"Book"]
      refine conf_book _ _ _ _ (.inr rfl) ?_
      intro k hk
      simp only [List.mem_cons, List.not_mem_nil, or_false] at hk
      rcases hk with rfl | rfl | rfl | rfl
      · exact conf_title _
      · exact conf_red
      · exact conf_kidA
      · exact conf_text _ (by simp))
    (by intro d hd; cases hd; decide +kernel) r

open Tests Sample Leaky in
/-- **Without the counter staying positive it is false**: in `<A><n>1<x/></n><y><m>7</m></y></A>` it is zero at `<y>`, which
is then not skipped. -/
theorem C93_counter_needed : ∃ (L : Lib) (env : Env) (p : Path) (s : Str) (x : Node) (v w : Val), XmlLaw L ∧ IsDoc (L.parse s) x ∧
    ConfN L env 0 (x.exposed L env p) p ∧ ¬ x.afloat L env p ∧ Returns L env p s (.ok v) ∧
    decodeDocN L env 0 (x.exposed L env p) p = .ok w ∧ v ≠ w := by
  refine ⟨lib, Leaky.env, [c!"A"], c!"<A><n>1<x/></n><y><m>7</m></y></A>", el c!"A" [bad, el c!"y" [el c!"m" [tx c!"7"]]],
    .struct [.none, .none, .some (.int 7), .none, .vec []], .struct [.none, .none, .none, .none, .vec []], xml,
    ⟨[], by decide +kernel⟩, ?_, ?_, returns_of_deOk (by decide +kernel), rfl, by simp⟩
  · show ConfN lib Leaky.env 0 (el c!"A" [el c!"y" [el c!"m" [tx c!"7"]]]) [c!"A"]
    rw [confN_eq, el, ConfWith]
    refine ⟨plain_of_check (by decide), .inl (by decide), ?_, ?_, ?_⟩
    · simp only [ConfKids, and_true]
      rw [el, ConfKid]
      refine ⟨by simp, fun i f hi => ?_⟩
      exact absurd hi (by decide +revert)
    · intro f hf h1 h2
      exact (not_hasFlat Leaky.sA (by decide) ⟨f, hf, h1, h2⟩).elim
    · intro f hf h1 q hq
      simp only [Leaky.sA, List.mem_cons, List.not_mem_nil, or_false] at hf
      rcases hf with rfl | rfl | rfl | rfl | rfl <;>
        simp [F, FTy.core, Tests.S, I, O, V, T, attr] at h1 hq
  · intro h
    have := h Leaky.sA rfl
    revert this
    decide +kernel

end Yaserde
