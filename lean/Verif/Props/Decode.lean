import Verif.Proofs.Readable
import Verif.Proofs.Matching
import Verif.Proofs.Words
import Verif.Props.Runtime
import Verif.Props.Sample
import Mathlib.Data.List.Forall2
/-
Properties C08-C17, C19-C21, C25: what the deserializer of a struct (enum) returns on conforming
documents, and (`OkDoc`) on documents of recursive types.  `Returns L env p s r`: `from_str::<p>(s)` returns `r`.
-/

set_option autoImplicit false
set_option maxRecDepth 100000

namespace Yaserde

/-! ### C08: the declarative reading -/

/-- C08.  `from_str` of a struct on a conforming document. -/
theorem C08_struct_reading_partial (L : Lib) (env : Env) (k : Nat) (p : Path) (s : Str) (x : Node)
    (hdoc : IsDoc (L.parse s) x) (hconf : Conf L env k x p) (r : Res Val) :
    Returns L env p s r ↔ r = decodeDocN L env k x p :=
  returns_iff L env k p s x hdoc hconf.confN r

open Sample in
example : Returns Tests.lib env [c!"Book"] text1 (decodeDocN Tests.lib env 0 doc1 [c!"Book"]) :=
  (C08_struct_reading_partial _ _ _ _ _ _ isDoc1 conf1 _).mpr rfl

/-- The success case, with everything known about the element `<n as>ks</n>` at hand.  The document conforms, or is one of
a recursive type: structs may be named like their own fields (C94). -/
structure OkDoc (L : Lib) (env : Env) (k : Nat) (p : Path) (d : StructDef) (s : Str) (n : Name)
    (as : List Attr) (m : NsMap) (ks : List Node) (vs : List Val) : Prop where
  isStruct : env p = some (.struct d)
  doc : IsDoc (L.parse s) (.elem n as m ks)
  conf : Readable L env k (.elem n as m ks) p
  returns : Returns L env p s (.ok (.struct vs))

/-- C08, field by field: `from_str` succeeds exactly with the struct value each of whose fields is
made from that field's inputs (its attribute, its children, the text, or — flattened — the
residue), and only if the document element's namespace is right. -/
theorem C08_ok_fields_partial (L : Lib) (env : Env) (k : Nat) (p : Path) (d : StructDef)
    (hp : env p = some (.struct d)) (s : Str) (n : Name) (as : List Attr) (m : NsMap) (ks : List Node)
    (hdoc : IsDoc (L.parse s) (.elem n as m ks)) (hconf : Readable L env k (.elem n as m ks) p) (v : Val) :
    Returns L env p s (.ok v) ↔ nsOk d.attrs n ∧
      ∃ vs, v = .struct vs ∧ vs.length = d.fields.length ∧
        ∀ (i : Nat) (f : FieldDef) (w : Val), d.fields[i]? = some f → vs[i]? = some w →
          ∃ ins, fieldInputs L (decodeN L env k) (flatN L env k) d n as m ks i f = ins.map .ok ∧
            fieldValue d.name f ins = .ok w := by
  rw [hconf.returns hdoc]
  unfold decodeDocN decodeDocWith
  rw [hp]
  dsimp only
  constructor
  · intro h
    split at h
    · rename_i hns
      exact ⟨hns, (decodeN_struct_ok_iff L env k p d hp n as m ks v).mp h⟩
    · cases h
  · rintro ⟨hns, h⟩
    rw [if_pos (show nsOk d.attrs (Node.elem n as m ks).name from hns)]
    exact (decodeN_struct_ok_iff L env k p d hp n as m ks v).mpr h

open Sample in
/-- The sample document. -/
theorem Sample.ok1 : OkDoc Tests.lib env 0 [c!"Book"] book text1 ⟨c!"book", none, none⟩
    [⟨⟨c!"tags", none, none⟩, c!"a b"⟩, ⟨⟨c!"id", none, none⟩, c!"7"⟩] [] kids1 val1 :=
  ⟨env_book, isDoc1, .inl conf1, returns1⟩

section
variable {L : Lib} {env : Env} {k : Nat} {p : Path} {d : StructDef} {s : Str} {n : Name}
  {as : List Attr} {m : NsMap} {ks : List Node} {vs : List Val}

theorem OkDoc.field (h : OkDoc L env k p d s n as m ks vs) {i : Nat} {f : FieldDef}
    (hf : d.fields[i]? = some f) :
    ∃ w ins, vs[i]? = some w ∧
      fieldInputs L (decodeN L env k) (flatN L env k) d n as m ks i f = ins.map .ok ∧
        fieldValue d.name f ins = .ok w := by
  obtain ⟨-, vs', hv, hl, hfs⟩ := (C08_ok_fields_partial L env k p d h.isStruct s n as m ks h.doc h.conf _).mp h.returns
  cases hv
  have hi : i < vs.length := by
    have := (List.getElem?_eq_some_iff.mp hf).1; omega
  have hw : vs[i]? = some vs[i] := List.getElem?_eq_getElem hi
  obtain ⟨ins, h1, h2⟩ := hfs i f _ hf hw
  exact ⟨_, ins, hw, h1, h2⟩

theorem OkDoc.plain (h : OkDoc L env k p d s n as m ks vs) : d.Plain :=
  h.conf.plain h.isStruct

end

/-! ### C09, C10, C16: changes anywhere in the document -/

theorem returns_congr {L : Lib} {env : Env} {k : Nat} {p : Path} {s t : Str} {x y : Node}
    (hx : IsDoc (L.parse s) x) (hy : IsDoc (L.parse t) y) (hcx : Conf L env k x p) (hcy : Conf L env k y p)
    (hname : x.name = y.name) (h : decodeN L env k x p = decodeN L env k y p) (r : Res Val) :
    Returns L env p s r ↔ Returns L env p t r := by
  rw [C08_struct_reading_partial L env k p s x hx hcx, C08_struct_reading_partial L env k p t y hy hcy]
  unfold decodeDocN decodeDocWith
  rw [hname, h]

theorem within_name {env : Env} {R : StructDef → Node → Node → Prop} {p : Path} {x y : Node}
    (hR : ∀ d x y, R d x y → x.name = y.name) (h : Within env R p x y) : x.name = y.name := by
  cases h with
  | here hp h => exact hR _ _ _ h
  | field => rfl
  | variant => rfl

/-- C09.  Inserting, in the element of any struct in the document, a child that no field of that
struct claims does not change the result (success, error or panic). -/
theorem C09_unknown_ignored_partial (L : Lib) (env : Env) (k : Nat) (p : Path) (s t : Str) (x y : Node)
    (hx : IsDoc (L.parse s) x) (hy : IsDoc (L.parse t) y) (hconf : Conf L env k x p)
    (hins : Within env InsertUnknown p x y) (r : Res Val) :
    Returns L env p s r ↔ Returns L env p t r := by
  obtain ⟨hc, he⟩ := within_congr ResRel.eq (insertUnknown_local L env k) hins hconf
  refine returns_congr hx hy hconf hc (within_name ?_ hins) he r
  rintro d x y ⟨n, as, m, pre, post, un, uas, um, uks, rfl, rfl, -⟩
  rfl

open Sample in
/-- An unknown child inserted into an author, two levels down. -/
example : Within env InsertUnknown [c!"Book"] (root [el c!"title" [tx c!"T"], authorA])
    (root [el c!"title" [tx c!"T"], el c!"author" [el c!"name" [tx c!"A"], el c!"book" [el c!"name" [tx c!"Z"]]]]) :=
  .field (pre := [_]) (post := []) (i := 3) env_book (by decide) rfl rfl
    (.here env_author ⟨_, _, _, [el c!"name" [tx c!"A"]], [], ⟨c!"book", none, none⟩, [], [], _, rfl, rfl,
      by decide, by simp⟩)

/-- C16.  Removing, in the element of any struct in the document, an empty or malformed child of a
scalar field does not change the result. -/
theorem C16_malformed_is_absent_partial (L : Lib) (env : Env) (k : Nat) (p : Path) (s t : Str) (x y : Node)
    (hx : IsDoc (L.parse s) x) (hy : IsDoc (L.parse t) y) (hconf : Conf L env k x p)
    (hrem : Within env (RemoveMalformed L) p x y) (r : Res Val) :
    Returns L env p s r ↔ Returns L env p t r := by
  obtain ⟨hc, he⟩ := within_congr ResRel.eq (removeMalformed_local L env k) hrem hconf
  refine returns_congr hx hy hconf hc (within_name ?_ hrem) he r
  rintro d x y ⟨n, as, m, pre, post, cn, cas, cm, cks, i, f, t, rfl, rfl, -⟩
  rfl

open Sample in
example : Within env (RemoveMalformed Tests.lib) [c!"Book"]
    (root [el c!"title" [tx c!"T"], el c!"author" [el c!"name" [tx c!"A"], el c!"age" [tx c!"300"]]])
    (root [el c!"title" [tx c!"T"], el c!"author" [el c!"name" [tx c!"A"]]]) :=
  .field (pre := [_]) (post := []) (i := 3) env_book (by decide) rfl rfl
    (.here env_author ⟨_, _, _, [el c!"name" [tx c!"A"]], [], ⟨c!"age", none, none⟩, [], [], _, 1, _, .int .u8,
      rfl, rfl, by decide, rfl, rfl, .inr ⟨c!"300", _, rfl, rfl⟩⟩)

/-- C10.  Permuting the children of any struct's element in the document, keeping the order of
children of the same name, changes neither whether `from_str` succeeds nor the value. -/
theorem C10_order_irrelevant_partial (L : Lib) (env : Env) (k : Nat) (p : Path) (s t : Str) (x y : Node)
    (hx : IsDoc (L.parse s) x) (hy : IsDoc (L.parse t) y) (hconf : Conf L env k x p)
    (hperm : Within env Permuted p x y) (v : Val) :
    Returns L env p s (.ok v) ↔ Returns L env p t (.ok v) := by
  obtain ⟨hc, he⟩ := within_congr ResRel.okEq (permuted_local L env k) hperm hconf
  have hn : x.name = y.name := by
    refine within_name ?_ hperm
    rintro d x y ⟨n, as, m, ks, ks', rfl, rfl, -⟩
    rfl
  rw [C08_struct_reading_partial L env k p s x hx hconf, C08_struct_reading_partial L env k p t y hy hc]
  unfold decodeDocN decodeDocWith
  rw [hn]
  split
  · split
    · rw [eq_comm, he v, eq_comm]
    · rfl
  · rw [eq_comm, he v, eq_comm]

open Sample in
example : Within env Permuted [c!"Book"] (root [authorA, el c!"score" [tx c!"1"], authorB, tx c!"t"])
    (root [tx c!"t", authorA, authorB, el c!"score" [tx c!"1"]]) := by
  refine .here env_book ⟨_, _, _, [authorA, el c!"score" [tx c!"1"], authorB, tx c!"t"],
    [tx c!"t", authorA, authorB, el c!"score" [tx c!"1"]], rfl, rfl, ?_, ?_, ?_⟩
  · exact ((List.Perm.swap ..).cons _).trans (List.perm_append_comm (l₁ := [_, _, _]) (l₂ := [_]))
      |>.trans (by exact .refl _)
  · intro l
    by_cases h1 : l = none
    · subst h1; rfl
    · by_cases h2 : l = some (c!"author", [])
      · subst h2; rfl
      · by_cases h3 : l = some (c!"score", [])
        · subst h3; rfl
        · simp [Node.label, authorA, authorB, el, tx, Ne.symm h1, Ne.symm h2, Ne.symm h3]
  · intro cn cas cm cks h f hf ht
    have : cn = ⟨c!"author", none, none⟩ ∨ cn = ⟨c!"score", none, none⟩ := by
      simp only [authorA, authorB, el, tx, List.mem_cons, List.not_mem_nil, or_false, Node.elem.injEq,
        reduceCtorEq] at h
      rcases h with h | h | h <;> simp [h.1]
    rcases this with rfl | rfl <;> revert f <;> decide

/-! ### C11, C12: Vec fields and repeated children -/

section
variable {L : Lib} {env : Env} {k : Nat} {p : Path} {d : StructDef} {s : Str} {n : Name}
  {as : List Attr} {m : NsMap} {ks : List Node} {vs : List Val}

/-- The value of an element field of scalar type. -/
theorem OkDoc.scalarField (h : OkDoc L env k p d s n as m ks vs) {i : Nat} {f : FieldDef} {t : STy}
    (hf : d.fields[i]? = some f) (he : f.isElem = true) (htext : f.attrs.text = false)
    (ht : f.ty.core = .simple t) :
    ∃ w, vs[i]? = some w ∧
      fieldValue d.name f ((matching d i ks).filterMap fun c => scalarContent L t c.content) = .ok w := by
  obtain ⟨w, ins, hw, h1, h2⟩ := h.field hf
  refine ⟨w, hw, ?_⟩
  unfold fieldInputs at h1
  rw [attrInputs_elem L _ f as he, flatInputs_elem _ f he, inputs_matching_simple L _ d i f t ht htext] at h1
  simp only [List.nil_append, List.append_nil] at h1
  rw [map_ok_inj h1]
  exact h2

/-- The value of an element field of struct, enum or primitive type. -/
theorem OkDoc.structField (h : OkDoc L env k p d s n as m ks vs) {i : Nat} {f : FieldDef} {q : Path}
    (hf : d.fields[i]? = some f) (he : f.isElem = true) (hq : f.ty.core = .struct q) :
    ∃ w ins, vs[i]? = some w ∧ ((matching d i ks).map fun c => decodeN L env k c q) = ins.map .ok ∧
      fieldValue d.name f ins = .ok w := by
  obtain ⟨w, ins, hw, h1, h2⟩ := h.field hf
  refine ⟨w, ins, hw, ?_, h2⟩
  have htext : f.attrs.text = false := by
    cases hx : f.attrs.text with
    | false => rfl
    | true =>
      rcases h.plain.textTy f (List.mem_of_getElem? hf) hx with h3 | h3 <;> rw [h3] at hq <;> cases hq
  unfold fieldInputs at h1
  rw [attrInputs_elem L _ f as he, flatInputs_elem _ f he, inputs_matching_struct L _ d i f q hq htext] at h1
  simpa using h1

end

/-- C11, scalars.  A `Vec` field holds the values of all well-formed matching children, in document
order, whatever stands between them. -/
theorem C11_vec_scalar_partial (L : Lib) (env : Env) (k : Nat) (p : Path) (d : StructDef) (s : Str) (n : Name)
    (as : List Attr) (m : NsMap) (ks : List Node) (vs : List Val)
    (h : OkDoc L env k p d s n as m ks vs) (i : Nat) (f : FieldDef) (t : STy)
    (hf : d.fields[i]? = some f) (he : f.isElem = true) (hty : f.ty = .vec (.simple t)) :
    vs[i]? = some (.vec ((matching d i ks).filterMap fun c => scalarContent L t c.content)) := by
  have htext : f.attrs.text = false := by
    cases hx : f.attrs.text with
    | false => rfl
    | true =>
      rcases h.plain.textTy f (List.mem_of_getElem? hf) hx with h3 | h3 <;> rw [h3] at hty <;> cases hty
  obtain ⟨w, hw, hv⟩ := h.scalarField hf he htext (by rw [hty]; rfl)
  simp only [fieldValue, hty, Res.ok.injEq] at hv
  rw [hw, ← hv]

open Sample in
example : matching book 4 kids1 = [el c!"score" [tx c!"1"], el c!"score" [tx c!"x"], el c!"score" [tx c!"2"]] ∧
    val1[4]? = some (.vec ((matching book 4 kids1).filterMap fun c => scalarContent Tests.lib (.int .i32) c.content)) :=
  ⟨rfl, C11_vec_scalar_partial _ _ _ _ _ _ _ _ _ _ _ ok1 4 _ (.int .i32) rfl rfl rfl⟩

/-- C11, structs (enums, primitives).  A `Vec` field holds one item per matching child, in document
order, each item being that child's value. -/
theorem C11_vec_struct_partial (L : Lib) (env : Env) (k : Nat) (p : Path) (d : StructDef) (s : Str) (n : Name)
    (as : List Attr) (m : NsMap) (ks : List Node) (vs : List Val)
    (h : OkDoc L env k p d s n as m ks vs) (i : Nat) (f : FieldDef) (q : Path)
    (hf : d.fields[i]? = some f) (he : f.isElem = true) (hty : f.ty = .vec (.struct q)) :
    ∃ items, vs[i]? = some (.vec items) ∧
      List.Forall₂ (fun c v => decodeN L env k c q = .ok v) (matching d i ks) items := by
  obtain ⟨w, ins, hw, h1, h2⟩ := h.structField hf he (q := q) (by rw [hty]; rfl)
  simp only [fieldValue, hty, Res.ok.injEq] at h2
  refine ⟨ins, by rw [hw, ← h2], ?_⟩
  generalize matching d i ks = cs at h1
  clear h2
  induction cs generalizing ins with
  | nil => cases ins with | nil => exact .nil | cons => cases h1
  | cons c cs ih =>
    cases ins with
    | nil => cases h1
    | cons a ins =>
      simp only [List.map_cons, List.cons.injEq] at h1
      exact .cons h1.1 (ih ins h1.2)

open Sample in
example : matching book 3 kids1 = [authorA, authorB] ∧ ∃ items, val1[3]? = some (.vec items) ∧
    List.Forall₂ (fun c v => decodeN Tests.lib env 0 c [c!"Author"] = .ok v) (matching book 3 kids1) items :=
  ⟨rfl, C11_vec_struct_partial _ _ _ _ _ _ _ _ _ _ _ ok1 3 _ _ rfl rfl rfl⟩

/-- C12, scalars.  A repeated child of a non-`Vec` field: the last well-formed one wins. -/
theorem C12_last_wins_scalar_partial (L : Lib) (env : Env) (k : Nat) (p : Path) (d : StructDef) (s : Str) (n : Name)
    (as : List Attr) (m : NsMap) (ks : List Node) (vs : List Val)
    (h : OkDoc L env k p d s n as m ks vs) (i : Nat) (f : FieldDef) (t : STy)
    (hf : d.fields[i]? = some f) (he : f.isElem = true) (htext : f.attrs.text = false)
    (pre post : List Node) (c : Node) (v : Val) (hks : matching d i ks = pre ++ c :: post)
    (hc : scalarContent L t c.content = some v) (hpost : ∀ c' ∈ post, scalarContent L t c'.content = none) :
    (f.ty = .simple t → vs[i]? = some v) ∧ (f.ty = .opt (.simple t) → vs[i]? = some (.some v)) := by
  have hlast : ((matching d i ks).filterMap fun c => scalarContent L t c.content).getLast? = some v := by
    have : post.filterMap (fun c => scalarContent L t c.content) = [] := by
      rw [List.filterMap_eq_nil_iff]; exact hpost
    rw [hks, List.filterMap_append, List.filterMap_cons, hc, this]
    simp
  constructor
  · intro hty
    obtain ⟨w, hw, hv⟩ := h.scalarField hf he htext (t := t) (by rw [hty]; rfl)
    simp only [fieldValue, hty, hlast, Res.ok.injEq] at hv
    rw [hw, hv]
  · intro hty
    obtain ⟨w, hw, hv⟩ := h.scalarField hf he htext (t := t) (by rw [hty]; rfl)
    simp only [fieldValue, hty, hlast, Res.ok.injEq] at hv
    rw [hw, hv]

open Sample in
example : val1[2]? = some (.str c!"T") :=
  (C12_last_wins_scalar_partial _ _ _ _ _ _ _ _ _ _ _ ok1 2 _ .string rfl rfl rfl [] [] (el c!"title" [tx c!"T"])
    (.str c!"T") rfl rfl (by simp)).1 rfl

/-- C12, structs (enums, primitives).  The last matching child wins. -/
theorem C12_last_wins_struct_partial (L : Lib) (env : Env) (k : Nat) (p : Path) (d : StructDef) (s : Str) (n : Name)
    (as : List Attr) (m : NsMap) (ks : List Node) (vs : List Val)
    (h : OkDoc L env k p d s n as m ks vs) (i : Nat) (f : FieldDef) (q : Path)
    (hf : d.fields[i]? = some f) (he : f.isElem = true) (pre : List Node) (c : Node)
    (hks : matching d i ks = pre ++ [c]) :
    (f.ty = .struct q → ∃ v, vs[i]? = some v ∧ decodeN L env k c q = .ok v) ∧
    (f.ty = .opt (.struct q) → ∃ v, vs[i]? = some (.some v) ∧ decodeN L env k c q = .ok v) := by
  have key : f.ty.core = .struct q → ∃ v ins, fieldValue d.name f (ins ++ [v]) = .ok (vs[i]?.getD .none) ∧
      (∃ w, vs[i]? = some w) ∧ decodeN L env k c q = .ok v := by
    intro hq
    obtain ⟨w, ins, hw, h1, h2⟩ := h.structField hf he hq
    rw [hks] at h1
    simp only [List.map_append, List.map_cons, List.map_nil] at h1
    have hne : ins ≠ [] := by rintro rfl; simp at h1
    obtain ⟨ins', v, rfl⟩ : ∃ l v, ins = l ++ [v] := ⟨_, _, (List.dropLast_concat_getLast hne).symm⟩
    rw [List.map_append] at h1
    have := List.append_inj' h1 (by simp)
    simp only [List.map_cons, List.map_nil, List.cons.injEq, and_true] at this
    exact ⟨v, ins', by rw [hw]; exact h2, ⟨w, hw⟩, this.2⟩
  constructor
  · intro hty
    obtain ⟨v, ins, h1, ⟨w, hw⟩, h3⟩ := key (by rw [hty]; rfl)
    simp only [fieldValue, hty, List.getLast?_concat, Res.ok.injEq] at h1
    exact ⟨v, by rw [hw] at h1 ⊢; rw [h1]; rfl, h3⟩
  · intro hty
    obtain ⟨v, ins, h1, ⟨w, hw⟩, h3⟩ := key (by rw [hty]; rfl)
    simp only [fieldValue, hty, List.getLast?_concat, Res.ok.injEq] at h1
    exact ⟨v, by rw [hw] at h1 ⊢; rw [h1]; rfl, h3⟩

open Sample in
example : ∃ v, val1[5]? = some v ∧ decodeN Tests.lib env 0 (el c!"color" [tx c!"red"]) [c!"Color"] = .ok v :=
  (C12_last_wins_struct_partial _ _ _ _ _ _ _ _ _ _ _ ok1 5 _ _ rfl rfl [] _ rfl).1 rfl

/-! ### C13, C15, C25: attributes -/

section
variable {L : Lib} {env : Env} {k : Nat} {p : Path} {d : StructDef} {s : Str} {n : Name}
  {as : List Attr} {m : NsMap} {ks : List Node} {vs : List Val}

theorem OkDoc.attrField (h : OkDoc L env k p d s n as m ks vs) {i : Nat} {f : FieldDef}
    (hf : d.fields[i]? = some f) (ha : f.attrs.isAttr = true) (htext : f.attrs.text = false) :
    ∃ w ins, vs[i]? = some w ∧ attrInputs L (userAttr (flatN L env k)) f as = ins.map .ok ∧ fieldValue d.name f ins = .ok w := by
  obtain ⟨w, ins, hw, h1, h2⟩ := h.field hf
  refine ⟨w, ins, hw, ?_, h2⟩
  have hflat : flatInputs (flatN L env k (d.residue n as m ks)) f = [] := by
    unfold flatInputs; simp [ha]
  have hk : ks.flatMap (kidInputs L (decodeN L env k) d i f) = [] := by
    rw [List.flatMap_eq_nil_iff]
    intro c _
    cases c with
    | text s => simp [kidInputs, htext]
    | elem cn cas cm cks =>
      simp only [kidInputs]
      rw [if_neg]
      intro hi
      obtain ⟨g, hg, -, hc⟩ := fieldFor_some hi
      rw [hf] at hg
      cases hg
      have := hc.1
      simp [FieldDef.isElem, ha] at this
  unfold fieldInputs at h1
  rw [hk, hflat] at h1
  simpa using h1

end

/-- C13.  An attribute field is determined by the attributes of the struct's own start tag that
carry its name: two documents that agree on these — and may differ in all other attributes, in
their order, in the children and their attributes — agree on the field. -/
theorem C13_own_attributes_partial (L : Lib) (env : Env) (k : Nat) (p : Path) (d : StructDef)
    (s s' : Str) (n n' : Name) (as as' : List Attr) (m m' : NsMap) (ks ks' : List Node) (vs vs' : List Val)
    (h : OkDoc L env k p d s n as m ks vs) (h' : OkDoc L env k p d s' n' as' m' ks' vs')
    (i : Nat) (f : FieldDef) (hf : d.fields[i]? = some f) (ha : f.attrs.isAttr = true)
    (htext : f.attrs.text = false)
    (hsame : as.filter (fun a => a.name.loc = f.attrs.rename.getD f.ident)
      = as'.filter (fun a => a.name.loc = f.attrs.rename.getD f.ident)) :
    vs[i]? = vs'[i]? := by
  obtain ⟨w, ins, hw, h1, h2⟩ := h.attrField hf ha htext
  obtain ⟨w', ins', hw', h1', h2'⟩ := h'.attrField hf ha htext
  have : attrInputs L (userAttr (flatN L env k)) f as = attrInputs L (userAttr (flatN L env k)) f as' := by
    unfold attrInputs
    rw [show (fun a : Attr => decide (a.name.loc = f.label)) =
      fun a => decide (a.name.loc = f.attrs.rename.getD f.ident) from rfl, hsame]
  rw [this, h1'] at h1
  have := map_ok_inj h1
  subst this
  rw [h2'] at h2
  cases h2
  rw [hw, hw']

/-- C13.  … and it is the (last) attribute of that name, read as the field's type. -/
theorem C13_attribute_value_partial (L : Lib) (env : Env) (k : Nat) (p : Path) (d : StructDef)
    (s : Str) (n : Name) (as : List Attr) (m : NsMap) (ks : List Node) (vs : List Val)
    (h : OkDoc L env k p d s n as m ks vs)
    (i : Nat) (f : FieldDef) (t : STy) (hf : d.fields[i]? = some f) (ha : f.attrs.isAttr = true)
    (htext : f.attrs.text = false) (pre post : List Attr) (a : Attr) (has : as = pre ++ a :: post)
    (hname : a.name.loc = f.attrs.rename.getD f.ident)
    (hlast : ∀ b ∈ post, b.name.loc ≠ f.attrs.rename.getD f.ident) :
    (f.ty = .simple t → ∃ v, vs[i]? = some v ∧ visitS L t a.value = .ok v) ∧
    (f.ty = .opt (.simple t) → ∃ v, vs[i]? = some (.some v) ∧ visitS L t a.value = .ok v) := by
  have hfil : as.filter (fun b => b.name.loc = f.label) =
      pre.filter (fun b => b.name.loc = f.label) ++ [a] := by
    rw [has, List.filter_append, List.filter_cons, if_pos (decide_eq_true (show a.name.loc = f.label from hname))]
    have : post.filter (fun b => b.name.loc = f.label) = [] := by
      rw [List.filter_eq_nil_iff]; intro b hb h; exact hlast b hb (of_decide_eq_true h)
    rw [this]
  obtain ⟨w, ins, hw, h1, h2⟩ := h.attrField hf ha htext
  unfold attrInputs at h1
  rw [if_pos ha, hfil, List.flatMap_append] at h1
  have key : attrWords L (userAttr (flatN L env k)) f.ty a.value = [scalar L t a.value] →
      ∃ v, visitS L t a.value = .ok v ∧ ∃ l, ins = l ++ [v] := by
    intro hw'
    simp only [List.flatMap_cons, List.flatMap_nil, List.append_nil, hw'] at h1
    have hne : ins ≠ [] := by rintro rfl; simp at h1
    obtain ⟨ins', v, rfl⟩ : ∃ l v, ins = l ++ [v] := ⟨_, _, (List.dropLast_concat_getLast hne).symm⟩
    rw [List.map_append] at h1
    have := (List.append_inj' h1 (by simp)).2
    simp only [List.map_cons, List.map_nil, List.cons.injEq, and_true] at this
    unfold scalar at this
    cases hv : visitS L t a.value with
    | error e => rw [hv] at this; cases this
    | ok v' => rw [hv] at this; cases this; exact ⟨v, rfl, ins', rfl⟩
  constructor
  · intro hty
    obtain ⟨v, hv, l, rfl⟩ := key (by rw [hty]; rfl)
    simp only [fieldValue, hty, List.getLast?_concat, Res.ok.injEq] at h2
    exact ⟨v, by rw [hw, h2], hv⟩
  · intro hty
    obtain ⟨v, hv, l, rfl⟩ := key (by rw [hty]; rfl)
    simp only [fieldValue, hty, List.getLast?_concat, Res.ok.injEq] at h2
    exact ⟨v, by rw [hw, h2], hv⟩

open Sample in
example : ∃ v, val1[0]? = some v ∧ visitS Tests.lib (.int .u32) c!"7" = .ok v :=
  (C13_attribute_value_partial _ _ _ _ _ _ _ _ _ _ _ ok1 0 _ (.int .u32) rfl rfl rfl [_] [] _ rfl rfl (by simp)).1 rfl

theorem mapM_ok {L : Lib} {t : STy} {ws : List Str} {ins : List Val}
    (h : ws.map (scalar L t) = ins.map .ok) :
    List.Forall₂ (fun w v => visitS L t w = .ok v) ws ins := by
  induction ws generalizing ins with
  | nil => cases ins with | nil => exact .nil | cons => cases h
  | cons w ws ih =>
    cases ins with
    | nil => cases h
    | cons v ins =>
      simp only [List.map_cons, List.cons.injEq] at h
      refine .cons ?_ (ih h.2)
      have := h.1
      unfold scalar at this
      split at this
      · cases this; assumption
      · cases this

/-- C25.  A `Vec` attribute is the list of the values of the attribute's words (`words_unique`: there is one list of words). -/
theorem C25_vec_attribute (L : Lib) (env : Env) (k : Nat) (p : Path) (d : StructDef)
    (s : Str) (n : Name) (as : List Attr) (m : NsMap) (ks : List Node) (vs : List Val)
    (h : OkDoc L env k p d s n as m ks vs)
    (i : Nat) (f : FieldDef) (t : STy) (hf : d.fields[i]? = some f) (ha : f.attrs.isAttr = true)
    (hty : f.ty = .vec (.simple t)) (a : Attr)
    (hone : as.filter (fun b => b.name.loc = f.attrs.rename.getD f.ident) = [a]) :
    ∃ words items, Words a.value words ∧ vs[i]? = some (.vec items) ∧
      List.Forall₂ (fun w v => visitS L t w = .ok v) words items := by
  have htext : f.attrs.text = false := by
    cases hx : f.attrs.text with
    | false => rfl
    | true =>
      rcases h.plain.textTy f (List.mem_of_getElem? hf) hx with h3 | h3 <;> rw [h3] at hty <;> cases hty
  obtain ⟨w, ins, hw, h1, h2⟩ := h.attrField hf ha htext
  unfold attrInputs at h1
  rw [if_pos ha, show (fun b : Attr => decide (b.name.loc = f.label)) =
      fun b => decide (b.name.loc = f.attrs.rename.getD f.ident) from rfl, hone] at h1
  simp only [List.flatMap_cons, List.flatMap_nil, List.append_nil, attrWords, hty] at h1
  simp only [fieldValue, hty, Res.ok.injEq] at h2
  exact ⟨_, ins, words_split _, by rw [hw, ← h2], mapM_ok h1⟩

open Sample in
example : ∃ words items, Words c!"a b" words ∧ val1[1]? = some (.vec items) ∧
    List.Forall₂ (fun w v => visitS Tests.lib .string w = .ok v) words items :=
  C25_vec_attribute _ _ _ _ _ _ _ _ _ _ _ ok1 1 _ .string rfl rfl rfl _ rfl

theorem collectRaw_first_err {cs cs' : List Raw} (h : ∃ c ∈ cs, ∃ m, c.2 = .err m)
    (hall : ∀ c ∈ cs, (∃ v, c.2 = .ok v) ∨ ∃ m, c.2 = .err m) :
    ∃ c ∈ cs, ∃ m, c.2 = .err m ∧ collectRaw (cs ++ cs') = .err m := by
  induction cs with
  | nil => obtain ⟨c, hc, -⟩ := h; cases hc
  | cons c cs ih =>
    rcases hall c (List.mem_cons_self ..) with ⟨v, hv⟩ | ⟨m, hm⟩
    · obtain ⟨c', hc', m, hm⟩ := h
      have hc'' : c' ∈ cs := by
        rcases List.mem_cons.mp hc' with rfl | h
        · rw [hv] at hm; cases hm
        · exact h
      obtain ⟨c1, hc1, m1, hm1, h1⟩ := ih ⟨c', hc'', m, hm⟩ fun c hc => hall c (List.mem_cons_of_mem _ hc)
      refine ⟨c1, List.mem_cons_of_mem _ hc1, m1, hm1, ?_⟩
      unfold collectRaw at h1 ⊢
      rw [List.cons_append, List.map_cons, collect_cons, h1]
      simp [Raw.run, hv, Res.bind]
    · refine ⟨c, List.mem_cons_self .., m, hm, ?_⟩
      unfold collectRaw
      rw [List.cons_append, List.map_cons, collect_cons]
      simp [Raw.run, hm, Res.bind]

theorem attrWords_ok_or_err (L : Lib) (user : Path → Str → Res Val) (ty : FTy) (v : Str) (hty : ∀ q, ty.core ≠ .struct q) :
    ∀ r ∈ attrWords L user ty v, (∃ v, r = .ok v) ∨ ∃ m, r = .err m := by
  have hs : ∀ t w, (∃ v, scalar L t w = .ok v) ∨ ∃ m, scalar L t w = .err m := by
    intro t w
    unfold scalar
    split
    · exact .inl ⟨_, rfl⟩
    · exact .inr ⟨_, rfl⟩
  intro r hr
  unfold attrWords at hr
  split at hr
  · obtain ⟨w, -, rfl⟩ := List.mem_map.mp hr; exact hs _ _
  · rw [List.mem_singleton] at hr; subst hr; exact hs _ _
  · rw [List.mem_singleton] at hr; subst hr; exact hs _ _
  · exact (hty _ rfl).elim
  · exact (hty _ rfl).elim
  · exact (hty _ rfl).elim
  · cases hr

/-! ### C14: missing fields -/

/-- Nothing in the element belongs to field number `i`. -/
structure Absent (d : StructDef) (i : Nat) (f : FieldDef) (as : List Attr) (ks : List Node) : Prop where
  noAttr : f.attrs.isAttr = true → ∀ a ∈ as, a.name.loc ≠ f.attrs.rename.getD f.ident
  noChild : matching d i ks = []
  noText : f.attrs.text = true → ∀ t, Node.text t ∉ ks
  notFlat : f.attrs.isAttr = true ∨ f.attrs.flatten = false

theorem Absent.inputs {d : StructDef} {i : Nat} {f : FieldDef} {as : List Attr} {ks : List Node}
    (h : Absent d i f as ks) (L : Lib) (dec flat : Node → Path → Res Val) (n : Name) (m : NsMap) :
    fieldInputs L dec flat d n as m ks i f = [] := by
  have h1 : attrInputs L (userAttr flat) f as = [] := by
    unfold attrInputs
    split
    · rename_i ha
      have : as.filter (fun a => a.name.loc = f.label) = [] := by
        rw [List.filter_eq_nil_iff]; intro a haa h'; exact h.noAttr ha a haa (of_decide_eq_true h')
      rw [this]; rfl
    · rfl
  have h2 : ks.flatMap (kidInputs L dec d i f) = [] := by
    rw [List.flatMap_eq_nil_iff]
    intro c hc
    cases c with
    | text s =>
      simp only [kidInputs]
      rw [if_neg]
      intro ht
      exact h.noText ht s hc
    | elem cn cas cm cks =>
      simp only [kidInputs]
      rw [if_neg]
      intro hi
      have := h.noChild
      unfold matching at this
      rw [List.filter_eq_nil_iff] at this
      exact this _ hc (by simpa using hi)
  have h3 : ∀ g, flatInputs g f = [] := by
    intro g
    unfold flatInputs
    rw [if_neg]
    rcases h.notFlat with h | h <;> simp [h]
  unfold fieldInputs
  rw [h1, h2, h3]
  rfl

/-- C14.  Values of missing fields. -/
theorem C14_missing_value_partial (L : Lib) (env : Env) (k : Nat) (p : Path) (d : StructDef)
    (s : Str) (n : Name) (as : List Attr) (m : NsMap) (ks : List Node) (vs : List Val)
    (h : OkDoc L env k p d s n as m ks vs) (i : Nat) (f : FieldDef) (hf : d.fields[i]? = some f)
    (habs : Absent d i f as ks) :
    match f.ty, f.dflt with
    | .vec _, _ => vs[i]? = some (.vec [])
    | .opt _, _ => vs[i]? = some .none
    | _, some dv => vs[i]? = some dv.val
    | _, none => False := by
  obtain ⟨w, ins, hw, h1, h2⟩ := h.field hf
  rw [habs.inputs] at h1
  have : ins = [] := by cases ins with | nil => rfl | cons => cases h1
  subst this
  unfold fieldValue at h2
  cases hty : f.ty with
  | vec t => simp only [hty, Res.ok.injEq] at h2 ⊢; rw [hw, ← h2]
  | opt t => simp only [hty, List.getLast?_nil, Res.ok.injEq] at h2 ⊢; rw [hw, ← h2]
  | simple t =>
    cases hd : f.dflt with
    | some dv => simp only [hty, hd, List.getLast?_nil, Res.ok.injEq] at h2 ⊢; rw [hw, ← h2]
    | none => simp [hty, hd] at h2
  | struct q =>
    cases hd : f.dflt with
    | some dv => simp only [hty, hd, List.getLast?_nil, Res.ok.injEq] at h2 ⊢; rw [hw, ← h2]
    | none => simp [hty, hd] at h2

open Sample in
/-- `note` and `stock` are missing in the sample document. -/
example : val1[6]? = some .none ∧ val1[8]? = some (.int 5) :=
  ⟨C14_missing_value_partial _ _ _ _ _ _ _ _ _ _ _ ok1 6 _ rfl ⟨nofun, rfl, nofun, .inr rfl⟩,
   C14_missing_value_partial _ _ _ _ _ _ _ _ _ _ _ ok1 8 _ rfl ⟨nofun, rfl, nofun, .inr rfl⟩⟩

/-- C14.  A missing required field: if everything present is well formed and the earlier fields are
not missing, `from_str` returns `Err("<field> is a required field of <Type>")`. -/
theorem C14_missing_required_partial (L : Lib) (env : Env) (k : Nat) (p : Path) (d : StructDef)
    (hp : env p = some (.struct d)) (s : Str) (n : Name) (as : List Attr) (m : NsMap) (ks : List Node)
    (hdoc : IsDoc (L.parse s) (.elem n as m ks)) (hconf : ConfN L env k (.elem n as m ks) p)
    (hns : nsOk d.attrs n) (i : Nat) (f : FieldDef) (hf : d.fields[i]? = some f)
    (habs : Absent d i f as ks) (hreq : (∃ t, f.ty = .simple t) ∨ ∃ q, f.ty = .struct q)
    (hdflt : f.dflt = none)
    (hin : ∀ (j : Nat) (g : FieldDef), d.fields[j]? = some g →
      ∃ ins, fieldInputs L (decodeN L env k) (flatN L env k) d n as m ks j g = ins.map .ok ∧
        (j < i → ∃ v, fieldValue d.name g ins = .ok v)) :
    Returns L env p s (.err (f.ident ++ c!" is a required field of " ++ d.name)) := by
  rw [returns_iff L env k p s _ hdoc hconf]
  unfold decodeDocN decodeDocWith
  rw [hp]
  dsimp only
  rw [if_pos (show nsOk d.attrs (Node.elem n as m ks).name from hns), decodeN_eq, decodeWith, hp]
  dsimp only
  rw [decodeL_map, ← decodeN_eq, decodeStruct_raw]
  have hall : ∀ c ∈ rawAll L (decodeN L env k) (flatN L env k) d n as m ks, ∃ v, c.2 = .ok v := by
    intro c hc
    obtain ⟨g, hg⟩ := rawAll_idx _ _ _ _ _ _ _ _ c hc
    obtain ⟨ins, h1, -⟩ := hin _ g hg
    rw [← rawOf_all L _ _ d n as m ks _ g hg] at h1
    have : c.2 ∈ rawOf (rawAll L (decodeN L env k) (flatN L env k) d n as m ks) c.1 := by
      unfold rawOf
      exact List.mem_map.mpr ⟨c, List.mem_filter.mpr ⟨hc, by simp⟩, rfl⟩
    rw [h1] at this
    obtain ⟨w, -, hw⟩ := List.mem_map.mp this
    exact ⟨w, hw.symm⟩
  obtain ⟨cs, hcs⟩ : ∃ cs : List Contrib,
      rawAll L (decodeN L env k) (flatN L env k) d n as m ks = cs.map fun c => (c.1, .ok c.2) := by
    generalize rawAll L (decodeN L env k) (flatN L env k) d n as m ks = raw at hall
    induction raw with
    | nil => exact ⟨[], rfl⟩
    | cons c raw ih =>
      obtain ⟨v, hv⟩ := hall c (List.mem_cons_self ..)
      obtain ⟨cs, rfl⟩ := ih fun c' hc' => hall c' (List.mem_cons_of_mem _ hc')
      obtain ⟨i, r⟩ := c
      simp only at hv
      subst hv
      exact ⟨(i, v) :: cs, rfl⟩
  rw [collectRaw_iff.mpr hcs]
  have hvals : ∀ (j : Nat) (g : FieldDef) (ins : List Val), d.fields[j]? = some g →
      fieldInputs L (decodeN L env k) (flatN L env k) d n as m ks j g = ins.map .ok → valuesOf cs j = ins := by
    intro j g ins hg h1
    rw [← rawOf_all L _ _ d n as m ks _ g hg, hcs, rawOf_ok] at h1
    exact map_ok_inj h1
  refine (assemble_err d cs i f _ hf ?_ ?_).symm
  · rw [hvals i f [] hf (habs.inputs ..)]
    unfold fieldValue
    rcases hreq with ⟨t, ht⟩ | ⟨q, hq⟩
    · simp [ht, hdflt]
    · simp [hq, hdflt]
  · intro j g hj hg
    obtain ⟨ins, h1, h2⟩ := hin j g hg
    rw [hvals j g ins hg h1]
    exact h2 hj

open Sample in
/-- A book without title. -/
example : Returns Tests.lib env [c!"Book"] c!"<book id=\"7\"/>" (.err c!"title is a required field of Book") := by
  refine C14_missing_required_partial Tests.lib env 0 [c!"Book"] book env_book _ ⟨c!"book", none, none⟩
    [⟨⟨c!"id", none, none⟩, c!"7"⟩] [] [] ⟨[], by decide +kernel⟩ (conf_book _ _ _ _ (.inr rfl) (by simp))
    (by decide) 2 _ rfl ⟨nofun, rfl, nofun, .inr rfl⟩ (.inl ⟨_, rfl⟩) rfl ?_
  intro j g hg
  have : j < 9 := (List.getElem?_eq_some_iff.mp hg).1
  match j, this with
  | 0, _ => cases hg; exact ⟨[.int 7], rfl, fun _ => ⟨_, rfl⟩⟩
  | 1, _ => cases hg; exact ⟨[], rfl, fun _ => ⟨_, rfl⟩⟩
  | 2, _ => cases hg; exact ⟨[], rfl, fun h => absurd h (by decide)⟩
  | 3, _ => cases hg; exact ⟨[], rfl, fun h => absurd h (by decide)⟩
  | 4, _ => cases hg; exact ⟨[], rfl, fun h => absurd h (by decide)⟩
  | 5, _ => cases hg; exact ⟨[], rfl, fun h => absurd h (by decide)⟩
  | 6, _ => cases hg; exact ⟨[], rfl, fun h => absurd h (by decide)⟩
  | 7, _ => cases hg; exact ⟨[], rfl, fun h => absurd h (by decide)⟩
  | 8, _ => cases hg; exact ⟨[], rfl, fun h => absurd h (by decide)⟩

/-! ### C17: the document element's name -/

/-- C17.  Renaming the document element (to a name that is not a field's, in the same namespace)
does not change the result. -/
theorem C17_root_name_irrelevant_partial (L : Lib) (env : Env) (k : Nat) (p : Path) (d : StructDef)
    (hp : env p = some (.struct d)) (s t : Str) (n n' : Name) (as : List Attr) (m : NsMap) (ks : List Node)
    (hx : IsDoc (L.parse s) (.elem n as m ks)) (hy : IsDoc (L.parse t) (.elem n' as m ks))
    (hconf : Conf L env k (.elem n as m ks) p) (hn' : ∀ f ∈ d.fields, ¬ f.claims d.attrs n')
    (hns : nsOk d.attrs n) (hns' : n'.ns = n.ns) (r : Res Val) :
    Returns L env p s r ↔ Returns L env p t r := by
  obtain ⟨h1, h2, h3, h4, h5⟩ := (conf_struct hp).mp hconf
  have hconf' : Conf L env k (.elem n' as m ks) p :=
    (conf_struct hp).mpr ⟨h1, .inr (fieldFor_none hn'), h3, h4, h5⟩
  rw [C08_struct_reading_partial L env k p s _ hx hconf, C08_struct_reading_partial L env k p t _ hy hconf']
  unfold decodeDocN decodeDocWith
  rw [hp]
  dsimp only
  rw [if_pos (show nsOk d.attrs (Node.elem n as m ks).name from hns),
    if_pos (show nsOk d.attrs (Node.elem n' as m ks).name from fun u hu => hns u (by rw [← hns']; exact hu)),
    decode_struct hp _ _ _ _ h4, decode_struct hp _ _ _ _ h4]

open Sample in
example (r : Res Val) :
    Returns Tests.lib env [c!"Author"] c!"<Author><name>A</name></Author>" r ↔
      Returns Tests.lib env [c!"Author"] c!"<writer><name>A</name></writer>" r :=
  C17_root_name_irrelevant_partial Tests.lib env 0 [c!"Author"] author env_author _ _ ⟨c!"Author", none, none⟩
    ⟨c!"writer", none, none⟩ [] [] [el c!"name" [tx c!"A"]] ⟨[], by decide +kernel⟩ ⟨[], by decide +kernel⟩
    (confAuthor _ _ _ _ (by decide) (by
      simp only [ConfKids, and_true]
      exact confScalar author (by decide) _ _ .string (field_ty _ _ 0 _ _ (by decide) rfl rfl) trivial))
    (by decide) (by decide) rfl r

/-! ### C19: namespaces -/

/-- C19.  A document whose root element is in a namespace not declared for the type's prefix is
rejected — whatever the document contains otherwise. -/
theorem C19_root_namespace (L : Lib) (env : Env) (p : Path) (a : Attrs)
    (hp : (∃ d, env p = some (.struct d) ∧ d.attrs = a) ∨ ∃ d, env p = some (.enum d) ∧ d.attrs = a)
    (s : Str) (n : Name) (as : List Attr) (m : NsMap) (rest : List REv)
    (hdoc : content (L.parse s).evs = .start n as m :: rest) (hns : ¬ nsOk a n) :
    Returns L env p s (.err (c!"bad namespace for " ++ n.loc ++ c!", found " ++ n.ns.getD [])) := by
  have hnm : nsMatching a.namespaces a.pfx n.ns n.loc
      = .error (c!"bad namespace for " ++ n.loc ++ c!", found " ++ n.ns.getD []) := by
    unfold nsMatching
    cases hn : n.ns with
    | none => exact (hns (by intro u hu; rw [hn] at hu; cases hu)).elim
    | some u =>
      dsimp only
      rw [if_neg]
      · rfl
      intro h
      rw [List.any_eq_true] at h
      obtain ⟨e, he', h2⟩ := h
      refine hns ?_
      intro u' hu'
      rw [hn] at hu'
      cases hu'
      simp at h2
      exact ⟨e, he', by simp [h2.1], h2.2⟩
  refine ⟨by simp, 1, ?_⟩
  have hat := at_new' (L.parse s)
  rw [hdoc] at hat
  obtain ⟨rd1, h1, a1⟩ := peek_at hat
  have h2 : (M.ofExcept (nsMatching a.namespaces a.pfx n.ns n.loc) : D Unit) rd1
      = (.err (c!"bad namespace for " ++ n.loc ++ c!", found " ++ n.ns.getD []), rd1) := by
    rw [hnm]; rfl
  unfold deFromStr fromStr deser
  rcases hp with ⟨d, hd, rfl⟩ | ⟨d, hd, rfl⟩
  · rw [hd]
    dsimp only
    unfold structDeser
    rw [bind_ok h1, bind_get, a1.depth]
    unfold structBody
    dsimp only [startInfo]
    rw [if_pos rfl, bind_err h2]
  · rw [hd]
    dsimp only
    unfold enumDeser
    rw [bind_ok h1, bind_get, a1.depth]
    unfold enumBody
    dsimp only [startInfo]
    rw [bind_err h2]

open Sample in
example : Returns Tests.lib env [c!"Book"] c!"<book xmlns=\"urn:x\" id=\"7\"><title>unfinished"
    (.err c!"bad namespace for book, found urn:x") :=
  C19_root_namespace Tests.lib env [c!"Book"] book.attrs (.inl ⟨_, env_book, rfl⟩) _
    ⟨c!"book", some c!"urn:x", none⟩ [⟨⟨c!"id", none, none⟩, c!"7"⟩] [([], c!"urn:x")]
    [.start ⟨c!"title", some c!"urn:x", none⟩ [] [([], c!"urn:x")]] (by decide +kernel) (by decide)

/-- Children in another namespace than the field's do not belong to the field. -/
theorem absent_of_namespace (d : StructDef) (i : Nat) (f : FieldDef) (as : List Attr) (ks : List Node)
    (hf : d.fields[i]? = some f) (he : f.isElem = true) (htext : f.attrs.text = false)
    (hother : ∀ cn cas cm cks, Node.elem cn cas cm cks ∈ ks → cn.loc = f.attrs.rename.getD f.ident →
      cn.ns.getD [] ≠ (d.attrs.namespaces.find f.attrs.pfx).getD []) : Absent d i f as ks := by
  simp only [FieldDef.isElem, Bool.and_eq_true, Bool.not_eq_true'] at he
  refine ⟨fun h => (by rw [he.1] at h; cases h), ?_, fun h => (by rw [htext] at h; cases h), .inr he.2⟩
  unfold matching
  rw [List.filter_eq_nil_iff]
  intro c hc
  cases c with
  | text s => simp
  | elem cn cas cm cks =>
    simp only [decide_eq_true_eq]
    intro hi
    obtain ⟨g, hg, -, hcl⟩ := fieldFor_some hi
    rw [hf] at hg
    cases hg
    exact hother cn cas cm cks hc hcl.2.2.symm hcl.2.1.symm

/-- C19.  If all children with the field's name are in another namespace than the one bound to the field's
prefix, the field comes out as if there were none: empty, `None` or its default — and if it is required
there is no successful result. -/
theorem C19_child_namespace_partial (L : Lib) (env : Env) (k : Nat) (p : Path) (d : StructDef)
    (s : Str) (n : Name) (as : List Attr) (m : NsMap) (ks : List Node) (vs : List Val)
    (h : OkDoc L env k p d s n as m ks vs) (i : Nat) (f : FieldDef) (hf : d.fields[i]? = some f)
    (he : f.isElem = true) (htext : f.attrs.text = false)
    (hother : ∀ cn cas cm cks, Node.elem cn cas cm cks ∈ ks → cn.loc = f.attrs.rename.getD f.ident →
      cn.ns.getD [] ≠ (d.attrs.namespaces.find f.attrs.pfx).getD []) :
    match f.ty, f.dflt with
    | .vec _, _ => vs[i]? = some (.vec [])
    | .opt _, _ => vs[i]? = some .none
    | _, some dv => vs[i]? = some dv.val
    | _, none => False :=
  C14_missing_value_partial L env k p d s n as m ks vs h i f hf (absent_of_namespace d i f as ks hf he htext hother)

/-- A child with the field's name in the namespace bound to its prefix. -/
def inNamespace (d : StructDef) (f : FieldDef) : Node → Bool
  | .text _ => false
  | .elem n _ _ _ => n.loc = f.attrs.rename.getD f.ident ∧ n.ns.getD [] = (d.attrs.namespaces.find f.attrs.pfx).getD []

theorem flatMap_inNamespace (L : Lib) (dec : Node → Path → Res Val) (d : StructDef) (i : Nat) (f : FieldDef)
    (hf : d.fields[i]? = some f) (htext : f.attrs.text = false) (ks : List Node) :
    ks.flatMap (kidInputs L dec d i f) = (ks.filter (inNamespace d f)).flatMap (kidInputs L dec d i f) := by
  have key : ∀ c, inNamespace d f c = false → kidInputs L dec d i f c = [] := by
    intro c hc
    cases c with
    | text s => simp [kidInputs, htext]
    | elem cn cas cm cks =>
      simp only [kidInputs]
      rw [if_neg]
      intro hi
      obtain ⟨g, hg, -, hcl⟩ := fieldFor_some hi
      rw [hf] at hg
      cases hg
      exact of_decide_eq_false hc ⟨hcl.2.2.symm, hcl.2.1.symm⟩
  induction ks with
  | nil => rfl
  | cons c ks ih =>
    rw [List.flatMap_cons, ih]
    cases hc : inNamespace d f c
    · rw [List.filter_cons_of_neg (by rw [hc]; simp), key c hc, List.nil_append]
    · rw [List.filter_cons_of_pos hc, List.flatMap_cons]

/-- C19.  The value of an element field depends only on the children with its name in its namespace: two
successfully read documents that agree on those agree on the field, whatever else they contain. -/
theorem C19_child_namespace_only_partial (L : Lib) (env : Env) (k : Nat) (p : Path) (d : StructDef)
    (s s' : Str) (n n' : Name) (as as' : List Attr) (m m' : NsMap) (ks ks' : List Node) (vs vs' : List Val)
    (h : OkDoc L env k p d s n as m ks vs) (h' : OkDoc L env k p d s' n' as' m' ks' vs')
    (i : Nat) (f : FieldDef) (hf : d.fields[i]? = some f) (he : f.isElem = true) (htext : f.attrs.text = false)
    (hsame : ks.filter (inNamespace d f) = ks'.filter (inNamespace d f)) : vs[i]? = vs'[i]? := by
  obtain ⟨w, ins, hw, h1, h2⟩ := h.field hf
  obtain ⟨w', ins', hw', h1', h2'⟩ := h'.field hf
  simp only [FieldDef.isElem, Bool.and_eq_true, Bool.not_eq_true'] at he
  have ha : ∀ as, attrInputs L (userAttr (flatN L env k)) f as = [] := by intro as; simp [attrInputs, he.1]
  have hfl : ∀ g, flatInputs g f = [] := by intro g; simp [flatInputs, he.2]
  unfold fieldInputs at h1 h1'
  rw [ha, hfl, flatMap_inNamespace L _ d i f hf htext] at h1 h1'
  rw [hsame] at h1
  have : ins = ins' := by
    have := h1.symm.trans h1'
    exact List.map_injective_iff.mpr (fun a b h => by cases h; rfl) this
  subst this
  rw [h2] at h2'
  cases h2'
  rw [hw, hw']

namespace Sample

def nsX : NsMap := [(c!"x", c!"urn:x")]
def nameX : Node := .elem ⟨c!"name", none, none⟩ [] nsX [tx c!"A"]
def ageX : Node := .elem ⟨c!"age", some c!"urn:x", some c!"x"⟩ [] nsX [tx c!"3"]

theorem okX (ks : List Node) (s : Str) (hks : ks = [nameX] ∨ ks = [ageX, nameX])
    (hdoc : IsDoc (Tests.lib.parse s) (.elem ⟨c!"Author", none, none⟩ [] nsX ks))
    (hr : Tests.deOk env c!"Author" s (.struct [.str c!"A", .none]) = true) :
    OkDoc Tests.lib env 0 [c!"Author"] author s ⟨c!"Author", none, none⟩ [] nsX ks [.str c!"A", .none] := by
  refine ⟨env_author, hdoc, .inl (confAuthor _ _ _ _ (by decide) ?_), Tests.returns_of_deOk hr⟩
  have h1 : ConfKid Tests.lib env (fun _ _ => False) author nameX := by
    rw [nameX, ConfKid]
    refine ⟨by simp, fun i f hi hf => ⟨fun t' _ => ⟨trivial, fun h => (not_hasFlat author (by decide) h).elim⟩, fun q hq => ?_⟩⟩
    rw [field_ty author _ 0 _ (.simple .string) (by decide) rfl rfl i f hi hf] at hq
    cases hq
  have h2 : ConfKid Tests.lib env (fun _ _ => False) author ageX := by
    rw [ageX, ConfKid]
    refine ⟨by simp, fun i f hi => ?_⟩
    rw [show author.fieldFor ⟨c!"age", some c!"urn:x", some c!"x"⟩ = none by decide] at hi
    cases hi
  rcases hks with rfl | rfl
  · simp only [ConfKids, and_true]; exact h1
  · simp only [ConfKids, and_true]; exact ⟨h2, h1⟩

def textX : Str := c!"<Author xmlns:x=\"urn:x\"><x:age>3</x:age><name>A</name></Author>"

/-- An author with an age in another namespace. -/
theorem okX2 : OkDoc Tests.lib env 0 [c!"Author"] author textX ⟨c!"Author", none, none⟩ [] nsX [ageX, nameX]
    [.str c!"A", .none] :=
  okX [ageX, nameX] textX (.inr rfl) ⟨[], by decide +kernel⟩ (by decide +kernel)

example : ([.str c!"A", .none] : List Val)[1]? = some .none :=
  C19_child_namespace_partial _ _ _ _ _ _ _ _ _ _ _ okX2 1 _ rfl rfl rfl (by
    intro cn cas cm cks h hn
    simp only [ageX, nameX, List.mem_cons, Node.elem.injEq, List.not_mem_nil, or_false] at h
    rcases h with h | h
    · rw [h.1]; decide
    · rw [h.1] at hn; exact absurd hn (by decide))

/-- The same with and without that age. -/
example : ([.str c!"A", .none] : List Val)[1]? = ([.str c!"A", .none] : List Val)[1]? :=
  C19_child_namespace_only_partial _ _ _ _ _ _ _ _ _ _ _ _ _ _ _ _ _ okX2
    (okX [nameX] c!"<Author xmlns:x=\"urn:x\"><name>A</name></Author>" (.inl rfl) ⟨[], by decide +kernel⟩ (by decide +kernel))
    1 _ rfl rfl rfl rfl

end Sample

/-! ### C20: text -/

/-- The pieces of text directly inside an element. -/
def texts (ks : List Node) : List Str := ks.filterMap fun k => match k with | .text s => some s | _ => none

/-- C20, in part.  A `text` field receives the element's text if that is in one piece; of several
pieces (separated by child elements) it receives the last one only (`C20_false`).  Assumes that
no child element is named like the field. -/
theorem C20_text_partial (L : Lib) (env : Env) (k : Nat) (p : Path) (d : StructDef)
    (s : Str) (n : Name) (as : List Attr) (m : NsMap) (ks : List Node) (vs : List Val)
    (h : OkDoc L env k p d s n as m ks vs) (i : Nat) (f : FieldDef) (hf : d.fields[i]? = some f)
    (he : f.isElem = true) (ht : f.attrs.text = true) (hno : matching d i ks = [])
    (t : Str) (hlast : (texts ks).getLast? = some t) :
    (f.ty = .simple .string → vs[i]? = some (.str t)) ∧
    (f.ty = .opt (.simple .string) → vs[i]? = some (.some (.str t))) := by
  obtain ⟨w, ins, hw, h1, h2⟩ := h.field hf
  have hk : ks.flatMap (kidInputs L (decodeN L env k) d i f) = ((texts ks).map Val.str).map .ok := by
    clear h1 h2 hlast h
    induction ks with
    | nil => rfl
    | cons c ks ih =>
      unfold matching at hno ih
      rw [List.flatMap_cons]
      cases c with
      | text s =>
        rw [List.filter_cons, if_neg (by simp)] at hno
        rw [ih hno]
        simp [kidInputs, ht, texts]
      | elem cn cas cm cks =>
        by_cases hni : d.fieldFor cn = some i
        · rw [List.filter_cons, if_pos (by simpa using hni)] at hno
          cases hno
        rw [List.filter_cons, if_neg (by simpa using hni)] at hno
        rw [ih hno]
        simp only [kidInputs]
        rw [if_neg hni]
        simp [texts]
  unfold fieldInputs at h1
  rw [attrInputs_elem L _ f as he, flatInputs_elem _ f he, hk] at h1
  simp only [List.nil_append, List.append_nil] at h1
  have := map_ok_inj h1
  subst this
  have hl : ((texts ks).map Val.str).getLast? = some (.str t) := by
    rw [List.getLast?_map, hlast]; rfl
  constructor
  · intro hty
    simp only [fieldValue, hty, hl, Res.ok.injEq] at h2
    rw [hw, h2]
  · intro hty
    simp only [fieldValue, hty, hl, Res.ok.injEq] at h2
    rw [hw, h2]

open Sample in
example : val1[7]? = some (.some (.str c!"hello")) :=
  (C20_text_partial _ _ _ _ _ _ _ _ _ _ _ ok1 7 _ rfl rfl rfl rfl c!"hello" rfl).2 rfl

/-- C20 is false in general: text around a child element. -/
theorem C20_false :
    Returns Tests.lib (Tests.envOf [Tests.mkS c!"T" [Tests.F c!"body" Tests.S { text := true },
        Tests.F c!"b" (Tests.O Tests.S)]]) [c!"T"] c!"<T>Hello <b>x</b>world</T>"
      (.ok (.struct [.str c!"world", .some (.str c!"x")])) :=
  Tests.returns_of_deOk (by decide +kernel)

/-! ### C21: enums -/

section
variable (L : Lib) (env : Env) (k : Nat) (p : Path) (d : EnumDef) (hp : env p = some (.enum d))
include hp

/-- Text that is the name of a unit variant. -/
theorem decode_unit_variant (n : Name) (as : List Attr) (m : NsMap) (t : Str) (i : Nat) (v : VariantDef)
    (hi : d.variants[i]? = some v) (hv : v.shape = .unit) (ht : v.attrs.rename.getD v.ident = t)
    (hfirst : ∀ (j : Nat) (w : VariantDef), j < i → d.variants[j]? = some w → w.attrs.rename.getD w.ident ≠ t)
    (hof : d.variantOf n as = none) :
    decodeN L env k (.elem n as m [.text t]) p = .ok (.enum i []) := by
  have hvf : d.variantFor t = some i := by
    unfold EnumDef.variantFor
    rw [List.findIdx?_eq_some_iff_getElem]
    obtain ⟨hlt, hiv⟩ := List.getElem?_eq_some_iff.mp hi
    refine ⟨hlt, ?_, fun j hj => ?_⟩
    · rw [hiv]
      exact decide_eq_true ⟨by rw [hv]; simp, ht⟩
    · have := hfirst j d.variants[j] hj (List.getElem?_eq_getElem (by omega))
      simp [VariantDef.named, this]
  rw [decodeN_eq, decodeWith, hp]
  simp [decodeEnum, unitByText, hvf, hof]

/-- A single child element that has the name of a one-field variant. -/
theorem decode_struct_variant (n cn : Name) (as cas : List Attr) (m cm : NsMap) (cks : List Node)
    (i : Nat) (v : VariantDef) (q : Path)
    (hi : d.variantFor cn.loc = some i) (hv : d.variants[i]? = some v)
    (hs : v.shape = .newtype (.struct q)) (w : Val)
    (hw : decodeN L env k (.elem cn cas cm cks) q = .ok w) (hof : d.variantOf n as = none) :
    decodeN L env k (.elem n as m [.elem cn cas cm cks]) p = .ok (.enum i [w]) := by
  obtain ⟨vi, va, vs⟩ := v
  simp only at hs
  subst hs
  rw [decodeN_eq] at hw ⊢
  rw [decodeWith, hp]
  simp [decodeEnum, hof, unitByText, decodeL, variantKids, variantKid, hi, hv, FTy.core, hw, variantAdd]

/-- … of scalar type. -/
theorem decode_scalar_variant (n cn : Name) (as cas : List Attr) (m cm : NsMap) (t : Str)
    (i : Nat) (v : VariantDef) (ty : STy)
    (hi : d.variantFor cn.loc = some i) (hv : d.variants[i]? = some v)
    (hs : v.shape = .newtype (.simple ty)) (w : Val) (hw : parseS L ty t = .ok w)
    (hof : d.variantOf n as = none) :
    decodeN L env k (.elem n as m [.elem cn cas cm [.text t]]) p = .ok (.enum i [w]) := by
  obtain ⟨vi, va, vs⟩ := v
  simp only at hs
  subst hs
  rw [decodeN_eq, decodeWith, hp]
  simp [decodeEnum, hof, unitByText, decodeL, variantKids, variantKid, hi, hv, FTy.core, hw, variantAdd, textContent]

/-- Nothing that names a variant. -/
theorem decode_default_variant (n : Name) (as : List Attr) (m : NsMap) (ks : List Node)
    (hks : ∀ c ∈ ks, d.variantFor (match c with | .text t => t | .elem cn _ _ _ => cn.loc) = none)
    (hof : d.variantOf n as = none) :
    decodeN L env k (.elem n as m ks) p = .ok d.dflt := by
  rw [decodeN_eq, decodeWith, hp]
  have hu : unitByText d ks = none := by
    match ks, hks with
    | [], _ => rfl
    | [.text t], h => exact h (.text t) (by simp)
    | [.elem ..], _ => rfl
    | .text _ :: _ :: _, _ => rfl
    | .elem .. :: _ :: _, _ => rfl
  have hv : ∀ ks : List Node, (∀ c ∈ ks, d.variantFor (match c with | .text t => t | .elem cn _ _ _ => cn.loc) = none) →
      variantKids L d (ks.zip (decodeL L env (flatN L env k) ks)) none = .ok none := by
    intro ks
    induction ks with
    | nil => intro _; rfl
    | cons c ks ih =>
      intro h
      have hc := h c (List.mem_cons_self ..)
      simp only [decodeL, List.zip_cons_cons, variantKids]
      cases c with
      | text t => simp [variantKid, variantAdd, ih fun c hc => h c (List.mem_cons_of_mem _ hc)]
      | elem cn cas cm cks =>
        simp only at hc
        simp [variantKid, hc, variantAdd, ih fun c hc => h c (List.mem_cons_of_mem _ hc)]
  simp [decodeEnum, hu, hof, hv ks hks]

end

/-- The element `c` is the one that decides a field (number `i`) of the enum type `e`: the last of
the field's elements. -/
structure EnumField (L : Lib) (env : Env) (k : Nat) (d : StructDef) (s : Str) (ks : List Node) (vs : List Val)
    (i : Nat) (e : EnumDef) (c : Node) : Prop where
  okDoc : ∃ p n as m, OkDoc L env k p d s n as m ks vs
  field : ∃ f q, d.fields[i]? = some f ∧ f.isElem = true ∧ f.ty = .struct q ∧ env q = some (.enum e)
  last : ∃ pre, matching d i ks = pre ++ [c]

theorem EnumField.reads {L : Lib} {env : Env} {k : Nat} {d : StructDef} {s : Str} {ks : List Node} {vs : List Val}
    {i : Nat} {e : EnumDef} {c : Node} (h : EnumField L env k d s ks vs i e c) :
    ∃ q v, env q = some (.enum e) ∧ vs[i]? = some v ∧ decodeN L env k c q = .ok v := by
  obtain ⟨⟨p, n, as, m, h1⟩, ⟨f, q, hf, he, hty, hq⟩, pre, hl⟩ := h
  obtain ⟨v, h2, h3⟩ := (C12_last_wins_struct_partial L env k p d s n as m ks vs h1 i f q hf he pre c hl).1 hty
  exact ⟨q, v, hq, h2, h3⟩

/-- The start tag of an element with content does not name a variant: the document conforms. -/
theorem EnumField.content {L : Lib} {env : Env} {k : Nat} {d : StructDef} {s : Str} {ks : List Node} {vs : List Val}
    {i : Nat} {e : EnumDef} {n : Name} {as : List Attr} {m : NsMap} {cks : List Node}
    (h : EnumField L env k d s ks vs i e (.elem n as m cks)) (hne : cks ≠ []) : e.variantOf n as = none := by
  obtain ⟨⟨p, n', as', m', h1⟩, ⟨f, q, hf, he, hty, hq⟩, pre, hl⟩ := h
  have hmem : (Node.elem n as m cks) ∈ matching d i ks := by rw [hl]; simp
  obtain ⟨hks, hi⟩ := List.mem_filter.mp hmem
  have key : ∀ fc, ConfWith L env fc (.elem n as m cks) q → e.variantOf n as = none := by
    intro fc h3
    rw [ConfWith, hq] at h3
    rcases h3.2 with ⟨h4, h5, -⟩ | ⟨h4, -⟩
    · simp [EnumDef.variantOf, EnumDef.keyOf, h4, h5]
    · exact absurd h4 hne
  have key' : ∀ fc, ConfWith L env fc (.elem n' as' m' ks) p → e.variantOf n as = none := by
    intro fc hc
    rw [ConfWith, h1.isStruct] at hc
    have h2 := confKids_iff.mp hc.2.2.1 _ hks
    rw [ConfKid] at h2
    exact key fc ((h2.2 i f (of_decide_eq_true hi) hf).2 q (by rw [hty]; rfl)).1
  rcases h1.conf with hc | hc
  · rw [confN_eq] at hc
    exact key' _ hc
  · rcases tree_struct h1.isStruct hc with hc | hc
    · have h2 := treeKid_node (treeKids_mem hc.2.2.2.2 _ hks) (of_decide_eq_true hi) hf (q := q) (by rw [hty]; rfl)
      simp only [treeNode, Env.unflat, hq] at h2
      exact key _ h2
    · exact key' _ hc.2

/-- C21.  Whatever document was read: a field of an enum type whose element holds, as text, the name
of a unit variant is this variant. -/
theorem C21_unit_partial {L : Lib} {env : Env} {k : Nat} {d : StructDef} {s : Str} {ks : List Node} {vs : List Val}
    {i : Nat} {e : EnumDef} {n : Name} {as : List Attr} {m : NsMap} {t : Str}
    (h : EnumField L env k d s ks vs i e (.elem n as m [.text t]))
    (j : Nat) (v : VariantDef) (hj : e.variants[j]? = some v) (hv : v.shape = .unit)
    (ht : v.attrs.rename.getD v.ident = t)
    (hfirst : ∀ (j' : Nat) (w : VariantDef), j' < j → e.variants[j']? = some w → w.attrs.rename.getD w.ident ≠ t) :
    vs[i]? = some (.enum j []) := by
  obtain ⟨q, w, hq, h1, h2⟩ := h.reads
  rw [decode_unit_variant L env k q e hq n as m t j v hj hv ht hfirst (h.content (by simp))] at h2
  cases h2
  exact h1

open Sample in
theorem Sample.enumField1 : EnumField Tests.lib env 0 book text1 kids1 val1 5 color (el c!"color" [tx c!"red"]) :=
  ⟨⟨_, _, _, _, ok1⟩, ⟨_, _, rfl, rfl, rfl, env_color⟩, [], rfl⟩

open Sample in
example : val1[5]? = some (.enum 1 []) := by
  refine C21_unit_partial enumField1 1 _ rfl rfl rfl ?_
  intro j' w hj hw
  obtain rfl : j' = 0 := by omega
  cases hw
  decide

/-- C21.  … whose element holds one child named like a one-field variant is that variant, with the
payload read from this child. -/
theorem C21_newtype_partial {L : Lib} {env : Env} {k : Nat} {d : StructDef} {s : Str} {ks : List Node} {vs : List Val}
    {i : Nat} {e : EnumDef} {n cn : Name} {as cas : List Attr} {m cm : NsMap} {cks : List Node}
    (h : EnumField L env k d s ks vs i e (.elem n as m [.elem cn cas cm cks]))
    (j : Nat) (v : VariantDef) (hj : e.variantFor cn.loc = some j) (hv : e.variants[j]? = some v) :
    (∀ q, v.shape = .newtype (.struct q) → ∀ w, decodeN L env k (.elem cn cas cm cks) q = .ok w →
      vs[i]? = some (.enum j [w])) ∧
    (∀ ty t w, v.shape = .newtype (.simple ty) → cks = [.text t] → parseS L ty t = .ok w →
      vs[i]? = some (.enum j [w])) := by
  obtain ⟨q, w, hq, h1, h2⟩ := h.reads
  constructor
  · intro q' hs w' hw'
    rw [decode_struct_variant L env k q e hq n cn as cas m cm cks j v q' hj hv hs w' hw' (h.content (by simp))] at h2
    cases h2
    exact h1
  · rintro ty t w' hs rfl hw'
    rw [decode_scalar_variant L env k q e hq n cn as cas m cm t j v ty hj hv hs w' hw' (h.content (by simp))] at h2
    cases h2
    exact h1

/-- C21.  … whose element neither holds anything that names a variant nor, being empty, names one on its start tag has the
enum's default value. -/
theorem C21_default_partial {L : Lib} {env : Env} {k : Nat} {d : StructDef} {s : Str} {ks : List Node} {vs : List Val}
    {i : Nat} {e : EnumDef} {n : Name} {as : List Attr} {m : NsMap} {cks : List Node}
    (h : EnumField L env k d s ks vs i e (.elem n as m cks))
    (hks : ∀ c ∈ cks, e.variantFor (match c with | .text t => t | .elem cn _ _ _ => cn.loc) = none)
    (hof : cks = [] → e.variantOf n as = none) : vs[i]? = some e.dflt := by
  obtain ⟨q, w, hq, h1, h2⟩ := h.reads
  rw [decode_default_variant L env k q e hq n as m cks hks
    (if hc : cks = [] then hof hc else h.content hc)] at h2
  cases h2
  exact h1

namespace Sample
open Tests

/-- Documents with the other kinds of variant content. -/
def textMix : Str := c!"<book id=\"7\"><title>T</title><color><Mix><name>A</name></Mix></color></book>"
def textGrey : Str := c!"<book id=\"7\"><title>T</title><color><Grey>12</Grey></color></book>"
def textNone : Str := c!"<book id=\"7\"><title>T</title><color>pink<x/></color></book>"

def kidMix : Node := el c!"color" [el c!"Mix" [el c!"name" [tx c!"A"]]]
def kidGrey : Node := el c!"color" [el c!"Grey" [tx c!"12"]]
def kidNone : Node := el c!"color" [tx c!"pink", el c!"x" []]

def valC (c : Val) : List Val := [.int 7, .vec [], .str c!"T", .vec [], .vec [], c, .none, .none, .int 5]

theorem conf_variants (k : Node) (ks : List Node) (hk : k = el c!"color" ks) (h : ConfVariants lib env (fun _ _ => False) color ks) :
    ConfKid lib env (fun _ _ => False) book k := by
  subst hk
  refine confStruct book (by decide) _ _ [c!"Color"] (field_ty _ _ 5 _ _ (by decide) rfl rfl) ?_
  rw [el, ConfWith, env_color]
  exact ⟨by decide, .inl ⟨rfl, by decide, .inr h⟩⟩

theorem okC (s : Str) (k : Node) (c : Val)
    (hdoc : IsDoc (lib.parse s) (elA c!"book" [(c!"id", c!"7")] [el c!"title" [tx c!"T"], k]))
    (hk : ConfKid lib env (fun _ _ => False) book k)
    (hr : deOk env c!"Book" s (.struct (valC c)) = true) :
    OkDoc lib env 0 [c!"Book"] book s ⟨c!"book", none, none⟩ [⟨⟨c!"id", none, none⟩, c!"7"⟩] []
      [el c!"title" [tx c!"T"], k] (valC c) := by
  refine ⟨env_book, hdoc, .inl (conf_book _ _ _ _ (.inr rfl) ?_), returns_of_deOk hr⟩
  intro k' hk'
  simp only [List.mem_cons, List.not_mem_nil, or_false] at hk'
  rcases hk' with rfl | rfl
  · exact conf_title _
  · exact hk

theorem okMix : OkDoc lib env 0 [c!"Book"] book textMix ⟨c!"book", none, none⟩ [⟨⟨c!"id", none, none⟩, c!"7"⟩] []
    [el c!"title" [tx c!"T"], kidMix] (valC (.enum 2 [.struct [.str c!"A", .none]])) := by
  refine okC _ _ _ ⟨[], by decide +kernel⟩ (conf_variants _ _ rfl ?_) (by decide +kernel)
  simp only [ConfVariants, and_true, el, ConfVariant]
  refine .inr ⟨2, _, _, rfl, rfl, rfl, .inr ⟨_, rfl, ?_⟩⟩
  refine confAuthor _ _ _ _ (by decide) ?_
  simp only [ConfKids, and_true]
  exact confScalar author (by decide) _ _ .string (field_ty _ _ 0 _ _ (by decide) rfl rfl) trivial

theorem okGrey : OkDoc lib env 0 [c!"Book"] book textGrey ⟨c!"book", none, none⟩ [⟨⟨c!"id", none, none⟩, c!"7"⟩] []
    [el c!"title" [tx c!"T"], kidGrey] (valC (.enum 3 [.int 12])) := by
  refine okC _ _ _ ⟨[], by decide +kernel⟩ (conf_variants _ _ rfl ?_) (by decide +kernel)
  simp only [ConfVariants, and_true, el, ConfVariant]
  exact .inr ⟨3, _, _, rfl, rfl, rfl, .inl ⟨_, rfl, trivial⟩⟩

theorem okNone : OkDoc lib env 0 [c!"Book"] book textNone ⟨c!"book", none, none⟩ [⟨⟨c!"id", none, none⟩, c!"7"⟩] []
    [el c!"title" [tx c!"T"], kidNone] (valC (.enum 0 [])) := by
  refine okC _ _ _ ⟨[], by decide +kernel⟩ (conf_variants _ _ rfl ?_) (by decide +kernel)
  simp only [ConfVariants, and_true, el, tx, ConfVariant, Node.foreign, Node.foreignL]
  exact ⟨by decide, .inl (by decide)⟩

example : (valC (.enum 2 [.struct [.str c!"A", .none]]))[5]? = some (.enum 2 [.struct [.str c!"A", .none]]) :=
  (C21_newtype_partial (e := color) (cn := ⟨c!"Mix", none, none⟩)
    ⟨⟨_, _, _, _, okMix⟩, ⟨_, _, rfl, rfl, rfl, env_color⟩, [], rfl⟩ 2 _ (by decide) rfl).1 _ rfl _ (by rfl)

example : (valC (.enum 3 [.int 12]))[5]? = some (.enum 3 [.int 12]) :=
  (C21_newtype_partial (e := color) (cn := ⟨c!"Grey", none, none⟩)
    ⟨⟨_, _, _, _, okGrey⟩, ⟨_, _, rfl, rfl, rfl, env_color⟩, [], rfl⟩ 3 _ (by decide) rfl).2 _ _ _ rfl rfl (by rfl)

example : (valC (.enum 0 []))[5]? = some (.enum 0 []) :=
  C21_default_partial (e := color) ⟨⟨_, _, _, _, okNone⟩, ⟨_, _, rfl, rfl, rfl, env_color⟩, [], rfl⟩ (by decide) nofun

end Sample

end Yaserde
