import Verif.Props.Decode
import Verif.Tests.Trip
import Verif.Props.RoundTrip
/-
Property C26: what a flattened field is read from.
-/

set_option autoImplicit false
set_option maxRecDepth 100000

namespace Yaserde

/-- The text is a document made of the start tag of an element read as `d` and of those of its children that no field of
`d` claims (adjacent texts merged; the namespace declarations may differ). -/
def ResidueDoc (L : Lib) (d : StructDef) (n : Name) (as : List Attr) (ks : List Node) (t : Str) (y : Node) : Prop :=
  IsDoc (L.parse t) y ∧
    y.strip = (Node.elem n as [] (ks.filter fun c => match c with
      | .text _ => true
      | .elem cn _ _ _ => decide (∀ f ∈ d.fields, ¬ f.claims d.attrs cn))).canon

theorem unclaimed_eq (d : StructDef) (c : Node) : d.unclaimed c = match c with
    | .text _ => true
    | .elem cn _ _ _ => decide (∀ f ∈ d.fields, ¬ f.claims d.attrs cn) := by
  cases c with
  | text => rfl
  | elem cn _ _ _ =>
    simp only [StructDef.unclaimed, StructDef.fieldFor]
    rw [Bool.eq_iff_iff, Option.isNone_iff_eq_none, List.findIdx?_eq_none_iff]
    simp

theorem canon_nss (n : Name) (as : List Attr) (m m' : NsMap) (ks : List Node) :
    (Node.elem n as m ks).canon = (Node.elem n as m' ks).canon := rfl

theorem residueDoc_iff (L : Lib) (d : StructDef) (n : Name) (as : List Attr) (m : NsMap) (ks : List Node) (t : Str) (y : Node) :
    ResidueDoc L d n as ks t y ↔ IsDoc (L.parse t) y ∧ y.strip = (d.residue n as m ks).canon := by
  have : d.unclaimed = fun c => match c with
      | .text _ => true
      | .elem cn _ _ _ => decide (∀ f ∈ d.fields, ¬ f.claims d.attrs cn) := funext (unclaimed_eq d)
  unfold ResidueDoc StructDef.residue
  rw [this, canon_nss n as m []]

/-- No child contributes to a flattened field. -/
theorem flat_kids (L : Lib) (dec : Node → Path → Res Val) (d : StructDef) (ks : List Node) {i : Nat} {f : FieldDef}
    (hf : d.fields[i]? = some f) (hfl : f.attrs.flatten = true) (htext : f.attrs.text = false) :
    ks.flatMap (kidInputs L dec d i f) = [] := by
  rw [List.flatMap_eq_nil_iff]
  intro c _
  cases c with
  | text => simp [kidInputs, htext]
  | elem cn cas cm cks =>
    simp only [kidInputs]
    rw [if_neg]
    intro hfor
    obtain ⟨hlt, hg, -⟩ := List.findIdx?_eq_some_iff_getElem.mp hfor
    rw [List.getElem?_eq_getElem hlt] at hf
    cases hf
    have := (of_decide_eq_true hg).1
    simp [FieldDef.isElem, hfl] at this

section
variable {L : Lib} {env : Env} {k : Nat} {p : Path} {d : StructDef} {s : Str} {n : Name}
  {as : List Attr} {m : NsMap} {ks : List Node} {vs : List Val}

/-- What is read from such a document. -/
theorem residue_returns {j : Nat} {q : Path} {t : Str} {y : Node} (hr : ResidueDoc L d n as ks t y)
    (hc : ConfN L env j y q) (r : Res Val) :
    Returns L env q t r ↔ r = flatN L env (j + 1) (d.residue n as m ks) q := by
  obtain ⟨h1, h2⟩ := (residueDoc_iff L d n as m ks t y).mp hr
  rw [returns_iff L env j q t y h1 hc, decodeDocN, ← decodeDoc_strip, h2]
  rfl

theorem OkDoc.flatConf (h : OkDoc L env k p d s n as m ks vs) {f : FieldDef} (hf : f ∈ d.fields) (hna : f.attrs.isAttr = false)
    (hfl : f.attrs.flatten = true) {q : Path} (hq : f.ty.core = .struct q) :
    ∃ j, k = j + 1 ∧ ∃ t y, ResidueDoc L d n as ks t y ∧ ConfN L env j y q := by
  have := h.conf.conf h.isStruct (by
    unfold StructDef.hasFlat
    rw [List.any_eq_true]
    exact ⟨f, hf, by simp [hna, hfl]⟩)
  rw [confN_eq, ConfWith, h.isStruct] at this
  have hc := this.2.2.2.1 f hf hna hfl q hq
  unfold StructDef.residue at hc
  cases k with
  | zero => exact hc.elim
  | succ j =>
    obtain ⟨y, ⟨h1, pre, h2, h3⟩, h4⟩ := hc
    refine ⟨j, rfl, L.emit {} (d.residue n as m ks).wevents, y, (residueDoc_iff L d n as m ks _ y).mpr ⟨⟨[], ?_⟩, h1⟩, h4⟩
    rw [StructDef.residue, h3]
    unfold content at h2 ⊢
    rw [List.filter_append, h2, List.nil_append, List.append_nil]
    have := events_visible y
    rw [skipped_eq_isMisc] at this
    exact this

/-- **C26.**  A flattened struct field of a conforming document: there is a document that consists of the parent's start tag
and those of the parent's children that no field of the parent claims, and the field's value is what `from_str` returns
for this document (and for any other such document that conforms to the field's type).

Missing: documents that do not conform; the property is false for these (`C26_false`). -/
theorem C26_flatten_partial (h : OkDoc L env k p d s n as m ks vs) {i : Nat} {f : FieldDef} (hf : d.fields[i]? = some f)
    (hna : f.attrs.isAttr = false) (hfl : f.attrs.flatten = true) {q : Path} (hty : f.ty = .struct q) :
    ∃ v, vs[i]? = some v ∧
      (∃ t y, ResidueDoc L d n as ks t y ∧ ∀ r, Returns L env q t r ↔ r = .ok v) ∧
      ∀ t y, ResidueDoc L d n as ks t y → ConfN L env (k - 1) y q → ∀ r, Returns L env q t r ↔ r = .ok v := by
  obtain ⟨j, rfl, t, y, hr, hc⟩ := h.flatConf (List.mem_of_getElem? hf) hna hfl (q := q) (by rw [hty]; rfl)
  obtain ⟨w, ins, hw, h1, h2⟩ := h.field hf
  have htext : f.attrs.text = false := by
    cases hx : f.attrs.text with
    | false => rfl
    | true => rcases h.plain.textTy f (List.mem_of_getElem? hf) hx with h3 | h3 <;> rw [h3] at hty <;> cases hty
  have hkids := flat_kids L (decodeN L env (j + 1)) d ks hf hfl htext
  have hfl' : ins.map Res.ok = [flatN L env (j + 1) (d.residue n as m ks) q] := by
    rw [← h1]
    unfold fieldInputs attrInputs flatInputs
    rw [hkids]
    simp [hna, hfl, hty]
  cases ins with
  | nil => cases hfl'
  | cons v ins =>
    simp only [List.map_cons, List.cons.injEq, List.map_eq_nil_iff] at hfl'
    obtain ⟨e, rfl⟩ := hfl'
    have hv : w = v := by
      simp only [fieldValue, hty, List.getLast?_singleton, Res.ok.injEq] at h2
      exact h2.symm
    subst hv
    refine ⟨w, hw, ⟨t, y, hr, fun r => ?_⟩, fun t' y' hr' hc' r => ?_⟩
    · rw [residue_returns (m := m) hr hc, e]
    · exact (residue_returns (m := m) hr' (by simpa using hc') r).trans (by rw [e])

/-- **C26** for a flattened `Option`: `Some` of what is returned for the document made of the parent's start tag and the
unclaimed children, `None` if that is an error. -/
theorem C26_flatten_option_partial (h : OkDoc L env k p d s n as m ks vs) {i : Nat} {f : FieldDef} (hf : d.fields[i]? = some f)
    (hna : f.attrs.isAttr = false) (hfl : f.attrs.flatten = true) {q : Path} (hty : f.ty = .opt (.struct q)) :
    ∃ t y, ResidueDoc L d n as ks t y ∧
      ((∃ v, vs[i]? = some (.some v) ∧ ∀ r, Returns L env q t r ↔ r = .ok v) ∨
       (∃ e, vs[i]? = some .none ∧ ∀ r, Returns L env q t r ↔ r = .err e)) := by
  obtain ⟨j, rfl, t, y, hr, hc⟩ := h.flatConf (List.mem_of_getElem? hf) hna hfl (q := q) (by rw [hty]; rfl)
  refine ⟨t, y, hr, ?_⟩
  obtain ⟨w, ins, hw, h1, h2⟩ := h.field hf
  have htext : f.attrs.text = false := by
    cases hx : f.attrs.text with
    | false => rfl
    | true => rcases h.plain.textTy f (List.mem_of_getElem? hf) hx with h3 | h3 <;> rw [h3] at hty <;> cases hty
  have hkids := flat_kids L (decodeN L env (j + 1)) d ks hf hfl htext
  have hfl' : ins.map Res.ok = flatInputs (flatN L env (j + 1) (d.residue n as m ks)) f := by
    rw [← h1]
    unfold fieldInputs attrInputs
    rw [hkids]
    simp [hna]
  have hret := fun r => residue_returns (m := m) hr hc r
  have hne : flatN L env (j + 1) (d.residue n as m ks) q ≠ .diverge := by
    have := ((hret _).mpr rfl).1
    exact this
  unfold flatInputs at hfl'
  simp only [hna, hfl, hty, Bool.not_false, Bool.and_self, if_true] at hfl'
  cases hres : flatN L env (j + 1) (d.residue n as m ks) q with
  | ok v =>
    rw [hres] at hfl' hret
    left
    refine ⟨v, ?_, hret⟩
    cases ins with
    | nil => cases hfl'
    | cons v' ins =>
      simp only [List.map_cons, List.cons.injEq, List.map_eq_nil_iff, Res.ok.injEq] at hfl'
      obtain ⟨rfl, rfl⟩ := hfl'
      simp only [fieldValue, hty, List.getLast?_singleton, Res.ok.injEq] at h2
      rw [hw, h2]
  | err e =>
    rw [hres] at hfl' hret
    right
    refine ⟨e, ?_, hret⟩
    have : ins = [] := by simpa using hfl'
    subst this
    simp only [fieldValue, hty, List.getLast?_nil, Res.ok.injEq] at h2
    rw [hw, h2]
  | panic e =>
    rw [hres] at hfl'
    cases ins with
    | nil => cases hfl'
    | cons v' ins => simp at hfl'
  | diverge => exact absurd hres hne

end

/-! ### A document, and documents for which it is false -/

namespace FlatSample
open Tests Sample

/-- `struct A { n: Option<i32>, #[flatten] b: B, #[flatten] c: Option<C> }`, `struct B { #[attribute] k: String, x: u8 }`,
`struct C { u: u8 }`. -/
def sA : StructDef :=
  { name := c!"A", fields := [F c!"n" (O (I .i32)), F c!"b" (T c!"B") flat, F c!"c" (O (T c!"C")) flat] }
def sB : StructDef := { name := c!"B", fields := [F c!"k" Tests.S attr, F c!"x" (I .u8)] }
def sC : StructDef := { name := c!"C", fields := [F c!"u" (I .u8)] }

def env : Env := envOf [([c!"A"], .struct sA), ([c!"B"], .struct sB), ([c!"C"], .struct sC)]

theorem env_A : env [c!"A"] = some (.struct sA) := rfl
theorem env_B : env [c!"B"] = some (.struct sB) := rfl
theorem env_C : env [c!"C"] = some (.struct sC) := rfl

def text : Str := c!"<A k='q'>hey<n>5</n>ho<x>7</x><z/></A>"
def kids : List Node := [tx c!"hey", el c!"n" [tx c!"5"], tx c!"ho", el c!"x" [tx c!"7"], el c!"z" []]
def doc : Node := elA c!"A" [(c!"k", c!"q")] kids
/-- What is left for the flattened fields. -/
def rest : Node := elA c!"A" [(c!"k", c!"q")] [tx c!"heyho", el c!"x" [tx c!"7"], el c!"z" []]

theorem plain_A : sA.Plain := by
  constructor <;> intro f hf
  all_goals
    simp only [sA, List.mem_cons, List.not_mem_nil, or_false] at hf
    rcases hf with rfl | rfl | rfl <;> simp [F, FTy.core, I, O, T, flat]
theorem plain_B : sB.Plain := by
  constructor <;> intro f hf
  all_goals
    simp only [sB, List.mem_cons, List.not_mem_nil, or_false] at hf
    rcases hf with rfl | rfl <;> simp [F, FTy.core, Tests.S, I, attr]
theorem plain_C : sC.Plain := by
  constructor <;> intro f hf
  all_goals
    simp only [sC, List.mem_cons, List.not_mem_nil, or_false] at hf
    rcases hf with rfl
    simp [F, FTy.core, I]

theorem attrs_A {P : Path → Attr → Str → Prop} {as : List Attr} : ∀ f ∈ sA.fields, f.attrs.isAttr = true → ∀ q,
    f.ty.core = .struct q → ∀ a ∈ as, a.name.loc = f.label → ∀ s ∈ f.ty.attrTexts a.value, P q a s := by
  intro f hf h1 q hq
  simp only [sA, List.mem_cons, List.not_mem_nil, or_false] at hf
  rcases hf with rfl | rfl | rfl <;> first | cases hq; done | cases h1

theorem attrs_B {P : Path → Attr → Str → Prop} {as : List Attr} : ∀ f ∈ sB.fields, f.attrs.isAttr = true → ∀ q,
    f.ty.core = .struct q → ∀ a ∈ as, a.name.loc = f.label → ∀ s ∈ f.ty.attrTexts a.value, P q a s := by
  intro f hf h1 q hq
  simp only [sB, List.mem_cons, List.not_mem_nil, or_false] at hf
  rcases hf with rfl | rfl <;> cases hq

theorem attrs_C {P : Path → Attr → Str → Prop} {as : List Attr} : ∀ f ∈ sC.fields, f.attrs.isAttr = true → ∀ q,
    f.ty.core = .struct q → ∀ a ∈ as, a.name.loc = f.label → ∀ s ∈ f.ty.attrTexts a.value, P q a s := by
  intro f hf h1 q hq
  simp only [sC, List.mem_cons, List.not_mem_nil, or_false] at hf
  rcases hf with rfl <;> cases hq

theorem conf_other {fc : Node → Path → Prop} (d : StructDef) (n : Str) (ks : List Node)
    (h : d.fieldFor ⟨n, none, none⟩ = none) : ConfKid lib env fc d (el n ks) := by
  rw [el, ConfKid]
  refine ⟨by simp, fun i f hi => ?_⟩
  rw [h] at hi
  cases hi

theorem conf_scalar {fc : Node → Path → Prop} (d : StructDef) (n : Str) (ks : List Node) (t : STy)
    (ht : ∀ i f, d.fieldFor ⟨n, none, none⟩ = some i → d.fields[i]? = some f → f.ty.core = .simple t)
    (hk : textOnly ks) (hs : (scalarContent lib t ks).isSome = true) : ConfKid lib env fc d (el n ks) := by
  rw [el, ConfKid]
  refine ⟨by simp, fun i f hi hf => ⟨fun t' ht' => ⟨hk, fun _ => ?_⟩, fun q hq => ?_⟩⟩
  · rw [ht i f hi hf] at ht'; cases ht'; exact hs
  · rw [ht i f hi hf] at hq; cases hq

theorem conf_rest_B : ConfN lib env 0 rest [c!"B"] := by
  rw [ConfN, rest, elA, ConfWith, env_B]
  refine ⟨plain_B, .inr (by decide), ?_, fun f hf h1 h2 => (not_hasFlat sB (by decide) ⟨f, hf, h1, h2⟩).elim, ?_⟩
  rotate_left
  · exact attrs_B
  simp only [ConfKids, and_true]
  refine ⟨?_, conf_scalar _ _ _ (.int .u8) (field_ty _ _ 1 _ _ (by decide) rfl rfl) trivial (by decide),
    conf_other _ _ _ (by decide)⟩
  rw [tx, ConfKid]; simp

theorem conf_rest_C : ConfN lib env 0 rest [c!"C"] := by
  rw [ConfN, rest, elA, ConfWith, env_C]
  refine ⟨plain_C, .inr (by decide), ?_, fun f hf h1 h2 => (not_hasFlat sC (by decide) ⟨f, hf, h1, h2⟩).elim, ?_⟩
  rotate_left
  · exact attrs_C
  simp only [ConfKids, and_true]
  refine ⟨?_, conf_other _ _ _ (by decide), conf_other _ _ _ (by decide)⟩
  rw [tx, ConfKid]; simp

theorem reparse : Reparse lib (sA.residue ⟨c!"A", none, none⟩ [⟨⟨c!"k", none, none⟩, c!"q"⟩] [] kids) rest :=
  ⟨rfl, [.startDocument], rfl, by decide +kernel⟩

theorem conf_doc : ConfN lib env 1 doc [c!"A"] := by
  rw [confN_eq, doc, elA, ConfWith, env_A]
  refine ⟨plain_A, .inl (by decide), ?_, ?_, attrs_A⟩
  · simp only [kids, ConfKids, and_true]
    refine ⟨?_, conf_scalar _ _ _ (.int .i32) (field_ty _ _ 0 _ _ (by decide) rfl rfl) trivial (by decide), ?_,
      conf_other _ _ _ (by decide), conf_other _ _ _ (by decide)⟩ <;>
    · rw [tx, ConfKid]; simp
  · intro f hf h1 h2 q hq
    simp only [sA, List.mem_cons, List.not_mem_nil, or_false] at hf
    rcases hf with rfl | rfl | rfl
    · cases h2
    · cases hq; exact ⟨rest, reparse, conf_rest_B⟩
    · cases hq; exact ⟨rest, reparse, conf_rest_C⟩

theorem ok : OkDoc lib env 1 [c!"A"] sA text ⟨c!"A", none, none⟩ [⟨⟨c!"k", none, none⟩, c!"q"⟩] [] kids
    [.some (.int 5), .struct [.str c!"q", .int 7], .none] :=
  ⟨env_A, ⟨[], by decide +kernel⟩, .inl conf_doc, returns_of_deOk (by decide +kernel)⟩

example : ∃ t y, ResidueDoc lib sA ⟨c!"A", none, none⟩ [⟨⟨c!"k", none, none⟩, c!"q"⟩] kids t y ∧
    ∀ r, Returns lib env [c!"B"] t r ↔ r = .ok (.struct [.str c!"q", .int 7]) := by
  obtain ⟨v, hv, ⟨t, y, h1, h2⟩, -⟩ := C26_flatten_partial ok (i := 1) rfl rfl rfl rfl
  cases hv
  exact ⟨t, y, h1, h2⟩

/-- In particular, for the text `<A k='q'>heyho<x>7</x><z/></A>`. -/
example (r : Res Val) : Returns lib env [c!"B"] c!"<A k='q'>heyho<x>7</x><z/></A>" r ↔ r = .ok (.struct [.str c!"q", .int 7]) := by
  obtain ⟨v, hv, -, h⟩ := C26_flatten_partial ok (i := 1) rfl rfl rfl rfl
  cases hv
  exact h _ rest ⟨⟨[], by decide +kernel⟩, rfl⟩ conf_rest_B r

example : ∃ t y, ResidueDoc lib sA ⟨c!"A", none, none⟩ [⟨⟨c!"k", none, none⟩, c!"q"⟩] kids t y ∧
    ∃ e, ∀ r, Returns lib env [c!"C"] t r ↔ r = .err e := by
  obtain ⟨t, y, h1, ⟨v, h2, -⟩ | ⟨e, h2, h3⟩⟩ := C26_flatten_option_partial ok (i := 2) rfl rfl rfl rfl
  · cases h2
  · exact ⟨t, y, h1, e, h3⟩

end FlatSample

open FlatSample Tests Sample in
/-- **C26 is false** for documents with a malformed scalar child: in `<A k='q'><n>zz</n><x>7</x></A>` the field `n` claims the
first child, and what is left, `<A k='q'><x>7</x></A>`, is read as a `B`; but `A` is rejected, because its flattened field is
missing. -/
theorem C26_false : ∃ (L : Lib) (env : Env) (p q : Path) (d : StructDef) (f : FieldDef) (s t : Str) (n : Name) (as : List Attr)
    (m : NsMap) (ks : List Node) (y : Node) (v : Val), XmlLaw L ∧ env p = some (.struct d) ∧ f ∈ d.fields ∧ f.attrs.isAttr = false ∧
      f.attrs.flatten = true ∧ f.ty = .struct q ∧ IsDoc (L.parse s) (.elem n as m ks) ∧ ResidueDoc L d n as ks t y ∧
      Returns L env q t (.ok v) ∧ Returns L env p s (.err (f.ident ++ c!" is a required field of " ++ d.name)) :=
  ⟨lib, FlatSample.env, [c!"A"], [c!"B"], sA, F c!"b" (T c!"B") flat, c!"<A k='q'><n>zz</n><x>7</x></A>", c!"<A k='q'><x>7</x></A>",
    ⟨c!"A", none, none⟩, [⟨⟨c!"k", none, none⟩, c!"q"⟩], [], [el c!"n" [tx c!"zz"], el c!"x" [tx c!"7"]],
    elA c!"A" [(c!"k", c!"q")] [el c!"x" [tx c!"7"]], .struct [.str c!"q", .int 7], xml, rfl, by simp [sA], rfl, rfl, rfl,
    ⟨[], by decide +kernel⟩, ⟨⟨[], by decide +kernel⟩, rfl⟩, returns_of_deOk (by decide +kernel), returns_of_deErr (by decide +kernel)⟩

open FlatSample Tests Sample in
/-- … and a flattened `Option` is `None` then. -/
theorem C26_false_option : ∃ (L : Lib) (env : Env) (p q : Path) (d : StructDef) (f : FieldDef) (s t : Str) (n : Name) (as : List Attr)
    (m : NsMap) (ks : List Node) (y : Node) (v : Val), XmlLaw L ∧ env p = some (.struct d) ∧ d.fields[1]? = some f ∧
      f.attrs.isAttr = false ∧ f.attrs.flatten = true ∧ f.ty = .opt (.struct q) ∧ IsDoc (L.parse s) (.elem n as m ks) ∧
      ResidueDoc L d n as ks t y ∧ Returns L env q t (.ok v) ∧ ∃ vs, Returns L env p s (.ok (.struct vs)) ∧ vs[1]? = some .none :=
  ⟨lib, envOf [mkS c!"A" [F c!"n" (O (I .i32)), F c!"c" (O (T c!"C")) flat], mkS c!"C" [F c!"u" (I .u8)]], [c!"A"], [c!"C"],
    { name := c!"A", fields := [F c!"n" (O (I .i32)), F c!"c" (O (T c!"C")) flat] }, F c!"c" (O (T c!"C")) flat,
    c!"<A><u>7</u><n>zz</n></A>", c!"<A><u>7</u></A>",
    ⟨c!"A", none, none⟩, [], [], [el c!"u" [tx c!"7"], el c!"n" [tx c!"zz"]],
    el c!"A" [el c!"u" [tx c!"7"]], .struct [.int 7], xml, rfl, rfl, rfl, rfl, rfl,
    ⟨[], by decide +kernel⟩, ⟨⟨[], by decide +kernel⟩, rfl⟩, returns_of_deOk (by decide +kernel), [.none, .none],
    returns_of_deOk (by decide +kernel), rfl⟩

/-- `struct A { #[flatten] b: B }`, `struct B { #[attribute] k: String, x: Vec<u8> }`. -/
def nsFlat : Env :=
  Tests.envOf [Tests.mkS c!"A" [Tests.F c!"b" (Tests.T c!"B") Tests.flat],
    Tests.mkS c!"B" [Tests.F c!"k" Tests.S Tests.attr, Tests.F c!"x" (Tests.V (Tests.I .u8))]]

open Tests Sample in
/-- … and the name of a namespace can add to what a flattened field is read from, because the document for it is assembled with
namespace names as they are, quotation marks included: this document has no attributes, and what would be read from the
root element without the declaration lacks a required one. -/
theorem C26_false_namespace : ∃ (L : Lib) (env : Env) (p q : Path) (d : StructDef) (f : FieldDef) (s t : Str) (n : Name)
    (m : NsMap) (ks : List Node) (y : Node) (e : Str) (v : Val), XmlLaw L ∧ env p = some (.struct d) ∧ d.fields = [f] ∧
      f.attrs.isAttr = false ∧ f.attrs.flatten = true ∧ f.ty = .struct q ∧ IsDoc (L.parse s) (.elem n [] m ks) ∧
      ResidueDoc L d n [] ks t y ∧ Returns L env q t (.err e) ∧ Returns L env p s (.ok (.struct [v])) ∧ v = .struct [.str c!"x", .vec []] :=
  ⟨lib, nsFlat, [c!"A"], [c!"B"], { name := c!"A", fields := [F c!"b" (T c!"B") flat] }, F c!"b" (T c!"B") flat,
    c!"<A xmlns:p='u&quot; k=&quot;x'/>", c!"<A/>", ⟨c!"A", none, none⟩, [(c!"p", c!"u\" k=\"x")], [], el c!"A" [],
    c!"k is a required field of B", .struct [.str c!"x", .vec []], xml, rfl, rfl, rfl, rfl, rfl,
    ⟨[], by decide +kernel⟩, ⟨⟨[], by decide +kernel⟩, rfl⟩, returns_of_deErr (by decide +kernel), returns_of_deOk (by decide +kernel), rfl⟩

open Tests in
/-- Children can be added in the same way, and those that are there be hidden. -/
theorem C26_false_namespace_children :
    Returns lib nsFlat [c!"A"] c!"<A k='y' xmlns:p='u&quot; k=&quot;x&quot;>&lt;x>7&lt;/x>&lt;/A>&lt;!--'><x>8</x></A>"
      (.ok (.struct [.struct [.str c!"x", .vec [.int 7]]])) :=
  returns_of_deOk (by decide +kernel)

end Yaserde
