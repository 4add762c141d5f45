import Verif.Proofs.Fields
/-
The inputs of an element field are the children that match it.
-/

set_option autoImplicit false

namespace Yaserde

theorem attrInputs_elem (L : Lib) (user : Path → Str → Res Val) (f : FieldDef) (as : List Attr) (h : f.isElem = true) :
    attrInputs L user f as = [] := by
  unfold attrInputs
  rw [if_neg]
  simp only [FieldDef.isElem, Bool.and_eq_true, Bool.not_eq_true'] at h
  simp [h.1]

theorem flatInputs_elem (flat : Path → Res Val) (f : FieldDef) (h : f.isElem = true) :
    flatInputs flat f = [] := by
  unfold flatInputs
  rw [if_neg]
  simp only [FieldDef.isElem, Bool.and_eq_true, Bool.not_eq_true'] at h
  simp [h.2]

theorem inputs_matching_simple (L : Lib) (dec : Node → Path → Res Val) (d : StructDef) (i : Nat)
    (f : FieldDef) (t : STy) (ht : f.ty.core = .simple t) (htext : f.attrs.text = false) (ks : List Node) :
    ks.flatMap (kidInputs L dec d i f)
      = ((matching d i ks).filterMap fun c => scalarContent L t c.content).map .ok := by
  induction ks with
  | nil => rfl
  | cons k ks ih =>
    rw [List.flatMap_cons, ih]
    unfold matching
    cases k with
    | text s => simp [kidInputs, htext, List.filter_cons]
    | elem n as m kids =>
      simp only [kidInputs, ht, List.filter_cons]
      by_cases h : d.fieldFor n = some i
      · simp only [h, if_true, decide_true, List.filterMap_cons, Node.content]
        cases scalarContent L t kids <;> simp
      · simp [h]

theorem inputs_matching_struct (L : Lib) (dec : Node → Path → Res Val) (d : StructDef) (i : Nat)
    (f : FieldDef) (q : Path) (hq : f.ty.core = .struct q) (htext : f.attrs.text = false) (ks : List Node) :
    ks.flatMap (kidInputs L dec d i f) = (matching d i ks).map fun c => dec c q := by
  induction ks with
  | nil => rfl
  | cons k ks ih =>
    rw [List.flatMap_cons, ih]
    unfold matching
    cases k with
    | text s => simp [kidInputs, htext, List.filter_cons]
    | elem n as m kids =>
      simp only [kidInputs, hq, List.filter_cons]
      by_cases h : d.fieldFor n = some i
      · simp [h]
      · simp [h]

end Yaserde
