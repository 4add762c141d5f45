import Verif.Spec.Fields
/-
Changes made somewhere inside a document.
-/

set_option autoImplicit false

namespace Yaserde

/-- `y` is `x` with one struct's element, at any depth, replaced as allowed by `R` (which sees the
definition of the struct that the element is read as). -/
inductive Within (env : Env) (R : StructDef → Node → Node → Prop) : Path → Node → Node → Prop
  | here {p : Path} {d : StructDef} {x y : Node} (hp : env p = some (.struct d)) (h : R d x y) :
      Within env R p x y
  | field {p q : Path} {d : StructDef} {i : Nat} {f : FieldDef} {n cn : Name} {as : List Attr} {m : NsMap}
      {cas cas' : List Attr} {cm cm' : NsMap} {cks cks' : List Node}
      {pre post : List Node} (hp : env p = some (.struct d)) (hi : d.fieldFor cn = some i)
      (hf : d.fields[i]? = some f) (hq : f.ty.core = .struct q)
      (h : Within env R q (.elem cn cas cm cks) (.elem cn cas' cm' cks')) :
      Within env R p (.elem n as m (pre ++ .elem cn cas cm cks :: post))
        (.elem n as m (pre ++ .elem cn cas' cm' cks' :: post))
  | variant {p q : Path} {d : EnumDef} {i : Nat} {v : VariantDef} {t : FTy} {n cn : Name} {as : List Attr} {m : NsMap}
      {cas cas' : List Attr} {cm cm' : NsMap} {cks cks' : List Node}
      {pre post : List Node} (hp : env p = some (.enum d)) (hi : d.variantFor cn.loc = some i)
      (hv : d.variants[i]? = some v) (hs : v.shape = .newtype t) (hq : t.core = .struct q)
      (h : Within env R q (.elem cn cas cm cks) (.elem cn cas' cm' cks')) :
      Within env R p (.elem n as m (pre ++ .elem cn cas cm cks :: post))
        (.elem n as m (pre ++ .elem cn cas' cm' cks' :: post))

/-- An element that no field claims is inserted among the children (C09). -/
def InsertUnknown (d : StructDef) (x y : Node) : Prop :=
  ∃ n as m pre post un uas um uks, x = .elem n as m (pre ++ post) ∧
    y = .elem n as m (pre ++ .elem un uas um uks :: post) ∧
    (∀ f ∈ d.fields, ¬ f.claims d.attrs un) ∧ un.ns ≠ some []

/-- What distinguishes children: texts, and elements by expanded name (no namespace is the same
as the empty one). -/
def Node.label : Node → Option (Str × Str)
  | .text _ => none
  | .elem n _ _ _ => some (n.loc, n.ns.getD [])

/-- The children are permuted, keeping the order of children of the same name (C10). -/
def Permuted (d : StructDef) (x y : Node) : Prop :=
  ∃ n as m ks ks', x = .elem n as m ks ∧ y = .elem n as m ks' ∧ ks.Perm ks' ∧
    (∀ l, ks.filter (fun k => k.label = l) = ks'.filter (fun k => k.label = l)) ∧
    -- no child element is named like a text field
    (∀ cn cas cm cks, Node.elem cn cas cm cks ∈ ks → ∀ f ∈ d.fields, f.attrs.text = true → ¬ f.claims d.attrs cn)

/-- A child of a scalar field that is empty or malformed is removed (C16). -/
def RemoveMalformed (L : Lib) (d : StructDef) (x y : Node) : Prop :=
  ∃ n as m pre post cn cas cm cks i f t, x = .elem n as m (pre ++ .elem cn cas cm cks :: post) ∧
    y = .elem n as m (pre ++ post) ∧ d.fieldFor cn = some i ∧ d.fields[i]? = some f ∧
    f.ty.core = .simple t ∧ (cks = [] ∨ ∃ s e, cks = [.text s] ∧ visitS L t s = .error e)

end Yaserde
