import Verif.Spec.Total
import Verif.Spec.Decode
/-
Vocabulary for the statements about structs all of whose fields are scalars.
-/

set_option autoImplicit false

namespace Yaserde

/-- Every field is a number, a Boolean, a character or a string, an `Option` or a `Vec` of these; nothing is flattened. -/
structure StructDef.ScalarsOnly (d : StructDef) : Prop where
  scalar : ∀ f ∈ d.fields, ∃ t, f.ty.core = .simple t
  noFlat : ∀ f ∈ d.fields, f.attrs.isAttr = false → f.attrs.flatten = false
  notFlattened : d.attrs.flatten = false

/-- The element has the struct's own name. -/
def StructDef.OwnName (d : StructDef) (n : Name) : Prop :=
  n.loc = d.attrs.rename.getD d.name ∧ n.ns.getD [] = (d.attrs.namespaces.find d.attrs.pfx).getD []

instance (d : StructDef) (n : Name) : Decidable (d.OwnName n) := inferInstanceAs (Decidable (_ ∧ _))

/-- The document element is taken for one of the struct's own fields: it does not have the struct's name, but that of
a field; what it contains is a value of this field; and nothing is wrong with its namespace or its attributes. -/
def TakenForField (L : Lib) (d : StructDef) : Node → Prop
  | .text _ => False
  | .elem n as _ ks =>
    nsOk d.attrs n ∧ ¬ d.OwnName n ∧
    (∃ i f t, d.fieldFor n = some i ∧ d.fields[i]? = some f ∧ f.ty.core = .simple t ∧
      (∀ u, n.ns = some u → ∃ e ∈ d.attrs.namespaces, f.attrs.pfx = some e.1 ∧ e.2 = u) ∧
      (scalarContent L t ks).isSome = true) ∧
    ∃ cs, attrContribs L (fun _ _ => .err []) d as = .ok cs

end Yaserde
