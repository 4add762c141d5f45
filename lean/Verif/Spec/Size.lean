import Verif.Spec.Total
import Verif.Spec.XmlLaw
/-
How large a value is, and how much of a document there is.
-/

set_option autoImplicit false

namespace Yaserde

mutual
  /-- The size of a value: the values it consists of, and the characters of its strings. -/
  def Val.size : Val → Nat
    | .str s => 1 + s.length
    | .bool _ | .int _ | .f32 _ | .f64 _ | .none => 1
    | .some x => 1 + x.size
    | .vec xs => 1 + Val.sizeL xs
    | .struct fs => 1 + Val.sizeL fs
    | .enum _ fs => 1 + Val.sizeL fs
  def Val.sizeL : List Val → Nat
    | [] => 0
    | x :: xs => x.size + Val.sizeL xs
end

/-- The attributes of an element: five each, which is the least number of characters that one takes, and the characters of their
values. -/
def attrsSize (as : List Attr) : Nat := (as.map fun a => 5 + a.value.length).sum

/-- The size of an event: one, and the characters of its text and of the values of its attributes. -/
def REv.size : REv → Nat
  | .start _ as _ => 1 + attrsSize as
  | .endE _ => 1
  | .chars s => 1 + s.length
  | .cdata s => 1 + s.length
  | .ws s => 1 + s.length
  | .startDocument | .endDocument | .pi _ _ | .comment _ => 0

/-- The size of a document. -/
def docSize (es : List REv) : Nat := (es.map REv.size).sum

/-- `c` bounds what the program's text itself says about sizes: the number of fields of a struct, the values given by
`default` functions and by `Default` of the enums, and what the `FromStr` of the user's newtypes makes of a text. -/
structure Modest (env : Env) (c : Nat) : Prop where
  fields : ∀ p d, env p = some (.struct d) → d.fields.length ≤ c
  dflts : ∀ p d, env p = some (.struct d) → ∀ f ∈ d.fields, ∀ x, f.dflt = some x → x.val.size ≤ c
  enums : ∀ p d, env p = some (.enum d) → d.dflt.size ≤ c
  prims : ∀ p d, env p = some (.prim d) → ∀ t v, d.fromStr t = .ok v → v.size ≤ c * (1 + t.length)

/-- Not a start tag with attributes. -/
def bareEv : REv → Bool
  | .start _ as _ => as.isEmpty
  | _ => true

/-- Every attribute of a derived type has a name of its own among the attributes of the struct. -/
structure Apart (d : StructDef) : Prop where
  names : d.fields.Pairwise fun f g => f.attrs.isAttr = true → g.attrs.isAttr = true → f.label = g.label →
    (∃ t, f.ty.core = .simple t) ∧ ∃ t, g.ty.core = .simple t
  types : ∀ f ∈ d.fields, f.attrs.isAttr = true →
    (∃ t, f.ty.core = .simple t) ∨ ∃ q, f.ty.core = .struct q ∧ isNCName q.flatten = true

/-- `Ranked`, but attributes may have derived types. -/
structure RankedApart (env : Env) (rank : Path → Nat) (bound : Nat) : Prop where
  bounded : ∀ p, rank p ≤ bound
  noFlat : ∀ p d, env p = some (.struct d) → ¬ ∃ f ∈ d.fields, f.attrs.isAttr = false ∧ f.attrs.flatten = true
  attrs : ∀ p d, env p = some (.struct d) → Apart d
  payload : ∀ p d, env p = some (.enum d) → ∀ v ∈ d.variants, ∀ t q, v.shape = .newtype t → t.core = .struct q →
    rank q < rank p

end Yaserde
