import Verif.Spec.Stream
/-
Vocabulary for the statements about panics and termination.
-/

set_option autoImplicit false

namespace Yaserde

/-- What any XML parser guarantees about the events it delivers: end tags match start tags, and the
document is not reported as complete while elements are open. -/
structure WellFormed (src : Src) : Prop where
  nested : WellNested src.evs
  noEnd : REv.endDocument ∉ src.evs
  closed : src.fin = none → opens src.evs = closes src.evs

/-- The element type of a field is a scalar or a type of the program. -/
def FTy.Known (env : Env) (t : FTy) : Prop :=
  (∃ s, t.core = .simple s) ∨ ∃ q, t.core = .struct q ∧ env q ≠ none

/-- A program whose generated deserializers contain no panicking operation, other than
`unwrap`s justified by the XML parser's guarantees: types are declared, flattened fields have a
type the macro accepts, and one-field variants carry strings or types of the program (the
payload of the other scalar variants is `unwrap`ped). -/
structure PanicFree (env : Env) : Prop where
  fields : ∀ p d, env p = some (.struct d) → ∀ f ∈ d.fields, f.ty.Known env
  flats : ∀ p d, env p = some (.struct d) → ∀ f ∈ d.fields, f.attrs.isAttr = false → f.attrs.flatten = true →
    (∃ q, f.ty = .struct q) ∨ ∃ q, f.ty = .opt (.struct q)
  variants : ∀ p d, env p = some (.enum d) → ∀ v ∈ d.variants, ∀ t, v.shape = .newtype t →
    t.core = .simple .string ∨ ∃ q, t.core = .struct q ∧ env q ≠ none

/-- A program without flattened fields, with attributes of scalar type, and in which an enum is not
the payload of one of its own variants, directly or through other enums: the types can be ranked. -/
structure Ranked (env : Env) (rank : Path → Nat) (bound : Nat) : Prop where
  bounded : ∀ p, rank p ≤ bound
  noFlat : ∀ p d, env p = some (.struct d) → ¬ ∃ f ∈ d.fields, f.attrs.isAttr = false ∧ f.attrs.flatten = true
  attrs : ∀ p d, env p = some (.struct d) → ∀ f ∈ d.fields, f.attrs.isAttr = true → ∃ t, f.ty.core = .simple t
  payload : ∀ p d, env p = some (.enum d) → ∀ v ∈ d.variants, ∀ t q, v.shape = .newtype t → t.core = .struct q →
    rank q < rank p

end Yaserde
