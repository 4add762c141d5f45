import Verif.Spec.Stream
/-
Documents that differ in the name of the document element only.
-/

set_option autoImplicit false

namespace Yaserde

/-- What follows the start tag of the document element, named `n` in one document and `n'` in the
other: a well-nested sequence of events, its end tag, and no further element (`whole`) — or the
document ends before that end tag (`cut`). -/
inductive RootRest (n n' : Name) : List REv → List REv → Prop
  | whole (mid post : List REv) (hnest : WellNested mid) (hall : opens mid = closes mid)
      (hpost : ∀ e ∈ post, ∀ m as ns, e ≠ .start m as ns) :
      RootRest n n' (mid ++ .endE n :: post) (mid ++ .endE n' :: post)
  | cut (es : List REv) (hnest : WellNested es) : RootRest n n' es es

/-- Two documents (without comments, processing instructions and declaration) that are the same but
for the name of the document element.  They may be incomplete and the content is arbitrary. -/
def RootRenamed (n n' : Name) (es es' : List REv) : Prop :=
  ∃ as m u u', es = .start n as m :: u ∧ es' = .start n' as m :: u' ∧ RootRest n n' u u'

/-- No struct of the program has a flattened field. -/
def NoFlatten (env : Env) : Prop :=
  ∀ p d, env p = some (.struct d) → ∀ f ∈ d.fields, f.attrs.isAttr = false → f.attrs.flatten = false

end Yaserde
