import Verif.Spec.Encode
/-
What a user has to provide for a program to be well typed: rustc checks these.
-/

set_option autoImplicit false

namespace Yaserde

/-- The functions the user supplies have the types rustc requires of them: default values have the type of their
field, `Default::default` of an enum is a value of the enum, `FromStr` of a primitive type returns values of it. -/
structure Typed (env : Env) : Prop where
  dflt : ∀ p d, env p = some (.struct d) → ∀ f ∈ d.fields, ∀ dv, f.dflt = some dv → HasTy env f.ty dv.val
  enumDflt : ∀ p d, env p = some (.enum d) → HasTy env (.struct p) d.dflt
  prim : ∀ p d, env p = some (.prim d) → ∀ s v, d.fromStr s = .ok v → d.dom v = true

end Yaserde
