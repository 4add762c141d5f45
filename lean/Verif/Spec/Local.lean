import Verif.Spec.Frames
/-
The types inside a type: those its definition names, those that theirs name, and so on.
-/

set_option autoImplicit false

namespace Yaserde

/-- The type `q` is `p`, or stands in the definition of a type inside `p`. -/
inductive TypeInside (env : Env) (p : Path) : Path → Prop
  | refl : TypeInside env p p
  | step {q r : Path} {b : TypeDef} (h : TypeInside env p q) (hb : env q = some b) (hr : b.Contains r) : TypeInside env p r

/-- The types inside `p` are all defined, and defined alike in both programs. -/
def SameInside (env env' : Env) (p : Path) : Prop := ∀ q, TypeInside env p q → ∃ b, env q = some b ∧ env' q = some b

end Yaserde
