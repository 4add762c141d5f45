import Verif.Spec.Stream
/-
Documents that differ in prefixes, namespace declarations and the order of attributes only.
-/

set_option autoImplicit false

namespace Yaserde

/-- The same local name in the same namespace; the prefixes may differ. -/
def Name.Same (n n' : Name) : Prop := n.loc = n'.loc ∧ n.ns = n'.ns

/-- For every local name the attributes with that name have the same values, in the same order.
(If no two attributes have the same local name: the attributes are the same up to their order, their prefixes
and their namespaces.) -/
def SameAttrs (as as' : List Attr) : Prop :=
  ∀ l : Str, (as.filter fun a => a.name.loc = l).map (·.value) = (as'.filter fun a => a.name.loc = l).map (·.value)

/-- The same event up to prefixes, namespace declarations and the order of attributes. -/
inductive SameEv : REv → REv → Prop
  | start {n n' : Name} {as as' : List Attr} (m m' : NsMap) (hn : n.Same n') (ha : SameAttrs as as') :
      SameEv (.start n as m) (.start n' as' m')
  | endE {n n' : Name} (hn : n.Same n') : SameEv (.endE n) (.endE n')
  | other {e : REv} (hs : ∀ n as m, e ≠ .start n as m) (he : ∀ n, e ≠ .endE n) : SameEv e e

/-- Every end tag has the name of the start tag it belongs to (`st`: the names of the open elements).
XML parsers guarantee this. -/
def TagsMatch : List Name → List REv → Prop
  | _, [] => True
  | st, .start n _ _ :: es => TagsMatch (n :: st) es
  | n :: st, .endE n' :: es => n' = n ∧ TagsMatch st es
  | [], .endE _ :: _ => False
  | st, _ :: es => TagsMatch st es

/-- The same outcome: the same value, the same panic; an error in both cases — with the same message if `P`. -/
def Res.Like {α : Type} (P : Prop) : Res α → Res α → Prop
  | .ok x, .ok y => x = y
  | .err m, .err m' => P → m = m'
  | .panic m, .panic m' => m = m'
  | .diverge, .diverge => True
  | _, _ => False

/-- No enum of the program is tagged. -/
def Untagged (env : Env) : Prop := ∀ p d, env p = some (.enum d) → d.attrs.tag = none

end Yaserde
