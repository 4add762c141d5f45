import Verif.Spec.Fields
import Mathlib.Data.List.Forall2
/-
Where the value of a field can come from, in any list of events: no well-formedness, no conformance.
-/

set_option autoImplicit false

namespace Yaserde

/-- Something in the document that the value of a field can be made from. -/
inductive Source where
  /-- a piece of character data, as it is -/
  | text (s : Str)
  /-- the text of an element or of an attribute (for a `Vec` attribute: one word of it) -/
  | piece (s : Str)
  /-- an element, given by all events from its start tag on -/
  | elem (R : List REv)

/-- What the first event offers field number `i`, `f`:
character data to a `text` field; attributes with the field's name to an attribute field; an element that belongs to the
field, if the field's type is derived, and otherwise if it has one piece of character data as content. -/
def sourceHere (d : StructDef) (i : Nat) (f : FieldDef) : List REv → List Source
  | .chars s :: _ => if f.attrs.text then [.text s] else []
  | .start n as m :: R =>
    (if f.attrs.isAttr then
      (as.filter fun a => a.name.loc = f.label).flatMap fun a => (f.ty.attrTexts a.value).map .piece
     else []) ++
    (if d.fieldFor n = some i then
      match f.ty.core, R with
      | .struct _, _ => [.elem (.start n as m :: R)]
      | .simple _, .chars s :: .endE n' :: _ => if n' = n then [.piece s] else []
      | _, _ => []
     else [])
  | _ => []

/-- Everything the events offer field number `i`, `f`, in document order, at whatever depth. -/
def sources (d : StructDef) (i : Nat) (f : FieldDef) : List REv → List Source
  | [] => []
  | e :: R => sourceHere d i f (e :: R) ++ sources d i f R

/-- `v` is what field `f` gets from a source (`sub R q v`: `v` may be read as a `q` from `R`). -/
def Source.Gives (L : Lib) (env : Env) (sub : List REv → Path → Val → Prop) (f : FieldDef) (v : Val) : Source → Prop
  | .text s => v = .str s
  | .piece s =>
    match f.ty.core with
    | .simple t => visitS L t s = .ok v
    | .struct q => Returns L env q (attrDoc q s) (.ok v)
    | _ => False
  | .elem R =>
    match f.ty.core with
    | .struct q => sub R q v
    | _ => False

/-- `v`, a value of type `p`, is made from what is in the events, to depth `k`: in a struct each field that is not
flattened is what `fieldValue` makes (the last one, or for a `Vec` all of them, or the default rule if there are none) of
some of the field's sources, each used once, in document order. -/
def MadeFrom (L : Lib) (env : Env) : Nat → List REv → Path → Val → Prop
  | 0, _, _, _ => True
  | k + 1, E, p, v =>
    match env p with
    | some (.struct d) =>
      ∃ vs, v = .struct vs ∧ vs.length ≤ d.fields.length ∧ ∀ (i : Nat) (f : FieldDef), d.fields[i]? = some f →
        (f.attrs.isAttr = true ∨ f.attrs.flatten = false) → ∃ w, vs[i]? = some w ∧
          ∃ us ss, ss.Sublist (sources d i f E) ∧ List.Forall₂ (Source.Gives L env (MadeFrom L env k) f) us ss ∧
            fieldValue d.name f us = .ok w
    | _ => True

end Yaserde
