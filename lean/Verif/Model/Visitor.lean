import Verif.Model.DeStruct
/-
The names of the visitor types that `YaDeserialize` defines for the fields of a struct: `get_visitor_ident`
(`/repo/yaserde_derive/src/common/field.rs:83-122`), with `to_upper_camel_case` of the crate `heck` (version 0.5, written from
its documentation; letters and digits are those of ASCII here).
-/

set_option autoImplicit false

namespace Yaserde

/-- Where in a word `heck` is: at its start, after a lower-case or after an upper-case letter. -/
inductive WordMode where
  | boundary | lower | upper
  deriving DecidableEq

/-- The words of a run of letters and digits: `fooBar` is `foo`, `Bar`; `XMLName` is `XML`, `Name`.  `acc` is the word so far,
last character first. -/
def humps : WordMode → Str → Str → List Str
  | _, _, [] => []
  | _, acc, [c] => [acc.reverse ++ [c]]
  | mode, acc, c :: next :: rest =>
    let mode' := if c.isLower then .lower else if c.isUpper then .upper else mode
    if mode' = .lower ∧ next.isUpper = true then (acc.reverse ++ [c]) :: humps .boundary [] (next :: rest)
    else if mode = .upper ∧ c.isUpper = true ∧ next.isLower = true then acc.reverse :: humps .boundary [c] (next :: rest)
    else humps mode' (c :: acc) (next :: rest)

/-- The maximal runs of letters and digits, with empty ones in between; `acc` is the run so far, last character first. -/
def alnumRuns : Str → Str → List Str
  | acc, [] => [acc.reverse]
  | acc, c :: cs => if c.isAlphanum then alnumRuns (c :: acc) cs else acc.reverse :: alnumRuns [] cs

/-- First letter in upper, the others in lower case. -/
def capitalize : Str → Str
  | [] => []
  | c :: cs => c.toUpper :: cs.map Char.toLower

/-- `to_upper_camel_case`. -/
def upperCamel (s : Str) : Str := ((alnumRuns [] s).flatMap (humps .boundary [])).flatMap capitalize

/-- `get_visitor_ident` — `/repo/yaserde_derive/src/common/field.rs:83-122`; `sid` are the segments of the type, if it is
a user type. -/
def FieldDef.visitorIdent (f : FieldDef) (sid : Str) : Str :=
  c!"__Visitor_" ++ (if f.attrs.isAttr then c!"Attribute_" else []) ++
    (match f.attrs.pfx with | some p => upperCamel p ++ c!"_" | none => []) ++
    upperCamel (f.label.map fun c => if c = '.' then '_' else c) ++ c!"_" ++ sid

/-- The visitor defined for a field, if any — `/repo/yaserde_derive/src/de/expand_struct.rs:50-141`. -/
def FieldDef.visitor (f : FieldDef) : Option Str :=
  match f.ty.core with
  | .simple _ => some (f.visitorIdent [])
  | .struct p => if f.attrs.isAttr then some (f.visitorIdent (structId p)) else none
  | _ => none

/-- The types defined inside the generated `deserialize`: rustc rejects two of the same name (E0428). -/
def StructDef.visitors (d : StructDef) : List Str := d.fields.filterMap FieldDef.visitor

end Yaserde
