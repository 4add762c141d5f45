import Verif.Spec.Decode
/-
The declarative reading of a struct, field by field: what each field is made from.
-/

set_option autoImplicit false

namespace Yaserde

/-- A piece of text read as a scalar. -/
def scalar (L : Lib) (t : STy) (s : Str) : Res Val :=
  match visitS L t s with | .ok v => .ok v | .error m => .err m

/-- The values in one attribute: one, or for a `Vec` one per word (`user` reads a text as a value of a derived type). -/
def attrWords (L : Lib) (user : Path → Str → Res Val) (ty : FTy) (value : Str) : List (Res Val) :=
  match ty with
  | .vec (.simple t) => (splitWhitespace value).map (scalar L t)
  | .opt (.simple t) => [scalar L t value]
  | .simple t => [scalar L t value]
  | .vec (.struct q) => (splitWhitespace value).map (user q)
  | .opt (.struct q) => [user q value]
  | .struct q => [user q value]
  | _ => []

/-- What an attribute field is made from. -/
def attrInputs (L : Lib) (user : Path → Str → Res Val) (f : FieldDef) (attrs : List Attr) : List (Res Val) :=
  if f.attrs.isAttr then
    (attrs.filter fun a => a.name.loc = f.label).flatMap fun a => attrWords L user f.ty a.value
  else []

/-- What field number `i` gets from one child (`dec` reads the child as a value of a type). -/
def kidInputs (L : Lib) (dec : Node → Path → Res Val) (d : StructDef) (i : Nat) (f : FieldDef) :
    Node → List (Res Val)
  | .text s => if f.attrs.text then [.ok (.str s)] else []
  | .elem n as m ks =>
    if d.fieldFor n = some i then
      match f.ty.core with
      | .simple t => (scalarContent L t ks).toList.map .ok
      | .struct q => [dec (.elem n as m ks) q]
      | _ => []
    else []

/-- What a flattened field is made from. -/
def flatInputs (flat : Path → Res Val) (f : FieldDef) : List (Res Val) :=
  if !f.attrs.isAttr && f.attrs.flatten then
    match f.ty with
    | .struct q => [flat q]
    | .opt (.struct q) =>
      match flat q with
      | .err _ => []
      | r => [r]
    | _ => []
  else []

/-- Everything field number `i` is made from. -/
def fieldInputs (L : Lib) (dec flat : Node → Path → Res Val) (d : StructDef) (n : Name)
    (attrs : List Attr) (nss : NsMap) (kids : List Node) (i : Nat) (f : FieldDef) : List (Res Val) :=
  attrInputs L (userAttr flat) f attrs ++ kids.flatMap (kidInputs L dec d i f) ++
    flatInputs (flat (d.residue n attrs nss kids)) f

/-- The children that belong to field number `i`. -/
def matching (d : StructDef) (i : Nat) (ks : List Node) : List Node :=
  ks.filter fun k => match k with | .elem n _ _ _ => d.fieldFor n = some i | .text _ => false

/-- Reading a document without flattened fields and attributes of derived types. -/
def decodeDoc (L : Lib) (env : Env) (x : Node) (p : Path) : Res Val :=
  decodeDocWith env (decode L env) x p

/-- … with up to `k` levels of embedding. -/
def decodeDocN (L : Lib) (env : Env) (k : Nat) (x : Node) (p : Path) : Res Val :=
  decodeDocWith env (decodeN L env k) x p

end Yaserde
