import Verif.Spec.Expose
/-
What the generated code makes of the element of a struct without flattened fields, also if scalars in it hold elements
(`Spec/Expose.lean`), and also if the element is named like a field of the struct, as in recursive types
(`struct Node { node: Vec<Node> }`).  In the latter case the code takes the element's start tag for that of a child: if an
element follows at once it is read as a value of that field, whatever its name.
-/

set_option autoImplicit false

namespace Yaserde

/-- The field that claims elements of this name, and its type under `Option` and `Vec`. -/
def StructDef.claim (d : StructDef) (n : Name) : Option (Nat × FTy) :=
  (d.fieldFor n).bind fun i => d.fields[i]?.map fun f => (i, f.ty.core)

/-- The name of the struct's own element. -/
def StructDef.isOwn (d : StructDef) (n : Name) : Bool :=
  decide (n.loc = d.attrs.rename.getD d.name ∧ n.ns.getD [] = (d.attrs.namespaces.find d.attrs.pfx).getD [])

/-- An element of this name, read as the struct, is taken for one of its own children: that of field `i`. -/
def StructDef.takes (d : StructDef) (n : Name) : Option (Nat × Path) :=
  if d.isOwn n then none else
  match d.claim n with
  | some (i, .struct q) => some (i, q)
  | _ => none

section
variable (L : Lib) (env : Env) (flat : Node → Path → Res Val)

mutual
  /-- The values that the children contribute to the fields. -/
  def openKids : StructDef → List Node → Res (List Contrib)
    | _, [] => .ok []
    | d, k :: ks => (openKid d k).bind fun a => (openKids d ks).bind fun b => .ok (a ++ b)
  def openKid : StructDef → Node → Res (List Contrib)
    | d, .text s => .ok (textContrib d s)
    | d, .elem n as m ks =>
      match d.claim n with
      | some (i, .simple t) => openScalar d i t ks
      | some (i, .struct q) =>
        (match env.unflat q with
          | some d' => openStruct d' n as ks
          | none => decodeWith L env flat (.elem n as m ks) q).bind fun v => .ok [(i, v)]
      | _ => .ok []
  /-- The content of a child of a scalar field. -/
  def openScalar : StructDef → Nat → STy → List Node → Res (List Contrib)
    | _, _, _, [] => .ok []
    | d, _, _, .elem n as m ks :: more =>
      (openKid d (.elem n as m ks)).bind fun a => (openKids d more).bind fun b => .ok (a ++ b)
    | d, i, t, .text s :: more =>
      match scalarContent L t [.text s] with
      | some v => if more.isEmpty then .ok [(i, v)] else openAfter d more
      | none => openKids d more
  /-- What follows a well-formed text: one event of it is lost. -/
  def openAfter : StructDef → List Node → Res (List Contrib)
    | _, [] => .ok []
    | d, .text _ :: more => openKids d more
    | d, .elem _ _ _ ks :: more => (openKids d ks).bind fun a => (openKids d more).bind fun b => .ok (a ++ b)
  /-- The element named `n` with attributes `as` and content `ks`, read as the struct. -/
  def openStruct : StructDef → Name → List Attr → List Node → Res Val
    | d, n, as, .elem n1 as1 m1 ks1 :: more =>
      match d.takes n with
      | some (i, q) =>
        (match env.unflat q with
          | some d1 => openStruct d1 n1 as1 ks1
          | none => decodeWith L env flat (.elem n1 as1 m1 ks1) q).bind fun v =>
        (attrContribs L (userAttr flat) d as).bind fun ca =>
        (openKids d more).bind fun ck => assemble d ((i, v) :: (ca ++ ck))
      | none =>
        (attrContribs L (userAttr flat) d as).bind fun ca =>
        (openKid d (.elem n1 as1 m1 ks1)).bind fun c1 =>
        (openKids d more).bind fun ck => assemble d (ca ++ (c1 ++ ck))
    | d, _, as, .text s :: more =>
      (attrContribs L (userAttr flat) d as).bind fun ca =>
      (openKids d more).bind fun ck => assemble d (ca ++ (textContrib d s ++ ck))
    | d, _, as, [] => (attrContribs L (userAttr flat) d as).bind fun ca => assemble d ca
end

/-- An element read as a type. -/
def openNode : Node → Path → Res Val
  | .elem n as m ks, p =>
    (match env.unflat p with
    | some d => openStruct L env flat d n as ks
    | none => decodeWith L env flat (.elem n as m ks) p)
  | .text _, _ => .err []

end

/-! ### The elements it applies to -/

section
variable (L : Lib) (env : Env) (fc : Node → Path → Prop)

/-- Attributes of derived types. -/
def AttrsFit (d : StructDef) (as : List Attr) : Prop :=
  ∀ f ∈ d.fields, f.attrs.isAttr = true → ∀ q, f.ty.core = .struct q →
    ∀ a ∈ as, a.name.loc = f.label → ∀ s ∈ f.ty.attrTexts a.value, fc (.text s) q

mutual
  /-- No text of length zero, no namespace of length zero; elements of other types (enums, primitives, structs with
  flattened fields) conform. -/
  def openFits : StructDef → List Node → Prop
    | _, [] => True
    | d, k :: ks => openFitsKid d k ∧ openFits d ks
  def openFitsKid : StructDef → Node → Prop
    | _, .text s => s ≠ []
    | d, .elem n as m ks =>
      n.ns ≠ some [] ∧
      match d.claim n with
      | some (_, .simple t) => openFitsScalar d t ks
      | some (_, .struct q) =>
        (match env.unflat q with
        | some d' => openFitsStruct d' n as ks
        | none => ConfWith L env fc (.elem n as m ks) q)
      | _ => True
  def openFitsScalar : StructDef → STy → List Node → Prop
    | _, _, [] => True
    | d, _, .elem n as m ks :: more => openFitsKid d (.elem n as m ks) ∧ openFits d more
    | d, t, .text s :: more => if (scalarContent L t [.text s]).isSome then openFitsAfter d more else openFits d more
  def openFitsAfter : StructDef → List Node → Prop
    | _, [] => True
    | d, .text _ :: more => openFits d more
    | d, .elem _ _ _ ks :: more => openFits d ks ∧ openFits d more
  /-- The element is not named like a scalar field. -/
  def openFitsStruct : StructDef → Name → List Attr → List Node → Prop
    | d, n, as, .elem n1 as1 m1 ks1 :: more =>
      (d.Plain ∧ AttrsFit fc d as ∧ openFits d more) ∧
      match d.takes n with
      | some (_, q) =>
        (match env.unflat q with
        | some d1 => openFitsStruct d1 n1 as1 ks1
        | none => ConfWith L env fc (.elem n1 as1 m1 ks1) q)
      | none => (d.isOwn n = true ∨ d.fieldFor n = none) ∧ openFitsKid d (.elem n1 as1 m1 ks1)
    | d, n, as, .text s :: more =>
      d.Plain ∧ AttrsFit fc d as ∧ openFits d more ∧ s ≠ [] ∧ (d.isOwn n = true ∨ d.fieldFor n = none ∨ (d.takes n).isSome)
    | d, n, as, [] => d.Plain ∧ AttrsFit fc d as ∧ (d.isOwn n = true ∨ d.fieldFor n = none ∨ (d.takes n).isSome)
end

def openFitsNode : Node → Path → Prop
  | .elem n as m ks, p =>
    (match env.unflat p with
    | some d => openFitsStruct L env fc d n as ks
    | none => ConfWith L env fc (.elem n as m ks) p)
  | .text _, _ => False

end

section
variable (L : Lib) (env : Env)

mutual
  /-- The counter of open elements (`afloatKids`). -/
  def floatKids : StructDef → List Node → Int → Option Int
    | _, [], c => some c
    | d, k :: ks, c => (floatKid d k c).bind fun c' => floatKids d ks c'
  def floatKid : StructDef → Node → Int → Option Int
    | _, .text _, c => some c
    | d, .elem n as m ks, c =>
      if c ≤ 0 then none else
      match d.claim n with
      | some (_, .simple t) => (floatScalar d t ks (c + 1)).map (· - 1)
      | some (_, .struct q) =>
        (match env.unflat q with
        | some d' => if floatStruct d' n ks then some (c + 1) else none
        | none => some (if standsIn env (.elem n as m ks) q then c else c + 1))
      | _ => some (c + 1)
  def floatScalar : StructDef → STy → List Node → Int → Option Int
    | _, _, [], c => some c
    | d, _, .elem n as m ks :: more, c => (floatKid d (.elem n as m ks) c).bind fun c' => floatKids d more c'
    | d, t, .text s :: more, c =>
      if (scalarContent L t [.text s]).isSome then (if more.isEmpty then some (c + 1) else floatAfter d more c)
      else floatKids d more c
  def floatAfter : StructDef → List Node → Int → Option Int
    | _, [], c => some c
    | d, .text _ :: more, c => floatKids d more c
    | d, .elem _ _ _ ks :: more, c => (floatKids d ks c).bind fun c' => floatKids d more (c' - 1)
  def floatStruct : StructDef → Name → List Node → Bool
    | d, n, .elem n1 as1 m1 ks1 :: more =>
      match d.takes n with
      | some (_, q) =>
        (match env.unflat q with
        | some d1 => floatStruct d1 n1 ks1 && (floatKids d more 1).isSome
        | none => (floatKids d more (if standsIn env (.elem n1 as1 m1 ks1) q then 0 else 1)).isSome)
      | none => ((floatKid d (.elem n1 as1 m1 ks1) 1).bind fun c => floatKids d more c).isSome
    | d, _, .text _ :: more => (floatKids d more 1).isSome
    | _, _, [] => true
end

def floatNode : Node → Path → Bool
  | .elem n _ _ ks, p => (match env.unflat p with | some d => floatStruct L env d n ks | none => true)
  | .text _, _ => true

end

/-! ### Recursive types read right -/

section
variable (L : Lib) (env : Env) (fc : Node → Path → Prop)

/-- The element is the struct's own or unknown to it; or it is taken for a child of field `i`, and if an element comes
first in it then that is a child of field `i` indeed (and not an enum or primitive read from its text). -/
def soundFirst (d : StructDef) (n : Name) (ks : List Node) : Prop :=
  d.isOwn n = true ∨ d.fieldFor n = none ∨
    ∃ i q, d.takes n = some (i, q) ∧ ∀ n1 as1 m1 ks1 more, ks = .elem n1 as1 m1 ks1 :: more →
      d.fieldFor n1 = some i ∧ standsIn env (.elem n1 as1 m1 ks1) q = false

mutual
  /-- As `ConfKids`, but structs may be named like their fields if `soundFirst`. -/
  def treeKids : StructDef → List Node → Prop
    | _, [] => True
    | d, k :: ks => treeKid d k ∧ treeKids d ks
  def treeKid : StructDef → Node → Prop
    | _, .text s => s ≠ []
    | d, .elem n as m ks =>
      n.ns ≠ some [] ∧
      match d.claim n with
      | some (_, .simple _) => textOnly ks
      | some (_, .struct q) =>
        (match env.unflat q with
        | some d' => d'.Plain ∧ AttrsFit fc d' as ∧ soundFirst env d' n ks ∧ treeKids d' ks
        | none => ConfWith L env fc (.elem n as m ks) q)
      | _ => True
end

def treeNode : Node → Path → Prop
  | .elem n as m ks, p =>
    (match env.unflat p with
    | some d => d.Plain ∧ AttrsFit fc d as ∧ soundFirst env d n ks ∧ treeKids L env fc d ks
    | none => ConfWith L env fc (.elem n as m ks) p)
  | .text _, _ => False

end

/-- An element that no field claims is inserted among the children, but not as the first one of an element that is taken
for one of its own children (compare `InsertUnknown`). -/
def InsertLater (d : StructDef) (x y : Node) : Prop :=
  ∃ n as m pre post un uas um uks, x = .elem n as m (pre ++ post) ∧
    y = .elem n as m (pre ++ .elem un uas um uks :: post) ∧
    (∀ f ∈ d.fields, ¬ f.claims d.attrs un) ∧ un.ns ≠ some [] ∧ (pre ≠ [] ∨ d.takes n = none)

end Yaserde
