import Verif.Spec.Decode
/-
Elements inside scalars.  A child of a scalar field should hold text and nothing else.  If it holds elements as well the
generated code does not skip them: it goes on reading them as though they stood beside the child.  What a document amounts
to for the generated code is the document in which such elements have been moved out.
-/

set_option autoImplicit false

namespace Yaserde

/-- The struct of this name, if it has no flattened fields. -/
def Env.unflat (env : Env) (p : Path) : Option StructDef :=
  match env p with
  | some (.struct d) => if d.hasFlat then none else some d
  | _ => none

/-- The type (under `Option` and `Vec`) of the field that claims elements of this name. -/
def StructDef.claimedTy (d : StructDef) (n : Name) : Option FTy :=
  ((d.fieldFor n).bind fun i => d.fields[i]?).map fun f => f.ty.core

mutual
  /-- The children of an element of a struct, as the generated code takes them. -/
  def exposedKids (L : Lib) (env : Env) : StructDef → List Node → List Node
    | _, [] => []
    | d, k :: ks => exposedKid L env d k ++ exposedKids L env d ks
  /-- A child: that of a scalar field may dissolve, that of another struct is looked into. -/
  def exposedKid (L : Lib) (env : Env) : StructDef → Node → List Node
    | _, .text s => [.text s]
    | d, .elem n as m ks =>
      match d.claimedTy n with
      | some (.simple t) => if n.ns = some [] then [.elem n as m ks] else exposedScalar L env d t [.elem n as m ks] ks
      | some (.struct q) =>
        (match env.unflat q with
        | some d' => [.elem n as m (exposedKids L env d' ks)]
        | none => [.elem n as m ks])
      | _ => [.elem n as m ks]
  /-- The child `whole` of a scalar field, with this content: it stays if it is empty or holds one text only.  Otherwise
  the first text is lost (as is the child's own value), and so is a text or the tags of an element after it, if it was
  well formed. -/
  def exposedScalar (L : Lib) (env : Env) : StructDef → STy → List Node → List Node → List Node
    | _, _, whole, [] => whole
    | d, _, _, .elem n as m ks :: more => exposedKid L env d (.elem n as m ks) ++ exposedKids L env d more
    | d, t, whole, .text s :: more =>
      if more.isEmpty then whole
      else if (scalarContent L t [.text s]).isSome then exposedAfter L env d more
      else exposedKids L env d more
  /-- What follows a well-formed text: one event of it is lost. -/
  def exposedAfter (L : Lib) (env : Env) : StructDef → List Node → List Node
    | _, [] => []
    | d, .text _ :: more => exposedKids L env d more
    | d, .elem _ _ _ ks :: more => exposedKids L env d ks ++ exposedKids L env d more
end

/-- The element as the generated code for type `p` takes it. -/
def Node.exposed (L : Lib) (env : Env) : Node → Path → Node
  | .elem n as m ks, p =>
    (match env.unflat p with
    | some d => .elem n as m (exposedKids L env d ks)
    | none => .elem n as m ks)
  | .text s, _ => .text s

/-- Something stands in for the element (`byText`). -/
def standsIn (env : Env) (x : Node) (p : Path) : Bool :=
  match env p with
  | some (.prim _) => !x.content.isEmpty
  | some (.enum d) => (unitByText d x.content).isSome || (d.variantOf x.name x.attrs).isSome
  | _ => false

mutual
  /-- The counter of open elements in the generated loop (`depth`), from `c` before the children to what it is after them;
  `none` if at some start tag it is not positive.  It goes up by one with every child that has been read or skipped, and
  down by one with every child of a scalar field whose text, well formed, is followed by an element. -/
  def afloatKids (L : Lib) (env : Env) : StructDef → List Node → Int → Option Int
    | _, [], c => some c
    | d, k :: ks, c => (afloatKid L env d k c).bind fun c' => afloatKids L env d ks c'
  def afloatKid (L : Lib) (env : Env) : StructDef → Node → Int → Option Int
    | _, .text _, c => some c
    | d, .elem n as m ks, c =>
      if c ≤ 0 then none else
      match d.claimedTy n with
      | some (.simple t) => (afloatScalar L env d t ks (c + 1)).map (· - 1)
      | some (.struct q) =>
        (match env.unflat q with
        | some d' => (afloatKids L env d' ks 1).bind fun _ => some (c + 1)
        | none => some (if standsIn env (.elem n as m ks) q then c else c + 1))
      | _ => some (c + 1)
  def afloatScalar (L : Lib) (env : Env) : StructDef → STy → List Node → Int → Option Int
    | _, _, [], c => some c
    | d, _, .elem n as m ks :: more, c =>
      (afloatKid L env d (.elem n as m ks) c).bind fun c' => afloatKids L env d more c'
    | d, t, .text s :: more, c =>
      if (scalarContent L t [.text s]).isSome then (if more.isEmpty then some (c + 1) else afloatAfter L env d more c)
      else afloatKids L env d more c
  def afloatAfter (L : Lib) (env : Env) : StructDef → List Node → Int → Option Int
    | _, [], c => some c
    | d, .text _ :: more, c => afloatKids L env d more c
    | d, .elem _ _ _ ks :: more, c => (afloatKids L env d ks c).bind fun c' => afloatKids L env d more (c' - 1)
end

/-- The counter stays positive throughout. -/
def Node.afloat (L : Lib) (env : Env) (x : Node) (p : Path) : Prop :=
  ∀ d, env.unflat p = some d → (afloatKids L env d x.content 1).isSome = true

end Yaserde
