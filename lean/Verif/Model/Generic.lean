import Verif.Model.DeEnum
import Verif.Model.UserSer
/-
Generic types.  The macros print one implementation `impl<T, …> YaDeserialize for Name<T, …>` for a definition
(`/repo/yaserde_derive/src/de/expand_struct.rs:387-390`, `/repo/yaserde_derive/src/de/expand_enum.rs:27, 44`,
`/repo/yaserde_derive/src/ser/implement_serializer.rs:19-22`); they see type parameters only as paths.  So the printed code
is that of the definition as it stands (`Model/DeStruct.lean`, `Model/DeEnum.lean`, `Model/UserSer.lean`), and the compiler finds out for each
instance which implementation a path in it means.  (Left out: associated types of parameters, lifetimes and constants as parameters, and whether
the bounds of the `where` clause allow the calls.)
-/

set_option autoImplicit false

namespace Yaserde

/-- A type as it is written: the identifiers of a path, and the arguments of its last segment.  A type parameter is a path of one identifier
without arguments. -/
inductive GTy where
  | app (segs : Path) (args : List GTy)

mutual
  /-- Put types in place of parameters. -/
  def GTy.subst (s : Str → Option GTy) : GTy → GTy
    | .app [x] [] => (s x).getD (.app [x] [])
    | .app segs args => .app segs (GTy.substL s args)
  def GTy.substL (s : Str → Option GTy) : List GTy → List GTy
    | [] => []
    | t :: ts => t.subst s :: GTy.substL s ts
end

/-- A definition with type parameters.  `body` is what the macros see (`DeriveInput.toDef`), the same for all arguments but for what the functions
of the user (`Default`, `default = "…"`, `skip_serializing_if = "…"`) do; `written q` is the type for which the path `q` stands
in it.  (A path of `Model/Schema.lean` is its identifiers.  When several types in one definition have the same identifiers, such as
`W<A>` and `W<B>`, all but one get a path with additional empty segments, which `struct_id` does not show.) -/
structure GDef where
  params : List Str
  body : List GTy → TypeDef
  written : Path → GTy

/-- The types that the visitors inside of the printed `deserialize` mention (`type Value = …;`):
`/repo/yaserde_derive/src/de/expand_struct.rs:50-93, 126-139`, `/repo/yaserde_derive/src/de/expand_enum.rs:156-215`. -/
def TypeDef.VisitorType (t : TypeDef) (q : Path) : Prop :=
  match t with
  | .struct d => ∃ f ∈ d.fields, f.attrs.isAttr = true ∧ f.ty.core = .struct q
  | .enum d => ∃ v ∈ d.variants, v.shape = .newtype (.struct q)
  | .prim _ => False

mutual
  /-- The parameter occurs in the type. -/
  def GTy.has (x : Str) : GTy → Bool
    | .app segs args => (segs == [x] && args.isEmpty) || GTy.hasL x args
  def GTy.hasL (x : Str) : List GTy → Bool
    | [] => false
    | t :: ts => t.has x || GTy.hasL x ts
end

/-- The visitors are items inside of a function, and such items cannot use the type parameters of the `impl` around them (E0401): the
compiler rejects the derived `YaDeserialize` otherwise. -/
def GDef.DeCompiles (g : GDef) : Prop :=
  ∀ args q x, (g.body args).VisitorType q → x ∈ g.params → (g.written q).has x = false

/-- A program: the definitions, by the paths of their names. -/
abbrev GProg := Path → Option GDef

/-- What a parameter stands for in the instance with arguments `args`. -/
def GDef.arg (g : GDef) (args : List GTy) (x : Str) : Option GTy :=
  ((g.params.zip args).find? fun e => e.1 == x).map Prod.snd

/-- The definition of a type without parameters, and the types its paths stand for.  The compiler rejects a wrong number of
arguments. -/
def GProg.inst (P : GProg) : GTy → Option (TypeDef × (Path → GTy))
  | .app segs args =>
    match P segs with
    | some g => if g.params.length = args.length then some (g.body args, fun q => (g.written q).subst (g.arg args)) else none
    | none => none

/-- `<t as YaDeserialize>::deserialize`; `fuel` as in `deser`. -/
def deserG (L : Lib) (P : GProg) : Nat → GTy → D Val
  | 0, _ => M.diverge
  | n + 1, t =>
    match P.inst t with
    | some (.struct d, arg) => structDeser L (fun q => deserG L P n (arg q)) n d
    | some (.enum d, arg) => enumDeser L (fun q => deserG L P n (arg q)) n d
    | some (.prim d, _) => primDeser d
    | none => M.panic c!"no such type"

/-- `<t as YaSerialize>::serialize` and `…::serialize_attributes`. -/
structure SerImplG where
  ser : GTy → Val → S Unit
  attrs : GTy → Val → Res (List Attr × NsMap)

/-- … of all types, with `n` nested calls at most. -/
def serG (L : Lib) (P : GProg) : Nat → SerImplG
  | 0 => ⟨fun _ _ => M.diverge, fun _ _ => .diverge⟩
  | n + 1 => {
    ser := fun t v =>
      match P.inst t with
      | some (b, arg) =>
        serTyBy L (fun _ => some b) ⟨fun q => (serG L P n).ser (arg q), fun q => (serG L P n).attrs (arg q)⟩ [] v
      | none => M.panic c!"ill-typed"
    attrs := fun t v =>
      match P.inst t with
      | some (b, arg) =>
        attrsOfBy L (fun _ => some b) ⟨fun q => (serG L P n).ser (arg q), fun q => (serG L P n).attrs (arg q)⟩ [] v
      | none => .panic c!"ill-typed" }

/-- `yaserde::de::from_str` — `/repo/yaserde/src/de/mod.rs:9-15`. -/
def fromStrG (L : Lib) (P : GProg) (n : Nat) (t : GTy) (s : Str) : Res Val :=
  (deserG L P n t (Rd.new (L.parse s))).1

/-- `to_string_with_config` — `/repo/yaserde/src/ser/mod.rs:19-36`. -/
def toStringG (L : Lib) (P : GProg) (n : Nat) (c : Config) (t : GTy) (v : Val) : Res Str :=
  match (serG L P n).ser t v (Sr.new {}) with
  | (.ok (), s) => .ok (L.emit c.emitCfg s.writer.out)
  | (.err m, _) => .err m
  | (.panic m, _) => .panic m
  | (.diverge, _) => .diverge

end Yaserde
