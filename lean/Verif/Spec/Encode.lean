import Verif.Model.Ser
import Verif.Spec.Scalars
/-
The XML tree a value is written as.  Pure functions from values to trees: nothing here refers to a
serializer, its flags, or a writer.
-/

set_option autoImplicit false

namespace Yaserde

/-- A tree to be written: elements carry their qualified name as written (`p:l` or `l`). -/
inductive WNode where
  | elem (name : Str) (attrs : List Attr) (nss : NsMap) (kids : List WNode)
  | text (s : Str)
  | cdata (s : Str)

mutual
  /-- The writer events of a tree. -/
  def WNode.events : WNode → List WEv
    | .elem n as m ks => .start (Name.ofStr n) as m :: (WNode.eventsL ks ++ [.endE none])
    | .text s => [.chars s]
    | .cdata s => [.cdata s]
  def WNode.eventsL : List WNode → List WEv
    | [] => []
    | k :: ks => k.events ++ WNode.eventsL ks
end

/-- A name with its prefix, which is left out if it is the default namespace's. -/
def qualify (dflt pfx : Option Str) (name : Str) : Str :=
  match pfx with
  | none => name
  | some p => if dflt = some p then name else p ++ c!":" ++ name

/-- Name of the element or attribute a field is written as. -/
def FieldDef.written (root : Attrs) (f : FieldDef) : Str :=
  qualify root.defaultNs f.attrs.pfx (f.attrs.rename.getD f.ident)

/-- Name of the element a type is written as, by itself. -/
def Attrs.written (a : Attrs) (ident : Str) : Str := qualify a.defaultNs a.pfx (a.rename.getD ident)

/-- Name of the element a variant is written as. -/
def VariantDef.written (root : Attrs) (v : VariantDef) : Str :=
  qualify root.defaultNs v.attrs.pfx (v.attrs.rename.getD v.ident)

/-- Not suppressed by `skip_serializing_if` or `default`. -/
def FieldDef.selected (f : FieldDef) (self v : Val) : Prop :=
  (∀ g, f.skipIf = some g → g self v = false) ∧ (∀ d, f.dflt = some d → d.ne v = true)

instance (f : FieldDef) (self v : Val) : Decidable (f.selected self v) :=
  decidable_of_iff (((f.skipIf.all fun g => !g self v) && f.dflt.all fun d => d.ne v) = true) (by
    unfold FieldDef.selected
    cases f.skipIf <;> cases f.dflt <;> simp)

/-- An element holding one piece of text. -/
def leaf (name text : Str) : WNode := .elem name [] [] [.text text]

/-- Where a value is written: the name of its element if it is given by the place, and
whether it is to be written without an element of its own. -/
structure Place where
  name : Option Str
  bare : Bool

/-- By itself, as the document element. -/
def Place.root : Place := ⟨none, false⟩
/-- Only its content. -/
def Place.inner : Place := ⟨none, true⟩

/-- The value of a field. -/
def FieldDef.place (root : Attrs) (f : FieldDef) : Place :=
  if f.attrs.flatten then .inner else ⟨some (f.written root), false⟩

/-- A value's own element around its content. -/
def wrap (a : Attrs) (pl : Place) (name : Str) (as : List Attr) (nss : NsMap) (kids : List WNode) : List WNode :=
  if a.flatten || pl.bare then kids else [.elem (pl.name.getD name) as nss kids]

/-- The namespace declarations of a type; that of the default namespace has no prefix. -/
def Attrs.decls (a : Attrs) : NsMap :=
  a.namespaces.map fun e => if a.defaultNs = some e.1 then ([], e.2) else e

/-- Declarations of which the first one for each prefix counts. -/
def firstDecls (ds : NsMap) : NsMap := NsMap.extend [] ds

/-- The attribute that identifies the variant of a tagged enum. -/
def tagAttrs (d : EnumDef) (v : VariantDef) : List Attr :=
  match d.attrs.tag with
  | some tag => [⟨{ loc := tag }, v.attrs.rename.getD v.ident⟩]
  | none => []

/-- The text of a text field. -/
def fieldText : Val → Str
  | .str s => s
  | .some (.str s) => s
  | _ => []

mutual
  /-- A value of type `p`. -/
  def encTy (L : Lib) (env : Env) (pl : Place) (p : Path) (v : Val) : List WNode :=
    match env p, v with
    | some (.struct d), .struct fs =>
      wrap d.attrs pl (d.attrs.written d.name)
        (encOwn L env d.attrs (.struct fs) d.fields fs ++ encInherited L env d.fields fs)
        (firstDecls (d.attrs.decls ++ encInheritedDecls env d.fields fs))
        (encFields L env d.attrs (.struct fs) d.fields fs)
    | some (.enum d), .enum i pay =>
      match d.variants[i]? with
      | some vd =>
        wrap d.attrs pl (d.attrs.written d.name) (tagAttrs d vd) (firstDecls d.attrs.decls)
          (match vd.shape with
            | .named fds => encNamed L env d.attrs fds pay
            | _ => encVariant L env pl d.attrs vd pay)
      | none => []
    | some (.prim d), v => wrap { flatten := d.bare } pl d.name [] [] [.text (d.toStr v)]
    | _, _ => []

  /-- Attributes for the attribute fields of a struct. -/
  def encOwn (L : Lib) (env : Env) (root : Attrs) (self : Val) : List FieldDef → List Val → List Attr
    | f :: fs, v :: vs =>
      (if f.attrs.isAttr && decide (f.selected self v) then
        match f.ty, v with
        | .simple _, v => [⟨Name.ofStr (f.written root), showS L v⟩]
        | .opt (.simple _), .some x => [⟨Name.ofStr (f.written root), showS L x⟩]
        | .opt (.struct p), .some x =>
          [⟨Name.ofStr (f.written root), L.emit { decl := false } (WNode.eventsL (encTy L env .inner p x))⟩]
        | .struct p, x =>
          [⟨Name.ofStr (f.written root), L.emit { decl := false } (WNode.eventsL (encTy L env .inner p x))⟩]
        | _, _ => []
      else []) ++ encOwn L env root self fs vs
    | _, _ => []

  /-- Attributes of flattened structs. -/
  def encInherited (L : Lib) (env : Env) : List FieldDef → List Val → List Attr
    | f :: fs, v :: vs =>
      (if !f.attrs.isAttr && f.attrs.flatten then
        match f.ty, v with
        | .struct p, x => encTyAttrs L env p x
        | _, _ => []
      else []) ++ encInherited L env fs vs
    | _, _ => []

  /-- All attributes of a value of type `p`. -/
  def encTyAttrs (L : Lib) (env : Env) (p : Path) (v : Val) : List Attr :=
    match env p, v with
    | some (.struct d), .struct fs =>
      encOwn L env d.attrs (.struct fs) d.fields fs ++ encInherited L env d.fields fs
    | some (.enum d), .enum i _ =>
      match d.variants[i]? with
      | some vd => tagAttrs d vd
      | none => []
    | _, _ => []

  /-- Namespace declarations of flattened structs. -/
  def encInheritedDecls (env : Env) : List FieldDef → List Val → NsMap
    | f :: fs, v :: vs =>
      (if !f.attrs.isAttr && f.attrs.flatten then
        match f.ty, v with
        | .struct p, x => encTyDecls env p x
        | _, _ => []
      else []) ++ encInheritedDecls env fs vs
    | _, _ => []

  /-- All namespace declarations of a value of type `p`. -/
  def encTyDecls (env : Env) (p : Path) (v : Val) : NsMap :=
    match env p, v with
    | some (.struct d), .struct fs => d.attrs.decls ++ encInheritedDecls env d.fields fs
    | some (.enum d), _ => d.attrs.decls
    | _, _ => []

  /-- The content of a struct's element: field by field, in declaration order. -/
  def encFields (L : Lib) (env : Env) (root : Attrs) (self : Val) : List FieldDef → List Val → List WNode
    | f :: fs, v :: vs =>
      (if f.attrs.isAttr then []
       else if f.attrs.text then [.text (fieldText v)]
       else if f.attrs.skipSer || !decide (f.selected self v) then []
       else if f.attrs.cdata then
         match v with
         | .str s => [.elem (f.written root) [] [] [.cdata s]]
         | _ => []
       else
         match f.ty, v with
         | .simple _, v => [leaf (f.written root) (showS L v)]
         | .opt (.simple _), .some x => [leaf (f.written root) (showS L x)]
         | .opt (.vec (.simple _)), .some (.vec xs) => xs.map fun x => leaf (f.written root) (showS L x)
         | .opt (.struct p), .some x => encTy L env (f.place root) p x
         | .struct p, x => encTy L env (f.place root) p x
         | .vec (.simple _), .vec xs => xs.map fun x => leaf (f.written root) (showS L x)
         | .vec (.opt t), .vec xs => encOptItems L env t xs
         | .vec (.struct p), .vec xs => encItems L env (f.place root) p xs
         | _, _ => []) ++ encFields L env root self fs vs
    | _, _ => []

  /-- One after the other. -/
  def encItems (L : Lib) (env : Env) (pl : Place) (p : Path) : List Val → List WNode
    | [] => []
    | x :: xs => encTy L env pl p x ++ encItems L env pl p xs

  /-- `Vec<Option<T>>`: the items that are set, by themselves (scalars as bare text). -/
  def encOptItems (L : Lib) (env : Env) (t : FTy) : List Val → List WNode
    | [] => []
    | .some x :: xs =>
      (match t with
        | .struct p => encTy L env .root p x
        | _ => [.text (showS L x)]) ++ encOptItems L env t xs
    | _ :: xs => encOptItems L env t xs

  /-- The content of an enum's element. -/
  def encVariant (L : Lib) (env : Env) (pl : Place) (root : Attrs) (vd : VariantDef) (pay : List Val) : List WNode :=
    match vd.shape, pay with
    | .unit, _ => if root.tag.isSome then [] else [.text (vd.written root)]
    | .newtype (.simple _), x :: _ => [leaf (vd.written root) (showS L x)]
    | .newtype (.opt (.simple _)), .some x :: _ => [leaf (vd.written root) (showS L x)]
    | .newtype (.opt (.struct p)), .some x :: _ =>
      [.elem (vd.written root) [] [] (encTy L env .inner p x)]
    | .newtype (.opt _), .none :: _ => []
    | .newtype (.vec t), .vec xs :: _ => encVariantItems L env (vd.written root) t xs
    | .newtype (.struct p), x :: _ =>
      if vd.attrs.flatten then encTy L env pl p x
      else [.elem (vd.written root) [] [] (encTy L env .inner p x)]
    | _, _ => []

  /-- The items of a `Vec` variant. -/
  def encVariantItems (L : Lib) (env : Env) (name : Str) (t : FTy) : List Val → List WNode
    | [] => []
    | x :: xs =>
      (match t with
        | .struct p => .elem name [] [] (encTy L env .inner p x)
        | _ => leaf name (showS L x)) :: encVariantItems L env name t xs

  /-- The fields of a variant with named fields: no `Option`s; scalars in a `Vec` as bare text. -/
  def encNamed (L : Lib) (env : Env) (root : Attrs) : List FieldDef → List Val → List WNode
    | f :: fs, v :: vs =>
      (match f.ty, v with
        | .simple _, v => [leaf (f.written root) (showS L v)]
        | .struct p, x => encTy L env ⟨some (f.written root), false⟩ p x
        | .vec (.struct p), .vec xs => encItems L env ⟨some (f.written root), false⟩ p xs
        | .vec _, .vec xs => xs.map fun x => .text (showS L x)
        | _, _ => []) ++ encNamed L env root fs vs
    | _, _ => []
end

/-! ### Typing -/

/-- The value has the type. -/
inductive HasTy (env : Env) : FTy → Val → Prop
  | str (s : Str) : HasTy env (.simple .string) (.str s)
  | bool (b : Bool) : HasTy env (.simple .bool) (.bool b)
  | int (t : IntTy) (z : Int) (fits : t.Fits z) : HasTy env (.simple (.int t)) (.int z)
  | f32 (b : Nat) : HasTy env (.simple .f32) (.f32 b)
  | f64 (b : Nat) : HasTy env (.simple .f64) (.f64 b)
  | none (t : FTy) : HasTy env (.opt t) .none
  | some (t : FTy) (v : Val) (h : HasTy env t v) : HasTy env (.opt t) (.some v)
  | vec (t : FTy) (vs : List Val) (h : ∀ v ∈ vs, HasTy env t v) : HasTy env (.vec t) (.vec vs)
  | struct (p : Path) (d : StructDef) (fs : List Val) (hp : env p = some (.struct d))
      (hlen : fs.length = d.fields.length)
      (h : ∀ (i : Nat) (f : FieldDef) (v : Val), d.fields[i]? = some f → fs[i]? = some v → HasTy env f.ty v) :
      HasTy env (.struct p) (.struct fs)
  | unit (p : Path) (d : EnumDef) (i : Nat) (vd : VariantDef) (hp : env p = some (.enum d))
      (hv : d.variants[i]? = some vd) (hs : vd.shape = .unit) : HasTy env (.struct p) (.enum i [])
  | newtype (p : Path) (d : EnumDef) (i : Nat) (vd : VariantDef) (t : FTy) (x : Val) (hp : env p = some (.enum d))
      (hv : d.variants[i]? = some vd) (hs : vd.shape = .newtype t) (h : HasTy env t x) :
      HasTy env (.struct p) (.enum i [x])
  | named (p : Path) (d : EnumDef) (i : Nat) (vd : VariantDef) (fds : List FieldDef) (fs : List Val)
      (hp : env p = some (.enum d)) (hv : d.variants[i]? = some vd) (hs : vd.shape = .named fds)
      (hlen : fs.length = fds.length)
      (h : ∀ (j : Nat) (f : FieldDef) (v : Val), fds[j]? = some f → fs[j]? = some v → HasTy env f.ty v) :
      HasTy env (.struct p) (.enum i fs)
  | prim (p : Path) (d : PrimDef) (v : Val) (hp : env p = some (.prim d)) (hd : d.dom v = true) :
      HasTy env (.struct p) v

/-- Types the serializer macro accepts for a field. -/
def FieldDef.SerOk (f : FieldDef) : Prop :=
  if f.attrs.isAttr then
    match f.ty with
    | .simple _ | .opt (.simple _) | .opt (.struct _) | .struct _ | .vec _ => True
    | _ => False
  else if f.attrs.text then f.ty = .simple .string ∨ f.ty = .opt (.simple .string)
  else if f.attrs.cdata then f.ty = .simple .string
  else
    match f.ty with
    | .simple _ | .opt (.simple _) | .opt (.vec (.simple _)) | .opt (.struct _) | .struct _ | .vec (.simple _)
    | .vec (.opt (.simple _)) | .vec (.opt (.struct _)) | .vec (.struct _) => True
    | _ => False

/-- … for the payload of a variant. -/
def FTy.VariantOk : FTy → Prop
  | .simple _ | .opt (.simple _) | .opt (.struct _) | .struct _ | .vec (.simple _) | .vec (.struct _) => True
  | _ => False

/-- … for a named field of a variant. -/
def FTy.NamedOk : FTy → Prop
  | .simple _ | .struct _ | .vec (.struct _) | .vec (.simple _) | .opt _ => True
  | _ => False

/-- The program is accepted by the serializer macro. -/
structure SerOk (env : Env) : Prop where
  fields : ∀ p d, env p = some (.struct d) → ∀ f ∈ d.fields, f.SerOk
  variants : ∀ p d, env p = some (.enum d) → ∀ v ∈ d.variants, ∀ t, v.shape = .newtype t → t.VariantOk
  named : ∀ p d, env p = some (.enum d) → ∀ v ∈ d.variants, ∀ fds, v.shape = .named fds → ∀ f ∈ fds, f.ty.NamedOk

/-- No value of the program is written through the `YaSerialize` implementation of a scalar type itself
(`serialize_type!`): no types such as `usize` or aliases of scalar types, no `Vec<Option<scalar>>` fields, no variants with an `Option` or `Vec` of a scalar that is not
a string, no `Vec`s of scalars among the named fields of a variant. -/
structure NoBuiltin (env : Env) : Prop where
  fields : ∀ p d, env p = some (.struct d) → ∀ f ∈ d.fields, ∀ t, f.ty ≠ .vec (.opt (.simple t))
  variants : ∀ p d, env p = some (.enum d) → ∀ v ∈ d.variants, ∀ t, t ≠ .string →
    v.shape ≠ .newtype (.opt (.simple t)) ∧ v.shape ≠ .newtype (.vec (.simple t))
  named : ∀ p d, env p = some (.enum d) → ∀ v ∈ d.variants, ∀ fds, v.shape = .named fds → ∀ f ∈ fds,
    ∀ t, f.ty ≠ .vec (.simple t)
  prims : ∀ p d, env p = some (.prim d) → d.bare = false

/-- Writes performed one after the other, of which the `n`-th fails if `io n` is an error; the errors of the marked ones go unnoticed.
Whether all have been tried, and what has been written. -/
def performWrites (io : Nat → Option Str) : Nat → List (WEv × Bool) → Bool × List WEv
  | _, [] => (true, [])
  | n, (e, quiet) :: rest =>
    match io n with
    | none => ((performWrites io (n + 1) rest).1, e :: (performWrites io (n + 1) rest).2)
    | some _ => if quiet then performWrites io (n + 1) rest else (false, [])

end Yaserde
