import Verif.Model.UserSer
import Verif.Spec.Encode
/-
The trees values are written as in a program with hand-written types: those of derived types are as in `Spec/Encode.lean`, around
those of the types of the fields.
-/

set_option autoImplicit false

namespace Yaserde

/-- How the values of the types of a program are written: their elements, the attributes and the namespace declarations they
contribute where they are flattened. -/
structure Encoding where
  tree : Place → Path → Val → List WNode
  attrs : Path → Val → List Attr
  decls : Path → Val → NsMap

/-- Attributes for the attribute fields of a struct. -/
def encOwnBy (L : Lib) (W : Encoding) (root : Attrs) (self : Val) : List FieldDef → List Val → List Attr
  | f :: fs, v :: vs =>
    (if f.attrs.isAttr && decide (f.selected self v) then
      match f.ty, v with
      | .simple _, v => [⟨Name.ofStr (f.written root), showS L v⟩]
      | .opt (.simple _), .some x => [⟨Name.ofStr (f.written root), showS L x⟩]
      | .opt (.struct p), .some x =>
        [⟨Name.ofStr (f.written root), L.emit { decl := false } (WNode.eventsL (W.tree .inner p x))⟩]
      | .struct p, x =>
        [⟨Name.ofStr (f.written root), L.emit { decl := false } (WNode.eventsL (W.tree .inner p x))⟩]
      | _, _ => []
    else []) ++ encOwnBy L W root self fs vs
  | _, _ => []

/-- Attributes of flattened structs. -/
def encInheritedBy (W : Encoding) : List FieldDef → List Val → List Attr
  | f :: fs, v :: vs =>
    (if !f.attrs.isAttr && f.attrs.flatten then
      match f.ty, v with
      | .struct p, x => W.attrs p x
      | _, _ => []
    else []) ++ encInheritedBy W fs vs
  | _, _ => []

/-- Namespace declarations of flattened structs. -/
def encInheritedDeclsBy (W : Encoding) : List FieldDef → List Val → NsMap
  | f :: fs, v :: vs =>
    (if !f.attrs.isAttr && f.attrs.flatten then
      match f.ty, v with
      | .struct p, x => W.decls p x
      | _, _ => []
    else []) ++ encInheritedDeclsBy W fs vs
  | _, _ => []

/-- One after the other. -/
def encItemsBy (L : Lib) (W : Encoding) (pl : Place) (p : Path) : List Val → List WNode
  | [] => []
  | x :: xs => W.tree pl p x ++ encItemsBy L W pl p xs

/-- `Vec<Option<T>>`: the items that are set, by themselves (scalars as bare text). -/
def encOptItemsBy (L : Lib) (W : Encoding) (t : FTy) : List Val → List WNode
  | [] => []
  | .some x :: xs =>
    (match t with
      | .struct p => W.tree .root p x
      | _ => [.text (showS L x)]) ++ encOptItemsBy L W t xs
  | _ :: xs => encOptItemsBy L W t xs

/-- The content of a struct's element: field by field, in declaration order. -/
def encFieldsBy (L : Lib) (W : Encoding) (root : Attrs) (self : Val) : List FieldDef → List Val → List WNode
  | f :: fs, v :: vs =>
    (if f.attrs.isAttr then []
     else if f.attrs.text then [.text (fieldText v)]
     else if f.attrs.skipSer || !decide (f.selected self v) then []
     else if f.attrs.cdata then
       match v with
       | .str s => [.elem (f.written root) [] [] [.cdata s]]
       | _ => []
     else
       match f.ty, v with
       | .simple _, v => [leaf (f.written root) (showS L v)]
       | .opt (.simple _), .some x => [leaf (f.written root) (showS L x)]
       | .opt (.vec (.simple _)), .some (.vec xs) => xs.map fun x => leaf (f.written root) (showS L x)
       | .opt (.struct p), .some x => W.tree (f.place root) p x
       | .struct p, x => W.tree (f.place root) p x
       | .vec (.simple _), .vec xs => xs.map fun x => leaf (f.written root) (showS L x)
       | .vec (.opt t), .vec xs => encOptItemsBy L W t xs
       | .vec (.struct p), .vec xs => encItemsBy L W (f.place root) p xs
       | _, _ => []) ++ encFieldsBy L W root self fs vs
  | _, _ => []

/-- The items of a `Vec` variant. -/
def encVariantItemsBy (L : Lib) (W : Encoding) (name : Str) (t : FTy) : List Val → List WNode
  | [] => []
  | x :: xs =>
    (match t with
      | .struct p => .elem name [] [] (W.tree .inner p x)
      | _ => leaf name (showS L x)) :: encVariantItemsBy L W name t xs

/-- The content of an enum's element. -/
def encVariantBy (L : Lib) (W : Encoding) (pl : Place) (root : Attrs) (vd : VariantDef) (pay : List Val) : List WNode :=
  match vd.shape, pay with
  | .unit, _ => if root.tag.isSome then [] else [.text (vd.written root)]
  | .newtype (.simple _), x :: _ => [leaf (vd.written root) (showS L x)]
  | .newtype (.opt (.simple _)), .some x :: _ => [leaf (vd.written root) (showS L x)]
  | .newtype (.opt (.struct p)), .some x :: _ =>
    [.elem (vd.written root) [] [] (W.tree .inner p x)]
  | .newtype (.opt _), .none :: _ => []
  | .newtype (.vec t), .vec xs :: _ => encVariantItemsBy L W (vd.written root) t xs
  | .newtype (.struct p), x :: _ =>
    if vd.attrs.flatten then W.tree pl p x
    else [.elem (vd.written root) [] [] (W.tree .inner p x)]
  | _, _ => []

/-- The fields of a variant with named fields: no `Option`s; scalars in a `Vec` as bare text. -/
def encNamedBy (L : Lib) (W : Encoding) (root : Attrs) : List FieldDef → List Val → List WNode
  | f :: fs, v :: vs =>
    (match f.ty, v with
      | .simple _, v => [leaf (f.written root) (showS L v)]
      | .struct p, x => W.tree ⟨some (f.written root), false⟩ p x
      | .vec (.struct p), .vec xs => encItemsBy L W ⟨some (f.written root), false⟩ p xs
      | .vec _, .vec xs => xs.map fun x => .text (showS L x)
      | _, _ => []) ++ encNamedBy L W root fs vs
  | _, _ => []

/-- A value of type `p`. -/
def encTyBy (L : Lib) (env : Env) (W : Encoding) (pl : Place) (p : Path) (v : Val) : List WNode :=
  match env p, v with
  | some (.struct d), .struct fs =>
    wrap d.attrs pl (d.attrs.written d.name)
      (encOwnBy L W d.attrs (.struct fs) d.fields fs ++ encInheritedBy W d.fields fs)
      (firstDecls (d.attrs.decls ++ encInheritedDeclsBy W d.fields fs))
      (encFieldsBy L W d.attrs (.struct fs) d.fields fs)
  | some (.enum d), .enum i pay =>
    match d.variants[i]? with
    | some vd =>
      wrap d.attrs pl (d.attrs.written d.name) (tagAttrs d vd) (firstDecls d.attrs.decls)
        (match vd.shape with
          | .named fds => encNamedBy L W d.attrs fds pay
          | _ => encVariantBy L W pl d.attrs vd pay)
    | none => []
  | some (.prim d), v => wrap { flatten := d.bare } pl d.name [] [] [.text (d.toStr v)]
  | _, _ => []

/-- All attributes of a value of type `p`. -/
def encTyAttrsBy (L : Lib) (env : Env) (W : Encoding) (p : Path) (v : Val) : List Attr :=
  match env p, v with
  | some (.struct d), .struct fs =>
    encOwnBy L W d.attrs (.struct fs) d.fields fs ++ encInheritedBy W d.fields fs
  | some (.enum d), .enum i _ =>
    match d.variants[i]? with
    | some vd => tagAttrs d vd
    | none => []
  | _, _ => []

/-- All namespace declarations of a value of type `p`. -/
def encTyDeclsBy (env : Env) (W : Encoding) (p : Path) (v : Val) : NsMap :=
  match env p, v with
  | some (.struct d), .struct fs => d.attrs.decls ++ encInheritedDeclsBy W d.fields fs
  | some (.enum d), _ => d.attrs.decls
  | _, _ => []

/-- `W` writes the values of derived types as derived types are written (of hand-written types it says nothing). -/
structure Encoding.Derived (L : Lib) (env : Env) (user : SerImpls) (W : Encoding) : Prop where
  tree : ∀ pl p v, user p = none → W.tree pl p v = encTyBy L env W pl p v
  attrs : ∀ p v, user p = none → W.attrs p v = encTyAttrsBy L env W p v
  decls : ∀ p v, user p = none → W.decls p v = encTyDeclsBy env W p v

/-- Called where the serializer's flags say `pl`, whatever has been written before, and with a writer that does not fail, the
computation succeeds and has performed the writes of the trees. -/
def WritesTrees (x : S Unit) (pl : Place) (ts : List WNode) : Prop :=
  ∀ s : Sr, s.startName = pl.name → s.skip = pl.bare → (∀ n, s.writer.io n = none) →
    ∃ s', x s = (.ok (), s') ∧ s'.writer.out = s.writer.out ++ WNode.eventsL ts ∧ s'.writer.opened = s.writer.opened ∧
      s'.writer.calls = s.writer.calls + (WNode.eventsL ts).length ∧ s'.writer.io = s.writer.io

/-- The same with any writer: the computation fails at the first write that fails. -/
def ReportsWrites (x : S Unit) (pl : Place) (ts : List WNode) : Prop :=
  ∀ s : Sr, s.startName = pl.name → s.skip = pl.bare →
    (∃ s', x s = (.ok (), s') ∧ s'.writer.out = s.writer.out ++ WNode.eventsL ts ∧ s'.writer.opened = s.writer.opened ∧
      s'.writer.calls = s.writer.calls + (WNode.eventsL ts).length ∧ s'.writer.io = s.writer.io ∧
      ∀ j, j < (WNode.eventsL ts).length → s.writer.io (s.writer.calls + j) = none) ∨
    (∃ j m s', x s = (.err m, s') ∧ j < (WNode.eventsL ts).length ∧ s'.writer.out = s.writer.out ++ (WNode.eventsL ts).take j ∧
      (∃ e, s.writer.io (s.writer.calls + j) = some e) ∧
      ∀ i, i < j → s.writer.io (s.writer.calls + i) = none)

/-- The same with any writer, except that failed writes of some of the texts go unnoticed (which ones, `ps` says). -/
def LosesText (x : S Unit) (pl : Place) (ts : List WNode) : Prop :=
  ∃ ps : List (WEv × Bool), ps.map (·.1) = WNode.eventsL ts ∧ (∀ w ∈ ps, w.2 = true → ∃ t, w.1 = .chars t) ∧
    ∀ s : Sr, s.startName = pl.name → s.skip = pl.bare →
      ((performWrites s.writer.io s.writer.calls ps).1 = true → ∃ s', x s = (.ok (), s') ∧
        s'.writer.out = s.writer.out ++ (performWrites s.writer.io s.writer.calls ps).2 ∧ s'.writer.opened = s.writer.opened ∧
        s'.writer.calls = s.writer.calls + ps.length ∧ s'.writer.io = s.writer.io) ∧
      ((performWrites s.writer.io s.writer.calls ps).1 = false → ∃ m s', x s = (.err m, s') ∧
        s'.writer.out = s.writer.out ++ (performWrites s.writer.io s.writer.calls ps).2)

/-- The contract of an implementation of `YaSerialize`: with enough nested calls it writes the encoding of the value at every place, and
its attributes are those of the encoding. -/
def SerObeys (C : S Unit → Place → List WNode → Prop) (R : Nat → SerRec) (W : Encoding) (p : Path) (v : Val) : Prop :=
  ∃ N, ∀ n, N ≤ n → (∀ pl, C ((R n).ser p v) pl (W.tree pl p v)) ∧
    (R n).attrs p v = .ok (W.attrs p v, firstDecls (W.decls p v))

end Yaserde
