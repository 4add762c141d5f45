import Verif.Spec.Encode
/-
What each field of a struct contributes to the output, one rule per kind of field.
-/

set_option autoImplicit false

namespace Yaserde

/-- Kept out of the output: marked `skip_serializing`, or its value is suppressed. -/
def FieldDef.omitted (f : FieldDef) (self v : Val) : Prop := f.attrs.skipSer = true ∨ ¬ f.selected self v

/-- A field that is written as elements (or inline content) and is not left out. -/
structure FieldDef.Written (f : FieldDef) (s v : Val) : Prop where
  notAttr : f.attrs.isAttr = false
  notText : f.attrs.text = false
  notOmitted : ¬ f.omitted s v

/-- The children a field contributes. -/
inductive Block (L : Lib) (env : Env) (root : Attrs) (self : Val) : FieldDef → Val → List WNode → Prop
  | attr (f : FieldDef) (v : Val) (h : f.attrs.isAttr = true) : Block L env root self f v []
  | text (f : FieldDef) (s : Str) (h : f.attrs.isAttr = false) (ht : f.attrs.text = true) :
      Block L env root self f (.str s) [.text s]
  | textSome (f : FieldDef) (s : Str) (h : f.attrs.isAttr = false) (ht : f.attrs.text = true) :
      Block L env root self f (.some (.str s)) [.text s]
  | textNone (f : FieldDef) (h : f.attrs.isAttr = false) (ht : f.attrs.text = true) :
      Block L env root self f .none [.text []]
  | omitted (f : FieldDef) (v : Val) (h : f.attrs.isAttr = false) (ht : f.attrs.text = false)
      (ho : f.omitted self v) : Block L env root self f v []
  | cdata (f : FieldDef) (s : Str) (h : f.Written self (.str s)) (hc : f.attrs.cdata = true) :
      Block L env root self f (.str s) [.elem (f.written root) [] [] [.cdata s]]
  | scalar (f : FieldDef) (t : STy) (v : Val) (hty : f.ty = .simple t) (h : f.Written self v)
      (hc : f.attrs.cdata = false) :
      Block L env root self f v [.elem (f.written root) [] [] [.text (showS L v)]]
  | none (f : FieldDef) (t : FTy) (hty : f.ty = .opt t) (h : f.Written self .none) (hc : f.attrs.cdata = false) :
      Block L env root self f .none []
  | some (f : FieldDef) (t : STy) (x : Val) (hty : f.ty = .opt (.simple t)) (h : f.Written self (.some x))
      (hc : f.attrs.cdata = false) :
      Block L env root self f (.some x) [.elem (f.written root) [] [] [.text (showS L x)]]
  | items (f : FieldDef) (t : STy) (xs : List Val) (hty : f.ty = .vec (.simple t)) (h : f.Written self (.vec xs))
      (hc : f.attrs.cdata = false) :
      Block L env root self f (.vec xs) (xs.map fun x => .elem (f.written root) [] [] [.text (showS L x)])
  | someItems (f : FieldDef) (t : STy) (xs : List Val) (hty : f.ty = .opt (.vec (.simple t)))
      (h : f.Written self (.some (.vec xs))) (hc : f.attrs.cdata = false) :
      Block L env root self f (.some (.vec xs)) (xs.map fun x => .elem (f.written root) [] [] [.text (showS L x)])
  | struct (f : FieldDef) (p : Path) (x : Val) (hty : f.ty = .struct p) (h : f.Written self x)
      (hc : f.attrs.cdata = false) :
      Block L env root self f x (encTy L env (f.place root) p x)
  | someStruct (f : FieldDef) (p : Path) (x : Val) (hty : f.ty = .opt (.struct p)) (h : f.Written self (.some x))
      (hc : f.attrs.cdata = false) :
      Block L env root self f (.some x) (encTy L env (f.place root) p x)
  | structs (f : FieldDef) (p : Path) (xs : List Val) (hty : f.ty = .vec (.struct p)) (h : f.Written self (.vec xs))
      (hc : f.attrs.cdata = false) :
      Block L env root self f (.vec xs) (xs.flatMap fun x => encTy L env (f.place root) p x)
  | optItems (f : FieldDef) (t : STy) (xs : List Val) (hty : f.ty = .vec (.opt (.simple t)))
      (h : f.Written self (.vec xs)) (hc : f.attrs.cdata = false) :
      Block L env root self f (.vec xs) (xs.flatMap fun
        | .some x => [.text (showS L x)]
        | _ => [])
  | optStructs (f : FieldDef) (p : Path) (xs : List Val) (hty : f.ty = .vec (.opt (.struct p)))
      (h : f.Written self (.vec xs)) (hc : f.attrs.cdata = false) :
      Block L env root self f (.vec xs) (xs.flatMap fun
        | .some x => encTy L env .root p x
        | _ => [])

/-- The attributes a field contributes to its struct's start tag itself. -/
inductive AttrBlock (L : Lib) (env : Env) (root : Attrs) (self : Val) : FieldDef → Val → List Attr → Prop
  | element (f : FieldDef) (v : Val) (h : f.attrs.isAttr = false) : AttrBlock L env root self f v []
  | suppressed (f : FieldDef) (v : Val) (h : f.attrs.isAttr = true) (hs : ¬ f.selected self v) :
      AttrBlock L env root self f v []
  | plain (f : FieldDef) (t : STy) (v : Val) (h : f.attrs.isAttr = true) (hty : f.ty = .simple t)
      (hs : f.selected self v) : AttrBlock L env root self f v [⟨Name.ofStr (f.written root), showS L v⟩]
  | some (f : FieldDef) (t : STy) (x : Val) (h : f.attrs.isAttr = true) (hty : f.ty = .opt (.simple t))
      (hs : f.selected self (.some x)) :
      AttrBlock L env root self f (.some x) [⟨Name.ofStr (f.written root), showS L x⟩]
  | none (f : FieldDef) (t : FTy) (h : f.attrs.isAttr = true) (hty : f.ty = .opt t) :
      AttrBlock L env root self f .none []
  | struct (f : FieldDef) (p : Path) (x : Val) (s : Str) (h : f.attrs.isAttr = true) (hty : f.ty = .struct p)
      (hs : f.selected self x) (hc : toStringContent L env p x = .ok s) :
      AttrBlock L env root self f x [⟨Name.ofStr (f.written root), s⟩]
  | someStruct (f : FieldDef) (p : Path) (x : Val) (s : Str) (h : f.attrs.isAttr = true)
      (hty : f.ty = .opt (.struct p)) (hs : f.selected self (.some x)) (hc : toStringContent L env p x = .ok s) :
      AttrBlock L env root self f (.some x) [⟨Name.ofStr (f.written root), s⟩]
  | vec (f : FieldDef) (t : FTy) (v : Val) (h : f.attrs.isAttr = true) (hty : f.ty = .vec t) :
      AttrBlock L env root self f v []

/-- One block for each field, in order. -/
def Blocks {α : Type} (R : FieldDef → Val → List α → Prop) (fds : List FieldDef) (vs : List Val) (bs : List (List α)) : Prop :=
  bs.length = fds.length ∧ ∀ (i : Nat) (f : FieldDef) (v : Val) (b : List α),
    fds[i]? = some f → vs[i]? = some v → bs[i]? = some b → R f v b

/-! ### Shapes -/

/-- The tags of a tree, without any text: names of elements and attributes, namespace declarations. -/
inductive Skel where
  | elem (name : Str) (attrs : List Name) (nss : NsMap) (kids : List Skel)
  | text
  | cdata

mutual
  def WNode.skel : WNode → Skel
    | .elem n as m ks => .elem n (as.map Attr.name) m (WNode.skelL ks)
    | .text _ => .text
    | .cdata _ => .cdata
  def WNode.skelL : List WNode → List Skel
    | [] => []
    | k :: ks => k.skel :: WNode.skelL ks
end

/-- Two values of the same shape: they may differ in the contents of strings, numbers and other scalars,
as long as `skip_serializing_if` and `default` decide the same for both. -/
inductive SameShape (env : Env) : FTy → Val → Val → Prop
  | scalar (t : STy) (a b : Val) (ha : HasTy env (.simple t) a) (hb : HasTy env (.simple t) b) :
      SameShape env (.simple t) a b
  | none (t : FTy) : SameShape env (.opt t) .none .none
  | some (t : FTy) (a b : Val) (h : SameShape env t a b) : SameShape env (.opt t) (.some a) (.some b)
  | vec (t : FTy) (as bs : List Val) (hlen : as.length = bs.length)
      (h : ∀ (i : Nat) (a b : Val), as[i]? = Option.some a → bs[i]? = Option.some b → SameShape env t a b) :
      SameShape env (.vec t) (.vec as) (.vec bs)
  | struct (p : Path) (d : StructDef) (as bs : List Val) (hp : env p = Option.some (.struct d))
      (hlen : as.length = bs.length)
      (hsel : ∀ (i : Nat) (f : FieldDef) (a b : Val), d.fields[i]? = Option.some f → as[i]? = Option.some a →
        bs[i]? = Option.some b → (f.selected (.struct as) a ↔ f.selected (.struct bs) b))
      (h : ∀ (i : Nat) (f : FieldDef) (a b : Val), d.fields[i]? = Option.some f → as[i]? = Option.some a →
        bs[i]? = Option.some b → SameShape env f.ty a b) : SameShape env (.struct p) (.struct as) (.struct bs)
  | unit (p : Path) (d : EnumDef) (i : Nat) (vd : VariantDef) (hp : env p = Option.some (.enum d))
      (hv : d.variants[i]? = Option.some vd) (hs : vd.shape = .unit) :
      SameShape env (.struct p) (.enum i []) (.enum i [])
  | newtype (p : Path) (d : EnumDef) (i : Nat) (vd : VariantDef) (t : FTy) (a b : Val)
      (hp : env p = Option.some (.enum d)) (hv : d.variants[i]? = Option.some vd) (hs : vd.shape = .newtype t)
      (h : SameShape env t a b) : SameShape env (.struct p) (.enum i [a]) (.enum i [b])
  | named (p : Path) (d : EnumDef) (i : Nat) (vd : VariantDef) (fds : List FieldDef) (as bs : List Val)
      (hp : env p = Option.some (.enum d)) (hv : d.variants[i]? = Option.some vd) (hs : vd.shape = .named fds)
      (hlen : as.length = bs.length)
      (h : ∀ (j : Nat) (f : FieldDef) (a b : Val), fds[j]? = Option.some f → as[j]? = Option.some a →
        bs[j]? = Option.some b → SameShape env f.ty a b) : SameShape env (.struct p) (.enum i as) (.enum i bs)
  | prim (p : Path) (d : PrimDef) (a b : Val) (hp : env p = Option.some (.prim d)) : SameShape env (.struct p) a b

/-- A field that `skip_serializing` keeps out of the output: not an attribute, not a text field, and not a flattened
struct (whose attributes are written even so). -/
def FieldDef.hidden (f : FieldDef) : Prop :=
  f.attrs.skipSer = true ∧ f.attrs.isAttr = false ∧ f.attrs.text = false ∧
    (f.attrs.flatten = true → ∀ p, f.ty ≠ .struct p)

/-- Two values that differ in hidden fields only, at any depth, as long as `skip_serializing_if` and `default` decide
the same for the other fields of both. -/
inductive SameVisible (env : Env) : FTy → Val → Val → Prop
  | refl (t : FTy) (a : Val) : SameVisible env t a a
  | some (t : FTy) (a b : Val) (h : SameVisible env t a b) : SameVisible env (.opt t) (.some a) (.some b)
  | vec (t : FTy) (as bs : List Val) (hlen : as.length = bs.length)
      (h : ∀ (i : Nat) (a b : Val), as[i]? = Option.some a → bs[i]? = Option.some b → SameVisible env t a b) :
      SameVisible env (.vec t) (.vec as) (.vec bs)
  | struct (p : Path) (d : StructDef) (as bs : List Val) (hp : env p = Option.some (.struct d))
      (hlen : as.length = bs.length)
      (hsel : ∀ (i : Nat) (f : FieldDef) (a b : Val), d.fields[i]? = Option.some f → as[i]? = Option.some a →
        bs[i]? = Option.some b → ¬ f.hidden → (f.selected (.struct as) a ↔ f.selected (.struct bs) b))
      (h : ∀ (i : Nat) (f : FieldDef) (a b : Val), d.fields[i]? = Option.some f → as[i]? = Option.some a →
        bs[i]? = Option.some b → ¬ f.hidden → SameVisible env f.ty a b) :
      SameVisible env (.struct p) (.struct as) (.struct bs)
  | newtype (p : Path) (d : EnumDef) (i : Nat) (vd : VariantDef) (t : FTy) (a b : Val)
      (hp : env p = Option.some (.enum d)) (hv : d.variants[i]? = Option.some vd) (hs : vd.shape = .newtype t)
      (h : SameVisible env t a b) : SameVisible env (.struct p) (.enum i [a]) (.enum i [b])
  | named (p : Path) (d : EnumDef) (i : Nat) (vd : VariantDef) (fds : List FieldDef) (as bs : List Val)
      (hp : env p = Option.some (.enum d)) (hv : d.variants[i]? = Option.some vd) (hs : vd.shape = .named fds)
      (hlen : as.length = bs.length)
      (h : ∀ (j : Nat) (f : FieldDef) (a b : Val), fds[j]? = Option.some f → as[j]? = Option.some a →
        bs[j]? = Option.some b → SameVisible env f.ty a b) : SameVisible env (.struct p) (.enum i as) (.enum i bs)

end Yaserde
