import Verif.Model.Ser
/-
Programs in which some types implement `YaSerialize` by hand (`/repo/yaserde/src/lib.rs:103-116` is the trait;
`/repo/yaserde/tests/serializer.rs:385-409` is such an implementation).  The generated code calls
`YaSerialize::serialize(&self.field, writer)?`, `…::serialize_attributes` and `to_string_content` whatever the type of the field is.
So here is the generated code of one type, as in `Model/Ser.lean`, in terms of the implementations of the types of its
fields.
-/

set_option autoImplicit false

namespace Yaserde

/-- The implementations of `YaSerialize` of the types of a program: `serialize`, and `serialize_attributes` with empty
arguments (`/repo/yaserde_derive/src/ser/expand_struct.rs:127-130`). -/
structure SerRec where
  ser : Path → Val → S Unit
  attrs : Path → Val → Res (List Attr × NsMap)

/-- `append_attributes` — `/repo/yaserde_derive/src/ser/expand_struct.rs:16-139`.
The textual value (`yaserde_inner`) is computed before the field's condition is tested. -/
def structAttrsBy (L : Lib) (R : SerRec) (root : Attrs) (self : Val) :
    List FieldDef → List Val → Res AttrAcc
  | f :: fs, v :: vs =>
    if f.attrs.isAttr then
      match f.ty, v with
      | .simple _, v =>
        (structAttrsBy L R root self fs vs).bind fun rest =>
          .ok (addOwn root f (attrCondition f self v) (showS L v) rest)
      | .opt (.simple _), .some x =>
        (structAttrsBy L R root self fs vs).bind fun rest =>
          .ok (addOwn root f (attrCondition f self (.some x)) (showS L x) rest)
      | .opt (.struct p), .some x =>
        (contentOf L (R.ser p x)).bind fun inner =>
        (structAttrsBy L R root self fs vs).bind fun rest =>
          .ok (addOwn root f (attrCondition f self (.some x)) inner rest)
      | .opt _, .none => structAttrsBy L R root self fs vs
      | .struct p, x =>
        (contentOf L (R.ser p x)).bind fun inner =>
        (structAttrsBy L R root self fs vs).bind fun rest =>
          .ok (addOwn root f (attrCondition f self x) inner rest)
      -- `Vec` attributes: "TODO" in the code, nothing is emitted (lines 118-121)
      | .vec _, _ => structAttrsBy L R root self fs vs
      | _, _ => .panic c!"ill-typed"
    else if f.attrs.flatten then
      match f.ty, v with
      | .struct p, x =>
        (R.attrs p x).bind fun (as, ns) =>
        (structAttrsBy L R root self fs vs).bind fun rest =>
          .ok { rest with child := as ++ rest.child, childNs := NsMap.extend (NsMap.extend [] ns) rest.childNs }
      | _, _ => structAttrsBy L R root self fs vs
    else structAttrsBy L R root self fs vs
  | _, _ => .ok {}

/-- `for item in … { <flags>; YaSerialize::serialize(item, writer)?; }`. -/
def serItemsBy (L : Lib) (R : SerRec) (p : Path) (flags : S Unit) : List Val → S Unit
  | [] => M.pure ()
  | x :: xs => flags >>= fun _ => R.ser p x >>= fun _ => serItemsBy L R p flags xs

/-- The `Vec<Option<T>>` template — `/repo/yaserde_derive/src/ser/expand_struct.rs:305-315`. -/
def serOptItemsBy (L : Lib) (R : SerRec) (t : FTy) : List Val → S Unit
  | [] => M.pure ()
  | .some x :: xs =>
    setFlags none false >>= fun _ =>
    (match t with
      | .struct p => R.ser p x
      | _ => serBuiltin L x) >>= fun _ =>
    serOptItemsBy L R t xs
  | _ :: xs => serOptItemsBy L R t xs

/-- `struct_inspector` — `/repo/yaserde_derive/src/ser/expand_struct.rs:141-356`. -/
def serFieldsBy (L : Lib) (R : SerRec) (root : Attrs) (self : Val) :
    List FieldDef → List Val → S Unit
  | f :: fs, v :: vs =>
    (if f.attrs.isAttr then M.pure ()
     else if f.attrs.text then
       -- no condition is tested
       serText v
     else if !serCondition f self v then M.pure ()
     else if f.attrs.cdata then
       match v with
       | .str s => encloseCdata (f.renamedLabel root) s
       | _ => M.panic c!"ill-typed"
     else
       match f.ty, v with
       | .simple _, v => encloseChars (f.renamedLabel root) (showS L v)
       | .opt (.simple _), .some x => encloseChars (f.renamedLabel root) (showS L x)
       | .opt (.vec (.simple _)), .some (.vec xs) =>
         xs.foldr (fun x k => encloseChars (f.renamedLabel root) (showS L x) >>= fun _ => k) (M.pure ())
       | .opt (.struct p), .some x =>
         setFlags (if f.attrs.flatten then none else some (f.renamedLabel root)) f.attrs.flatten
           >>= fun _ => R.ser p x
       | .opt _, .none => M.pure ()
       | .struct p, x =>
         setFlags (if f.attrs.flatten then none else some (f.renamedLabel root)) f.attrs.flatten
           >>= fun _ => R.ser p x
       | .vec (.simple _), .vec xs =>
         xs.foldr (fun x k => encloseChars (f.renamedLabel root) (showS L x) >>= fun _ => k) (M.pure ())
       | .vec (.opt t), .vec xs => serOptItemsBy L R t xs
       | .vec (.struct p), .vec xs =>
         serItemsBy L R p
           (setFlags (if f.attrs.flatten then none else some (f.renamedLabel root)) f.attrs.flatten) xs
       | _, _ => M.panic c!"ill-typed") >>= fun _ =>
    serFieldsBy L R root self fs vs
  | _, _ => M.pure ()

/-- The items of a `Vec` payload — `/repo/yaserde_derive/src/ser/expand_enum.rs:292-300`. -/
def serVariantItemsBy (L : Lib) (R : SerRec) (label : Str) (t : FTy) : List Val → S Unit
  | [] => M.pure ()
  | x :: xs =>
    swrite (.start (Name.ofStr label) [] []) >>= fun _ =>
    (match t with
      | .simple .string => swrite (.chars (showS L x))
      | .struct p => setFlags none true >>= fun _ => R.ser p x
      | _ => setFlags none true >>= fun _ => serBuiltin L x) >>= fun _ =>
    swrite (.endE none) >>= fun _ =>
    serVariantItemsBy L R label t xs

/-- `inner_enum_inspector` for one value — `/repo/yaserde_derive/src/ser/expand_enum.rs:115-323`. -/
def serVariantBy (L : Lib) (R : SerRec) (root : Attrs) (vd : VariantDef)
    (pl : List Val) : S Unit :=
    match vd.shape, pl with
    | .unit, _ =>
      if root.tag.isSome then M.pure ()
      else swrite (.chars (buildLabelName vd.ident vd.attrs root.defaultNs))
    | .newtype (.simple _), x :: _ =>
      encloseChars (buildLabelName vd.ident vd.attrs root.defaultNs) (showS L x)
    | .newtype (.opt (.simple .string)), .some x :: _ =>
      encloseChars (buildLabelName vd.ident vd.attrs root.defaultNs) (showS L x)
    | .newtype (.opt (.struct p)), .some x :: _ =>
      swrite (.start (Name.ofStr (buildLabelName vd.ident vd.attrs root.defaultNs)) [] []) >>= fun _ =>
      setFlags none true >>= fun _ =>
      R.ser p x >>= fun _ =>
      swrite (.endE none)
    | .newtype (.opt (.simple _)), .some x :: _ =>
      swrite (.start (Name.ofStr (buildLabelName vd.ident vd.attrs root.defaultNs)) [] []) >>= fun _ =>
      setFlags none true >>= fun _ =>
      serBuiltin L x >>= fun _ =>
      swrite (.endE none)
    | .newtype (.opt _), .none :: _ => M.pure ()
    | .newtype (.vec t), .vec xs :: _ =>
      serVariantItemsBy L R (buildLabelName vd.ident vd.attrs root.defaultNs) t xs
    | .newtype (.struct p), x :: _ =>
      if vd.attrs.flatten then R.ser p x
      else
        swrite (.start (Name.ofStr (buildLabelName vd.ident vd.attrs root.defaultNs)) [] []) >>= fun _ =>
        setFlags none true >>= fun _ =>
        R.ser p x >>= fun _ =>
        swrite (.endE none)
    | _, _ => M.panic c!"ill-typed"

/-- The fields of a named-field variant — `/repo/yaserde_derive/src/ser/expand_enum.rs:142-227`:
`Option` fields are dropped (line 217), no condition is tested. -/
def serNamedBy (L : Lib) (R : SerRec) (root : Attrs) : List FieldDef → List Val → S Unit
  | f :: fs, v :: vs =>
    (match f.ty, v with
      | .simple _, v => encloseChars (f.renamedLabel root) (showS L v)
      | .struct p, x => setFlags (some (f.renamedLabel root)) false >>= fun _ => R.ser p x
      | .vec (.struct p), .vec xs =>
        serItemsBy L R p (setFlags (some (f.renamedLabel root)) false) xs
      | .vec _, .vec xs =>
        xs.foldr (fun x k => setFlags (some (f.renamedLabel root)) false >>= fun _ =>
          serBuiltin L x >>= fun _ => k) (M.pure ())
      | .opt _, _ => M.pure ()
      | _, _ => M.panic c!"ill-typed") >>= fun _ =>
    serNamedBy L R root fs vs
  | _, _ => M.pure ()

/-- `<p as YaSerialize>::serialize` — the generated code of
`/repo/yaserde_derive/src/ser/expand_struct.rs`, `…/ser/expand_enum.rs` inside
`implement_serializer`, or `serialize_primitives`. -/
def serTyBy (L : Lib) (env : Env) (R : SerRec) (p : Path) (v : Val) : S Unit :=
  match env p, v with
  | some (.struct d), .struct fs =>
    implSerializer d.attrs (serRootName d.attrs d.name)
      (structAttrsBy L R d.attrs (.struct fs) d.fields fs)
      (serFieldsBy L R d.attrs (.struct fs) d.fields fs)
  | some (.enum d), .enum i pl =>
    match d.variants[i]? with
    | some vd =>
      implSerializer d.attrs (serRootName d.attrs d.name) (.ok (enumAttrs d vd))
        (match vd.shape with
          | .named fds => serNamedBy L R d.attrs fds pl
          | _ => serVariantBy L R d.attrs vd pl)
    | none => M.panic c!"ill-typed"
  | some (.prim d), v => serPrim L d v
  | _, _ => M.panic c!"ill-typed"

/-- `<p as YaSerialize>::serialize_attributes` with empty arguments. -/
def attrsOfBy (L : Lib) (env : Env) (R : SerRec) (p : Path) (v : Val) : Res (List Attr × NsMap) :=
  match env p, v with
  | some (.struct d), .struct fs =>
    serializeAttributes d.attrs (structAttrsBy L R d.attrs (.struct fs) d.fields fs)
  | some (.enum d), .enum i _ =>
    match d.variants[i]? with
    | some vd => serializeAttributes d.attrs (.ok (enumAttrs d vd))
    | none => .panic c!"ill-typed"
  | some (.prim _), _ => .ok ([], [])
  | _, _ => .panic c!"ill-typed"

/-- A hand-written implementation; it may call those of other types. -/
structure SerImpl where
  ser : SerRec → Val → S Unit
  attrs : SerRec → Val → Res (List Attr × NsMap)

/-- The hand-written implementations of a program. -/
abbrev SerImpls := Path → Option SerImpl

/-- The implementations of all types, hand-written or derived; with no calls left, as `base` says. -/
def serB (L : Lib) (env : Env) (user : SerImpls) (base : SerRec) : Nat → SerRec
  | 0 => base
  | n + 1 => {
    ser := fun p v =>
      match user p with
      | some f => f.ser (serB L env user base n) v
      | none => serTyBy L env (serB L env user base n) p v
    attrs := fun p v =>
      match user p with
      | some f => f.attrs (serB L env user base n) v
      | none => attrsOfBy L env (serB L env user base n) p v }

/-- No result. -/
def SerRec.diverge : SerRec := ⟨fun _ _ => M.diverge, fun _ _ => .diverge⟩

/-- The implementations with `n` nested calls at most. -/
def serU (L : Lib) (env : Env) (user : SerImpls) : Nat → SerRec := serB L env user .diverge

/-- `to_string_with_config` — `/repo/yaserde/src/ser/mod.rs:19-36`. -/
def toStringU (L : Lib) (env : Env) (user : SerImpls) (n : Nat) (c : Config) (p : Path) (v : Val) : Res Str :=
  match (serU L env user n).ser p v (Sr.new {}) with
  | (.ok (), s) => .ok (L.emit c.emitCfg s.writer.out)
  | (.err m, _) => .err m
  | (.panic m, _) => .panic m
  | (.diverge, _) => .diverge

/-! #### The hand-written implementation of the repository's tests -/

/-- `impl YaSerialize for Day` — `/repo/yaserde/tests/serializer.rs:385-409`: the results of the writes are dropped; with
overflow checks `self.value * 2` panics, after the start tag has been written. -/
def daySer : SerImpl where
  ser _ v :=
    match v with
    | .struct [.int i] =>
      M.attempt (swrite (.start (Name.ofStr c!"DoubleDay") [] [])) >>= fun _ =>
      (if IntTy.i32.lo ≤ i * 2 ∧ i * 2 ≤ IntTy.i32.hi then
        M.attempt (swrite (.chars (showInt (i * 2)))) >>= fun _ => M.pure ()
      else M.panic c!"attempt to multiply with overflow") >>= fun _ =>
      M.attempt (swrite (.endE none)) >>= fun _ => M.pure ()
    | _ => M.panic c!"ill-typed"
  attrs _ _ := .ok ([], [])

end Yaserde
