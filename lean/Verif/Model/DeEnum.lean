import Verif.Model.DeStruct
/-
The deserializer generated for an enum (`/repo/yaserde_derive/src/de/expand_enum.rs`), the
one for primitive newtypes (`/repo/yaserde/src/primitives.rs:36-51`), and the recursive
knot `deser`.
-/

set_option autoImplicit false

namespace Yaserde

section
variable (L : Lib) (rec : Path → D Val)

/-- The `match` arms over variants — `/repo/yaserde_derive/src/de/expand_enum.rs:114-155`:
unit and one-field tuple variants, first match wins; named-field variants have no arm. -/
def findVariant (key : Str) (vs : List VariantDef) : Option Nat :=
  vs.findIdx? fun v =>
    (match v.shape with | .named _ => false | _ => true) && v.attrs.xmlElementName v.ident == key

/-- The generated simple-type visitor of a variant: `Ok(T::from_str(v).unwrap())` —
`/repo/yaserde_derive/src/de/expand_enum.rs:183-192`.  (Simplification: the panic message
omits the `Debug` rendering of the error.) -/
def visitUnwrap (t : STy) (s : Str) : D Val :=
  match parseS L t s with
  | .ok v => M.pure v
  | .error _ => M.panic c!"called `Result::unwrap()` on an `Err` value"

/-- The closure of `call_simple_type_visitor` —
`/repo/yaserde_derive/src/de/expand_enum.rs:244-258`. -/
def variantInner (t : STy) : D Val :=
  peek >>= fun e =>
    match e with
    | .endE _ => visitUnwrap L t []
    | _ =>
      M.attempt nextEvent >>= fun r =>
        match r with
        | .ok (.chars s) => visitUnwrap L t s
        | _ => M.throw c!"unable to parse content for field_0"

/-- `set_val` / `set_opt` / `set_vec` —
`/repo/yaserde_derive/src/de/expand_enum.rs:280-300`; `i` is the variant's index. -/
def setVariant (i : Nat) (t : FTy) (v : Val) (cur : Option Val) : Except Str (Option Val) :=
  match t with
  | .opt _ => .ok (some (.enum i [.some v]))
  | .vec _ =>
    match cur with
    | some (.enum j [.vec vs]) =>
      if j = i then .ok (some (.enum i [.vec (vs ++ [v])]))
      else .error c!"Got sequence of different types"
    | some _ => .error c!"Got sequence of different types"
    | none => .ok (some (.enum i [.vec [v]]))
  | _ => .ok (some (.enum i [v]))

/-- The body of one variant arm; the Boolean is `false` when the arm breaks out of the
loop — `/repo/yaserde_derive/src/de/expand_enum.rs:122-152, 223-317`. -/
def variantArm (i : Nat) (v : VariantDef) (cur : Option Val) : D (Option Val × Bool) :=
  match v.shape with
  | .unit => M.pure (some (.enum i []), false)
  | .named _ => M.pure (cur, true)
  | .newtype t =>
    match t.core with
    | .struct p =>
      rec p >>= fun x =>
      M.ofExcept (setVariant i t x cur) >>= fun cur' =>
      M.attempt nextEvent >>= fun _ => M.pure (cur', true)
    | .simple s =>
      M.attempt (readInnerValue (variantInner L s)) >>= fun r =>
        match r with
        | .ok x => M.ofExcept (setVariant i t x cur) >>= fun cur' => M.pure (cur', true)
        | .error _ => M.pure (cur, true)
    | _ => M.panic c!"Not a simple type"

/-- Run the arm selected by `key`, or `dflt` if there is none. -/
def enumMatch (d : EnumDef) (key : Str) (cur : Option Val) (dflt : D (Option Val × Bool)) :
    D (Option Val × Bool) :=
  match findVariant key d.variants with
  | some i =>
    match d.variants[i]? with
    | some v => variantArm L rec i v cur
    | none => dflt
  | none => dflt

/-- The `element_name` expression — `/repo/yaserde_derive/src/de/expand_enum.rs:29-41`. -/
def enumKey (d : EnumDef) (e : REv) (name : Name) (attrs : List Attr) : Except Str Str :=
  match d.attrs.tag with
  | some tag =>
    match attrs.find? (fun a => a.name.loc == tag) with
    | some a => .ok a.value
    | none => .error (c!"Expected enum tagged with " ++ tag ++ c!", found " ++ L.dbgEv e)
  | none => .ok name.loc

/-- One iteration of the generated loop — `/repo/yaserde_derive/src/de/expand_enum.rs:64-105`. -/
def enumStep (d : EnumDef) (named : Str) (startDepth : Nat) (cur : Option Val) :
    D (Option Val × Bool) :=
  peek >>= fun e =>
    match e with
    | .start name attrs _ =>
      M.ofExcept (enumKey L d e name attrs) >>= fun key =>
      enumMatch L rec d key cur (M.attempt nextEvent >>= fun _ => M.pure (cur, true))
        >>= fun (cur', cont) =>
      if cont then
        peek >>= fun e' =>
          match e' with
          | .chars content => enumMatch L rec d content cur' (M.pure (cur', true))
          | _ => M.pure (cur', true)
      else M.pure (cur', false)
    | .endE name =>
      M.get >>= fun rd =>
      if name.loc = named ∧ rd.depth = startDepth + 1 then M.pure (cur, false)
      else M.attempt nextEvent >>= fun _ => M.pure (cur, true)
    | .chars _ => M.attempt nextEvent >>= fun _ => M.pure (cur, true)
    | .endDocument =>
      if d.attrs.flatten then M.pure (cur, false)
      else M.throw c!"End of document, missing some content ?"
    | e => M.throw (c!"unknown event " ++ L.dbgEv e)

/-- The generated `loop` — `/repo/yaserde_derive/src/de/expand_enum.rs:64-105`. -/
def enumLoop (d : EnumDef) (named : Str) (startDepth : Nat) : Nat → Option Val → D (Option Val)
  | 0, _ => M.diverge
  | n + 1, cur =>
    enumStep L rec d named startDepth cur >>= fun (cur', cont) =>
      if cont then enumLoop d named startDepth n cur' else M.pure cur'

/-- The generated `deserialize` of an enum after its first two statements —
`/repo/yaserde_derive/src/de/expand_enum.rs:59-108`. -/
def enumBody (fuel : Nat) (d : EnumDef) (info : Str × Option Str) (startDepth : Nat) : D Val :=
  M.ofExcept (nsMatching d.attrs.namespaces d.attrs.pfx info.2 info.1) >>= fun _ =>
  enumLoop L rec d info.1 startDepth fuel none >>= fun cur =>
  M.pure (cur.getD d.dflt)

/-- The generated `deserialize` of an enum —
`/repo/yaserde_derive/src/de/expand_enum.rs:43-111`. -/
def enumDeser (fuel : Nat) (d : EnumDef) : D Val :=
  peek >>= fun e =>
  M.get >>= fun rd =>
  enumBody L rec fuel d (startInfo (d.attrs.xmlElementName d.name) e) rd.depth

end

/-- `deserialize_primitives` — `/repo/yaserde/src/primitives.rs:36-51`. -/
def primDeser (d : PrimDef) : D Val :=
  M.attempt peek >>= fun r =>
    match r with
    | .ok (.start _ _ _) =>
      nextEvent >>= fun _ =>
      M.attempt peek >>= fun r =>
        match r with
        | .ok (.chars t) => M.ofExcept (d.fromStr t)
        | _ => M.ofExcept (d.fromStr [])
    | _ => M.throw c!"Start element not found"

/-- `<p as YaDeserialize>::deserialize`, with a step budget: `fuel` bounds the nesting of
calls, the iterations of each loop and of each `skip_element`. -/
def deser (L : Lib) (env : Env) : Nat → Path → D Val
  | 0, _ => M.diverge
  | n + 1, p =>
    match env p with
    | some (.struct d) => structDeser L (deser L env n) n d
    | some (.enum d) => enumDeser L (deser L env n) n d
    | some (.prim d) => primDeser d
    | none => M.panic c!"no such type"

/-- `yaserde::de::from_str` — `/repo/yaserde/src/de/mod.rs:9-15`. -/
def deFromStr (L : Lib) (env : Env) (fuel : Nat) (p : Path) (s : Str) : Res Val :=
  fromStr L (deser L env fuel) p s

end Yaserde
