import Verif.Model.De
import Verif.Model.Schema
/-
The deserializer generated for a struct: `/repo/yaserde_derive/src/de/expand_struct.rs`.
The macro prints one `deserialize` function per type; the model is the interpreter of that
generated code, with the type definition as a parameter.

`rec p` stands for `<p as YaDeserialize>::deserialize`.
-/

set_option autoImplicit false

namespace Yaserde

/-- `__<field>_value` — `/repo/yaserde_derive/src/de/build_default_value.rs`:
an `Option<T>` (`one`), or a `Vec<T>` (`many`) for `Vec` fields. -/
inductive Slot where
  | one (v : Option Val)
  | many (vs : List Val)

/-- `#variables` — `/repo/yaserde_derive/src/de/expand_struct.rs:22-48`. -/
def Slot.init : FTy → Slot
  | .vec _ => .many []
  | _ => .one none

/-- `= Some(value)` or `.push(value)` — `/repo/yaserde_derive/src/de/expand_struct.rs:190-199`. -/
def Slot.put (v : Val) : Slot → Slot
  | .one _ => .one (some v)
  | .many vs => .many (vs ++ [v])

/-- Element type of a field: through one `Option` or `Vec`
(`visit_sub`, `/repo/yaserde_derive/src/de/expand_struct.rs:184-199`). -/
def FTy.core : FTy → FTy
  | .opt t => t
  | .vec t => t
  | t => t

/-- Local variables of the generated function. -/
structure LoopSt where
  depth : Int
  slots : List Slot
  writer : Option EW

/-- Apply `f` to slot number `i`. -/
def LoopSt.setSlot (st : LoopSt) (i : Nat) (f : Slot → Slot) : LoopSt :=
  { st with slots := st.slots.modify i f }

/-- The `match (namespace, local_name)` arms, in field order —
`/repo/yaserde_derive/src/de/expand_struct.rs:143-201, 431-443`. -/
def findArm (root : Attrs) (ns loc : Str) (fs : List FieldDef) : Option Nat :=
  fs.findIdx? fun f =>
    !f.attrs.isAttr && !f.attrs.flatten && f.prefixNs root == ns && f.label == loc

/-- `#write_unused` — `/repo/yaserde_derive/src/de/expand_struct.rs:538-544`.
Present only if the struct has flattened fields (`hasFlat`); `as_writer_event().unwrap()`
panics on `EndDocument`. -/
def writeUnused (hasFlat : Bool) (e : REv) (w : Option EW) : Res (Option EW) :=
  if !hasFlat then .ok w
  else match w with
    | none => .ok none
    | some ew =>
      match e.asWriterEvent with
      | none => .panic c!"called `Option::unwrap()` on a `None` value"
      | some we =>
        match EW.write we ew with
        | (.ok (), ew') => .ok (some ew')
        | _ => .ok none

def writeUnusedAll (hasFlat : Bool) : List REv → Option EW → Res (Option EW)
  | [], w => .ok w
  | e :: es, w => (writeUnused hasFlat e w).bind fun w' => writeUnusedAll hasFlat es w'

section
variable (L : Lib) (rec : Path → D Val)

/-- `yaserde::de::from_str` — `/repo/yaserde/src/de/mod.rs:9-15`. -/
def fromStr (p : Path) (s : Str) : Res Val := (rec p (Rd.new (L.parse s))).1

/-- The struct visitor — `/repo/yaserde_derive/src/de/expand_struct.rs:66-93`. -/
def visitStructStr (p : Path) (v : Str) : Res Val :=
  fromStr L rec p (c!"<" ++ structId p ++ c!">" ++ v ++ c!"</" ++ structId p ++ c!">")

/-- The visitor used for an attribute of element type `t`. -/
def visitAttr (t : FTy) (v : Str) : Res Val :=
  match t with
  | .simple s => match visitS L s v with | .ok x => .ok x | .error m => .err m
  | .struct p => visitStructStr L rec p v
  | _ => .panic c!"not implemented"

/-- Run `f` over a list, stopping at the first failure. -/
def foldRes {α β : Type} (f : β → α → Res β) : β → List α → Res β
  | b, [] => .ok b
  | b, a :: as => (f b a).bind fun b' => foldRes f b' as

/-- `attributes_loading` for one field — `/repo/yaserde_derive/src/de/expand_struct.rs:226-316`. -/
def loadAttrField (f : FieldDef) (attrs : List Attr) (slot : Slot) : Res Slot :=
  foldRes (fun slot (a : Attr) =>
    if a.name.loc = f.label then
      match f.ty with
      | .vec t =>
        foldRes (fun slot w => (visitAttr L rec t w).bind fun v => .ok (slot.put v))
          slot (splitWhitespace a.value)
      | t => (visitAttr L rec t.core a.value).bind fun v => .ok (slot.put v)
    else .ok slot) slot attrs

/-- `attributes_loading` — all attribute fields, in declaration order. -/
def loadAttrs : List FieldDef → List Attr → List Slot → Res (List Slot)
  | f :: fs, attrs, s :: ss =>
    (if f.attrs.isAttr then loadAttrField L rec f attrs s else .ok s).bind fun s' =>
      (loadAttrs fs attrs ss).bind fun ss' => .ok (s' :: ss')
  | _, _, ss => .ok ss

/-- `set_text` — `/repo/yaserde_derive/src/de/expand_struct.rs:318-346`
(other `text` field types do not type-check in the generated Rust). -/
def setText : List FieldDef → Str → List Slot → List Slot
  | f :: fs, t, s :: ss =>
    (if f.attrs.text then
      match f.ty with
      | .simple .string => .one (some (.str t))
      | .opt (.simple .string) => if t.isEmpty then .one none else .one (some (.str t))
      | _ => s
     else s) :: setText fs t ss
  | _, _, ss => ss

/-- `build_call_visitor` — `/repo/yaserde_derive/src/de/expand_struct.rs:484-524`:
the inner closure. -/
def simpleInner (f : FieldDef) (t : STy) : D Val :=
  M.attempt peek >>= fun r =>
    match r with
    | .ok (.chars s) =>
      nextEvent >>= fun _ =>
        match visitS L t s with
        | .ok v => M.pure v
        | .error m => M.throw m
    | _ => M.throw (c!"unable to parse content for " ++ f.label)

/-- `build_call_visitor` — `/repo/yaserde_derive/src/de/expand_struct.rs:484-524`:
a failed read is silently ignored. -/
def callSimple (root : Attrs) (f : FieldDef) (i : Nat) (t : STy) (name : Name) (st : LoopSt) :
    D LoopSt :=
  M.ofExcept (nsMatching root.namespaces f.attrs.pfx name.ns name.loc) >>= fun _ =>
  M.attempt (readInnerValue (simpleInner L f t)) >>= fun r =>
    match r with
    | .ok v => M.pure (st.setSlot i (Slot.put v))
    | .error _ => M.pure st

/-- `visit_struct` — `/repo/yaserde_derive/src/de/expand_struct.rs:154-170`. -/
def callStruct (i : Nat) (p : Path) (st : LoopSt) : D LoopSt :=
  (if st.depth = 0 then M.attempt nextEvent >>= fun _ => M.pure () else M.pure ()) >>= fun _ =>
  M.attempt peek >>= fun r =>
    match r with
    | .ok (.start _ _ _) =>
      rec p >>= fun v => nextEvent >>= fun _ => M.pure (st.setSlot i (Slot.put v))
    | _ => M.pure st

/-- One `call_visitors` arm — `/repo/yaserde_derive/src/de/expand_struct.rs:184-199`. -/
def callVisitor (root : Attrs) (f : FieldDef) (i : Nat) (name : Name) (st : LoopSt) : D LoopSt :=
  match f.ty.core with
  | .struct p => callStruct rec i p st
  | .simple t => callSimple L root f i t name st
  | _ => M.panic c!"not implemented"

/-- Whether the struct has flattened fields (`call_flatten_visitors` not empty),
`/repo/yaserde_derive/src/de/expand_struct.rs:203-207, 380`. -/
def StructDef.hasFlat (d : StructDef) : Bool :=
  d.fields.any fun f => !f.attrs.isAttr && f.attrs.flatten

/-- The `StartElement` arm of the generated loop —
`/repo/yaserde_derive/src/de/expand_struct.rs:422-449`. -/
def structStart (fuel : Nat) (d : StructDef) (st : LoopSt) (name : Name)
    (attrs : List Attr) : D LoopSt :=
  let ns := name.ns.getD []
  (if st.depth = 0 ∧ name.loc = d.attrs.xmlElementName d.name ∧ ns = d.attrs.rootNamespace then
    nextEvent >>= fun e' =>
    M.lift (writeUnused d.hasFlat e' st.writer) >>= fun w => M.pure { st with writer := w }
  else
    match findArm d.attrs ns name.loc d.fields with
    | some i =>
      match d.fields[i]? with
      | some f => callVisitor L rec d.attrs f i name st
      | none => M.pure st
    | none =>
      nextEvent >>= fun e' =>
      M.lift (writeUnused d.hasFlat e' st.writer) >>= fun w =>
      if st.depth > 0 then
        skipElement fuel >>= fun evs =>
        M.lift (writeUnusedAll d.hasFlat evs w) >>= fun w' => M.pure { st with writer := w' }
      else M.pure { st with writer := w }) >>= fun st' =>
  (if st'.depth = 0 then
    M.lift (loadAttrs L rec d.fields attrs st'.slots) >>= fun ss => M.pure { st' with slots := ss }
  else M.pure st') >>= fun st'' =>
  M.pure { st'' with depth := st''.depth + 1 }

/-- One iteration of the generated loop — `/repo/yaserde_derive/src/de/expand_struct.rs:415-473`.
The result says whether the loop continues (`true`) or breaks (`false`). -/
def structStep (fuel : Nat) (d : StructDef) (named : Str) (startDepth : Nat) (st : LoopSt) :
    D (LoopSt × Bool) :=
  peek >>= fun e =>
    match e with
    | .start name attrs _ =>
      structStart L rec fuel d st name attrs >>= fun st' => M.pure (st', true)
    | .endE name =>
      M.get >>= fun rd =>
      if name.loc = named ∧ rd.depth = startDepth + 1 then
        M.lift (writeUnused d.hasFlat e st.writer) >>= fun w =>
          M.pure ({ st with writer := w }, false)
      else
        nextEvent >>= fun e' =>
        M.lift (writeUnused d.hasFlat e' st.writer) >>= fun w =>
          M.pure ({ st with writer := w, depth := st.depth - 1 }, true)
    | .endDocument =>
      if d.attrs.flatten then M.pure (st, false) else M.pure (st, true)
    | .chars t =>
      nextEvent >>= fun e' =>
      M.lift (writeUnused d.hasFlat e' st.writer) >>= fun w =>
        M.pure ({ st with writer := w, slots := setText d.fields t st.slots }, true)
    | e => M.throw (c!"unknown event " ++ L.dbgEv e)

/-- The generated `loop` — `/repo/yaserde_derive/src/de/expand_struct.rs:415-473`. -/
def structLoop (skipFuel : Nat) (d : StructDef) (named : Str) (startDepth : Nat) :
    Nat → LoopSt → D LoopSt
  | 0, _ => M.diverge
  | n + 1, st =>
    structStep L rec skipFuel d named startDepth st >>= fun (st', continue_) =>
      if continue_ then structLoop skipFuel d named startDepth n st' else M.pure st'

/-- `call_flatten_visitors` for one field —
`/repo/yaserde_derive/src/de/expand_struct.rs:203-224`. -/
def flattenField (unused : Str) (f : FieldDef) (s : Slot) : Res Slot :=
  if !f.attrs.isAttr && f.attrs.flatten then
    match f.ty with
    | .struct p => (fromStr L rec p unused).bind fun v => .ok (Slot.one (some v))
    | .opt (.struct p) =>
      match fromStr L rec p unused with
      | .ok v => .ok (Slot.one (some v))
      | .err _ => .ok (Slot.one none)
      | .panic m => .panic m
      | .diverge => .diverge
    | _ => .panic c!"not implemented"
  else .ok s

/-- `call_flatten_visitors` — `/repo/yaserde_derive/src/de/expand_struct.rs:203-224`. -/
def flattenFields (unused : Str) : List FieldDef → List Slot → Res (List Slot)
  | f :: fs, s :: ss =>
    (flattenField L rec unused f s).bind fun s' =>
      (flattenFields unused fs ss).bind fun ss' => .ok (s' :: ss')
  | _, ss => .ok ss

/-- `struct_builder` for one field — `/repo/yaserde_derive/src/de/expand_struct.rs:348-378`. -/
def buildField (name : Str) (f : FieldDef) (s : Slot) : Res Val :=
  match f.ty, s with
  | .vec _, .many vs => .ok (.vec vs)
  | .opt _, .one none => .ok Val.none
  | .opt _, .one (some v) => .ok (Val.some v)
  | _, .one (some v) => .ok v
  | _, .one none =>
    match f.dflt with
    | some d => .ok d.val
    | none => .err (f.ident ++ c!" is a required field of " ++ name)
  | _, .many _ => .panic c!"ill-typed"

/-- `struct_builder` — `/repo/yaserde_derive/src/de/expand_struct.rs:348-378`. -/
def buildFields (name : Str) : List FieldDef → List Slot → Res (List Val)
  | f :: fs, s :: ss =>
    (buildField name f s).bind fun v =>
      (buildFields name fs ss).bind fun vs => .ok (v :: vs)
  | _, _ => .ok []

/-- The default emitter configuration `EventWriter::new` uses. -/
def unusedCfg : EmitCfg := {}

/-- `(named_element, struct_namespace)` —
`/repo/yaserde_derive/src/de/expand_struct.rs:396-402`, `de/expand_enum.rs:49-54`. -/
def startInfo (own : Str) : REv → Str × Option Str
  | .start name _ _ => (name.loc, name.ns)
  | _ => (own, none)

/-- The generated `deserialize` of a struct after its first two statements —
`/repo/yaserde_derive/src/de/expand_struct.rs:404-481`. -/
def structBody (fuel : Nat) (d : StructDef) (info : Str × Option Str) (startDepth : Nat) : D Val :=
  (if startDepth = 0 then M.ofExcept (nsMatching d.attrs.namespaces d.attrs.pfx info.2 info.1)
   else M.pure ()) >>= fun _ =>
  structLoop L rec fuel d info.1 startDepth fuel
    { depth := 0, slots := d.fields.map (fun f => Slot.init f.ty), writer := some {} } >>= fun st =>
  (match d.hasFlat, st.writer with
    | true, some w => M.lift (flattenFields L rec (L.emit unusedCfg w.out) d.fields st.slots)
    | _, _ => M.pure st.slots) >>= fun slots =>
  M.lift (buildFields d.name d.fields slots) >>= fun vs => M.pure (.struct vs)

/-- The generated `deserialize` of a struct —
`/repo/yaserde_derive/src/de/expand_struct.rs:389-481`. -/
def structDeser (fuel : Nat) (d : StructDef) : D Val :=
  peek >>= fun e =>
  M.get >>= fun rd =>
  structBody L rec fuel d (startInfo (d.attrs.xmlElementName d.name) e) rd.depth

end

end Yaserde
