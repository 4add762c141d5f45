import Verif.Model.DeEnum
/-
The local variable `depth` of the generated struct deserializer is an `i32`
(`/repo/yaserde_derive/src/de/expand_struct.rs:413`: `let mut depth = 0;`).  `Model/DeStruct.lean` lets it be any
integer.  Here it is an `i32`, with the two meanings of `+=` and `-=` that rustc compiles to:
a check that panics (debug builds, or `overflow-checks = true`) or wrapping around (release builds).
-/

set_option autoImplicit false

namespace Yaserde

/-- What arithmetic does when the result does not fit. -/
inductive Overflow
  | checks
  | wraps

/-- The result of `depth += 1` or `depth -= 1`, given the exact sum or difference. -/
def Overflow.i32 (ov : Overflow) (x : Int) : Res Int :=
  match ov with
  | .checks =>
    if x < IntTy.i32.lo then .panic c!"attempt to subtract with overflow"
    else if IntTy.i32.hi < x then .panic c!"attempt to add with overflow"
    else .ok x
  | .wraps => .ok ((x + 2147483648) % 4294967296 - 2147483648)

section
variable (ov : Overflow) (L : Lib) (rec : Path → D Val)

/-- One iteration of the generated loop — `/repo/yaserde_derive/src/de/expand_struct.rs:415-473`.  `depth += 1` and
`depth -= 1` (lines 448, 457) are the last statements of their arms. -/
def structStepC (fuel : Nat) (d : StructDef) (named : Str) (startDepth : Nat) (st : LoopSt) : D (LoopSt × Bool) :=
  structStep L rec fuel d named startDepth st >>= fun r =>
  M.lift (ov.i32 r.1.depth) >>= fun k =>
  M.pure ({ r.1 with depth := k }, r.2)

/-- The generated `loop` — `/repo/yaserde_derive/src/de/expand_struct.rs:415-473`. -/
def structLoopC (skipFuel : Nat) (d : StructDef) (named : Str) (startDepth : Nat) : Nat → LoopSt → D LoopSt
  | 0, _ => M.diverge
  | n + 1, st =>
    structStepC ov L rec skipFuel d named startDepth st >>= fun (st', continue_) =>
      if continue_ then structLoopC skipFuel d named startDepth n st' else M.pure st'

/-- `structBody` with this loop — `/repo/yaserde_derive/src/de/expand_struct.rs:404-481`. -/
def structBodyC (fuel : Nat) (d : StructDef) (info : Str × Option Str) (startDepth : Nat) : D Val :=
  (if startDepth = 0 then M.ofExcept (nsMatching d.attrs.namespaces d.attrs.pfx info.2 info.1)
   else M.pure ()) >>= fun _ =>
  structLoopC ov L rec fuel d info.1 startDepth fuel
    { depth := 0, slots := d.fields.map (fun f => Slot.init f.ty), writer := some {} } >>= fun st =>
  (match d.hasFlat, st.writer with
    | true, some w => M.lift (flattenFields L rec (L.emit unusedCfg w.out) d.fields st.slots)
    | _, _ => M.pure st.slots) >>= fun slots =>
  M.lift (buildFields d.name d.fields slots) >>= fun vs => M.pure (.struct vs)

/-- The generated `deserialize` of a struct — `/repo/yaserde_derive/src/de/expand_struct.rs:389-481`. -/
def structDeserC (fuel : Nat) (d : StructDef) : D Val :=
  peek >>= fun e =>
  M.get >>= fun rd =>
  structBodyC ov L rec fuel d (startInfo (d.attrs.xmlElementName d.name) e) rd.depth

end

/-- `<p as YaDeserialize>::deserialize`. -/
def deserC (ov : Overflow) (L : Lib) (env : Env) : Nat → Path → D Val
  | 0, _ => M.diverge
  | n + 1, p =>
    match env p with
    | some (.struct d) => structDeserC ov L (deserC ov L env n) n d
    | some (.enum d) => enumDeser L (deserC ov L env n) n d
    | some (.prim d) => primDeser d
    | none => M.panic c!"no such type"

/-- `yaserde::de::from_str` — `/repo/yaserde/src/de/mod.rs:9-15`. -/
def fromStrC (ov : Overflow) (L : Lib) (env : Env) (fuel : Nat) (p : Path) (s : Str) : Res Val :=
  fromStr L (deserC ov L env fuel) p s

end Yaserde
