import Verif.Model.DeEnum
import Verif.Model.UserSer
/-
The generated `deserialize` functions call each other, and each call takes a frame of the program's stack.  In `deser` the step budget
bounds the nesting of calls too; here the nesting has a bound of its own.  The same for the generated `serialize` functions.
-/

set_option autoImplicit false

namespace Yaserde

/-- `<p as YaDeserialize>::deserialize` on a stack with room for `k` nested calls of `deserialize`
(the calls: `/repo/yaserde_derive/src/de/expand_struct.rs:89, 163, 213, 217`, `/repo/yaserde_derive/src/de/expand_enum.rs:268`); `fuel` bounds
the iterations of each loop.  A program that runs out of stack is killed, which is written as a panic.  (Simplifications: all
frames have the same size, and what the other functions need — those of the runtime and of xml-rs, and the loops, which do not call
themselves — is left out.) -/
def deserF (L : Lib) (env : Env) (fuel : Nat) : Nat → Path → D Val
  | 0, _ => M.panic c!"stack overflow"
  | k + 1, p =>
    match env p with
    | some (.struct d) => structDeser L (deserF L env fuel k) fuel d
    | some (.enum d) => enumDeser L (deserF L env fuel k) fuel d
    | some (.prim d) => primDeser d
    | none => M.panic c!"no such type"

/-- `yaserde::de::from_str` — `/repo/yaserde/src/de/mod.rs:9-15` — on such a stack. -/
def fromStrF (L : Lib) (env : Env) (k fuel : Nat) (p : Path) (s : Str) : Res Val :=
  fromStr L (deserF L env fuel k) p s

/-- A stack without room for another call. -/
def SerRec.overflow : SerRec := ⟨fun _ _ => M.panic c!"stack overflow", fun _ _ => .panic c!"stack overflow"⟩

/-- The generated `serialize` and `serialize_attributes` on a stack with room for `k` nested calls of them
(the calls: `/repo/yaserde_derive/src/ser/expand_struct.rs:99, 113, 127, 235, 245, 266, 311, 323, 333, 347`,
`/repo/yaserde_derive/src/ser/expand_enum.rs:198, 211, 261, 303`); the same simplifications. -/
def serF (L : Lib) (env : Env) : Nat → SerRec := serB L env (fun _ => none) .overflow

/-- `to_string_with_config` — `/repo/yaserde/src/ser/mod.rs:19-36` — on such a stack. -/
def toStringF (L : Lib) (env : Env) (k : Nat) (c : Config) (p : Path) (v : Val) : Res Str :=
  match (serF L env k).ser p v (Sr.new {}) with
  | (.ok (), s) => .ok (L.emit c.emitCfg s.writer.out)
  | (.err m, _) => .err m
  | (.panic m, _) => .panic m
  | (.diverge, _) => .diverge

end Yaserde
