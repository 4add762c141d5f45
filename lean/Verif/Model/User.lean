import Verif.Model.DeEnum
/-
Programs in which some types implement `YaDeserialize` by hand
(`/repo/yaserde/src/lib.rs:98-101` is the trait; `/repo/yaserde/tests/deserializer.rs:246-269, 807-831` are such
implementations).  The generated code calls `<T as YaDeserialize>::deserialize(reader)` whatever `T` is, so a
hand-written implementation is any function of the reader; it may call those of other types (`rec`).
-/

set_option autoImplicit false

namespace Yaserde

/-- The hand-written implementations of a program. -/
abbrev Impls := Path → Option ((Path → D Val) → D Val)

/-- `<p as YaDeserialize>::deserialize`, hand-written or derived. -/
def deserU (L : Lib) (env : Env) (user : Impls) : Nat → Path → D Val
  | 0, _ => M.diverge
  | n + 1, p =>
    match user p with
    | some f => f (deserU L env user n)
    | none =>
      match env p with
      | some (.struct d) => structDeser L (deserU L env user n) n d
      | some (.enum d) => enumDeser L (deserU L env user n) n d
      | some (.prim d) => primDeser d
      | none => M.panic c!"no such type"

/-- `from_str` — `/repo/yaserde/src/de/mod.rs:9-15`. -/
def fromStrU (L : Lib) (env : Env) (user : Impls) (n : Nat) (p : Path) (s : Str) : Res Val :=
  fromStr L (deserU L env user n) p s

/-! #### The hand-written implementations of the repository's tests -/

/-- `impl YaDeserialize for Day` — `/repo/yaserde/tests/deserializer.rs:807-831`.  (Simplification: the message about a
wrong name shows the local name only.) -/
def dayImpl : D Val :=
  peek >>= fun e =>
    match e with
    | .start name _ _ =>
      if name.loc = c!"Day" then
        M.attempt nextEvent >>= fun _ =>
        peek >>= fun e =>
          match e with
          | .chars t =>
            match parseInt .i32 t with
            | .ok v =>
              if IntTy.i32.lo ≤ 2 * v ∧ 2 * v ≤ IntTy.i32.hi then M.pure (.struct [.int (2 * v)])
              else M.panic c!"attempt to multiply with overflow"
            | .error _ => M.panic c!"called `Result::unwrap()` on an `Err` value"
          | _ => M.throw c!"Characters missing"
      else M.throw (c!"Wrong StartElement name: " ++ name.loc ++ c!", expected: Day")
    | _ => M.throw c!"StartElement missing"

/-- `text_content.split(' ')`. -/
def splitSpace : Str → List Str
  | [] => [[]]
  | c :: cs =>
    if c = ' ' then [] :: splitSpace cs
    else
      match splitSpace cs with
      | w :: ws => (c :: w) :: ws
      | [] => [[c]]

/-- The `loop` of `impl YaDeserialize for Attributes` — `/repo/yaserde/tests/deserializer.rs:246-269`. -/
def attributesLoop : Nat → D Val
  | 0 => M.diverge
  | n + 1 =>
    nextEvent >>= fun e =>
      match e with
      | .start _ _ _ => attributesLoop n
      | .chars t => M.pure (.struct [.vec ((splitSpace t).map Val.str)])
      | _ => M.throw c!"Unable to parse attribute"

/-- `impl YaDeserialize for Attributes`: every turn of the loop takes an event, so this budget is enough. -/
def attributesImpl : D Val := fun rd => attributesLoop (rd.reader.evs.length + 2) rd

end Yaserde
