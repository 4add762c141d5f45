/-
Basic vocabulary of the model: strings, results, the state-and-error monad.

* `/repo` code uses `String`/`&str`; the model uses `List Char` (a Rust `str` is exactly a
  sequence of Unicode scalar values, and Lean's `Char` is exactly a Unicode scalar value).
* `/repo` code returns `Result<_, String>`, may panic, and contains unbounded `loop`s.
  All three are explicit data in `Res`.
-/

set_option autoImplicit false

namespace Yaserde

/-- Rust `String` / `&str`, as a sequence of Unicode scalar values. -/
abbrev Str := List Char

open Lean in
/-- `c!"abc"` is the list of characters of the literal (so that the kernel computes with it). -/
macro:max "c!" s:str : term => do
  let cs := s.getString.toList
  let body : TSyntax `term ← cs.foldrM (init := ← `(([] : List Char))) fun c acc =>
    `(List.cons $(Syntax.mkCharLit c) $acc)
  return body

/-- Outcome of running a piece of Rust code that returns `Result<α, String>`:
`ok`/`err` are the two `Result` constructors, `panic` is a Rust panic, and `diverge`
means that the step budget given to the model was exhausted (a code path that never
returns is one whose outcome is `diverge` for *every* budget). -/
inductive Res (α : Type) where
  | ok (a : α)
  | err (msg : Str)
  | panic (msg : Str)
  | diverge
  deriving Repr, DecidableEq

/-- A Rust function taking `&mut σ` and returning `Result<α, String>`:
the new state is returned in every case, because Rust keeps the mutations made before
an `Err` is returned. -/
def M (σ α : Type) : Type := σ → Res α × σ

namespace M
variable {σ α β : Type}

/-- `Ok(a)` -/
def pure (a : α) : M σ α := fun s => (.ok a, s)

/-- `let x = e?; …` : errors, panics and divergence propagate. -/
def bind (x : M σ α) (f : α → M σ β) : M σ β := fun s =>
  match x s with
  | (.ok a, s') => f a s'
  | (.err m, s') => (.err m, s')
  | (.panic m, s') => (.panic m, s')
  | (.diverge, s') => (.diverge, s')

/-- `return Err(m)` -/
def throw (m : Str) : M σ α := fun s => (.err m, s)

/-- Rust `panic!` -/
def panic (m : Str) : M σ α := fun s => (.panic m, s)

/-- Step budget exhausted. -/
def diverge : M σ α := fun s => (.diverge, s)

def get : M σ σ := fun s => (.ok s, s)
def set (s : σ) : M σ Unit := fun _ => (.ok (), s)
def modify (f : σ → σ) : M σ Unit := fun s => (.ok (), f s)

/-- Keep the `Result` as a value instead of propagating it (`let r = e;` without `?`).
Panics and divergence still propagate. -/
def attempt (x : M σ α) : M σ (Except Str α) := fun s =>
  match x s with
  | (.ok a, s') => (.ok (.ok a), s')
  | (.err m, s') => (.ok (.error m), s')
  | (.panic m, s') => (.panic m, s')
  | (.diverge, s') => (.diverge, s')

/-- Run a computation that does not touch the current state. -/
def lift (r : Res α) : M σ α := fun s => (r, s)

/-- Propagate an `Except` with `?`. -/
def ofExcept (e : Except Str α) : M σ α := fun s =>
  match e with
  | .ok a => (.ok a, s)
  | .error m => (.err m, s)

instance : Monad (M σ) where
  pure := M.pure
  bind := M.bind

end M

/-- Sequential composition of pure `Res` computations. -/
def Res.bind {α β : Type} (x : Res α) (f : α → Res β) : Res β :=
  match x with
  | .ok a => f a
  | .err m => .err m
  | .panic m => .panic m
  | .diverge => .diverge

end Yaserde
