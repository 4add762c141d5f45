import Verif.Model.DeEnum
import Verif.Model.Ser
import Verif.Model.XmlText
/-
Running the repository's own test documents through the model, as a check that the model
says what the code does.  These are tests of the *model*, not proofs about the code: every
`example` below is one assertion of `/repo/yaserde/tests`, evaluated by the kernel.
-/

set_option autoImplicit false

namespace Yaserde

mutual
def Val.beq : Val → Val → Bool
  | .str a, .str b => a == b
  | .bool a, .bool b => a == b
  | .int a, .int b => a == b
  | .f32 a, .f32 b => a == b
  | .f64 a, .f64 b => a == b
  | .none, .none => true
  | .some a, .some b => Val.beq a b
  | .vec a, .vec b => Val.beqL a b
  | .struct a, .struct b => Val.beqL a b
  | .enum i a, .enum j b => i == j && Val.beqL a b
  | _, _ => false
def Val.beqL : List Val → List Val → Bool
  | [], [] => true
  | a :: as, b :: bs => Val.beq a b && Val.beqL as bs
  | _, _ => false
end

namespace Tests

/-- The concrete XML library; float formatting is a stand-in (decimal bit patterns). -/
def lib : Lib where
  parse := XmlText.parse
  emit := XmlText.emit
  showF32 := showNat
  showF64 := showNat
  parseF32 s := (parseInt .u64 s).map Int.toNat
  parseF64 s := (parseInt .u64 s).map Int.toNat
  dbgEv _ := c!"<event>"
  dbgStr s := c!"\"" ++ s ++ c!"\""

/-- A program given by its type definitions. -/
def envOf (l : List (Path × TypeDef)) : Env := fun p => (l.find? fun e => e.1 == p).map Prod.snd

/-- `from_str` on a test document. -/
def de (env : Env) (p : Str) (s : Str) : Res Val := deFromStr lib env 60 [p] s

/-- `assert_eq!(from_str(s), Ok(v))` -/
def deOk (env : Env) (p : Str) (s : Str) (v : Val) : Bool :=
  match de env p s with | .ok x => x.beq v | _ => false

def deErr (env : Env) (p : Str) (s : Str) (m : Str) : Bool :=
  match de env p s with | .err x => x == m | _ => false

def dropNl : Str → List Str → Str → List Str
  | acc, out, [] => out ++ [acc]
  | acc, out, c :: cs => if c = '\n' then dropNl [] (out ++ [acc]) cs else dropNl (acc ++ [c]) out cs

/-- `serialize_and_validate!` — `/repo/yaserde/src/lib.rs:326-337`. -/
def serOk (env : Env) (p : Str) (v : Val) (content : Str) : Bool :=
  let expected := ((dropNl [] [] (c!"<?xml version=\"1.0\" encoding=\"utf-8\"?>" ++ content)).map XmlText.trim).flatten
  match toString lib env [p] v with | .ok s => s == expected | _ => false

/-- both directions -/
def both (env : Env) (p : Str) (v : Val) (content : Str) : Bool :=
  serOk env p v content && deOk env p content v

def S : FTy := .simple .string
def I (t : IntTy) : FTy := .simple (.int t)
def B : FTy := .simple .bool
def F (ident : Str) (ty : FTy) (attrs : Attrs := {}) : FieldDef := { ident, ty, attrs }
def T (p : Str) : FTy := .struct [p]
def attr : Attrs := { isAttr := true }

end Tests
end Yaserde
