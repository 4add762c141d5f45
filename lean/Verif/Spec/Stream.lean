import Verif.Model.DeEnum
/-
Specification vocabulary for the deserialization side: documents as event lists and trees,
and what it means for `from_str` to return something.  Independent of how the model works.
-/

set_option autoImplicit false

namespace Yaserde

/-- Number of start tags in a list of events. -/
def opens (es : List REv) : Nat := es.countP fun e => match e with | .start _ _ _ => true | _ => false

/-- Number of end tags in a list of events. -/
def closes (es : List REv) : Nat := es.countP fun e => match e with | .endE _ => true | _ => false

/-- Comments, processing instructions, XML declaration. -/
def isMisc : REv → Bool
  | .comment _ => true
  | .pi _ _ => true
  | .startDocument => true
  | _ => false

/-- The document's events without comments, processing instructions and declaration. -/
def content (es : List REv) : List REv := es.filter fun e => !isMisc e

/-- No prefix of the events closes more elements than it opens (guaranteed by an XML parser). -/
def WellNested (es : List REv) : Prop := ∀ k, closes (es.take k) ≤ opens (es.take k)

/-- What the `i`-th call of `next_event` (counting from 0) on a document has to return. -/
def delivered (src : Src) (i : Nat) : Res REv :=
  match (content src.evs)[i]? with
  | some e => .ok e
  | none =>
    match src.fin with
    | none => .ok .endDocument
    | some m => .err m

/-- XML content as a tree. -/
inductive Node where
  | elem (name : Name) (attrs : List Attr) (nss : NsMap) (kids : List Node)
  | text (s : Str)
  deriving Repr

mutual
  /-- The events an XML parser delivers for a node. -/
  def Node.events : Node → List REv
    | .elem n as m ks => .start n as m :: (Node.eventsL ks ++ [.endE n])
    | .text s => [.chars s]
  def Node.eventsL : List Node → List REv
    | [] => []
    | k :: ks => Node.events k ++ Node.eventsL ks
end

/-- `from_str::<p>(s)` returns `r` (after finitely many steps). -/
def Returns (L : Lib) (env : Env) (p : Path) (s : Str) (r : Res Val) : Prop :=
  r ≠ .diverge ∧ ∃ n, deFromStr L env n p s = r

/-- `<p as YaDeserialize>::deserialize` on a fresh `Deserializer` over the events `src`
returns `r`. -/
def Reads (L : Lib) (env : Env) (p : Path) (src : Src) (r : Res Val) : Prop :=
  r ≠ .diverge ∧ ∃ n, (deser L env n p (Rd.new src)).1 = r

/-- … never returns. -/
def NeverReturns (L : Lib) (env : Env) (p : Path) (src : Src) : Prop :=
  ∀ n, (deser L env n p (Rd.new src)).1 = .diverge

/-- A client of the `Deserializer` API: a sequence of calls. -/
inductive Call where
  | peek
  | next
  deriving DecidableEq

/-- What the client sees: for each call which call it was, its result, and `depth()`
afterwards.  An `Err` does not stop the client. -/
def observe : List Call → Rd → List (Call × Res REv × Nat)
  | [], _ => []
  | c :: cs, rd =>
    let (r, rd') := match c with
      | .peek => Yaserde.peek rd
      | .next => nextEvent rd
    (c, r, rd'.depth) :: observe cs rd'

/-- The reader after a sequence of calls. -/
def after : List Call → Rd → Rd
  | [], rd => rd
  | .peek :: cs, rd => after cs (Yaserde.peek rd).2
  | .next :: cs, rd => after cs (nextEvent rd).2

end Yaserde
