import Verif.Model.Xml
/-
`/repo/yaserde/src/de/mod.rs`: the `Deserializer`.
-/

set_option autoImplicit false

namespace Yaserde

/-- `struct Deserializer<R>` — `/repo/yaserde/src/de/mod.rs:17-21`. -/
structure Rd where
  depth : Nat
  reader : Src
  peeked : Option REv
  deriving Repr, DecidableEq

/-- Functions taking `&mut Deserializer<R>`. -/
abbrev D (α : Type) := M Rd α

/-- `Deserializer::new` — `/repo/yaserde/src/de/mod.rs:24-30`. -/
def Rd.new (s : Src) : Rd := { depth := 0, reader := s, peeked := none }

/-- The events `inner_next` drops — `/repo/yaserde/src/de/mod.rs:60-62`. -/
def REv.skipped : REv → Bool
  | .startDocument => true
  | .pi _ _ => true
  | .comment _ => true
  | _ => false

/-- The `loop` of `Deserializer::inner_next` — `/repo/yaserde/src/de/mod.rs:55-71`,
as a recursion over the events the `EventReader` still has to deliver. -/
def innerNextL : List REv → Option Str → Res REv × Src
  | e :: es, fin => if e.skipped then innerNextL es fin else (.ok e, ⟨es, fin⟩)
  | [], none => (.ok .endDocument, ⟨[], none⟩)
  | [], some m => (.err m, ⟨[], some m⟩)

/-- `Deserializer::inner_next` — `/repo/yaserde/src/de/mod.rs:55-71`. -/
def innerNext : D REv := fun rd =>
  let (r, s) := innerNextL rd.reader.evs rd.reader.fin
  (r, { rd with reader := s })

/-- `Deserializer::peek` — `/repo/yaserde/src/de/mod.rs:43-53`. -/
def peek : D REv := fun rd =>
  match rd.peeked with
  | some e => (.ok e, rd)
  | none =>
    match innerNext rd with
    | (.ok e, rd') => (.ok e, { rd' with peeked := some e })
    | (.err m, rd') => (.err m, rd')
    | (.panic m, rd') => (.panic m, rd')
    | (.diverge, rd') => (.diverge, rd')

/-- The depth bookkeeping of `next_event` — `/repo/yaserde/src/de/mod.rs:79-87`.
`depth` is a `usize`; decrementing 0 overflows (a panic in debug builds). -/
def trackDepth (e : REv) : D REv := fun rd =>
  match e with
  | .start _ _ _ => (.ok e, { rd with depth := rd.depth + 1 })
  | .endE _ =>
    if rd.depth = 0 then (.panic c!"attempt to subtract with overflow", rd)
    else (.ok e, { rd with depth := rd.depth - 1 })
  | _ => (.ok e, rd)

/-- `Deserializer::next_event` — `/repo/yaserde/src/de/mod.rs:73-90` (logging omitted). -/
def nextEvent : D REv := fun rd =>
  match rd.peeked with
  | some e => trackDepth e { rd with peeked := none }
  | none => (innerNext >>= trackDepth) rd

/-- The `while` loop of `skip_element`, with a step budget; `acc` collects the events the
callback has been called on. -/
def skipLoop : Nat → Nat → List REv → D (List REv)
  | 0, _, _ => M.diverge
  | n + 1, depth, acc => fun rd =>
    if rd.depth ≥ depth then
      (nextEvent >>= fun e => skipLoop n depth (acc ++ [e])) rd
    else (.ok acc, rd)

/-- `Deserializer::skip_element` — `/repo/yaserde/src/de/mod.rs:92-100`.
Returns the events passed to the callback, in call order. -/
def skipElement (fuel : Nat) : D (List REv) := fun rd => skipLoop fuel rd.depth [] rd

/-- `Deserializer::expect_end_element` — `/repo/yaserde/src/de/mod.rs:119-132`. -/
def expectEndElement (startName : Name) : D Unit :=
  nextEvent >>= fun e =>
    match e with
    | .endE name =>
      if name = startName then M.pure ()
      else M.throw (c!"End tag </" ++ name.loc ++ c!"> didn't match the start tag <"
              ++ startName.loc ++ c!">")
    | _ => M.throw (c!"Unexpected token </" ++ startName.loc ++ c!">")

/-- `Deserializer::read_inner_value` — `/repo/yaserde/src/de/mod.rs:106-117`. -/
def readInnerValue {α : Type} (f : D α) : D α :=
  M.attempt nextEvent >>= fun r =>
    match r with
    | .ok (.start name _ _) =>
      f >>= fun result => expectEndElement name >>= fun _ => M.pure result
    | _ => M.throw c!"Internal error: Bad Event"

end Yaserde
