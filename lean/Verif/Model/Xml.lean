import Verif.Model.Basic
/-
The parts of the `xml-rs` 0.8 API that yaserde's code manipulates: names, attributes,
reader events, writer events, and the two stateful objects `EventReader` and
`EventWriter`.

`xml-rs` is an external dependency (`/repo/yaserde/Cargo.toml:19`), its source is not in
`/repo`.  What is modelled here is the contract yaserde relies on; the trusted base in
`DESIGN.md` lists it item by item.
-/

set_option autoImplicit false

namespace Yaserde

/-- `xml::name::OwnedName` (imported at `/repo/yaserde/src/de/mod.rs:6`). -/
structure Name where
  loc : Str
  ns : Option Str := none
  pfx : Option Str := none
  deriving Repr, DecidableEq

/-- `xml::attribute::OwnedAttribute`. -/
structure Attr where
  name : Name
  value : Str
  deriving Repr, DecidableEq

/-- `xml::namespace::Namespace`: a map from prefix to URI (a `BTreeMap` in xml-rs), as the list of
its entries in the order of the prefixes. -/
abbrev NsMap := List (Str × Str)

/-- `Ord for String`: by code points (the same as by UTF-8 bytes). -/
def strLt : Str → Str → Bool
  | [], [] => false
  | [], _ :: _ => true
  | _ :: _, [] => false
  | a :: s, b :: t => if a = b then strLt s t else a < b

/-- A new entry of a `BTreeMap`. -/
def NsMap.insert (p u : Str) : NsMap → NsMap
  | [] => [(p, u)]
  | e :: m => if strLt p e.1 then (p, u) :: e :: m else e :: NsMap.insert p u m

/-- `Namespace::put`: insert unless the prefix is already present. -/
def NsMap.put (m : NsMap) (p u : Str) : NsMap :=
  if m.any (fun e => e.1 == p) then m else m.insert p u

/-- `Namespace::extend`: `put` every entry of the other map. -/
def NsMap.extend (m other : NsMap) : NsMap := other.foldl (fun acc e => acc.put e.1 e.2) m

/-- `xml::reader::XmlEvent`. -/
inductive REv where
  | startDocument
  | endDocument
  | pi (name : Str) (data : Option Str)
  | start (name : Name) (attrs : List Attr) (nss : NsMap)
  | endE (name : Name)
  | cdata (s : Str)
  | comment (s : Str)
  | chars (s : Str)
  | ws (s : Str)
  deriving Repr, DecidableEq

/-- `xml::writer::XmlEvent`. -/
inductive WEv where
  | startDocument
  | pi (name : Str) (data : Option Str)
  | start (name : Name) (attrs : List Attr) (nss : NsMap)
  | endE (name : Option Name)
  | cdata (s : Str)
  | comment (s : Str)
  | chars (s : Str)
  deriving Repr, DecidableEq

/-- `reader::XmlEvent::as_writer_event`: `None` only for `EndDocument`. -/
def REv.asWriterEvent : REv → Option WEv
  | .startDocument => some .startDocument
  | .endDocument => none
  | .pi n d => some (.pi n d)
  | .start n a m => some (.start n a m)
  | .endE n => some (.endE (some n))
  | .cdata s => some (.cdata s)
  | .comment s => some (.comment s)
  | .chars s => some (.chars s)
  | .ws s => some (.chars s)

/-- The future of an `EventReader`: the events it will still deliver, and the final
result it then repeats forever (`none` = `Ok(EndDocument)`, `some msg` = a parse error).
xml-rs stores that final result and returns it again on every later call. -/
structure Src where
  evs : List REv
  fin : Option Str
  deriving Repr, DecidableEq

/-- `EventReader::next`. -/
def Src.next (s : Src) : Res REv × Src :=
  match s.evs with
  | e :: es => (.ok e, { s with evs := es })
  | [] =>
    match s.fin with
    | none => (.ok .endDocument, s)
    | some m => (.err m, s)

/-- Split at the first `':'` (Rust `str::split_once(':')`). -/
def splitColon : Str → Option (Str × Str)
  | [] => none
  | c :: cs =>
    if c = ':' then some ([], cs)
    else (splitColon cs).map fun (a, b) => (c :: a, b)

/-- `impl From<&str> for xml::name::Name`: `"p:l"` becomes prefix `p`, local name `l`. -/
def Name.ofStr (s : Str) : Name :=
  match splitColon s with
  | some (p, l) => { loc := l, pfx := some p }
  | none => { loc := s }

/-- `xml::EventWriter` over some `W: Write`.
`out` are the events successfully written, `opened` is the emitter's element-name stack,
`calls` counts the calls of `write`, and `io n = some msg` means that the underlying
`Write` fails during the `n`-th call.  Simplification: a failed call writes nothing
(in reality some bytes of the event may have been written). -/
structure EW where
  out : List WEv := []
  opened : List Name := []
  calls : Nat := 0
  io : Nat → Option Str := fun _ => none

/-- `EventWriter::write`.  Besides I/O errors the emitter rejects an end tag when no element
is open, or one whose explicit name differs from the innermost open element. -/
def EW.write (e : WEv) : M EW Unit := fun w =>
  let w' := { w with calls := w.calls + 1 }
  match w.io w.calls with
  | some m => (.err m, w')
  | none =>
    match e with
    | .start n _ _ => (.ok (), { w' with out := w.out ++ [e], opened := n :: w.opened })
    | .endE given =>
      match w.opened with
      | [] => (.err c!"last element name is not available", w')
      | n :: rest =>
        match given with
        | none => (.ok (), { w' with out := w.out ++ [e], opened := rest })
        | some g =>
          if g = n then (.ok (), { w' with out := w.out ++ [e], opened := rest })
          -- the emitter has already popped the name when it detects the mismatch
          else (.err c!"end element name is not equal to last start element name",
                { w' with opened := rest })
    | _ => (.ok (), { w' with out := w.out ++ [e] })

end Yaserde
