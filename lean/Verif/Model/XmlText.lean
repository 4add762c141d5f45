import Verif.Model.Schema
/-
A concrete model of the part of xml-rs 0.8 that turns writer events into text and text into
reader events, with the configurations yaserde uses
(`/repo/yaserde/src/de/mod.rs:32-41`, `/repo/yaserde/src/ser/mod.rs:72-89`).

xml-rs is not part of `/repo`; this file is written from its documented behaviour.  It is
used (a) to run the repository's own test documents against the model and (b) to show that
the abstract laws assumed of the XML library are satisfiable.  Not modelled: DOCTYPE,
encodings other than UTF-8, names that end in a colon (rejected by xml-rs), exact error texts.
-/

set_option autoImplicit false

namespace Yaserde
namespace XmlText

/-! ### Emitter -/

/-- `PcDataEscapes`. -/
def escChar (c : Char) : Str :=
  if c = '<' then c!"&lt;" else if c = '>' then c!"&gt;" else if c = '&' then c!"&amp;" else [c]

def escText (s : Str) : Str := s.flatMap escChar

/-- `AttributeEscapes`. -/
def escAttrChar (c : Char) : Str :=
  if c = '<' then c!"&lt;" else if c = '>' then c!"&gt;" else if c = '&' then c!"&amp;"
  else if c = '"' then c!"&quot;" else if c = '\'' then c!"&apos;"
  else if c = '\n' then c!"&#xA;" else if c = '\r' then c!"&#xD;" else [c]

def escAttr (s : Str) : Str := s.flatMap escAttrChar

/-- `Name::repr_display`. -/
def qname (n : Name) : Str :=
  match n.pfx with
  | some p => p ++ c!":" ++ n.loc
  | none => n.loc

/-- What was written last inside the current element. -/
inductive Flag where
  | nothing | markup | text
  deriving Repr, DecidableEq

structure Em where
  out : Str := []
  opened : List Str := []
  scopes : List NsMap := []
  started : Bool := false
  pending : Bool := false
  flags : List Flag := [.nothing]

def Em.add (e : Em) (s : Str) : Em := { e with out := e.out ++ s }

def Em.flag (e : Em) : Flag := e.flags.headD .nothing

def Em.setFlag (e : Em) (f : Flag) : Em :=
  match e.flags with
  | _ :: fs => { e with flags := f :: fs }
  | [] => e

/-- `check_document_started`. -/
def Em.checkStarted (cfg : EmitCfg) (e : Em) : Em :=
  if e.started then e
  else
    let e := { e with started := true }
    if cfg.decl then (e.add c!"<?xml version=\"1.0\" encoding=\"utf-8\"?>").setFlag .markup else e

/-- `fix_non_empty_element`. -/
def Em.fix (e : Em) : Em :=
  if e.pending then { (e.add c!">") with pending := false } else e

/-- Newline and indentation. -/
def nl (ind : Str) (level : Nat) : Str := '\n' :: (List.replicate level ind).flatten

/-- `before_markup`. -/
def Em.beforeMarkup (cfg : EmitCfg) (e : Em) : Em :=
  match cfg.indent with
  | none => e
  | some ind =>
    if e.flag ≠ .text ∧ (e.opened.length > 0 ∨ e.flag = .markup) then
      e.add (nl ind e.opened.length)
    else e

/-- Declarations actually written: those not already in some enclosing scope
(`NamespaceStack::put_checked`). -/
def newDecls (scopes : List NsMap) (nss : NsMap) : NsMap :=
  nss.filter fun d => !(scopes.any fun m => m.any fun e => e == d)

def emitDecl (d : Str × Str) : Str :=
  if d.1 = [] then (if d.2 = [] then [] else c!" xmlns=\"" ++ d.2 ++ c!"\"")
  else c!" xmlns:" ++ d.1 ++ c!"=\"" ++ d.2 ++ c!"\""

def emitAttr (a : Attr) : Str := c!" " ++ qname a.name ++ c!"=\"" ++ escAttr a.value ++ c!"\""

/-- `EventWriter::write`, textual effect. -/
def Em.step (cfg : EmitCfg) (e : Em) : WEv → Em
  | .start n as nss =>
    let e := ((e.checkStarted cfg).fix).beforeMarkup cfg
    let ds := newDecls e.scopes nss
    { (e.add (c!"<" ++ qname n ++ ds.flatMap emitDecl ++ as.flatMap emitAttr)) with
      opened := qname n :: e.opened, scopes := ds :: e.scopes, pending := true,
      flags := .markup :: e.flags }
  | .endE _ =>
    let close (e : Em) : Em :=
      Em.setFlag { e with opened := e.opened.tail, scopes := e.scopes.tail, flags := e.flags.tail } Flag.markup
    if e.pending then close { (e.add c!" />") with pending := false }
    else
      let e := match cfg.indent with
        | none => e
        | some ind =>
          if e.opened.length > 0 ∧ e.flag = Flag.markup then e.add (nl ind (e.opened.length - 1)) else e
      close (e.add (c!"</" ++ e.opened.headD [] ++ c!">"))
  | .chars s => (((e.checkStarted cfg).fix).add (escText s)).setFlag .text
  | .cdata s => ((e.fix).add (c!"<![CDATA[" ++ s ++ c!"]]>")).setFlag .text
  | _ => e

def emit (cfg : EmitCfg) (evs : List WEv) : Str := (evs.foldl (Em.step cfg) {}).out

/-! ### Parser -/

/-- xml-rs `is_whitespace_char`. -/
def isWs (c : Char) : Bool := c == ' ' || c == '\t' || c == '\n' || c == '\r'

/-- Remove leading and trailing XML white space. -/
def trim (s : Str) : Str := ((s.dropWhile isWs).reverse.dropWhile isWs).reverse

/-- xml-rs `is_name_start_char`, without the colon. -/
def isNameStartChar (c : Char) : Bool :=
  ('A' ≤ c && c ≤ 'Z') || c == '_' || ('a' ≤ c && c ≤ 'z') || ('\u00C0' ≤ c && c ≤ '\u00D6') || ('\u00D8' ≤ c && c ≤ '\u00F6') ||
  ('\u00F8' ≤ c && c ≤ '\u02FF') || ('\u0370' ≤ c && c ≤ '\u037D') || ('\u037F' ≤ c && c ≤ '\u1FFF') ||
  ('\u200C' ≤ c && c ≤ '\u200D') || ('\u2070' ≤ c && c ≤ '\u218F') || ('\u2C00' ≤ c && c ≤ '\u2FEF') ||
  ('\u3001' ≤ c && c ≤ '\uD7FF') || ('\uF900' ≤ c && c ≤ '\uFDCF') || ('\uFDF0' ≤ c && c ≤ '\uFFFD') ||
  ((Char.ofNat 0x10000) ≤ c && c ≤ (Char.ofNat 0xEFFFF))

/-- xml-rs `is_name_char`, without the colon. -/
def isNameChar (c : Char) : Bool :=
  isNameStartChar c || c == '-' || c == '.' || ('0' ≤ c && c ≤ '9') || c == '\u00B7' || ('\u0300' ≤ c && c ≤ '\u036F') ||
  ('\u203F' ≤ c && c ≤ '\u2040')

/-- Whether a name that begins with `acc` can go on with `c` (`read_qualified_name`): one colon, not at the beginning. -/
def nameStep (acc : Str) (c : Char) : Bool :=
  if c = ':' then !acc.isEmpty && !acc.contains ':' else if acc.isEmpty then isNameStartChar c else isNameChar c

/-- Characters allowed in XML 1.0 documents. -/
def isXmlChar (c : Char) : Bool :=
  let n := c.toNat
  n == 9 || n == 10 || n == 13 || (0x20 ≤ n && n ≤ 0xD7FF) || (0xE000 ≤ n && n ≤ 0xFFFD) ||
  (0x10000 ≤ n)

/-- Where the parser is in the text. -/
inductive PSt where
  | text
  | ref (acc : Str)
  | lt
  | openName (acc : Str)
  | inTag (nm : Str) (attrs : List (Str × Str))
  | attrName (nm : Str) (attrs : List (Str × Str)) (acc : Str)
  | attrEq (nm : Str) (attrs : List (Str × Str)) (an : Str)
  | attrQuote (nm : Str) (attrs : List (Str × Str)) (an : Str)
  | attrVal (nm : Str) (attrs : List (Str × Str)) (an : Str) (q : Char) (acc : Str)
  | attrRef (nm : Str) (attrs : List (Str × Str)) (an : Str) (q : Char) (acc racc : Str)
  | afterVal (nm : Str) (attrs : List (Str × Str))
  | slash (nm : Str) (attrs : List (Str × Str))
  | closeName (acc : Str)
  | closeWs (acc : Str)
  | bang (acc : Str)
  | comment (dashes : Nat)
  | cdata (brackets : Nat)
  | pi (q : Bool)
  | failed (msg : Str)
  deriving Repr, DecidableEq

structure PS where
  evs : List REv := []
  /-- open elements: raw name and namespaces in scope inside it -/
  stack : List (Str × NsMap) := []
  buf : Str := []
  seenRoot : Bool := false
  st : PSt := .text
  deriving Repr

def PS.fail (p : PS) (m : Str) : PS := { p with st := .failed m }

def hexVal (c : Char) : Option Nat :=
  if '0' ≤ c ∧ c ≤ '9' then some (c.toNat - 48)
  else if 'a' ≤ c ∧ c ≤ 'f' then some (c.toNat - 87)
  else if 'A' ≤ c ∧ c ≤ 'F' then some (c.toNat - 55)
  else none

def numVal (base : Nat) (dig : Char → Option Nat) : Nat → Str → Option Nat
  | acc, [] => some acc
  | acc, c :: cs => match dig c with | some d => numVal base dig (acc * base + d) cs | none => none

def numRef (n : Option Nat) : Option Char :=
  match n with
  | some n => if n.isValidChar then (if isXmlChar (Char.ofNat n) then some (Char.ofNat n) else none) else none
  | none => none

/-- The character a reference `&name;` stands for. -/
def resolveRef (r : Str) : Option Char :=
  if r = c!"lt" then some '<'
  else if r = c!"gt" then some '>'
  else if r = c!"amp" then some '&'
  else if r = c!"quot" then some '"'
  else if r = c!"apos" then some '\''
  else match r with
    | '#' :: 'x' :: ds => if ds.isEmpty then none else numRef (numVal 16 hexVal 0 ds)
    | '#' :: ds => if ds.isEmpty then none else numRef (numVal 10 digitVal 0 ds)
    | _ => none

/-- Deliver the pending text run: trimmed, dropped if only white space. -/
def PS.flush (p : PS) : PS :=
  let t := trim p.buf
  { p with buf := [], evs := if t.isEmpty then p.evs else p.evs ++ [.chars t] }

def lookupNs (scope : NsMap) (p : Str) : Option Str :=
  (List.find? (fun e => e.1 == p) scope).map Prod.snd

/-- `xmlns` declarations among raw attributes. -/
def declOf (a : Str × Str) : Option (Str × Str) :=
  if a.1 = c!"xmlns" then some ([], a.2)
  else match splitColon a.1 with
    | some (p, l) => if p = c!"xmlns" then some (l, a.2) else none
    | none => none

def newScope (outer : NsMap) (ds : NsMap) : NsMap :=
  ds ++ outer.filter fun e => !(ds.any fun d => d.1 == e.1)

/-- Resolve an element name in a scope. -/
def resolveElem (scope : NsMap) (raw : Str) : Option Name :=
  match splitColon raw with
  | none =>
    some { loc := raw, ns := (lookupNs scope []).bind fun u => if u.isEmpty then none else some u }
  | some (p, l) =>
    match lookupNs scope p with
    | some u => some { loc := l, ns := if u.isEmpty then none else some u, pfx := some p }
    | none => none

/-- Resolve an attribute name in a scope (unprefixed attributes have no namespace). -/
def resolveAttrName (scope : NsMap) (raw : Str) : Option Name :=
  match splitColon raw with
  | none => some { loc := raw }
  | some (p, l) =>
    if p = c!"xml" then
      some { loc := l, ns := some c!"http://www.w3.org/XML/1998/namespace", pfx := some p }
    else
      match lookupNs scope p with
      | some u => some { loc := l, ns := if u.isEmpty then none else some u, pfx := some p }
      | none => none

def resolveAttrs (scope : NsMap) : List (Str × Str) → Option (List Attr)
  | [] => some []
  | a :: as =>
    match resolveAttrName scope a.1, resolveAttrs scope as with
    | some n, some rest => some ({ name := n, value := a.2 } :: rest)
    | _, _ => none

def hasDup : List Str → Bool
  | [] => false
  | a :: as => as.contains a || hasDup as

/-- A start tag is complete. -/
def PS.openElem (p : PS) (nm : Str) (attrs : List (Str × Str)) (selfClose : Bool) : PS :=
  if hasDup (attrs.map Prod.fst) then p.fail c!"Attribute is redefined"
  else
    let outer := match p.stack with | (_, s) :: _ => s | [] => []
    let scope := newScope outer (attrs.filterMap declOf)
    match resolveElem scope nm, resolveAttrs scope (attrs.filter fun a => (declOf a).isNone) with
    | some n, some as =>
      let evs := p.evs ++ [.start n as scope]
      if selfClose then { p with evs := evs ++ [.endE n], seenRoot := true, st := .text }
      else { p with evs := evs, seenRoot := true, stack := (nm, scope) :: p.stack, st := .text }
    | none, _ => p.fail (c!"Element " ++ nm ++ c!" prefix is unbound")
    | _, none => p.fail c!"Attribute prefix is unbound"

/-- An end tag is complete. -/
def PS.closeElem (p : PS) (nm : Str) : PS :=
  match p.stack with
  | (n, scope) :: rest =>
    if n = nm then
      match resolveElem scope nm with
      | some name => { p with evs := p.evs ++ [.endE name], stack := rest, st := .text }
      | none => p.fail c!"Element prefix is unbound"
    else p.fail (c!"Unexpected closing tag: " ++ nm ++ c!" != " ++ n)
  | [] => p.fail (c!"Unexpected closing tag: " ++ nm)

/-- Append one character of text content. -/
def PS.pushText (p : PS) (c : Char) : PS :=
  if p.stack.isEmpty && !isWs c then p.fail c!"Unexpected characters outside the root element"
  else { p with buf := p.buf ++ [c] }

def PS.step (p : PS) (c : Char) : PS :=
  match p.st with
  | .failed _ => p
  | .text =>
    if c = '<' then { p with st := .lt }
    else if c = '&' then { p with st := .ref [] }
    else if isXmlChar c then p.pushText (if c = '\r' then '\n' else c)
    else p.fail c!"Invalid character"
  | .ref acc =>
    if c = ';' then
      match resolveRef acc with
      | some r => { p with st := .text }.pushText r
      | none => p.fail c!"Unexpected entity"
    else { p with st := .ref (acc ++ [c]) }
  | .lt =>
    if c = '/' then { p.flush with st := .closeName [] }
    else if c = '!' then { p with st := .bang [] }
    else if c = '?' then { p.flush with st := .pi false }
    else if nameStep [] c then { p.flush with st := .openName [c] }
    else p.fail c!"Unexpected token"
  | .openName acc =>
    if nameStep acc c then { p with st := .openName (acc ++ [c]) }
    else if isWs c then { p with st := .inTag acc [] }
    else if c = '>' then p.openElem acc [] false
    else if c = '/' then { p with st := .slash acc [] }
    else p.fail c!"Unexpected token inside tag"
  | .inTag nm as =>
    if isWs c then p
    else if c = '>' then p.openElem nm as false
    else if c = '/' then { p with st := .slash nm as }
    else if nameStep [] c then { p with st := .attrName nm as [c] }
    else p.fail c!"Unexpected token inside tag"
  | .attrName nm as acc =>
    if nameStep acc c then { p with st := .attrName nm as (acc ++ [c]) }
    else if c = '=' then { p with st := .attrQuote nm as acc }
    else if isWs c then { p with st := .attrEq nm as acc }
    else p.fail c!"Unexpected token in attribute"
  | .attrEq nm as an =>
    if isWs c then p
    else if c = '=' then { p with st := .attrQuote nm as an }
    else p.fail c!"Unexpected token in attribute"
  | .attrQuote nm as an =>
    if isWs c then p
    else if c = '"' || c = '\'' then { p with st := .attrVal nm as an c [] }
    else p.fail c!"Unexpected token in attribute"
  | .attrVal nm as an q acc =>
    if c = q then { p with st := .afterVal nm (as ++ [(an, acc)]) }
    else if c = '&' then { p with st := .attrRef nm as an q acc [] }
    else if c = '<' then p.fail c!"Unexpected token in attribute value"
    else if isXmlChar c then { p with st := .attrVal nm as an q (acc ++ [if isWs c then ' ' else c]) }
    else p.fail c!"Invalid character"
  | .attrRef nm as an q acc racc =>
    if c = ';' then
      match resolveRef racc with
      | some r => { p with st := .attrVal nm as an q (acc ++ [r]) }
      | none => p.fail c!"Unexpected entity"
    else { p with st := .attrRef nm as an q acc (racc ++ [c]) }
  | .afterVal nm as =>
    if isWs c then { p with st := .inTag nm as }
    else if c = '>' then p.openElem nm as false
    else if c = '/' then { p with st := .slash nm as }
    else p.fail c!"Unexpected token inside tag"
  | .slash nm as =>
    if c = '>' then p.openElem nm as true else p.fail c!"Unexpected token inside tag"
  | .closeName acc =>
    if nameStep acc c then { p with st := .closeName (acc ++ [c]) }
    else if c = '>' then p.closeElem acc
    else if isWs c then { p with st := .closeWs acc }
    else p.fail c!"Unexpected token inside closing tag"
  | .closeWs acc =>
    if isWs c then p
    else if c = '>' then p.closeElem acc
    else p.fail c!"Unexpected token inside closing tag"
  | .bang acc =>
    let acc := acc ++ [c]
    if acc = c!"--" then { p with st := .comment 0 }
    else if acc = c!"[CDATA[" then
      if p.stack.isEmpty then p.fail c!"Unexpected CDATA" else { p with st := .cdata 0 }
    else if acc.isPrefixOf c!"[CDATA[" || acc = c!"-" then { p with st := .bang acc }
    else p.fail c!"Unexpected token"
  | .comment dashes =>
    if c = '-' then { p with st := .comment (dashes + 1) }
    else if c = '>' && 2 ≤ dashes then { p with st := .text }
    else { p with st := .comment 0 }
  | .cdata n =>
    if c = ']' then { p with st := .cdata (n + 1), buf := p.buf ++ [c] }
    else if c = '>' && 2 ≤ n then { p with st := .text, buf := p.buf.take (p.buf.length - 2) }
    else if isXmlChar c then
      { p with st := .cdata 0, buf := p.buf ++ [if c = '\r' then '\n' else c] }
    else p.fail c!"Invalid character"
  | .pi q =>
    if c = '>' && q then { p with st := .text }
    else { p with st := .pi (c = '?') }

/-- What the reader delivers for a whole document. -/
def PS.finish (p : PS) : Src :=
  match p.st with
  | .failed m => ⟨.startDocument :: p.evs, some m⟩
  | .text =>
    if !p.stack.isEmpty then
      ⟨.startDocument :: p.evs, some c!"Unexpected end of stream: still inside the root element"⟩
    else if !p.seenRoot then
      ⟨.startDocument :: p.evs, some c!"Unexpected end of stream: no root element found"⟩
    else ⟨.startDocument :: p.evs, none⟩
  | _ => ⟨.startDocument :: p.evs, some c!"Unexpected end of stream"⟩

def parse (s : Str) : Src := (s.foldl PS.step {}).finish

end XmlText
end Yaserde
