import Verif.Model.Schema
/-
A small fragment of Rust: the expressions that the `quote!` templates of
`/repo/yaserde_derive/src/{de,ser}/` print, and what running them means.  `Model/GenDe.lean` and
`Model/GenSer.lean` print the templates into this fragment; nothing here knows about schemas.

What is left out of the fragment: types (a step that rustc would reject panics with the message `stuck`), borrowing (`&`, `ref`,
`.as_str()`, `.clone()`, `.to_owned()`, `.iter()` and the like are the identity), and the `log` macros.
-/

set_option autoImplicit false

namespace Yaserde.Rs

/-- The identifiers of the templates.  `value l` is `__l_value`; the last ones belong to the functions of
`/repo/yaserde/src/de/mod.rs` and `/repo/yaserde/src/ser/mod.rs`, which are called, not printed. -/
inductive Var where
  | named_element | struct_namespace | enum_namespace | start_depth | depth | event | name | attributes | namespace
  | bad_namespace | msg | attr | value_ | text_content | content | s | v | val | result | writer | unused_xml_elements | enum_value
  | self | skip | child_attributes | child_attributes_namespace | yaserde_label | struct_start_event | yaserde_inner
  | yaserde_item | yaserde_items | item | data_event | start_event | end_event | tag | all_attributes | all_namespaces
  | source_attributes | source_namespace | yaserde_value | yaserde_struct | data | string_value | struct_end_event | a
  | value (label : Str)
  /-- an identifier of the user that no template uses -/
  | user (x : Str)
  | rt_depth | rt_name | rt_start_name | rt_result | rt_next | rt_other | rt_msg | rt_peeked | rt_next_event
  | rt_s | rt_reader | rt_config | rt_model | rt_buf | rt_cursor | rt_data | rt_serializer | rt_emitter_config | rt_indent_string_value
  deriving DecidableEq

/-- `xml::writer::EmitterConfig`, the settings that matter here; the defaults are those of `EmitterConfig::new()`. -/
structure EmitterCfg where
  performIndent : Bool := false
  indentString : Str := c!"  "
  decl : Bool := true
  cdataToChars : Bool := false

/-- `xml::reader::ParserConfig`, the settings that matter here. -/
structure ParserCfg where
  trimWhitespace : Bool
  whitespaceToCharacters : Bool
  cdataToCharacters : Bool
  ignoreComments : Bool
  coalesceCharacters : Bool

/-- Some `W: Write`: what has been written to it, and which writes of events fail. -/
structure Sink where
  text : Str := []
  io : Nat → Option Str := fun _ => Option.none

/-- Values at run time.  `val v` is a value of one of the user's types or a field's value; `str` is a string that the code
itself handles. -/
inductive RV where
  | unit
  | bool (b : Bool)
  | int (z : Int)
  | str (s : Str)
  | none
  | some (v : RV)
  | ok (v : RV)
  | err (v : RV)
  | vec (l : List RV)
  | pair (a b : RV)
  | ev (e : REv)
  | wev (e : WEv)
  | name (n : Name)
  | attr (a : Attr)
  | nss (m : NsMap)
  | writer (w : EW)
  /-- the argument `writer: &mut Serializer<W>` -/
  | ser
  | val (v : Val)
  /-- in the functions of `ser/mod.rs`: `EmitterConfig`, `W`, `EventWriter<W>` -/
  | emitterCfg (c : EmitterCfg)
  | sink (k : Sink)
  | eventWriter (c : EmitterCfg) (k : Sink) (w : EW)
  /-- in the functions of `de/mod.rs`: `ParserConfig`, `EventReader<R>`, `&mut Deserializer<R>` -/
  | parserCfg (c : ParserCfg)
  | eventReader (s : Src)
  | de

/-- Patterns. -/
inductive Pat where
  | wild
  | bind (x : Var)
  | str (s : Str)
  | pair (p q : Pat)
  | none
  | some (p : Pat)
  | ok (p : Pat)
  | err (p : Pat)
  /-- `XmlEvent::StartElement { name: p, attributes: q, .. }` -/
  | start (p q : Pat)
  /-- `XmlEvent::EndElement { name: p }` -/
  | endE (p : Pat)
  | chars (p : Pat)
  | endDocument
  | startDocument | processingInstruction | comment
  /-- `p | q`, without bindings -/
  | alt (p q : Pat)
  /-- `writer::XmlEvent::StartElement { name: p, attributes: q, namespace: r }` -/
  | wstart (p q r : Pat)
  /-- `Name::Variant { .. }`, the variant being number `i`. -/
  | variant (i : Nat)
  /-- `Name::Variant(p)` and `Name::Variant { field: p, .. }`: payload number `k`. -/
  | payload (i k : Nat) (p : Pat)

/-- Functions and methods without effect. -/
inductive Fn where
  | some | ok | err | pair
  | cat
  | eq | ne | and | not | gt | ge | add
  /-- `a - b` of `usize`, with overflow checks -/
  | subUsize
  | unwrapOrDefault | isSome | isNone | isErr | isEmpty | toOption | unwrap
  | locName | nsOf | attrName | attrValue
  /-- `.iter().find(|attr| attr.name.local_name.as_str() == tag)` -/
  | findAttr (tag : Str)
  | asWriterEvent
  /-- `String::from_utf8(buf).unwrap()`, given the writer that `buf` was lent to. -/
  | written
  | splitWhitespace
  /-- `format!("{:?}", event)` -/
  | debug
  /-- a `String` that becomes the value of a field -/
  | owned
  /-- `T::from_str(_).map_err(|e| e.to_string())` of a scalar type -/
  | parse (t : STy)
  | structV
  | variantV (i : Nat)
  | vec1
  /-- `XmlEvent::start_element(_)`, and what is called on it: `.attr(_, _)`, `.ns(_, _)`, `.default_ns(_)` -/
  | startElement | attr | ns | defaultNs
  /-- `XmlEvent::end_element()`, `XmlEvent::characters(_)`, `XmlEvent::cdata(_)` -/
  | endElement | characters | cdata
  /-- `XmlEvent::StartElement { name, attributes, namespace }` -/
  | mkStart
  /-- `OwnedName::local(_)`, `OwnedAttribute::new(_, _)` -/
  | localName | newAttr
  /-- `format!("{}", _)`, `_.to_string()` of a scalar -/
  | display
  /-- `self.field`, the field being number `i` -/
  | field (i : Nat)
  /-- `_ != default_function()` -/
  | neDefault (d : Dflt)
  /-- `self.skip_serializing_if_function(&_)` -/
  | skipIf (g : Val → Val → Bool)
  /-- `T::from_str(_).map_err(|e| e.to_string())`, `_.to_string()` of a type with these (also `format!("{}", _)`), `format!("{:?}", _)` of a string -/
  | primFromStr (d : PrimDef) | primToStr (d : PrimDef) | debugStr
  /-- `EmitterConfig::new()` and the setters `cdata_to_characters`, `perform_indent`, `write_document_declaration`, `indent_string` -/
  | emitterNew | emitterCdata | emitterIndent | emitterDecl | emitterIndentString
  /-- `EventWriter::new_with_config(_, _)`, `Cursor::new(Vec::new())`, `str::from_utf8(_.get_ref())` -/
  | newEventWriter | newCursor | fromUtf8
  /-- the setters `trim_whitespace`, `whitespace_to_characters`, `cdata_to_characters`, `ignore_comments`, `coalesce_characters` -/
  | parserTrim | parserWhitespace | parserCdata | parserComments | parserCoalesce

/-- Methods of `&mut Deserializer` and `&mut Serializer`, and functions of other types that take them. -/
inductive Op where
  | peek | next | depth
  | deserialize (p : Path)
  /-- `yaserde::de::from_str` -/
  | fromStr (p : Path)
  | write | skipStartEnd | startEventName | setStartEventName | setSkipStartEnd
  /-- `YaSerialize::serialize` of a user's type, of a scalar type -/
  | serialize (p : Path) | serializeScalar
  | serializeAttributes (p : Path)
  /-- `yaserde::ser::to_string_content` -/
  | toStringContent (p : Path)
  /-- in the methods of `Deserializer`: `self.reader.next()`, `self.peeked`, `self.peeked.take()`, `self.peeked = _`, `self.depth = _` -/
  | readerNext | peeked | takePeeked | setPeeked | setDepth
  /-- `Serializer { writer: _, skip_start_end: _, start_event_name: _ }`, `self.writer.into_inner()` -/
  | mkSerializer | intoInner
  /-- `ParserConfig::new()`, `EventReader::new_with_config(_, _)`, `Deserializer { depth: _, reader: _, peeked: _ }` -/
  | parserNew | newEventReader | mkDeserializer

/-- Methods that change the value of a variable. -/
inductive Mut where
  | push | write
  /-- `extend` of a `Vec` or a `Namespace` -/
  | extend

/-- Steps into a value: what `ref mut` patterns lead to. -/
inductive Proj where
  | some
  /-- the only payload of variant `i` -/
  | payload (i : Nat)

mutual

inductive Ex where
  | lit (v : RV)
  | var (x : Var)
  /-- `let mut x = e;` -/
  | letE (x : Var) (e : Ex)
  /-- `let (x, y) = e;` -/
  | letPair (x y : Var) (e : Ex)
  | assign (x : Var) (e : Ex)
  /-- `x += z` -/
  | incr (x : Var) (z : Int)
  /-- `x.push(e)`, `x.write(e)`; `ps` is not empty when `x` stands for a `ref mut` binding -/
  | mutate (x : Var) (ps : List Proj) (m : Mut) (e : Ex)
  | block (es : Exs)
  | ite (c a b : Ex)
  | matchE (e : Ex) (as : Arms)
  | loop (b : Ex)
  | brk
  | ret (e : Ex)
  /-- `e?` -/
  | try_ (e : Ex)
  | forE (x : Var) (e b : Ex)
  /-- `e.unwrap_or_else(|| b)` -/
  | unwrapOrElse (e b : Ex)
  /-- `e.ok_or_else(|| b)` -/
  | okOrElse (e b : Ex)
  /-- the body of a function or closure, called here: `return` and `?` leave this body only -/
  | call (b : Ex)
  | app (f : Fn) (es : Exs)
  | op (o : Op) (es : Exs)

inductive Exs where
  | nil
  | cons (e : Ex) (es : Exs)

inductive Arms where
  | nil
  | cons (p : Pat) (e : Ex) (as : Arms)

end

def Exs.ofList : List Ex → Exs
  | [] => .nil
  | e :: es => .cons e (ofList es)

def Arms.ofList : List (Pat × Ex) → Arms
  | [] => .nil
  | a :: as => .cons a.1 a.2 (ofList as)

/-- The variables in scope. -/
abbrev Store := Var → RV

def Store.set (s : Store) (x : Var) (v : RV) : Store := fun y => if y = x then v else s y

/-- The variables `xs` go out of scope: what they shadowed is visible again. -/
def Store.leave (s old : Store) (xs : List Var) : Store := fun y => if y ∈ xs then old y else s y

def Store.setAll (s : Store) : List (Var × RV) → Store
  | [] => s
  | b :: bs => (s.set b.1 b.2).setAll bs

/-- How running an expression ends. -/
inductive Out where
  | val (v : RV)
  | brk
  | ret (v : RV)
  | panic (m : Str)
  | diverge

/-- A program that rustc rejects. -/
def Out.stuck : Out := .panic c!"stuck"

/-- What an expression does to the variables and to the reader or writer `σ` of the generated function. -/
abbrev Exec (σ : Type) := σ × Store → Out × (σ × Store)

namespace Exec
variable {σ : Type}

def out (o : Out) : Exec σ := fun s => (o, s)

def val (v : RV) : Exec σ := out (.val v)

/-- Go on with the value, unless something else happened. -/
def bind (x : Exec σ) (k : RV → Exec σ) : Exec σ := fun s =>
  match x s with
  | (.val v, s') => k v s'
  | (.brk, s') => (.brk, s')
  | (.ret v, s') => (.ret v, s')
  | (.panic m, s') => (.panic m, s')
  | (.diverge, s') => (.diverge, s')

def setVar (x : Var) (v : RV) : Exec σ := fun s => (.val .unit, (s.1, s.2.set x v))

/-- Run `x`; then the variables `xs` leave the scope. -/
def inScope (xs : List Var) (x : Exec σ) : Exec σ := fun s =>
  match x s with
  | (o, s') => (o, (s'.1, s'.2.leave s.2 xs))

/-- `loop { x }`, at most `n` times. -/
def loopN (x : Exec σ) : Nat → Exec σ
  | 0 => out .diverge
  | n + 1 => fun s =>
    match x s with
    | (.val _, s') => loopN x n s'
    | (.brk, s') => (.val .unit, s')
    | r => r

/-- `for x in l { b }` -/
def forL (x : Var) (b : Exec σ) : List RV → Exec σ
  | [] => val .unit
  | v :: l => fun s =>
    match inScope [x] (bind (setVar x v) fun _ => b) s with
    | (.val _, s') => forL x b l s'
    | (.brk, s') => (.val .unit, s')
    | r => r

/-- The end of a function body. -/
def called (x : Exec σ) : Exec σ := fun s =>
  match x s with
  | (.ret v, s') => (.val v, s')
  | (.brk, s') => (.stuck, s')
  | r => r

end Exec

/-- A field's value, as a value of the user's types. -/
def RV.scalar : RV → Option Val
  | .val v => Option.some v
  | _ => Option.none

def RV.toVal : RV → Option Val
  | .val v => Option.some v
  | .none => Option.some .none
  | .some r => r.scalar.map .some
  | .vec l => (l.mapM RV.scalar).map .vec
  | _ => Option.none

/-- Bindings of a successful match. -/
def Pat.matches : Pat → RV → Option (List (Var × RV))
  | .wild, _ => Option.some []
  | .bind x, r => Option.some [(x, r)]
  | .str a, .str b => if a = b then Option.some [] else Option.none
  | .pair p q, .pair a b => (p.matches a).bind fun bs => (q.matches b).map (bs ++ ·)
  | .none, .none => Option.some []
  | .none, .val .none => Option.some []
  | .some p, .some r => p.matches r
  | .some p, .val (.some v) => p.matches (.val v)
  | .ok p, .ok r => p.matches r
  | .err p, .err r => p.matches r
  | .start p q, .ev (.start n as _) => (p.matches (.name n)).bind fun bs => (q.matches (.vec (as.map .attr))).map (bs ++ ·)
  | .endE p, .ev (.endE n) => p.matches (.name n)
  | .chars p, .ev (.chars t) => p.matches (.str t)
  | .endDocument, .ev .endDocument => Option.some []
  | .startDocument, .ev .startDocument => Option.some []
  | .processingInstruction, .ev (.pi _ _) => Option.some []
  | .comment, .ev (.comment _) => Option.some []
  | .alt p q, r => match p.matches r with | Option.some bs => Option.some bs | Option.none => q.matches r
  | .wstart p q r, .wev (.start n as m) =>
    (p.matches (.name n)).bind fun bs => (q.matches (.vec (as.map .attr))).bind fun cs => (r.matches (.nss m)).map (bs ++ cs ++ ·)
  | .variant i, .val (.enum j _) => if i = j then Option.some [] else Option.none
  | .payload i k p, .val (.enum j vs) =>
    if i = j then match vs[k]? with | Option.some v => p.matches (.val v) | Option.none => Option.none else Option.none
  | _, _ => Option.none

def Pat.vars : Pat → List Var
  | .bind x => [x]
  | .pair p q => p.vars ++ q.vars
  | .some p | .ok p | .err p | .endE p | .chars p => p.vars
  | .start p q => p.vars ++ q.vars
  | .wstart p q r => p.vars ++ q.vars ++ r.vars
  | .payload _ _ p => p.vars
  | _ => []

/-- `a == b` for the types that the templates compare. -/
def RV.eqv : RV → RV → Option Bool
  | .str a, .str b => Option.some (a == b)
  | .int a, .int b => Option.some (a == b)
  | .name a, .name b => Option.some (a == b)
  | _, _ => Option.none

/-- Apply `f` to a part of a value: the new value and the result of `f`. -/
def RV.modAt (f : RV → Option (RV × RV)) : List Proj → RV → Option (RV × RV)
  | [], r => f r
  | .some :: ps, .some r => (r.modAt f ps).map fun x => (.some x.1, x.2)
  | .payload i :: ps, .val (.enum j [v]) =>
    if i = j then
      (RV.modAt f ps (.val v)).bind fun x => x.1.scalar.map fun v' => (.val (.enum j [v']), x.2)
    else Option.none
  | _, _ => Option.none

def Mut.run : Mut → RV → RV → Option (RV × RV)
  | .push, v, .vec l => Option.some (.vec (l ++ [v]), .unit)
  | .push, .val x, .val (.vec vs) => Option.some (.val (.vec (vs ++ [x])), .unit)
  | .write, .wev e, .writer w =>
    match EW.write e w with
    | (.ok (), w') => Option.some (.writer w', .ok .unit)
    | (.err m, w') => Option.some (.writer w', .err (.str m))
    | _ => Option.none
  | .extend, .vec l', .vec l => Option.some (.vec (l ++ l'), .unit)
  | .extend, .nss m', .nss m => Option.some (.nss (m.extend m'), .unit)
  | _, _, _ => Option.none

/-- A call of `Result::unwrap` (the message omits the `Debug` rendering of the error) or `Option::unwrap`. -/
def RV.unwrap : RV → Out
  | .some v => .val v
  | .none => .panic c!"called `Option::unwrap()` on a `None` value"
  | .ok v => .val v
  | .err _ => .panic c!"called `Result::unwrap()` on an `Err` value"
  | _ => .stuck

def catAll : List RV → Option Str
  | [] => Option.some []
  | .str a :: l => (catAll l).map (a ++ ·)
  | _ => Option.none

def Out.ofOption : Option RV → Out
  | some v => .val v
  | none => .stuck

/-- A `&str` or `&String`. -/
def RV.text : RV → Option Str
  | .str s => Option.some s
  | .val (.str s) => Option.some s
  | _ => Option.none

def RV.toAttr : RV → Option Attr
  | .attr a => Option.some a
  | _ => Option.none

/-- `Display` of a scalar value. -/
def display (L : Lib) : Val → Option Str
  | .none | .some _ | .vec _ | .struct _ | .enum _ _ => Option.none
  | v => Option.some (showS L v)

/-- A `bool`. -/
def RV.flag : RV → Option Bool
  | .bool b => Option.some b
  | .val (.bool b) => Option.some b
  | _ => Option.none

def Fn.apply (L : Lib) : Fn → List RV → Out
  | .some, [v] => .val (.some v)
  | .ok, [v] => .val (.ok v)
  | .err, [v] => .val (.err v)
  | .pair, [a, b] => .val (.pair a b)
  | .cat, l => .ofOption ((catAll l).map .str)
  | .eq, [a, b] => .ofOption ((a.eqv b).map .bool)
  | .ne, [a, b] => .ofOption ((a.eqv b).map fun x => .bool (!x))
  | .and, [.bool a, .bool b] => .val (.bool (a && b))
  | .not, [.bool a] => .val (.bool (!a))
  | .gt, [.int a, .int b] => .val (.bool (decide (a > b)))
  | .ge, [.int a, .int b] => .val (.bool (decide (a ≥ b)))
  | .add, [.int a, .int b] => .val (.int (a + b))
  | .subUsize, [.int a, .int b] => if b ≤ a then .val (.int (a - b)) else .panic c!"attempt to subtract with overflow"
  | .unwrapOrDefault, [.some v] => .val v
  | .unwrapOrDefault, [.none] => .val (.str [])
  | .isSome, [.some _] => .val (.bool true)
  | .isSome, [.none] => .val (.bool false)
  | .isNone, [.some _] => .val (.bool false)
  | .isNone, [.none] => .val (.bool true)
  | .isErr, [.err _] => .val (.bool true)
  | .isErr, [.ok _] => .val (.bool false)
  | .isEmpty, [.str s] => .val (.bool s.isEmpty)
  | .toOption, [.ok v] => .val (.some v)
  | .toOption, [.err _] => .val .none
  | .unwrap, [v] => v.unwrap
  | .locName, [.name n] => .val (.str n.loc)
  | .nsOf, [.name n] => .val (match n.ns with | Option.some u => .some (.str u) | Option.none => .none)
  | .attrName, [.attr a] => .val (.name a.name)
  | .attrValue, [.attr a] => .val (.str a.value)
  | .findAttr tag, [.vec l] =>
    .val (match l.find? (fun r => match r with | .attr a => a.name.loc == tag | _ => false) with
      | Option.some r => .some r
      | Option.none => .none)
  | .asWriterEvent, [.ev e] => .val (match e.asWriterEvent with | Option.some w => .some (.wev w) | Option.none => .none)
  | .written, [.some (.writer w)] => .val (.str (L.emit {} w.out))
  | .splitWhitespace, [.str s] => .val (.vec ((Yaserde.splitWhitespace s).map .str))
  | .debug, [.ev e] => .val (.str (L.dbgEv e))
  | .owned, [.str s] => .val (.val (.str s))
  | .parse t, [.str s] => .val (match parseS L t s with | .ok v => .ok (.val v) | .error m => .err (.str m))
  | .structV, l => .ofOption ((l.mapM RV.toVal).map fun vs => .val (.struct vs))
  | .variantV i, l => .ofOption ((l.mapM RV.toVal).map fun vs => .val (.enum i vs))
  | .vec1, [v] => .val (.vec [v])
  | .startElement, [.str s] => .val (.wev (.start (Name.ofStr s) [] []))
  | .attr, [.wev (.start n as m), .str k, v] => .ofOption (v.text.map fun v => .wev (.start n (as ++ [⟨Name.ofStr k, v⟩]) m))
  | .ns, [.wev (.start n as m), .str p, .str u] => .val (.wev (.start n as (m.put p u)))
  | .defaultNs, [.wev (.start n as m), .str u] => .val (.wev (.start n as (m.put [] u)))
  | .endElement, [] => .val (.wev (.endE Option.none))
  | .characters, [v] => .ofOption (v.text.map fun s => .wev (.chars s))
  | .cdata, [v] => .ofOption (v.text.map fun s => .wev (.cdata s))
  | .mkStart, [.name n, .vec l, .nss m] => .ofOption ((l.mapM RV.toAttr).map fun as => .wev (.start n as m))
  | .localName, [.str s] => .val (.name { loc := s })
  | .newAttr, [.name n, .str v] => .val (.attr ⟨n, v⟩)
  | .display, [.val v] => .ofOption ((Rs.display L v).map .str)
  | .field i, [.val (.struct vs)] => .ofOption (vs[i]?.map .val)
  | .neDefault d, [.val v] => .val (.bool (d.ne v))
  | .skipIf g, [.val self, .val v] => .val (.bool (g self v))
  | .primFromStr d, [.str s] => .val (match d.fromStr s with | .ok v => .ok (.val v) | .error m => .err (.str m))
  | .primToStr d, [.val v] => .val (.str (d.toStr v))
  | .debugStr, [.str s] => .val (.str (L.dbgStr s))
  | .emitterNew, [] => .val (.emitterCfg {})
  | .emitterCdata, [.emitterCfg c, b] => .ofOption (b.flag.map fun b => .emitterCfg { c with cdataToChars := b })
  | .emitterIndent, [.emitterCfg c, b] => .ofOption (b.flag.map fun b => .emitterCfg { c with performIndent := b })
  | .emitterDecl, [.emitterCfg c, b] => .ofOption (b.flag.map fun b => .emitterCfg { c with decl := b })
  | .emitterIndentString, [.emitterCfg c, s] => .ofOption (s.text.map fun s => .emitterCfg { c with indentString := s })
  | .newEventWriter, [.sink k, .emitterCfg c] => .val (.eventWriter c k { io := k.io })
  | .newCursor, [] => .val (.sink {})
  | .fromUtf8, [.sink k] => .val (.ok (.str k.text))
  | .parserTrim, [.parserCfg c, b] => .ofOption (b.flag.map fun b => .parserCfg { c with trimWhitespace := b })
  | .parserWhitespace, [.parserCfg c, b] => .ofOption (b.flag.map fun b => .parserCfg { c with whitespaceToCharacters := b })
  | .parserCdata, [.parserCfg c, b] => .ofOption (b.flag.map fun b => .parserCfg { c with cdataToCharacters := b })
  | .parserComments, [.parserCfg c, b] => .ofOption (b.flag.map fun b => .parserCfg { c with ignoreComments := b })
  | .parserCoalesce, [.parserCfg c, b] => .ofOption (b.flag.map fun b => .parserCfg { c with coalesceCharacters := b })
  | _, _ => .stuck

/-- The items of a `for` loop. -/
def RV.items : RV → Option (List RV)
  | .vec l => Option.some l
  | .val (.vec vs) => Option.some (vs.map .val)
  | _ => Option.none

/-- Variables declared by the statements of a block. -/
def Exs.decls : Exs → List Var
  | .nil => []
  | .cons (.letE x _) es => x :: es.decls
  | .cons (.letPair x y _) es => x :: y :: es.decls
  | .cons _ es => es.decls

section
variable {σ : Type} (L : Lib) (ops : Op → List RV → σ → Out × σ) (fuel : Nat)

def runOp (o : Op) (l : List RV) : Exec σ := fun s =>
  match ops o l s.1 with
  | (r, t) => (r, (t, s.2))

mutual

/-- Run an expression; `fuel` bounds the iterations of each `loop`. -/
def eval : Ex → Exec σ
  | .lit v => Exec.val v
  | .var x => fun s => (.val (s.2 x), s)
  | .letE x e => (eval e).bind fun v => Exec.setVar x v
  | .letPair x y e => (eval e).bind fun v =>
    match v with
    | .pair a b => (Exec.setVar x a).bind fun _ => Exec.setVar y b
    | _ => Exec.out .stuck
  | .assign x e => (eval e).bind fun v => Exec.setVar x v
  | .incr x z => fun s =>
    match s.2 x with
    | .int a => Exec.setVar x (.int (a + z)) s
    | _ => (.stuck, s)
  | .mutate x ps m e => (eval e).bind fun v => fun s =>
    match (s.2 x).modAt (m.run v) ps with
    | some r => (.val r.2, (s.1, s.2.set x r.1))
    | none => (.stuck, s)
  | .block es => Exec.inScope es.decls (evalSeq .unit es)
  | .ite c a b => (eval c).bind fun v =>
    match v with
    | .bool true => eval a
    | .bool false => eval b
    | _ => Exec.out .stuck
  | .matchE e as => (eval e).bind (evalArms as)
  | .loop b => Exec.loopN (eval b) fuel
  | .brk => Exec.out .brk
  | .ret e => (eval e).bind fun v => Exec.out (.ret v)
  | .try_ e => (eval e).bind fun v =>
    match v with
    | .ok v => Exec.val v
    | .err m => Exec.out (.ret (.err m))
    | _ => Exec.out .stuck
  | .forE x e b => (eval e).bind fun v =>
    match v.items with
    | some l => Exec.forL x (eval b) l
    | none => Exec.out .stuck
  | .unwrapOrElse e b => (eval e).bind fun v =>
    match v with
    | .some v => Exec.val v
    | .none => eval b
    | _ => Exec.out .stuck
  | .okOrElse e b => (eval e).bind fun v =>
    match v with
    | .some v => Exec.val (.ok v)
    | .none => (eval b).bind fun m => Exec.val (.err m)
    | _ => Exec.out .stuck
  | .call b => Exec.called (eval b)
  | .app f es => evalArgs [] es fun l => Exec.out (f.apply L l)
  | .op o es => evalArgs [] es fun l => runOp ops o l

/-- The statements of a block; `v` is the value of the last one run. -/
def evalSeq (v : RV) : Exs → Exec σ
  | .nil => Exec.val v
  | .cons e es => (eval e).bind fun v' => evalSeq v' es

/-- Arguments, from left to right; `acc` are those before. -/
def evalArgs (acc : List RV) : Exs → (List RV → Exec σ) → Exec σ
  | .nil, k => k acc
  | .cons e es, k => (eval e).bind fun v => evalArgs (acc ++ [v]) es k

/-- `match`: the first arm whose pattern fits. -/
def evalArms : Arms → RV → Exec σ
  | .nil, _ => Exec.out .stuck
  | .cons p e as, v =>
    match p.matches v with
    | some bs => fun s => Exec.inScope p.vars (fun s => eval e (s.1, s.2.setAll bs)) s
    | none => evalArms as v

end

end

/-- What a function returning `Result<_, String>` is to its caller. -/
def Out.result : Out → Res RV
  | .val (.ok v) | .ret (.ok v) => .ok v
  | .val (.err (.str m)) | .ret (.err (.str m)) => .err m
  | .panic m => .panic m
  | .diverge => .diverge
  | _ => .panic c!"stuck"

/-- The `Result` that a call returns, as a value. -/
def Out.ofRes : Res RV → Out
  | .ok v => .val (.ok v)
  | .err m => .val (.err (.str m))
  | .panic m => .panic m
  | .diverge => .diverge

end Yaserde.Rs
