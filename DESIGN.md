# yaserde: formal model and proofs

Everything is Lean 4 (4.33.0), under `lean/Verif`. `cd lean && lake build` checks it.

## 1. Trusted base

* The Lean kernel. Axioms allowed: `propext`, `Classical.choice`, `Quot.sound` (nothing else;
  no `sorry`, no `native_decide`, no own axioms). `lean/Verif/Axioms.lean` collects the axioms
  of every claimed theorem at build time and fails the build if there is any other.
* The reading of `/repo` written down in `lean/Verif/Model/*.lean`. Each definition cites the
  file and lines it renders and states its simplifications.
* xml-rs (external crate, not in `/repo`). What is assumed of it:
  * `EventReader`: delivers a finite list of events and then repeats one final result
    (`EndDocument` or the same error) forever (`Src`).
  * `EventWriter`: `write` appends the event or fails; keeps a stack of open names; rejects an
    end tag without open element or with a different explicit name (`EW.write`).
  * text level: where a theorem talks about text, the laws relating `parse` and `emit` are
    explicit hypotheses of the theorem (`Lib` is a parameter). `Model/XmlText.lean` is a
    concrete character-level emitter/parser written from xml-rs' documented behaviour; the
    laws are proved for it, so the hypotheses are satisfiable.
* Rust std: `Display`/`FromStr` of integers and bool are modelled (`Model/Prim.lean`);
  floats are uninterpreted (`Lib.showF32` ...), laws about them are hypotheses.

## 2. What is modelled

| code | model |
|---|---|
| `yaserde/src/de/mod.rs` (all of `Deserializer`, `from_str`) | `Model/De.lean`, `Model/DeEnum.lean` |
| `yaserde/src/ser/mod.rs` | `Model/Ser.lean` |
| `yaserde/src/primitives.rs`, `serialize_type!` of `yaserde/src/lib.rs` | `Model/Ser.lean`, `Model/DeEnum.lean` |
| `yaserde_derive/src/common/*` | `Model/Schema.lean` (results), `Model/Macro.lean` (parsing of types and options) |
| what `yaserde_derive/src/{de,ser}/*`, `primitives.rs` panic on, or what does not compile afterwards | `Model/Macro.lean` |
| `yaserde_derive/src/de/*` | `Model/DeStruct.lean`, `Model/DeEnum.lean` |
| `yaserde_derive/src/ser/*` | `Model/Ser.lean` |
| `yaserde_derive/src/primitives.rs` | `PrimDef` in `Model/Schema.lean`, `Model/Primitives.lean` |
| the `quote!` templates of `yaserde_derive/src/{de,ser}/*` as programs of a fragment of Rust | `Model/Rust.lean` (the fragment and how it runs), `Model/GenDe.lean`, `Model/GenSer.lean` (the templates) |
| the same functions of `yaserde/src/de/mod.rs:43-90`, `yaserde/src/primitives.rs`, `serialize_type!` as programs of that fragment | `Model/Runtime.lean` |
| the entry functions, `Config::default` and the constructors of `Serializer` and `Deserializer` (`yaserde/src/ser/mod.rs:11-89, 125-133`, `yaserde/src/de/mod.rs:9-41`) as programs of that fragment | `Model/Entry.lean` |
| programs with hand-written `YaDeserialize`; those of `yaserde/tests/deserializer.rs:246-269, 807-831` | `Model/User.lean` |
| programs with hand-written `YaSerialize`; that of `yaserde/tests/serializer.rs:385-409` | `Model/UserSer.lean` |
| the local `i32` counter of `expand_struct.rs:413-457`, with overflow checks or wrapping | `Model/Counter.lean` |
| the nesting of the calls of the generated deserializers (`expand_struct.rs:89,163,213,217`, `expand_enum.rs:268`) and serializers (`ser/expand_struct.rs:99-347`, `ser/expand_enum.rs:198-303`) | `Model/Frames.lean` |
| names of the generated visitors (`get_visitor_ident`, `to_upper_camel_case` of `heck`, ASCII) | `Model/Visitor.lean` |
| the visitor types, the trait `Visitor` with its default methods, the calls by name | `Model/Call.lean` |
| integers, bool, `split_whitespace` of std | `Model/Prim.lean` |
| xml-rs text level | `Model/XmlText.lean` |

The derive macros print one `serialize`/`deserialize` function per user type. The model is
the interpreter of that printed code with the type definition (`TypeDef`, `Env`) as a
parameter, so theorems quantify over all user types at once. That the interpreter is right about the printed code is itself a
theorem (C76 for reading, C77 for writing): `Model/GenDe.lean` and `Model/GenSer.lean` print the templates as programs, statement by statement and with the identifiers of the
templates, in a fragment of Rust (`Model/Rust.lean`: `let`, assignment, blocks and scopes, `if`, `match`, `loop`, `for`,
`break`, `return`, `?`, closures called where they are passed), and running them is proved to be the interpreter. `Model/Runtime.lean` does the same for the functions of the run-time library
that the printed code calls (C85), down to `EventReader::next` and `EventWriter::write` of xml-rs. Left to trust
there: that the templates are copied correctly, and the evaluator of the fragment (no types and no borrowing: `&`, `clone`,
`to_owned`, `as_str` are the identity; a program rustc would reject panics with the message `stuck`, which C76 and C77 exclude).

Outcomes are explicit: `Res = ok | err | panic | diverge`. Loops take a step budget; a run that
never returns is one whose outcome is `diverge` for every budget.

Not modelled: the token-stream level of the macros (`Model/Macro.lean` starts from the trees `syn` and
`serde_tokenstream` deliver), errors of rustc that do not depend on the shape of a field (names that do not
resolve, missing implementations for user types; clashes of visitor names are C75, not part of C63), logging, `bench`, the `yaserde::de::from_reader`
I/O errors of the underlying `Read` (they are xml-rs parse errors: `Src.fin`), DTD/DOCTYPE. The local `i32` counter of the generated struct deserializer is
unbounded in `Model/DeStruct.lean`; `Model/Counter.lean` has it with its width, and C81 is the difference.
Generic types are in `Model/Generic.lean` only; by C90 their instances are types without parameters (associated types, lifetimes and constants as parameters, and the bounds
of `where` clauses are left out).
The stack of the process is unbounded except in `Model/Frames.lean`, which counts calls of generated deserializers and
serializers (not bytes); C82 and C84 are the difference. The drop of a deep value is recursive in the same way and is not counted.
Types that the macros or rustc reject are outside the class: `text` on non-string fields,
attribute fields in enum variants, tuple structs, tuple variants with several fields,
deserialization of `Vec<Option<_>>`/`Option<Vec<_>>` (`unimplemented!`).

## 3. Method

* Runtime (`Deserializer`): abstraction of the reader state to the list of still visible
  events (`visible`), all operations characterised on it.
* Compositional invariants: predicates on computations closed under sequencing, proved once
  for every construct of the generated code, hence for every type: independence from
  comments (C18), budget monotonicity (C27), depth accounting (C03, C06), panics.
* Refinement: the generated struct deserializer run on the events of a tree equals a
  declarative `decode` of the tree (C08); the serializer's events are those of a declarative
  `encode` tree (C31). Round trip (C50) is their composition with the text laws.
* Where a property is false of the code, the negation is proved on a concrete witness, and a
  `_partial` theorem keeps the part that holds.
* `lean/Verif/Tests/` replays the repository's own test documents and example programs through the
  model (fidelity check, no claims rest on it).

## 4. Where model and code may differ

* Namespaces of a type are a list in the model; the macro keeps them in a `BTreeMap`, so the list is in
  prefix order without repetitions when it comes from a real program (`C66`). Theorems hold for every list. The tables of
  events are kept in prefix order, as in xml-rs.
* The callback of `skip_element` runs after the whole element has been skipped instead of event by event. This makes a
  difference only if the events of a document are not balanced (then `skip_element` meets `EndDocument`), which xml-rs
  reports as a parse error instead. `Model/GenDe.lean` runs it event by event, so C76 covers this step too: with
  well-formed documents the difference cannot be seen, also while a run has not come to an end.
* The namespace tables inside reader events contain only declared prefixes (xml-rs adds the built-in `xml`
  and `xmlns` ones); generated code looks namespaces up by prefix only when it re-emits events.
* `flatten` on the payload field of a variant has the effect of `flatten` on the variant, apart from one case that rustc
  rejects; it is encoded as the latter.
* `usize`, `isize`, `char` and other names for scalar types (`type Id = u32`) are types of the user's to the macros
  (they go by the last segment of the path). Their `YaSerialize` is that of `serialize_type!`: text without an element, write
  errors dropped. They are `PrimDef`s with `bare := true` (C78). They have no `YaDeserialize`; the theorems about reading back
  (`Canon.prim`, `Inverts`, `HasElement`) exclude them.
* A type with `Display` and `FromStr` (`PrimitiveYaSerde`, `DefaultYaSerde`, `HexBinaryYaSerde`) is a `PrimDef`:
  two functions and the set `dom` of its values. `Model/Primitives.lean` has those the derive macros generate.
* The parser of `XmlText` accepts names that end in a colon.
* `XmlText` turns every carriage return in a text into a line feed, so that CR LF inside a text is read as two line feeds; XML
  prescribes one. The source of xml-rs is not in `/repo`, so which of the two it does has not been checked. `Spec/Spell.lean`
  (C74) follows `XmlText` here: for texts with CR LF between other characters, C74 says nothing about the real library.
* `XmlText` writes namespace names as they are, without escaping, as we remember xml-rs 0.8 to do; its source is not in
  `/repo`. `C26_false_namespace` and `C59_false_flat` rest on this.
* The panic messages of `unwrap` omit the `Debug` rendering of the error.
* `usize` overflow: `depth` is a natural number and its decrement at 0 a panic (as in debug builds).

## 5. Properties

(See `properties.jsonl` for the statements, `MANIFEST.json` for theorem names. "False" means: the negation is
proved on a concrete witness, and the theorem with suffix `_partial` keeps what holds.)

Reading:

| id | how |
|---|---|
| C01-C05 | theorems about `peek`, `nextEvent`, `skipElement`, `readInnerValue` on arbitrary readers |
| C06 | depth invariant: a struct loop ends with Ok only in front of the end tag of its own element |
| C07 | false: a struct at the end of the document loops, an enum in itself recurses; partial: all conforming documents, all documents that end in a parse error (measure: remaining events and rank of the type). Structs of scalars: exact (`C07_scalars_iff`), with the invariant "the reader is inside the document element" (`Room`, Proofs/Room.lean): each step consumes an event other than the end tag of the document element, or stops in front of it; the only way out is a document element that is consumed as the text of a field. All texts: a run that is not finished within a budget linear in the number of events never is (`C07_bound`; Proofs/Bound.lean: the runs for all budgets from a bound on agree, or all diverge), which makes non-termination of a concrete document provable by one run (`C07_false_inside`). Documents to which C94 applies are finished, whatever the outcome (`C07_open_partial`) |
| C08 | false if an element is named like a field of its own type; partial: conforming documents, refinement of `structDeser` to the tree specification, induction on the tree. Field by field (`C08_ok_fields_partial`, and through `OkDoc` C11-C14, C19, C21) also documents of recursive types (`Readable`, Proofs/Readable.lean, from C94) |
| C09-C14, C16 | false of documents with elements inside scalars (C16: with flattened fields), see `Props/AnyDoc.lean`; partial: conforming documents and (Props/RecursiveDoc.lean) documents of recursive types, consequences of the specification; in recursive types an unknown child inserted first may be read as a value (`C09_recursive_false`). For all documents: `C14_absent`, `C11_no_more_items` (from C69) |
| C15 | every document: the first start tag decides |
| C17 | programs without flattened fields: all documents, by running both documents in lockstep (`Proofs/Rename.lean`; the two readers agree but for the end tag at depth 1). False with flattened enums (`C17_false`) |
| C18 | simulation: computations depend on the visible events only |
| C19 | root: direct; children: from C69, every document; for conforming documents, two that agree on the children of the field's own namespace give the field the same value |
| C20 | false for several runs of text; partial: the last run |
| C21 | false of content that names a variant further inside; partial: conforming documents, refinement of `enumDeser` |
| C22 | false (numeric payload of a variant is `unwrap`ped). For every program and text this is the only panic, and it needs such a variant among the types reachable from the type read (`Spec/Panic.lean`; compositional predicate `NPat A` saying which panics are possible); conversely such a payload, empty or malformed, does panic, and for enums of scalars this is an equivalence (`C22_enum_iff`); structs of scalars in any program (the deserializers of other types are not called, `structDeser_rec`) |
| C23, C24, C51 | arithmetic on digit strings; the range of a type is given by its number of bits |
| C68 | from the specification: the texts of the attribute, put into an element, are documents of their own. False if the value is to be read as data |
| C69 | invariant of the loop of a generated deserializer (`Proofs/Forward.lean`): reading only moves forward, and what is in the variable of a field comes from what has been passed |
| C70 | tagged enums. Reading: the first start tag decides, as in C15; writing: the encoding (C39); round trip: as C50, the element is empty. False of payloads (`C70_false`, `_struct`, `_named`) and of content (`_content`) |
| C71 | cut-off texts, on characters. Invariant of the parser (`Opened`: complete elements, then open ones that match the stack), one step adds at most one end tag and then stands between tags, so the first end tag at depth 1 ends a complete document; the last character of an emitted text is the one that ends the document element. False of unit variants and primitives (`C71_false`) |
| C72 | prefixes, declarations, attribute order. Two runs in lockstep (`Twin`, `Duo`): readers over pointwise related streams stay related through every function of the generated code; the only place where a whole name (with prefix) is compared is `read_inner_value`, where it is the name of the same element on each side because at most one text has been consumed in between; attributes are loaded by local name, so only the values per local name count. `Untagged`: the error for a missing tag attribute prints the event. Needs end tags that match start tags, proved of the text parser for all texts. Attributes with equal local names in different namespaces: `C72_attributes_with_equal_local_names` |
| C73 | two versions of a program (`Grow`, Spec/Evolve.lean). Proved on the declarative reading, field by field: a common field is made from the same inputs in both versions (`fieldInputs_foll`), an added one from none. One induction for both directions (`Foll`). Conformance carries over (`confN_down`, `confWith_up`). Documents of recursive types: the condition of C94 carries over as well, in both directions (`treeNode_follows` in Proofs/EvolveTree.lean, one induction over the document for both). Other documents are out of scope here (there the generated loop's depth counter can go wrong, see C07) |
| C74 | spellings (`Spec/Spell.lean`): a grammar of XML documents without reference to the parser (references, CDATA, comments, white space in tags, quotes, empty-element tags, processing instructions; no document type declarations). Proved for the parser of `XmlText` by induction over the grammar (`parse_spelling`). False of processing instructions inside a text (`C74_false`): they cut it in two, so the grammar lets them end a text |
| C26 | false next to malformed scalar children, and when a namespace name contains a quotation mark (it ends up unescaped in the document assembled for the flattened field, `C26_false_namespace`); partial: conforming documents, through the text law (the flattened field is read from the re-emitted remains) |
| C25 | as C13; words are described by `Words` (`Spec/Words.lean`), independently of the model's `splitWhitespace` |
| C27 | monotonicity in the step budget |
| C28 | locality of computations in the remaining input; false for documents that are not accepted; structs of scalars: all documents whose document element is not taken for a field; all outcomes where C94 applies |
| C62 | compositional predicate "every value returned has the type", for every construct of the generated code, hence for all documents |

Writing:

| id | how |
|---|---|
| C30, C31, C35-C37, C40, C41 | refinement of `serTy` to the declarative tree `encode` |
| C32 | false for attributes, text fields and attributes of flattened structs; partial: all others, and flattened structs that keep their attributes (`C32_field_partial`) |
| C33 | consequence of the refinement, with the exception of text fields (witness) |
| C34 | the tree written does not depend on the strings in the value; read back through the text law. False for CDATA |
| C38 | false for scalars written through their own `YaSerialize` (witness); as stated otherwise. Every program: a list of writes, some of whose errors go unnoticed (`performWrites`, Spec/Encode.lean), determines what every writer gets; one induction over the value for both (`Writes`, Proofs/Encode.lean) |
| C39 | refinement with the `skip` flag; false for flattened variants; exact for those variants as well (`C39_flattened`) |
| C42 | serializer flags are overwritten before use; for a flattened variant they are those of the place |
| C78 | case distinction over the block of a field (C31). False of `usize` and the like (`C78_false`) |
| C61 | the tree written satisfies the XML well-formedness conditions (`WNode.Ok`); the parser of `XmlText` accepts it and reads the same tree; the text is in the grammar of `Spec/Spell.lean`, which does not mention the parser (`C61_grammar`, by induction over the emitter's run). Witnesses for what the naming conditions rule out |

Both ways. The text law `XmlLaw L` (hypothesis; proved for `XmlText`): a tree that satisfies `WNode.Ok`, emitted with any
white-space layout, is parsed as the events of that tree with adjacent texts merged and trimmed (`doc`); so is a fragment
emitted on its own and put into an element by hand, which is how attributes of derived types are read (`frag`); text is
delivered with the characters it was written with (`chars`).

| id | how |
|---|---|
| C43 | layout: all configurations of a legal value are read with the same result (from the text law alone). For the modelled emitter and parser the same holds of every value (`Props/Layout.lean`): white space before a tag leaves the parser in the same state, or in one that fails in the same way (`Proofs/Layout.lean`), as long as the serializer writes no `<` in names (`Proofs/LayoutSer.lean`). False otherwise (`C43_false`): a namespace that opens a CDATA section |
| C44 | injectivity on canonical values; false for `Vec` attributes (never written) |
| C50 | composition of C31, the text law and C08. `C50_simple_partial`: no namespaces, no flatten, all tame values; `C50_tame_partial`: all tame values with namespaces and flatten (`Carries`: attributes and payloads can hold whatever their type has); `C50_round_trip_partial`: single values with namespaces and flatten under `RtOk` (names do not clash, one meaning per prefix), canonical values (`Canon`). False in general: a recursive field is taken for its own first child `C50_recursive_partial`: structs written under the name of one of their own fields; such a document conforms to the program in which the struct's own element has that name (`Env.owned`: writing does not look at it, and of reading only conformance does), so the tree shows the value as before, and C94 applies because an element that comes first belongs to that field (`Proofs/Namesake.lean`) |
| C52, C53 | exact characterisation of the surviving values as document element; C53 false: hexadecimal is read as decimal |
| C54-C58, C60 | exact characterisations where possible (`_iff`), witnesses for each failing case |
| C59 | everything read from a document without references to tabs and carriage returns is canonical (invariant over the whole interpreter, arbitrary documents), so one round trip settles it. The documents assembled for flattened fields must be of the same kind (`Relays`); this is proved for documents without number signs (`Proofs/Relay.lean`: such documents give events without, whose text has none), since namespace names are not escaped. False for references to tabs and carriage returns, also in disguise (`C59_false_flat`) |

Macros:

| id | how |
|---|---|
| C63 | `deAccepts`, `serAccepts` run the checks in the order of the expansion passes; equivalent to the tables of `Spec/Macro.lean` |
| C64 | `Denotes` is an inductive description of types; false for two groups around an argument |
| C65 | `Options`/`Means` describe the result key by key; false: second attribute, misspelt keys |
| C66 | `toDef` from syntax to the definitions the interpreter takes; total on accepted items, its results satisfy `SerOk` and `Plain` |
| C67 | false: `r#type` is not an XML name; no conforming document contains the field, and no text at all (well formed or not) makes the parser deliver such a name (`Proofs/ParseNames.lean`, invariant of the parser states) |
| C76 | simulation between the evaluator on the printed templates and the interpreter, template by template (`Proofs/GenDe.lean`, `GenFun`, `GenStruct`, `GenLoop`, `GenWhole`, `GenEnum`), with an invariant relating Rust variables to the interpreter's state; calls between types by induction on the budget (`GenKnot`), monotonicity of the evaluator (`GenMono`). The hypotheses are those of the macro's acceptance (C63) and different field names |
| C77 | the same for the serializing templates (`Proofs/GenSer.lean` rules for running programs, `GenSerStruct`, `GenSerAttrs`, `GenSerImpl`, `GenSerEnum`); calls between types by induction on the size of the value, monotonicity in the budget (`GenSerKnot`). Macro hygiene: named fields of variants are bound next to the template's own variables; `C77_false_capture` has the two names that are captured |
| C79 | C76 and C77 put together, applied to C22, C41, C50 and C62; `C79_round_trip` is an equivalence, so the negative results about round trips are about the printed programs too |
| C80 | a hand-written implementation is an arbitrary function of the reader (`Impls`); the contract `Obeys` is what C08's proof uses of the implementations of the fields' types, so the refinement proof is repeated over arbitrary ones; `C80_greedy` shows the contract is needed, `C80_day`/`C80_attributes` that the repository's implementations keep it |
| C81 | the loop again, with the counter an `i32` (overflow checks or wrapping); the two loops agree as long as the counter is bounded by the number of events taken (invariant: counter ≤ events taken, and every call takes at least as many events as it counts); beyond, induction over the children |
| C82 | the deserializers again, with a number of nested calls that is counted down apart from the budget of the loops (`deserF`; no calls left = stack overflow); simulation between the deserializer with a given bottom and with another (`Rel`), the bottom is not reached within the rank of an acyclic type, and not before the events are used up for a ranked one; lower bound by induction over the nesting |
| C83 | the serializers again, over arbitrary implementations of the types of fields (`SerRec`), hand-written ones overriding derived ones and all given a number of nested calls (`serB`); the trees of a value as a fixed point around those of hand-written types (`Encoding.Derived`: exists, unique); the contract `SerObeys` holds from some number of calls on, by induction on the value's type; the repository's implementation by cases on the writes |
| C84 | `serB` with a bottom that overflows the stack; two stacks of implementations that agree on the values inside a value give the same for the value (`serTyBy_congr`), so by induction the bottom is not reached within the longest chain (`Nests`); lower bound by induction over the nesting |
| C85 | the bodies of the methods are run symbolically (`eval` unfolded by `simp`) for every event and every field of the reader; the loop of `inner_next` by induction over its budget; then the operations of `deOps` are those programs, and C76 and C77 apply |
| C86 | potential argument: every event still to be read is worth a constant times its size (`Rd.pot`, `Pays`); a Hoare logic over the reader (`Wt`) shows that each deserializer either takes nothing and returns a constant of the program, or is paid for by the events it takes and the one in front (`Paid`), with something left over for each level of enums; events delivered are paid for by the characters of the text (`XmlText.parse_size`, invariant of the parser). An attribute of a derived type is read as a document of its own; that document is larger than the value by at most 3 (`XmlText.attrDoc_size`: whatever the state in which the value leaves the parser, the end tag adds two events at most), and an attribute takes 5 characters besides its value, so that the same price pays for the document; the documents for the words of a `Vec` have no attributes (`bare_attrDoc`), which leaves a factor 3 for splitting. The doubling program: conformance and reading of the nested documents by induction (`Props/Size.lean`, via C74 and C08); the same for two attribute fields that take the same attribute (`Props/SizeAttr.lean`, `Props/SizeScalar.lean`) |
| C87 | cost of a tree (`XmlText.cost`, with a parameter for what escaping costs), what the emitter writes is bounded by it and the number of events (`wt_emit`, invariant of the emitter's state); the tree of a value is within a budget by strong induction on the size (`budgeted`). Three instances of the same induction: escaping costs nothing (number of events), number of special characters (escaping keeps it: `specials_escAttr`), length. Quadratic programs by induction on the nesting (`Props/OutSize.lean`) |
| C88 | what a struct around arbitrary types is written as (`Encoding.Derived`, C83) is, field by field, what it is read from (C80): `Proofs/Mixed.lean` shows that the attributes and children written satisfy the hypotheses of C80 and that decoding them gives back the fields, given that each item is `ReadsBack`. `Proofs/Part.lean`: a part of the program that is closed under the types of its fields and entirely derived is written (trees and code) and read as a program of its own, so that C50 applies. Example: a struct with prices converted to and from a derived type by hand, for all prices |
| C89 | the entry functions as programs (`Model/Entry.lean`) over the configurations, buffers and readers of xml-rs; each is evaluated symbolically for every `serialize`/`deserialize` it may call (`Proofs/Entry.lean`), and put in the place of the operations `from_str` and `to_string_content` of the printed programs of C76, C77 and C85 (`Props/Entry.lean`) |
| C90 | definitions with parameters and the types written in them (`Model/Generic.lean`); the generated code is invariant under a change of the paths of field types (`Proofs/Generic.lean`: definition by definition, then induction on the nesting of calls), except that `struct_id` of attributes must stay; every instance gets a path of its own (types are countable) with the same `struct_id`. Rejection by the compiler is `DeCompiles`: which types the visitor items mention. Witnesses for the three ways it fails |
| C91 | the types inside a type (`TypeInside`, `Spec/Local.lean`); the generated code calls the code of the types its definition contains and no other, which is C90's invariance with the names left as they are |
| C92 | visitor items, the trait `Visitor` with its defaults, and calls by name (`Model/Call.lean`); the printed code is parametrised by what its calls resolve to, and resolution is shown to give each call the body of its own field's type when names differ (`find_named`); then the program is the one of C76 |
| C93 | `Spec/Expose.lean`: `exposedKids` moves the elements out of scalars, `afloatKids` follows the loop's counter; the loop over the children is proved in continuation-passing form by induction on the number of events (`structLoop_exposed`), as the loop goes down into a scalar without a call and comes out again; `C93_counter_needed` is the witness that the counter matters |
| C94 | `Spec/Open.lean`: `openStruct` and its companions, a structural recursion over the document that has the code's error order; the loop as in C93 with an arbitrary reading of the children (`structLoop_open`), the swallowed start tag in `structStart_taken`; `SameOk` (same successes) is closed under reordering of the reads, whence `C94_recursive`; `Proofs/OpenExposed.lean` gives C93 back |
| C95 | two programs related by `ReadAlike` or `WriteAlike` (Spec/Options.lean: what the direction depends on); one lemma per function of the generated code (Proofs/Options.lean), then induction on the budget for reading and on the depth of calls for writing (`serB`, as in C90). That the default of a `Vec` does not matter to reading needs an invariant of the loop: its local variable stays a list (Proofs/VecSlots.lean). `Env.mapFields` gives the corollaries on single options |
| C96 | `SameOut` (Spec/Unwritten.lean) relates the values field by field, with a mode in which only attributes and declarations count (for flattened structs that are not written themselves); induction on it, on the tree that is written (`serialize_eq`): an unwritten field contributes the same (mostly nothing) for both values, any other as in C32 |
| C97 | the newer program is the older one with variants appended (`Env.Gains`, Spec/NewVariant.lean). Reading: both run in lockstep on readers whose remaining events do not have the new names (`Lock`, Proofs/NewVariant.lean), one lemma per function, induction on the budget; hidden variants: `findVariant` on the longer list finds the same. Writing: `serTyBy_congr` of C84 with "is a value of the older program" as the predicate |
| C98 | the newer program is the older one with optional fields appended to structs (`Env.Widened`, Spec/NewField.lean; values are related by `Widens`). Both run side by side on readers whose remaining events do not have the new names (`Side`, Proofs/NewField.lean): same reader after each function, same kind of outcome, related values; the slots of the newer struct are those of the older one and further ones still in their initial state (`SlotsRel`). Induction on the budget. `widens_fun`: the value of the newer program is determined |
| C75 | false (`x1`/`x_1`, `ID`/`id`, and every `camelCase` beside its `snake_case`: `C75_camel`). Names in camel case contain no underscore, so the parts of a visitor's name can be told apart; words of lower-case letters are recovered from the upper-case letters (`capitalize_inj`) |

## 6. Seeded errors

`seeded/LOG.jsonl` records edits of the model in a scratch copy, the claim each one breaks and the theorems that stopped
proving. Theorems that kept proving although their claim was broken were restated (field `tightened`).
