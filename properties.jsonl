{"id": "C01", "title": "peek is pure look-ahead", "statement": "Calling `Deserializer::peek` any number of times, at any moment, changes nothing observable: the event it returns is the one the next `next_event` returns, `depth()` is unchanged, and every later `peek`/`next_event`/`depth` answers as if `peek` had not been called.", "quantifier": "every document (well-formed or not), every reader position, every later sequence of calls", "why_tests_cant": "a test fixes one document and one call sequence; hand-written YaDeserialize impls interleave calls arbitrarily", "anchors": ["yaserde/src/de/mod.rs:Deserializer::peek", "yaserde/src/de/mod.rs:Deserializer::next_event"]}
{"id": "C02", "title": "Any interleaving of peek/next_event reads the document's events exactly once, in order", "statement": "For any interleaving of `peek` and `next_event`, the events returned by the `next_event` calls are exactly the document's events in document order with the XML declaration, processing instructions and comments removed - none lost, duplicated or reordered - and after the last one every call reports the same end (EndDocument or the same parse error).", "quantifier": "every event stream, every finite schedule of calls", "why_tests_cant": "schedules and documents are unbounded", "anchors": ["yaserde/src/de/mod.rs:Deserializer::inner_next", "yaserde/src/de/mod.rs:Deserializer::peek", "yaserde/src/de/mod.rs:Deserializer::next_event"]}
{"id": "C03", "title": "depth() counts the open elements", "statement": "After any sequence of successful calls `depth()` equals the number of start tags consumed minus the number of end tags consumed, and on a well-nested event stream no call ever panics through counter underflow.", "quantifier": "every well-nested event stream, every call sequence", "why_tests_cant": "needs an invariant over unbounded runs", "anchors": ["yaserde/src/de/mod.rs:Deserializer::next_event", "yaserde/src/de/mod.rs:Deserializer::depth"]}
{"id": "C04", "title": "skip_element consumes exactly the current element", "statement": "After the start tag of an element has been consumed, `skip_element` consumes precisely the rest of that element including its end tag, whatever is nested in it; the callback is called once per consumed event in document order; afterwards the next event is the one following the end tag and `depth()` is one less than before the call.", "quantifier": "every element content of any depth and size, every following input", "why_tests_cant": "nesting depth is unbounded; same-named nested elements are the classic error", "anchors": ["yaserde/src/de/mod.rs:Deserializer::skip_element"]}
{"id": "C05", "title": "read_inner_value is all-or-nothing about element boundaries", "statement": "If `read_inner_value` succeeds then it consumed one start tag, exactly what the closure consumed, and an end tag with the same qualified name as the start tag; if the closure does not stop exactly at that end tag the result is an error, never Ok.", "quantifier": "every event stream, every closure", "why_tests_cant": "ranges over closures and documents", "anchors": ["yaserde/src/de/mod.rs:Deserializer::read_inner_value", "yaserde/src/de/mod.rs:Deserializer::expect_end_element"]}
{"id": "C06", "title": "A truncated or malformed document is never accepted for a struct", "statement": "If the XML text breaks (parse error or end of input) before the root element is closed, `from_str::<T>` for a derived struct T never returns Ok.", "quantifier": "every struct type, every document, every error position", "why_tests_cant": "the error can be at any position of any document", "anchors": ["yaserde_derive/src/de/expand_struct.rs:parse", "yaserde/src/de/mod.rs:from_str"]}
{"id": "C07", "title": "Deserialization terminates", "statement": "`from_str::<T>` returns (Ok, Err) after finitely many steps for every input.", "quantifier": "every derived type, every document", "why_tests_cant": "non-termination cannot be observed by a terminating test; depends on all inputs", "anchors": ["yaserde_derive/src/de/expand_struct.rs:parse (EndDocument arm)", "yaserde/src/de/mod.rs:skip_element"]}
{"id": "C08", "title": "Struct deserialization is determined field by field by the element's attributes and children", "statement": "For a derived struct (attribute, text, scalar, Option, Vec and nested struct fields) and any element whose scalar children contain only text, `from_str` returns exactly the value obtained by the declarative reading: attribute fields from the attributes of that start tag, text fields from its text, every other field from the children with that field's name and namespace, missing ones from the default rule; and Err exactly when that reading fails.", "quantifier": "every such schema, every such document", "why_tests_cant": "infinitely many schemas, documents, nestings and child orders", "anchors": ["yaserde_derive/src/de/expand_struct.rs:parse", "yaserde_derive/src/de/expand_struct.rs:build_call_visitor"]}
{"id": "C09", "title": "Unknown child elements are ignored", "statement": "Inserting, at any position among the children of a derived struct's element, an element that matches no field - with arbitrary attributes and arbitrary nested content, including nested elements named like fields - does not change the result.", "quantifier": "every schema, document, insertion point and inserted subtree", "why_tests_cant": "forward compatibility ranges over all unknown content", "anchors": ["yaserde_derive/src/de/expand_struct.rs:parse (skip_element arm)"]}
{"id": "C10", "title": "Order of differently named children is irrelevant", "statement": "Permuting the children of a struct's element while keeping the relative order of children of the same name does not change the result of `from_str`.", "quantifier": "every schema, every document, every permutation preserving the order of equal names", "why_tests_cant": "factorially many permutations", "anchors": ["yaserde_derive/src/de/expand_struct.rs:parse"]}
{"id": "C11", "title": "Vec fields collect every matching child in document order", "statement": "A `Vec<T>` field contains one item for each well-formed matching child, in document order, even when these children are interleaved with other elements; no limit on their number.", "quantifier": "every number of items and every interleaving", "why_tests_cant": "unbounded length and interleavings", "anchors": ["yaserde_derive/src/de/expand_struct.rs:parse (visit_sub)"]}
{"id": "C12", "title": "Repeated child of a non-Vec field: the last one wins", "statement": "When the element of a non-Vec field occurs several times, the field takes the value of the last well-formed occurrence.", "quantifier": "every document with repeated children", "why_tests_cant": "unbounded repetition", "anchors": ["yaserde_derive/src/de/expand_struct.rs:parse"]}
{"id": "C13", "title": "Attribute fields are read only from the element's own start tag", "statement": "An attribute field gets its value from the attributes of the struct's own start tag, wherever they stand among them; attributes of descendants or siblings never influence it.", "quantifier": "every document, every attribute order, all descendants", "why_tests_cant": "leak through depth counters needs particular shapes of documents", "anchors": ["yaserde_derive/src/de/expand_struct.rs:attributes_loading"]}
{"id": "C14", "title": "Missing fields: required fails, default/Option/Vec filled in", "statement": "If no matching attribute/child is present: a plain field without default gives Err \"<field> is a required field of <Type>\", one with `default` gives the default function's value, Option gives None and Vec gives the empty vector; nothing else is affected.", "quantifier": "every schema, every document lacking the field", "why_tests_cant": "all subsets of fields may be missing", "anchors": ["yaserde_derive/src/de/expand_struct.rs:struct_builder"]}
{"id": "C15", "title": "A malformed attribute value is reported", "statement": "If an attribute for a scalar attribute field does not parse as the field's type, `from_str` returns Err with the parse error's message (it is never replaced by a default).", "quantifier": "every schema, every attribute value that does not parse", "why_tests_cant": "all malformed values", "anchors": ["yaserde_derive/src/de/expand_struct.rs:attributes_loading"]}
{"id": "C16", "title": "A malformed or empty scalar child counts as absent", "statement": "A scalar child element that is empty or whose text does not parse as the field's type has the same effect as if that child were not there.", "quantifier": "every schema, document and malformed text", "why_tests_cant": "all malformed values at all positions", "anchors": ["yaserde_derive/src/de/expand_struct.rs:build_call_visitor"]}
{"id": "C17", "title": "The document element's name does not matter", "statement": "`from_str` for a derived struct gives the same result whatever the name of the document element is (as long as it is not the name of one of the fields).", "quantifier": "every name, every document", "why_tests_cant": "infinitely many names", "anchors": ["yaserde_derive/src/de/expand_struct.rs:parse"]}
{"id": "C18", "title": "Comments, processing instructions and the XML declaration never influence the result", "statement": "Two documents whose event streams differ only in comments, processing instructions and XML declarations give the same result of `from_str`, for every derived type (structs, enums, primitives, flatten).", "quantifier": "every type, every pair of documents", "why_tests_cant": "comments may be inserted at any of unboundedly many positions, including inside scalar elements", "anchors": ["yaserde/src/de/mod.rs:Deserializer::inner_next"]}
{"id": "C19", "title": "Namespace of the document element is enforced", "statement": "If the document element is in a namespace that the type does not declare for its prefix, `from_str` returns Err \"bad namespace for ...\"; a child in another namespace than its field's is never stored in that field.", "quantifier": "every namespace URI, schema and document", "why_tests_cant": "all URIs", "anchors": ["yaserde_derive/src/common/attribute.rs:get_namespace_matching", "yaserde_derive/src/de/expand_struct.rs:parse"]}
{"id": "C20", "title": "Text content field", "statement": "A `text` field of a struct receives the text content of the struct's element.", "quantifier": "every document", "why_tests_cant": "mixed content has unboundedly many shapes", "anchors": ["yaserde_derive/src/de/expand_struct.rs:set_text"]}
{"id": "C21", "title": "Enum deserialization selects the variant by name", "statement": "For an enum field: text equal to a unit variant's (renamed) name gives this variant; a child element named like a one-field variant gives that variant with the payload decoded from this element; anything else gives the enum's Default.", "quantifier": "every enum type, every content", "why_tests_cant": "all variant sets and contents", "anchors": ["yaserde_derive/src/de/expand_enum.rs:parse", "yaserde_derive/src/de/expand_enum.rs:parse_variant"]}
{"id": "C22", "title": "Malformed numbers never panic", "statement": "No document makes `from_str` panic; malformed content is reported as Err.", "quantifier": "every derived type, every document", "why_tests_cant": "a panic may hide in any input", "anchors": ["yaserde_derive/src/de/expand_enum.rs:build_unnamed_field_visitors", "yaserde/src/de/mod.rs:next_event", "yaserde_derive/src/de/expand_struct.rs:write_unused"]}
{"id": "C23", "title": "Integer fields accept exactly the decimal literals in range", "statement": "For each integer type, reading a field's text succeeds iff the text is an optional sign (`-` only for signed types) followed by one or more ASCII digits denoting a number in the type's range, and then gives this number.", "quantifier": "every string, every integer type", "why_tests_cant": "infinitely many strings and lengths, overflow at any digit", "anchors": ["yaserde_derive/src/de/expand_struct.rs:simple_type_visitor", "yaserde_derive/src/common/field.rs:Field"]}
{"id": "C24", "title": "Boolean struct fields accept exactly true, false, 1 and 0", "statement": "Reading a bool field/attribute of a struct succeeds iff the text is one of true, false, 1, 0, with the obvious values.", "quantifier": "every string", "why_tests_cant": "all strings", "anchors": ["yaserde_derive/src/de/expand_struct.rs:simple_type_visitor (map_if_bool)"]}
{"id": "C25", "title": "Vec attributes are white-space separated lists", "statement": "A `Vec<T>` attribute field is the list of the values of the white-space separated words of the attribute, in order, or Err if a word does not parse.", "quantifier": "every attribute value", "why_tests_cant": "all strings and splittings", "anchors": ["yaserde_derive/src/de/expand_struct.rs:attributes_loading"]}
{"id": "C26", "title": "Flattened fields are read from the parent's content", "statement": "A `flatten` struct field is deserialized from the parent's attributes and from those of the parent's children that no other field of the parent claims.", "quantifier": "every schema with flatten, every document", "why_tests_cant": "all splits of children between parent and flattened type", "anchors": ["yaserde_derive/src/de/expand_struct.rs:flatten", "yaserde_derive/src/de/expand_struct.rs:write_unused"]}
{"id": "C27", "title": "The step budget of the model is immaterial", "statement": "If deserialization of an input finishes within some number of steps then every larger budget gives the same outcome; hence `from_str` is a (partial) function of type and document.", "quantifier": "every type, document and budget", "why_tests_cant": "determinism over all runs", "anchors": ["yaserde_derive/src/de/expand_struct.rs:parse", "yaserde_derive/src/de/expand_enum.rs:parse", "yaserde/src/de/mod.rs:skip_element"]}
{"id": "C28", "title": "Content after the root element is irrelevant", "statement": "Whatever follows the root element's end tag (even malformed text) does not influence the result of `from_str` for a derived struct.", "quantifier": "every struct type, every document, every continuation", "why_tests_cant": "all continuations", "anchors": ["yaserde_derive/src/de/expand_struct.rs:parse"]}
{"id": "C30", "title": "Serialized output is one well-formed element", "statement": "For every value of a derived (non-flatten) type, the events written by `serialize_with_writer`/`to_string` are well nested and consist of exactly one root element whose name is the type's (prefixed, renamed) name.", "quantifier": "every type, every value of any size", "why_tests_cant": "balance must hold for all values and nestings", "anchors": ["yaserde_derive/src/ser/implement_serializer.rs:implement_serializer", "yaserde_derive/src/ser/expand_struct.rs:serialize", "yaserde_derive/src/ser/expand_enum.rs:serialize"]}
{"id": "C31", "title": "Fields are written in declaration order, each exactly as specified", "statement": "The children written for a struct are, in declaration order, exactly: one element per scalar field, one per Some, one per Vec item, one element per nested struct, text for text fields; nothing for attribute fields, None, or empty Vec.", "quantifier": "every struct type, every value", "why_tests_cant": "all values", "anchors": ["yaserde_derive/src/ser/expand_struct.rs:struct_inspector"]}
{"id": "C32", "title": "skip_serializing keeps a field out of the output", "statement": "The output for a struct does not depend on the value of a field marked `skip_serializing`.", "quantifier": "every type, every pair of values differing only in such fields", "why_tests_cant": "information-flow statement over all pairs of values", "anchors": ["yaserde_derive/src/ser/element.rs:condition_generator", "yaserde_derive/src/common/field.rs:ser_wrap_default_attribute"]}
{"id": "C33", "title": "skip_serializing_if and default suppress exactly the selected values", "statement": "An element or attribute field with `skip_serializing_if = f` (or `default = g`) is written iff f is false on it (and it differs from g()), and then it is written unchanged.", "quantifier": "every value, every user function", "why_tests_cant": "ranges over user functions", "anchors": ["yaserde_derive/src/ser/element.rs:condition_generator", "yaserde_derive/src/common/field.rs:ser_wrap_default_attribute"]}
{"id": "C34", "title": "User strings cannot inject markup", "statement": "String data reaches the output only as character data, CDATA or attribute values: the tree of element and attribute names written for a value depends only on the lengths of its Vecs, on which Options are set, on the variants and on the skip decisions - never on the contents of strings; and reading the text back gives the same tree.", "quantifier": "every pair of values of the same shape, every string", "why_tests_cant": "all strings including markup characters", "anchors": ["yaserde_derive/src/ser/expand_struct.rs:struct_inspector", "yaserde_derive/src/ser/element.rs:enclose_xml_event"]}
{"id": "C35", "title": "Names: rename and prefix", "statement": "The element or attribute name written for a field is its `rename` (or identifier), preceded by `prefix:` iff the field has a prefix that is not the struct's default namespace; the same rule gives the root name.", "quantifier": "every schema", "why_tests_cant": "all combinations of attributes", "anchors": ["yaserde_derive/src/common/field.rs:renamed_label", "yaserde_derive/src/common/attribute.rs:prefix_namespace", "yaserde_derive/src/ser/label.rs:build_label_name"]}
{"id": "C36", "title": "Flattened fields are written inline", "statement": "A flattened struct field contributes its children at its position without an enclosing element, and its attributes appear on the parent's start tag.", "quantifier": "every schema, every value", "why_tests_cant": "all values", "anchors": ["yaserde_derive/src/ser/expand_struct.rs:serialize", "yaserde_derive/src/ser/implement_serializer.rs:serialize_attributes"]}
{"id": "C37", "title": "All declared namespaces are declared on the root start tag", "statement": "Every prefix in `namespaces` (the default one as xmlns=) is declared on the start tag written for the type, with the configured URI; namespaces of flattened fields are added unless the prefix is already taken; the declarations are written in the order of the prefixes.", "quantifier": "every schema, value", "why_tests_cant": "all namespace tables", "anchors": ["yaserde_derive/src/ser/namespace.rs:generate_namespaces_definition", "yaserde_derive/src/ser/implement_serializer.rs:implement_serializer"]}
{"id": "C38", "title": "Write errors are reported", "statement": "If the underlying writer fails at any write, serialization returns Err and writes nothing more; if it returns Ok then every event was written.", "quantifier": "every type, value and failure point", "why_tests_cant": "every crash point of the writer", "anchors": ["yaserde/src/ser/mod.rs:Serializer::write", "yaserde/src/primitives.rs:serialize_primitives", "yaserde/src/lib.rs:serialize_type!"]}
{"id": "C39", "title": "to_string_content is the content of to_string", "statement": "`to_string_content(v)` writes exactly the events of `to_string(v)` without the root start and end tags (and without the XML declaration).", "quantifier": "every derived type, every value", "why_tests_cant": "all values", "anchors": ["yaserde/src/ser/mod.rs:to_string_content", "yaserde/src/ser/mod.rs:Serializer::new_for_inner"]}
{"id": "C40", "title": "Attributes are written on the start tag in declaration order", "statement": "The start tag of a struct carries exactly one attribute per attribute field that is set (plain, or Some), in declaration order, with the Display text of the value, followed by the attributes of flattened fields.", "quantifier": "every struct type, every value", "why_tests_cant": "all values", "anchors": ["yaserde_derive/src/ser/expand_struct.rs:append_attributes"]}
{"id": "C41", "title": "Serialization never panics and does not fail by itself", "statement": "For every well-typed value of every accepted type, serialization to a writer that does not fail returns Ok.", "quantifier": "every type, every value", "why_tests_cant": "all values", "anchors": ["yaserde_derive/src/ser/expand_struct.rs:serialize", "yaserde_derive/src/ser/expand_enum.rs:serialize"]}
{"id": "C42", "title": "Serializing does not depend on the history of the serializer", "statement": "The events written for a nested value are determined by the value, its type and its field label only: values written before it through the same serializer do not influence them.", "quantifier": "every type, every pair of histories", "why_tests_cant": "all histories", "anchors": ["yaserde/src/ser/mod.rs:set_start_event_name", "yaserde/src/ser/mod.rs:set_skip_start_end"]}
{"id": "C43", "title": "Configuration changes layout only", "statement": "Documents produced with any `Config` (indentation on or off, any white-space indent string, with or without XML declaration) deserialize to the same result.", "quantifier": "every value, type, configuration", "why_tests_cant": "all values and indent strings", "anchors": ["yaserde/src/ser/mod.rs:Config", "yaserde/src/ser/mod.rs:new_from_writer"]}
{"id": "C44", "title": "Distinct values have distinct serializations", "statement": "Two different (canonical) values of a derived type never serialize to the same text.", "quantifier": "every pair of values", "why_tests_cant": "all pairs", "anchors": ["yaserde_derive/src/ser/expand_struct.rs:serialize", "yaserde_derive/src/de/expand_struct.rs:parse"]}
{"id": "C50", "title": "Round trip for structs", "statement": "For every derived struct type (attribute, text, scalar, Option, Vec, nested and recursive struct fields) and every canonical value v, `from_str(&to_string(&v)) == Ok(v)`.", "quantifier": "every type of the class, every value, any nesting", "why_tests_cant": "infinitely many types and values", "anchors": ["yaserde/src/ser/mod.rs:to_string", "yaserde/src/de/mod.rs:from_str"]}
{"id": "C51", "title": "Round trip of integers and booleans", "statement": "For each of the eight integer types and bool, parsing the Display text of any value gives the value back.", "quantifier": "all 2^64 values of each type", "why_tests_cant": "too many values", "anchors": ["yaserde_derive/src/common/field.rs:Field", "yaserde/src/lib.rs:serialize_type!"]}
{"id": "C52", "title": "Round trip of PrimitiveYaSerde / DefaultYaSerde types", "statement": "For a type whose FromStr inverts its Display, a field of the type round-trips for every value.", "quantifier": "every such type, every value", "why_tests_cant": "ranges over user impls", "anchors": ["yaserde/src/primitives.rs:serialize_primitives", "yaserde/src/primitives.rs:deserialize_primitives"]}
{"id": "C53", "title": "Round trip of HexBinaryYaSerde types", "statement": "A value of a HexBinaryYaSerde newtype is read back unchanged from its serialization.", "quantifier": "every value", "why_tests_cant": "all values", "anchors": ["yaserde_derive/src/primitives.rs:hexbinary_serde"]}
{"id": "C54", "title": "Round trip of enums", "statement": "For every enum with unit and one-field variants and every value, a field of this type round-trips.", "quantifier": "every enum type and value", "why_tests_cant": "all types and values", "anchors": ["yaserde_derive/src/ser/expand_enum.rs:serialize", "yaserde_derive/src/de/expand_enum.rs:parse"]}
{"id": "C55", "title": "Round trip of strings", "statement": "Every String field value is read back unchanged.", "quantifier": "every string", "why_tests_cant": "all strings: empty, blank, markup, control characters", "anchors": ["yaserde_derive/src/ser/expand_struct.rs:struct_inspector", "yaserde_derive/src/de/expand_struct.rs:build_call_visitor"]}
{"id": "C56", "title": "Round trip of Option fields keeps None and Some apart", "statement": "An Option field is None after a round trip iff it was None before.", "quantifier": "every value", "why_tests_cant": "all payloads", "anchors": ["yaserde_derive/src/ser/expand_struct.rs:struct_inspector", "yaserde_derive/src/de/expand_struct.rs:struct_builder"]}
{"id": "C57", "title": "Round trip with flatten", "statement": "Structs with flattened struct fields (children and attributes) round-trip.", "quantifier": "every schema with flatten, every value", "why_tests_cant": "all values", "anchors": ["yaserde_derive/src/de/expand_struct.rs:flatten", "yaserde_derive/src/ser/expand_struct.rs:serialize"]}
{"id": "C58", "title": "Round trip with namespaces", "statement": "Structs whose fields carry prefixes bound in `namespaces` round-trip.", "quantifier": "every namespace table and value", "why_tests_cant": "all values and tables", "anchors": ["yaserde_derive/src/common/attribute.rs:get_namespace_matching", "yaserde_derive/src/common/field.rs:renamed_label"]}
{"id": "C59", "title": "Serialize-after-parse is stable", "statement": "If a document deserializes to a canonical value then re-serializing and re-reading gives the same value and the same text from then on.", "quantifier": "every document", "why_tests_cant": "all documents", "anchors": ["yaserde/src/ser/mod.rs:to_string", "yaserde/src/de/mod.rs:from_str"]}
{"id": "C60", "title": "A default omitted on output is restored on input", "statement": "A field with `default = f` whose value equals f() is omitted from the output and has the value f() again after reading.", "quantifier": "every type, value", "why_tests_cant": "all values and default functions", "anchors": ["yaserde_derive/src/ser/element.rs:condition_generator", "yaserde_derive/src/de/expand_struct.rs:struct_builder"]}
{"id": "C61", "title": "Output is well-formed XML", "statement": "If all names in the program are XML names, every prefix is declared by the type that uses it and has one meaning in the program, the namespaces of variant payloads and of flattened Options and Vecs are those of the enclosing type, and no attribute name is written twice, then every value whose strings consist of characters XML can carry in their place is written as exactly one well-formed element: no undeclared prefix, no repeated declaration or attribute. The text is accepted by the parser under every white-space layout, and the tree read is the tree written (adjacent texts merged and trimmed).", "quantifier": "every program meeting the naming conditions, every legal value, every white-space configuration", "why_tests_cant": "all programs and all strings; prefixes declared by an outer or a flattened type reach arbitrarily deep", "anchors": ["yaserde_derive/src/ser/expand_struct.rs:serialize", "yaserde_derive/src/ser/namespace.rs:generate_namespaces_definition", "yaserde_derive/src/ser/implement_serializer.rs:implement_serializer"]}
{"id": "C62", "title": "Results are well typed", "statement": "Whatever the document, a value returned by from_str has the type it was read as: structs have a value of its type for every field, numbers are in the range of their type, Vecs are homogeneous, enum values are those of one variant with a payload of its type. In particular everything that can be read can be written.", "quantifier": "every well-typed program, every document", "why_tests_cant": "all documents, including malformed and non-conforming ones, against all programs; recursion depth unbounded", "anchors": ["yaserde_derive/src/de/expand_struct.rs:parse", "yaserde_derive/src/de/expand_enum.rs:parse", "yaserde/src/primitives.rs:deserialize_primitives"]}
{"id": "C63", "title": "What can be derived", "statement": "YaDeserialize can be derived for an item exactly if it is a struct or enum (no union), its options are well formed, and every field has a name, options that are well formed and a type of one of the supported shapes (a scalar, a user type, or one Option or Vec of these), with flatten only on user types or Options of them, text only on strings, and default given by a plain identifier; tuple variants have at most one field. YaSerialize likewise with its own table of shapes (which adds Option<Vec<scalar>>, Vec<Option<_>> and attribute Vecs, and excludes attribute fields in variants). PrimitiveYaSerde needs a tuple struct whose first field's type is a path. In every other case the macro panics or its output does not compile.", "quantifier": "every item, every combination of options", "why_tests_cant": "tests contain items that compile; that nothing else does cannot be shown by running them", "anchors": ["yaserde_derive/src/de/expand_struct.rs:parse", "yaserde_derive/src/de/expand_enum.rs:parse", "yaserde_derive/src/ser/expand_struct.rs:serialize", "yaserde_derive/src/ser/expand_enum.rs:serialize", "yaserde_derive/src/primitives.rs:primitive_yaserde"]}
{"id": "C64", "title": "Types are recognised by their last segment", "statement": "Whether a field is a scalar, an Option, a Vec or a value of a user type depends only on the last segment of its type's path and, for Option and Vec, on the first generic argument; the module path plays no role. Invisible groups around a type, as macro_rules! makes them, change nothing.", "quantifier": "every type of a field, nested to any depth", "why_tests_cant": "types nest to any depth, under any module path", "anchors": ["yaserde_derive/src/common/field.rs:get_field_type", "yaserde_derive/src/common/field.rs:From<&syn::PathSegment>"]}
{"id": "C65", "title": "Options are those written", "statement": "The options of an item are exactly those in its #[yaserde(...)] attributes; an option that is unknown, repeated or of the wrong kind makes the derive fail.", "quantifier": "every list of attributes", "why_tests_cant": "the order and number of attributes, keys and foreign attributes is unbounded", "anchors": ["yaserde_derive/src/common/attribute.rs:YaSerdeAttribute", "yaserde_derive/src/common/attribute.rs:From<&Vec<Attribute>>"]}
{"id": "C66", "title": "Definitions are those written", "statement": "The generated code treats a struct with exactly the fields of the item, in order, each with its name, type and own options, and an enum with exactly its variants. The programs the macros can produce satisfy the conditions under which the properties of reading and writing are stated; in particular serialization of a value never fails.", "quantifier": "every item for which the traits can be derived, every program made of such items", "why_tests_cant": "all items; the connection between what the macros accept and what the generated code does is not observable in one test", "anchors": ["yaserde_derive/src/common/field.rs:YaSerdeField", "yaserde_derive/src/ser/expand_struct.rs:serialize", "yaserde_derive/src/de/expand_struct.rs:parse"]}
{"id": "C67", "title": "Raw identifiers", "statement": "A field named by a raw identifier r#x is written and read under the name x.", "quantifier": "every struct with such a field, every document", "why_tests_cant": "that a field is found in no document at all needs a quantifier over documents", "anchors": ["yaserde_derive/src/common/field.rs:renamed_label", "yaserde_derive/src/common/field.rs:renamed_label_without_namespace"]}
{"id": "C68", "title": "Attributes of derived types", "statement": "A field that is an XML attribute and whose type is a derived type (or an Option or Vec of one) has the value from_str returns for the attribute's value put into an element named after the type (for each word, for a Vec). For an enum without payloads this is the first variant with that name, and the enum's default if there is none.", "quantifier": "every struct, every conforming document, every attribute value", "why_tests_cant": "attribute values are arbitrary strings that are parsed as XML a second time", "anchors": ["yaserde_derive/src/de/expand_struct.rs:parse", "yaserde/src/de/mod.rs:from_str"]}
{"id": "C69", "title": "Nothing is invented", "statement": "If from_str succeeds, every field of the result that is not flattened, at every depth, is made by the field's rule (last one, all of them for a Vec, default if none) from some of the occurrences of that field in the document, each used at most once and in document order; an occurrence is an element with the field's name and namespace and a single text that parses, an attribute with its name, or character data for a text field.", "quantifier": "every program, every document, conforming or not, well-formed or not", "why_tests_cant": "arbitrary documents, including malformed ones, and all depths", "anchors": ["yaserde_derive/src/de/expand_struct.rs:parse", "yaserde/src/de/mod.rs:Deserializer"]}
{"id": "C70", "title": "Tagged enums", "statement": "For an enum with #[yaserde(tag = \"t\")], writing a variant gives the enum's element with the attribute t whose value is the variant's (renamed) name; reading takes the first attribute with local name t on the element's start tag and returns the first variant with that name (the default if there is none), and fails with an error naming the tag if the attribute is missing. Written values are read back.", "quantifier": "every tagged enum, every document, every value", "why_tests_cant": "arbitrary attributes, namespaces, content and variant names", "anchors": ["yaserde_derive/src/de/expand_enum.rs:parse", "yaserde_derive/src/ser/expand_enum.rs:serialize"]}
{"id": "C71", "title": "Cut-off texts are not accepted", "statement": "If from_str returns Ok for a struct, or for an enum all of whose variants have contents, then the text begins with a complete document (one element from its start tag to its end tag). In particular no proper beginning of a text written by to_string, with any configuration, for any value whose strings can be written in XML, is accepted - also if it is read as another type of another program. Unit variants and the primitive types are returned before their end tag is complete.", "quantifier": "all texts, all programs and types, all values, all configurations, every place where the text is cut", "why_tests_cant": "every proper prefix of every output, for all types; tests try a few", "anchors": ["yaserde/src/de/mod.rs:9-15", "yaserde_derive/src/de/expand_struct.rs", "yaserde_derive/src/de/expand_enum.rs:64-105", "yaserde/src/ser/mod.rs:17-60"]}
{"id": "C72", "title": "Prefixes, namespace declarations and attribute order carry no information", "statement": "For programs without flattened fields: two documents that have the same local names and namespaces, the same texts and, for every local name, the same attribute values in the same order - so that they differ only in the prefixes, in where and how namespaces are declared, and in the order of attributes with different local names - are read alike: the same value, the same panic, an error in both cases (the same one if there are no tagged enums), or no result in both cases.", "quantifier": "all pairs of such documents, conforming or not, complete or cut off; all programs without flattened fields; all types", "why_tests_cant": "every way to write the same names, for every document and every type; tests fix one spelling", "anchors": ["yaserde/src/de/mod.rs:64-146", "yaserde_derive/src/de/expand_struct.rs:100-480", "yaserde_derive/src/de/expand_enum.rs:40-140", "yaserde_derive/src/common/attribute.rs"]}
{"id": "C73", "title": "Fields can be added to structs and reordered", "statement": "Let the newer version of a program (without flattened fields) have the same types as the older one, with more fields and the fields in any order (element names of the fields of a struct differ). (1) Whatever conforming document the newer version reads, the older one reads too, and gets the same value in every field it has, at every depth. In particular it reads what the newer version writes for a value that survives a round trip. (2) Whatever conforming document the older version reads, the newer one reads too, with the same values in the common fields, provided the added fields may be missing (Option, Vec, default) and nothing in the document is named like one of them (and no attribute is of a derived type). The last condition is needed: an attribute the older version ignored can make the newer one fail although the added field is an Option.", "quantifier": "all pairs of programs related that way, all conforming documents, all nesting depths", "why_tests_cant": "relates two programs on all their documents; tests have one program each", "anchors": ["yaserde_derive/src/de/expand_struct.rs:100-480", "yaserde_derive/src/de/build_default_value.rs", "yaserde_derive/src/common/field.rs:59-81"]}
{"id": "C74", "title": "How a document is spelled carries no information", "statement": "All spellings of a document are read alike, whatever the program and the type: the same value, error or panic, or no result in all cases. Spellings may differ in character and entity references, CDATA sections, comments, white space inside tags and around elements, kinds of quotes, empty-element tags, the XML declaration, and comments and processing instructions outside texts. A text spells at most one document. This does not extend to a processing instruction inside a text: it cuts the text in two, and a required field is then reported missing.", "quantifier": "all documents, all pairs of their spellings (texts of any length), all programs, all types", "why_tests_cant": "a document has infinitely many spellings; tests fix one for each document", "anchors": ["yaserde/src/de/mod.rs:32-41", "yaserde/src/de/mod.rs:56-75", "yaserde_derive/src/de/expand_struct.rs:100-480"]}
{"id": "C75", "title": "Visitors of different fields do not clash", "statement": "The derive macro for reading defines a visitor type for each scalar field and each attribute; fields with different XML names, or an attribute and an element, get visitors with different names, so that the generated code compiles. (False: names are put into camel case, which identifies x1 with x_1 and id with ID, and the prefix `attribute` with the mark for attributes. It holds for names in snake case without digits and prefixes; without prefixes, the clashes are exactly those of the names in camel case.)", "quantifier": "all structs, any number of fields, names of any length", "why_tests_cant": "it is about all pairs of names; a clash is a compile error in a user's program, not a failing test here", "anchors": ["yaserde_derive/src/common/field.rs:83-122", "yaserde_derive/src/de/expand_struct.rs:50-141"]}
{"id": "C76", "title": "The printed code does what the type definition says", "statement": "The deserialize functions that the macro prints for the types of a program, run as Rust programs (variables, scopes, loops, break, return, ?, match, closures), do exactly what the interpreter of type definitions does, with which all other properties are proved: for every text and every bound on the depth of calls they return the same value or the same error, panic alike, or both have not come to an end. In particular the names the templates use never capture each other, whatever the fields are called, as long as rustc accepts the fields.", "quantifier": "all programs the macro accepts, all types in them, all texts, all budgets", "why_tests_cant": "it is about the templates for all types; tests fix a few types and compile each", "anchors": ["yaserde_derive/src/de/expand_struct.rs:14-620", "yaserde_derive/src/de/expand_enum.rs:13-300", "yaserde_derive/src/de/build_default_value.rs", "yaserde/src/de/mod.rs:77-132"]}
{"id": "C77", "title": "The printed serializing code does what the type definition says", "statement": "The serialize and serialize_attributes functions that the macro prints for the types of a program, run as Rust programs, write exactly the events, leave the writer in exactly the state and return exactly the result that the interpreter of type definitions gives, with which all other properties are proved: for every value, from every state of the writer, and whichever writes to the sink fail; they are never stuck and calls are nested no deeper than the value is large. The only names that templates and user share are those of named fields of variants: this holds if no such field is called `writer` (nor, if scalar, `struct_start_event`), and with such a name the printed code does not compile although the macro accepts the item.", "quantifier": "all programs the macro accepts, all types in them, all values, all states of the writer, all failures of the sink", "why_tests_cant": "it is about the templates for all types; tests fix a few types and compile each", "anchors": ["yaserde_derive/src/ser/implement_serializer.rs:13-111", "yaserde_derive/src/ser/expand_struct.rs:9-366", "yaserde_derive/src/ser/expand_enum.rs:9-323", "yaserde_derive/src/ser/element.rs", "yaserde_derive/src/ser/namespace.rs", "yaserde_derive/src/common/field.rs:173-206"]}
{"id": "C78", "title": "Every element field has its element", "statement": "A field written as an element (not an attribute, not text, not flattened, not omitted) contributes exactly one element with the field's name. True of scalar types, derived types and types with Display and FromStr; false of usize, isize, char and aliases of scalar types (`type Id = u32`), which the macro takes for derived types and whose YaSerialize writes only the text: two such fields run together, so different values are written alike.", "quantifier": "all programs the macro accepts, all values", "why_tests_cant": "whether a type has an element depends on which of three mechanisms the macro picks for its name; tests try a few", "anchors": ["yaserde/src/lib.rs:173-221", "yaserde_derive/src/ser/expand_struct.rs:107-330", "yaserde_derive/src/common/field.rs:208-260"]}
{"id": "C79", "title": "The printed programs end to end", "statement": "For a program accepted by both macros: the printed serialize functions come to an end with a text for every value of a type of the program, without error and without panic; a value survives being written and read by the printed functions exactly if it does so for the interpreter, in particular if the program meets the conditions of C50 and the strings in the value are non-empty and trimmed; reading any text whatsoever, the printed functions panic at most by the unwrap of the scalar of a variant, and never reach an operation rustc would have to reject; what they read has its type and can be written.", "quantifier": "all programs both macros accept, all values, all texts", "why_tests_cant": "it is about the printed code for all types, all values and all texts", "anchors": ["yaserde_derive/src/ser/implement_serializer.rs:13-111", "yaserde_derive/src/de/expand_struct.rs:14-620", "yaserde_derive/src/de/expand_enum.rs:13-300", "yaserde/src/de/mod.rs:10-24", "yaserde/src/ser/mod.rs:9-60"]}
{"id": "C80", "title": "Derived structs around hand-written implementations", "statement": "A derived struct may have fields whose types implement YaDeserialize by hand. If the implementation, called in front of the start tag of the child, stops in front of its end tag or of a text before that (whatever stands around), the struct is read as declared, with what the implementation read in the place of the child, and keeps the same contract itself; derived types keep it; so do the implementations in the repository's tests, on their elements. An implementation that takes its end tag too makes documents hang whose last child it reads, and loses the next child otherwise.", "quantifier": "all structs without flattened fields, all hand-written implementations (arbitrary functions of the reader), all documents", "why_tests_cant": "the implementations are arbitrary code of the user; the tests have two, at fixed positions of fixed documents", "anchors": ["yaserde/src/lib.rs:98-101", "yaserde_derive/src/de/expand_struct.rs:66-93", "yaserde_derive/src/de/expand_struct.rs:415-473", "yaserde/tests/deserializer.rs:246-269", "yaserde/tests/deserializer.rs:807-831"]}
{"id": "C81", "title": "The i32 counter of the generated struct deserializer", "statement": "The generated deserializer of a struct has a local counter `depth` of type i32, which goes up with every child element and does not go down when the child has been read: it counts children. On texts with fewer than 2^31 events the width of the counter makes no difference, in debug builds or release builds. In debug builds a document element with 2^31 - 1 or more children makes from_str panic, whatever follows them. In release builds the counter is negative from there on: what is inside unknown children is taken for the struct's own fields.", "quantifier": "all types, all texts below the limit; all structs and all documents with that many children of scalar fields or unknown children (panic); a struct and all documents of a family (release builds)", "why_tests_cant": "the documents have more than 2^31 elements", "anchors": ["yaserde_derive/src/de/expand_struct.rs:413", "yaserde_derive/src/de/expand_struct.rs:424-449", "yaserde_derive/src/de/expand_struct.rs:451-457"]}
{"id": "C82", "title": "How deep the generated deserializers nest their calls", "statement": "The generated deserializers call each other recursively, one call inside another for every level of nesting they read as values. For types that do not contain themselves the number of nested calls is bounded by the types, whatever the text: a stack that holds that many calls never overflows. For types that contain themselves in a well-founded way the number is at most linear in the number of events of the text. It is not bounded: for `struct Node { node: Vec<Node> }` a document of m + 1 nested elements conforms to the type and is read correctly if there is room for m + 1 nested calls, and overflows the stack if there is room for at most m; so for every size of the stack there is a well-formed, conforming text that overflows it.", "quantifier": "all acyclic programs and all texts; all ranked programs and all texts; all stack sizes", "why_tests_cant": "no bound on the size of texts or of the stack", "anchors": ["yaserde_derive/src/de/expand_struct.rs:89", "yaserde_derive/src/de/expand_struct.rs:163", "yaserde_derive/src/de/expand_struct.rs:213", "yaserde_derive/src/de/expand_struct.rs:217", "yaserde_derive/src/de/expand_enum.rs:268"]}
{"id": "C83", "title": "Derived types around hand-written implementations of YaSerialize", "statement": "Derived structs and enums may contain values of types that implement YaSerialize by hand. Suppose each hand-written implementation writes, for each value and wherever it is called (as a document, as a field's element, inside flattened or suppressed tags), some list of trees, restores the writer's state, and reports some attributes and namespaces. Then every derived type writes the trees its declaration says around those, in the document and as text, and these trees are the only ones that fit the declarations and the hand-written part; if the hand-written implementations moreover stop with the error at the first write that fails, so do the derived ones. Without hand-written types this is the ordinary serializer. An implementation that converts its value and calls another keeps the contract where the other does. The implementation in the repository's tests keeps the first contract for values whose double fits an i32, panics on the others, and does not keep the second: it drops write errors, and a value around it can be written without its element and without an error.", "quantifier": "all programs, all hand-written implementations (arbitrary functions of the writer and of the other implementations), all values, all positions of write errors", "why_tests_cant": "the implementations are arbitrary code of the user; the tests have one, with one value", "anchors": ["yaserde/src/lib.rs:103-116", "yaserde_derive/src/ser/expand_struct.rs:127-130", "yaserde_derive/src/ser/implement_serializer.rs:21-106", "yaserde/tests/serializer.rs:385-409"]}
{"id": "C84", "title": "How deep the generated serializers nest their calls", "statement": "The generated serializers call each other recursively. The calls are never nested more deeply than the values are inside each other: a stack with room for as many calls as the longest chain of values inside each other gives the same result as one without bounds, for values of the type or not. So types that do not contain themselves need a number of frames bounded by the types, and every value a number bounded by its depth. For `struct Node { node: Vec<Node> }` this is sharp: a value of m + 1 nested nodes is written with room for m + 1 calls and overflows the stack with room for m; and that stack overflows exactly on the documents it can not read (C82).", "quantifier": "all programs, all values, all stack sizes", "why_tests_cant": "no bound on the depth of values or on the size of the stack", "anchors": ["yaserde_derive/src/ser/expand_struct.rs:99", "yaserde_derive/src/ser/expand_struct.rs:127", "yaserde_derive/src/ser/expand_struct.rs:235", "yaserde_derive/src/ser/expand_struct.rs:266", "yaserde_derive/src/ser/expand_struct.rs:323", "yaserde_derive/src/ser/expand_enum.rs:198", "yaserde_derive/src/ser/expand_enum.rs:303"]}
{"id": "C85", "title": "The run-time library, as the programs in the source, does what the model says", "statement": "`inner_next`, `peek`, `next_event`, `deserialize_primitives`, `serialize_primitives` and the implementations printed by `serialize_type!`, copied statement by statement as programs of the fragment of Rust of C76, return the same results and leave the reader or writer in the same state as the functions of the model, from every state and whichever writes fail. The loop of `inner_next` comes to an end after at most one iteration more than there are events left, and not earlier in general. So `from_str` and the serializers, run with the printed code of C76 and C77 and these programs together, return exactly what the model returns.", "quantifier": "all programs of derived types, all documents and values, all states of reader and writer, all patterns of write errors, all budgets", "why_tests_cant": "equality of two programs on all states; a loop whose number of iterations depends on the document", "anchors": ["yaserde/src/de/mod.rs:43", "yaserde/src/de/mod.rs:55", "yaserde/src/de/mod.rs:73", "yaserde/src/primitives.rs:5", "yaserde/src/primitives.rs:36", "yaserde/src/lib.rs:174", "yaserde_derive/src/primitives.rs:15"]}
{"id": "C86", "title": "Amplification: the size of the value read from a text", "statement": "The value that from_str returns is at most linear in the length of the text, with a factor that depends on the program only (the number of fields of its structs, the sizes of the default values, the nesting of its enums). True without flattened fields, if attributes of derived types have names of their own among the attributes of the struct, for every text, well formed or not, conforming or not. False with flattened fields: two flattened fields of one type, which contains the outer type again, double the value at every level, so that 7(n+1) characters are read as a value of size at least 2^n; no factor exists for that program. False also with two attribute fields of derived types that have the same name: both are read from the same attribute, so that nested attributes of O(n*n) characters are read as a value of size at least 2^n. If an attribute field of a derived type has the name of a scalar one, the growth is cubic in n for the same texts; no factor exists.", "quantifier": "all programs, all types, all texts", "why_tests_cant": "a bound over all texts; the exponential growth is a family of documents", "anchors": ["yaserde_derive/src/de/expand_struct.rs:203", "yaserde_derive/src/de/expand_struct.rs:213", "yaserde_derive/src/de/expand_struct.rs:526", "yaserde/src/de/mod.rs:9"]}
{"id": "C87", "title": "Amplification: the length of the text written for a value", "statement": "The text that to_string_with_config writes for a well-typed value is at most linear in the size of the value, with a factor that depends on the program only (lengths of names and namespace declarations, of what the user's newtypes display per unit of size, of the texts of floats). True without attributes of derived types and without indentation. In general at most quadratic, for all programs and all configurations. Not linear in general: attributes of derived types are escaped once per level of nesting, so that a value of size 4n+2 is written with at least n*n characters; and indentation writes at least n*n characters for n nested elements. No factor exists for these two programs.", "quantifier": "all programs accepted by the serializer macro, all configurations, all well-typed values", "why_tests_cant": "a bound over all programs and values; the quadratic growth is a family of values", "anchors": ["yaserde/src/ser/mod.rs:11", "yaserde/src/ser/mod.rs:51", "yaserde_derive/src/ser/expand_struct.rs:93", "yaserde_derive/src/ser/expand_struct.rs:112", "yaserde_derive/src/ser/expand_enum.rs:12"]}
{"id": "C88", "title": "Round trips of programs with hand-written implementations of both traits", "statement": "A value of a derived struct (attributes, text, CDATA, elements, Option, Vec, default, skip_serializing_if; without namespaces and flattened fields) is read back from what is written for it, as an element, as the attribute of another struct and as a document, provided the values of its fields are, each in the element or attribute of its field; whether the types of the fields are derived or have hand-written implementations of YaSerialize and YaDeserialize does not matter. The values of the fields' types survive if they are derived and contain nothing hand-written and survive in the program of their own (C50), if they are implemented with the primitive helpers and FromStr inverts Display, or if both hand-written implementations convert to and from another type of the program, by conversions inverse to each other, whose values survive. The condition on hand-written types is needed: the repository's Day keeps the contracts of C80 and C83, but a Date around it is written without error and its text is rejected.", "quantifier": "all programs, all hand-written implementations that keep the contracts, all values whose fields survive", "why_tests_cant": "a statement about all hand-written implementations and all structs around them", "anchors": ["yaserde/tests/serializer.rs:370", "yaserde/tests/deserializer.rs:791", "yaserde_derive/src/ser/expand_struct.rs:141", "yaserde_derive/src/de/expand_struct.rs:22", "yaserde/src/lib.rs:99"]}
{"id": "C89", "title": "Entry functions and constructors as programs", "statement": "to_string, to_string_with_config, to_string_content, serialize_with_writer, serialize_with_writer_content, Config::default, the constructors of Serializer, from_str, from_reader and the constructors of Deserializer, run statement by statement, do what the model says: serialize is run exactly once on a new serializer, whose emitter has the configured indentation (two spaces by default), declaration and no conversion of CDATA; the text comes after what the writer already contained; an error of serialize is returned and nothing else; the content functions set skip_start_end, write no declaration and never indent; deserialize is run once on a new deserializer at depth 0 with nothing peeked, and all five settings of the parser are fixed, so that its defaults do not matter. Together with the printed code and the rest of the library as programs, from_str and to_string_with_config return exactly what the model returns.", "quantifier": "all programs accepted by the macros, all configurations, all writers (with failing writes), all values, all texts", "why_tests_cant": "an equivalence of programs for all inputs, writers and configurations", "anchors": ["yaserde/src/ser/mod.rs:11", "yaserde/src/ser/mod.rs:26", "yaserde/src/ser/mod.rs:45", "yaserde/src/ser/mod.rs:72", "yaserde/src/ser/mod.rs:85", "yaserde/src/ser/mod.rs:125", "yaserde/src/de/mod.rs:9", "yaserde/src/de/mod.rs:32"]}
{"id": "C90", "title": "Generic types are their instances; names of types do not matter", "statement": "The code derived for a generic type does, for every instance, what the code derived for the type with its arguments written out does, and the names of the types of fields have no effect on what is written or read. False in full: an attribute or a one-field variant whose type is a parameter makes the derived YaDeserialize fail to compile; the name under which the type of an attribute is mentioned becomes the name of an element and can select a field or variant; a parameter that stands for a scalar type is written without the element of its field.", "quantifier": "all programs with generic types (also with infinitely many instances), all instances, all inputs and values, all XML libraries", "why_tests_cant": "an equivalence of programs for all definitions and arguments; the repository has one test with one instance", "anchors": ["yaserde_derive/src/de/expand_struct.rs:387", "yaserde_derive/src/de/expand_struct.rs:66", "yaserde_derive/src/de/expand_enum.rs:44", "yaserde_derive/src/de/expand_enum.rs:156", "yaserde_derive/src/ser/implement_serializer.rs:19", "yaserde/tests/generic.rs:9"]}
{"id": "C91", "title": "Only the types inside a type matter", "statement": "What deserialize and serialize do for a type is determined by its definition, the definitions of the types of its fields and variants, of their fields, and so on. Two programs that agree on these behave alike for the type, on every text, every value and in every configuration; so adding types to a program, or changing types that the type does not contain, changes nothing for it.", "quantifier": "all pairs of programs (also with recursive types and infinitely many types), all types, texts, values, configurations, all XML libraries", "why_tests_cant": "compares all pairs of programs; no test can vary the rest of the program", "anchors": ["yaserde_derive/src/de/expand_struct.rs:389-481", "yaserde_derive/src/de/expand_enum.rs:43-111", "yaserde_derive/src/ser/expand_struct.rs:9-366", "yaserde_derive/src/ser/expand_enum.rs:9-323"]}
{"id": "C92", "title": "Every call of a visitor reaches the visitor printed for it", "statement": "The macro prints a visitor type for each scalar field, attribute and payload of a variant, with one method of the trait Visitor, and prints calls of visitors by the name of the type and of the method. Each printed call names an existing visitor, the one of its own field, and the method which that visitor has; so the code compiles unless two visitors of a struct have the same name (C75), the defaults of the trait (which answer every text with an error) never run, and the printed code with visitors called by name does what the code with their bodies in place does (C76).", "quantifier": "all structs and enums the macro accepts, all fields, all texts, all budgets", "why_tests_cant": "it is about the names printed for all types; a test fixes a few types, and a call that falls through to a default of the trait compiles", "anchors": ["yaserde/src/lib.rs:121-172", "yaserde_derive/src/common/field.rs:83-122", "yaserde_derive/src/common/field.rs:229-232", "yaserde_derive/src/common/field.rs:322-341", "yaserde_derive/src/de/expand_struct.rs:50-316", "yaserde_derive/src/de/expand_enum.rs:157-317"]}
{"id": "C93", "title": "Elements inside scalars are read as though they stood beside them", "statement": "A child of a scalar field is to hold text only. If it holds elements the generated code neither rejects nor skips them: the child contributes nothing, and it and its content are read on in the loop of the surrounding struct. For structs without flattened fields (at any depth of nesting, in programs that may have enums, primitives and flattened structs elsewhere) from_str on any document returns exactly what the declarative reading (C08) gives for the document in which these elements have been moved out: the child's first text is lost, and if it was well formed so is a further text or the tags of an element directly after it; everything else in the child becomes a child of the surrounding element, recursively. It holds for successes and failures alike, provided the resulting document conforms and the loop's counter of open elements, which may fall behind, is positive at every start tag; without that it is false. Conforming documents are their own result.", "quantifier": "for all schemas, all documents, all nesting", "why_tests_cant": "What a malformed document does depends on where in it, and how often, elements occur inside scalars: an unbounded set of shapes which example tests (none in the repository has such a document) cannot cover.", "anchors": ["yaserde_derive/src/de/expand_struct.rs:415-473", "yaserde_derive/src/de/expand_struct.rs:484-524", "yaserde/src/de/mod.rs:106-132"]}
{"id": "C94", "title": "Elements named like a field of the struct they are read as (recursive types)", "statement": "An element read as a struct may carry the name of one of that struct's own fields, as in struct Node { node: Vec<Node> }. The generated code takes its start tag for that of a child of the field: if an element follows at once it is read as a value of the field's type, whatever its name, and put into the field; then the attributes are loaded and the remaining children are read as usual; if text follows, or nothing, nothing is taken. For structs without flattened fields at any depth of nesting, and with elements inside scalars as in C93, from_str on any such document returns exactly what a recursive reading defined over the document tree gives, for successes and failures alike (elements named like a scalar field of the struct, and counters that fall to zero, excepted). Hence documents of recursive types are read right if every element named like a field begins with a child of that field, or with text, or is empty; without that it is false. On the documents of C93 and on conforming documents the recursive reading is that of C93 and C08.", "quantifier": "for all schemas, all documents, all nesting", "why_tests_cant": "Whether a recursive document is misread depends on which child comes first at each of unboundedly many levels; the repository's tests contain no document of a recursive type.", "anchors": ["yaserde_derive/src/de/expand_struct.rs:154-170", "yaserde_derive/src/de/expand_struct.rs:415-473"]}
{"id": "C95", "title": "Which options matter to reading, and which to writing", "statement": "Reading depends on exactly these parts of a definition: type, attribute, text, name, prefix, flatten and the default value of fields (not the prefix or flatten of an attribute, not the name or prefix of a flattened field, not the default of an Option or Vec field), names and shapes of variants, and name, namespaces, prefix, flatten and tag of types. Writing depends on type, attribute, text, flatten, skip_serializing, cdata, skip_serializing_if, the comparison with the default, and the written name (of an attribute not on skip_serializing, cdata, text or flatten; of a text field on nothing further; of an element with skip_serializing not on its name or the other conditions). Two programs that agree in the first list return the same from from_str on every text, and two that agree in the second write the same events with the same outcome for every value, whatever the writer does. Hence options for writing (skip_serializing, skip_serializing_if, cdata) never change what is read, default values never change what is written, a default on an Option or Vec field never changes what is read, and skip_serializing and cdata on attributes and text fields have no effect at all. Each option in the lists does matter to some program.", "quantifier": "for all pairs of programs (recursive types, enums, flattened structs, namespaces included), all texts, all values", "why_tests_cant": "It compares all pairs of programs on all inputs; a test compares one program's behaviour on one input with an expected result.", "anchors": ["yaserde_derive/src/de/expand_struct.rs:143-378", "yaserde_derive/src/ser/expand_struct.rs:16-356", "yaserde_derive/src/common/field.rs:173-206", "yaserde_derive/src/ser/element.rs:45-66"]}
{"id": "C96", "title": "What the output does not depend on", "statement": "Two values of a type that differ, at any depth, only in fields that are not written produce exactly the same output. Not written are: attributes and elements suppressed in both values by skip_serializing_if or by being equal to the default; elements with skip_serializing; attributes of a Vec type; Option fields of enum variants; and everything but the attributes of a flattened struct whose field is not written (its attributes are written even so). Moreover the start tag of a struct (name, attributes, namespace declarations) depends only on its attribute fields and on the attributes of the structs flattened into it.", "quantifier": "for all programs (recursive types, enums, flattened structs, namespaces included), all pairs of values", "why_tests_cant": "A statement about pairs of values (information flow) over all programs; a test looks at the output for one value.", "anchors": ["yaserde_derive/src/ser/expand_struct.rs:16-356", "yaserde_derive/src/ser/element.rs:45-66", "yaserde_derive/src/ser/expand_enum.rs:140-190", "yaserde_derive/src/common/field.rs:173-206"]}
{"id": "C97", "title": "Variants can be added to enums", "statement": "Let the newer version of a program differ from the older one in enums having further variants at their end. (1) If neither has flattened fields or attributes of derived types, both read every text alike (results, errors, panics, not returning) in which no element name, no attribute value and no text is the name of a new variant. (2) Further variants that have named fields, or the name of an earlier variant, are never read: with and without them every program reads every text alike. (3) Values of the older program are written alike by both, with the same events and outcome whatever the output does. (4) So the newer program reads what the older one wrote, if the older one does and the names are not in the text. The condition on the text is needed, also inside attributes of derived types, which are parsed as XML.", "quantifier": "all pairs of programs related that way (recursive types, namespaces, tagged enums included), all texts, also malformed and incomplete ones, all values, all writers", "why_tests_cant": "It relates two programs on all texts and all values; tests run one program on few.", "anchors": ["yaserde_derive/src/de/expand_enum.rs:14-160", "yaserde_derive/src/ser/expand_enum.rs:15-113"]}
{"id": "C98", "title": "Fields can be added to structs: every text", "statement": "Let the newer version of a program differ from the older one in structs having further fields at their end, none of them flattened or for text, each an Option, a Vec or with a default; let the older one have no flattened fields and no attributes of derived types. On every text in which no element and no attribute has the name of a new field — complete or not, well formed or not, conforming to the program or not — the newer program ends as the older one does: the same errors, the same panics, no return in the same cases, and a value exactly where the older one returns one. That value is the older one with the new fields missing (None, empty, the default) in every struct inside it, and nothing else. The conditions are needed: a name in the text, a new field that is required or for text, and a name inside an attribute of a derived type each change the outcome.", "quantifier": "all pairs of programs related that way (recursive types, namespaces, enums included), all texts, also malformed and incomplete ones", "why_tests_cant": "It relates two programs on all texts, including those that neither accepts; tests run one program on few.", "anchors": ["yaserde_derive/src/de/expand_struct.rs:12-480", "yaserde_derive/src/de/build_default_value.rs:1-35", "yaserde_derive/src/de/expand_enum.rs:14-160"]}
