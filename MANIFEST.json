{
 "claims": [
  {
   "property": "C01",
   "status": "proved",
   "theorems": [
    "Yaserde.C01_peek_pure"
   ],
   "note": "peek at any moment is invisible to any later sequence of calls"
  },
  {
   "property": "C02",
   "status": "proved",
   "theorems": [
    "Yaserde.C02_events_once"
   ],
   "note": "all interleavings, all well-nested documents"
  },
  {
   "property": "C03",
   "status": "proved",
   "theorems": [
    "Yaserde.C03_depth",
    "Yaserde.C02_events_once"
   ],
   "note": ""
  },
  {
   "property": "C04",
   "status": "proved",
   "theorems": [
    "Yaserde.C04_skip_element"
   ],
   "note": "all trees, all ways of getting there"
  },
  {
   "property": "C05",
   "status": "proved",
   "theorems": [
    "Yaserde.C05_read_inner_value"
   ],
   "note": "iff"
  },
  {
   "property": "C06",
   "status": "proved",
   "theorems": [
    "Yaserde.C06_ok_needs_closed_root",
    "Yaserde.C06_truncated_never_ok"
   ],
   "note": "all environments, every non-flatten struct"
  },
  {
   "property": "C07",
   "status": "partial",
   "theorems": [
    "Yaserde.C07_conforming_partial",
    "Yaserde.C07_broken_partial",
    "Yaserde.C07_truncated_rejected",
    "Yaserde.C07_scalars_iff",
    "Yaserde.C07_scalars_trailing",
    "Yaserde.C07_scalars_broken",
    "Yaserde.C07_false",
    "Yaserde.C07_false_enum",
    "Yaserde.C07_bound",
    "Yaserde.C07_false_inside",
    "Yaserde.C07_open_partial",
    "Yaserde.C07_recursive_partial"
   ],
   "note": "The property is false of the code: C07_false (a struct that reaches the end of the document loops forever), C07_false_enum (an enum containing itself recurses without consuming). Proved: every conforming document and every document ending in a parse error is finished. For structs all of whose fields are scalars, exactly: every document is finished except those whose document element is taken for one of the struct's own fields, and these never are (C07_scalars_iff). For every program without flattened fields (and enums not inside themselves) and every text: from_str comes to an end if and only if it does within a number of steps linear in the number of events (C07_bound); five shapes of documents with the right document element that are never finished (C07_false_inside). Documents to which C94 applies, among them those of recursive types, are finished (C07_open_partial, C07_recursive_partial)."
  },
  {
   "property": "C08",
   "status": "partial",
   "theorems": [
    "Yaserde.C08_struct_reading_partial",
    "Yaserde.C08_ok_fields_partial",
    "Yaserde.C08_false"
   ],
   "note": "false of elements named like a field of their own type (C08_false); iff with the declarative reading `decode`, successes and failures, for all conforming documents. The theorems about OkDoc also cover recursive types, whose elements are named like a field of the struct they are read as (Readable, C94)"
  },
  {
   "property": "C09",
   "status": "partial",
   "theorems": [
    "Yaserde.C09_unknown_ignored_partial",
    "Yaserde.C09_recursive_partial",
    "Yaserde.C09_recursive_false",
    "Yaserde.C09_false"
   ],
   "note": "holds for conforming documents (at every level: scalar children contain only text, an element of a derived type does not have the name of a field of that type, known content in enums); at any depth of the document. False of others: C09_false (an element inside a scalar). *_recursive_partial: also documents whose elements are named like a field of the struct they are read as (treeNode, C94)"
  },
  {
   "property": "C10",
   "status": "partial",
   "theorems": [
    "Yaserde.C10_order_irrelevant_partial",
    "Yaserde.C10_recursive_partial",
    "Yaserde.C10_false"
   ],
   "note": "holds for conforming documents (at every level: scalar children contain only text, an element of a derived type does not have the name of a field of that type, known content in enums); for successful reads (error messages name the first failing child). False of others: C10_false. *_recursive_partial: also documents whose elements are named like a field of the struct they are read as (treeNode, C94)"
  },
  {
   "property": "C11",
   "status": "partial",
   "theorems": [
    "Yaserde.C11_vec_scalar_partial",
    "Yaserde.C11_vec_struct_partial",
    "Yaserde.C11_no_more_items",
    "Yaserde.C11_false"
   ],
   "note": "holds for conforming documents (at every level: scalar children contain only text, an element of a derived type does not have the name of a field of that type, known content in enums); for every document: never more items than elements (C11_no_more_items). False of others: C11_false. The theorems about OkDoc also cover recursive types, whose elements are named like a field of the struct they are read as (Readable, C94)"
  },
  {
   "property": "C12",
   "status": "partial",
   "theorems": [
    "Yaserde.C12_last_wins_scalar_partial",
    "Yaserde.C12_last_wins_struct_partial",
    "Yaserde.C12_false"
   ],
   "note": "holds for conforming documents (at every level: scalar children contain only text, an element of a derived type does not have the name of a field of that type, known content in enums); False of others: C12_false. The theorems about OkDoc also cover recursive types, whose elements are named like a field of the struct they are read as (Readable, C94)"
  },
  {
   "property": "C13",
   "status": "partial",
   "theorems": [
    "Yaserde.C13_own_attributes_partial",
    "Yaserde.C13_attribute_value_partial",
    "Yaserde.C13_false"
   ],
   "note": "holds for conforming documents (at every level: scalar children contain only text, an element of a derived type does not have the name of a field of that type, known content in enums); False of others: C13_false (the attribute of a child is taken). The theorems about OkDoc also cover recursive types, whose elements are named like a field of the struct they are read as (Readable, C94)"
  },
  {
   "property": "C14",
   "status": "partial",
   "theorems": [
    "Yaserde.C14_missing_value_partial",
    "Yaserde.C14_missing_required_partial",
    "Yaserde.C14_absent",
    "Yaserde.C14_false"
   ],
   "note": "holds for conforming documents (at every level: scalar children contain only text, an element of a derived type does not have the name of a field of that type, known content in enums); for every document: if nothing in the whole document has to do with the field (C14_absent). False of others: C14_false. The theorems about OkDoc also cover recursive types, whose elements are named like a field of the struct they are read as (Readable, C94)"
  },
  {
   "property": "C15",
   "status": "proved",
   "theorems": [
    "Yaserde.C15_malformed_attribute"
   ],
   "note": "every document: nothing is assumed about what follows the first start tag"
  },
  {
   "property": "C16",
   "status": "partial",
   "theorems": [
    "Yaserde.C16_malformed_is_absent_partial",
    "Yaserde.C16_recursive_partial",
    "Yaserde.C16_false"
   ],
   "note": "holds for conforming documents (at every level: scalar children contain only text, an element of a derived type does not have the name of a field of that type, known content in enums); False with flattened fields: C16_false. *_recursive_partial: also documents whose elements are named like a field of the struct they are read as (treeNode, C94)"
  },
  {
   "property": "C17",
   "status": "partial",
   "theorems": [
    "Yaserde.C17_any_document_partial",
    "Yaserde.C17_root_name_irrelevant_partial",
    "Yaserde.C17_false"
   ],
   "note": "Programs without flattened fields: every document, conforming or not, complete or cut off (C17_any_document_partial). False with flattened fields: a flattened enum reads the name of the document element (C17_false). C17_root_name_irrelevant_partial: conforming documents, without the condition on the rest of the program."
  },
  {
   "property": "C18",
   "status": "proved",
   "theorems": [
    "Yaserde.C18_misc_irrelevant"
   ],
   "note": "all types"
  },
  {
   "property": "C19",
   "status": "proved",
   "theorems": [
    "Yaserde.C19_root_namespace",
    "Yaserde.C19_child_namespace",
    "Yaserde.C19_child_namespace_partial",
    "Yaserde.C19_child_namespace_only_partial"
   ],
   "note": "every document: a root element in a wrong namespace is rejected, and nothing is stored in a field unless an element in its namespace is there; for conforming documents the field depends only on the children in its namespace. The theorems about OkDoc also cover recursive types, whose elements are named like a field of the struct they are read as (Readable, C94)"
  },
  {
   "property": "C20",
   "status": "partial",
   "theorems": [
    "Yaserde.C20_text_partial",
    "Yaserde.C20_false"
   ],
   "note": "false as stated: only the last run of text is kept (C20_false is a witness); partial: the last run"
  },
  {
   "property": "C21",
   "status": "partial",
   "theorems": [
    "Yaserde.C21_unit_partial",
    "Yaserde.C21_newtype_partial",
    "Yaserde.C21_default_partial",
    "Yaserde.C21_false"
   ],
   "note": "holds for conforming documents (at every level: scalar children contain only text, an element of a derived type does not have the name of a field of that type, known content in enums); False of others: C21_false (a variant named further inside). The theorems about OkDoc also cover recursive types, whose elements are named like a field of the struct they are read as (Readable, C94)"
  },
  {
   "property": "C22",
   "status": "partial",
   "theorems": [
    "Yaserde.C22_panic_only_partial",
    "Yaserde.C22_no_unwrap_partial",
    "Yaserde.C22_unwrap_panics",
    "Yaserde.C22_enum_iff",
    "Yaserde.C22_no_panic_partial",
    "Yaserde.C22_scalars",
    "Yaserde.C22_false"
   ],
   "note": "False of the code for numeric payloads of enum variants (C22_false). For every program and every text, the only panic is the unwrap of such a payload, and only if the type read can contain such a variant (C22_panic_only_partial, C22_no_unwrap_partial). Conversely every such payload, empty or malformed, panics (C22_unwrap_panics); for enums of scalars with XML names exactly those panic (C22_enum_iff). Structs of scalars never panic, whatever the other types (C22_scalars)."
  },
  {
   "property": "C23",
   "status": "proved",
   "theorems": [
    "Yaserde.C23_int_literal",
    "Yaserde.C23_int_element",
    "Yaserde.C23_int_attribute"
   ],
   "note": "literal grammar and two's-complement ranges stated independently of the model, for all strings and all eight types; on elements and attributes of documents"
  },
  {
   "property": "C24",
   "status": "proved",
   "theorems": [
    "Yaserde.C24_bool_literal",
    "Yaserde.C24_bool_element",
    "Yaserde.C24_bool_attribute"
   ],
   "note": "struct fields and attributes; C24_enum_bool records that enum payloads do not accept 1/0"
  },
  {
   "property": "C25",
   "status": "proved",
   "theorems": [
    "Yaserde.C25_vec_attribute"
   ],
   "note": ""
  },
  {
   "property": "C26",
   "status": "partial",
   "theorems": [
    "Yaserde.C26_flatten_partial",
    "Yaserde.C26_flatten_option_partial",
    "Yaserde.C26_false",
    "Yaserde.C26_false_option",
    "Yaserde.C26_false_namespace",
    "Yaserde.C26_false_namespace_children"
   ],
   "note": "Conforming documents: the value of a flattened field is what from_str returns for the document made of the parent's start tag and unclaimed children. False next to malformed scalar children (C26_false), and when a namespace name contains a quotation mark: it is copied into the assembled document as it is, where it adds attributes and children (C26_false_namespace)."
  },
  {
   "property": "C27",
   "status": "proved",
   "theorems": [
    "Yaserde.C27_budget_irrelevant"
   ],
   "note": "all types"
  },
  {
   "property": "C28",
   "status": "partial",
   "theorems": [
    "Yaserde.C28_trailing_partial",
    "Yaserde.C28_trailing_conforming",
    "Yaserde.C28_scalars",
    "Yaserde.C28_false",
    "Yaserde.C28_trailing_open"
   ],
   "note": "Accepted documents and conforming documents: proved. False for documents that are not accepted: what follows can decide between an error and not returning (C28_false). For structs of scalars: all documents and outcomes, except where the document element is taken for a field (C28_scalars). All outcomes for every document to which C94 applies (C28_trailing_open)."
  },
  {
   "property": "C30",
   "status": "proved",
   "theorems": [
    "Yaserde.C30_one_element"
   ],
   "note": "for every accepted schema and every well-typed value"
  },
  {
   "property": "C31",
   "status": "proved",
   "theorems": [
    "Yaserde.C31_children",
    "Yaserde.C31_nested"
   ],
   "note": "C31_nested: the same below the root, at any place"
  },
  {
   "property": "C32",
   "status": "partial",
   "theorems": [
    "Yaserde.C32_skip_partial",
    "Yaserde.C32_field_partial",
    "Yaserde.C32_false",
    "Yaserde.C95_ignored"
   ],
   "note": "false as stated: skip_serializing is ignored for attributes, text fields and attributes of flattened structs (C32_false); the partial theorem covers all other fields, at any depth. On attributes and text fields the option is ignored entirely (C95_ignored). C32_field_partial: one field replaced, flattened or not; if flattened the new value must have the old one's attributes."
  },
  {
   "property": "C33",
   "status": "proved",
   "theorems": [
    "Yaserde.C33_suppress",
    "Yaserde.C33_false_text"
   ],
   "note": "for element and attribute fields; C33_false_text records that text fields and attributes of flattened fields are not suppressed"
  },
  {
   "property": "C34",
   "status": "partial",
   "theorems": [
    "Yaserde.C34_shape_partial",
    "Yaserde.C34_read_back_partial",
    "Yaserde.C34_false_cdata"
   ],
   "note": "The tree written is independent of strings; the tags read back are those written, for legal values. False for CDATA fields containing the end marker."
  },
  {
   "property": "C35",
   "status": "proved",
   "theorems": [
    "Yaserde.C35_names",
    "Yaserde.C35_spelling"
   ],
   "note": ""
  },
  {
   "property": "C36",
   "status": "proved",
   "theorems": [
    "Yaserde.C36_flatten"
   ],
   "note": ""
  },
  {
   "property": "C37",
   "status": "proved",
   "theorems": [
    "Yaserde.C37_namespaces"
   ],
   "note": ""
  },
  {
   "property": "C38",
   "status": "partial",
   "theorems": [
    "Yaserde.C38_write_errors_partial",
    "Yaserde.C38_every_program",
    "Yaserde.C38_ok_markup",
    "Yaserde.C38_false"
   ],
   "note": "False for scalars written by serialize_type! outside of fields (Vec<Option<scalar>>, Option payloads): the error is swallowed (C38_false). Proved as stated for programs without these (C38_write_errors_partial). For every program: the outcome with any writer is that of a list of writes performed up to the first error that is noticed, and the unnoticed ones are of texts (C38_every_program); if the result is Ok, only text can be missing (C38_ok_markup)."
  },
  {
   "property": "C39",
   "status": "partial",
   "theorems": [
    "Yaserde.C39_value_partial",
    "Yaserde.C39_content_partial",
    "Yaserde.C39_flattened",
    "Yaserde.C39_false"
   ],
   "note": "False for flattened variants at the top level (C39_false). Proved for all other values (C39_value_partial; C39_content_partial for types without such variants). For values of flattened variants: to_string_content is that of the value inside, while to_string writes that value's own element inside the root element (C39_flattened)."
  },
  {
   "property": "C40",
   "status": "proved",
   "theorems": [
    "Yaserde.C40_attributes"
   ],
   "note": ""
  },
  {
   "property": "C41",
   "status": "proved",
   "theorems": [
    "Yaserde.C41_ok"
   ],
   "note": ""
  },
  {
   "property": "C42",
   "status": "proved",
   "theorems": [
    "Yaserde.C42_history"
   ],
   "note": ""
  },
  {
   "property": "C43",
   "status": "partial",
   "theorems": [
    "Yaserde.C43_every_value_partial",
    "Yaserde.C43_layout_partial",
    "Yaserde.C43_config_partial",
    "Yaserde.C43_false"
   ],
   "note": "Every value, also one that is not written as well-formed XML, of every program in whose names and namespaces there is no `<`: all layouts contain the same events, up to the same error of the parser, and are read with the same result (C43_every_value_partial, for the modelled emitter and parser). False without the condition: namespaces are written unescaped, and one that opens a CDATA section makes the indentation part of a value (C43_false). C43_layout_partial and C43_config_partial: for any emitter and parser that satisfy the text law, legal values."
  },
  {
   "property": "C44",
   "status": "partial",
   "theorems": [
    "Yaserde.C44_injective_partial",
    "Yaserde.C44_false"
   ],
   "note": "For canonical values of programs meeting the round-trip conditions; false for others (Vec attributes are not written)."
  },
  {
   "property": "C50",
   "status": "partial",
   "theorems": [
    "Yaserde.C50_simple_partial",
    "Yaserde.C50_recursive_partial",
    "Yaserde.C50_tame_partial",
    "Yaserde.C50_round_trip_partial",
    "Yaserde.C50_false"
   ],
   "note": "All tame values (trimmed, non-empty strings), any depth, recursive types, enums, defaults: for programs without namespaces and flatten (C50_simple_partial), also if structs are written under the name of one of their own fields (struct Node { node: Vec<Node> }), provided that field is the only one written as elements, or the first one and always written (C50_recursive_partial); and for programs with namespaces and flatten under conditions on the program only (C50_tame_partial); for single values under weaker conditions, C50_round_trip_partial. As stated it is false: C50_false (a recursive field is taken for its own first child)."
  },
  {
   "property": "C51",
   "status": "proved",
   "theorems": [
    "Yaserde.C51_scalar_round_trip"
   ],
   "note": ""
  },
  {
   "property": "C52",
   "status": "partial",
   "theorems": [
    "Yaserde.C52_iff",
    "Yaserde.C52_round_trip",
    "Yaserde.C52_primitive_int",
    "Yaserde.C52_primitive_bool",
    "Yaserde.C50_simple_partial",
    "Yaserde.C52_false"
   ],
   "note": "Exact characterisation for a type as document element (C52_iff); fields via C50_simple_partial. False when Display yields white space at the ends (C52_false)."
  },
  {
   "property": "C53",
   "status": "partial",
   "theorems": [
    "Yaserde.C53_iff",
    "Yaserde.C53_false"
   ],
   "note": "False: hexadecimal output is read as decimal. C53_iff: a value survives exactly if it is below ten."
  },
  {
   "property": "C54",
   "status": "partial",
   "theorems": [
    "Yaserde.C54_enum_partial",
    "Yaserde.C50_simple_partial",
    "Yaserde.C50_round_trip_partial",
    "Yaserde.C54_false",
    "Yaserde.C54_false_name",
    "Yaserde.C54_false_named",
    "Yaserde.C54_false_empty"
   ],
   "note": "Proved for unit variants and variants with a scalar or a value of a type without attributes (C54_enum_partial, C50_simple_partial; Option and Vec payloads in C50_round_trip_partial). False in general: attributes of a payload are lost, variants named like the field, named-field variants and empty payloads are read as the default."
  },
  {
   "property": "C55",
   "status": "partial",
   "theorems": [
    "Yaserde.C55_element_iff",
    "Yaserde.C55_text_iff",
    "Yaserde.C55_attribute_partial",
    "Yaserde.C55_false",
    "Yaserde.C55_false_empty",
    "Yaserde.C55_false_tab",
    "Yaserde.C55_false_cr"
   ],
   "note": "False: white space at the ends, empty strings (in elements), tabs in attributes and carriage returns are lost. Exact characterisation for element and text fields over texts without carriage returns."
  },
  {
   "property": "C56",
   "status": "partial",
   "theorems": [
    "Yaserde.C56_iff",
    "Yaserde.C56_option_partial",
    "Yaserde.C56_false",
    "Yaserde.C56_attribute_partial"
   ],
   "note": "False for Some(\"\") (C56_false); exact characterisation for Option<String> in an element (C56_iff). True of Option<String> in attributes, Some(\"\") included (C56_attribute_partial)."
  },
  {
   "property": "C57",
   "status": "partial",
   "theorems": [
    "Yaserde.C57_flatten_partial",
    "Yaserde.C57_false",
    "Yaserde.C57_false_none",
    "Yaserde.C57_false_text"
   ],
   "note": "Flattened struct fields under explicit disjointness conditions; false for flattened Options and next to children that are read by their text."
  },
  {
   "property": "C58",
   "status": "partial",
   "theorems": [
    "Yaserde.C58_namespaces_partial",
    "Yaserde.C58_false"
   ],
   "note": "One meaning per prefix, prefixes declared by the type itself; false with a default namespace and fields without prefix."
  },
  {
   "property": "C59",
   "status": "partial",
   "theorems": [
    "Yaserde.C59_namespaces_partial",
    "Yaserde.C59_flat_partial",
    "Yaserde.C59_simple_partial",
    "Yaserde.C59_plain_documents",
    "Yaserde.C59_stable_partial",
    "Yaserde.C59_false",
    "Yaserde.C59_false_element",
    "Yaserde.C59_false_flat"
   ],
   "note": "Every document without references to tabs and carriage returns, conforming or not, for programs (with namespaces) that have no flattened fields (C59_namespaces_partial with C59_plain_documents); with flattened fields, every document without number signs (C59_flat_partial). False for references to tabs (attributes) and carriage returns, also when they reach a flattened field by way of a namespace name (C59_false_flat)."
  },
  {
   "property": "C60",
   "status": "partial",
   "theorems": [
    "Yaserde.C60_default",
    "Yaserde.C60_restores",
    "Yaserde.C50_simple_partial",
    "Yaserde.C60_false"
   ],
   "note": "Scalar, struct and enum fields with defaults (elements and attributes); false for Option fields (C60_false)."
  },
  {
   "property": "C61",
   "status": "proved",
   "theorems": [
    "Yaserde.C61_well_formed",
    "Yaserde.C61_parses",
    "Yaserde.C61_grammar",
    "Yaserde.C61_unbound_payload",
    "Yaserde.C61_unbound_flatten",
    "Yaserde.C61_repeated_attribute"
   ],
   "note": "C61_grammar: the text is in the grammar of Spec/Spell.lean, for the emitter of XmlText. The last three show the text is not well formed where the conditions on names fail. Parsing (C61_parses) is under the assumption XmlLaw about the XML library, proved for the library model."
  },
  {
   "property": "C62",
   "status": "proved",
   "theorems": [
    "Yaserde.C62_result_has_type",
    "Yaserde.C62_read_then_write"
   ],
   "note": "All documents; the program is assumed to be well typed (defaults, FromStr of primitive types), which rustc checks."
  },
  {
   "property": "C63",
   "status": "proved",
   "theorems": [
    "Yaserde.C63_deserialize",
    "Yaserde.C63_serialize",
    "Yaserde.C63_primitive"
   ],
   "note": "Both directions, for the macro front end as modelled in Model/Macro.lean: syntax as syn delivers it; of rustc's errors in the generated code those that depend on the shape of a field."
  },
  {
   "property": "C64",
   "status": "partial",
   "theorems": [
    "Yaserde.C64_types_partial",
    "Yaserde.C64_shadowed",
    "Yaserde.C64_false_groups"
   ],
   "note": "The classification is characterised exactly. False for two nested groups around the argument of Option or Vec: the macro panics."
  },
  {
   "property": "C65",
   "status": "partial",
   "theorems": [
    "Yaserde.C65_options_partial",
    "Yaserde.C65_false_second",
    "Yaserde.C65_false_misspelt"
   ],
   "note": "Exact characterisation (options of the first yaserde attribute). False: a second yaserde attribute is ignored, whatever it contains, and so are misspelt keys."
  },
  {
   "property": "C66",
   "status": "proved",
   "theorems": [
    "Yaserde.C66_struct",
    "Yaserde.C66_enum",
    "Yaserde.C66_total",
    "Yaserde.C66_plain",
    "Yaserde.C66_serOk",
    "Yaserde.C66_serializes"
   ],
   "note": "toDef renders an item as the definition the interpreter of the generated code takes; the theorems say it is total on accepted items and that its results satisfy SerOk and Plain."
  },
  {
   "property": "C67",
   "status": "partial",
   "theorems": [
    "Yaserde.C67_renamed_partial",
    "Yaserde.C67_false_never_read",
    "Yaserde.C67_false_any_text",
    "Yaserde.C67_false_written",
    "Yaserde.C67_false_read"
   ],
   "note": "False without rename: the name keeps its r#, so the output is not XML and no document contains the field. With rename the identifier plays no role. For every text, well formed or not, no value is read for such a field (C67_false_any_text)."
  },
  {
   "property": "C68",
   "status": "partial",
   "theorems": [
    "Yaserde.C68_reading",
    "Yaserde.C68_one",
    "Yaserde.C68_option",
    "Yaserde.C68_enum",
    "Yaserde.C68_false",
    "Yaserde.C68_false_ill",
    "Yaserde.C68_false_error"
   ],
   "note": "The first sentence is proved in full (conforming documents). The second for values without markup characters and enums without a variant named like the type (C68_enum); otherwise it is false: the value is parsed as XML (C68_false: the value <Black></Black> is read as Black; C68_false_ill: ill-formed values are accepted; C68_false_error: x & y is rejected)."
  },
  {
   "property": "C69",
   "status": "proved",
   "theorems": [
    "Yaserde.C69_made_from_document"
   ],
   "note": "every program and every document, even malformed ones; fields that are not flattened, at every depth; payloads of enums are not followed"
  },
  {
   "property": "C70",
   "status": "partial",
   "theorems": [
    "Yaserde.C70_unit",
    "Yaserde.C70_missing",
    "Yaserde.C70_field_partial",
    "Yaserde.C70_written",
    "Yaserde.C70_round_trip_partial",
    "Yaserde.C70_false",
    "Yaserde.C70_false_struct",
    "Yaserde.C70_false_named",
    "Yaserde.C70_false_content"
   ],
   "note": "Proved for variants without payload: reading (every document; as a field: conforming documents), writing, round trip (as fields: C50_round_trip_partial). False of payloads: a scalar is silently replaced by the default variant, structs and named fields are rejected; and the content of a tagged element leaks into the struct around it."
  },
  {
   "property": "C71",
   "status": "proved",
   "theorems": [
    "Yaserde.C71_complete",
    "Yaserde.C71_cut",
    "Yaserde.C71_false",
    "Yaserde.XmlText.parse_sound"
   ],
   "note": "On characters, with the character-level model of the XML library; C71_false: the condition on the type is needed (unit variants, primitive types). XmlText.parse_sound: the parser of that model accepts only sequences of properly nested elements."
  },
  {
   "property": "C72",
   "status": "proved",
   "theorems": [
    "Yaserde.C72_prefixes_and_attribute_order",
    "Yaserde.C72_attributes_with_equal_local_names"
   ],
   "note": "Every pair of event streams related by SameEv, any program without flattened fields (flattened fields are read from a rewritten text and are not covered). C72_attributes_with_equal_local_names shows the boundary: two attributes with one local name in different namespaces are not told apart and the last one wins. The hypothesis that end tags match their start tags is proved of the character-level parser for every text (tagsMatch_parse)."
  },
  {
   "property": "C73",
   "status": "proved",
   "theorems": [
    "Yaserde.C73_older_program_reads",
    "Yaserde.C73_newer_program_reads",
    "Yaserde.C73_older_reads_what_newer_writes",
    "Yaserde.C73_cut_unique",
    "Yaserde.C73_names_matter",
    "Yaserde.C73_recursive_writes"
   ],
   "note": "Both directions on conforming documents and on documents of recursive types (`Readable`), on the declarative reading that the generated code is proved to compute; `Cut` relates the two values field by field by Rust name and determines the older value. C73_recursive_writes: what the newer version writes for a recursive type is read by the older one. Other documents and flattened fields are not covered."
  },
  {
   "property": "C74",
   "status": "partial",
   "theorems": [
    "Yaserde.C74_parse",
    "Yaserde.C74_spelling_partial",
    "Yaserde.C74_reads_partial",
    "Yaserde.C74_unambiguous",
    "Yaserde.C74_false",
    "Yaserde.C74_recursive_partial"
   ],
   "note": "Proved for all spellings in the grammar of Spec/Spell.lean and the parser of XmlText. Partial because false of processing instructions inside a text (C74_false); document type declarations are not in the grammar, and CR LF inside a text is taken as two line ends, as in XmlText. C74_recursive_partial: also for documents of recursive types."
  },
  {
   "property": "C75",
   "status": "partial",
   "theorems": [
    "Yaserde.C75_snake_partial",
    "Yaserde.C75_camel",
    "Yaserde.C75_clash_iff",
    "Yaserde.C75_false"
   ],
   "note": "False: x1/x_1, ID/id, prefix `attribute` (C75_false), and every name in camel case beside the same one in snake case (C75_camel). Exact for fields without prefix in terms of the camel case of the names (C75_clash_iff); no clashes for snake case without digits. to_upper_camel_case of the crate heck is modelled from its documentation, for ASCII."
  },
  {
   "property": "C76",
   "status": "proved",
   "theorems": [
    "Yaserde.C76_same",
    "Yaserde.C76_returns",
    "Yaserde.C76_budget"
   ],
   "note": "Reading. A deep embedding: the quote! templates are printed as programs of a fragment of Rust (Model/Rust.lean, Model/GenDe.lean) with an evaluator; the evaluator on them is proved equal to the interpreter (simulation, template by template; induction on the budget for calls between types). Equal as functions, whatever the budget: no exceptions. The texts are parsed to well-formed documents (hypothesis on the parser)."
  },
  {
   "property": "C77",
   "status": "proved",
   "theorems": [
    "Yaserde.C77_same",
    "Yaserde.C77_attributes",
    "Yaserde.C77_budget",
    "Yaserde.C77_returned",
    "Yaserde.C77_writer",
    "Yaserde.C77_string",
    "Yaserde.C77_content",
    "Yaserde.MacroSample.C77_false_capture"
   ],
   "note": "Writing. Deep embedding as for C76 (Model/GenSer.lean). Equality of runs, not only of results. C77_false_capture: the condition on the names of named fields of variants cannot be dropped."
  },
  {
   "property": "C78",
   "status": "partial",
   "theorems": [
    "Yaserde.C78_element_partial",
    "Yaserde.C78_false"
   ],
   "note": "True of scalar types, derived types and types with Display and FromStr. False of usize, isize, char and names for scalar types: witness with two usize fields whose digits run together."
  },
  {
   "property": "C79",
   "status": "partial",
   "theorems": [
    "Yaserde.C79_writes",
    "Yaserde.C79_round_trip",
    "Yaserde.C79_tame_partial",
    "Yaserde.C79_panics",
    "Yaserde.C79_read_then_write"
   ],
   "note": "Transfer of C41, C50, C22 and C62 to the printed programs by C76 and C77. Partial like C50: the round trip holds under conditions on the program (C79_tame_partial), but which values survive is exactly as for the interpreter (C79_round_trip)."
  },
  {
   "property": "C80",
   "status": "proved",
   "theorems": [
    "Yaserde.C80_contract",
    "Yaserde.C80_from_str",
    "Yaserde.C80_derived",
    "Yaserde.C80_delegates",
    "Yaserde.C80_day",
    "Yaserde.C80_attributes",
    "Yaserde.C80_greedy"
   ],
   "note": "Structs without flattened fields (their residue would contain text of hand-written types); enums around hand-written payloads are not covered. For hand-written YaSerialize see C83."
  },
  {
   "property": "C81",
   "status": "proved",
   "theorems": [
    "Yaserde.C81_fits",
    "Yaserde.C81_panics",
    "Yaserde.C81_wraps"
   ],
   "note": "Below the limit for all types and all texts (programs that parse further texts while reading, for flattened fields or attributes of types that are not scalars: if those texts are below the limit too); C81_panics and C81_wraps show that the limit is real, so C11 (no limit on numbers of elements) and C09 (unknown elements are ignored) hold up to it. The other theorems are about the model with an unbounded counter."
  },
  {
   "property": "C82",
   "status": "proved",
   "theorems": [
    "Yaserde.C82_acyclic",
    "Yaserde.C82_linear",
    "Yaserde.C82_overflow",
    "Yaserde.C82_unbounded"
   ],
   "note": "A call is counted as one frame; the size of a frame in bytes is the compiler's and is not modelled."
  },
  {
   "property": "C83",
   "status": "proved",
   "theorems": [
    "Yaserde.C83_encoding",
    "Yaserde.C83_contract",
    "Yaserde.C83_to_string",
    "Yaserde.C83_errors",
    "Yaserde.C83_errors_every",
    "Yaserde.C83_derived",
    "Yaserde.C83_delegates",
    "Yaserde.C83_day",
    "Yaserde.C83_drops"
   ],
   "note": "C83_drops is the negative part. Hand-written types are opaque in the schema (any set of values). C83_errors_every: errors of the writer in every program, as in C38: only text can be missing from output reported as written."
  },
  {
   "property": "C84",
   "status": "proved",
   "theorems": [
    "Yaserde.C84_enough",
    "Yaserde.C84_acyclic",
    "Yaserde.C84_levels",
    "Yaserde.C84_overflow",
    "Yaserde.C84_same"
   ],
   "note": "A call is counted as one frame, as in C82. Dropping a deep value is recursive too and is not counted."
  },
  {
   "property": "C85",
   "status": "proved",
   "theorems": [
    "Yaserde.C85_peek",
    "Yaserde.C85_next",
    "Yaserde.C85_loop",
    "Yaserde.C85_prim_de",
    "Yaserde.C85_prim_ser",
    "Yaserde.C85_scalar",
    "Yaserde.C85_same",
    "Yaserde.C85_returns",
    "Yaserde.C85_writes"
   ],
   "note": "`C85_returns` composes the programs of the run-time library with the printed deserializers (C76), `C85_writes` with the printed serializers (C77); depth + 1 of `next_event` is not bounded by the width of usize"
  },
  {
   "property": "C86",
   "status": "partial",
   "theorems": [
    "Yaserde.C86_linear_partial",
    "Yaserde.C86_text_partial",
    "Yaserde.C86_attrs_partial",
    "Yaserde.C86_false",
    "Yaserde.C86_false_factor",
    "Yaserde.C86_false_attr",
    "Yaserde.C86_false_scalar"
   ],
   "note": "Proved as a linear bound for programs without flattened fields, for all texts: without attributes of derived types for all parsers, in the events delivered (C86_linear_partial) and in the characters (C86_text_partial); with attributes of derived types, Vec included, under names of their own (C86_attrs_partial: in the characters). Otherwise the property is false of the code. With flattened fields C86_false gives, for every n, a text of 7(n+1) characters read as a value of size at least 2^n, and C86_false_factor that no factor exists. With two attribute fields of derived types that have the same name the size is at least 2^n for at most 10n^2+10n+4 characters (C86_false_attr). With an attribute field of a derived type that has the name of a scalar one it is at least 2n^3-3n^2 for the same texts, and no factor exists (C86_false_scalar). Missing: a bound for flattened fields and for shared names if the types are not recursive."
  },
  {
   "property": "C87",
   "status": "partial",
   "theorems": [
    "Yaserde.C87_linear_partial",
    "Yaserde.C87_square",
    "Yaserde.C87_false",
    "Yaserde.C87_false_factor",
    "Yaserde.C87_indented",
    "Yaserde.C87_indented_factor"
   ],
   "note": "Linear without attributes of derived types and without indentation (C87_linear_partial); at most quadratic for all programs and configurations (C87_square); not linear for a program with attributes of derived types (C87_false, C87_false_factor) nor with indentation (C87_indented, C87_indented_factor). For the emitter of the model (XmlText.emit)."
  },
  {
   "property": "C88",
   "status": "proved",
   "theorems": [
    "Yaserde.C88_struct",
    "Yaserde.C88_attr",
    "Yaserde.C88_round_trip",
    "Yaserde.C88_delegates",
    "Yaserde.C88_part",
    "Yaserde.C88_part_attr",
    "Yaserde.C88_part_writes",
    "Yaserde.C88_helpers",
    "Yaserde.C88_day"
   ],
   "note": "Composition theorem: a derived struct around arbitrary types survives if the values of its fields do (C88_struct, C88_attr, C88_round_trip); ways for those to survive: derived parts (C88_part, C88_part_attr, C88_part_writes), helpers of the library (C88_helpers), conversions (C88_delegates). C88_day: the condition on hand-written types is needed. Structs with namespaces or flattened fields and enums around hand-written types are not covered."
  },
  {
   "property": "C89",
   "status": "proved",
   "theorems": [
    "Yaserde.C89_with_writer",
    "Yaserde.C89_with_writer_content",
    "Yaserde.C89_to_string_with_config",
    "Yaserde.C89_to_string",
    "Yaserde.C89_to_string_content",
    "Yaserde.C89_from_str",
    "Yaserde.C89_returns",
    "Yaserde.C89_writes",
    "Yaserde.C89_config"
   ],
   "note": "The entry functions and the constructors of Serializer and Deserializer are programs of the fragment of Rust of C76 (Model/Entry.lean), run over the configurations, buffers, EventWriter and EventReader of xml-rs. C89_returns and C89_writes put them together with the printed code (C76, C77) and the rest of the run-time library (C85), including the calls of from_str and to_string_content from printed code. Buffers hold text, so str::from_utf8 cannot fail; what the emitter and the parser do with a configuration is a parameter."
  },
  {
   "property": "C90",
   "status": "partial",
   "theorems": [
    "Yaserde.C90_monomorphic",
    "Yaserde.C90_serialize",
    "Yaserde.C90_deserialize_partial",
    "Yaserde.C90_renamed_partial",
    "Yaserde.C90_false_rejected",
    "Yaserde.C90_false_alias",
    "Yaserde.C90_false_scalar"
   ],
   "note": "Model/Generic.lean adds definitions with type parameters and their instances. C90_monomorphic: for every program with generic types there is one without whose types do exactly the same, reading and writing, so the other theorems apply to generic types. C90_serialize: writing an instance is writing the type written out by hand, in full. C90_deserialize_partial: the same for reading, if the program compiles and attributes of derived types keep the names of their types. C90_renamed_partial: the same for types that go by other names. False in full: C90_false_rejected (an attribute or a variant payload whose type is a parameter: the visitors inside the function cannot name it, E0401, so the derive is rejected by the compiler), C90_false_alias (the name of the type of an attribute becomes an element name and may select a variant), C90_false_scalar (a parameter that stands for u32 is written without its element)."
  },
  {
   "property": "C91",
   "status": "proved",
   "theorems": [
    "Yaserde.C91_local",
    "Yaserde.C91_added"
   ],
   "note": "The types inside a type are given by an inductive relation on definitions; the programs have to define all of them (else they do not compile). Derived from the invariance of the generated code under names of types (C90)."
  },
  {
   "property": "C92",
   "status": "proved",
   "theorems": [
    "Yaserde.C92_resolved",
    "Yaserde.C92_struct",
    "Yaserde.C92_enum",
    "Yaserde.C92_returns"
   ],
   "note": "Model/Call.lean has the visitor items, the trait with its defaults and the calls by name; resolution of names is that of rustc (item in scope, method of the impl, else default of the trait). C92_struct is exact: the code compiles if and only if the names of the visitors differ. C92_returns carries C76 over to this program."
  },
  {
   "property": "C93",
   "status": "proved",
   "theorems": [
    "Yaserde.C93_exposed",
    "Yaserde.C93_conforming",
    "Yaserde.C93_fields",
    "Yaserde.C93_beside",
    "Yaserde.C93_counter_needed"
   ],
   "note": "Exact reading of documents with elements inside scalars, for structs without flattened fields; the result document has to conform and the counter to stay positive (C93_counter_needed: a witness without). C93_beside: a child led by an element may be replaced by its content."
  },
  {
   "property": "C94",
   "status": "proved",
   "theorems": [
    "Yaserde.C94_open",
    "Yaserde.C94_recursive",
    "Yaserde.C94_exposed",
    "Yaserde.C94_first_needed"
   ],
   "note": "Exact semantics of recursive types: openNode (Spec/Open.lean) is a structural recursion over the document. C94_recursive gives the declarative reading back under soundFirst; C94_first_needed shows it is needed. Not covered: elements named like a scalar field of the struct they are read as, flattened structs, counters that reach zero (C93_counter_needed)."
  },
  {
   "property": "C95",
   "status": "proved",
   "theorems": [
    "Yaserde.C95_reading",
    "Yaserde.C95_writing",
    "Yaserde.C95_written_only",
    "Yaserde.C95_read_only",
    "Yaserde.C95_ignored",
    "Yaserde.C95_reading_sharp",
    "Yaserde.C95_writing_sharp",
    "Yaserde.C95_never_missing"
   ],
   "note": "The lists are FieldDef.ReadAlike and FieldDef.WriteAlike with their companions (Spec/Options.lean). Reading agrees step by step, for every budget. Writing includes programs with hand-written implementations. The sharp theorems are single pairs of programs, one for each option."
  },
  {
   "property": "C96",
   "status": "proved",
   "theorems": [
    "Yaserde.C96_output",
    "Yaserde.C96_errors",
    "Yaserde.C96_head"
   ],
   "note": "for well-typed values of programs in SerOk (the types the generated code compiles for): events, text under every configuration, content. On outputs that fail (C96_errors): programs without scalars written by serialize_type! outside of fields, as in C38"
  },
  {
   "property": "C97",
   "status": "proved",
   "theorems": [
    "Yaserde.C97_reading",
    "Yaserde.C97_hidden",
    "Yaserde.C97_writing",
    "Yaserde.C97_round_trip",
    "Yaserde.C97_conditions_needed"
   ],
   "note": "Variants are numbered in the model, so new ones come at the end. The program has the same types before and after; types that only the new variants contain are added by C91. The conditions on flattened fields and attributes are those of (1) in the statement: both are read from a text assembled or unescaped and parsed again."
  },
  {
   "property": "C98",
   "status": "proved",
   "theorems": [
    "Yaserde.C98_reading",
    "Yaserde.C98_outcomes",
    "Yaserde.C98_determined",
    "Yaserde.C98_conditions_needed"
   ],
   "note": "Two programs run side by side over the same reader: one lemma per generated function, with the local variables of the newer struct being those of the older one plus untouched ones; induction on the budget. Extends the second part of C73 from conforming documents to all texts."
  }
 ]
}
