import Lean
import Verif.Props.Runtime
import Verif.Props.Decode
import Verif.Props.Total
import Verif.Props.Scalars
import Verif.Props.Encode
import Verif.Props.RoundTrip
import Verif.Props.Flatten
import Verif.Props.WellFormed
import Verif.Props.Layout
import Verif.Props.Sound
import Verif.Props.Macro
import Verif.Props.AttrUser
import Verif.Props.AnyDoc
import Verif.Props.Sources
import Verif.Props.Tagged
import Verif.Props.Cut
import Verif.Props.Rename
import Verif.Props.Twin
import Verif.Props.Evolve
import Verif.Props.Room
import Verif.Props.Bound
import Verif.Props.Spell
import Verif.Props.Panic
import Verif.Props.Visitor
import Verif.Props.Generated
import Verif.Props.Bare
import Verif.Props.GeneratedSer
import Verif.Props.GeneratedTrip
import Verif.Props.User
import Verif.Props.Counter
import Verif.Props.Frames
import Verif.Props.UserSer
import Verif.Props.SerFrames
import Verif.Props.RuntimeGen
import Verif.Props.Size
import Verif.Props.OutSize
import Verif.Props.Mixed
import Verif.Props.SizeAttr
import Verif.Props.SizeScalar
import Verif.Props.Entry
import Verif.Props.Generic
import Verif.Props.Local
import Verif.Props.Call
import Verif.Props.Expose
import Verif.Props.Open
import Verif.Props.Namesake
import Verif.Props.RecursiveDoc
import Verif.Props.Options
import Verif.Props.Unwritten
import Verif.Props.NewField
import Verif.Props.NewVariant
/-
Checks, when built, that every theorem claimed in `MANIFEST.json` depends on no axioms but `propext`,
`Classical.choice` and `Quot.sound`.
-/

open Lean in
run_cmd
  let allowed : List Name := [``propext, ``Classical.choice, ``Quot.sound]
  for n in ([
    ``Yaserde.C01_peek_pure,
    ``Yaserde.C02_events_once,
    ``Yaserde.C03_depth,
    ``Yaserde.C04_skip_element,
    ``Yaserde.C05_read_inner_value,
    ``Yaserde.C06_ok_needs_closed_root,
    ``Yaserde.C06_truncated_never_ok,
    ``Yaserde.C07_bound,
    ``Yaserde.C07_broken_partial,
    ``Yaserde.C07_conforming_partial,
    ``Yaserde.C07_false,
    ``Yaserde.C07_false_enum,
    ``Yaserde.C07_false_inside,
    ``Yaserde.C07_open_partial,
    ``Yaserde.C07_recursive_partial,
    ``Yaserde.C07_scalars_broken,
    ``Yaserde.C07_scalars_iff,
    ``Yaserde.C07_scalars_trailing,
    ``Yaserde.C07_truncated_rejected,
    ``Yaserde.C08_false,
    ``Yaserde.C08_ok_fields_partial,
    ``Yaserde.C08_struct_reading_partial,
    ``Yaserde.C09_false,
    ``Yaserde.C09_recursive_false,
    ``Yaserde.C09_recursive_partial,
    ``Yaserde.C09_unknown_ignored_partial,
    ``Yaserde.C10_false,
    ``Yaserde.C10_order_irrelevant_partial,
    ``Yaserde.C10_recursive_partial,
    ``Yaserde.C11_false,
    ``Yaserde.C11_no_more_items,
    ``Yaserde.C11_vec_scalar_partial,
    ``Yaserde.C11_vec_struct_partial,
    ``Yaserde.C12_false,
    ``Yaserde.C12_last_wins_scalar_partial,
    ``Yaserde.C12_last_wins_struct_partial,
    ``Yaserde.C13_attribute_value_partial,
    ``Yaserde.C13_false,
    ``Yaserde.C13_own_attributes_partial,
    ``Yaserde.C14_absent,
    ``Yaserde.C14_false,
    ``Yaserde.C14_missing_required_partial,
    ``Yaserde.C14_missing_value_partial,
    ``Yaserde.C15_malformed_attribute,
    ``Yaserde.C16_false,
    ``Yaserde.C16_malformed_is_absent_partial,
    ``Yaserde.C16_recursive_partial,
    ``Yaserde.C17_any_document_partial,
    ``Yaserde.C17_false,
    ``Yaserde.C17_root_name_irrelevant_partial,
    ``Yaserde.C18_misc_irrelevant,
    ``Yaserde.C19_child_namespace,
    ``Yaserde.C19_child_namespace_only_partial,
    ``Yaserde.C19_child_namespace_partial,
    ``Yaserde.C19_root_namespace,
    ``Yaserde.C20_false,
    ``Yaserde.C20_text_partial,
    ``Yaserde.C21_default_partial,
    ``Yaserde.C21_false,
    ``Yaserde.C21_newtype_partial,
    ``Yaserde.C21_unit_partial,
    ``Yaserde.C22_enum_iff,
    ``Yaserde.C22_false,
    ``Yaserde.C22_no_panic_partial,
    ``Yaserde.C22_no_unwrap_partial,
    ``Yaserde.C22_panic_only_partial,
    ``Yaserde.C22_scalars,
    ``Yaserde.C22_unwrap_panics,
    ``Yaserde.C23_int_attribute,
    ``Yaserde.C23_int_element,
    ``Yaserde.C23_int_literal,
    ``Yaserde.C24_bool_attribute,
    ``Yaserde.C24_bool_element,
    ``Yaserde.C24_bool_literal,
    ``Yaserde.C25_vec_attribute,
    ``Yaserde.C26_false,
    ``Yaserde.C26_false_namespace,
    ``Yaserde.C26_false_namespace_children,
    ``Yaserde.C26_false_option,
    ``Yaserde.C26_flatten_option_partial,
    ``Yaserde.C26_flatten_partial,
    ``Yaserde.C27_budget_irrelevant,
    ``Yaserde.C28_false,
    ``Yaserde.C28_scalars,
    ``Yaserde.C28_trailing_conforming,
    ``Yaserde.C28_trailing_open,
    ``Yaserde.C28_trailing_partial,
    ``Yaserde.C30_one_element,
    ``Yaserde.C31_children,
    ``Yaserde.C31_nested,
    ``Yaserde.C32_false,
    ``Yaserde.C32_field_partial,
    ``Yaserde.C32_skip_partial,
    ``Yaserde.C33_false_text,
    ``Yaserde.C33_suppress,
    ``Yaserde.C34_false_cdata,
    ``Yaserde.C34_read_back_partial,
    ``Yaserde.C34_shape_partial,
    ``Yaserde.C35_names,
    ``Yaserde.C35_spelling,
    ``Yaserde.C36_flatten,
    ``Yaserde.C37_namespaces,
    ``Yaserde.C38_every_program,
    ``Yaserde.C38_false,
    ``Yaserde.C38_ok_markup,
    ``Yaserde.C38_write_errors_partial,
    ``Yaserde.C39_content_partial,
    ``Yaserde.C39_false,
    ``Yaserde.C39_flattened,
    ``Yaserde.C39_value_partial,
    ``Yaserde.C40_attributes,
    ``Yaserde.C41_ok,
    ``Yaserde.C42_history,
    ``Yaserde.C43_config_partial,
    ``Yaserde.C43_every_value_partial,
    ``Yaserde.C43_false,
    ``Yaserde.C43_layout_partial,
    ``Yaserde.C44_false,
    ``Yaserde.C44_injective_partial,
    ``Yaserde.C50_false,
    ``Yaserde.C50_recursive_partial,
    ``Yaserde.C50_round_trip_partial,
    ``Yaserde.C50_simple_partial,
    ``Yaserde.C50_tame_partial,
    ``Yaserde.C51_scalar_round_trip,
    ``Yaserde.C52_false,
    ``Yaserde.C52_iff,
    ``Yaserde.C52_primitive_bool,
    ``Yaserde.C52_primitive_int,
    ``Yaserde.C52_round_trip,
    ``Yaserde.C53_false,
    ``Yaserde.C53_iff,
    ``Yaserde.C54_enum_partial,
    ``Yaserde.C54_false,
    ``Yaserde.C54_false_empty,
    ``Yaserde.C54_false_name,
    ``Yaserde.C54_false_named,
    ``Yaserde.C55_attribute_partial,
    ``Yaserde.C55_element_iff,
    ``Yaserde.C55_false,
    ``Yaserde.C55_false_cr,
    ``Yaserde.C55_false_empty,
    ``Yaserde.C55_false_tab,
    ``Yaserde.C55_text_iff,
    ``Yaserde.C56_attribute_partial,
    ``Yaserde.C56_false,
    ``Yaserde.C56_iff,
    ``Yaserde.C56_option_partial,
    ``Yaserde.C57_false,
    ``Yaserde.C57_false_none,
    ``Yaserde.C57_false_text,
    ``Yaserde.C57_flatten_partial,
    ``Yaserde.C58_false,
    ``Yaserde.C58_namespaces_partial,
    ``Yaserde.C59_false,
    ``Yaserde.C59_false_element,
    ``Yaserde.C59_false_flat,
    ``Yaserde.C59_flat_partial,
    ``Yaserde.C59_namespaces_partial,
    ``Yaserde.C59_plain_documents,
    ``Yaserde.C59_simple_partial,
    ``Yaserde.C59_stable_partial,
    ``Yaserde.C60_default,
    ``Yaserde.C60_false,
    ``Yaserde.C60_restores,
    ``Yaserde.C61_grammar,
    ``Yaserde.C61_parses,
    ``Yaserde.C61_repeated_attribute,
    ``Yaserde.C61_unbound_flatten,
    ``Yaserde.C61_unbound_payload,
    ``Yaserde.C61_well_formed,
    ``Yaserde.C62_read_then_write,
    ``Yaserde.C62_result_has_type,
    ``Yaserde.C63_deserialize,
    ``Yaserde.C63_primitive,
    ``Yaserde.C63_serialize,
    ``Yaserde.C64_false_groups,
    ``Yaserde.C64_shadowed,
    ``Yaserde.C64_types_partial,
    ``Yaserde.C65_false_misspelt,
    ``Yaserde.C65_false_second,
    ``Yaserde.C65_options_partial,
    ``Yaserde.C66_enum,
    ``Yaserde.C66_plain,
    ``Yaserde.C66_serOk,
    ``Yaserde.C66_serializes,
    ``Yaserde.C66_struct,
    ``Yaserde.C66_total,
    ``Yaserde.C67_false_any_text,
    ``Yaserde.C67_false_never_read,
    ``Yaserde.C67_false_read,
    ``Yaserde.C67_false_written,
    ``Yaserde.C67_renamed_partial,
    ``Yaserde.C68_enum,
    ``Yaserde.C68_false,
    ``Yaserde.C68_false_error,
    ``Yaserde.C68_false_ill,
    ``Yaserde.C68_one,
    ``Yaserde.C68_option,
    ``Yaserde.C68_reading,
    ``Yaserde.C69_made_from_document,
    ``Yaserde.C70_false,
    ``Yaserde.C70_false_content,
    ``Yaserde.C70_false_named,
    ``Yaserde.C70_false_struct,
    ``Yaserde.C70_field_partial,
    ``Yaserde.C70_missing,
    ``Yaserde.C70_round_trip_partial,
    ``Yaserde.C70_unit,
    ``Yaserde.C70_written,
    ``Yaserde.C71_complete,
    ``Yaserde.C71_cut,
    ``Yaserde.C71_false,
    ``Yaserde.C72_attributes_with_equal_local_names,
    ``Yaserde.C72_prefixes_and_attribute_order,
    ``Yaserde.C73_cut_unique,
    ``Yaserde.C73_names_matter,
    ``Yaserde.C73_newer_program_reads,
    ``Yaserde.C73_older_program_reads,
    ``Yaserde.C73_older_reads_what_newer_writes,
    ``Yaserde.C73_recursive_writes,
    ``Yaserde.C74_false,
    ``Yaserde.C74_parse,
    ``Yaserde.C74_reads_partial,
    ``Yaserde.C74_recursive_partial,
    ``Yaserde.C74_spelling_partial,
    ``Yaserde.C74_unambiguous,
    ``Yaserde.C75_camel,
    ``Yaserde.C75_clash_iff,
    ``Yaserde.C75_false,
    ``Yaserde.C75_snake_partial,
    ``Yaserde.C76_budget,
    ``Yaserde.C76_returns,
    ``Yaserde.C76_same,
    ``Yaserde.C77_attributes,
    ``Yaserde.C77_budget,
    ``Yaserde.C77_content,
    ``Yaserde.C77_returned,
    ``Yaserde.C77_same,
    ``Yaserde.C77_string,
    ``Yaserde.C77_writer,
    ``Yaserde.C78_element_partial,
    ``Yaserde.C78_false,
    ``Yaserde.C79_panics,
    ``Yaserde.C79_read_then_write,
    ``Yaserde.C79_round_trip,
    ``Yaserde.C79_tame_partial,
    ``Yaserde.C79_writes,
    ``Yaserde.C80_attributes,
    ``Yaserde.C80_contract,
    ``Yaserde.C80_day,
    ``Yaserde.C80_delegates,
    ``Yaserde.C80_derived,
    ``Yaserde.C80_from_str,
    ``Yaserde.C80_greedy,
    ``Yaserde.C81_fits,
    ``Yaserde.C81_panics,
    ``Yaserde.C81_wraps,
    ``Yaserde.C82_acyclic,
    ``Yaserde.C82_linear,
    ``Yaserde.C82_overflow,
    ``Yaserde.C82_unbounded,
    ``Yaserde.C83_contract,
    ``Yaserde.C83_day,
    ``Yaserde.C83_delegates,
    ``Yaserde.C83_derived,
    ``Yaserde.C83_drops,
    ``Yaserde.C83_encoding,
    ``Yaserde.C83_errors,
    ``Yaserde.C83_errors_every,
    ``Yaserde.C83_to_string,
    ``Yaserde.C84_acyclic,
    ``Yaserde.C84_enough,
    ``Yaserde.C84_levels,
    ``Yaserde.C84_overflow,
    ``Yaserde.C84_same,
    ``Yaserde.C85_loop,
    ``Yaserde.C85_next,
    ``Yaserde.C85_peek,
    ``Yaserde.C85_prim_de,
    ``Yaserde.C85_prim_ser,
    ``Yaserde.C85_returns,
    ``Yaserde.C85_same,
    ``Yaserde.C85_scalar,
    ``Yaserde.C85_writes,
    ``Yaserde.C86_attrs_partial,
    ``Yaserde.C86_false,
    ``Yaserde.C86_false_attr,
    ``Yaserde.C86_false_factor,
    ``Yaserde.C86_false_scalar,
    ``Yaserde.C86_linear_partial,
    ``Yaserde.C86_text_partial,
    ``Yaserde.C87_false,
    ``Yaserde.C87_false_factor,
    ``Yaserde.C87_indented,
    ``Yaserde.C87_indented_factor,
    ``Yaserde.C87_linear_partial,
    ``Yaserde.C87_square,
    ``Yaserde.C88_attr,
    ``Yaserde.C88_day,
    ``Yaserde.C88_delegates,
    ``Yaserde.C88_helpers,
    ``Yaserde.C88_part,
    ``Yaserde.C88_part_attr,
    ``Yaserde.C88_part_writes,
    ``Yaserde.C88_round_trip,
    ``Yaserde.C88_struct,
    ``Yaserde.C89_config,
    ``Yaserde.C89_from_str,
    ``Yaserde.C89_returns,
    ``Yaserde.C89_to_string,
    ``Yaserde.C89_to_string_content,
    ``Yaserde.C89_to_string_with_config,
    ``Yaserde.C89_with_writer,
    ``Yaserde.C89_with_writer_content,
    ``Yaserde.C89_writes,
    ``Yaserde.C90_deserialize_partial,
    ``Yaserde.C90_false_alias,
    ``Yaserde.C90_false_rejected,
    ``Yaserde.C90_false_scalar,
    ``Yaserde.C90_monomorphic,
    ``Yaserde.C90_renamed_partial,
    ``Yaserde.C90_serialize,
    ``Yaserde.C91_added,
    ``Yaserde.C91_local,
    ``Yaserde.C92_enum,
    ``Yaserde.C92_resolved,
    ``Yaserde.C92_returns,
    ``Yaserde.C92_struct,
    ``Yaserde.C93_beside,
    ``Yaserde.C93_conforming,
    ``Yaserde.C93_counter_needed,
    ``Yaserde.C93_exposed,
    ``Yaserde.C93_fields,
    ``Yaserde.C94_exposed,
    ``Yaserde.C94_first_needed,
    ``Yaserde.C94_open,
    ``Yaserde.C94_recursive,
    ``Yaserde.C95_ignored,
    ``Yaserde.C95_never_missing,
    ``Yaserde.C95_read_only,
    ``Yaserde.C95_reading,
    ``Yaserde.C95_reading_sharp,
    ``Yaserde.C95_writing,
    ``Yaserde.C95_writing_sharp,
    ``Yaserde.C95_written_only,
    ``Yaserde.C96_errors,
    ``Yaserde.C96_head,
    ``Yaserde.C96_output,
    ``Yaserde.C97_conditions_needed,
    ``Yaserde.C97_hidden,
    ``Yaserde.C97_reading,
    ``Yaserde.C97_round_trip,
    ``Yaserde.C97_writing,
    ``Yaserde.C98_conditions_needed,
    ``Yaserde.C98_determined,
    ``Yaserde.C98_outcomes,
    ``Yaserde.C98_reading,
    ``Yaserde.MacroSample.C77_false_capture,
    ``Yaserde.XmlText.parse_sound] : List Name) do
    for a in ← collectAxioms n do
      unless allowed.contains a do throwError "{n} depends on {a}"
