{"claims": [
 {"property": "C01", "status": "proved", "theorems": ["Mirror.C01_roundtrip", "Mirror.C01_fine_key_order_loses_entries"], "note": "Key orders must not separate keys whose Values are equal; the second theorem shows this is necessary."},
 {"property": "C03", "status": "proved", "theorems": ["Mirror.C03_value_is_its_own_view", "Mirror.C03_to_value_wf"], "note": ""},
 {"property": "C05", "status": "proved", "theorems": ["Mirror.C05_from_reflect_sound"], "note": ""},
 {"property": "C07", "status": "proved", "theorems": ["Mirror.C07_patch_keeps_type"], "note": ""},
 {"property": "C08", "status": "proved", "theorems": ["Mirror.C08_other_kind_no_effect"], "note": ""},
 {"property": "C12", "status": "proved", "theorems": ["Mirror.C12_patch_list", "Mirror.C12_patch_map", "Mirror.C12_patch_map_entry"], "note": ""},
 {"property": "C20", "status": "proved", "theorems": ["Mirror.C20_value_total_order", "Mirror.C20_float_keys"], "note": "Value.cmp and Value.beq model Ord and PartialEq of Value."},
 {"property": "C21", "status": "proved", "theorems": ["Mirror.C21_equal_values_hash_equal"], "note": "hash modelled as the sequence of writes to the hasher."},
 {"property": "C19", "status": "proved", "theorems": ["Mirror.C19_order_insensitive"], "note": "Every permutation of every list of distinctly named NaN-free fields."},
 {"property": "C27", "status": "proved", "theorems": ["Mirror.C27_paths_compose", "Mirror.C27_prefixes_reachable"], "note": "All values and paths, no hypotheses."},
 {"property": "C28", "status": "proved", "theorems": ["Mirror.C28_at_mut_agrees", "Mirror.C28_write_then_read", "Mirror.C28_rest_unchanged", "Mirror.C28_write_back", "Mirror.C28_write_keeps_type"], "note": "Diverging paths are defined in Spec/Path.lean. When the path ends with a ::Variant key the value written must be of that variant."},
 {"property": "C31", "status": "proved", "theorems": ["Mirror.C31_breadcrumbs", "Mirror.C31_breadcrumbs_are_prefixes"], "note": "Every path, every number of next calls."},
 {"property": "C32", "status": "proved", "theorems": ["Mirror.C32_operations_are_a_stack", "Mirror.C32_macro", "Mirror.C32_display_in_order", "Mirror.C32_display_injective", "Mirror.C32_display_clash"], "note": "Display of the value inside a get key is a parameter; injectivity excludes get keys."},
 {"property": "C22", "status": "proved", "theorems": ["Mirror.C22_map_history", "Mirror.C22_get", "Mirror.C22_represents", "Mirror.C22_iteration_sorted", "Mirror.C22_get_after_insert", "Mirror.C22_get_after_remove", "Mirror.C22_not_convertible", "Mirror.C22_len"], "note": "Histories of insert/remove on any typed map against an abstract finite map; assumes the key type's Ord is a total order (OrdLaws)."},
 {"property": "C23", "status": "partial", "theorems": ["Mirror.C23_record", "Mirror.C23_fields_len_partial", "Mirror.C23_fields_len_wrong"], "note": "field/name_at/field_at proved in full. fields_len counts calls, not distinct names: proved wrong whenever a name is set twice."},
 {"property": "C24", "status": "proved", "theorems": ["Mirror.C24_tuple_builders", "Mirror.C24_tuple_variant", "Mirror.C24_struct_variant", "Mirror.C24_setters_panic", "Mirror.C24_setters_keep_variant"], "note": ""},
 {"property": "C25", "status": "proved", "theorems": ["Mirror.C25_list_history", "Mirror.C25_get_len", "Mirror.C25_list_typed", "Mirror.C25_push"], "note": ""},
 {"property": "C33", "status": "proved", "theorems": ["Mirror.descriptor_closed", "Mirror.descriptor_fields_closed"], "note": "every id reachable by navigation in any finished descriptor can be looked up"},
 {"property": "C34", "status": "partial", "theorems": ["Mirror.describe_terminates_iff", "Mirror.describe_terminates_partial", "Mirror.describe_diverges", "Mirror.describe_diverges_containing", "Mirror.describe_shape_diverges"], "note": "exact characterisation: terminates iff no component type has an infinite descent through tuple structs, enums and boxes only; recursive enums and tuple structs overflow the stack"},
 {"property": "C40", "status": "partial", "theorems": ["Mirror.default_value_terminates_iff", "Mirror.has_default_terminates_iff", "Mirror.default_value_terminates_partial", "Mirror.default_value_diverges", "Mirror.has_default_diverges", "Mirror.expr_diverges", "Mirror.nest_diverges", "Mirror.default_value_det", "Mirror.has_default_det"], "note": "Exact characterisation of termination; proved for non-recursive types; the code diverges on types whose default asks for itself."},
 {"property": "C49", "status": "partial", "theorems": ["Mirror.struct_skips_hidden", "Mirror.tuple_struct_skips_hidden_partial", "Mirror.enum_skips_hidden_partial", "Mirror.skipped_contents_unobservable", "Mirror.struct_type_info_skips"], "note": "Skipped fields never appear in any accessor, count, to_value or type info, and all others do, for every skip position; except that iterating fields() over a tuple struct or enum variant stops at the first skipped field (stated exactly: it yields the fields before it), which the code really does."},
 {"property": "C42", "status": "proved", "theorems": ["Mirror.try_visit_stops_at_first_error", "Mirror.try_visit_error_or_all_partial"], "note": "Unconditional for every graph, type id, value and visitor; the second theorem identifies the sequence with the leaves of the value for types whose skips are trailing."},
 {"property": "C46", "status": "proved", "theorems": ["Mirror.from_reflect_nonzero", "Mirror.patch_nonzero_kept", "Mirror.nonzero_from_reflect_iff", "Mirror.nonzero_patch"], "note": "At any depth, for every conversion and patch between well-typed values."},
 {"property": "C43", "status": "partial", "theorems": ["Mirror.simple_name_iff", "Mirror.simple_name_fails_iff", "Mirror.simple_name_idempotent", "Mirror.simple_name_text_partial", "Mirror.unnamed_scopes_removed", "Mirror.simple_name_underscore_fails"], "note": "Exact for every syntax tree. From text it holds for names without '::_'; a type whose name begins with an underscore is printed wrongly (negation proved for all such paths). The parser (syn) is a parameter."},
 {"property": "C44", "status": "proved", "theorems": ["Mirror.pretty_declaration", "Mirror.pretty_builtin", "Mirror.pretty_error", "Mirror.name_fmt_error_iff", "Mirror.pretty_never_panics"], "note": "Text is the declaration, each shown field and variant once and in order, whenever the type names can be written; otherwise an error, never a panic."},
 {"property": "C50", "status": "proved", "theorems": ["Mirror.C50_from_reflect_iff", "Mirror.C50_from_reflect_none_iff", "Mirror.C50_from_reflect_kind", "Mirror.C50_from_reflect_reads_declared", "Mirror.C50_from_reflect_bad_field"], "note": "ConvertsTo is a specification relation given per kind of target type; sources are arbitrary reflected values. Skipped enum variants and from_reflect_with overrides are outside the model."},
 {"property": "C51", "status": "proved", "theorems": ["Mirror.C51_patch_iff", "Mirror.C51_patch_unique"], "note": "PatchesTo is a specification relation given per kind of value; hypotheses: well-formed declarations, lawful key orders, both values proper values of some type. Skipped enum variants and hand-written impls are outside the model."},
 {"property": "C04", "status": "partial", "theorems": ["Mirror.C04_converts_to_own_type_partial", "Mirror.C04_converts_to_own_type_skips_partial", "Mirror.C04_converts_exactly", "Mirror.C04_array_never_converts_from_itself"], "note": "False of the code for fixed-size arrays (proved: always None). C04_converts_exactly says exactly which values convert, and that the result then shows the same content."},
 {"property": "C52", "status": "proved", "theorems": ["Mirror.C52_field_mut_agrees", "Mirror.C52_field_at_mut_by_name", "Mirror.C52_assign_field", "Mirror.C52_assign_field_at", "Mirror.C52_fields_mut_named", "Mirror.C52_fields_mut_positional", "Mirror.C52_map_iter_mut", "Mirror.C52_map_iter_mut_typed", "Mirror.C52_get_field_mut_agrees"], "note": "Every mutable accessor agrees with its shared one; assignments through single references and through iterators (complete or left early) change exactly the fields assigned to and keep shape, skipped data and type. Index access on structs is by name (C52_field_at_mut_by_name)."},
 {"property": "C53", "status": "partial", "theorems": ["Mirror.C53_order_derived_struct", "Mirror.C53_order_dynamic_partial", "Mirror.C53_order_positional_partial", "Mirror.C53_order_struct_variant_partial"], "note": "Exact: derived structs always agree; dynamic ones exactly when names were set in increasing order; tuple-like ones exactly when no reflected field follows a skipped one.  The same for struct variants."},
 {"property": "C54", "status": "proved", "theorems": ["Mirror.C54_shows_nothing", "Mirror.C54_to_value_panics", "Mirror.C54_from_reflect_none", "Mirror.C54_to_enum_value", "Mirror.C54_patch_skipped", "Mirror.C54_patch_with_skipped", "Mirror.C54_reflect_eq", "Mirror.C54_clone", "Mirror.C54_type_info", "Mirror.C54_try_visit_panics"], "note": "values of the declarations with skipped variants added (Env.full)"},
 {"property": "C55", "status": "proved", "theorems": ["Mirror.C55_proper_iff", "Mirror.C55_to_value_panics_iff", "Mirror.C55_value_from_reflect_panics_iff", "Mirror.C55_from_reflect_panics_only", "Mirror.C55_patch_panics_only", "Mirror.C55_reflect_eq_panics_only", "Mirror.C55_no_panic"], "note": "panics of unwraps elsewhere: C06 (clone_reflect), C41 (try_visit), C48 (Duration), C52 (field_mut finds what field finds)"},
 {"property": "C56", "status": "proved", "theorems": ["Mirror.C56_part_descriptor", "Mirror.C56_same_types", "Mirror.C56_same_paths", "Mirror.C56_same_default", "Mirror.C56_same_text", "Mirror.C56_own_exists", "Mirror.C56_equal_iff"], "note": "For every part of every described type. C56_equal_iff gives exactly when the two descriptors are equal."},
 {"property": "C57", "status": "partial", "theorems": ["Mirror.C57_accepted_iff", "Mirror.C57_stored", "Mirror.C57_type", "Mirror.C57_variant", "Mirror.C57_other_types", "Mirror.C57_get_meta", "Mirror.C57_get_meta_none", "Mirror.C57_struct_fields", "Mirror.C57_variant_fields", "Mirror.C57_positional_fields", "Mirror.C57_type_at_partial", "Mirror.C57_type_at_variant_fails"], "note": "Everything is proved except for variants reached through type_at, where the code always returns nothing (C57_type_at_variant_fails)."},
 {"property": "C58", "status": "partial", "theorems": ["Mirror.C58_never_panics", "Mirror.C58_complete_partial", "Mirror.C58_complete_iff"], "note": "Never panics: proved for every value. Completeness fails when a skipped field precedes a reflected one in a tuple struct or enum variant; C58_complete_iff says it holds exactly otherwise."},
 {"property": "C02", "status": "partial", "theorems": ["Mirror.C02_roundtrip_resets_skipped_partial", "Mirror.C02_roundtrip_exactly", "Mirror.C02_misplaced_skip_fails", "Mirror.C02_misplaced_skip_in_variant_fails"], "note": "Round trip holds exactly when, everywhere inside the value, skipped positional fields come last; otherwise it fails (C02_roundtrip_exactly). Skipped fields come back as their defaults."},
 {"property": "C06", "status": "partial", "theorems": ["Mirror.C06_clone_reflect_partial", "Mirror.C06_clone_reflect_exactly", "Mirror.C06_clone_equal_iff", "Mirror.C06_clone_panics"], "note": "clone_reflect is Clone for types that opt in; for Vec, arrays, maps and opted-out types it goes through Value, so it resets skipped fields and panics exactly when the round trip fails."},
 {"property": "C14", "status": "partial", "theorems": ["Mirror.C14_reflect_eq_refl_partial", "Mirror.C14_reflect_eq_refl_exactly", "Mirror.C14_array_keys", "Mirror.C14_nan"], "note": "Holds exactly when walking over the value meets no NaN and no map key that fails to convert to its own type because of a fixed-size array; false otherwise (C14_reflect_eq_refl_exactly)."},
 {"property": "C17", "status": "partial", "theorems": ["Mirror.C17_reflect_eq_to_value_partial", "Mirror.C17_to_value_exactly", "Mirror.C17_value_first_exactly", "Mirror.C17_arrays"], "note": "Exact conditions in both orders, with skipped fields anywhere: no NaN and no fixed-size array met (and, with the value first, map keys that survive the round trip)."},
 {"property": "C36", "status": "proved", "theorems": ["Mirror.cache_same_descriptor", "Mirror.cache_built_once", "Mirror.cache_stable", "Mirror.cache_no_deadlock", "Mirror.cache_terminates", "Mirror.cache_complete", "Mirror.cache_returns"], "note": "Any number of threads and any schedule, both reader/writer preferences. Safety holds also when metadata expressions panic or nest; liveness is for expressions that return (the rest is C59)."},
 {"property": "C59", "status": "partial", "theorems": ["Mirror.C59_never_wrong_partial", "Mirror.C59_panics_do_not_block_partial", "Mirror.C59_panic_has_cause", "Mirror.C59_panic_spreads", "Mirror.C59_panicking_type_panics", "Mirror.C59_nested_call_blocks_all", "Mirror.C59_nested_call_never_returns"], "note": "The claim is false: one panic makes every later call panic, one nested call blocks all calls forever, proved for every program and schedule. Proved of the code: no call ever returns a wrong descriptor, and panics alone block nobody."},
 {"property": "C60", "status": "proved", "theorems": ["Mirror.C60_views", "Mirror.C60_one_kind", "Mirror.C60_into_descriptor", "Mirror.C60_type_at"], "note": "Spec/TypeView says what every accessor of every view should return, in terms of the declaration; the views of a descriptor form a relation that satisfies it. Type names are a parameter."},
 {"property": "C61", "status": "partial", "theorems": ["Mirror.C61_descriptors_equal_iff", "Mirror.C61_views_equal_iff", "Mirror.C61_views_differ"], "note": "Holds for descriptors obtained by type_descriptor(). Fails for views: exactly when views of one type are equal is proved, with a witness of two views of Point that differ."},
 {"property": "C48", "status": "partial", "theorems": ["Mirror.C48_nearest", "Mirror.C48_same", "Mirror.duration_from_reflect_partial", "Mirror.duration_from_reflect_panics", "Mirror.duration_patch_partial", "Mirror.duration_patch_panics", "Mirror.duration_roundtrip_fails"], "note": "The property is false: from_reflect and patch panic for every f32 outside [0, 2^64) and NaN (proved, exact); everything else does not panic, and an f32 that fits gives the nearest Duration."},
 {"property": "C62", "status": "partial", "theorems": ["Mirror.C62_right_partial", "Mirror.C62_terminates_partial", "Mirror.C62_closed", "Mirror.C62_collision_wrong", "Mirror.C62_every_hash_fails"], "note": "The property is false for every 64-bit hash (proved by pigeonhole); right whenever no two component types collide; navigation never panics for any hash."},
 {"property": "C63", "status": "partial", "theorems": ["Mirror.C63_from_reflect_iff", "Mirror.C63_standard", "Mirror.C63_conservative", "Mirror.C63_struct_field", "Mirror.C63_struct_refused", "Mirror.C63_typed", "Mirror.C63_honoured_partial", "Mirror.C63_honoured_from_value", "Mirror.C63_nested_bypassed", "Mirror.C63_downcast_refuses_values", "Mirror.C63_downcast_scalar"], "note": "The exact result of from_reflect with functions on fields, for all functions, types and sources. The invariant at every depth holds for every source in which it holds already, in particular every Value. For other sources it is false: C63_nested_bypassed shows for every enclosing one-field struct that a nested value of the right type is cloned without calling its functions."},
 {"property": "C41", "status": "partial", "theorems": ["Mirror.try_visit_all_leaves_partial", "Mirror.try_visit_never_panics_partial", "Mirror.try_visit_records_partial", "Mirror.leaves_unique", "Mirror.try_visit_panics_on_misplaced_skip", "Mirror.C41_visits_leaves", "Mirror.C41_gap_panics", "Mirror.C41_panics_iff"], "note": "Fails in the code for values with a skipped position before a reflected one. The exact condition is proved both ways: without such a position every leaf is visited once, in order, without panic (C41_visits_leaves); with one, every accepting visitor's visit panics (C41_gap_panics, C41_panics_iff)."},
 {"property": "C65", "status": "proved", "theorems": ["Mirror.C65_roundtrip", "Mirror.C65_roundtrip_built", "Mirror.C65_injective", "Mirror.C65_typed_roundtrip", "Mirror.C65_key_path"], "note": "Over serde's data model: the format is taken to hand back what it was given, struct fields by name and variants by name or position. Typed round trip under the hypotheses of C01."},
 {"property": "C38", "status": "partial", "theorems": ["Mirror.default_value_converts_partial", "Mirror.default_value_converts_fails_skip", "Mirror.C38_converts_iff", "Mirror.C38_fails_iff"], "note": "Exact: the default converts if and only if no type it is made up of has a skipped field before a reflected one in its tuple struct or first tuple variant, and then to a proper value whose to_value is the default."},
 {"property": "C39", "status": "partial", "theorems": ["Mirror.has_default_sound", "Mirror.has_default_exact_partial", "Mirror.has_default_fails_empty_array", "Mirror.default_value_some_iff", "Mirror.C39_has_default_true_iff", "Mirror.C39_disagree_iff"], "note": "true implies Some for every type. They disagree exactly where the default contains an array of length zero whose element type has no default (C39_disagree_iff)."},
 {"property": "C66", "status": "partial", "theorems": ["Mirror.C66_read_iff", "Mirror.C66_well_formed_iff", "Mirror.C66_list_strict", "Mirror.C66_map_strict", "Mirror.C66_converts_soundly", "Mirror.C66_no_panic", "Mirror.C66_record_partial", "Mirror.C66_record_names_arbitrary", "Mirror.C66_counted_but_not_shown", "Mirror.C66_found_but_not_shown"], "note": "Fails for records: the names listed are not checked against the fields. What can be read, and when it is well formed, is said exactly; the other parts hold for all data."},
 {"property": "C67", "status": "proved", "theorems": ["Mirror.C67_roundtrip", "Mirror.C67_injective", "Mirror.C67_read_iff", "Mirror.C67_strict"], "note": "Over serde's data model; the format is assumed to hand back the data it was given."},
 {"property": "C68", "status": "partial", "theorems": ["Mirror.C68_built_never_panics", "Mirror.C68_panics_iff_graph", "Mirror.C68_panics_iff", "Mirror.C68_navigable_partial", "Mirror.C68_dangling_root", "Mirror.C68_missing_field", "Mirror.C68_default_never_returns"], "note": "Holds for every descriptor the library builds. Fails for received ones, exactly where C68_panics_iff says."},
 {"property": "C69", "status": "partial", "theorems": ["Mirror.C69_field_found", "Mirror.C69_field_captured", "Mirror.C69_field_no_build", "Mirror.C69_field_iff", "Mirror.C69_field_at_iff", "Mirror.C69_name_at_iff", "Mirror.C69_to_value_iff", "Mirror.C69_patch_iff", "Mirror.C69_blind", "Mirror.C69_not_equal_to_itself", "Mirror.C69_does_not_convert", "Mirror.C69_patches_nothing", "Mirror.C69_eq_model", "Mirror.C69_conv_model"], "note": "The code violates the property: a String field called name captures the parameter of field and field_mut. Proved: exactly which field names each generated function is right for, what field computes otherwise, and what follows for comparison, conversion and patching. That a field enum_ of a struct or enum type might compile is not modelled."},
 {"property": "C45", "status": "partial", "theorems": ["Mirror.views_exclusive", "Mirror.kind_unique", "Mirror.views_as_reflect", "Mirror.reflect_mut_agrees_partial", "Mirror.nonzero_views_disagree", "Mirror.downcast_exact", "Mirror.downcast_exact_partial", "Mirror.downcast_sound", "Mirror.downcast_value_never", "Mirror.downcast_value_box"], "note": "One accessor exactly, for reflect_ref and reflect_owned. reflect_mut agrees except for NonZero integers, which are all opaque to reflect_mut (negation proved). downcast_exact says to which type every value downcasts; it is the value's own type except for Value and Box, to which no value downcasts, and for a Value holding a struct or enum, which downcasts to Box<StructValue> or Box<EnumValue> instead of StructValue or EnumValue (negations proved)."},
 {"property": "C47", "status": "partial", "theorems": ["Mirror.get_field_named", "Mirror.get_field_indexed", "Mirror.get_field_entry", "Mirror.get_field_partial", "Mirror.get_field_struct_value_misses", "Mirror.get_field_value_str", "Mirror.get_field_value_usize", "Mirror.get_field_value_string", "Mirror.get_field_value_other", "Mirror.get_field_str_string_partial", "Mirror.get_field_enum_string_misses"], "note": "Exact characterisation of get_field for every impl. It is the property except for StructValue and EnumValue in fields handed out as bare Values, which are missed (negation proved), Value and boxes. &str and String keys agree except on enums, where String never finds a field (negation proved). get_field_mut: C52."},
 {"property": "C71", "status": "partial", "theorems": ["Mirror.C71_item_exact", "Mirror.C71_field_exact", "Mirror.C71_item_says_unique", "Mirror.C71_field_says_unique", "Mirror.C71_item_order", "Mirror.C71_field_order", "Mirror.C71_item_commas_optional", "Mirror.C71_field_commas_optional", "Mirror.C71_two_attributes_refused", "Mirror.C71_duplicate_key_refused", "Mirror.C71_derive_accepts_iff", "Mirror.C71_item_attrs", "Mirror.C71_shape", "Mirror.C71_literals", "Mirror.C71_literals_separated_partial", "Mirror.C71_tuple_literal_iff", "Mirror.C71_tuple_with_breaks_witness", "Mirror.C71_skipped_hashmap_refused", "Mirror.C71_unit_struct_is_struct", "Mirror.C71_variant_with_ignored"], "note": "Acceptance, meaning, order and commas are exact. The full claim is false of the code: C71_tuple_literal_iff says exactly when the literal generated for a tuple struct is well-formed; the other literals always are (C71_literals_separated_partial). C71_skipped_hashmap_refused, C71_unit_struct_is_struct and C71_variant_with_ignored are the other deviations from the documentation. Parsing of expressions and paths is a parameter."},
 {"property": "C72", "status": "proved", "theorems": ["Mirror.C72_reflect_eq_exact", "Mirror.C72_unfold"], "note": "Exact, for any two proper values."},
 {"property": "C15", "status": "partial", "theorems": ["Mirror.C15_reflect_eq_symm_partial", "Mirror.C15_reflect_eq_symm_local_partial", "Mirror.C15_repeated_name", "Mirror.C15_key_types", "Mirror.C15_gap_breaks"], "note": "Proved across any two types, value by value; false (proved) for StructValues with a repeated name, for maps with one-way convertible key types, and at every struct variant with a skipped field before a reflected one that equals its own Value."},
 {"property": "C16", "status": "partial", "theorems": ["Mirror.C16_reflect_eq_trans_partial", "Mirror.C16_reflect_eq_trans_local_partial", "Mirror.C16_misplaced_skip", "Mirror.C16_gap_breaks"], "note": "Proved across any three types when the middle value has no skipped field before a reflected one and map keys are found by their Value; false (proved) through every tuple struct or tuple variant with such a field that equals its own Value."},
 {"property": "C13", "status": "partial", "theorems": ["Mirror.C13_patch_struct_frame", "Mirror.C13_patch_positional_frame", "Mirror.C13_skipped_positions_kept", "Mirror.C13_patch_enum_frame_partial", "Mirror.C13_patch_enum_value_frame", "Mirror.C13_enum_replaced", "Mirror.C13_enum_map_replaced", "Mirror.C10_enum_forgets_skipped"], "note": "Proved for structs, tuple structs, tuples, EnumValues and enums that cannot be converted from the patch. False for every enum convertible from the patch: it is replaced, so nothing of what it held is left (C13_enum_replaced), with witnesses for skipped fields and for maps."},
 {"property": "C30", "status": "partial", "theorems": ["Mirror.C30_index_keys_partial", "Mirror.C30_exact", "Mirror.C30_iff", "Mirror.C30_u128_wraps"], "note": "Exact for every key and list: the index is the key modulo 2^64. The property holds exactly when the key is not a number outside of usize congruent to an index (C30_iff), so always for keys other than 128-bit ones on lists of at most 2^63 elements."},
 {"property": "C18", "status": "partial", "theorems": ["Mirror.C18_reflect_eq_decides_partial", "Mirror.C18_reflect_eq_decides_local_partial", "Mirror.C18_differing_field", "Mirror.C18_gap_blind", "Mirror.C18_gap_blind_variant", "Mirror.C72_reflect_eq_exact"], "note": "Exact decision of agreement when the first value has no skipped field before a reflected one; map keys containing arrays and repeated names excluded. False (proved) at every gap: values that agree up to it are indistinguishable. C72 says without exclusions what is decided."},
 {"property": "C73", "status": "proved", "theorems": ["Mirror.C73_to_value", "Mirror.C73_shape", "Mirror.C73_fields", "Mirror.C73_reflect_eq", "Mirror.C73_reflect_eq_each_other", "Mirror.C73_from_reflect", "Mirror.C73_patch", "Mirror.C73_clone", "Mirror.C73_at", "Mirror.C73_map_get", "Mirror.C73_try_visit", "Mirror.C73_only_skipped"], "note": "Under KeysShown: the Ord of map key types does not look at skipped fields. The visitor is assumed not to look into skipped fields of opaque leaves."},
 {"property": "C74", "status": "proved", "theorems": ["Mirror.C74_to_owned_panics", "Mirror.C74_to_owned_copy", "Mirror.C74_to_owned_eq", "Mirror.C74_owned_clone", "Mirror.C74_owned_clone_copy"], "note": ""},
 {"property": "C10", "status": "partial", "theorems": ["Mirror.C10_patch_self_iff", "Mirror.C10_patch_self_shown", "Mirror.C10_own_value_iff", "Mirror.C10_patch_self_partial", "Mirror.C10_patch_own_value_partial", "Mirror.C10_patch_self_no_skips", "Mirror.C10_enum_forgets_skipped", "Mirror.C10_misplaced_skip_corrupts"], "note": "False of the code as stated; proved exactly: patching with itself changes x iff an opt_out(Clone) enum it reaches does not convert to itself, and never changes what x shows; patching with its own value puts defaults into the skipped fields of its enums and does nothing else (for values without gaps; with one, proved to corrupt). Unconditional for types without skipped fields."},
 {"property": "C11", "status": "partial", "theorems": ["Mirror.C11_patch_full_iff", "Mirror.C11_patch_full_dynamic_iff", "Mirror.C11_patch_full_value_partial", "Mirror.C11_patch_full_dynamic_partial", "Mirror.C11_option_of_array_not_patched"], "note": "False of the code for opt_out(Clone) enums such as Option around arrays (proved). Proved exactly, for values of any types: after the patch x shows what y shows iff PatchFills (for y) or ValueFills (for y.to_value(), y without gaps) holds; the _partial theorems say fixed-shape types meet it."},
 {"property": "C26", "status": "partial", "theorems": ["Mirror.C26_model_lists", "Mirror.C26_struct_fields", "Mirror.C26_plain_positional", "Mirror.C26_positional_fields_partial", "Mirror.C26_variant_fields_partial", "Mirror.C26_yields_fields", "Mirror.C26_every_field_iff", "Mirror.C26_each_field_once", "Mirror.C26_len_is_total", "Mirror.C26_len_wrong", "Mirror.C26_stops_at_gap"], "note": "Full for structs, tuples, lists, arrays. Exact for tuple structs and enum variants: iteration yields every field iff no skipped field stands before a reflected one (C26_every_field_iff); otherwise it stops early. The reported len is always the total, proved wrong after the first item."},
 {"property": "C29", "status": "partial", "theorems": ["Mirror.type_at_total", "Mirror.type_at_sound_partial", "Mirror.type_at_complete_partial", "Mirror.type_at_no_gaps", "Mirror.type_at_complete_static", "Mirror.type_at_append", "Mirror.type_at_fails_skip", "Mirror.type_at_shifted"], "note": "Proved for every value and path that steps over no skipped positional field, whatever the rest of the value looks like; then type_at finds the type unless the path goes on beyond a place of a dynamic type (iff). After a skipped field before the index, type_at finds nothing or the type of a later field (type_at_shifted)."},
 {"property": "C37", "status": "partial", "theorems": ["Mirror.type_info_fits_iff", "Mirror.type_info_fits_partial", "Mirror.type_info_fits_root_partial", "Mirror.struct_type_info_fits", "Mirror.tuple_struct_type_info_counts", "Mirror.enum_type_info_counts", "Mirror.tuple_struct_type_info_misfits"], "note": "Exact: a value shows what its (non-opaque) type information lists iff no skipped field stands before a reflected one in it (type_info_fits_iff). With such a gap kind, variant, counts and named access still match, and every misplaced skip in a tuple struct breaks index access."},
 {"property": "C70", "status": "partial", "theorems": ["Mirror.C70_get_at_exact", "Mirror.C70_get_at_partial", "Mirror.C70_struct_value_misses", "Mirror.C70_struct_value_found", "Mirror.C70_get_at_mut_agrees", "Mirror.C70_get_at_mut_assigns", "Mirror.C70_get_at_declared_partial"], "note": "Exact characterisation of get_at. It is the property except for StructValue and EnumValue at the end of a path through a bare Value (negation proved), Value and boxes. The statement about type_at holds for paths that step over no skipped positional field, as C29."},
 {"property": "C75", "status": "proved", "theorems": ["Mirror.C75_value", "Mirror.C75_key_path", "Mirror.C75_descriptor", "Mirror.C75_scalar", "Mirror.C75_scalar_type", "Mirror.C75_little_endian", "Mirror.C75_prefix_free", "Mirror.C75_read_iff", "Mirror.C75_read_write_read", "Mirror.C75_fuel", "Mirror.C75_last_entry_wins"], "note": "speedy's layout of a single primitive is a parameter assumed faithful (Speedy.Lawful); little endian is proved to be an instance. Running out of memory or stack is not modelled."},
 {"property": "C76", "status": "proved", "theorems": ["Mirror.C76_default_of_part", "Mirror.C76_reaches_iff", "Mirror.C76_every_part_has_a_type", "Mirror.C76_has_default", "Mirror.C76_depth"], "note": "For any type graph, also one that was received. has_default_value can still say no where there is a default (empty arrays, C39)."},
 {"property": "C77", "status": "proved", "theorems": ["Mirror.C77_type_kept", "Mirror.C77_part_alone", "Mirror.C77_rest_unchanged", "Mirror.C77_client_alone", "Mirror.C77_schedules_agree", "Mirror.C77_schedules_answer"], "note": "histories and interleavings of at_mut followed by patch, assignment, push, pop, try_remove, insert, remove, over any number of clients at diverging paths; C77_part_alone is for paths that do not end in a variant key (an edit may leave another variant there)"},
 {"property": "C78", "status": "proved", "theorems": ["Mirror.C78_from_is_to_value", "Mirror.C78_collect_struct", "Mirror.C78_collect_tuple", "Mirror.C78_make_paths", "Mirror.C78_get_key", "Mirror.C78_iterate_path"], "note": "vec::IntoIter and slice::Iter, to which the iterators of a path delegate, are modelled as windows into the vector"},
 {"property": "C79", "status": "proved", "theorems": ["Mirror.C79_addressed", "Mirror.C79_addressed_reads", "Mirror.C79_misaddressed", "Mirror.C79_part", "Mirror.C79_unmentioned", "Mirror.C79_other_kind", "Mirror.C79_no_new_part"], "note": "All values, ways and contents. A Value never patches an array (Value::List is a list), so a way has no step into arrays; C79_part covers arrays patched with arrays."},
 {"property": "C81", "status": "proved", "theorems": ["Mirror.C81_commute", "Mirror.C81_any_order", "Mirror.C81_forgets", "Mirror.C81_superfluous", "Mirror.C81_repeated", "Mirror.C81_dynamic_remembers"], "note": "All values, patches, orders and histories. The statements on covered and repeated patches are for types without dynamic parts; C81_dynamic_remembers proves that an EnumValue in another variant always breaks them."},
 {"property": "C82", "status": "partial", "theorems": ["Mirror.C82_never_panics", "Mirror.C82_skipped_unseen", "Mirror.C82_shows_everything_partial", "Mirror.C82_value_shows_everything", "Mirror.C82_tuples_print_alike", "Mirror.C82_lists_of_tuples_print_alike", "Mirror.C82_values_lose_types", "Mirror.C82_paths_lose_types", "Mirror.C82_box_ignores_own_debug"], "note": "No panic and independence of skipped fields are proved without restriction. That different content prints differently is proved for types without tuples and dynamic components and for Values; for tuples and for Values inside lists it is false, which is proved for all of them."},
 {"property": "C83", "status": "partial", "theorems": ["Mirror.C83_reads_partial", "Mirror.C83_patch_partial", "Mirror.C83_history_partial", "Mirror.C83_back_partial", "Mirror.C83_sent", "Mirror.C83_array_push", "Mirror.C83_array_list", "Mirror.C83_nonzero", "Mirror.C83_enum_unknown", "Mirror.C83_enum_merged", "Mirror.C83_lossy_key"], "note": "Reads, patches, histories and the way back for all edits that mean the same for the copy (PathFits, PatchesAlike, EditsFit). Outside these the property is false, with a universal counterexample for each way an edit can fail to fit; the conditions are sufficient, not shown necessary case by case."},
 {"property": "C84", "status": "proved", "theorems": ["Mirror.C84_reads", "Mirror.C84_reads_iff", "Mirror.C84_same_names", "Mirror.C84_missing_field", "Mirror.C84_too_few_positions", "Mirror.C84_unknown_variant"], "note": "Sufficiency needs nothing but well-formed declarations; the equivalence assumes that all types the writer's type is made of have values (a type without values is read vacuously)."},
 {"property": "C35", "status": "proved", "theorems": ["Mirror.descriptor_describes", "Mirror.descriptor_root", "Mirror.descriptor_complete", "Mirror.descriptor_independent", "Mirror.descriptor_deterministic"], "note": "node ids assumed collision-free; the theorems are about the graph: metadata, docs and type names are the subject of C43, C59 and C60"},
 {"property": "C85", "status": "proved", "theorems": ["Mirror.C85_repeats", "Mirror.C85_converts", "Mirror.C85_unchanged", "Mirror.C85_variant_dropped"], "note": "Echoes of any value; views between any two sets of declarations. Hypotheses: no skipped field before a shown one in positional parts of the value or of what is read; the reader's key Ord agrees with Value equality."},
 {"property": "C86", "status": "proved", "theorems": ["Mirror.C86_reads_iff", "Mirror.C86_path_iff", "Mirror.C86_key_iff", "Mirror.C86_unambiguous", "Mirror.C86_rearranged", "Mirror.C86_entry_order"], "note": "Exact characterisation of the derived Deserialize of Value, Key and KeyPath by an independent relation. The concrete format is not modelled (it hands back the data it was given); serde's conversions between floats, integers and strings are not modelled."},
 {"property": "C64", "status": "proved", "theorems": ["Mirror.C64_option_values", "Mirror.C64_option_to_value", "Mirror.C64_option_from_reflect", "Mirror.C64_option_patch", "Mirror.C64_option_eq", "Mirror.C64_option_clone", "Mirror.C64_option_default", "Mirror.C64_option_of_array_fails", "Mirror.C64_result_values", "Mirror.C64_result_from_reflect", "Mirror.C64_result_eq", "Mirror.C64_result_default", "Mirror.C64_range_values", "Mirror.C64_range_from_reflect", "Mirror.C64_range_full", "Mirror.C64_infallible", "Mirror.C64_lib_legal", "Mirror.C64_lib_roundtrip", "Mirror.C64_range_from_values", "Mirror.C64_range_to_values", "Mirror.C64_vec2_values", "Mirror.C64_vec3_values", "Mirror.C64_mat3_values", "Mirror.C64_color_values", "Mirror.C64_color_from_reflect", "Mirror.C64_color_from_itself"], "note": "For all type parameters. As elsewhere (C04), an Option of a fixed-size array does not convert from its own type. A ColorRgba8, which does not opt out of Clone, does."},
 {"property": "C87", "status": "proved", "theorems": ["Mirror.C87_reads_iff", "Mirror.C87_node_iff", "Mirror.C87_unambiguous", "Mirror.C87_required"], "note": "the relation DenotesDescriptor is the specification; unknown fields are ignored as serde's derive does, repeated ids in the graph map keep the last node"},
 {"property": "C88", "status": "proved", "theorems": ["Mirror.C88_value_iff", "Mirror.C88_key_path_iff", "Mirror.C88_descriptor_iff", "Mirror.C88_scalar_iff", "Mirror.C88_scalar_type_iff", "Mirror.C88_written", "Mirror.C88_key_path_written", "Mirror.C88_descriptor_written", "Mirror.C88_unambiguous", "Mirror.C88_descriptor_unambiguous", "Mirror.C88_cut_short", "Mirror.C88_little_endian"], "note": "For every lawful layout of primitives that reads each primitive from the bytes it uses up. The layout of primitives is a parameter; little endian is the instance given."},
 {"property": "C89", "status": "proved", "theorems": ["Mirror.C89_value_iff", "Mirror.C89_some_iff", "Mirror.C89_none_iff", "Mirror.C89_panic_iff", "Mirror.C89_never_iff", "Mirror.C89_depth", "Mirror.C89_has_true_iff", "Mirror.C89_has_false_iff", "Mirror.C89_has_panic_iff", "Mirror.C89_has_never_iff", "Mirror.C89_has_depth", "Mirror.C89_one_of_four", "Mirror.C89_has_then_some", "Mirror.C89_agrees", "Mirror.C89_exponential", "Mirror.C89_too_long", "Mirror.C89_has_never", "Mirror.C89_order_matters", "Mirror.C89_storable"], "note": "Exact outcomes of default_value and has_default_value on every descriptor the Rust type can hold, the depth of calls, and how the two relate. Running out of memory or stack is not modelled."},
 {"property": "C90", "status": "proved", "theorems": ["Mirror.C90_visits", "Mirror.C90_panics", "Mirror.C90_panics_iff", "Mirror.C90_unique", "Mirror.C90_own", "Mirror.C90_scalar_any", "Mirror.C90_only_named", "Mirror.C90_only_positions", "Mirror.C90_copy", "Mirror.C90_copy_leaves"], "note": "What is visited and when a visit panics, exactly, for every value, graph and id."},
 {"property": "C91", "status": "proved", "theorems": ["Mirror.C91_reached_is_visited", "Mirror.C91_names_listed", "Mirror.C91_visited_iff", "Mirror.C91_no_maps", "Mirror.C91_own", "Mirror.C91_written_is_visited"], "note": "Exact for a value along its own type. Keys of maps, and entries whose key no Value converts to, are visited and not at any path."},
 {"property": "C92", "status": "proved", "theorems": ["Mirror.C92_edit_one", "Mirror.C92_no_maps"], "note": "Every position of a visit along the value's own type, except leaves of map keys, has a path; writing there changes that position of the next visit and no other."},
 {"property": "C09", "status": "partial", "theorems": ["Mirror.C09_patch_idempotent_partial", "Mirror.C09_other_variant_iff", "Mirror.C09_gap_breaks", "Mirror.C09_misplaced_skip_not_idempotent"], "note": "Proved for every x, and every patch v whose enums hold no gap (a skipped positional field before a reflected one); gaps in x, or in v outside enums, do no harm. For a dynamic enum and a patch of another variant it is decided exactly (C09_other_variant_iff), and it is false of the code at every gap that shows: whenever a part of the patch's variant has one scalar at a position and its to_value another (C09_gap_breaks)."},
 {"property": "C93", "status": "proved", "theorems": ["Mirror.C93_eq_iff", "Mirror.C93_equivalence", "Mirror.C93_hash_iff", "Mirror.C93_value_hash_iff", "Mirror.C93_same_types", "Mirror.C93_same_defaults", "Mirror.C93_read_back", "Mirror.C93_view_iff", "Mirror.C93_view_hash_iff", "Mirror.C93_not_bits"], "note": "Over all descriptors and views; a hash is the sequence of writes to the Hasher. C93_not_bits shows that equal descriptors can be written differently (0.0 and -0.0 in metadata)."},
 {"property": "C94", "status": "proved", "theorems": ["Mirror.C94_full", "Mirror.C94_nodes", "Mirror.C94_bare", "Mirror.C94_unique", "Mirror.C94_storable", "Mirror.C94_read_back", "Mirror.C94_never_panics"], "note": "Full descriptors with names, metadata and docs; exact contents under the hypothesis that the component types do not collide (the statement says so; collisions are C62), the rest for every hash"},
 {"property": "C80", "status": "proved", "theorems": ["Mirror.C80_from_reflect", "Mirror.C80_patch_with", "Mirror.C80_patched", "Mirror.C80_reflect_eq", "Mirror.C80_eq_is_reflect_eq", "Mirror.C80_at", "Mirror.C80_clone_reflect", "Mirror.C80_map_key", "Mirror.C80_map_insert", "Mirror.C80_path_equivalence", "Mirror.C80_path_hash", "Mirror.C80_path_hash_iff", "Mirror.C80_at_path", "Mirror.C80_type_at_path", "Mirror.C80_fine_key_order"], "note": "Up to the hypothesis KeysShown on the Ord of map keys, which is necessary (C80_fine_key_order). Debug output and serialisation do tell -0.0 from 0.0 and are outside the claim."},
 {"property": "C96", "status": "partial", "theorems": ["Mirror.C96_accepts_iff_partial", "Mirror.C96_part_accepts_iff_partial", "Mirror.C96_stored_iff_partial", "Mirror.C96_same_descriptor_partial", "Mirror.C96_gap_tuple_struct", "Mirror.C96_gap_variant", "Mirror.C96_gap_misleads"], "note": "The equivalence holds for every described type in which no tuple struct or tuple variant skips a field before a reflected one, and for its stored descriptors. With such a gap the code violates the property: a Value with just the described fields is always refused."},
 {"property": "C95", "status": "proved", "theorems": ["Mirror.C95_default", "Mirror.C95_has_default", "Mirror.C95_type_at", "Mirror.C95_docs_at", "Mirror.C95_default_converts_iff", "Mirror.C95_visit", "Mirror.C95_visit_leaves", "Mirror.C95_visit_panics_iff"], "note": "For types without hash collisions among their components, as the statement says; with a collision no descriptor is right (C62_collision_wrong). That a descriptor read back is the one written is C94_read_back."},
 {"property": "C97", "status": "partial", "theorems": ["Mirror.C97_retains_iff_partial", "Mirror.C97_part_retains_iff_partial", "Mirror.C97_stored_partial", "Mirror.C97_same_descriptor_partial", "Mirror.C97_own_key_order"], "note": "What from_reflect and to_value keep of a Value is exactly what the descriptor says, own or stored, in one program or two. Partial: excluded are types with a skipped field before a reflected one in a tuple struct or tuple variant, where C96 already fails, and key types whose own Ord identifies keys with different Values, for which C97_own_key_order shows that the property fails."},
 {"property": "C98", "status": "partial", "theorems": ["Mirror.C98_one_answer", "Mirror.C98_equal_iff", "Mirror.C98_undecided_iff_partial", "Mirror.C98_opaque_never_equal", "Mirror.C98_shape_decides", "Mirror.C98_first_difference_decides", "Mirror.C98_alike_eq", "Mirror.C98_alike_at", "Mirror.C98_derived", "Mirror.C98_hand_written", "Mirror.C98_opaque_missed", "Mirror.C98_endless"], "note": "Proved for every implementation of the traits; that None is returned whenever something opaque is contained is refuted, with the exact condition for None"},
 {"property": "C99", "status": "proved", "theorems": ["Mirror.C99_one_answer", "Mirror.C99_alike", "Mirror.C99_derived", "Mirror.C99_hand_written", "Mirror.C99_struct_iff", "Mirror.C99_vec_iff", "Mirror.C99_array_view_refused", "Mirror.C99_array_field_refused", "Mirror.C99_endless", "Mirror.C99_sound"], "note": "For every implementation of Reflect; the target is a derived or built-in type. Struct and Vec targets are characterised exactly, the other targets through C99_derived and C99_hand_written. C99_sound: a result is a value of the target type, given lawful key orders."},
 {"property": "C100", "status": "proved", "theorems": ["Mirror.C100_one_answer", "Mirror.C100_derived", "Mirror.C100_alike", "Mirror.C100_hand_written", "Mirror.C100_struct_iff", "Mirror.C100_vec_iff", "Mirror.C100_mismatch", "Mirror.C100_enum", "Mirror.C100_endless", "Mirror.C100_keeps_type"], "note": "Over every implementation of reflect_ref, as_any and to_value of the patch. patch is modelled in a number of steps, because a hand-written iterator may not end; C100_one_answer says the number does not matter. C100_keeps_type asks for lawful key orders."},
 {"property": "C101", "status": "proved", "theorems": ["Mirror.C101_one_answer", "Mirror.C101_derived", "Mirror.C101_alike", "Mirror.C101_hand_written", "Mirror.C101_shows", "Mirror.C101_ok_iff", "Mirror.C101_err_iff", "Mirror.C101_panic_iff", "Mirror.C101_leaves_unique", "Mirror.C101_endless", "Mirror.C101_missing_field"], "note": "Over any implementation of the traits whose methods are functions of the value and do not panic. Ok, Err and panic are each characterised exactly."},
 {"property": "C102", "status": "proved", "theorems": ["Mirror.C102_same_place", "Mirror.C102_write_read", "Mirror.C102_write_variant", "Mirror.C102_write_back", "Mirror.C102_elsewhere", "Mirror.C102_history", "Mirror.C102_keeps", "Mirror.C102_compose", "Mirror.C102_prefixes", "Mirror.C102_derived", "Mirror.C102_laws_needed"], "note": "For every implementation meeting MutImpl.Lawful; the derived and built-in types do (C102_derived), and so does the hand-written program in Props/ImplMut."},
 {"property": "C103", "status": "proved", "theorems": ["Mirror.C103_prints_iff", "Mirror.C103_never_panics", "Mirror.C103_ends_iff", "Mirror.C103_one_answer", "Mirror.C103_variant_fields", "Mirror.C103_alike", "Mirror.C103_derived", "Mirror.C103_hand_written", "Mirror.C103_endless"], "note": "For every implementation of the traits. How the parts print is their own Debug; type_name() is a parameter."},
 {"property": "C104", "status": "proved", "theorems": ["Mirror.C104_one_type", "Mirror.C104_get_iff", "Mirror.C104_same_place", "Mirror.C104_write_read", "Mirror.C104_write_variant", "Mirror.C104_write_back", "Mirror.C104_elsewhere", "Mirror.C104_history", "Mirror.C104_compose", "Mirror.C104_derived", "Mirror.C104_laws_needed", "Mirror.C104_get_field_named", "Mirror.C104_get_field_indexed", "Mirror.C104_get_field_entry", "Mirror.C104_get_field_variant"], "note": "For every implementation whose mutable access and as_any do, one part at a time, what they say; derived and built-in types are such implementations. C104_laws_needed: an implementation that breaks the laws breaks the conclusion. On a path that ends in a ::Variant key the written value is found by the path without that key (C104_write_variant). get_field is get_at along a path of one key, except on enums in a variant of another kind (C104_get_field_variant); get_field on a Value of unknown kind is in C47. get_at through a Value or Box that holds the value found is in C70 and C45."}
]}
