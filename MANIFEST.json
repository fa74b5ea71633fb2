{
 "claims": [
  {
   "property": "C01",
   "status": "proved",
   "theorems": [
    "PF.C01_values_unambiguous",
    "PF.C01_add_decision",
    "PF.C01_pairs_persist"
   ],
   "note": "Histories of addValuePair; INT_MIN in an inclusive type is undefined behaviour and excluded."
  },
  {
   "property": "C02",
   "status": "proved",
   "theorems": [
    "PF.C02_exclusive_inverse",
    "PF.C02_inclusive_or",
    "PF.C02_inclusive_inverse",
    "PF.C02_separator_literal_not_read_back"
   ],
   "note": "Inclusive: non-empty literals free of the separator; the witness theorem shows what the code does for the others."
  },
  {
   "property": "C03",
   "status": "partial",
   "theorems": [
    "PF.C03_inclusive_read_back_partial",
    "PF.C03_exclusive_read_back",
    "PF.C03_zero_not_read_back"
   ],
   "note": "State 0 of an inclusive type prints <none>, which is not read back (C03_zero_not_read_back); every other state made of registered bits is covered."
  },
  {
   "property": "C04",
   "status": "proved",
   "theorems": [
    "PF.C04_verb_meaning",
    "PF.C04_verb_relations"
   ],
   "note": ""
  },
  {
   "property": "C05",
   "status": "proved",
   "theorems": [
    "PF.C05_rule_is_formula",
    "PF.C05_empty_rules"
   ],
   "note": ""
  },
  {
   "property": "C06",
   "status": "partial",
   "theorems": [
    "PF.C06_print_parse_partial",
    "PF.C06_composite_value_lost"
   ],
   "note": "Rules whose match values are single registered values; a value combined from several bits is printed empty (C06_composite_value_lost)."
  },
  {
   "property": "C07",
   "status": "partial",
   "theorems": [
    "PF.C07_parse_terminates_partial",
    "PF.C07_abort_possible"
   ],
   "note": "The parser always answers; an assertion can abort it on a malformed text (C07_abort_possible)."
  },
  {
   "property": "C08",
   "status": "proved",
   "theorems": [
    "PF.C08_refused_rule_changes_nothing",
    "PF.C08_accepted_rule_is_printed",
    "PF.C08_cleared"
   ],
   "note": ""
  },
  {
   "property": "C09",
   "status": "proved",
   "theorems": [
    "PF.C09_accepted_well_typed",
    "PF.C09_accepted_evaluates"
   ],
   "note": ""
  },
  {
   "property": "C10",
   "status": "partial",
   "theorems": [
    "PF.C10_modified_iff",
    "PF.C10_no_change_iff",
    "PF.C10_modified_iff_changed_partial",
    "PF.C10_counter_wraps"
   ],
   "note": "The 32-bit counter wraps after 2^32 changes (C10_counter_wraps); exact below that."
  },
  {
   "property": "C11",
   "status": "proved",
   "theorems": [
    "PF.C11_first_applicable_wins",
    "PF.C11_no_rule_never_selected",
    "PF.C11_no_switch_no_change"
   ],
   "note": ""
  },
  {
   "property": "C12",
   "status": "proved",
   "theorems": [
    "PF.C12_selected_settings_written",
    "PF.C12_nothing_else_written"
   ],
   "note": ""
  },
  {
   "property": "C13",
   "status": "proved",
   "theorems": [
    "PF.C13_nothing_to_do",
    "PF.C13_apply_twice"
   ],
   "note": ""
  },
  {
   "property": "C14",
   "status": "proved",
   "theorems": [
    "PF.C14_leaving_tuning_mode"
   ],
   "note": "Where another domain with a qualifying configuration holds the same bits, the hypothesis excludes the bit (the domain applied last wins, C12)."
  },
  {
   "property": "C15",
   "status": "proved",
   "theorems": [
    "PF.C15_synchronisation_order"
   ],
   "note": ""
  },
  {
   "property": "C16",
   "status": "proved",
   "theorems": [
    "PF.C16_each_once",
    "PF.C16_all_called",
    "PF.C16_errors",
    "PF.C16_success_iff"
   ],
   "note": ""
  },
  {
   "property": "C17",
   "status": "proved",
   "theorems": [
    "PF.C17_last_applied_exists",
    "PF.C17_reported_name"
   ],
   "note": ""
  },
  {
   "property": "C18",
   "status": "proved",
   "theorems": [
    "PF.C18_one_area_per_element",
    "PF.C18_no_access_outside"
   ],
   "note": "C18_no_access_outside: a stop can only come from a text that the rule parser cannot handle, a typed set of the wrong form, or an import of a document without the shape of the schema (Stops), never from the blackboards."
  },
  {
   "property": "C19",
   "status": "partial",
   "theorems": [
    "PF.C19_all_areas_valid_partial",
    "PF.C19_single_import_invalid"
   ],
   "note": "For histories in which an imported single domain has settings for each of its elements in some configuration. Without that, the import of a single domain leaves settings that are not valid (C19_single_import_invalid)."
  },
  {
   "property": "C20",
   "status": "partial",
   "theorems": [
    "PF.C20_domain_names_partial",
    "PF.C20_configuration_names_partial",
    "PF.C20_no_domain_twice",
    "PF.C20_empty_names_twice",
    "PF.C20_import_duplicates",
    "PF.C20_import_overwrites_unnamed"
   ],
   "note": "C20_empty_names_twice shows that two domains can have the empty name; proved for non-empty names and for histories whose imported documents have no two domains, and no two configurations of a domain, of the same name, without which it is false (C20_import_duplicates, C20_import_overwrites_unnamed)."
  },
  {
   "property": "C21",
   "status": "proved",
   "theorems": [
    "PF.C21_save_then_restore",
    "PF.C21_save_tune_restore"
   ],
   "note": ""
  },
  {
   "property": "C22",
   "status": "partial",
   "theorems": [
    "PF.C22_split_keeps_settings",
    "PF.C22_split_same_board_partial",
    "PF.C22_other_domains",
    "PF.C22_block_gap_lost"
   ],
   "note": "Proved for groups; for bit parameter blocks, bits that belong to no bit parameter are lost (C22_block_gap_lost)."
  },
  {
   "property": "C23",
   "status": "proved",
   "theorems": [
    "PF.C23_absorb_keeps_settings"
   ],
   "note": ""
  },
  {
   "property": "C24",
   "status": "proved",
   "theorems": [
    "PF.C24_no_element_twice",
    "PF.C24_no_bit_twice",
    "PF.C24_association_both_ways"
   ],
   "note": ""
  },
  {
   "property": "C25",
   "status": "partial",
   "theorems": [
    "PF.C25_sequence_order_partial",
    "PF.C25_nothing_lost",
    "PF.C25_refused_but_reordered"
   ],
   "note": "A refused sequence can change the order (C25_refused_but_reordered); everything else holds."
  },
  {
   "property": "C26",
   "status": "partial",
   "theorems": [
    "PF.C26_refused_changes_nothing_partial",
    "PF.C26_restore_refused",
    "PF.C26_sequence_only_order",
    "PF.C26_sequence_half_done",
    "PF.C26_restore_reports_failure_but_done",
    "PF.C26_split_refusal_not_reported"
   ],
   "note": "Refused element sequences, restorations that report hardware errors and refused imports of all domains or of settings change the state (witnesses); a split refused is reported as done (witness)."
  },
  {
   "property": "C27",
   "status": "proved",
   "theorems": [
    "PF.C27_first_configuration",
    "PF.C27_next_configuration"
   ],
   "note": "For non-empty names (a configuration with the empty name is looked up under its kind name)."
  },
  {
   "property": "C28",
   "status": "proved",
   "theorems": [
    "PF.C28_edits_configuration",
    "PF.C28_refused",
    "PF.C28_other_configurations",
    "PF.C28_get_after_set"
   ],
   "note": ""
  },
  {
   "property": "C29",
   "status": "partial",
   "theorems": [
    "PF.C29_board_size",
    "PF.C29_children_tile",
    "PF.C29_inside_parent",
    "PF.C29_disjoint",
    "PF.C29_bytes_disjoint",
    "PF.C29_every_byte_owned",
    "PF.C29_overlapping_fields_accepted"
   ],
   "note": "Overlapping declarations of bit parameters are accepted by the loader (C29_overlapping_fields_accepted); everything else holds for every structure."
  },
  {
   "property": "C30",
   "status": "partial",
   "theorems": [
    "PF.C30_set_only_own_bits",
    "PF.C30_no_target",
    "PF.C30_get_only_own_bits",
    "PF.C30_independent",
    "PF.C30_unterminated_string"
   ],
   "note": "Access by path. Bit fields declared disjoint; strings terminated (C30_unterminated_string shows the other case)."
  },
  {
   "property": "C31",
   "status": "proved",
   "theorems": [
    "PF.C31_path_round_trip",
    "PF.C31_never_wrong",
    "PF.C31_finds",
    "PF.C31_paths_injective",
    "PF.C31_parameter_handle",
    "PF.C31_element_handle",
    "PF.C31_parameter_handle_made",
    "PF.C31_duplicate_names"
   ],
   "note": "Sibling names distinct and usable in a path (GoodNames); C31_duplicate_names shows why."
  },
  {
   "property": "C32",
   "status": "proved",
   "theorems": [
    "PF.C32_set_then_get",
    "PF.C32_wrong_size_refused",
    "PF.C32_get_then_set"
   ],
   "note": ""
  },
  {
   "property": "C33",
   "status": "proved",
   "theorems": [
    "PF.C33_accepted_iff_denotes",
    "PF.C33_set_then_get",
    "PF.C33_get_then_set"
   ],
   "note": ""
  },
  {
   "property": "C34",
   "status": "partial",
   "theorems": [
    "PF.C34_unsigned_access_partial",
    "PF.C34_signed_access_partial",
    "PF.C34_unsigned_access_refused",
    "PF.C34_signed_read_of_unsigned_wrong",
    "PF.C34_unsigned_read_of_negative_wrong"
   ],
   "note": "Unsigned access for ranges without negative values and signed access for ranges below half of the type; the three witness theorems show the code is not faithful outside."
  },
  {
   "property": "C35",
   "status": "partial",
   "theorems": [
    "PF.C35_accepted_iff_declared",
    "PF.C35_set_then_get",
    "PF.C35_raw_round_trip_partial",
    "PF.C35_real_round_trip",
    "PF.C35_hex_read_of_32_bits_undefined",
    "PF.C35_negative_32_bits_not_read_back",
    "PF.C35_numeric_literal_shadowed"
   ],
   "note": "Raw space round trip for 8 and 16 bits; for 32 bits the witness theorems show an undefined shift and a refused text. Literals that look like numbers are shadowed."
  },
  {
   "property": "C36",
   "status": "proved",
   "theorems": [
    "PF.C36_boolean",
    "PF.C36_boolean_typed"
   ],
   "note": ""
  },
  {
   "property": "C37",
   "status": "partial",
   "theorems": [
    "PF.C37_declaration",
    "PF.C37_declaration_wraps",
    "PF.C37_integer_access",
    "PF.C37_text_access_partial",
    "PF.C37_get_then_set",
    "PF.C37_boolean_access",
    "PF.C37_garbage_text_accepted",
    "PF.C37_overflow_accepted",
    "PF.C37_wide_field_truncated",
    "PF.C37_narrow_field_read"
   ],
   "note": "Integer and Boolean access, declarations and the bit-level frame in full; text access for texts that are numbers. Witnesses: texts that are no number are accepted, integer reads of fields above 32 bits are truncated."
  },
  {
   "property": "C38",
   "status": "proved",
   "theorems": [
    "PF.C38_accepted_iff_in_range",
    "PF.C38_set_then_get",
    "PF.C38_real_text",
    "PF.C38_real_text_round_trip",
    "PF.C38_raw_text",
    "PF.C38_assertions_hold"
   ],
   "note": "Doubles are exact dyadic rationals; the text to double reader of the C++ library is a parameter."
  },
  {
   "property": "C39",
   "status": "partial",
   "theorems": [
    "PF.C39_set_then_get",
    "PF.C39_exact",
    "PF.C39_read_inside_partial",
    "PF.C39_terminated",
    "PF.C39_unterminated_reads_outside"
   ],
   "note": "Everything except reads when the raw byte interface stored bytes without NUL; a witness shows such a read leaves the parameter."
  },
  {
   "property": "C40",
   "status": "partial",
   "theorems": [
    "PF.C40_set_values",
    "PF.C40_values_exist",
    "PF.C40_too_many_refused",
    "PF.C40_invalid_refused_partial",
    "PF.C40_partial_write",
    "PF.C40_access_by_index",
    "PF.C40_index_garbage_accepted",
    "PF.C40_get_values",
    "PF.C40_get_index_partial",
    "PF.C40_get_index_ignores_base",
    "PF.C40_get_then_set",
    "PF.C40_integer_round_trip",
    "PF.C40_typed_set_then_get"
   ],
   "note": "Missing: a refused value leaves the earlier values written (witness), reading one element in a context with a base offset looks at the wrong place (witness), index texts with trailing characters are accepted (witness)."
  },
  {
   "property": "C41",
   "status": "proved",
   "theorems": [
    "PF.C41_pieces_unique",
    "PF.C41_split_keep",
    "PF.C41_split_merge",
    "PF.C41_join_split"
   ],
   "note": ""
  },
  {
   "property": "C42",
   "status": "proved",
   "theorems": [
    "PF.C42_bindings_unique",
    "PF.C42_init",
    "PF.C42_written",
    "PF.C42_listing",
    "PF.C42_shown",
    "PF.C42_lookup_chain",
    "PF.C42_handle_lookup"
   ],
   "note": ""
  },
  {
   "property": "C43",
   "status": "partial",
   "theorems": [
    "PF.C43_mapped_iff",
    "PF.C43_objects",
    "PF.C43_visible",
    "PF.C43_set_once",
    "PF.C43_syncers",
    "PF.C43_syncers_not_nested",
    "PF.C43_by_key_partial",
    "PF.C43_by_key_wrong",
    "PF.C43_set_item"
   ],
   "note": "Asking a context for an item by key returns the key, not the value (C43_by_key_wrong); the rest is proved, for at most 32 context keys (the code shifts an int)."
  },
  {
   "property": "C44",
   "status": "proved",
   "theorems": [
    "PF.C44_format",
    "PF.C44_terminates",
    "PF.C44_quotes",
    "PF.C44_out_of_bounds"
   ],
   "note": "For 1 to 9 amendment keys that are items of the context; otherwise the code stops or reads outside (C44_out_of_bounds). The closing quote is dropped without being checked."
  },
  {
   "property": "C45",
   "status": "partial",
   "theorems": [
    "PF.C45_request_round_trip",
    "PF.C45_answer_round_trip",
    "PF.C45_built",
    "PF.C45_trim",
    "PF.C45_built_round_trip",
    "PF.C45_nul_cuts",
    "PF.C45_command_trimmed",
    "PF.C45_session",
    "PF.C45_serve_terminates"
   ],
   "note": "Proved for texts without NUL and, for commands, without white space at their ends, and below 4 GiB; C45_nul_cuts and C45_command_trimmed show the property false without these."
  },
  {
   "property": "C46",
   "status": "partial",
   "theorems": [
    "PF.C46_accepts_iff",
    "PF.C46_corrupted",
    "PF.C46_sync_word",
    "PF.C46_truncated",
    "PF.C46_request_iff",
    "PF.C46_abort_iff_partial",
    "PF.C46_reads_outside",
    "PF.C46_size_unprotected"
   ],
   "note": "Everything accepted is a whole frame with a correct checksum, and a change of one byte of the sync word, identifier, data or checksum is refused. The size field is not protected (C46_size_unprotected), and a well-formed frame whose inner lengths are wrong is read outside of its data (C46_reads_outside, C46_abort_iff_partial)."
  },
  {
   "property": "C47",
   "status": "partial",
   "theorems": [
    "PF.C47_unknown",
    "PF.C47_too_few",
    "PF.C47_executed",
    "PF.C47_registration",
    "PF.C47_names_distinct",
    "PF.C47_help",
    "PF.C47_table",
    "PF.C47_means",
    "PF.C47_unreadable",
    "PF.C47_reads",
    "PF.C47_exports",
    "PF.C47_changes",
    "PF.C47_stops_partial",
    "PF.C47_sequence_awareness_outside",
    "PF.C47_remote_reachable"
   ],
   "note": "Proved for any table and for the table of the manager, including the commands that import, print and write XML documents, whatever the error texts are and whatever libxml2 reads and prints; setSequenceAwareness declares one argument and reads two (C47_sequence_awareness_outside)."
  },
  {
   "property": "C48",
   "status": "partial",
   "theorems": [
    "PF.C48_refused_without_tuning_mode_partial",
    "PF.C48_unchecked_operations_change",
    "PF.C48_tuning_mode"
   ],
   "note": "renameDomain, renameConfiguration, setApplicationRule, clearApplicationRule and setConfigurationParameter do not check the tuning mode (C48_unchecked_operations_change)."
  },
  {
   "property": "C49",
   "status": "partial",
   "theorems": [
    "PF.C49_changes_only_outside_domains",
    "PF.C49_no_effect_in_tuning_mode",
    "PF.C49_refused_in_domain",
    "PF.C49_done_outside_tuning_mode",
    "PF.C49_bytes_unchecked",
    "PF.C49_xml_unchecked",
    "PF.C49_empty_list_of_texts_stops"
   ],
   "note": "Holds of typed sets; setAsBytes and setAsXML of a handle check neither tuning mode nor domains (C49_bytes_unchecked, C49_xml_unchecked)."
  },
  {
   "property": "C50",
   "status": "proved",
   "theorems": [
    "PF.C50_rogue_iff",
    "PF.C50_listing_exact",
    "PF.C50_listing_covers"
   ],
   "note": ""
  },
  {
   "property": "C51",
   "status": "partial",
   "theorems": [
    "PF.C51_off_calls_no_syncer_partial",
    "PF.C51_tuning_session",
    "PF.C51_sync_refused_when_on",
    "PF.C51_turning_on",
    "PF.C51_turning_off",
    "PF.C51_on_set_synchronised",
    "PF.C51_bytes_synchronised",
    "PF.C51_handles_synchronise"
   ],
   "note": "Typed sets through handles synchronise even when automatic synchronisation is off (C51_handles_synchronise)."
  },
  {
   "property": "C52",
   "status": "proved",
   "theorems": [
    "PF.C52_coverage",
    "PF.C52_nothing_else",
    "PF.C52_nested_missed"
   ],
   "note": "Syncers not nested (what mapping produces); C52_nested_missed shows the other case."
  },
  {
   "property": "C53",
   "status": "partial",
   "theorems": [
    "PF.C53_round_trip_partial",
    "PF.C53_area_round_trip_partial",
    "PF.C53_import_sets",
    "PF.C53_import_only_own_bits",
    "PF.C53_refused_import_not_undone",
    "PF.C53_raw_export_not_importable",
    "PF.C53_value_space_leaks"
   ],
   "note": "The export/import round trip of every element (main blackboard and configuration memory) is proved for contents that the texts of the export format carry (declared enumeration numbers, in-range integers, terminated strings, fixed-point values without hidden low bits in real space), for imports in the export's value space. What a successful import does to each parameter, and the frame of any import, are proved outright. Missing: raw exports imported in real value space, which fail for negative enumeration numbers (witness), and refused imports are not undone (witness). libxml2's printing and parsing of documents is not modelled."
  },
  {
   "property": "C54",
   "status": "partial",
   "theorems": [
    "PF.C54_serialised",
    "PF.C54_serialised_with_mode_changes_partial",
    "PF.C54_application_in_steps",
    "PF.C54_no_deadlock",
    "PF.C54_torn_read",
    "PF.C54_late_set"
   ],
   "note": "Proved for any number of threads and any schedule: typed gets and sets of handles, gets and sets of parameters by text, and applications of configurations are linearisable while no thread changes the tuning mode (bytes are written and read one per step; the application may be cut into any steps), and the mutex is always released. With changes of the tuning mode, linearisable up to sets that act after having looked at the mode; C54_late_set shows the full statement false. Accesses by bytes do not take the mutex: C54_torn_read shows it false for them. XML accesses of handles, also without the mutex, and domain commands are not in the concurrent model; memory is sequentially consistent."
  },
  {
   "property": "C55",
   "status": "partial",
   "theorems": [
    "PF.C55_scalar_partial",
    "PF.C55_scalar_other_type",
    "PF.C55_bit",
    "PF.C55_string",
    "PF.C55_array_partial",
    "PF.C55_only_own_bits",
    "PF.C55_text"
   ],
   "note": "Proved for Boolean, enumerated, fixed-point, string and bit parameters and for integers accessed with numbers of their sign. Missing: integer ranges accessed with numbers of the other sign, where C34 gives counterexamples, and refused lists, whose first values are written (C40)."
  },
  {
   "property": "C56",
   "status": "partial",
   "theorems": [
    "PF.C56_ends_partial",
    "PF.C56_self_never_loads",
    "PF.C56_unbounded"
   ],
   "note": "Missing: a document with a component type that contains itself in a block, or below another component, is not refused and recurses without end (C56_unbounded)."
  },
  {
   "property": "C57",
   "status": "proved",
   "theorems": [
    "PF.C57_declared",
    "PF.C57_determined",
    "PF.C57_order_matters"
   ],
   "note": "C57_order_matters: the tag of the instance definition is misspelt in the code, which takes the last child; a document with the parts in the other order is refused or loses its parameters."
  },
  {
   "property": "C58",
   "status": "partial",
   "theorems": [
    "PF.C58_sizes_partial",
    "PF.C58_fields_partial",
    "PF.C58_unchecked",
    "PF.C58_wrap"
   ],
   "note": "Missing: the code itself does not check these sizes and validation against the schema is off by default (C58_unchecked); the schema does not exclude that the sum of the bits of a fixed point number wraps (C58_wrap); nothing checks overlapping bit parameters."
  },
  {
   "property": "C59",
   "status": "partial",
   "theorems": [
    "PF.C59_names_partial",
    "PF.C59_clash"
   ],
   "note": "Missing: the schema and the code check names within one declaration only; a type that declares a name of the type it extends gives two children of the same name (C59_clash)."
  },
  {
   "property": "C60",
   "status": "proved",
   "theorems": [
    "PF.C60_syncers",
    "PF.C60_mapping_data",
    "PF.C60_array_context_refused"
   ],
   "note": "C60_mapping_data: the syncers of a loaded subsystem stand exactly where the mapping data of the declarations put them. C60_array_context_refused: an array of blocks or components with a context mapping is always refused, because the array and its elements share the mapping data."
  },
  {
   "property": "C61",
   "status": "proved",
   "theorems": [
    "PF.C61_modes",
    "PF.C61_get",
    "PF.C61_set",
    "PF.C61_configuration"
   ],
   "note": "Hexadecimal raw reads of 32 bit enumerations are excluded, see C35."
  },
  {
   "property": "C62",
   "status": "proved",
   "theorems": [
    "PF.C62_rule_iff",
    "PF.C62_import_all",
    "PF.C62_import_one"
   ],
   "note": "The settings part is stated for documents whose configurations have distinct non-empty names. Documents are trees; libxml2's parsing and schema validation are not modelled."
  },
  {
   "property": "C63",
   "status": "partial",
   "theorems": [
    "PF.C63_round_trip_partial",
    "PF.C63_round_trip_one_partial",
    "PF.C63_composite_value_lost",
    "PF.C63_unnamed_configuration_refused"
   ],
   "note": "Proved for named configurations and contents and rule values that texts carry, in both value spaces; exported raw, the numbers of enumerations must not be negative (C53_raw_export_not_importable shows why). Missing: rules on combined values of inclusive criteria, whose text is lost (C63_composite_value_lost); a configuration without name is exported and then refused (C63_unnamed_configuration_refused); contents that texts do not carry (see C53)."
  },
  {
   "property": "C64",
   "status": "proved",
   "theorems": [
    "PF.C64_imports_keep_parameters",
    "PF.C64_refused",
    "PF.C64_no_overwrite",
    "PF.C64_no_stop",
    "PF.C64_all_valid",
    "PF.C64_wrong_system_destroys_domains"
   ],
   "note": "C64_wrong_system_destroys_domains: a document for another system is refused after the existing domains are destroyed. C19_single_import_invalid: the import of one domain does not make its settings valid."
  },
  {
   "property": "C65",
   "status": "partial",
   "theorems": [
    "PF.C65_state_last_set",
    "PF.C65_application_resets",
    "PF.C65_modified_iff_partial"
   ],
   "note": "Proved up to 2^32 - 1 changes between applications: the counter wraps (C10_counter_wraps)."
  },
  {
   "property": "C66",
   "status": "proved",
   "theorems": [
    "PF.C66_defaults",
    "PF.C66_hardware",
    "PF.C66_unmapped",
    "PF.C66_outcome",
    "PF.C66_no_stop",
    "PF.C66_settings",
    "PF.C66_reachable",
    "PF.C66_manager",
    "PF.C66_zero_out_of_range"
   ],
   "note": "The theorems hold for every well-formed structure; those on the hardware need syncers that are distinct and not nested, which `C60_syncers` proves of loaded structures. `C66_zero_out_of_range` records that a parameter without syncer may start outside of its range."
  },
  {
   "property": "C67",
   "status": "proved",
   "theorems": [
    "PF.C67_resynchronised",
    "PF.C67_answered_once",
    "PF.C67_request_only",
    "PF.C67_nothing_else",
    "PF.C67_start"
   ],
   "note": "A subsystem is modelled as one that keeps its request until `needResync(true)`; a subsystem that answers otherwise is not modelled."
  },
  {
   "property": "C68",
   "status": "proved",
   "theorems": [
    "PF.C68_values_independent",
    "PF.C68_reads_independent"
   ],
   "note": ""
  },
  {
   "property": "C69",
   "status": "proved",
   "theorems": [
    "PF.C69_raw_text",
    "PF.C69_real_text",
    "PF.C69_double",
    "PF.C69_special",
    "PF.C69_get_then_set",
    "PF.C69_text_read",
    "PF.C69_double_above_max",
    "PF.C69_default_out_of_range"
   ],
   "note": "IEEE 754 binary32 is defined in Spec/FloatingPoint.lean by its value formula; the conversions are computed with integers and proved to be round to nearest, ties to even. What the stream library reads a decimal text as is a parameter of the theorem. Double negative zero is not told from zero. C69_double_above_max: the range check is on the rounded number. C69_default_out_of_range: the initial value is zero whatever the range."
  },
  {
   "property": "C70",
   "status": "partial",
   "theorems": [
    "PF.C70_raw_round_trip_partial",
    "PF.C70_hex_text_of_small_numbers",
    "PF.C70_real_round_trip_partial",
    "PF.C70_text_above_max"
   ],
   "note": "Not true in general: C70_text_above_max (real space shows six digits, so that a parameter at its maximum can show a text above the maximum, which is refused) and C70_hex_text_of_small_numbers (raw hexadecimal texts are padded before the 0x prefix, so that the smallest positive number shows as 000000x1). Proved for raw decimal texts, for raw hexadecimal texts of zero and of bit patterns of at least 2^20, and for real texts of the numbers that are nearest to their six digits, given a stream library that rounds to nearest."
  },
  {
   "property": "C71",
   "status": "proved",
   "theorems": [
    "PF.C71_accepted",
    "PF.C71_loaded"
   ],
   "note": "The rules are in Spec/StructureAccept.lean. They are sufficient, not necessary: the code accepts more (it ignores unknown attributes, for instance)."
  },
  {
   "property": "C72",
   "status": "proved",
   "theorems": [
    "PF.C72_elements",
    "PF.C72_parameters",
    "PF.C72_nothing_designated",
    "PF.C72_paths_lead_back",
    "PF.C72_size",
    "PF.C72_dump",
    "PF.C72_empty_component_listed"
   ],
   "note": "Elements without children that are not parameters are listed by `listParameters` too: C72_empty_component_listed. The dump theorem needs names without slashes and distinct between brothers."
  },
  {
   "property": "C73",
   "status": "proved",
   "theorems": [
    "PF.C73_belonging",
    "PF.C73_associated",
    "PF.C73_nothing_designated",
    "PF.C73_associated_elements",
    "PF.C73_conflicting",
    "PF.C73_every_conflict_listed"
   ],
   "note": "The order of the elements in the two listings of elements is that of their addresses; it is a parameter of the model."
  },
  {
   "property": "C74",
   "status": "proved",
   "theorems": [
    "PF.C74_domains",
    "PF.C74_configurations",
    "PF.C74_domain_elements",
    "PF.C74_last_and_pending",
    "PF.C74_pending_applied",
    "PF.C74_always_answered",
    "PF.C74_status"
   ],
   "note": ""
  },
  {
   "property": "C75",
   "status": "proved",
   "theorems": [
    "PF.C75_start_outcome",
    "PF.C75_criteria",
    "PF.C75_get_last_set"
   ],
   "note": ""
  },
  {
   "property": "C76",
   "status": "partial",
   "theorems": [
    "PF.C76_before_start",
    "PF.C76_one_start",
    "PF.C76_last_error",
    "PF.C76_manager",
    "PF.C76_parameters_kept",
    "PF.C76_apply",
    "PF.C76_no_stop_partial",
    "PF.C76_stops_after_failed_start"
   ],
   "note": "Not for all orders: after a start that failed, applying configurations or binding a parameter stops the program (assertions of the connector), witness `C76_stops_after_failed_start`. Reading the text of a string parameter relies on its memory having an end (C39). Handles that were unbound, null arguments and the destruction of the handler are not modelled."
  },
  {
   "property": "C77",
   "status": "partial",
   "theorems": [
    "PF.C77_bind",
    "PF.C77_int_partial",
    "PF.C77_string",
    "PF.C77_in_domain",
    "PF.C77_no_tuning_mode"
   ],
   "note": "For integers the theorem needs that the type shows its numbers as signed integers (`Faithful`, see C55): unsigned 32 bit parameters show and take numbers modulo 2^32."
  },
  {
   "property": "C78",
   "status": "partial",
   "theorems": [
    "PF.C78_describes",
    "PF.C78_reload_partial",
    "PF.C78_bit_blocks_refused",
    "PF.C78_float_bounds_lost"
   ],
   "note": "The code violates the full claim: the size of bit parameter blocks is not exported, so that their export is refused when loaded (C78_bit_blocks_refused), and the bounds of floating-point parameters have six decimals (C78_float_bounds_lost). Mapping data, descriptions and units are not in the model of the export; components come back as blocks."
  },
  {
   "property": "C79",
   "status": "partial",
   "theorems": [
    "PF.C79_read_back_wrong",
    "PF.C79_set",
    "PF.C79_get",
    "PF.C79_accuracy",
    "PF.C79_exact",
    "PF.C79_monotone",
    "PF.C79_defined",
    "PF.C79_read_back_partial",
    "PF.C79_read_back_unit_partial",
    "PF.C79_floor",
    "PF.C79_default_floor_undefined",
    "PF.C79_refused",
    "PF.C79_loaded",
    "PF.C79_zero_numerator",
    "PF.C79_large_undefined",
    "PF.C79_declaration_accepted"
   ],
   "note": "Setting, its accuracy (less than one unit plus 2^-16), monotony, reading, the floor and the documents are proved. The code violates the rest: reading then setting may store another integer (slope 49), numbers of 2^63 or more are undefined behaviour instead of refused, a logarithmic adaptation without floor value is undefined behaviour at every set, and a zero numerator is accepted in documents. Reading back is proved when reading takes no rounding, in particular for numerator 1 and small integer denominators. log and exp are left open."
  },
  {
   "property": "C80",
   "status": "partial",
   "theorems": [
    "PF.C80_terminates",
    "PF.C80_exact_partial",
    "PF.C80_order_free",
    "PF.C80_builders",
    "PF.C80_not_loaded_after_throw",
    "PF.C80_fallback_stays",
    "PF.C80_files"
   ],
   "note": "Proved for plugins whose entry points do not throw. The code violates the rest: the library of a plugin whose entry point throws stays in memory, and a plugin that it allows to open can be left out; the fallback builder of an earlier loading is not removed by a later one without fallback. The linker is left open, monotone in the libraries in memory."
  },
  {
   "property": "C81",
   "status": "proved",
   "theorems": [
    "PF.C81_same",
    "PF.C81_only",
    "PF.C81_missing"
   ],
   "note": "Inclusions are those of subsystems in the structure file, the only builder of inclusions (ParameterMgr.cpp:2740-2830). XInclude is done by libxml2 and is part of the open function from names to documents."
  },
  {
   "property": "C82",
   "status": "partial",
   "theorems": [
    "PF.C82_starts",
    "PF.C82_determined",
    "PF.C82_threw",
    "PF.C82_validated",
    "PF.C82_reachable_partial",
    "PF.C82_denied",
    "PF.C82_missing_plugins_partial",
    "PF.C82_throws_on_port",
    "PF.C82_undefined_on_plugins"
   ],
   "note": "Proved: acceptance as an equivalence, determinacy, validation, the denial of tuning, and which starts throw. False in the code: an attribute of the root that does not convert throws out of `start` (C82_throws_on_port); an element called like the plugins but of another class is used as if it were them (C82_undefined_on_plugins). The link with reachable states needs the hypotheses of C58 and C66."
  },
  {
   "property": "C83",
   "status": "partial",
   "theorems": [
    "PF.C83_documents_partial",
    "PF.C83_parameter_partial",
    "PF.C83_reads_partial",
    "PF.C83_operations",
    "PF.C83_command_partial",
    "PF.C83_strings_kept",
    "PF.C83_strings_end",
    "PF.C83_command_strings",
    "PF.C83_session_partial",
    "PF.C83_string_without_end_stops",
    "PF.C83_wide_enumeration_stops",
    "PF.C83_fatal_commands_stop"
   ],
   "note": "Proved: answers for every command and session outside four exceptions, and that strings end after every operation but the writing of bytes by a handle. False in the code, each with a proved witness: bytes without NUL written by a handle make reads and exports run outside the blackboard; a 32-bit enumeration in raw hexadecimal is an undefined shift; setElementBytes with a byte, setSequenceAwareness without a value and some rule texts (C07) stop the program. Imported documents must have the shape of the schema (C64)."
  },
  {
   "property": "C84",
   "status": "partial",
   "theorems": [
    "PF.C84_file_kept",
    "PF.C84_backup_partial",
    "PF.C84_text_partial",
    "PF.C84_one_partial",
    "PF.C84_element_partial",
    "PF.C84_applied"
   ],
   "note": "Values are exported in the real value space, or in the raw one without negative numbers of enumerations, names of configurations are not empty, rules have one value per criterion that a text carries, and the XML library reads back the exported document (C06, C53, C63 show what fails otherwise)."
  },
  {
   "property": "C85",
   "status": "partial",
   "theorems": [
    "PF.C85_restart_partial",
    "PF.C85_values_partial",
    "PF.C85_same_document_partial",
    "PF.C85_strings",
    "PF.C85_files_partial"
   ],
   "note": "Proved under the conditions without which exports lose something (see C63): named configurations, rules the documents can express, settings whose texts carry their values, and no negative numbers of enumerations if the raw value space is on. The values of parameters also need that strings end in their space, which is proved for simulated back synchronisation and assumed with hardware that fills memory."
  },
  {
   "property": "C86",
   "status": "proved",
   "theorems": [
    "PF.C86_client",
    "PF.C86_status",
    "PF.C86_script"
   ],
   "note": "For texts of less than 4 GiB and answers without NUL. White space at the ends of the command is dropped by the server but not by the local handler; the theorem says so."
  },
  {
   "property": "C87",
   "status": "proved",
   "theorems": [
    "PF.C87_criterion",
    "PF.C87_criteria",
    "PF.C87_faithful",
    "PF.C87_structure"
   ],
   "note": ""
  },
  {
   "property": "C88",
   "status": "partial",
   "theorems": [
    "PF.C88_valid_partial",
    "PF.C88_valid_one_partial",
    "PF.C88_shape",
    "PF.C88_configurations",
    "PF.C88_regular",
    "PF.C88_no_stop"
   ],
   "note": "Proved under conditions each of which is shown to be needed: there is a domain, each domain has a configuration, names are names of the schemas, elements are parameters, blocks or components (a whole subsystem is exported under a tag the schemas do not know), floating-point numbers are not minus zero, and not small when shown raw and hexadecimal. The converse is proved outright."
  },
  {
   "property": "C89",
   "status": "partial",
   "theorems": [
    "PF.C89_script",
    "PF.C89_generates",
    "PF.C89_criteria",
    "PF.C89_status",
    "PF.C89_conflicts",
    "PF.C89_reachable",
    "PF.C89_verdict",
    "PF.C89_written_partial",
    "PF.C89_settings_partial"
   ],
   "note": "Missing: commands before the start and a second start are not modelled. The document is always written under the hypotheses of C83 (strings end, formats fit), and restarts under those of C85 (storable values). Status 1 does not tell one refused command with a document from a failure without one."
  },
  {
   "property": "C90",
   "status": "partial",
   "theorems": [
    "PF.C90_refused",
    "PF.C90_policy",
    "PF.C90_policy_refused",
    "PF.C90_history",
    "PF.C90_start",
    "PF.C90_start_policies",
    "PF.C90_state",
    "PF.C90_state_unknown",
    "PF.C90_create",
    "PF.C90_create_late",
    "PF.C90_create_count",
    "PF.C90_apply",
    "PF.C90_running",
    "PF.C90_session_partial",
    "PF.C90_literals",
    "PF.C90_schemas_untold",
    "PF.C90_number_unchecked",
    "PF.C90_count_unchecked",
    "PF.C90_same_name"
   ],
   "note": "Histories, policies, start, creation, states and the running system are proved. Missing in C90_session_partial: the hypotheses of C58 and C66 on the structure and settings documents (sizes that the schema asks for, regular settings), and a second start, which is left open. Findings, proved: getSchemaUri answers Done instead of the folder; a state given as a number is not checked against the values; a count that is no number creates a criterion without values; the second of two criteria of the same name can never be set by name."
  },
  {
   "property": "C91",
   "status": "partial",
   "theorems": [
    "PF.C91_ends",
    "PF.C91_own_memory",
    "PF.C91_send",
    "PF.C91_receive",
    "PF.C91_received",
    "PF.C91_plain_object",
    "PF.C91_plain_integer",
    "PF.C91_skeleton",
    "PF.C91_overrun",
    "PF.C91_enum_not_extended",
    "PF.C91_skeleton_junk"
   ],
   "note": "Proved for code that stays within its element. The code does not see to it: C91_overrun shows code that reads and changes its neighbours. toPlainInteger does not extend the sign of enumerations (C91_enum_not_extended), and the skeleton as shipped writes bytes that were never set and reports success, and is undefined for elements other than parameters (C91_skeleton_junk). Code that keeps pointers from getBlackboardLocation is not modelled."
  },
  {
   "property": "C92",
   "status": "proved",
   "theorems": [
    "PF.C92_domains",
    "PF.C92_configurations",
    "PF.C92_rules",
    "PF.C92_values",
    "PF.C92_elements",
    "PF.C92_sequences",
    "PF.C92_order",
    "PF.C92_once",
    "PF.C92_accepted",
    "PF.C92_criterion_taken_for_operator",
    "PF.C92_configuration_outside_domain_dropped",
    "PF.C92_component_of_group_dropped",
    "PF.C92_awareness_misspelt",
    "PF.C92_sequence_not_in_order",
    "PF.C92_words_after_value"
   ],
   "note": "What is accepted is characterised too. Witnesses show what descriptions cannot say: criteria whose name starts with ALL or ANY, configurations in groups outside of domains and components of groups (dropped without a word), words after the value of a rule."
  },
  {
   "property": "C93",
   "status": "partial",
   "theorems": [
    "PF.C93_text_is_read_as_said_partial",
    "PF.C93_unambiguous",
    "PF.C93_words_after_value_dropped",
    "PF.C93_last_of_several",
    "PF.C93_trailing_space"
   ],
   "note": "Acceptance, meaning and unambiguity are proved. The refusal of other texts is false: words after a value or a closing brace are dropped, and of several rules at top level the last one is kept; see the witnesses."
  },
  {
   "property": "C94",
   "status": "proved",
   "theorems": [
    "PF.C94_read_iff",
    "PF.C94_written_is_read",
    "PF.C94_ignored",
    "PF.C94_trailing_spaces",
    "PF.C94_comment_after_spaces",
    "PF.C94_equal_sign_in_name",
    "PF.C94_rule_with_more_words"
   ],
   "note": "Witnesses show lines that are not what they look like: comments after spaces, names with an equal sign, rules with more words."
  },
  {
   "property": "C95",
   "status": "proved",
   "theorems": [
    "PF.C95_built",
    "PF.C95_generator"
   ],
   "note": "For descriptions whose words are bytes without white space at their ends (the command processor trims its arguments).  Which descriptions are accepted by the translator is C92; that the framework refuses a command is reported by the generator (C89)."
  },
  {
   "property": "C96",
   "status": "proved",
   "theorems": [
    "PF.C96_line",
    "PF.C96_determined",
    "PF.C96_file",
    "PF.C96_refused",
    "PF.C96_written",
    "PF.C96_space_at_the_end",
    "PF.C96_no_value",
    "PF.C96_colons",
    "PF.C96_empty_line"
   ],
   "note": "For the semantics of Python 2, which the program needs: it writes texts to a pipe.  White space at the end of a line declares one more value with an empty name (C96_space_at_the_end); see also C96_no_value, C96_colons, C96_empty_line."
  },
  {
   "property": "C97",
   "status": "partial",
   "theorems": [
    "PF.C97_started",
    "PF.C97_tuning",
    "PF.C97_reachable_partial",
    "PF.C97_absolute_path"
   ],
   "note": "The last sentence is partial, as C58 is.  A configuration that names its structure by an absolute path is changed to one that names another file (C97_absolute_path)."
  },
  {
   "property": "C98",
   "status": "partial",
   "theorems": [
    "PF.C98_built",
    "PF.C98_runs",
    "PF.C98_bad_criteria",
    "PF.C98_bad_description",
    "PF.C98_untranslated",
    "PF.C98_whole_partial",
    "PF.C98_described_partial"
   ],
   "note": "Partial as C58 is: the structure has to declare sizes and fields that do not overlap, which the framework does not check.  The words of descriptions are bytes without white space at their ends; imported documents are regular (see C38)."
  },
  {
   "property": "C99",
   "status": "proved",
   "theorems": [
    "PF.C99_refused",
    "PF.C99_same",
    "PF.C99_linear",
    "PF.C99_history",
    "PF.C99_read",
    "PF.C99_get",
    "PF.C99_array_same",
    "PF.C99_array_refused",
    "PF.C99_array_access",
    "PF.C99_array_get",
    "PF.C99_array_history"
   ],
   "note": "Doubles whose conversion is undefined in C++ are a separate outcome (C79)."
  },
  {
   "property": "C100",
   "status": "partial",
   "theorems": [
    "PF.C100_adaptation_declared",
    "PF.C100_logarithm_declared",
    "PF.C100_adaptation",
    "PF.C100_adaptation_exact_partial",
    "PF.C100_slope_hidden",
    "PF.C100_properties",
    "PF.C100_refused",
    "PF.C100_integer_bounds_partial",
    "PF.C100_one_byte_bounds",
    "PF.C100_enum_values",
    "PF.C100_string_length",
    "PF.C100_bit_maximum",
    "PF.C100_letters_shown",
    "PF.C100_fixed_notation",
    "PF.C100_float_bounds",
    "PF.C100_array_length"
   ],
   "note": "Proved except for the bounds of integers of one byte: these are shown as characters, never in decimal (C100_one_byte_bounds, witness C100_letters_shown). For enums the values declared fit the size and no literal reads as a number. The bounds of floating-point parameters are shown within half a millionth (C100_float_bounds). The slopes shown of an adaptation are within half a millionth, so that adaptations that convert differently can show the same (C100_slope_hidden)."
  },
  {
   "property": "C101",
   "status": "proved",
   "theorems": [
    "PF.C101_shown",
    "PF.C101_refused",
    "PF.C101_safe"
   ],
   "note": "The text that an object shows for its value is left open: it belongs to the plugin; subsystems map with at most 32 context keys and no element has a syncer before the mapping, as in C43."
  }
 ]
}
