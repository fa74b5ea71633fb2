# Formal model of intel/parameter-framework in Lean 4: design

## Layout

* `properties.jsonl`: the properties, in English.
* `MANIFEST.json`: for each property its status and theorems.
* `lean/Verif/Model/`: the model, function by function; every definition cites the lines it models.
* `lean/Verif/Spec/`: small specifications used by the statements, and sample structures for the examples.
* `lean/Verif/Lemmas/`: helper lemmas. Nothing there has to be read to know what is proved.
* `lean/Verif/Props/`: the theorems `Cnn_...`, each followed by an `example` that meets its hypotheses.
* `seeded/LOG.jsonl`: edits of the model that imitate bugs, and the theorems that then fail.

Conventions of the model: texts are `List Char`; C++ 32-bit integers are `BitVec 32`; a blackboard is a list of bytes; `Out` is `ok`, `err` (the function reports a failure) or `abort`. `abort` stands for whatever the C++ code does outside its contract: a failed assertion, an uncaught exception, a read or write outside memory, undefined arithmetic. It is kept apart from `err` so that a theorem cannot hide it. An operation that may fail after having changed something returns the outcome and the new state.

## Trusted base

* Lean 4.33.0's kernel. No axiom is added; every theorem depends on at most `propext`, `Classical.choice` and `Quot.sound` (checked with `#print axioms` for all theorems of the manifest). There is no `sorry`, `admit`, `native_decide` or `bv_decide`.
* The reading of the C++ code. The code was neither built nor run; each definition cites the lines it was read from.
* The platform: 64-bit `size_t`, 32-bit two's complement `int`, little endian, 8-bit bytes, arithmetic shift of negative numbers.
* The C++ library: `std::string`, `std::map`, `std::list`, `std::vector`, `strtol` family and streams as specified; `strtod` and `strtof` are parameters (`Reader`), the printing of `double` and `float` is exact; `float` is IEEE 754 binary32.
* Allocation always succeeds, and no text or vector is longer than the model's quantities say.
* Hardware: a syncer is an arbitrary function of the blackboard and of the history of its calls, with or without an error. It does not change the blackboard (see "not modelled").

## Modelled code

| Code in /repo | Model |
| --- | --- |
| `utility/Tokenizer`, `Utility`, `convert.hpp` (integers, booleans) | `Tokenizer`, `Numeric` |
| `SelectionCriterionType`, `SelectionCriterion`, `SelectionCriteriaDefinition` | `Criterion` |
| `SelectionCriterionRule`, `CompoundRule`, `RuleParser` | `Rule`, `RuleParser` |
| `IntegerParameterType`, `EnumParameterType`, `BooleanParameterType`, `FixedPointParameterType`, `FloatingPointParameterType`, `BitParameterType` | `ScalarTypes`, `Float32`, `BitParameter` |
| `ParameterBlackboard`, `BinaryCopy` | `Bytes` |
| `StringParameter`, `ArrayParameter`, `Parameter`, `BaseParameter`, `BitParameter` | `StringArray`, `BitParameter`, `Tree`, `Handle` |
| `Element`, `InstanceConfigurableElement`, `ConfigurableElement`, `PathNavigator`, `ElementLocator`: names, paths, offsets, footprints, settings | `Tree` |
| `ConfigurableElementAggregator`, `ElementHandle` | `Handle` |
| `AreaConfiguration`, `BitwiseAreaConfiguration`, `DomainConfiguration`, `ConfigurableDomain`, `ConfigurableDomains`, `SyncerSet` | `Domain`, `DomainHistory` |
| `ParameterMgr`: tuning mode, automatic synchronisation, value space, configurations, parameters, remote commands | `Manager`, `Command` |
| Listings and dumps: `listQualifiedPaths`, `dumpContent`, `listBelongingDomains`, `listConflictingElements`, `status`, `listCriteria`, ... (`ParameterMgr`, `Element`, `ConfigurableElement`, `ConfigurableDomains`, `SelectionCriterion`) | `Listing` |
| `MappingData`, `MappingContext`, `Subsystem` (mapping), `FormattedSubsystemObject` | `Mapping` |
| `Message`, `RequestMessage`, `AnswerMessage`, `RemoteProcessorServer` (framing, service loop), `RemoteCommandHandlerTemplate` | `Message`, `Command` |
| XML of settings (`serializeXmlSettings` of the elements, `XmlElement` as a tree) | `XmlSettings` |
| XML of domains: export and import of all domains or of one (`toXml`, `fromXml` of `ConfigurableDomains`, `ConfigurableDomain`, `DomainConfiguration`, rules) | `XmlDomains` |
| Structure files: `fromXml` and instantiation of the type elements (`TypeElement`, `ComponentType`, `ComponentInstance`, `ComponentLibrary`, `ParameterBlockType`, `*ParameterType`, `IntegerParameterBuilder`), `Subsystem::structureFromXml`, `SystemClass` (children) | `Structure` |
| Adaptations: linear and logarithmic, in IEEE double precision, and their documents | `Adaptation` |
| Doubles through handles on adapted integer parameters and arrays of them | `AdaptedHandle` |
| The command `showProperties` | `Properties`, `AdaptationShown` |
| The command `showMapping` | `ShowMapping` |
| Loading of plugins: locations, passes, library of builders | `Plugins` |
| Start from files: `ParameterMgr::load`, the framework configuration and its classes, `XmlFileIncluderElement`, `XmlDocSource::populate`, the remote interface | `Framework` |
| Export of structures: `toXml` without settings of the elements and their types | `StructureExport` |
| `SubsystemObject` (sync, access to the blackboard by the code of plugins, `toPlainInteger`), `SkeletonSubsystemObject` | `PluginObject` |
| Start: `ParameterMgr::load` after the structure (settings file, back synchronisation, validation, first application), `BackSynchronizer`, `HardwareBackSynchronizer`, `SimulatedBackSynchronizer`, `SubsystemObject` and `VirtualSyncer` (reading), `setDefaultValues` | `Start` |
| The client program `remote-process/main.cpp` | `Client` |
| The domain generator `tools/xmlGenerator/domainGeneratorConnector.cpp`; what `domainGenerator.py` writes to it (in `Spec/Generator`) | `Generator` |
| The language of domain descriptions: `tools/xmlGenerator/EddParser.py`, `PfwBaseTranslator.py`, `PFWScriptGenerator.py` (the translator), and how `domainGenerator.py` uses them | `Edd` |
| Files of criteria: `parseCriteria` of `tools/xmlGenerator/domainGenerator.py` | `CriteriaFile` |
| `tools/xmlGenerator/hostConfig.py` | `HostConfig` |
| `main` of `tools/xmlGenerator/domainGenerator.py` (without the options of the command line; what the generator makes of the input when the tool fails in the middle of it is left out) | `DomainTool` |
| The platform connector `ParameterMgrPlatformConnector.cpp` and the test platform `test/test-platform/TestPlatform.cpp` | `Platform` |
| The C API: `bindings/c/ParameterFramework.cpp` and the connector under it | `CApi` |
| The blackboard mutex, threads | `Concurrency` |

The histories of the theorems contain imports of XML. The documents of these imports are regular (`DomOp.Regular`): names of domains and of configurations are not given twice (as the schema demands); a single domain has settings for each element in some configuration and is not called `ConfigurableDomain`. What happens without these conditions is recorded in the findings.

## Not modelled

* libxml2, the validation against XML schemas (those of domains are specified in `Spec/Schema`, for C88) and text of XML documents, XInclude and the resolution of names (open functions in `Framework`). Most theorems hold for every structure tree; what they need of it is stated as hypotheses (`Elem.WF`).
* Sockets and asio: a connection is a list of bytes, cut anywhere by an end of file.
* Plugins and dynamic libraries themselves: a plugin is a table of mapping keys and creators, or a virtual subsystem; the linker is left open in `Plugins`.
* A subsystem that answers `needResync` otherwise than by keeping a request until it is consumed. A plugin that, when it is read, writes outside of its own element.
* `log` and `exp` (functions left open in `Adaptation`); `%` or locale effects of text conversions. What the stream library reads a decimal text as is a parameter of the model (`Reader`), with the assumption `ReadsDecimals` where a theorem needs one.
* libxml2's reader and printer (arbitrary functions between texts and documents in the commands); logs and the exact texts of error messages; the text that plugin objects show for their value in `showMapping`; `version`.
* In the C API: loggers, the destruction of handlers and handles, null arguments other than names and values of criteria.
* In the test platform: a second `start` (left open), the end of the server by `exit`, the texts of errors.
* C++ data races: concurrent accesses are sequentially consistent in the model.

## The properties one by one

For each property: what is modelled, how it is proved, its status and its theorems (`Verif/Props/`). A theorem whose name ends in `_partial` proves part of the claim; the line after it says what is missing. The other theorems of a partial property are either complete parts of it or proved counterexamples.

### C01 Criterion values stay unambiguous

*Plan:* Model addValuePair on an association list; invariant by induction over the call history.

*Model and proof:* `Model/Criterion.lean`; invariant "numbers and literals are pairwise distinct, inclusive numbers are single bits" by induction over histories of `addValuePair`.

*Status:* proved. Histories of addValuePair; INT_MIN in an inclusive type is undefined behaviour and excluded.

*Theorems:* `C01_values_unambiguous`, `C01_add_decision`, `C01_pairs_persist`.

### C02 Criterion literal and number are inverse

*Plan:* Round-trip lemmas on the invariant of C01; text of inclusive types through the tokenizer model.

*Model and proof:* Text to number by association lists and the tokenizer model; join/split lemmas of C41.

*Status:* proved. Inclusive: non-empty literals free of the separator; the witness theorem shows what the code does for the others.

*Theorems:* `C02_exclusive_inverse`, `C02_inclusive_or`, `C02_inclusive_inverse`, `C02_separator_literal_not_read_back`.

### C03 Formatted criterion state can be read back

*Plan:* getFormattedState modelled bit by bit (0..31); round-trip through getNumericalValue.

*Model and proof:* `getFormattedState` is modelled with its loop over the 32 bits; the result is re-read by `getNumericalValue`.

*Status:* partial. State 0 of an inclusive type prints <none>, which is not read back (C03_zero_not_read_back); every other state made of registered bits is covered.

*Theorems:* `C03_inclusive_read_back_partial`, `C03_exclusive_read_back`, `C03_zero_not_read_back`.

### C04 Criterion match verbs mean what they say

*Plan:* Decision logic on BitVec 32.

*Model and proof:* `is`, `includes` and their negations on `BitVec 32`; the specification is in terms of sets of bit positions.

*Status:* proved.

*Theorems:* `C04_verb_meaning`, `C04_verb_relations`.

### C05 Application rules evaluate as Boolean formulas

*Plan:* Rule trees, loop of CompoundRule::matches modelled as written; structural induction against a Boolean denotation.

*Model and proof:* Rules are trees; `matches` is the loop of the code with its early exits; the specification is the usual meaning of conjunction and disjunction; structural induction.

*Status:* proved.

*Theorems:* `C05_rule_is_formula`, `C05_empty_rules`.

### C06 Rule text round-trips

*Plan:* Character-level model of RuleParser; induction on the rule tree. Expected to be false for composite values: witness plus partial theorem.

*Model and proof:* Character-level parser (`Model/RuleParser.lean`) against the printer (`Model/Rule.lean`); induction on the rule with an arbitrary continuation of the text.

*Status:* partial. Rules whose match values are single registered values; a value combined from several bits is printed empty (C06_composite_value_lost).

*Theorems:* `C06_print_parse_partial`, `C06_composite_value_lost`.

### C07 Rule parsing always ends with an answer

*Plan:* Fuelled model of the parser with a distinct `abort` outcome; fuel sufficiency by a measure; witness for the abort.

*Model and proof:* The parser is a total function over fuel bounded by the length of the text; the theorem shows that the fuel never runs out.

*Status:* partial. The parser always answers; an assertion can abort it on a malformed text (C07_abort_possible).

*Theorems:* `C07_parse_terminates_partial`, `C07_abort_possible`.

### C08 A refused rule changes nothing

*Plan:* Model setApplicationRule/clear/get on top of the parser.

*Status:* proved.

*Theorems:* `C08_refused_rule_changes_nothing`, `C08_accepted_rule_is_printed`, `C08_cleared`.

### C09 Accepted rules are well typed

*Plan:* Induction over the parser.

*Model and proof:* Induction over the parser: every criterion rule made comes from a criterion, a verb allowed for its kind and a known value.

*Status:* proved.

*Theorems:* `C09_accepted_well_typed`, `C09_accepted_evaluates`.

### C10 Criterion modification tracking

*Plan:* Invariant over histories.

*Status:* partial. The 32-bit counter wraps after 2^32 changes (C10_counter_wraps); exact below that.

*Theorems:* `C10_modified_iff`, `C10_no_change_iff`, `C10_modified_iff_changed_partial`, `C10_counter_wraps`.

### C11 The first applicable configuration wins

*Plan:* Decision logic over the list of configurations.

*Status:* proved.

*Theorems:* `C11_first_applicable_wins`, `C11_no_rule_never_selected`, `C11_no_switch_no_change`.

### C12 Applying writes exactly the selected settings

*Plan:* Model of areas, configurations, domains over a byte-list blackboard; frame lemmas for byte ranges.

*Model and proof:* Bits, not bytes: for every bit of the main blackboard either it is the bit of the settings of the configuration applied last to it, or it is as before.

*Status:* proved.

*Theorems:* `C12_selected_settings_written`, `C12_nothing_else_written`.

### C13 Applying twice changes nothing the second time

*Plan:* Same state machine: apply after apply is the identity and logs nothing.

*Status:* proved.

*Theorems:* `C13_nothing_to_do`, `C13_apply_twice`.

### C14 Leaving tuning mode re-establishes the selected configurations

*Plan:* Forced apply on the same state machine.

*Status:* proved. Where another domain with a qualifying configuration holds the same bits, the hypothesis excludes the bit (the domain applied last wins, C12).

*Theorems:* `C14_leaving_tuning_mode`.

### C15 Synchronisation order of an application

*Plan:* The state machine emits an event log (write / sync); theorem about the order of the log.

*Model and proof:* The log of the model has writes and synchronisations; the theorem orders them: sequence-aware domains first one by one, the rest in one batch.

*Status:* proved.

*Theorems:* `C15_synchronisation_order`.

### C16 Every collected syncer is called exactly once even after failures

*Plan:* Model of SyncerSet on duplicate-free lists.

*Status:* proved.

*Theorems:* `C16_each_once`, `C16_all_called`, `C16_errors`, `C16_success_iff`.

### C17 Last applied configuration always exists

*Plan:* Invariant over operation histories.

*Status:* proved.

*Theorems:* `C17_last_applied_exists`, `C17_reported_name`.

### C18 Every configuration has settings for every element

*Plan:* Invariant over operation histories, areas keyed by element id.

*Model and proof:* `Reachable` states; the invariant `St.WF` holds of every state reached by the 24 operations; no operation accesses outside a blackboard.

*Status:* proved. C18_no_access_outside: a stop can only come from a text that the rule parser cannot handle, a typed set of the wrong form, or an import of a document without the shape of the schema (Stops), never from the blackboards.

*Theorems:* `C18_one_area_per_element`, `C18_no_access_outside`.

### C19 All settings are valid between tuning operations

*Plan:* Invariant over operation histories.

*Status:* partial. For histories in which an imported single domain has settings for each of its elements in some configuration. Without that, the import of a single domain leaves settings that are not valid (C19_single_import_invalid).

*Theorems:* `C19_all_areas_valid_partial`, `C19_single_import_invalid`.

### C20 Domain and configuration names stay unique

*Plan:* Invariant over operation histories.

*Status:* partial. C20_empty_names_twice shows that two domains can have the empty name; proved for non-empty names and for histories whose imported documents have no two domains, and no two configurations of a domain, of the same name, without which it is false (C20_import_duplicates, C20_import_overwrites_unnamed).

*Theorems:* `C20_domain_names_partial`, `C20_configuration_names_partial`, `C20_no_domain_twice`, `C20_empty_names_twice`, `C20_import_duplicates`, `C20_import_overwrites_unnamed`.

### C21 Save then restore gives the saved settings back

*Plan:* Frame lemmas on byte ranges, plain and bitwise areas.

*Status:* proved.

*Theorems:* `C21_save_then_restore`, `C21_save_tune_restore`.

### C22 Splitting an element preserves every configuration

*Plan:* Tiling of the parent area by its children.

*Status:* partial. Proved for groups; for bit parameter blocks, bits that belong to no bit parameter are lost (C22_block_gap_lost).

*Theorems:* `C22_split_keeps_settings`, `C22_split_same_board_partial`, `C22_other_domains`, `C22_block_gap_lost`.

### C23 Associating an enclosing element preserves the settings of its parts

*Plan:* Dual of C22.

*Status:* proved.

*Theorems:* `C23_absorb_keeps_settings`.

### C24 No part of the structure is twice in a domain

*Plan:* Invariant over histories on trees with an ancestor relation.

*Status:* proved.

*Theorems:* `C24_no_element_twice`, `C24_no_bit_twice`, `C24_association_both_ways`.

### C25 Element sequence

*Plan:* Loop of setElementSequence modelled as written; failure is expected to be a counterexample.

*Status:* partial. A refused sequence can change the order (C25_refused_but_reordered); everything else holds.

*Theorems:* `C25_sequence_order_partial`, `C25_nothing_lost`, `C25_refused_but_reordered`.

### C26 Refused domain operations change nothing

*Plan:* Per operation; witnesses where the code violates it.

*Status:* partial. Refused element sequences, restorations that report hardware errors and refused imports of all domains or of settings change the state (witnesses); a split refused is reported as done (witness).

*Theorems:* `C26_refused_changes_nothing_partial`, `C26_restore_refused`, `C26_sequence_only_order`, `C26_sequence_half_done`, `C26_restore_reports_failure_but_done`, `C26_split_refusal_not_reported`.

### C27 A new configuration is immediately usable

*Plan:* Direct on the state machine.

*Status:* proved. For non-empty names (a configuration with the empty name is looked up under its kind name).

*Theorems:* `C27_first_configuration`, `C27_next_configuration`.

### C28 Editing a configuration touches only that configuration

*Plan:* Base-offset addressing into area blackboards; witness for array index.

*Status:* proved.

*Theorems:* `C28_edits_configuration`, `C28_refused`, `C28_other_configurations`, `C28_get_after_set`.

### C29 Memory layout is a partition

*Plan:* Tree recursion with setOffset/getFootPrint; structural induction.

*Model and proof:* `Model/Tree.lean`; offsets are the sums of footprints of the elements before; specification in terms of owned bits.

*Status:* partial. Overlapping declarations of bit parameters are accepted by the loader (C29_overlapping_fields_accepted); everything else holds for every structure.

*Theorems:* `C29_board_size`, `C29_children_tile`, `C29_inside_parent`, `C29_disjoint`, `C29_bytes_disjoint`, `C29_every_byte_owned`, `C29_overlapping_fields_accepted`.

### C30 Setting one parameter never changes another

*Plan:* Disjoint ranges of C29 plus bit-level frame of C37.

*Status:* partial. Access by path. Bit fields declared disjoint; strings terminated (C30_unterminated_string shows the other case).

*Theorems:* `C30_set_only_own_bits`, `C30_no_target`, `C30_get_only_own_bits`, `C30_independent`, `C30_unterminated_string`.

### C31 Paths identify elements

*Plan:* Path text via tokenizer model; induction on the tree.

*Status:* proved. Sibling names distinct and usable in a path (GoodNames); C31_duplicate_names shows why.

*Theorems:* `C31_path_round_trip`, `C31_never_wrong`, `C31_finds`, `C31_paths_injective`, `C31_parameter_handle`, `C31_element_handle`, `C31_parameter_handle_made`, `C31_duplicate_names`.

### C32 Raw bytes access round-trips

*Plan:* Frame lemmas.

*Status:* proved.

*Theorems:* `C32_set_then_get`, `C32_wrong_size_refused`, `C32_get_then_set`.

### C33 Integer parameters: accept iff in range, read back what was set

*Plan:* Text conversion model for integer texts (decimal, hexadecimal) and BitVec arithmetic.

*Status:* proved.

*Theorems:* `C33_accepted_iff_denotes`, `C33_set_then_get`, `C33_get_then_set`.

### C34 Integer parameters: typed access is faithful

*Plan:* BitVec 32 arithmetic with the casts of the code; expected to be false: witnesses and partial theorems.

*Status:* partial. Unsigned access for ranges without negative values and signed access for ranges below half of the type; the three witness theorems show the code is not faithful outside.

*Theorems:* `C34_unsigned_access_partial`, `C34_signed_access_partial`, `C34_unsigned_access_refused`, `C34_signed_read_of_unsigned_wrong`, `C34_unsigned_read_of_negative_wrong`.

### C35 Enum parameters accept only declared values

*Plan:* As C33.

*Status:* partial. Raw space round trip for 8 and 16 bits; for 32 bits the witness theorems show an undefined shift and a refused text. Literals that look like numbers are shadowed.

*Theorems:* `C35_accepted_iff_declared`, `C35_set_then_get`, `C35_raw_round_trip_partial`, `C35_real_round_trip`, `C35_hex_read_of_32_bits_undefined`, `C35_negative_32_bits_not_read_back`, `C35_numeric_literal_shadowed`.

### C36 Boolean parameters

*Plan:* Decision logic on texts.

*Status:* proved.

*Theorems:* `C36_boolean`, `C36_boolean_typed`.

### C37 Bit parameters

*Plan:* BitVec 64 arithmetic.

*Status:* partial. Integer and Boolean access, declarations and the bit-level frame in full; text access for texts that are numbers. Witnesses: texts that are no number are accepted, integer reads of fields above 32 bits are truncated.

*Theorems:* `C37_declaration`, `C37_declaration_wraps`, `C37_integer_access`, `C37_text_access_partial`, `C37_get_then_set`, `C37_boolean_access`, `C37_garbage_text_accepted`, `C37_overflow_accepted`, `C37_wide_field_truncated`, `C37_narrow_field_read`.

### C38 Fixed-point parameters

*Plan:* Doubles represented by the rationals they denote; scaling by powers of two is exact on doubles, rounding half away from zero. Rounding of text to double is not modelled.

*Model and proof:* Doubles are dyadic rationals; rounding is half away from zero.

*Status:* proved. Doubles are exact dyadic rationals; the text to double reader of the C++ library is a parameter.

*Theorems:* `C38_accepted_iff_in_range`, `C38_set_then_get`, `C38_real_text`, `C38_real_text_round_trip`, `C38_raw_text`, `C38_assertions_hold`.

### C39 String parameters

*Plan:* Byte-list model.

*Status:* partial. Everything except reads when the raw byte interface stored bytes without NUL; a witness shows such a read leaves the parameter.

*Theorems:* `C39_set_then_get`, `C39_exact`, `C39_read_inside_partial`, `C39_terminated`, `C39_unterminated_reads_outside`.

### C40 Array parameters

*Plan:* Byte-list model with the element type as a parameter.

*Status:* partial. Missing: a refused value leaves the earlier values written (witness), reading one element in a context with a base offset looks at the wrong place (witness), index texts with trailing characters are accepted (witness).

*Theorems:* `C40_set_values`, `C40_values_exist`, `C40_too_many_refused`, `C40_invalid_refused_partial`, `C40_partial_write`, `C40_access_by_index`, `C40_index_garbage_accepted`, `C40_get_values`, `C40_get_index_partial`, `C40_get_index_ignores_base`, `C40_get_then_set`, `C40_integer_round_trip`, `C40_typed_set_then_get`.

### C41 Tokenising

*Plan:* Model of the loop; specification by maximal pieces.

*Status:* proved.

*Theorems:* `C41_pieces_unique`, `C41_split_keep`, `C41_split_merge`, `C41_join_split`.

### C42 Mapping data

*Plan:* Model on association lists.

*Status:* proved.

*Theorems:* `C42_bindings_unique`, `C42_init`, `C42_written`, `C42_listing`, `C42_shown`, `C42_lookup_chain`, `C42_handle_lookup`.

### C43 Mapping context inheritance

*Plan:* Model of mapping recursion on trees.

*Model and proof:* `Model/Mapping.lean`: the recursion of `InstanceConfigurableElement::map` with its stack of contexts; specification by the chain of ancestors.

*Status:* partial. Asking a context for an item by key returns the key, not the value (C43_by_key_wrong); the rest is proved, for at most 32 context keys (the code shifts an int).

*Theorems:* `C43_mapped_iff`, `C43_objects`, `C43_visible`, `C43_set_once`, `C43_syncers`, `C43_syncers_not_nested`, `C43_by_key_partial`, `C43_by_key_wrong`, `C43_set_item`.

### C44 Mapping value amendment

*Plan:* Well-founded recursion on the text.

*Status:* proved. For 1 to 9 amendment keys that are items of the context; otherwise the code stops or reads outside (C44_out_of_bounds). The closing quote is dropped without being checked.

*Theorems:* `C44_format`, `C44_terminates`, `C44_quotes`, `C44_out_of_bounds`.

### C45 Remote protocol: messages round-trip

*Plan:* Byte-level model of the frame, both directions.

*Status:* partial. Proved for texts without NUL and, for commands, without white space at their ends, and below 4 GiB; C45_nul_cuts and C45_command_trimmed show the property false without these.

*Theorems:* `C45_request_round_trip`, `C45_answer_round_trip`, `C45_built`, `C45_trim`, `C45_built_round_trip`, `C45_nul_cuts`, `C45_command_trimmed`, `C45_session`, `C45_serve_terminates`.

### C46 Remote protocol: corruption is detected and reception is safe

*Plan:* Modular arithmetic on the checksum; distinct outcome for out-of-bounds reads.

*Model and proof:* Byte-level reception with a distinct outcome for reads outside the data.

*Status:* partial. Everything accepted is a whole frame with a correct checksum, and a change of one byte of the sync word, identifier, data or checksum is refused. The size field is not protected (C46_size_unprotected), and a well-formed frame whose inner lengths are wrong is read outside of its data (C46_reads_outside, C46_abort_iff_partial).

*Theorems:* `C46_accepts_iff`, `C46_corrupted`, `C46_sync_word`, `C46_truncated`, `C46_request_iff`, `C46_abort_iff_partial`, `C46_reads_outside`, `C46_size_unprotected`.

### C47 Remote commands dispatch

*Plan:* Dispatch model over an abstract state.

*Model and proof:* The table of the 60 commands with their declared argument counts, each modelled as an operation, a text, an import of a document or an export of one; the manager and the files are the state; theorems hold for any reader and printer of XML texts.

*Status:* partial. Proved for any table and for the table of the manager, including the commands that import, print and write XML documents, whatever the error texts are and whatever libxml2 reads and prints; setSequenceAwareness declares one argument and reads two (C47_sequence_awareness_outside).

*Theorems:* `C47_unknown`, `C47_too_few`, `C47_executed`, `C47_registration`, `C47_names_distinct`, `C47_help`, `C47_table`, `C47_means`, `C47_unreadable`, `C47_reads`, `C47_exports`, `C47_changes`, `C47_stops_partial`, `C47_sequence_awareness_outside`, `C47_remote_reachable`.

### C48 Tuning operations need tuning mode

*Plan:* Manager state machine; witnesses for the operations that do not check.

*Status:* partial. renameDomain, renameConfiguration, setApplicationRule, clearApplicationRule and setConfigurationParameter do not check the tuning mode (C48_unchecked_operations_change).

*Theorems:* `C48_refused_without_tuning_mode_partial`, `C48_unchecked_operations_change`, `C48_tuning_mode`.

### C49 Parameter handles and tuning mode / domain ownership

*Plan:* Manager state machine.

*Status:* partial. Holds of typed sets; setAsBytes and setAsXML of a handle check neither tuning mode nor domains (C49_bytes_unchecked, C49_xml_unchecked).

*Theorems:* `C49_changes_only_outside_domains`, `C49_no_effect_in_tuning_mode`, `C49_refused_in_domain`, `C49_done_outside_tuning_mode`, `C49_bytes_unchecked`, `C49_xml_unchecked`, `C49_empty_list_of_texts_stops`.

### C50 Rogue elements

*Plan:* Aggregator modelled on trees; structural induction.

*Status:* proved.

*Theorems:* `C50_rogue_iff`, `C50_listing_exact`, `C50_listing_covers`.

### C51 Auto-sync control

*Plan:* Manager state machine with the sync log.

*Status:* partial. Typed sets through handles synchronise even when automatic synchronisation is off (C51_handles_synchronise).

*Theorems:* `C51_off_calls_no_syncer_partial`, `C51_tuning_session`, `C51_sync_refused_when_on`, `C51_turning_on`, `C51_turning_off`, `C51_on_set_synchronised`, `C51_bytes_synchronised`, `C51_handles_synchronise`.

### C52 Syncer coverage

*Plan:* Structural induction on trees.

*Status:* proved. Syncers not nested (what mapping produces); C52_nested_missed shows the other case.

*Theorems:* `C52_coverage`, `C52_nothing_else`, `C52_nested_missed`.

### C53 Domain export then import restores the settings

*Plan:* XML modelled as element trees (not text).

*Model and proof:* XML is a tree of elements with attributes, not text; `Elem.importXml`, `Elem.exportXml`.

*Status:* partial. The export/import round trip of every element (main blackboard and configuration memory) is proved for contents that the texts of the export format carry (declared enumeration numbers, in-range integers, terminated strings, fixed-point values without hidden low bits in real space), for imports in the export's value space. What a successful import does to each parameter, and the frame of any import, are proved outright. Missing: raw exports imported in real value space, which fail for negative enumeration numbers (witness), and refused imports are not undone (witness). libxml2's printing and parsing of documents is not modelled.

*Theorems:* `C53_round_trip_partial`, `C53_area_round_trip_partial`, `C53_import_sets`, `C53_import_only_own_bits`, `C53_refused_import_not_undone`, `C53_raw_export_not_importable`, `C53_value_space_leaks`.

### C54 Handle operations are atomic

*Plan:* Interleaving semantics of lock-protected critical sections: partial (mutex semantics assumed, memory model not modelled).

*Model and proof:* Small-step interleaving of threads around one mutex; bytes are copied one per step; a generic linearisability theorem for programs whose effects are inside critical sections (`Lemmas/Concurrency.lean`).

*Status:* partial. Proved for any number of threads and any schedule: typed gets and sets of handles, gets and sets of parameters by text, and applications of configurations are linearisable while no thread changes the tuning mode (bytes are written and read one per step; the application may be cut into any steps), and the mutex is always released. With changes of the tuning mode, linearisable up to sets that act after having looked at the mode; C54_late_set shows the full statement false. Accesses by bytes do not take the mutex: C54_torn_read shows it false for them. XML accesses of handles, also without the mutex, and domain commands are not in the concurrent model; memory is sequentially consistent.

*Theorems:* `C54_serialised`, `C54_serialised_with_mode_changes_partial`, `C54_application_in_steps`, `C54_no_deadlock`, `C54_torn_read`, `C54_late_set`.

### C55 Typed access through a handle obeys the declaration

*Plan:* Combine the type contracts of C33 to C40 with the handle operation of the manager.

*Model and proof:* `MOp.handleSet` and `Elem.getAs`/`getAsArray` (`Model/Handle.lean`, `Model/Manager.lean`); vocabulary in `Spec/Handle.lean`.

*Status:* partial. Proved for Boolean, enumerated, fixed-point, string and bit parameters and for integers accessed with numbers of their sign. Missing: integer ranges accessed with numbers of the other sign, where C34 gives counterexamples, and refused lists, whose first values are written (C40).

*Theorems:* `C55_scalar_partial`, `C55_scalar_other_type`, `C55_bit`, `C55_string`, `C55_array_partial`, `C55_only_own_bits`, `C55_text`.

### C56 Loading a structure document ends

*Plan:* Loader as functions on XML trees, the instantiation with a bound on nested calls; induction on the position of a type in the library: a type refers only to types that come before, or to itself.

*Model and proof:* Model/Structure

*Status:* partial. Missing: a document with a component type that contains itself in a block, or below another component, is not refused and recurses without end (C56_unbounded).

*Theorems:* `C56_ends_partial`, `C56_self_never_loads`, `C56_unbounded`.

### C57 What is loaded is what the structure document declares

*Plan:* Inductive relation between declarations and elements, stated on the XML tree; the loader refines it; the relation is functional.

*Model and proof:* Model/Structure, Spec/Structure

*Status:* proved. C57_order_matters: the tag of the instance definition is misspelt in the code, which takes the last child; a document with the parts in the other order is refused or loses its parameters.

*Theorems:* `C57_declared`, `C57_determined`, `C57_order_matters`.

### C58 A loaded system is well formed

*Plan:* From the declarations (C57) by induction over what is declared; mapping changes syncers only.

*Model and proof:* Model/Structure, Spec/Structure (SizesDeclared, FieldsDeclaredDisjoint)

*Status:* partial. Missing: the code itself does not check these sizes and validation against the schema is off by default (C58_unchecked); the schema does not exclude that the sum of the bits of a fixed point number wraps (C58_wrap); nothing checks overlapping bit parameters.

*Theorems:* `C58_sizes_partial`, `C58_fields_partial`, `C58_unchecked`, `C58_wrap`.

### C59 Each element of a loaded system has its own path

*Plan:* From the declarations (C57) by induction over what is declared.

*Model and proof:* Model/Structure, Spec/Structure (NamesDeclared)

*Status:* partial. Missing: the schema and the code check names within one declaration only; a type that declares a name of the type it extends gives two children of the same name (C59_clash).

*Theorems:* `C59_names_partial`, `C59_clash`.

### C60 Syncers of a loaded system

*Plan:* From C43 for each subsystem; syncers of different subsystems are different.

*Model and proof:* Model/Structure

*Status:* proved. C60_mapping_data: the syncers of a loaded subsystem stand exactly where the mapping data of the declarations put them. C60_array_context_refused: an array of blocks or components with a context mapping is always refused, because the array and its elements share the mapping data.

*Theorems:* `C60_syncers`, `C60_mapping_data`, `C60_array_context_refused`.

### C61 Value space and output format govern text access to parameters

*Plan:* Relate the mode of the manager to the context of every later access by induction over client histories, then compare the text conversions of the four scalar types with a small relation between texts and stored bytes.

*Model and proof:* Model/Manager.lean, Model/ScalarTypes.lean, Model/Numeric.lean, Spec/Access.lean

*Status:* proved. Hexadecimal raw reads of 32 bit enumerations are excluded, see C35.

*Theorems:* `C61_modes`, `C61_get`, `C61_set`, `C61_configuration`.

### C62 Accepted domain documents give the domains they declare

*Plan:* Specify, as relations that do not mention the reader, what an element declares (rule, configuration, domain, settings). Prove the reader returns a value exactly if (rules) or only if (domains) the relation holds, by induction over the children; lift through the import to the history.

*Model and proof:* Model/XmlDomains.lean; specification Spec/XmlDomains.lean (DeclaresRule, DeclaresDomain, DeclaresSettings)

*Status:* proved. The settings part is stated for documents whose configurations have distinct non-empty names. Documents are trees; libxml2's parsing and schema validation are not modelled.

*Theorems:* `C62_rule_iff`, `C62_import_all`, `C62_import_one`.

### C63 Exported domains are read back

*Plan:* Show that what the export writes for a rule, a configuration, an element and a setting is read back as such (inverse lemmas by induction over rules and lists, using the settings round trip of C53 and the path round trip of C31), then compose.

*Model and proof:* Model/XmlDomains.lean; specification Spec/XmlDomains.lean (SameDomain, SameConfig, Writable)

*Status:* partial. Proved for named configurations and contents and rule values that texts carry, in both value spaces; exported raw, the numbers of enumerations must not be negative (C53_raw_export_not_importable shows why). Missing: rules on combined values of inclusive criteria, whose text is lost (C63_composite_value_lost); a configuration without name is exported and then refused (C63_unnamed_configuration_refused); contents that texts do not carry (see C53).

*Theorems:* `C63_round_trip_partial`, `C63_round_trip_one_partial`, `C63_composite_value_lost`, `C63_unnamed_configuration_refused`.

### C64 Imports of domains are contained

*Plan:* Frame lemmas over the import functions and the invariant of the reachable states (settings of every configuration of every element).

*Model and proof:* Model/XmlDomains.lean, Model/DomainHistory.lean

*Status:* proved. C64_wrong_system_destroys_domains: a document for another system is refused after the existing domains are destroyed. C19_single_import_invalid: the import of one domain does not make its settings valid.

*Theorems:* `C64_imports_keep_parameters`, `C64_refused`, `C64_no_overwrite`, `C64_no_stop`, `C64_all_valid`, `C64_wrong_system_destroys_domains`.

### C65 A criterion has the state last set for it

*Plan:* Show of each operation what it does to the criteria (frame), then induction over the history; compare with the last set in the history, and with the number of changes since the last application.

*Model and proof:* Model/Manager.lean, Model/DomainHistory.lean; specification Spec/CriteriaHistory.lean (lastSet, changes, Applies)

*Status:* partial. Proved up to 2^32 - 1 changes between applications: the counter wraps (C10_counter_wraps).

*Theorems:* `C65_state_last_set`, `C65_application_resets`, `C65_modified_iff_partial`.

### C66 A start applies the settings and gives the rest its default or hardware value

*Plan:* Default values and back synchronisation of the elements that no valid configuration sets, then validation and forced application; the elements that need back synchronisation are the largest ones without a valid configuration around (aggregator), which do not overlap; a parameter outside of the selected configurations is in one of them and is not touched by the application.

*Model and proof:* `Start`, `Domain`, `XmlDomains`

*Status:* proved. The theorems hold for every well-formed structure; those on the hardware need syncers that are distinct and not nested, which `C60_syncers` proves of loaded structures. `C66_zero_out_of_range` records that a parameter without syncer may start outside of its range.

*Theorems:* `C66_defaults`, `C66_hardware`, `C66_unmapped`, `C66_outcome`, `C66_no_stop`, `C66_settings`, `C66_reachable`, `C66_manager`, `C66_zero_out_of_range`.

### C67 Subsystems that ask are resynchronised at the next application

*Plan:* History of requests (`Waits`), frame of the requests over all operations, and the trace of an application (C15).

*Model and proof:* `St.asked`, `Elem.resyncSet`, `DomOp.askResync` in `Model/Domain.lean`, `Model/DomainHistory.lean`.

*Status:* proved. A subsystem is modelled as one that keeps its request until `needResync(true)`; a subsystem that answers otherwise is not modelled.

*Theorems:* `C67_resynchronised`, `C67_answered_once`, `C67_request_only`, `C67_nothing_else`, `C67_start`.

### C68 Values never depend on what the hardware answers or on when it is synchronised

*Plan:* Each operation commutes with forgetting the log, the requests and the automatic synchronisation (`DomOp.step_quiet`, `MOp.step_quiet`), then induction over the history.

*Model and proof:* All of `Model/Manager.lean`; `Spec/Resync.lean` says what same values are.

*Status:* proved.

*Theorems:* `C68_values_independent`, `C68_reads_independent`.

### C69 Floating-point parameters accept exactly the finite values of their range and store the nearest single-precision number

*Plan:* Prove the integer rounding nearest, then acceptance and memory by cases on the conversion functions; the printed digits by division with remainder.

*Model and proof:* FloatType, f32OfDbl, f32ToDbl, f32Text

*Status:* proved. IEEE 754 binary32 is defined in Spec/FloatingPoint.lean by its value formula; the conversions are computed with integers and proved to be round to nearest, ties to even. What the stream library reads a decimal text as is a parameter of the theorem. Double negative zero is not told from zero. C69_double_above_max: the range check is on the rounded number. C69_default_out_of_range: the initial value is zero whatever the range.

*Theorems:* `C69_raw_text`, `C69_real_text`, `C69_double`, `C69_special`, `C69_get_then_set`, `C69_text_read`, `C69_double_above_max`, `C69_default_out_of_range`.

### C70 The text of a floating-point parameter can be set again

*Plan:* Compose what is shown with what is accepted.

*Model and proof:* FloatType.fromText, FloatType.toText, showbaseHex, f32Text

*Status:* partial. Not true in general: C70_text_above_max (real space shows six digits, so that a parameter at its maximum can show a text above the maximum, which is refused) and C70_hex_text_of_small_numbers (raw hexadecimal texts are padded before the 0x prefix, so that the smallest positive number shows as 000000x1). Proved for raw decimal texts, for raw hexadecimal texts of zero and of bit patterns of at least 2^20, and for real texts of the numbers that are nearest to their six digits, given a stream library that rounds to nearest.

*Theorems:* `C70_raw_round_trip_partial`, `C70_hex_text_of_small_numbers`, `C70_real_round_trip_partial`, `C70_text_above_max`.

### C71 Structure documents that keep the rules are loaded

*Plan:* Induction over the declarations for the first pass (each is read without error), then over the elements they declare for the second pass; the result is fixed by C57.

*Model and proof:* The loader of C56 and C57.

*Status:* proved. The rules are in Spec/StructureAccept.lean. They are sufficient, not necessary: the code accepts more (it ignores unknown attributes, for instance).

*Theorems:* `C71_accepted`, `C71_loaded`.

### C72 Listings of the structure are exact

*Plan:* The positions at and below an element form a list in lexicographic order (induction over the tree); the listing without children is a filter of it, the dump a map of it. The values are those of `getParameter` because the path of an element leads back to it (C31).

*Model and proof:* Listing, Tree

*Status:* proved. Elements without children that are not parameters are listed by `listParameters` too: C72_empty_component_listed. The dump theorem needs names without slashes and distinct between brothers.

*Theorems:* `C72_elements`, `C72_parameters`, `C72_nothing_designated`, `C72_paths_lead_back`, `C72_size`, `C72_dump`, `C72_empty_component_listed`.

### C73 Listings of the domains of elements are exact

*Plan:* Invariants over all histories: the associations kept by the elements are those of the domains, without repetition, and two elements of a domain are never one above the other. The set of gathered elements is sorted by address, hence without repetition.

*Model and proof:* Listing, Domain, Handle

*Status:* proved. The order of the elements in the two listings of elements is that of their addresses; it is a parameter of the model.

*Theorems:* `C73_belonging`, `C73_associated`, `C73_nothing_designated`, `C73_associated_elements`, `C73_conflicting`, `C73_every_conflict_listed`.

### C74 The status tells what is applied and what is pending

*Plan:* From the invariants of the reachable states (last applied configuration, rules) and C11 for the effect of an application.

*Model and proof:* Listing, Domain, Manager

*Status:* proved.

*Theorems:* `C74_domains`, `C74_configurations`, `C74_domain_elements`, `C74_last_and_pending`, `C74_pending_applied`, `C74_always_answered`, `C74_status`.

### C75 C API: criteria are exactly those declared at the start

*Plan:* Induction over the values, over the declarations, and over the events after the start.

*Model and proof:* CApi: createCriteria, pfwStart and the calls, over the model of the start of the manager.

*Status:* proved.

*Theorems:* `C75_start_outcome`, `C75_criteria`, `C75_get_last_set`.

### C76 C API: calls out of order are refused, not fatal

*Plan:* Invariant over the reachable handlers; a case analysis per call.

*Model and proof:* CApi: the handler with its status, the calls, `PfwReachable`.

*Status:* partial. Not for all orders: after a start that failed, applying configurations or binding a parameter stops the program (assertions of the connector), witness `C76_stops_after_failed_start`. Reading the text of a string parameter relies on its memory having an end (C39). Handles that were unbound, null arguments and the destruction of the handler are not modelled.

*Theorems:* `C76_before_start`, `C76_one_start`, `C76_last_error`, `C76_manager`, `C76_parameters_kept`, `C76_apply`, `C76_no_stop_partial`, `C76_stops_after_failed_start`.

### C77 C API: parameters read as they were set, and only outside of domains

*Plan:* From the theorems about handles (C49, C55), on the manager that the handler holds.

*Model and proof:* CApi: bind, get and set through handles.

*Status:* partial. For integers the theorem needs that the type shows its numbers as signed integers (`Faithful`, see C55): unsigned 32 bit parameters show and take numbers modulo 2^32.

*Theorems:* `C77_bind`, `C77_int_partial`, `C77_string`, `C77_in_domain`, `C77_no_tuning_mode`.

### C78 The exported structure of an element describes it

*Plan:* Export modelled as a tree of tags and attributes for every kind of element; C78_describes by induction on the position against the specification of declarations of C57; C78_reload_partial by induction on the structure through the loader and instantiation; two theorems for what is lost.

*Model and proof:* StructureExport, Structure

*Status:* partial. The code violates the full claim: the size of bit parameter blocks is not exported, so that their export is refused when loaded (C78_bit_blocks_refused), and the bounds of floating-point parameters have six decimals (C78_float_bounds_lost). Mapping data, descriptions and units are not in the model of the export; components come back as blocks.

*Theorems:* `C78_describes`, `C78_reload_partial`, `C78_bit_blocks_refused`, `C78_float_bounds_lost`.

### C79 An integer parameter with an adaptation is set and read as the real number its slope and offset give

*Plan:* Doubles as rational numbers with rounding to 53 significant bits; out of range casts and overflows are a distinct outcome; nearest-number specification, error bounds and monotony of rounding.

*Model and proof:* Adaptation

*Status:* partial. Setting, its accuracy (less than one unit plus 2^-16), monotony, reading, the floor and the documents are proved. The code violates the rest: reading then setting may store another integer (slope 49), numbers of 2^63 or more are undefined behaviour instead of refused, a logarithmic adaptation without floor value is undefined behaviour at every set, and a zero numerator is accepted in documents. Reading back is proved when reading takes no rounding, in particular for numerator 1 and small integer denominators. log and exp are left open.

*Theorems:* `C79_read_back_wrong`, `C79_set`, `C79_get`, `C79_accuracy`, `C79_exact`, `C79_monotone`, `C79_defined`, `C79_read_back_partial`, `C79_read_back_unit_partial`, `C79_floor`, `C79_default_floor_undefined`, `C79_refused`, `C79_loaded`, `C79_zero_numerator`, `C79_large_undefined`, `C79_declaration_accepted`.

### C80 Every plugin that can be loaded is loaded, whatever the order in which plugins are named

*Plan:* Loading as passes over a list with an open linker; sound and complete with respect to an inductive definition of what is loadable.

*Model and proof:* Plugins

*Status:* partial. Proved for plugins whose entry points do not throw. The code violates the rest: the library of a plugin whose entry point throws stays in memory, and a plugin that it allows to open can be left out; the fallback builder of an earlier loading is not removed by a later one without fallback. The linker is left open, monotone in the libraries in memory.

*Theorems:* `C80_terminates`, `C80_exact_partial`, `C80_order_free`, `C80_builders`, `C80_not_loaded_after_throw`, `C80_fallback_stays`, `C80_files`.

### C81 A system described in several files is the system described in one

*Plan:* `Disk` leaves names and documents open; `loadSubsystemFiles` is the loop of `CElement::fromXml` with inclusions; the specification `Inlined` relates the children of the structure file to those of the single document. Induction over `Inlined`, equality of results for every fuel; converse by induction over the loop.

*Model and proof:* Model/Framework, Spec/Framework

*Status:* proved. Inclusions are those of subsystems in the structure file, the only builder of inclusions (ParameterMgr.cpp:2740-2830). XInclude is done by libxml2 and is part of the open function from names to documents.

*Theorems:* `C81_same`, `C81_only`, `C81_missing`.

### C82 The framework starts exactly when its files allow it

*Plan:* `startFramework` composes the models of C56-C60 (structure), C80 (plugins), C66 (settings, defaults, first application) with that of the framework configuration. The specification `Starts` is stated on the documents. Equivalence by inversion of each part; monotonicity in the number of nested calls for determinacy; induction over operations for tuning.

*Model and proof:* Model/Framework, Spec/Framework

*Status:* partial. Proved: acceptance as an equivalence, determinacy, validation, the denial of tuning, and which starts throw. False in the code: an attribute of the root that does not convert throws out of `start` (C82_throws_on_port); an element called like the plugins but of another class is used as if it were them (C82_undefined_on_plugins). The link with reachable states needs the hypotheses of C58 and C66.

*Theorems:* `C82_starts`, `C82_determined`, `C82_threw`, `C82_validated`, `C82_reachable_partial`, `C82_denied`, `C82_missing_plugins_partial`, `C82_throws_on_port`, `C82_undefined_on_plugins`.

### C83 Commands and sessions are always answered

*Plan:* `StringsEnd` (every string has a NUL in its memory) is shown to be kept by every operation, by cases on the operations, through areas, configurations and domains. Under it every read and export is total, by induction over the tree. Commands are reduced to operations, reads and exports by C47, operations that stop to C18. Sessions by induction.

*Model and proof:* Spec/Answer, Model/Command, Model/Manager, Model/DomainHistory

*Status:* partial. Proved: answers for every command and session outside four exceptions, and that strings end after every operation but the writing of bytes by a handle. False in the code, each with a proved witness: bytes without NUL written by a handle make reads and exports run outside the blackboard; a 32-bit enumeration in raw hexadecimal is an undefined shift; setElementBytes with a byte, setSequenceAwareness without a value and some rule texts (C07) stop the program. Imported documents must have the shape of the schema (C64).

*Theorems:* `C83_documents_partial`, `C83_parameter_partial`, `C83_reads_partial`, `C83_operations`, `C83_command_partial`, `C83_strings_kept`, `C83_strings_end`, `C83_command_strings`, `C83_session_partial`, `C83_string_without_end_stops`, `C83_wide_enumeration_stops`, `C83_fatal_commands_stop`.

### C84 Backups made by commands restore what was saved

*Plan:* The commands are reduced to operations and exports by C47; the session keeps the file and reachability by induction; the round trip is C63 or C53 between the reachable state that was saved and the reachable state in which it is restored. The effect of leaving the tuning mode is C14 on the restored domains, transported to the saved ones.

*Model and proof:* Spec/Backup, Model/Command, Model/XmlDomains, Model/Manager

*Status:* partial. Values are exported in the real value space, or in the raw one without negative numbers of enumerations, names of configurations are not empty, rules have one value per criterion that a text carries, and the XML library reads back the exported document (C06, C53, C63 show what fails otherwise).

*Theorems:* `C84_file_kept`, `C84_backup_partial`, `C84_text_partial`, `C84_one_partial`, `C84_element_partial`, `C84_applied`.

### C85 Settings are the same after a restart

*Plan:* The start imports the document into the state after back synchronisation (C66) and the round trip of documents (C63) holds for any target state; the first application then gives the values (C12). The identical document is proved by induction over the structure and the lists of the document.

*Model and proof:* `XmlDomains`, `Start`, `Framework`, `Manager`

*Status:* partial. Proved under the conditions without which exports lose something (see C63): named configurations, rules the documents can express, settings whose texts carry their values, and no negative numbers of enumerations if the raw value space is on. The values of parameters also need that strings end in their space, which is proved for simulated back synchronisation and assumed with hardware that fills memory.

*Theorems:* `C85_restart_partial`, `C85_values_partial`, `C85_same_document_partial`, `C85_strings`, `C85_files_partial`.

### C86 The client program does what the command does

*Plan:* The request is received as it was sent but for white space (C45), the handler is the same as the local one, and the answer is received as it was sent; scripts by induction.

*Model and proof:* `Client`, `Message`, `Command`

*Status:* proved. For texts of less than 4 GiB and answers without NUL. White space at the ends of the command is dropped by the server but not by the local handler; the theorem says so.

*Theorems:* `C86_client`, `C86_status`, `C86_script`.

### C87 The documents that describe criteria and structures are faithful

*Plan:* Each part of the document is compared with what it describes; the numbers are read back from their digits.

*Model and proof:* `Command` (`Criterion.toXml`, `criteriaXml`, `SXml.xml`)

*Status:* proved.

*Theorems:* `C87_criterion`, `C87_criteria`, `C87_faithful`, `C87_structure`.

### C88 Exported domains are valid for the shipped schemas

*Plan:* The schemas are a separate specification, type by type, with the patterns of values as regular expressions. Induction over elements, rules, configurations and domains of a reachable state; keys from C20 and C31. Converse: valid documents have the shape that C64 and C66 need.

*Model and proof:* Spec/Schema.lean (schemas), Model/XmlDomains.lean (exports)

*Status:* partial. Proved under conditions each of which is shown to be needed: there is a domain, each domain has a configuration, names are names of the schemas, elements are parameters, blocks or components (a whole subsystem is exported under a tag the schemas do not know), floating-point numbers are not minus zero, and not small when shown raw and hexadecimal. The converse is proved outright.

*Theorems:* `C88_valid_partial`, `C88_valid_one_partial`, `C88_shape`, `C88_configurations`, `C88_regular`, `C88_no_stop`.

### C89 The domain generator writes what the commands made, and its status counts what went wrong

*Plan:* C89_script: the tokenizer and the lines give the commands back. C89_generates: induction over criteria and commands. C89_verdict by C73; C89_written_partial by C83; C89_settings_partial by C85.

*Model and proof:* Model.Generator

*Status:* partial. Missing: commands before the start and a second start are not modelled. The document is always written under the hypotheses of C83 (strings end, formats fit), and restarts under those of C85 (storable values). Status 1 does not tell one refused command with a document from a failure without one.

*Theorems:* `C89_script`, `C89_generates`, `C89_criteria`, `C89_status`, `C89_conflicts`, `C89_reachable`, `C89_verdict`, `C89_written_partial`, `C89_settings_partial`.

### C90 The platform connector keeps its policies and criteria as requested, and what it starts is what was asked

*Plan:* Every command is shown to have one of a few effects; histories by induction over the requests. Start by C82, states and values by the specification of the words of a request, the running system by C66/C82 and the steps of the manager.

*Model and proof:* Model/Platform, Spec/Platform

*Status:* partial. Histories, policies, start, creation, states and the running system are proved. Missing in C90_session_partial: the hypotheses of C58 and C66 on the structure and settings documents (sizes that the schema asks for, regular settings), and a second start, which is left open. Findings, proved: getSchemaUri answers Done instead of the folder; a state given as a number is not checked against the values; a count that is no number creates a criterion without values; the second of two criteria of the same name can never be set by name.

*Theorems:* `C90_refused`, `C90_policy`, `C90_policy_refused`, `C90_history`, `C90_start`, `C90_start_policies`, `C90_state`, `C90_state_unknown`, `C90_create`, `C90_create_late`, `C90_create_count`, `C90_apply`, `C90_running`, `C90_session_partial`, `C90_literals`, `C90_schemas_untold`, `C90_number_unchecked`, `C90_count_unchecked`, `C90_same_name`.

### C91 A plugin object only touches its own element, and a failed reading leaves the default values

*Plan:* Plugin code as a tree of reads, writes and decisions; a tape specification for the memory of one element; simulation of the tape by the blackboard by induction on the code; default values from the induction on the element tree.

*Model and proof:* `Model/PluginObject.lean`

*Status:* partial. Proved for code that stays within its element. The code does not see to it: C91_overrun shows code that reads and changes its neighbours. toPlainInteger does not extend the sign of enumerations (C91_enum_not_extended), and the skeleton as shipped writes bytes that were never set and reports success, and is undefined for elements other than parameters (C91_skeleton_junk). Code that keeps pointers from getBlackboardLocation is not modelled.

*Theorems:* `C91_ends`, `C91_own_memory`, `C91_send`, `C91_receive`, `C91_received`, `C91_plain_object`, `C91_plain_integer`, `C91_skeleton`, `C91_overrun`, `C91_enum_not_extended`, `C91_skeleton_junk`.

### C92 Descriptions of domains are translated to what they say

*Plan:* Model the reading of lines, propagation and translation. Specify, on the tree of lines, ways down to configurations and the rules and settings along them. Show by induction on the tree that propagation accumulates these, and that the text made of rules is in the language of C93.

*Model and proof:* Model/Edd, Spec/Edd, Spec/RuleText

*Status:* proved. What is accepted is characterised too. Witnesses show what descriptions cannot say: criteria whose name starts with ALL or ANY, configurations in groups outside of domains and components of groups (dropped without a word), words after the value of a rule.

*Theorems:* `C92_domains`, `C92_configurations`, `C92_rules`, `C92_values`, `C92_elements`, `C92_sequences`, `C92_order`, `C92_once`, `C92_accepted`, `C92_criterion_taken_for_operator`, `C92_configuration_outside_domain_dropped`, `C92_component_of_group_dropped`, `C92_awareness_misspelt`, `C92_sequence_not_in_order`, `C92_words_after_value`.

### C93 The language of application rules has one meaning, with any spacing

*Plan:* Specify texts of rules by an inductive relation; prove by mutual induction that the parser, on such a text, goes through it and leaves the rule.

*Model and proof:* Model/RuleParser, Spec/RuleText

*Status:* partial. Acceptance, meaning and unambiguity are proved. The refusal of other texts is false: words after a value or a closing brace are dropped, and of several rules at top level the last one is kept; see the witnesses.

*Theorems:* `C93_text_is_read_as_said_partial`, `C93_unambiguous`, `C93_words_after_value_dropped`, `C93_last_of_several`, `C93_trailing_space`.

### C94 Descriptions of domains are read as they are written

*Plan:* Show that the stack of open elements always flattens to the lines read so far, and conversely that the lines of a tree are accepted; for lines, that what is written for an element is recognised as this element.

*Model and proof:* Model/Edd, Spec/Edd, Spec/EddText

*Status:* proved. Witnesses show lines that are not what they look like: comments after spaces, names with an equal sign, rules with more words.

*Theorems:* `C94_read_iff`, `C94_written_is_read`, `C94_ignored`, `C94_trailing_spaces`, `C94_comment_after_spaces`, `C94_equal_sign_in_name`, `C94_rule_with_more_words`.

### C95 A description becomes the domains that it describes

*Plan:* Induction along the list of commands that C92 and C89 describe: each accepted command extends the last domain or its last configuration; rules by C92's meaning of the rule text, settings by the lemmas of C28 on stored values.

*Model and proof:* Model/Edd, Model/Generator, Model/Message, Model/Domain*; Spec/EddBuilt (DescriptionBuilt)

*Status:* proved. For descriptions whose words are bytes without white space at their ends (the command processor trims its arguments).  Which descriptions are accepted by the translator is C92; that the framework refuses a command is reported by the generator (C89).

*Theorems:* `C95_built`, `C95_generator`.

### C96 A file of criteria declares the criteria that are written in it

*Plan:* a specification of lines by concatenation, equivalent to the matching for every line; induction over the name's length and over the text for the splitting; induction over the lines

*Model and proof:* CriteriaFile

*Status:* proved. For the semantics of Python 2, which the program needs: it writes texts to a pipe.  White space at the end of a line declares one more value with an empty name (C96_space_at_the_end); see also C96_no_value, C96_colons, C96_empty_line.

*Theorems:* `C96_line`, `C96_determined`, `C96_file`, `C96_refused`, `C96_written`, `C96_space_at_the_end`, `C96_no_value`, `C96_colons`, `C96_empty_line`.

### C97 A configuration changed for a host starts there as the same structure without plugins and settings

*Plan:* the change as a map over documents; attribute lookups after it; then inversion of the start (C82) on the changed document

*Model and proof:* HostConfig

*Status:* partial. The last sentence is partial, as C58 is.  A configuration that names its structure by an absolute path is changed to one that names another file (C97_absolute_path).

*Theorems:* `C97_started`, `C97_tuning`, `C97_reachable_partial`, `C97_absolute_path`.

### C98 The domain generation tool writes the domains that its input files describe

*Plan:* the commands of the tool as the script of C89; C96 for the criteria, C97 for the start, C89 for the session, C95 repeated over the descriptions

*Model and proof:* DomainTool

*Status:* partial. Partial as C58 is: the structure has to declare sizes and fields that do not overlap, which the framework does not check.  The words of descriptions are bytes without white space at their ends; imported documents are regular (see C38).

*Theorems:* `C98_built`, `C98_runs`, `C98_bad_criteria`, `C98_bad_description`, `C98_untranslated`, `C98_whole_partial`, `C98_described_partial`.

### C99 A double set through a handle on an adapted integer is the set of the adapted integer

*Plan:* Reduce a set of a double to the typed set of the integer given by the adaptation, by the equality of the two checks of the range; then reachability and what C79 says carry over.

*Model and proof:* Model/AdaptedHandle.lean

*Status:* proved. Doubles whose conversion is undefined in C++ are a separate outcome (C79).

*Theorems:* `C99_refused`, `C99_same`, `C99_linear`, `C99_history`, `C99_read`, `C99_get`, `C99_array_same`, `C99_array_refused`, `C99_array_access`, `C99_array_get`, `C99_array_history`.

### C100 The properties shown of an element are the ones it obeys

*Plan:* Model every showProperties function as a text, specify the lines of each kind of element, prove the texts equal, and join the lines with the theorems on accepted texts.

*Model and proof:* Properties

*Status:* partial. Proved except for the bounds of integers of one byte: these are shown as characters, never in decimal (C100_one_byte_bounds, witness C100_letters_shown). For enums the values declared fit the size and no literal reads as a number. The bounds of floating-point parameters are shown within half a millionth (C100_float_bounds). The slopes shown of an adaptation are within half a millionth, so that adaptations that convert differently can show the same (C100_slope_hidden).

*Theorems:* `C100_adaptation_declared`, `C100_logarithm_declared`, `C100_adaptation`, `C100_adaptation_exact_partial`, `C100_slope_hidden`, `C100_properties`, `C100_refused`, `C100_integer_bounds_partial`, `C100_one_byte_bounds`, `C100_enum_values`, `C100_string_length`, `C100_bit_maximum`, `C100_letters_shown`, `C100_fixed_notation`, `C100_float_bounds`, `C100_array_length`.

### C101 The mapping shown of an element lists its bindings and its object

*Plan:* Model getMapping over the positions of a subsystem; show that joining the joined texts of levels is joining all bindings; use C43 to know that an object has a creator whose key is the first bound.

*Model and proof:* Verif/Model/ShowMapping.lean

*Status:* proved. The text that an object shows for its value is left open: it belongs to the plugin; subsystems map with at most 32 context keys and no element has a syncer before the mapping, as in C43.

*Theorems:* `C101_shown`, `C101_refused`, `C101_safe`.

## Where the code does not have the property

Each of these was found while proving, and is a theorem about a concrete case unless marked "observed".

* C02: literals that are empty or contain the separator are not read back from an inclusive type.
* C03: state 0 of an inclusive criterion prints `<none>`, which is not a value.
* C06: a rule on a combined inclusive value prints an empty value.
* C07: the parser fails an assertion on texts such as `Any{}, Device Is A `; text after a complete rule replaces it (observed).
* C10: the change counter wraps.
* C11: a forced application in which nothing qualifies forgets the configuration applied last (observed).
* C19: the import of a single domain does not validate its settings against the parameters: elements without settings in the document keep settings that are not valid.
* C20: two domains can both have the empty name; an import accepts two domains of the same name; an overwriting import of a domain named `ConfigurableDomain` deletes a domain without name instead of its namesake.
* C22: the split of a bit block loses the bits that belong to no bit parameter.
* C25, C26: a refused element sequence may have reordered elements; a restoration that meets a hardware error reports a failure although it took place; a refused split is reported as done.
* C29, C30: the loader accepts overlapping bit fields.
* C31: of two brothers with the same name only the first can be reached.
* C34: an unsigned typed access to a parameter whose range has negative values is refused or wrong; a signed read of an unsigned type sign-extends.
* C35: reading a 32-bit enumeration in hexadecimal shifts by 32 bits; the raw decimal text of a negative 32-bit number is refused; numbers shadow literals that look like numbers.
* C37: text that is no number is taken as 0 by a bit parameter; too large numbers saturate; fields above 32 bits are truncated by integer reads.
* C37: `Pos + Size` of a bit parameter wraps on 64 bits: a position near 2^64 is accepted; a size above 64 is an undefined shift (`C37_declaration_wraps`).
* C38: `Integral + Fractional + 1` wraps on 32 bits; `Integral="4294967295"` is accepted, even by the schema.
* C39: raw bytes without NUL make a string read leave its parameter.
* C40: a refused array value leaves its first values written; the read of one element by index ignores the base offset of a configuration's memory; `2nd` is accepted as index 2.
* C43: `MappingContext::getItem(key)` returns the key; more than 32 context keys shift out of an `int` (observed); a bit parameter with a mapping stops (observed).
* C44: amendment keys that are not items of the context read outside; a missing closing quote loses a character (observed).
* C45: a NUL cuts an argument; a command name is trimmed.
* C46: inner lengths are not checked against the data; the size field is outside the checksum; size 0 is an uncaught exception.
* C47: `setSequenceAwareness` declares one argument and reads two; `setElementBytes` writes through an empty vector.
* C48: `renameDomain`, `renameConfiguration`, `setApplicationRule`, `clearApplicationRule` and `setConfigurationParameter` do not check tuning mode.
* C49: `setAsBytes` of a handle checks neither tuning mode nor ownership; an empty list of texts on a parameter that is no array fails an assertion.
* C51: typed sets of handles synchronise although automatic synchronisation is off; a set of a parameter without syncer is written and then reported as failed.
* C52: a syncer below another syncer is not called (C43 shows that mapping does not make such structures).
* C53: a refused import is not undone; a raw export with a negative enumeration number cannot be imported in real value space; the value space of one parameter leaks to the parameters after it.
* C54: `setAs` checks tuning mode and ownership before it takes the mutex; byte and XML accesses take no mutex.
* C56: a component type that contains a component of the same type in a block, or below another component, is accepted and makes the loader recurse without end.
* C57: the tag `InstanceDefinition` is misspelt in the loader, which always takes the last child of a subsystem; the size of an enumeration is not checked without the schema (observed).
* C58: without schema validation an enumeration of size 3 bits (no byte) is loaded; a fixed point number of 2^32 - 1 integral bits is loaded even with it.
* C59: a component type may declare a name that the type it extends declares too; the second child cannot be reached by path.
* C60: an array of blocks or components with a context mapping is refused, because the array and its elements share the mapping data; a parameter without any mapping data above it silently gets no syncer (observed).
* C62: a domain without `Configurations` or `ConfigurableElements` element takes its last child for it, and one without children is a null access (observed); `SequenceAware` that is no Boolean is refused in a document of all domains and is an uncaught exception in a document of one (observed).
* C63: a rule on a combined inclusive value is exported without its value; a configuration without name is exported and then refused.
* C64: a document for another system is refused only after the existing domains have been destroyed.
* C66: with the hardware back synchronisation, a parameter that has no syncer and that no configuration sets starts at zero, even if zero is outside of its range.
* C69: the range of a floating-point parameter is checked on the double rounded to a float, so that a double above `Max` that rounds to it is accepted; the default value 0 is not checked against the range.
* C70: the text of a floating-point parameter has six digits and can be above `Max`, so that it is refused when it is given back; the raw hexadecimal text is padded before its prefix (`000000x1`) and is not a number for small contents.
* C76: after a `pfwStart` that failed, the handler counts as started: `pfwApplyConfigurations` and `pfwBindParameter` then end in an assertion of the connector, and no other start is possible.
* C75: `pfwSetCriterion` accepts numbers that no declared value has.
* C78: the size of a bit parameter block is not exported, so that its export is refused when it is loaded; the bounds of floating-point parameters are exported with six decimals, and bounds below half a millionth become 0; the mapping is not exported (observed).
* C79: setting an adapted parameter to a number whose product with the slope is `2^63` or more casts it to an integer out of range, which is undefined behaviour; a logarithmic adaptation without `FloorValue` casts minus infinity at every set; `SlopeNumerator="0"` is accepted; a parameter read and set again may change (slope 49, value 1).
* C80: the handle of a library is kept before its entry point is called, so that a plugin whose entry point throws stays in memory and is opened again at each pass; a plugin that depends on it may be left out. `clean` does not remove the default builder.
* C82: `TuningAllowed` or `ServerPort` that does not convert makes `start` throw (also through `pfwStart`, which catches nothing) instead of returning an error. The element `SubsystemPlugins` is looked up by name and cast without a check, and so are its children: an element of another class with that name, or a child that is not a `Location`, is undefined behaviour (the schema excludes both, but validation is off by default). A configuration may contain other configurations, which are ignored. A port that cannot be opened makes `start` fail after the settings were applied to the hardware.
- C83: a handle can write bytes without NUL over a string parameter (`setAsBytes` does not look at them); a later get, dump or
  export reads behind the parameter, and behind the blackboard when nothing stops it (`C83_string_without_end_stops`).  An
  enumeration of 32 bits shown in raw hexadecimal shifts by 32 bits, which is undefined (`C83_wide_enumeration_stops`).
- C88: what is exported is not always valid for the shipped schemas, so that, with validation on, the program refuses the file it
  has written: a system without domains; a domain without configuration; a domain with a whole subsystem as element (its settings
  are in an element `Subsystem`); a floating-point parameter that is minus zero (`-0`); floating-point patterns below 2^20 shown
  raw and hexadecimal (`00000000`, `00xfffff`: the padding is put before the prefix).
- C89: the generator accepts two criteria of the same name (rules then see the first one); an inclusive criterion with more than 31
  values shifts into the sign bit and then negates it, which is undefined; a criterion created after the start hits an assertion.
  Status 1 stands both for one error with a document and for a failure without one.
- C90: `getSchemaUri` of the test platform answers `Done` instead of the folder (`C90_schemas_untold`); a state given as a number is not
  checked (`C90_number_unchecked`); a count that is no number creates a criterion without values (`C90_count_unchecked`); the second
  of two criteria of the same name cannot be set by name (`C90_same_name`); the values that `createInclusiveSelectionCriterion` makes are
  named with decimal digits behind `0x` (`State_0x16`); the descriptions of the inclusive and exclusive commands are swapped (observed).
- C91: code of a plugin that goes over more bytes than its element has reads and changes the parameters behind it, and is only stopped
  at the end of the blackboard (`C91_overrun`); `toPlainInteger` does not extend the sign of enumerations (`C91_enum_not_extended`); the
  skeleton writes bytes that were never set, and takes the type of any element for that of a parameter before looking at it
  (`C91_skeleton_junk`).

- **Words after a value are dropped (C93).** `All{Mode Is Idle Device Includes B}` is read as `All{Mode Is Idle}`: after the value the
  parser looks for the next comma or brace, and does not check what is before it. So is text after a closing brace. At top level,
  `All{Mode Is Idle},Any{ }` is read as its last rule (`C93_words_after_value_dropped`, `C93_last_of_several`).
- **Descriptions of domains (C92, C94).** A rule on a criterion whose name starts with `ALL` or `ANY` is taken for an operator and ends
  the generator with a `KeyError` (`C92_criterion_taken_for_operator`). Configurations of groups outside of domains, and components of
  groups, are accepted and dropped. A misspelt `sequenceAware` is dropped. Sequences list what is set through components last.
  Read but not modelled: `PFWScriptGenerator.py` as a program joins a list of lists, which fails on any output; the criteria parser of
  `domainGenerator.py` splits at `\s*`, which since Python 3.7 splits between all characters.
- **Files of criteria (C96).** White space at the end of a line, such as a carriage return, declares one more value with an empty name
  (`C96_space_at_the_end`); a criterion without values has one with an empty name (`C96_no_value`); without white space before the
  colon, a value with a colon becomes a part of the name (`C96_colons`); blank lines and comments are refused (`C96_empty_line`).
- **Configurations for a host (C97).** The directory is put before the path of the structure even if that is absolute
  (`C97_absolute_path`).
* C100: `showProperties` shows the bounds of an integer parameter of 8 bits as characters (IntegerParameterType.h:278-280 writes an `int8_t` or `uint8_t` to a stream): bounds 65 and 90 are shown as `A` and `Z`, a bound 10 as an end of line, and a bound is never shown in decimal (`C100_one_byte_bounds`, `C100_letters_shown`). The error text of a value out of range (IntegerParameterType.h:316-331, not modelled) is written the same way. The slope of an adaptation is shown with six decimals (LinearParameterAdaptation.cpp:51, 56), so that a smaller one is shown as zero (`C100_slope_hidden`).

## Wrong programs

`seeded/LOG.jsonl` has one line per edit of the model. Where a theorem survived an edit that made its claim false, the line names the theorem that was tightened. An edit after which everything still builds is either logged with the reason why no claim is broken, or led to a new theorem.
