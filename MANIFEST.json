{
 "claims": [
  {
   "property": "C01",
   "status": "proved",
   "theorems": [
    "Arti.Props.C01_combine_is_xor",
    "Arti.Props.C01_combine_order_free",
    "Arti.Props.C01_combine_grouping",
    "Arti.Props.C01_combine_identity",
    "Arti.Props.C01_combine_cancels"
   ],
   "note": ""
  },
  {
   "property": "C02",
   "status": "proved",
   "theorems": [
    "Arti.Props.C02_int64_of_plain",
    "Arti.Props.C02_uint64_of_plain",
    "Arti.Props.C02_int64_of_uint64",
    "Arti.Props.C02_uint64_of_int64",
    "Arti.Props.C02_from_hash_total_injective",
    "Arti.Props.C02_from_int_exact"
   ],
   "note": ""
  },
  {
   "property": "C03",
   "status": "partial",
   "theorems": [
    "Arti.Props.C03_operators_are_exact",
    "Arti.Props.C03_unary_operators_are_exact",
    "Arti.Props.C03_round_is_exact",
    "Arti.Props.C03_violated_by_inherited_operators",
    "Arti.Props.C03_inherited_operators_are_exact",
    "Arti.Props.C03_binary_exact",
    "Arti.Props.C03_unary_exact",
    "Arti.Props.C03_bitwise_closed",
    "Arti.Props.C03_uint64_invert_raises"
   ],
   "note": "Violated by the operators inherited from int (witness theorem). Every other operator, also reflected and with round, is exact: it returns the result that a separate specification of integer arithmetic gives, of the right class and in range, or raises. The inherited operators do not wrap either. Left operands of other subclasses of int (bool) are not modelled."
  },
  {
   "property": "C04",
   "status": "proved",
   "theorems": [
    "Arti.Props.C04_depends_on_contents_only",
    "Arti.Props.C04_single_change"
   ],
   "note": ""
  },
  {
   "property": "C05",
   "status": "partial",
   "theorems": [
    "Arti.Props.C05_violated_by_swapped_arguments",
    "Arti.Props.C05_violated_by_equal_contents",
    "Arti.Props.C05_one_changed_partition_partial",
    "Arti.Props.C05_violated_by_stale_output"
   ],
   "note": "Holds when one input partition changes. Violated when two arguments are swapped or two equal contents are replaced by two other equal contents: witnesses, one of them a history in which a stale output is taken for current."
  },
  {
   "property": "C06",
   "status": "partial",
   "theorems": [
    "Arti.Props.C06_names_are_checked",
    "Arti.Props.C06_default_map_partial",
    "Arti.Props.C06_violated_by_inherited_map"
   ],
   "note": "The name check is proved exactly. The default map always passes it for classes whose ancestors are abstract; a class that inherits the generated map of a concrete class and adds a build input is accepted and always raises (violation proved)."
  },
  {
   "property": "C07",
   "status": "proved",
   "theorems": [
    "Arti.Props.C07_semver_documents"
   ],
   "note": "All pairs of SemVer values."
  },
  {
   "property": "C08",
   "status": "partial",
   "theorems": [
    "Arti.Props.C08_same_document_iff_same_content",
    "Arti.Props.C08_skipped_and_excluded_fields_do_not_matter",
    "Arti.Props.C08_declaration_order_does_not_matter",
    "Arti.Props.C08_same_document_same_content_partial",
    "Arti.Props.C08_violated_by_any_fields",
    "Arti.Props.C08_violated_by_type_keys"
   ],
   "note": "Full characterisation up to JSON kinds; strict injectivity for fields with declared types. Violated for fields declared Any (string/date, tuple/frozenset, mapping with the key _arti_type_)."
  },
  {
   "property": "C09",
   "status": "partial",
   "theorems": [
    "Arti.Props.C09_equal_models_equal_fingerprints_partial",
    "Arti.Props.C09_violated_by_mapping_order",
    "Arti.Props.C09_violated_by_enum_items",
    "Arti.Props.C09_violated_by_timezones",
    "Arti.Props.C09_violated_by_copies"
   ],
   "note": "Violated by mapping order, frozenset order and True/1 in Enum.items, timezones, and copies with a cached fingerprint. Partial for values without these."
  },
  {
   "property": "C10",
   "status": "proved",
   "theorems": [
    "Arti.Props.C10_lookup_last",
    "Arti.Props.C10_eq_iff_same_lookups",
    "Arti.Props.C10_eq_hash"
   ],
   "note": ""
  },
  {
   "property": "C11",
   "status": "partial",
   "theorems": [
    "Arti.Props.C11_or_right_wins_partial",
    "Arti.Props.C11_ror_left_wins",
    "Arti.Props.C11_right_wins_violated"
   ],
   "note": "dict | frozendict is left-biased; negation proved with a witness."
  },
  {
   "property": "C12",
   "status": "proved",
   "theorems": [
    "Arti.Props.C12_closed_never_changes"
   ],
   "note": ""
  },
  {
   "property": "C13",
   "status": "proved",
   "theorems": [
    "Arti.Props.C13_write_once",
    "Arti.Props.C13_holds_unique"
   ],
   "note": ""
  },
  {
   "property": "C14",
   "status": "proved",
   "theorems": [
    "Arti.Props.C14_holds_of_lookup",
    "Arti.Props.C14_read_after_write_and_frame"
   ],
   "note": ""
  },
  {
   "property": "C15",
   "status": "proved",
   "theorems": [
    "Arti.Props.C15_walk_enumerates"
   ],
   "note": ""
  },
  {
   "property": "C16",
   "status": "proved",
   "theorems": [
    "Arti.Props.C16_membership_pure"
   ],
   "note": ""
  },
  {
   "property": "C17",
   "status": "partial",
   "theorems": [
    "Arti.Props.C17_failed_assignment_partial",
    "Arti.Props.C17_failed_assignment_violated"
   ],
   "note": "Holds for single values; a mapping assigned at once can be stored in part before the error. Negation proved with a witness."
  },
  {
   "property": "C18",
   "status": "partial",
   "theorems": [
    "Arti.Props.C18_partial_format_partial",
    "Arti.Props.C18_formatting_twice_partial",
    "Arti.Props.C18_violated_by_leading_zeros"
   ],
   "note": "Missing: brace escapes, values substituted under an attribute, index or spec. Formatting twice equals formatting once for values that are free of braces. The witness shows that a numeric index with leading zeros is not kept textually."
  },
  {
   "property": "C19",
   "status": "partial",
   "theorems": [
    "Arti.Props.C19_resolution_order_partial",
    "Arti.Props.C19_resolved_text_partial",
    "Arti.Props.C19_names_graph_format_type_partial",
    "Arti.Props.C19_violated_by_key_names",
    "Arti.Props.C19_violated_by_repetition",
    "Arti.Props.C19_violated_by_separators"
   ],
   "note": "Proved for every order of the five resolutions on templates without empty segments at the joins (stated class). Witnesses show that outside the class the order matters."
  },
  {
   "property": "C20",
   "status": "proved",
   "theorems": [
    "Arti.Props.C20_distinct_partitions_have_distinct_paths",
    "Arti.Props.C20_distinct_partitions_have_distinct_ids",
    "Arti.Props.C20_needs_delimiters"
   ],
   "note": "Both LocalFile paths and StringLiteral ids; C20_needs_delimiters shows that the hypothesis on delimiters is needed."
  },
  {
   "property": "C21",
   "status": "proved",
   "theorems": [
    "Arti.Props.C21_discovers_what_was_written",
    "Arti.Props.C21_needs_clean_directory",
    "Arti.Props.C21_directories_of_partitions_do_not_fit",
    "Arti.Props.C21_other_directories_do_not_matter",
    "Arti.Props.C21_needs_no_directories_of_its_form"
   ],
   "note": "LocalFile discovery over files given by path, for templates whose placeholders are delimited and identify the key (one field class). Witnesses show why no other file or directory may have the template's form."
  },
  {
   "property": "C22",
   "status": "partial",
   "theorems": [
    "Arti.Props.C22_one_class_for_all_fields",
    "Arti.Props.C22_own_class_partial",
    "Arti.Props.C22_violated_by_mixed_classes"
   ],
   "note": "violated by keys of several field classes: all fields get one class; proved when one class is declared"
  },
  {
   "property": "C23",
   "status": "partial",
   "theorems": [
    "Arti.Props.C23_violated_for_every_date_key",
    "Arti.Props.C23_one_class_partial"
   ],
   "note": "violated for every type partitioned by a date, whatever the names and files; proved for the default template when all keys have one class that is not a date"
  },
  {
   "property": "C24",
   "status": "proved",
   "theorems": [
    "Arti.Props.C24_dates_exist",
    "Arti.Props.C24_all_and_only_dates",
    "Arti.Props.C24_padding",
    "Arti.Props.C24_components_roundtrip",
    "Arti.Props.C24_other_components_rejected",
    "Arti.Props.C24_class_and_validity"
   ],
   "note": ""
  },
  {
   "property": "C25",
   "status": "partial",
   "theorems": [
    "Arti.Props.C25_fingerprint_iff_placeholder",
    "Arti.Props.C25_fingerprint_iff_placeholder_literal",
    "Arti.Props.C25_keys_partial",
    "Arti.Props.C25_matching_is_accepted",
    "Arti.Props.C25_violated_by_surplus_names",
    "Arti.Props.C25_violated_by_wrong_class"
   ],
   "note": "The fingerprint half holds for all storages. The key half is violated (surplus names, wrong classes); proved instead: emptiness agrees, mentioned components exist, and matching keys are accepted."
  },
  {
   "property": "C26",
   "status": "partial",
   "theorems": [
    "Arti.Props.C26_no_value",
    "Arti.Props.C26_refuses_fingerprints",
    "Arti.Props.C26_refuses_partitioned",
    "Arti.Props.C26_value_partial",
    "Arti.Props.C26_violated_by_braces"
   ],
   "note": "All branches hold except that a set value containing braces is taken for a template (witness); proved for brace-free ids and values."
  },
  {
   "property": "C27",
   "status": "proved",
   "theorems": [
    "Arti.Props.C27_order_respects_dependencies",
    "Arti.Props.C27_succeeds_iff_acyclic",
    "Arti.Props.C27_producer_after_input_producers"
   ],
   "note": ""
  },
  {
   "property": "C28",
   "status": "proved",
   "theorems": [
    "Arti.Props.C28_graphs_are_acyclic"
   ],
   "note": ""
  },
  {
   "property": "C29",
   "status": "proved",
   "theorems": [
    "Arti.Props.C29_order_is_irrelevant",
    "Arti.Props.C29_single_change"
   ],
   "note": ""
  },
  {
   "property": "C30",
   "status": "proved",
   "theorems": [
    "Arti.Props.C30_succeeds_iff_all_raw_data_exists",
    "Arti.Props.C30_failure_changes_nothing",
    "Arti.Props.C30_raises_without_data",
    "Arti.Props.C30_links_exactly_the_raw_partitions",
    "Arti.Props.C30_new_snapshot_links",
    "Arti.Props.C30_raw_data_is_not_written_through_a_snapshot",
    "Arti.Props.C30_raw_partitions_of_a_snapshot_stay"
   ],
   "note": ""
  },
  {
   "property": "C31",
   "status": "proved",
   "theorems": [
    "Arti.Props.C31_unsealed_graphs_cannot_be_used",
    "Arti.Props.C31_sealed_graphs_can_be_used",
    "Arti.Props.C31_no_snapshots_of_graphs_never_closed",
    "Arti.Props.C31_one_graph_at_a_time",
    "Arti.Props.C31_at_most_one_open",
    "Arti.Props.C31_leaving_closes",
    "Arti.Props.C31_reopened_graphs_can_be_tagged"
   ],
   "note": "histories of graph objects, with blocks and uses; a graph that is entered again keeps its snapshots usable (C31_reopened_graphs_can_be_tagged), which the claim does not exclude"
  },
  {
   "property": "C32",
   "status": "partial",
   "theorems": [
    "Arti.Props.C32_entered_once_partial",
    "Arti.Props.C32_violated_dependencies_never_change",
    "Arti.Props.C32_violated_by_reentering"
   ],
   "note": "violated by entering a graph again: the dependencies never change after the graph was first left; proved for graphs entered once"
  },
  {
   "property": "C33",
   "status": "proved",
   "theorems": [
    "Arti.Props.C33_read_returns_last_accepted_write",
    "Arti.Props.C33_write_refused_iff",
    "Arti.Props.C33_other_calls_do_not_matter",
    "Arti.Props.C33_only_tagging_changes_tags"
   ],
   "note": ""
  },
  {
   "property": "C34",
   "status": "proved",
   "theorems": [
    "Arti.Props.C34_read_returns_exactly_what_is_known",
    "Arti.Props.C34_nothing_is_removed"
   ],
   "note": ""
  },
  {
   "property": "C35",
   "status": "proved",
   "theorems": [
    "Arti.Props.C35_read_returns_exactly_what_was_linked",
    "Arti.Props.C35_nothing_is_unlinked",
    "Arti.Props.C35_other_snapshots_are_unaffected"
   ],
   "note": ""
  },
  {
   "property": "C36",
   "status": "partial",
   "theorems": [
    "Arti.Props.C36_first_read_finds_existing_output_partial",
    "Arti.Props.C36_violated_after_another_read",
    "Arti.Props.C36_violated_by_a_needless_build"
   ],
   "note": "Holds for the first read of a storage since the backend was created; violated for later reads with other fingerprints: witnesses."
  },
  {
   "property": "C37",
   "status": "partial",
   "theorems": [
    "Arti.Props.C37_rejected_outputs_change_nothing",
    "Arti.Props.C37_rejected_outputs_are_never_stored",
    "Arti.Props.C37_success_means_validated_partial",
    "Arti.Props.C37_violated_by_wrong_number_of_outputs"
   ],
   "note": "Outputs that validate_outputs rejects are never stored, for any number of outputs and in every history. A wrong number of outputs raises only after the earlier outputs were written: witness in the violated theorem."
  },
  {
   "property": "C38",
   "status": "proved",
   "theorems": [
    "Arti.Props.C38_rebuild_changes_nothing"
   ],
   "note": ""
  },
  {
   "property": "C39",
   "status": "proved",
   "theorems": [
    "Arti.Props.C39_every_mapped_partition_is_linked",
    "Arti.Props.C39_single_output_is_complete"
   ],
   "note": ""
  },
  {
   "property": "C40",
   "status": "partial",
   "theorems": [
    "Arti.Props.C40_interrupted_build_can_be_resumed_partial",
    "Arti.Props.C40_violated_by_two_outputs"
   ],
   "note": "Violated for producers with several outputs (witness theorem). For producers with one output, in any history: any number of interrupted attempts, restarts and other builds, then a complete run gives what an uninterrupted build gives. A file write is one atomic effect."
  },
  {
   "property": "C41",
   "status": "partial",
   "theorems": [
    "Arti.Props.C41_only_mapped_partitions_are_linked_partial",
    "Arti.Props.C41_known_partitions_have_fingerprints",
    "Arti.Props.C41_violated_by_empty_map"
   ],
   "note": "Proved when map returns at least one partition. With an empty map all known partitions are linked: witness in the violated theorem."
  },
  {
   "property": "C42",
   "status": "partial",
   "theorems": [
    "Arti.Props.C42_incremental_build_is_evaluation_partial",
    "Arti.Props.C42_reading_returns_the_evaluated_value",
    "Arti.Props.C42_incremental_build_equals_clean_build_partial",
    "Arti.Props.C42_no_clash_if_fingerprints_do_not_collide",
    "Arti.Props.C42_violated_by_raw_data_that_changes_before_the_build",
    "Arti.Props.C42_linked_partitions_hold_outputs_partial",
    "Arti.Props.C42_several_outputs_build_is_evaluation_partial",
    "Arti.Props.C42_several_outputs_build_equals_clean_build_partial",
    "Arti.Props.C42_violated_by_reading_one_output_first",
    "Arti.Props.C42_violated_by_literal_output"
   ],
   "note": "Full evaluation proved for histories over graphs whose producers have one output, and, for any number of outputs, for histories that do not separate the outputs of a producer (no failed or interrupted builds, no reads of produced artifacts before the first build of a process, restarts that keep or lose the outputs of a producer together, outputs in files). Each of these conditions is needed: violated (witnesses) by interruption, by reading one output first and by an output in a literal. In any history, each linked partition holds the accepted output of build for the dependency it is linked for. A snapshot must be built while the raw data that it was taken of is there: violated otherwise (C42_violated_by_raw_data_that_changes_before_the_build)."
  },
  {
   "property": "C43",
   "status": "proved",
   "theorems": [
    "Arti.Props.C43_executor_lists_nodes_once",
    "Arti.Props.C43_result_does_not_depend_on_order",
    "Arti.Props.C43_condition_holds_in_every_history",
    "Arti.Props.C43_executor_gives_the_same_as_any_order",
    "Arti.Props.C43_violated_by_shared_storages",
    "Arti.Props.C43_executor_uses_a_schedule",
    "Arti.Props.C43_new_snapshot_is_valid",
    "Arti.Props.C43_result_does_not_depend_on_order_partial",
    "Arti.Props.C43_success_does_not_depend_on_order_partial",
    "Arti.Props.C43_built_snapshot_is_valid",
    "Arti.Props.C43_snapshots_stay_valid"
   ],
   "note": "All orders that respect the dependencies, producers with any number of outputs, any starting state of a history: same success, files, known partitions, links, reads and calls per producer, if different producers have separate storages and files (shown to be needed by C43_violated_by_shared_storages) and map chooses from the partitions it is given. The two _partial theorems cover producers with one output under weaker conditions on storages."
  },
  {
   "property": "C44",
   "status": "partial",
   "theorems": [
    "Arti.Props.C44_linked_partitions_stay_partial",
    "Arti.Props.C44_reading_is_stable_if_nothing_is_linked_partial",
    "Arti.Props.C44_violated_by_two_outputs",
    "Arti.Props.C44_reading_a_snapshot_is_stable_partial",
    "Arti.Props.C44_violated_for_raw_artifacts",
    "Arti.Props.C44_several_outputs_reading_a_snapshot_is_stable_partial"
   ],
   "note": "Violated for raw artifacts and for producers with two outputs (witness theorems). For produced artifacts: reading through the snapshot gives the same value after any admitted operations while the backend lives, for producers with one output in every history and for any number of outputs in histories that keep the outputs together. For any number of outputs in every history: linked partitions stay linked with their content, and reading is stable unless partitions are linked in between."
  },
  {
   "property": "C45",
   "status": "partial",
   "theorems": [
    "Arti.Props.C45_outputs_are_listed_by_position",
    "Arti.Props.C45_output_is_written_to_its_artifact_partial",
    "Arti.Props.C45_violated_by_a_missing_output",
    "Arti.Props.C45_violated_by_two_artifacts"
   ],
   "note": "Violated when only some outputs of a producer are in the graph and when an output is bound to two artifacts (witness theorems). Otherwise each value that build returns is encoded for, stored under and linked to the artifact at its position."
  },
  {
   "property": "C46",
   "status": "proved",
   "theorems": [
    "Arti.Props.C46_no_partitions",
    "Arti.Props.C46_several_partitions",
    "Arti.Props.C46_partitioned_read_concatenates",
    "Arti.Props.C46_unpartitioned_read",
    "Arti.Props.C46_set_literals_cannot_be_written",
    "Arti.Props.C46_reader_wants_one_partition",
    "Arti.Props.C46_write_then_read"
   ],
   "note": ""
  },
  {
   "property": "C47",
   "status": "partial",
   "theorems": [
    "Arti.Props.C47_violated_by_nested_types",
    "Arti.Props.C47_highest_priority_match_converts",
    "Arti.Props.C47_one_winner",
    "Arti.Props.C47_extended_systems_only_without_match",
    "Arti.Props.C47_extended_systems_are_not_consulted_on_match",
    "Arti.Props.C47_no_match_raises",
    "Arti.Props.C47_raises_iff_no_match_partial",
    "Arti.Props.C47_registration_order",
    "Arti.Props.C47_registered_iff_distinct_keys"
   ],
   "note": "Selection is proved for all registries. \"They raise iff none matches\" is proved at the top level; a match can still raise when a nested type has no adapter (C47_violated_by_nested_types)."
  },
  {
   "property": "C48",
   "status": "partial",
   "theorems": [
    "Arti.Props.C48_roundtrip_widens_partial",
    "Arti.Props.C48_roundtrip_identity_on_widened",
    "Arti.Props.C48_widened_once",
    "Arti.Props.C48_enums_hold_values_of_their_type",
    "Arti.Props.C48_only_variadic_tuples",
    "Arti.Props.C48_violated_by_nullable_null",
    "Arti.Props.C48_violated_by_null_fields",
    "Arti.Props.C48_violated_by_boolean_items",
    "Arti.Props.C48_violated_by_mixed_items"
   ],
   "note": "Proved for all types in Spec.Supported, nested to any depth. Violated outside: nullable Null, structs with Null fields, enums whose items are of a subclass of the enum's class (booleans in integer enums)."
  },
  {
   "property": "C49",
   "status": "partial",
   "theorems": [
    "Arti.Props.C49_roundtrip_partial",
    "Arti.Props.C49_roundtrip_identity_on_exact",
    "Arti.Props.C49_forgets_once",
    "Arti.Props.C49_violated_by_geographies",
    "Arti.Props.C49_violated_by_negative_sizes",
    "Arti.Props.C49_nested_collections_raise",
    "Arti.Props.C49_sets_and_enums_raise",
    "Arti.Props.C49_date32_becomes_date64",
    "Arti.Props.C49_other_schemas_are_collections"
   ],
   "note": "Proved for all types in Spec.ArrowSupported, nested to any depth, including the JSON metadata of collections. Violated outside: geographies come back as strings or binaries, Binary(byte_size=-1) loses its size."
  },
  {
   "property": "C50",
   "status": "partial",
   "theorems": [
    "Arti.Props.C50_class_hints_never_raise",
    "Arti.Props.C50_reflexive",
    "Arti.Props.C50_transitive",
    "Arti.Props.C50_any_is_top",
    "Arti.Props.C50_only_any_above_any",
    "Arti.Props.C50_classes_by_issubclass",
    "Arti.Props.C50_annotated_left_ignored",
    "Arti.Props.C50_annotated_right_ignored_partial",
    "Arti.Props.C50_union_right_any_of",
    "Arti.Props.C50_covariant",
    "Arti.Props.C50_generic_and_plain",
    "Arti.Props.C50_violated_by_annotated_unions",
    "Arti.Props.C50_unions_are_below_nothing",
    "Arti.Props.C50_violated_by_typing_generics",
    "Arti.Props.C50_violated_by_union_arguments"
   ],
   "note": "Proved for all hints and all class hierarchies except: Annotated around a union on the right is not unwrapped before the union test (C50_violated_by_annotated_unions), and unions as generic arguments on the left are only compared by identity (C50_violated_by_union_arguments). typing.List[int] and literals are below nothing, not even themselves (C50_violated_by_typing_generics)."
  },
  {
   "property": "C51",
   "status": "proved",
   "theorems": [
    "Arti.Props.C51_highest_priority_wins",
    "Arti.Props.C51_order_independent",
    "Arti.Props.C51_no_priority",
    "Arti.Props.C51_ordinal_suffix"
   ],
   "note": ""
  },
  {
   "property": "C52",
   "status": "partial",
   "theorems": [
    "Arti.Props.C52_only_uniform_values_are_cast",
    "Arti.Props.C52_reads_back_partial",
    "Arti.Props.C52_violated_by_tuples",
    "Arti.Props.C52_violated_by_mappings",
    "Arti.Props.C52_only_literals",
    "Arti.Props.C52_text_kept_iff_no_braces",
    "Arti.Props.C52_violated_by_placeholders"
   ],
   "note": "Values of the supported kinds without braces read back unchanged (C52_reads_back_partial) and nothing else does (C52_only_literals); tuples become lists, mappings always raise, placeholders are substituted: the unrestricted claim is false, as the violated_by theorems show."
  },
  {
   "property": "C53",
   "status": "partial",
   "theorems": [
    "Arti.Props.C53_accepted_iff",
    "Arti.Props.C53_fields_parameters_and_outputs",
    "Arti.Props.C53_validate_outputs_takes_the_outputs",
    "Arti.Props.C53_partitioned_outputs_need_a_map_partial",
    "Arti.Props.C53_violated_by_inherited_map",
    "Arti.Props.C53_violated_by_owner_names"
   ],
   "note": "Exactly which class bodies are accepted is characterised (C53_accepted_iff). Fields, parameters, use of fields and partitioning schemes are proved for all accepted classes (any inheritance). Not true as stated: a generated map that is inherited from a concrete class hides the check for partitioned outputs, and parameters called cls or self of static methods are not checked (violations proved)."
  },
  {
   "property": "C54",
   "status": "proved",
   "theorems": [
    "Arti.Props.C54_serialize_order_free"
   ],
   "note": ""
  },
  {
   "property": "C55",
   "status": "partial",
   "theorems": [
    "Arti.Props.C55_equal_types_iff",
    "Arti.Props.C55_equality_is_an_equivalence",
    "Arti.Props.C55_from_annotation_iff",
    "Arti.Props.C55_ambiguous_annotations_are_refused",
    "Arti.Props.C55_artifact_compatibility_iff",
    "Arti.Props.C55_field_order_does_not_matter",
    "Arti.Props.C55_read_with_annotation_iff",
    "Arti.Props.C55_read_takes_one_of_annotation_and_view",
    "Arti.Props.C55_writes_are_checked",
    "Arti.Props.C55_hints_with_a_view",
    "Arti.Props.C55_written_hints_have_views_partial",
    "Arti.Props.C55_violated_by_nullable_artifacts",
    "Arti.Props.C55_violated_by_none",
    "Arti.Props.C55_violated_by_typed_dicts",
    "Arti.Props.C55_explicit_views_are_not_checked_on_read"
   ],
   "note": "Exact characterisation of from_annotation, check_artifact_compatibility and of the views Graph.read and Graph.write use, and of equality of types; plain hints of supported struct-free types have a view (partial). Violated: nullable artifacts, None, lists of TypedDicts. Artifact and view classes are nominal; io lookup is a parameter."
  },
  {
   "property": "C56",
   "status": "partial",
   "theorems": [
    "Arti.Props.C56_produced_artifacts_have_the_template",
    "Arti.Props.C56_origin_of_artifacts",
    "Arti.Props.C56_stored_under_graph_and_path_partial",
    "Arti.Props.C56_storage_text_partial",
    "Arti.Props.C56_violated_by_constructor_artifacts",
    "Arti.Props.C56_violated_by_constructing_inside"
   ],
   "note": "Fingerprint placeholder of produced artifacts and the origin of every artifact proved for all programs; storage under graph and path proved for artifacts not given to the constructor, for which it is false (witnesses). The resolved text is given for resolvable templates."
  },
  {
   "property": "C57",
   "status": "partial",
   "theorems": [
    "Arti.Props.C57_discovers_the_hard_coded",
    "Arti.Props.C57_violated_by_other_values",
    "Arti.Props.C57_violated_by_mixed_placeholders"
   ],
   "note": "Proved for delimited templates with consistent hard-coded components and one key class; violated for partitions written with another value."
  },
  {
   "property": "C58",
   "status": "proved",
   "theorems": [
    "Arti.Props.C58_accepted_inputs",
    "Arti.Props.C58_out_iff",
    "Arti.Props.C58_out_default_iff",
    "Arti.Props.C58_out_positions",
    "Arti.Props.C58_outputs_are_written_to_their_artifacts",
    "Arti.Props.C58_iter",
    "Arti.Props.C58_cast_iff",
    "Arti.Props.C58_several_outputs_cannot_be_assigned"
   ],
   "note": "The io registry and the constructors of artifact classes are parameters; which of several exceptions is raised first is not claimed."
  },
  {
   "property": "C59",
   "status": "partial",
   "theorems": [
    "Arti.Props.C59_default_location",
    "Arti.Props.C59_same_file_same_artifact_partial",
    "Arti.Props.C59_violated_by_graph_names",
    "Arti.Props.C59_violated_by_keys_with_separators",
    "Arti.Props.C59_violated_by_tags",
    "Arti.Props.C59_violated_by_partition_keys",
    "Arti.Props.C59_violated_by_fingerprints"
   ],
   "note": "Exact default location for all inputs; same file implies same artifact for names that cannot be taken for other parts of a path; violated for the others (five witnesses)."
  },
  {
   "property": "C60",
   "status": "partial",
   "theorems": [
    "Arti.Props.C60_accepted_iff",
    "Arti.Props.C60_table_has_the_columns",
    "Arti.Props.C60_roundtrip_partial",
    "Arti.Props.C60_roundtrip_identity_on_exact",
    "Arti.Props.C60_tables_identity_on_exact",
    "Arti.Props.C60_forgets_once",
    "Arti.Props.C60_violated_by_list_descriptions",
    "Arti.Props.C60_violated_by_nullable_lists",
    "Arti.Props.C60_violated_by_repeated_partition_fields",
    "Arti.Props.C60_ingestion_time_raises",
    "Arti.Props.C60_columns_are_described",
    "Arti.Props.C60_tables_are_described"
   ],
   "note": "Exact domain of to_system, columns of tables, exact characterisation of what is read from any existing column and table, round trip up to the documented widening. Violated for list descriptions, nullable lists and partition fields listed twice (excluded in the _partial theorem)."
  },
  {
   "property": "C61",
   "status": "partial",
   "theorems": [
    "Arti.Props.C61_accepted_iff",
    "Arti.Props.C61_partitionable_iff",
    "Arti.Props.C61_key_types_unique",
    "Arti.Props.C61_unpartitionable_is_a_key_error",
    "Arti.Props.C61_refused_formats",
    "Arti.Props.C61_same_storage",
    "Arti.Props.C61_default_location",
    "Arti.Props.C61_violated_by_omitted_annotations",
    "Arti.Props.C61_violated_by_copied_annotations",
    "Arti.Props.C61_violated_by_reused_storage"
   ],
   "note": "False in two cases, proved: annotations that are left out are those of the class twice (C61_violated_by_omitted_annotations, also C61_violated_by_copied_annotations) and a storage that was used for another type is accepted although all partitions then share a file (C61_violated_by_reused_storage). The rest is proved without restriction."
  },
  {
   "property": "C62",
   "status": "partial",
   "theorems": [
    "Arti.Props.C62_numpy_object",
    "Arti.Props.C62_numpy_unsupported",
    "Arti.Props.C62_numpy_supported_iff",
    "Arti.Props.C62_numpy_roundtrip",
    "Arti.Props.C62_numpy_same_object_iff",
    "Arti.Props.C62_array_iff",
    "Arti.Props.C62_array_roundtrip",
    "Arti.Props.C62_dtype",
    "Arti.Props.C62_pandas_supported_iff",
    "Arti.Props.C62_series_iff",
    "Arti.Props.C62_duplicate_columns",
    "Arti.Props.C62_frame_iff",
    "Arti.Props.C62_pandas_roundtrip_partial",
    "Arti.Props.C62_series_roundtrip",
    "Arti.Props.C62_frame_roundtrip",
    "Arti.Props.C62_violated_by_bytes",
    "Arti.Props.C62_violated_by_mixed_values"
   ],
   "note": "Both round trips are proved for all types and objects except series of bytes (C62_violated_by_bytes); C62_violated_by_mixed_values: only the first value of an object series is looked at."
  },
  {
   "property": "C63",
   "status": "partial",
   "theorems": [
    "Arti.Props.C63_roundtrip_partial",
    "Arti.Props.C63_exact_iff",
    "Arti.Props.C63_widened_once",
    "Arti.Props.C63_model_fields",
    "Arti.Props.C63_refused_names",
    "Arti.Props.C63_recursive_models",
    "Arti.Props.C63_violated_by_nested_names",
    "Arti.Props.C63_violated_by_nullable_structs",
    "Arti.Props.C63_violated_by_private_fields"
   ],
   "note": "Round trip proved up to the stated widening; exactness violated for nullable structs, private fields and nested names (witnesses proved)."
  },
  {
   "property": "C64",
   "status": "partial",
   "theorems": [
    "Arti.Props.C64_discovers_what_was_written_partial",
    "Arti.Props.C64_location",
    "Arti.Props.C64_distinct_partitions_have_distinct_paths",
    "Arti.Props.C64_violated_by_objects_below",
    "Arti.Props.C64_violated_by_default_path"
   ],
   "note": "Discovery proved for buckets without placeholders, gcsfs modelled from its documentation; violated for objects below partition paths and for the default path (witnesses proved)."
  },
  {
   "property": "C65",
   "status": "partial",
   "theorems": [
    "Arti.Props.C65_keys_are_equal_as_dicts",
    "Arti.Props.C65_generates_as_local_files",
    "Arti.Props.C65_discovers_as_local_files",
    "Arti.Props.C65_raw_data_is_what_is_in_the_files",
    "Arti.Props.C65_different_directories_are_apart",
    "Arti.Props.C65_no_two_outputs_have_the_same_path",
    "Arti.Props.C65_produced_files_are_not_mistaken",
    "Arti.Props.C65_build_writes_evaluated_files_partial",
    "Arti.Props.C65_raw_files_are_not_produced",
    "Arti.Props.C65_interrupted_build_can_be_resumed_partial",
    "Arti.Props.C65_outputs_in_files_are_together",
    "Arti.Props.C65_several_outputs_build_writes_evaluated_files_partial"
   ],
   "note": "For templates whose placeholders have the form of C21, for producers with one output, and for any number of outputs in histories that do not separate them (see C42); missing: storages other than local files and string literals."
  },
  {
   "property": "C66",
   "status": "partial",
   "theorems": [
    "Arti.Props.C66_nothing_is_built_twice_partial",
    "Arti.Props.C66_building_again_succeeds_and_calls_nothing_partial",
    "Arti.Props.C66_local_files_are_found_again",
    "Arti.Props.C66_new_process_reuses_local_files_partial",
    "Arti.Props.C66_several_outputs_nothing_is_built_twice_partial",
    "Arti.Props.C66_several_outputs_building_again_succeeds_and_calls_nothing_partial",
    "Arti.Props.C66_local_files_are_found_among_produced_files",
    "Arti.Props.C66_several_outputs_new_process_reuses_local_files_partial"
   ],
   "note": "For producers with one output in any history, and for any number of outputs in histories that keep them together (see C42); storages must not be shared. The condition on what the backend has looked at is needed (C36)."
  },
  {
   "property": "C67",
   "status": "partial",
   "theorems": [
    "Arti.Props.C67_files_that_are_not_torn_partial",
    "Arti.Props.C67_deleting_torn_files_is_enough",
    "Arti.Props.C67_build_is_evaluation_partial",
    "Arti.Props.C67_interrupted_build_can_be_resumed_partial",
    "Arti.Props.C67_violated_by_interruption",
    "Arti.Props.C67_violated_by_failed_serialisation"
   ],
   "note": "Violated: a torn file is taken for a result by later processes (two witnesses: interruption, failed serialisation). Proved: in histories without torn files, or in which torn files are deleted before anything else happens, writing piece by piece is equivalent to writing at once; so builds evaluate and can be resumed."
  },
  {
   "property": "C68",
   "status": "partial",
   "theorems": [
    "Arti.Props.C68_linked_partitions_hold_outputs_partial",
    "Arti.Props.C68_concurrent_build_is_an_evaluation_partial",
    "Arti.Props.C68_concurrent_build_is_evaluation_partial",
    "Arti.Props.C68_concurrent_builds_agree_partial",
    "Arti.Props.C68_concurrent_build_equals_build_alone_partial",
    "Arti.Props.C68_files_stay_partial",
    "Arti.Props.C68_process_alone_is_sequential",
    "Arti.Props.C68_processes_finish",
    "Arti.Props.C68_violated_by_files_written_in_place"
   ],
   "note": "Violated as the code stands: files are written in place (C68_violated_by_files_written_in_place). Proved for files that appear with their content, producers with one output, and no fingerprint collision in the log; every interleaving, any number of processes, interruptions, starts."
  },
  {
   "property": "C69",
   "status": "partial",
   "theorems": [
    "Arti.Props.C69_raw_read_is_current",
    "Arti.Props.C69_nothing_is_read_before_a_build",
    "Arti.Props.C69_produced_read_is_not_stale_partial",
    "Arti.Props.C69_built_artifacts_are_read_partial",
    "Arti.Props.C69_written_raw_data_is_read_back",
    "Arti.Props.C69_violated_by_an_interrupted_build",
    "Arti.Props.C69_violated_by_literals",
    "Arti.Props.C69_several_outputs_produced_read_is_not_stale_partial",
    "Arti.Props.C69_several_outputs_built_artifacts_are_read_partial"
   ],
   "note": "Raw reads, read-back of writes and errors before a build hold; produced reads are never stale and equal the build's results, for producers with one output in every history and for any number of outputs in histories that keep the outputs together. Violated (witnesses) by interrupted builds, after which only some partitions are read, and by literals, whose written value is lost."
  },
  {
   "property": "C70",
   "status": "partial",
   "theorems": [
    "Arti.Props.C70_only_registered_functions_matter",
    "Arti.Props.C70_lookups_register_nothing",
    "Arti.Props.C70_accepted_functions",
    "Arti.Props.C70_lookup_finds_a_closest_function",
    "Arti.Props.C70_the_first_arguments_decide",
    "Arti.Props.C70_most_specific_function_is_found",
    "Arti.Props.C70_the_preceding_function_is_found",
    "Arti.Props.C70_no_function_raises",
    "Arti.Props.C70_discovery_can_wait_partial",
    "Arti.Props.C70_violated_by_discovery",
    "Arti.Props.C70_violated_by_the_order_of_parameters",
    "Arti.Props.C70_violated_by_unchecked_classes"
   ],
   "note": "Acceptance characterised exactly; lookups depend only on the registered functions, find closest and most specific functions, and raise if there is none. Violated (witnesses): the package replaces functions of a user for the same classes at the first other lookup; parameters in another order; lists of classes. The table of multimethod is modelled from its documentation."
  },
  {
   "property": "C71",
   "status": "partial",
   "theorems": [
    "Arti.Props.C71_instantiated_iff",
    "Arti.Props.C71_field_class_found_iff",
    "Arti.Props.C71_one_field_class_for_a_type",
    "Arti.Props.C71_found_class_never_changes",
    "Arti.Props.C71_field_class_accepted_iff",
    "Arti.Props.C71_subclass_needs_its_own_type",
    "Arti.Props.C71_default_components_exist",
    "Arti.Props.C71_violated_by_unchecked_component_spec",
    "Arti.Props.C71_default_template_attributes_exist_partial"
   ],
   "note": "proved for all programs of class declarations: instantiation iff, one class per type that is found for ever, acceptance iff, default components exist; violated: the formats of default components are not checked (witness); the templates' attributes exist if each component is formatted as itself (_partial)"
  },
  {
   "property": "C72",
   "status": "partial",
   "theorems": [
    "Arti.Props.C72_fields_agree",
    "Arti.Props.C72_accepted_iff",
    "Arti.Props.C72_other_storage_classes_are_accepted",
    "Arti.Props.C72_subscripted_is_abstract",
    "Arti.Props.C72_partitions_are_generated_partial",
    "Arti.Props.C72_violated_by_storage_without_partition_class"
   ],
   "note": "proved for all programs of class declarations: accepted concrete storage classes with a partition class have its fields and annotations (iff), and their instances generate partitions with exactly these fields; violated: a storage class without a partition class is accepted (witness)"
  },
  {
   "property": "C73",
   "status": "proved",
   "theorems": [
    "Arti.Props.C73_exactly_the_modules_are_imported",
    "Arti.Props.C73_succeeds_iff_all_modules_do",
    "Arti.Props.C73_each_module_is_imported_once"
   ],
   "note": "Exact set of imported names (iff), success iff every import succeeds, no name requested twice for a package with one directory. Directories are finite trees; the order of listing and the lock are not modelled."
  },
  {
   "property": "C74",
   "status": "partial",
   "theorems": [
    "Arti.Props.C74_reads_return_only_what_was_written",
    "Arti.Props.C74_reads_find_what_was_written_partial",
    "Arti.Props.C74_calls_succeed_partial",
    "Arti.Props.C74_what_is_read_was_put_there",
    "Arti.Props.C74_what_was_put_is_found_partial",
    "Arti.Props.C74_violated_by_first_writes",
    "Arti.Props.C74_violated_by_tags_that_are_set_at_once",
    "Arti.Props.C74_violated_by_first_graphs",
    "Arti.Props.C74_violated_by_a_write_during_a_read"
   ],
   "note": "All methods of a memory connection, any number of threads, any calls, any interleaving of their steps. What reads return was written there and matches, without further hypotheses. That reads find what was written before is proved for storages, snapshot artifacts and graph names that the backend knows when the threads are started; it is violated for the first use by two threads at once, as is that only one thread sets a tag; a filtered read can raise RuntimeError. Missing: builds by threads."
  },
  {
   "property": "C75",
   "status": "partial",
   "theorems": [
    "Arti.Props.C75_accepted_iff",
    "Arti.Props.C75_the_class",
    "Arti.Props.C75_is_what_a_class_statement_makes",
    "Arti.Props.C75_names_partial",
    "Arti.Props.C75_later_classes_have_the_first_name",
    "Arti.Props.C75_map_is_called_partial",
    "Arti.Props.C75_views_are_coherent",
    "Arti.Props.C75_violated_by_decorating_twice",
    "Arti.Props.C75_violated_by_empty_annotations",
    "Arti.Props.C75_violated_by_a_parameter_called_map"
   ],
   "note": "Acceptance (iff), the exact class and its agreement with a class statement are proved for all functions and arguments. Violated (witnesses): a decorator object that is used twice gives the second class the name of the first function; an empty tuple of annotations is always refused; a parameter called map is accepted but dependencies can then never be computed. What hints mean is a parameter; that views are coherent is proved for Model/Views."
  },
  {
   "property": "C76",
   "status": "proved",
   "theorems": [
    "Arti.Props.C76_never_keys",
    "Arti.Props.C76_attempts_change_no_values",
    "Arti.Props.C76_no_value_has_such_a_key"
   ],
   "note": "Proved for all reachable boxes. Private attributes that exist on the object itself (such as _data) are not modelled."
  },
  {
   "property": "C77",
   "status": "partial",
   "theorems": [
    "Arti.Props.C77_prefixes_and_cause_partial",
    "Arti.Props.C77_others_pass",
    "Arti.Props.C77_nothing_is_swallowed_partial",
    "Arti.Props.C77_violated_by_key_errors",
    "Arti.Props.C77_violated_by_wrapped_attributes"
   ],
   "note": "Proved for any nesting of blocks for classes whose str is the message they were made with. Violated (witnesses) for KeyError, whose str quotes the message, and for errors of the user that have a true attribute wrapped and a cause. Tracebacks and __context__ are not modelled."
  },
  {
   "property": "C78",
   "status": "partial",
   "theorems": [
    "Arti.Props.C78_calls_use_their_connection_partial",
    "Arti.Props.C78_no_connection_is_the_own_backend",
    "Arti.Props.C78_reads_use_their_connection_partial",
    "Arti.Props.C78_reads_leave_snapshots_in_the_own_backend",
    "Arti.Props.C78_violated_by_reads",
    "Arti.Props.C78_violated_by_builds"
   ],
   "note": "Proved for all sequences of calls with explicit connections and snapshots, and for all sequences without connections. Violated by Graph.read of a produced artifact with a connection and no snapshot: the snapshot is taken in the backend of the graph (what is read is still right); and by build, which takes no connection: a snapshot taken with a connection finds none of its inputs."
  },
  {
   "property": "C79",
   "status": "partial",
   "theorems": [
    "Arti.Props.C79_types_found_are_those_declared_partial",
    "Arti.Props.C79_variables_are_no_types",
    "Arti.Props.C79_keys_and_values_partial",
    "Arti.Props.C79_violated_by_exchanged_parameters",
    "Arti.Props.C79_violated_by_bound_parameters",
    "Arti.Props.C79_violated_by_nested_variables"
   ],
   "note": "Proved for chains of any length in which generic classes pass their parameters on in order. Violated by generic subclasses that exchange parameters (keys validated as values), that bind only some of them (unpacking fails), and by variables inside of arguments (accepted open). Classes with one base each."
  },
  {
   "property": "C80",
   "status": "partial",
   "theorems": [
    "Arti.Props.C80_equal_iff_lookups_agree",
    "Arti.Props.C80_equal_boxes_hold_equal_values",
    "Arti.Props.C80_same_values_are_equal_partial",
    "Arti.Props.C80_equal_boxes_have_one_hash",
    "Arti.Props.C80_hash_is_constant",
    "Arti.Props.C80_violated_by_lookups"
   ],
   "note": "Equality is characterised exactly by lookups (values, nested boxes, nothing) for all boxes; equal boxes hold equal values; hashes agree and are constant. Violated in one direction: looking for a missing key in an open box leaves an empty box behind, so boxes that hold the same values can be unequal."
  }
 ]
}