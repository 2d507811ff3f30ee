{
 "claims": [
  {
   "property": "C01",
   "status": "proved",
   "theorems": [
    "Verif.Exec.C01_references_first"
   ],
   "note": "Hypothesis NoSelfRef excludes only self-referencing definitions (C08)."
  },
  {
   "property": "C02",
   "status": "proved",
   "theorems": [
    "Verif.Exec.C02_validation_barrier",
    "Verif.Exec.C02_failed_validation_stops"
   ],
   "note": ""
  },
  {
   "property": "C03",
   "status": "proved",
   "theorems": [
    "Verif.Graph.C03_plan_complete",
    "Verif.Exec.C03_all_evaluated"
   ],
   "note": "Static coverage of the plan and dynamic coverage of every successful run."
  },
  {
   "property": "C04",
   "status": "proved",
   "theorems": [
    "Verif.Exec.C04_no_deadlock",
    "Verif.Exec.C04_terminates"
   ],
   "note": "Single evaluations are assumed to return; the bound holds for every schedule."
  },
  {
   "property": "C05",
   "status": "proved",
   "theorems": [
    "Verif.Exec.C05_dependants_not_started",
    "Verif.Exec.C05_failure_reported",
    "Verif.Exec.C05_strict_false"
   ],
   "note": "C05_strict_false records that the stronger reading (one failed evaluation suffices) is false because a definition can be evaluated twice."
  },
  {
   "property": "C06",
   "status": "proved",
   "theorems": [
    "Verif.Graph.C06_edges_exact",
    "Verif.Graph.C06_parents_exact",
    "Verif.Graph.C06_no_duplicate_edges"
   ],
   "note": ""
  },
  {
   "property": "C07",
   "status": "proved",
   "theorems": [
    "Verif.Graph.C07_grouping_deterministic",
    "Verif.Graph.sorted_unique",
    "Verif.Graph.C07_needs_distinct_names"
   ],
   "note": "Distinct names are needed (counterexample proved) and are enforced by the resolver."
  },
  {
   "property": "C08",
   "status": "partial",
   "theorems": [
    "Verif.Graph.C08_self_reference_dropped",
    "Verif.Graph.C08_self_reference_overflow",
    "Verif.Graph.C08_self_reference_reported_partial",
    "Verif.Graph.C08_nothing_iff"
   ],
   "note": "False of the code: negations proved with witnesses (definitions silently dropped; unbounded recursion). The exact condition under which an error is reported is proved."
  },
  {
   "property": "C09",
   "status": "partial",
   "theorems": [
    "Verif.Refs.C09_argument_not_recorded",
    "Verif.Refs.C09_reads_recorded_partial",
    "Verif.Refs.C09_recorded_read_partial",
    "Verif.Refs.C09_reads_ordered_partial",
    "Verif.Refs.C09_request_if_false",
    "Verif.Refs.C09_retry_if_false",
    "Verif.Refs.C09_map_enum_false",
    "Verif.Refs.C09_map_enum_unordered_false",
    "Verif.Refs.C09_error_message_false",
    "Verif.Refs.C09_validation_message_false",
    "Verif.Refs.C09_ignore_and_response_false",
    "Verif.Refs.C09_iterator_hides_source_false",
    "Verif.Refs.C09_macro_variable_recorded"
   ],
   "note": "False of the code for five expression sites and for an iterator named like its source; each negation is proved with a schedule in which the reader starts first. Proved for all definitions that use none of these sites."
  },
  {
   "property": "C10",
   "status": "partial",
   "theorems": [
    "Verif.AllGraph.C10_edges_exact",
    "Verif.AllGraph.C10_terminates",
    "Verif.AllGraph.C10_rejected_iff",
    "Verif.AllGraph.C10_acyclic_accepted",
    "Verif.AllGraph.C10_cycle_rejected_partial",
    "Verif.AllGraph.C10_accepted_acyclic_partial",
    "Verif.AllGraph.C10_rootless_cycle_false",
    "Verif.AllGraph.C10_self_dependency_false"
   ],
   "note": "False of the code for cycles no root message reaches (negation proved). The exact condition of rejection is proved."
  },
  {
   "property": "C11",
   "status": "partial",
   "theorems": [
    "Verif.Exec.C11_cancellation_reported",
    "Verif.Exec.C11_some_real_failure_partial",
    "Verif.Exec.C11_flat_plan_partial"
   ],
   "note": "False of the code: negation proved by a concrete schedule. Proved: some real failure exists; and the claim itself for plans without nested errgroups."
  },
  {
   "property": "C12",
   "status": "proved",
   "theorems": [
    "Verif.Exec.C12_no_overlap",
    "Verif.Exec.C12_cached_not_reevaluated",
    "Verif.Exec.C12_cache_kept",
    "Verif.Exec.C12_result_is_evaluation",
    "Verif.Exec.C12_at_most_once_false"
   ],
   "note": "The stronger claim 'at most once' is false: C12_at_most_once_false gives the schedule."
  },
  {
   "property": "C13",
   "status": "proved",
   "theorems": [
    "Verif.Eval.C13_evaluated_iff",
    "Verif.Eval.C13_condition_false",
    "Verif.Eval.C13_condition_error",
    "Verif.Eval.C13_value",
    "Verif.Eval.C13_expression_error",
    "Verif.Eval.C13_success_iff",
    "Verif.Eval.C13_names_usable",
    "Verif.Eval.C13_if_body"
   ],
   "note": "CEL evaluation, callbacks and the setter are parameters."
  },
  {
   "property": "C14",
   "status": "proved",
   "theorems": [
    "Verif.Eval.C14_success",
    "Verif.Eval.C14_failure",
    "Verif.Eval.C14_cases",
    "Verif.Eval.C14_outside_unchanged"
   ],
   "note": ""
  },
  {
   "property": "C15",
   "status": "proved",
   "theorems": [
    "Verif.CelCache.C15_cache_transparent",
    "Verif.CelCache.C15_needs_unique_index"
   ],
   "note": "For every interleaving. Hypothesis Stable: the environments in which one site is evaluated compile its expression to the same program (true when the variables it reads are declared, C01/C09)."
  },
  {
   "property": "C16",
   "status": "partial",
   "theorems": [
    "Verif.NullCmp.C16_exact_meaning",
    "Verif.NullCmp.C16_null_aware_partial",
    "Verif.NullCmp.C16_comparison",
    "Verif.NullCmp.C16_unchanged",
    "Verif.NullCmp.C16_idempotent",
    "Verif.NullCmp.C16_executed",
    "Verif.NullCmp.C16_executable_partial",
    "Verif.NullCmp.C16_map_key_false",
    "Verif.NullCmp.C16_macro_false"
   ],
   "note": "False of the code for map keys and for expressions that also contain a macro (negations proved); proved for all others, for every meaning of the functions."
  },
  {
   "property": "C17",
   "status": "proved",
   "theorems": [
    "Verif.Timeout.C17_outcome",
    "Verif.Timeout.C17_once",
    "Verif.Timeout.C17_returns",
    "Verif.Timeout.C17_worker_terminates",
    "Verif.Timeout.C17_no_stuck_worker"
   ],
   "note": "For every interleaving of caller, worker, timer and parent cancellation. DeadlineExceeded is also reported when the parent is cancelled (C51)."
  },
  {
   "property": "C18",
   "status": "proved",
   "theorems": [
    "Verif.Retry.C18_bound",
    "Verif.Retry.C18_deterministic",
    "Verif.Retry.C18_retry_only_if",
    "Verif.Retry.C18_result",
    "Verif.Retry.C18_stops_only_if",
    "Verif.Retry.C18_zero_unlimited",
    "Verif.Retry.C18_condition_sees_error"
   ],
   "note": "Zero is documented to mean unlimited. The backoff library's loop is modelled from its published source (it is not in /repo)."
  },
  {
   "property": "C19",
   "status": "proved",
   "theorems": [
    "Verif.ErrH.C19_ignore",
    "Verif.ErrH.C19_ignore_and_response",
    "Verif.ErrH.C19_status",
    "Verif.ErrH.C19_entry_body_fails",
    "Verif.ErrH.C19_no_match",
    "Verif.ErrH.C19_entry_fails",
    "Verif.ErrH.C19_cases",
    "Verif.ErrH.C19_later_entries_irrelevant"
   ],
   "note": "Expressions, the service's error handler, knowledge of message types and encodability of details are parameters. Original details of unknown types are dropped."
  },
  {
   "property": "C20",
   "status": "partial",
   "theorems": [
    "Verif.ErrH.C20_success_iff",
    "Verif.ErrH.C20_failure_stays_failure_partial",
    "Verif.ErrH.C20_failure_stays_failure_false"
   ],
   "note": "False of the code for errors that are no gRPC status (recovered panics, failing retry conditions): an entry without code then gives success. Proved for status errors; the exact condition of success is proved."
  },
  {
   "property": "C21",
   "status": "partial",
   "theorems": [
    "Verif.ErrVar.C21_own_error_partial",
    "Verif.ErrVar.C21_sequential_partial",
    "Verif.ErrVar.C21_some_error",
    "Verif.ErrVar.C21_own_error_false"
   ],
   "note": "False of the code: all calls of a message share one variable (interleaving proved). Proved when no other call fails in between."
  },
  {
   "property": "C22",
   "status": "partial",
   "theorems": [
    "Verif.ErrH.C22_passes_iff",
    "Verif.ErrH.C22_status",
    "Verif.ErrH.C22_cases",
    "Verif.ErrH.C22_always_status",
    "Verif.ErrH.C22_ok_code_false"
   ],
   "note": "False of the code for the declared code OK (such a validation never fails). Proved for every other code."
  },
  {
   "property": "C23",
   "status": "proved",
   "theorems": [
    "Verif.Cast.C23_checked_cast",
    "Verif.Cast.C23_all_exist"
   ],
   "note": "All nine functions, all values."
  },
  {
   "property": "C24",
   "status": "partial",
   "theorems": [
    "Verif.Cast.C24_preserves_iff",
    "Verif.Cast.C24_plain_kinds_partial",
    "Verif.Cast.C24_sint64_false",
    "Verif.Cast.C24_number_to_enum_false",
    "Verif.Cast.C24_enum_to_unsigned_false",
    "Verif.Cast.C24_fraction_false"
   ],
   "note": "False of the code for sint/fixed/sfixed kinds, enums and floating point (witnesses proved). The pairs of integer kinds for which it holds are characterised exactly; it holds for int32, int64, uint32 and uint64."
  },
  {
   "property": "C25",
   "status": "partial",
   "theorems": [
    "Verif.Cast.C25_converted_iff_types_differ",
    "Verif.Cast.C25_list_ok",
    "Verif.Cast.C25_list_error",
    "Verif.Cast.C25_enum_number",
    "Verif.Cast.C25_enum_list",
    "Verif.Cast.C25_map_ok_partial",
    "Verif.Cast.C25_map_error",
    "Verif.Cast.C25_map_collision_false",
    "Verif.Cast.C25_nil",
    "Verif.Cast.C25_message_fields",
    "Verif.Cast.C25_message_error",
    "Verif.Cast.C25_oneof",
    "Verif.Cast.C25_same_structure"
   ],
   "note": "False of the code for maps whose converted keys coincide (witness proved: an entry is lost, which one depends on map iteration order). Proved for lists, messages, oneofs and maps with distinct converted keys; conversion between structurally equal types is the identity. Oneof members are messages: for others the generated comparison with nil does not compile."
  },
  {
   "property": "C26",
   "status": "partial",
   "theorems": [
    "Verif.EnumMap.C26_declared_default",
    "Verif.EnumMap.C26_dep_to_service_partial",
    "Verif.EnumMap.C26_service_to_dep_partial",
    "Verif.EnumMap.C26_round_trip",
    "Verif.EnumMap.C26_both_aliased_false",
    "Verif.EnumMap.C26_unaliased_partial",
    "Verif.EnumMap.C26_unaliased_false",
    "Verif.EnumMap.C26_ambiguous_not_reported_false"
   ],
   "note": "False of the code when both enums have aliases or neither has (every value becomes zero), and ambiguity is not reported (witnesses proved). Proved for all conversions along an alias where the enum that declares it decides."
  },
  {
   "property": "C27",
   "status": "partial",
   "theorems": [
    "Verif.Field.C27_first_true",
    "Verif.Field.C27_default",
    "Verif.Field.C27_unset",
    "Verif.Field.C27_condition_error",
    "Verif.Field.C27_rules_compile",
    "Verif.Field.C27_mixed_autobind_false"
   ],
   "note": "False of the code for oneofs that mix autobound members with members having a oneof rule: the generated code does not compile (witness proved). Proved for oneofs whose members all have oneof rules."
  },
  {
   "property": "C28",
   "status": "partial",
   "theorems": [
    "Verif.Plugin.C28_argument_partial",
    "Verif.Plugin.C28_list_argument_partial",
    "Verif.Plugin.C28_truncated_false",
    "Verif.Plugin.C28_result",
    "Verif.Plugin.C28_error_partial",
    "Verif.Plugin.C28_empty_error_false"
   ],
   "note": "False of the code for integers outside the range of int32, uint32 and enum parameters, which arrive as other numbers, and for errors without message, which become successes with a zero value (witnesses proved). Proved for all values of the declared types, for lists and for results. Results of enum type are not modelled: the generated code does not compile."
  },
  {
   "property": "C29",
   "status": "partial",
   "theorems": [
    "Verif.ListLib.C29_sortAsc",
    "Verif.ListLib.C29_sortDesc",
    "Verif.ListLib.C29_stable",
    "Verif.ListLib.C29_macro_partial",
    "Verif.ListLib.C29_flatten",
    "Verif.ListLib.C29_reduce",
    "Verif.ListLib.C29_reduce_error",
    "Verif.ListLib.C29_first",
    "Verif.ListLib.C29_first_error",
    "Verif.ListLib.goSort_stable",
    "Verif.ListLib.C29_nan_false",
    "Verif.ListLib.C29_target_false",
    "Verif.ListLib.C29_evaluations_false"
   ],
   "note": "False of the code for NaN keys (returned unsorted without error) and for targets that are not pure: a sorted target is evaluated twice, n chained sorts evaluate it 2^n times (witnesses proved). Proved for every total order of keys and pure targets; what package sort guarantees is a hypothesis, shown satisfiable by its insertion sort."
  },
  {
   "property": "C30",
   "status": "partial",
   "theorems": [
    "Verif.Plugin.C30_own_response_partial",
    "Verif.Plugin.C30_after_close_partial",
    "Verif.Plugin.C30_close_partial",
    "Verif.Plugin.C30_gc_partial",
    "Verif.Plugin.C30_double_close_false",
    "Verif.Plugin.C30_gc_after_close_false",
    "Verif.Plugin.C30_plugin_exit_false",
    "Verif.Plugin.C30_extra_output_false"
   ],
   "note": "Proved for all histories with plugins that write one line for each request. False of the code: closing twice and requesting GC after closing panic; after a plugin function panics, every later call and Close blocks forever; a plugin that prints to its standard output blocks the next call (all proved, the third for every later history)."
  },
  {
   "property": "C31",
   "status": "partial",
   "theorems": [
    "Verif.Log.C31_linear_partial",
    "Verif.Log.C31_siblings_false",
    "Verif.Log.C31_parent_false"
   ],
   "note": "False of the code: contexts share the array of their parent, so an attribute added by one message replaces that of another (witnesses proved). Proved for all histories in which attributes are only added to the context with the longest list, for every growth of capacities."
  },
  {
   "property": "C32",
   "status": "proved",
   "theorems": [
    "Verif.CelCache.C32_indexes_unique"
   ],
   "note": ""
  },
  {
   "property": "C33",
   "status": "partial",
   "theorems": [
    "Verif.Imports.C33_distinct_partial",
    "Verif.Imports.C33_complete",
    "Verif.Imports.C33_once",
    "Verif.Imports.C33_only",
    "Verif.Imports.C33_reference_partial",
    "Verif.Imports.suffix_found",
    "Verif.Imports.C33_three_false",
    "Verif.Imports.C33_digit_false",
    "Verif.Imports.C33_runtime_false",
    "Verif.Imports.C33_reference_false",
    "Verif.Imports.C33_order_false"
   ],
   "note": "False of the code for three packages with the same name, names ending with the suffix digit, packages named like runtime imports without alias (trace, otel, metadata, standard library) and Go packages with several proto files, whose types refer to another package depending on map order (witnesses proved). Proved for all sets of packages without these."
  },
  {
   "property": "C34",
   "status": "proved",
   "theorems": [
    "Verif.Emit.C34_contexts_scoped",
    "Verif.Emit.C34_declarations_compile",
    "Verif.Emit.C34_resolver_plans"
   ],
   "note": ""
  },
  {
   "property": "C35",
   "status": "partial",
   "theorems": [
    "Verif.TypeConv.C35_closed_partial",
    "Verif.TypeConv.C35_required",
    "Verif.TypeConv.C35_list_single_false",
    "Verif.TypeConv.C35_needed_once",
    "Verif.TypeConv.C35_functions",
    "Verif.TypeConv.C35_right_function_partial",
    "Verif.TypeConv.C35_names_false",
    "Verif.TypeConv.C35_renamed_false",
    "Verif.TypeConv.C35_method_response_false",
    "Verif.GoNames.C64_full_names_false"
   ],
   "note": "Proved for all schemas, also recursive ones, whose type names stay apart when concatenated and without renamed fields. False of the code otherwise, and for the `response` option of methods, whose nested conversions are missing (witnesses proved). A conversion is required exactly between different types of the same form; between a list and a single value of the same type it is not (witness proved). Oneof members are in C120, enum selectors in C84."
  },
  {
   "property": "C36",
   "status": "partial",
   "theorems": [
    "Verif.Codegen.C36_objects_partial",
    "Verif.Codegen.C36_group_ids",
    "Verif.Codegen.C36_type",
    "Verif.Codegen.C36_duration",
    "Verif.Codegen.C36_duration_valid",
    "Verif.Codegen.C36_retry",
    "Verif.Codegen.C36_error_partial",
    "Verif.Codegen.C36_call_partial",
    "Verif.Codegen.C36_definition_partial",
    "Verif.Codegen.C36_same_name_false",
    "Verif.Codegen.C36_dangling_false",
    "Verif.Codegen.C36_oneof_false",
    "Verif.Codegen.C36_call_errors_false",
    "Verif.Codegen.C36_error_false",
    "Verif.Codegen.C36_detail_false",
    "Verif.Codegen.C36_retry_false",
    "Verif.Codegen.C36_file_partial",
    "Verif.Codegen.C36_service_partial",
    "Verif.Codegen.C36_method_partial",
    "Verif.Codegen.C36_message_partial",
    "Verif.Codegen.C36_field_partial",
    "Verif.Codegen.C36_oneof_object",
    "Verif.Codegen.C36_enum",
    "Verif.Codegen.C36_enum_value",
    "Verif.Codegen.C36_plugin",
    "Verif.Codegen.C36_go_package_false",
    "Verif.Codegen.C36_env_false",
    "Verif.Codegen.C36_field_env_false",
    "Verif.Codegen.C36_graph_partial",
    "Verif.Codegen.C36_graph_roots",
    "Verif.Codegen.C36_graph_positions",
    "Verif.Codegen.C36_graph_parents_false",
    "Verif.Codegen.C36_graph_size_false",
    "Verif.Codegen.C36_message_ids",
    "Verif.Codegen.C36_member_ids",
    "Verif.Codegen.C36_service_ids",
    "Verif.Codegen.C36_method_ids",
    "Verif.Codegen.C36_file_ids",
    "Verif.Codegen.C36_enum_ids",
    "Verif.Codegen.C36_enum_value_ids",
    "Verif.Codegen.C36_graph_ids_false",
    "Verif.Codegen.C36_graph_roots_false"
   ],
   "note": "Objects and references: proved for all heaps, also cyclic ones, in which identifiers tell objects of a kind apart and every emitted identifier is encoded. Data: proved for types, retry policies, variable definitions and all other objects within the stated conditions. False of the code for definitions of different messages with the same name, identifiers of enums that are not encoded, members of oneofs of message or enum type, error handling of calls, variables and log level of errors, missing definition sets, files without Go package (building the request panics), services without environment (the plugin sees an empty one), and the options of fields for environment variables (witnesses proved). Files, services, methods, messages, fields, oneofs, enums, their values and plugins survive otherwise, except for their descriptors. Identifiers of files, services, methods, messages, fields, oneofs, enums and values tell different objects apart; those of dependency graphs do not (witnesses proved). A plugin sees the paths of a dependency graph, but not that nodes are shared, and the request grows exponentially with shared nodes (proved)."
  },
  {
   "property": "C37",
   "status": "proved",
   "theorems": [
    "Verif.Codegen.C37_kinds",
    "Verif.Codegen.C37_distinct",
    "Verif.Codegen.C37_text",
    "Verif.Codegen.C37_text_distinct"
   ],
   "note": "All kinds, by cases. The text of a kind is read back except for message and enum, which have a name instead."
  },
  {
   "property": "C38",
   "status": "partial",
   "theorems": [
    "Verif.Field.C38_exactly_one",
    "Verif.Field.C38_errors",
    "Verif.Field.C38_field_option_partial",
    "Verif.Field.C38_oneof_and_by_false",
    "Verif.Field.C38_disabled_custom_resolver_false"
   ],
   "note": "False of the code for fields with a `oneof` option (a `by` beside it is ignored) and for `custom_resolver: false` (witnesses proved). Proved for values of arguments and fields without `oneof` and `env`."
  },
  {
   "property": "C39",
   "status": "partial",
   "theorems": [
    "Verif.Types.C39_bind_partial",
    "Verif.Types.C39_bind_complete",
    "Verif.Types.C39_request_partial",
    "Verif.Types.C39_request_complete",
    "Verif.Types.C39_enum_to_other_false",
    "Verif.Types.C39_repeated_false",
    "Verif.Types.C39_request_false",
    "Verif.Types.C39_map_false"
   ],
   "note": "False of the code: enums are accepted for strings and messages, lists for single values, scalars for request messages, and maps are compared by kinds only (witnesses proved). Proved outside these cases, and compatible values are always accepted."
  },
  {
   "property": "C40",
   "status": "partial",
   "theorems": [
    "Verif.Args.C40_names_partial",
    "Verif.Args.C40_types",
    "Verif.Args.C40_no_other_fields",
    "Verif.Args.C40_one_parent_partial",
    "Verif.Args.C40_two_parents_false",
    "Verif.Args.C40_inline_false"
   ],
   "note": "False of the code for messages built by several parents and for inline values (witnesses proved). Types are proved in full; names for one parent without inline values and for names registered before."
  },
  {
   "property": "C41",
   "status": "partial",
   "theorems": [
    "Verif.SharedEnv.C41_shared",
    "Verif.SharedEnv.C41_rejected_iff",
    "Verif.SharedEnv.C41_type",
    "Verif.SharedEnv.C41_order_independent",
    "Verif.SharedEnv.C41_service_variables",
    "Verif.SharedEnv.C41_same_type",
    "Verif.SharedEnv.C41_enum_false"
   ],
   "note": "Proved in full, for every order in which Go visits its maps, with types compared by fields and kinds at all depths. Only the names of enums and messages are not compared: two different enums count as the same type (witness proved)."
  },
  {
   "property": "C42",
   "status": "proved",
   "theorems": [
    "Verif.Names.C42_qualified",
    "Verif.Names.C42_unqualified",
    "Verif.Names.C42_rejected_iff",
    "Verif.Names.C42_reads_back"
   ],
   "note": "Empty parts are accepted here and fail in the later lookup."
  },
  {
   "property": "C43",
   "status": "proved",
   "theorems": [
    "Verif.Names.C43_longest",
    "Verif.Names.C43_none",
    "Verif.Names.C43_rest"
   ],
   "note": ""
  },
  {
   "property": "C44",
   "status": "proved",
   "theorems": [
    "Verif.Names.C44_path_and_name",
    "Verif.Names.C44_path_only",
    "Verif.Names.C44_rejected_iff"
   ],
   "note": ""
  },
  {
   "property": "C45",
   "status": "proved",
   "theorems": [
    "Verif.EnumMap.C45_auto_alias_complete",
    "Verif.EnumMap.C45_explicit_alias_exists",
    "Verif.EnumMap.C45_accepted_if"
   ],
   "note": ""
  },
  {
   "property": "C46",
   "status": "partial",
   "theorems": [
    "Verif.Field.C46_accepted",
    "Verif.Field.C46_no_spurious_partial",
    "Verif.Field.C46_two_oneofs_rejected_false"
   ],
   "note": "The acceptance direction is proved. The converse is false of the code: two oneofs with a default each are rejected (witness proved); proved for messages with at most one default."
  },
  {
   "property": "C47",
   "status": "partial",
   "theorems": [
    "Verif.SvcVar.C47_kept_partial",
    "Verif.SvcVar.C47_in_order_partial",
    "Verif.SvcVar.C47_accepted_partial",
    "Verif.SvcVar.C47_if_dropped_false",
    "Verif.SvcVar.C47_two_validations_false"
   ],
   "note": "False of the code for variables with `if`, which disappear silently, and for two unnamed validations, which are rejected as duplicates (witnesses proved). Proved for all others."
  },
  {
   "property": "C48",
   "status": "partial",
   "theorems": [
    "Verif.Names.C48_injective_partial",
    "Verif.Names.C48_scalar_overloads_partial",
    "Verif.Names.C48_unique_false"
   ],
   "note": "False of the code: dots become underscores, so functions of different packages collide (witness proved). Proved for names without underscores whose parts are equally many, and for scalar overloads of one function."
  },
  {
   "property": "C49",
   "status": "partial",
   "theorems": [
    "Verif.Names.C49_rewritten",
    "Verif.Names.C49_reserved_iff",
    "Verif.Names.C49_unchanged",
    "Verif.Names.C49_restore_partial",
    "Verif.Names.C49_collision_false",
    "Verif.Names.C49_literal_false"
   ],
   "note": "The textual part is proved in full. False of the code as a whole: `$` inside string literals is rewritten too and two different expressions can become equal (witnesses proved)."
  },
  {
   "property": "C50",
   "status": "partial",
   "theorems": [
    "Verif.Complete.C50_sound_partial",
    "Verif.Complete.C50_complete_partial",
    "Verif.Complete.C50_exactly",
    "Verif.Complete.C50_missing_false",
    "Verif.Complete.C50_itself_false",
    "Verif.Complete.C50_request_type_false"
   ],
   "note": "False of the code: only the previous definition is offered, a definition is offered to itself in its arguments, and request values are filtered by the wrong field (witnesses proved). In `by` whatever is offered is usable."
  },
  {
   "property": "C51",
   "status": "partial",
   "theorems": [
    "Verif.Timeout.C51_cancel_reported_as_deadline_false",
    "Verif.Timeout.C51_message_names_cause_partial"
   ],
   "note": "False of the code: cancellation of the parent is reported with code DeadlineExceeded (witness execution proved). Proved: the message names the real cause."
  },
  {
   "property": "C52",
   "status": "partial",
   "theorems": [
    "Verif.Retry.C52_condition_sees_own_error_false",
    "Verif.Retry.C52_condition_sees_own_error_partial"
   ],
   "note": "False of the code for errors that are not gRPC statuses: the variable keeps the status of an earlier attempt (witness proved). Proved for status errors."
  },
  {
   "property": "C53",
   "status": "partial",
   "theorems": [
    "Verif.ErrH.C53_handler_called_without_error_false",
    "Verif.ErrH.C53_ignored_is_success_partial"
   ],
   "note": "False of the code: the error handler is also called with no error, and can turn it into one. Proved for handlers that return nil for nil."
  },
  {
   "property": "C54",
   "status": "proved",
   "theorems": [
    "Verif.ErrVar.C54_error_value",
    "Verif.ErrVar.C54_partition"
   ],
   "note": "Details that cannot be decoded or re-encoded are skipped, as logged by the code."
  },
  {
   "property": "C55",
   "status": "partial",
   "theorems": [
    "Verif.Cast.C55_conversion_independent_false",
    "Verif.Cast.C55_conversion_independent_partial"
   ],
   "note": "False of the code: functions are named by Go types, so a service that also converts sint64 to int32 loses the overflow check of int64 to int32 (witness proved). Proved for services in which no two pairs of kinds share their Go types."
  },
  {
   "property": "C56",
   "status": "partial",
   "theorems": [
    "Verif.Cast.C56_renamed_field_partial",
    "Verif.Cast.C56_renamed_field_false"
   ],
   "note": "False of the code from the declaring message back to the aliased one: the field is left at its zero value (witness proved). Proved in the other direction."
  },
  {
   "property": "C57",
   "status": "partial",
   "theorems": [
    "Verif.Field.C57_by_partial",
    "Verif.Field.C57_custom_resolver_partial",
    "Verif.Field.C57_autobind",
    "Verif.Field.C57_oneof_member",
    "Verif.Field.C57_once",
    "Verif.Field.C57_oneof_member_false",
    "Verif.Field.C57_alias_autobind_false"
   ],
   "note": "False of the code for members of a oneof with `by` or `custom_resolver`, and for autobound fields of messages with an alias: accepted but never set (witnesses proved). Proved for the other fields."
  },
  {
   "property": "C58",
   "status": "proved",
   "theorems": [
    "Verif.Names.C58_found_iff"
   ],
   "note": ""
  },
  {
   "property": "C59",
   "status": "partial",
   "theorems": [
    "Verif.SharedEnv.C59_terminates_partial",
    "Verif.SharedEnv.C59_terminates_false"
   ],
   "note": "False of the code: comparing a recursive message type (for example google.protobuf.Struct) never ends (witness proved for every bound). Proved for types without recursion."
  },
  {
   "property": "C60",
   "status": "partial",
   "theorems": [
    "Verif.SvcVar.C60_as_declared_partial",
    "Verif.SvcVar.C60_accepted",
    "Verif.SvcVar.C60_lists_false"
   ],
   "note": "False of the code for lists of maps and lists of lists, which are accepted as maps and lists (witness proved). Proved for all other types, nested to any depth."
  },
  {
   "property": "C61",
   "status": "partial",
   "theorems": [
    "Verif.Sig.C61_overloads_partial",
    "Verif.Sig.C61_distinct",
    "Verif.Sig.C61_fuel",
    "Verif.Sig.C61_list_of_enums_false"
   ],
   "note": "Proved for all signatures whose identifiers differ (C48). False of the code for lists of enums: a single integer is accepted instead (witness proved)."
  },
  {
   "property": "C62",
   "status": "proved",
   "theorems": [
    "Verif.Plugin.C62_validate"
   ],
   "note": "The transport of the version line is that of C30."
  },
  {
   "property": "C63",
   "status": "partial",
   "theorems": [
    "Verif.Log.C63_duplicates_false",
    "Verif.Log.C63_once_partial",
    "Verif.Log.C63_complete"
   ],
   "note": "False of the code: n messages deep each attribute appears n+1 times (proved for all n). None is missing; outside of messages each appears once."
  },
  {
   "property": "C64",
   "status": "partial",
   "theorems": [
    "Verif.GoNames.C64_distinct_partial",
    "Verif.GoNames.C64_fields_partial",
    "Verif.GoNames.C64_exported",
    "Verif.GoNames.C64_styles_false",
    "Verif.GoNames.C64_digit_false",
    "Verif.GoNames.C64_full_names_false",
    "Verif.GoNames.C64_private_partial"
   ],
   "note": "Proved for names in snake case without a letter after a digit. False of the code otherwise: user_id and userId, line1b and line1_b become the same Go name, and no check rejects them (witnesses proved)."
  },
  {
   "property": "C65",
   "status": "partial",
   "theorems": [
    "Verif.MsgArgs.C65_arguments_partial",
    "Verif.MsgArgs.C65_snake_partial",
    "Verif.MsgArgs.C65_custom_resolver_partial",
    "Verif.MsgArgs.C65_custom_resolver_arguments_partial",
    "Verif.MsgArgs.C65_struct_once",
    "Verif.MsgArgs.C65_struct_partial",
    "Verif.MsgArgs.C65_same_name_false",
    "Verif.MsgArgs.C65_struct_false"
   ],
   "note": "False of the code for a used variable with the name of an argument: the fields see the variable as `$.x`, and the argument struct has the type of the variable (witnesses proved). Proved for all others."
  },
  {
   "property": "C68",
   "status": "partial",
   "theorems": [
    "Verif.GenRefs.C68_resolvers_partial",
    "Verif.GenRefs.C68_clients_partial",
    "Verif.GenRefs.C68_constants_partial",
    "Verif.GenRefs.C68_custom_resolvers_partial",
    "Verif.GenRefs.C68_resolvers_false",
    "Verif.GenRefs.C68_clients_false",
    "Verif.GenRefs.C68_constants_false",
    "Verif.GenRefs.C68_custom_resolvers_false"
   ],
   "note": "False of the code for: a response message that another message resolves; clients of methods with the response option, of messages only service variables use, of calls two error levels deep or in error entries of oneof fields; constants of messages only error entries resolve and of method names not written like Go names; custom resolvers of messages only oneof fields resolve (witnesses proved). Proved for all services without these."
  },
  {
   "property": "C69",
   "status": "partial",
   "theorems": [
    "Verif.GenRefs.C69_planned_partial",
    "Verif.GenRefs.C69_only",
    "Verif.GenRefs.C69_planned_false"
   ],
   "note": "False of the code for definitions in error entries of calls that are themselves in error entries or in oneof fields (witnesses proved): they get no plan. Proved for all other messages."
  },
  {
   "property": "C70",
   "status": "partial",
   "theorems": [
    "Verif.Emit.C70_entries_partial",
    "Verif.Emit.C70_entries_false"
   ],
   "note": "False of the code if two entries of a call each evaluate definitions concurrently (witness proved); proved if at most one does."
  },
  {
   "property": "C71",
   "status": "partial",
   "theorems": [
    "Verif.Watch.C71_current_partial",
    "Verif.Watch.C71_once",
    "Verif.Watch.C71_events",
    "Verif.Watch.C71_import_false",
    "Verif.Watch.C71_failure_false",
    "Verif.Watch.C71_names_false",
    "Verif.Watch.C71_shared_name_false",
    "Verif.Watch.C71_unnoticed_false",
    "Verif.Watch.C71_events_all_false"
   ],
   "note": "False of the code: changing an imported file does not regenerate its importers; removing a file that had an error leaves its generated files; a changed output name leaves the old file; removing one of two files with a common output can remove it; events during a generation are lost, and their files stay stale (witnesses proved). Proved for all histories without these. Changes while the handler runs count as later changes; file system operations succeed."
  },
  {
   "property": "C72",
   "status": "partial",
   "theorems": [
    "Verif.GenPlugin.C72_hash",
    "Verif.GenPlugin.C72_runs",
    "Verif.GenPlugin.C72_requests_partial",
    "Verif.GenPlugin.C72_requests_false",
    "Verif.GenPlugin.C72_errors",
    "Verif.GenPlugin.C72_protoc_failure_partial",
    "Verif.GenPlugin.C72_protoc_error_false"
   ],
   "note": "Hashes and failures: proved. False of the code for two plugins: the second and later ones get an empty request; and an error a protoc plugin reports in its response is ignored (witnesses proved). Proved for one plugin."
  },
  {
   "property": "C66",
   "status": "partial",
   "theorems": [
    "Verif.AutoName.C66_distinct_partial",
    "Verif.AutoName.C66_messages_partial",
    "Verif.AutoName.C66_accept_partial",
    "Verif.AutoName.C66_reject",
    "Verif.AutoName.C66_usable_partial",
    "Verif.AutoName.C66_word_false",
    "Verif.AutoName.C66_entries_false",
    "Verif.AutoName.C66_oneofs_false",
    "Verif.AutoName.C66_nested_false",
    "Verif.AutoName.C66_messages_false",
    "Verif.AutoName.C66_again_partial",
    "Verif.AutoName.C66_again_false"
   ],
   "note": "False of the code: messages with unnamed definitions in two error entries of a call, in two oneof fields or in nested error entries are rejected; messages of details in different entries share a name; words of CEL such as `in` are accepted although no expression can refer to them; a second call of Resolve on the same resolver reports generated names (witnesses proved). Proved for all other messages."
  },
  {
   "property": "C73",
   "status": "partial",
   "theorems": [
    "Verif.MapSrc.C73_reported",
    "Verif.MapSrc.C73_exact_partial",
    "Verif.MapSrc.C73_entry_false",
    "Verif.MapSrc.C73_detail_false",
    "Verif.MapSrc.C73_oneof_false",
    "Verif.MapSrc.C73_service_sound",
    "Verif.MapSrc.C73_service_partial",
    "Verif.MapSrc.C73_service_false",
    "Verif.MapSrc.C73_service_leak"
   ],
   "note": "No variable out of scope is accepted. False of the code in error entries, details and oneof fields, where variables around them are rejected (witnesses proved). Proved for all messages with maps elsewhere. For variables of services: exact if one file has services with variables; false of the code for several files, where the first service of a file finds the variables of services of earlier files (witness proved)."
  },
  {
   "property": "C74",
   "status": "partial",
   "theorems": [
    "Verif.OutPath.C74_name",
    "Verif.OutPath.C74_source_relative_partial",
    "Verif.OutPath.C74_source_relative_outside",
    "Verif.OutPath.C74_import",
    "Verif.OutPath.C74_module_partial",
    "Verif.OutPath.C74_module_false",
    "Verif.OutPath.C74_dots_false",
    "Verif.OutPath.C74_distinct_partial",
    "Verif.OutPath.C74_import_distinct",
    "Verif.OutPath.C74_case_false",
    "Verif.OutPath.C74_files_partial",
    "Verif.OutPath.C74_plugin_false",
    "Verif.OutPath.C74_requested_false",
    "Verif.OutPath.C74_generator_partial",
    "Verif.OutPath.C74_generator_own_partial",
    "Verif.OutPath.C74_generator_false"
   ],
   "note": "False of the code: the generator writes code of imported services and plugins next to the importing file with paths=source_relative; the module prefix is cut off in the middle of names; names that differ only in case share an output; directories that start with two dots are not found in import paths; plugins without any federated service get no code; protoc also gets code for files it does not ask for (witnesses proved). Proved for all other inputs. Paths contain no . and .. components."
  },
  {
   "property": "C76",
   "status": "partial",
   "theorems": [
    "Verif.GenOpt.C76_options_partial",
    "Verif.GenOpt.C76_errors",
    "Verif.GenOpt.C76_unknown",
    "Verif.GenOpt.C76_port_false",
    "Verif.GenOpt.C76_separator_false",
    "Verif.GenOpt.C76_module_false",
    "Verif.GenOpt.C76_plugin_name",
    "Verif.GenOpt.C76_plugins",
    "Verif.GenOpt.C76_plugins_found"
   ],
   "note": "False of the code for plugin locations with a colon (URLs with a port), values with a separator, and a module before paths, which is ignored silently (witnesses proved). Proved for all other options. Downloads succeed."
  },
  {
   "property": "C77",
   "status": "proved",
   "theorems": [
    "Verif.ImportGraph.C77_imports_end",
    "Verif.ImportGraph.C77_imports",
    "Verif.ImportGraph.C77_imports_error",
    "Verif.ImportGraph.C77_registered",
    "Verif.ImportGraph.C77_cycles",
    "Verif.ImportGraph.C77_resolved",
    "Verif.ImportGraph.C77_check_needed"
   ],
   "note": "Compiling a file gives it with everything it depends on (the compiler is not modelled); files have different names."
  },
  {
   "property": "C75",
   "status": "partial",
   "theorems": [
    "Verif.FileEnums.C75_enums",
    "Verif.FileEnums.C75_plugins",
    "Verif.FileEnums.C75_exact",
    "Verif.FileEnums.C75_runtime_partial",
    "Verif.FileEnums.C75_declared",
    "Verif.FileEnums.C75_runtime_false",
    "Verif.FileEnums.C75_own_plugin_false"
   ],
   "note": "False of the code: functions on enums of google (except google.rpc.Code) and attributes of enums without any are accepted and do not exist in the service; a plugin of an import hides one of the same name of the file (witnesses proved). Proved for all others."
  },
  {
   "property": "C67",
   "status": "partial",
   "theorems": [
    "Verif.Recover.C67_panic_partial",
    "Verif.Recover.C67_no_panic",
    "Verif.Recover.C67_panic_false",
    "Verif.Recover.C67_logged_partial",
    "Verif.Recover.C67_logged_false"
   ],
   "note": "False of the code for texts of several lines (only the first one is kept and the stack trace is lost) and for logs of panics in calls with a timeout (no stack trace). Witnesses proved; proved for all others. singleflight and grpc/status are taken as documented."
  },
  {
   "property": "C78",
   "status": "proved",
   "theorems": [
    "Verif.Recover.C78_level",
    "Verif.Recover.C78_default",
    "Verif.Recover.C78_message"
   ],
   "note": ""
  },
  {
   "property": "C79",
   "status": "partial",
   "theorems": [
    "Verif.FuncCall.C79_functions",
    "Verif.FuncCall.C79_methods_partial",
    "Verif.FuncCall.C79_std_methods_partial",
    "Verif.FuncCall.C79_std_false",
    "Verif.FuncCall.C79_recompile",
    "Verif.FuncCall.C79_documented_functions",
    "Verif.FuncCall.C79_documented_methods_partial"
   ],
   "note": "Functions: proved, and for every function of the indices of docs/cel that it is one of them. Methods: proved for every method of those indices but `Time.add` and `URL.parse`; called exactly if no function of the same last part is declared later; false of the code for `Time.add`, `URL.parse` and five string methods of CEL, which can not be called at all. Macros and name lookup of cel-go are taken as documented; types of arguments other than the context are not modelled."
  },
  {
   "property": "C80",
   "status": "partial",
   "theorems": [
    "Verif.FuncCall.C80_accepted_partial",
    "Verif.FuncCall.C80_accepted_false",
    "Verif.FuncCall.C80_callable_false",
    "Verif.FuncCall.C80_packages_partial",
    "Verif.FuncCall.C80_packages_false"
   ],
   "note": "Proved if names of plugins are apart from all others and expressions are in the package of the service. False of the code otherwise: a plugin function named like a method of CEL breaks the method in the server only; plugin functions called without package from their own package fail in the server only; plugin functions that share their last part with a library function are rejected by the generator; names relative to the package of a message that is not the package of the service fail in the server."
  },
  {
   "property": "C81",
   "status": "partial",
   "theorems": [
    "Verif.CelTy.C81_variable_partial",
    "Verif.CelTy.C81_one_type",
    "Verif.CelTy.C81_expression_partial",
    "Verif.CelTy.C81_expression_false",
    "Verif.CelTy.C81_arguments_false",
    "Verif.CelTy.C81_selector_argument_false",
    "Verif.CelTy.C81_rejected",
    "Verif.CelTy.C81_field_partial",
    "Verif.CelTy.C81_enum_lists_false",
    "Verif.CelTy.C81_map_partial",
    "Verif.CelTy.C81_map_false",
    "Verif.CelTy.C81_map_source"
   ],
   "note": "False of the code for lists in lists or maps, JSON values, lists and maps of enums as fields, maps of lists, the arguments of a message as a whole, and enum selectors passed as arguments, which crash the generator (witnesses proved). Proved for all other types. cel-go is taken as documented."
  },
  {
   "property": "C82",
   "status": "partial",
   "theorems": [
    "Verif.Descr.C82_arguments_partial",
    "Verif.Descr.C82_callers_partial",
    "Verif.Descr.C82_variables_partial",
    "Verif.Descr.C82_map_names_iff",
    "Verif.Descr.C82_map_names_false",
    "Verif.Descr.C82_second_caller_false",
    "Verif.Descr.C82_imports_false",
    "Verif.Descr.C82_library_types_false",
    "Verif.Descr.C82_same_file_name_false"
   ],
   "note": "Proved for the arguments of the first caller and all variables, of types in imported files. False of the code: arguments that only a later caller passes can not be used (the generator crashes for enums); types of files that are not imported directly are rejected; map variables with an underscore or inner upper case letter in the name are rejected; packages and messages that differ in dots and underscores share a file name (proved). Checks of protobuf-go are taken as documented."
  },
  {
   "property": "C83",
   "status": "partial",
   "theorems": [
    "Verif.OneofSel.C83_accepted_iff",
    "Verif.OneofSel.C83_compiles_iff",
    "Verif.OneofSel.C83_compiles_false",
    "Verif.OneofSel.C83_value_partial",
    "Verif.OneofSel.C83_unset",
    "Verif.OneofSel.C83_has_false",
    "Verif.OneofSel.C83_other_messages_false"
   ],
   "note": "Proved for the messages of the service. False of the code: a message with two such oneofs, a oneof of bytes or an optional field gives a server that does not compile; oneofs of other messages (responses of dependencies, arguments) are accepted and unknown to the server; has() is always false (proved). Names of generated Go types are taken to be those of protoc-gen-go."
  },
  {
   "property": "C84",
   "status": "partial",
   "theorems": [
    "Verif.EnumSel.C84_accepted_iff",
    "Verif.EnumSel.C84_constants_false",
    "Verif.EnumSel.C84_compiles_iff",
    "Verif.EnumSel.C84_nested_false_arm_false",
    "Verif.EnumSel.C84_value_partial",
    "Verif.EnumSel.C84_wrap_false",
    "Verif.EnumSel.C84_equal_false",
    "Verif.EnumSel.C84_definition_partial",
    "Verif.EnumSel.C84_definition_rejected",
    "Verif.EnumSel.C84_same_enum_definition_false",
    "Verif.EnumSel.C84_unaliased_arm_false",
    "Verif.EnumSel.C84_definition_casts",
    "Verif.EnumSel.C84_map_casts",
    "Verif.EnumSel.C84_definition_compiles_iff",
    "Verif.EnumSel.C84_map_compiles_iff",
    "Verif.EnumSel.C84_list_definition_false",
    "Verif.EnumSel.C84_map_value_partial",
    "Verif.EnumSel.C84_map_enum_partial",
    "Verif.EnumSel.C84_map_fails"
   ],
   "note": "The value is proved for all accepted expressions. False of the code: a select nested in the value for false does not compile; enum constants (the documented example) and enum fields are rejected; all selectors are equal; an enum definition or map of the same enum, or of a list, does not compile; arms of an enum definition need no alias (proved). Conversions between enums are in C26."
  },
  {
   "property": "C85",
   "status": "partial",
   "theorems": [
    "Verif.SrvTy.C85_variable_partial",
    "Verif.SrvTy.C85_map_of_lists_false",
    "Verif.SrvTy.C85_declared_partial",
    "Verif.SrvTy.C85_declared_iff",
    "Verif.SrvTy.C85_go_type_partial",
    "Verif.SrvTy.C85_list_of_maps_false",
    "Verif.SrvTy.C85_zero",
    "Verif.SrvTy.C85_iterator_go"
   ],
   "note": "False of the code for maps of lists (the generator takes them for maps of the elements) and for the Go type of lists of maps (witnesses proved). Proved for all other types. Names of Go types are not modelled here."
  },
  {
   "property": "C86",
   "status": "partial",
   "theorems": [
    "Verif.ImportWarn.C86_unused_partial",
    "Verif.ImportWarn.C86_reported_partial",
    "Verif.ImportWarn.C86_each",
    "Verif.ImportWarn.C86_only_partial",
    "Verif.ImportWarn.C86_unused_false",
    "Verif.ImportWarn.C86_outer_false",
    "Verif.ImportWarn.C86_field_false",
    "Verif.ImportWarn.C86_same_package_false",
    "Verif.ImportWarn.C86_only_false"
   ],
   "note": "False of the code at thirteen places (conditions, retries, comprehensions, response options, ...), for packages in packages, fields named like packages, two files of one package and options of messages (witnesses proved for each). Proved for all other uses at any nesting."
  },
  {
   "property": "C87",
   "status": "partial",
   "theorems": [
    "Verif.Diag.C87_shown_partial",
    "Verif.Diag.C87_exit_partial",
    "Verif.Diag.C87_printed",
    "Verif.Diag.C87_cycle_false",
    "Verif.Diag.C87_text",
    "Verif.Diag.C87_rows",
    "Verif.Diag.C87_compiler",
    "Verif.Diag.C87_file",
    "Verif.Diag.C87_caret",
    "Verif.Diag.C87_protoc_partial",
    "Verif.Diag.C87_generator",
    "Verif.Diag.C87_source_line_partial",
    "Verif.Diag.C87_last_line_false",
    "Verif.Diag.C87_diagnostics_partial",
    "Verif.Diag.C87_no_place_false",
    "Verif.Diag.C87_other_file_false"
   ],
   "note": "False of the code: files that import each other by the option give no problem at all and exit code 0, and crash the protoc plugin; a problem in the last line without newline is shown without its source; the editor shows problems without a place at line 4294967295 and problems of other files in the edited one (proved). Columns are taken as columns of characters."
  },
  {
   "property": "C88",
   "status": "partial",
   "theorems": [
    "Verif.Compile.C88_same_file",
    "Verif.Compile.C88_name_partial",
    "Verif.Compile.C88_name_false",
    "Verif.Compile.C88_edited_partial",
    "Verif.Compile.C88_relative_false",
    "Verif.Compile.C88_shadowed_false",
    "Verif.Compile.C88_import_partial",
    "Verif.Compile.C88_builtin_partial",
    "Verif.Compile.C88_builtin_false",
    "Verif.Compile.C88_missing_false",
    "Verif.Compile.C88_result",
    "Verif.Compile.C88_compiled",
    "Verif.Compile.C88_again_partial",
    "Verif.Compile.C88_again_false",
    "Verif.Compile.C88_option_partial",
    "Verif.Compile.C88_option_false"
   ],
   "note": "Proved for absolute clean import paths that are not prefixes of each other as texts. False of the code otherwise: /a/b is taken as a parent of /a/bc/x.proto; with a relative import path the saved text is compiled instead of the edited one; a file of the same name below an earlier import path is compiled instead; missing files whose name ends like a built-in one are accepted; the option of one compilation stays on for the next ones of the same compiler; an import by the option may be compiled under another name (witnesses proved). Parsing and linking of protocompile are a parameter."
  },
  {
   "property": "C89",
   "status": "partial",
   "theorems": [
    "Verif.EdSync.C89_text",
    "Verif.EdSync.C89_published_partial",
    "Verif.EdSync.C89_shown_partial",
    "Verif.EdSync.C89_stale_false",
    "Verif.EdSync.C89_paths_false",
    "Verif.EdSync.C89_unparsable_false",
    "Verif.EdSync.C89_opened_false",
    "Verif.EdSync.C89_closed_false"
   ],
   "note": "Proved: each answer is that of a text the document had, and of the last one if its check is the last to finish. False of the code: an earlier check may finish later and its problems stay; the import paths of the shared validator grow with each check, racing; problems stay shown when the text can not be parsed; a document is not checked when it is opened or closed (witnesses proved)."
  },
  {
   "property": "C90",
   "status": "partial",
   "theorems": [
    "Verif.Defn.C90_type_partial",
    "Verif.Defn.C90_found",
    "Verif.Defn.C90_same_name_false",
    "Verif.Defn.C90_enum_false",
    "Verif.Defn.C90_field_partial",
    "Verif.Defn.C90_field_false",
    "Verif.Defn.C90_own_package_false",
    "Verif.Defn.C90_package_false",
    "Verif.Defn.C90_no_package_false",
    "Verif.Defn.C90_unsaved_false",
    "Verif.Defn.C90_directory_false",
    "Verif.Defn.C90_path_partial",
    "Verif.Defn.C90_method_partial",
    "Verif.Defn.C90_method_false",
    "Verif.Defn.C90_import_partial",
    "Verif.Defn.C90_import_false",
    "Verif.Defn.Target.C90_option_partial",
    "Verif.Defn.Target.C90_field_type",
    "Verif.Defn.Target.C90_import_name",
    "Verif.Defn.Target.C90_nested_false",
    "Verif.Defn.Target.C90_map_false",
    "Verif.Defn.Target.C90_alias_false",
    "Verif.Defn.Target.C90_service",
    "Verif.Defn.Target.C90_enum_alias",
    "Verif.Defn.Target.C90_name_partial",
    "Verif.Defn.Target.C90_single_quotes_false",
    "Verif.Defn.Target.C90_selects",
    "Verif.Defn.Target.C90_links",
    "Verif.Defn.Target.C90_place"
   ],
   "note": "Proved for saved files below an import path, if the last part of the name is declared once in its file. False of the code otherwise: two types or methods of the same last part in a file; enums of a file; types of a message further out; names with the package of the file itself; files whose name is the end of the path of another; unsaved texts; files in the directory of the document (witnesses proved). Which search is made at a position is proved for every text of the option of a message that is not nested, for field types and imports; false of the code in nested messages and map expressions (nothing is searched, proved for all of them) and for aliases of fields and enum values (a type is searched). The links select the name without its quotation marks and lead to the places that were found; false of the code for names in single quotation marks (an error, proved for all of them)."
  },
  {
   "property": "C91",
   "status": "partial",
   "theorems": [
    "Verif.SrcLoc.C91_message_partial",
    "Verif.SrcLoc.C91_missing",
    "Verif.SrcLoc.C91_somewhere",
    "Verif.SrcLoc.C91_iterator",
    "Verif.SrcLoc.C91_field",
    "Verif.SrcLoc.C91_field_option_partial",
    "Verif.SrcLoc.C91_field_by",
    "Verif.SrcLoc.C91_enum",
    "Verif.SrcLoc.C91_enum_value_partial",
    "Verif.SrcLoc.C91_enum_alias_partial",
    "Verif.SrcLoc.C91_service_partial",
    "Verif.SrcLoc.C91_method_partial",
    "Verif.SrcLoc.C91_import",
    "Verif.SrcLoc.C91_import_names",
    "Verif.SrcLoc.C91_imports",
    "Verif.SrcLoc.C91_message_alias",
    "Verif.SrcLoc.C91_enum_value_alias",
    "Verif.SrcLoc.C91_go_package",
    "Verif.SrcLoc.C91_named",
    "Verif.SrcLoc.C91_part_false",
    "Verif.SrcLoc.C91_part_shown",
    "Verif.SrcLoc.C91_oneof_defs_false",
    "Verif.SrcLoc.C91_split_string_false",
    "Verif.SrcLoc.C91_two_options_false",
    "Verif.SrcLoc.C91_method_false",
    "Verif.SrcLoc.C91_plugin_false",
    "Verif.SrcLoc.C91_oneof_false",
    "Verif.SrcLoc.C91_import_false"
   ],
   "note": "Proved for one option statement per declaration and all parts that are searched. False of the code: names of arguments, messages of errors, aliases of fields and types of environment variables lead to the literal around them; the second definition of a oneof to the whole message; strings written as two literals, methods without option and plugins nowhere; only the first option statement and only a list of imports is searched (witnesses proved)."
  },
  {
   "property": "C92",
   "status": "partial",
   "theorems": [
    "Verif.MsgGraph.C92_ends",
    "Verif.MsgGraph.C92_fields",
    "Verif.MsgGraph.C92_declared",
    "Verif.MsgGraph.C92_only_declared",
    "Verif.MsgGraph.C92_one_object_partial",
    "Verif.MsgGraph.C92_name_partial",
    "Verif.MsgGraph.C92_option_partial",
    "Verif.MsgGraph.C92_plugin_partial",
    "Verif.MsgGraph.C92_one_object_false",
    "Verif.MsgGraph.C92_option_false",
    "Verif.MsgGraph.C92_name_false",
    "Verif.MsgGraph.C92_plugin_false"
   ],
   "note": "Ending, fields and declared messages for all files; one object, names and options for files in which no message leads back to one it is declared in. False of the code otherwise: with `message Node { map<string, Node> children = 1; }` the values of the map are a second object without the option; a message in a message in a message referring to the second gives it the name of a top-level message; a plugin whose type has a map field crashes the generator (witnesses proved). Enums, oneofs and their options are not part of this graph."
  },
  {
   "property": "C93",
   "status": "partial",
   "theorems": [
    "Verif.CelTime.C93_instant_partial",
    "Verif.CelTime.C93_reading_partial",
    "Verif.CelTime.C93_kept",
    "Verif.CelTime.C93_utc",
    "Verif.CelTime.C93_date",
    "Verif.CelTime.C93_isDST_false",
    "Verif.CelTime.C93_add_false",
    "Verif.CelTime.C93_addDate_false",
    "Verif.CelTime.C93_parse_false",
    "Verif.CelTime.C93_zero_offset_false",
    "Verif.CelTime.C93_fixedZone_false",
    "Verif.CelTime.C93_tzData_false",
    "Verif.CelTime.C93_location_false"
   ],
   "note": "Instants are right without addDate and with locations by name; all else if the zone does not change during a computation. False of the code: between two calls a time keeps only abbreviation and offset of its zone, so computations over the begin of daylight saving time are an hour off, isDST is always false, zones with offset zero are looked up by their abbreviation, data of zones is dropped, location() is the abbreviation (witnesses proved). The calendar is a parameter."
  },
  {
   "property": "C94",
   "status": "partial",
   "theorems": [
    "Verif.CelStr.C94_go_partial",
    "Verif.CelStr.C94_names",
    "Verif.CelStr.C94_overloads",
    "Verif.CelStr.C94_char",
    "Verif.CelStr.C94_code",
    "Verif.CelStr.C94_char_false",
    "Verif.CelStr.C94_code_false",
    "Verif.CelStr.C94_bytes_false",
    "Verif.CelStr.C94_empty_false",
    "Verif.CelStr.C94_error",
    "Verif.CelStr.C94_error_false",
    "Verif.CelStr.C94_append_partial",
    "Verif.CelStr.C94_append_false"
   ],
   "note": "Proved for characters of ASCII, errors without percent sign and bytes that are appended to once. False of the code: of other characters the first byte is taken; code points above 32 bits are cut; overloads for bytes and empty texts always fail; percent signs in errors are taken as formats; appending twice to the same bytes changes the first result (witnesses proved)."
  },
  {
   "property": "C95",
   "status": "partial",
   "theorems": [
    "Verif.CelUrl.C95_kept",
    "Verif.CelUrl.C95_go_partial",
    "Verif.CelUrl.C95_reading_partial",
    "Verif.CelUrl.C95_user",
    "Verif.CelUrl.C95_join_partial",
    "Verif.CelUrl.C95_join_false",
    "Verif.CelUrl.C95_raw_false",
    "Verif.CelUrl.C95_no_user_false",
    "Verif.CelUrl.C95_password_false"
   ],
   "note": "All functions but the method joinPath for all URLs, joinPath for paths that need no escaping. False of the code: joinPath takes the unescaped path for a URL and keeps the escaped result as path, so it is escaped twice, and leaves the raw path; a URL without user has an empty one (witnesses proved)."
  },
  {
   "property": "C96",
   "status": "partial",
   "theorems": [
    "Verif.CelRand.C96_taken_partial",
    "Verif.CelRand.C96_seed_partial",
    "Verif.CelRand.C96_reseed",
    "Verif.CelRand.C96_equal",
    "Verif.CelRand.C96_equal_seed",
    "Verif.CelRand.C96_int31n",
    "Verif.CelRand.C96_self_false",
    "Verif.CelRand.C96_compare_false",
    "Verif.CelRand.C96_int31n_false"
   ],
   "note": "Proved if sources are not compared. False of the code: == takes a number from both sides, so a source is not equal to itself and gives other numbers afterwards; arguments of int31n are cut to 32 bits (witnesses proved)."
  },
  {
   "property": "C97",
   "status": "partial",
   "theorems": [
    "Verif.Tree.C97_picture_partial",
    "Verif.Tree.C97_determines_partial",
    "Verif.Tree.C97_shown",
    "Verif.Tree.C97_single_false"
   ],
   "note": "Proved for two or more groups. False of the code: with one group nothing is shown, although a chain of definitions that wait for each other is one group (witness proved)."
  },
  {
   "property": "C98",
   "status": "partial",
   "theorems": [
    "Verif.Method.C98_arguments_partial",
    "Verif.Method.C98_answer_partial",
    "Verif.Method.C98_option",
    "Verif.Method.C98_fields_partial",
    "Verif.Method.C98_timeout",
    "Verif.Method.C98_both_never",
    "Verif.Method.C98_both_false",
    "Verif.Method.C98_requests_false",
    "Verif.Method.C98_built_false",
    "Verif.Method.C98_types_false",
    "Verif.Method.C98_streaming_false"
   ],
   "note": "Proved for methods with at most one of the options whose message is their own. False of the code: a method with both options does not compile; of two methods with the same response and different requests one does not compile, and the order of a map decides which; neither does a method whose response another message builds; fields of the response option are compared by kind only, so a list is taken for a single value; streaming methods are accepted (witnesses proved)."
  },
  {
   "property": "C99",
   "status": "partial",
   "theorems": [
    "Verif.PlugTy.C99_type_partial",
    "Verif.PlugTy.C99_function_partial",
    "Verif.PlugTy.C99_accepted",
    "Verif.PlugTy.C99_arity",
    "Verif.PlugTy.C99_names_partial",
    "Verif.PlugTy.C99_nested_false",
    "Verif.PlugTy.C99_undeclared_false",
    "Verif.PlugTy.C99_missing_false",
    "Verif.PlugTy.C99_no_return_false",
    "Verif.PlugTy.C99_map_enum_false",
    "Verif.PlugTy.C99_names_false"
   ],
   "note": "Types are right exactly if lists are lists of base types, messages or enums, and all names are declared; names if none ends in a digit. False of the code: a list of lists becomes a list, a list of maps a map; an undeclared message is accepted and crashes the generator, as does a function without result; an argument without type crashes the resolver; maps, and enums as results, give code that does not compile; the second overload of `foo` is named like a function `foo2` (witnesses proved)."
  },
  {
   "property": "C100",
   "status": "proved",
   "theorems": [
    "Verif.Value.C100_values",
    "Verif.Value.C100_failure",
    "Verif.Value.C100_no_failure",
    "Verif.Value.C100_same",
    "Verif.Value.C100_progress",
    "Verif.Value.C100_completes"
   ],
   "note": "For accepted messages (names given and different: C66; no reference to itself: C08; reads only what it refers to: C09) and evaluations that are functions of what they read. Writing a variable and ending the evaluation are one step."
  },
  {
   "property": "C101",
   "status": "partial",
   "theorems": [
    "Verif.LogFn.C101_ends",
    "Verif.LogFn.C101_once",
    "Verif.LogFn.C101_declared",
    "Verif.LogFn.C101_compiles_partial",
    "Verif.LogFn.C101_logged_partial",
    "Verif.LogFn.C101_argument_partial",
    "Verif.LogFn.C101_maps_false",
    "Verif.LogFn.C101_argument_name_false",
    "Verif.LogFn.C101_alias_false",
    "Verif.LogFn.C101_nested_false",
    "Verif.LogFn.C101_used_false"
   ],
   "note": "Proved if different types have different Go names, enums have no aliases, used variables have the type of the argument of that name, and names of nested messages begin with a capital letter. False of the code otherwise: maps made by expressions share one function; the argument of `Foo` has the name of a message `FooArgument`; an enum with two names for a number gives a switch with a duplicate case; the argument of a nested message `bar` is declared under another name than the function that logs it; a variable with the name of an argument replaces its field (witnesses proved). The type of enum.select is not modelled."
  },
  {
   "property": "C102",
   "status": "partial",
   "theorems": [
    "Verif.SetArg.C102_accepted",
    "Verif.SetArg.C102_request_generated_partial",
    "Verif.SetArg.C102_request_declared_partial",
    "Verif.SetArg.C102_request_compiles_partial",
    "Verif.SetArg.C102_request_partial",
    "Verif.SetArg.C102_arguments_generated_partial",
    "Verif.SetArg.C102_arguments_compile_partial",
    "Verif.SetArg.C102_arguments_partial",
    "Verif.SetArg.C102_oneof_enum_false",
    "Verif.SetArg.C102_selector_false",
    "Verif.SetArg.C102_enum_crash_false",
    "Verif.SetArg.C102_argument_types_false",
    "Verif.SetArg.C102_argument_numbers_false",
    "Verif.SetArg.C102_inline_empty_false",
    "Verif.SetArg.C102_null_argument_false"
   ],
   "note": "Proved if values have the type they are given for or differ only in the kind of number, message or enum (for arguments: kind of scalar or enum). False of the code otherwise, although accepted: an enum member of a oneof given another enum, a value of enum.select for an enum, two messages or enums or a list and a single value for one argument, a number of another kind in an inlined message or inside a map, and inlining a message without fields do not compile; a message or map for an enum crashes the generator; null as argument panics at run time (witnesses proved)."
  },
  {
   "property": "C103",
   "status": "proved",
   "theorems": [
    "Verif.Whole.C103_answer",
    "Verif.Whole.C103_depth",
    "Verif.Whole.C103_progress",
    "Verif.Whole.C103_accepted_partial",
    "Verif.Whole.C103_self_false"
   ],
   "note": "For messages as in C100 that do not depend on themselves; if every message is below one that none depends on, acceptance guarantees that (C103_accepted_partial), else it does not: a message that uses itself is accepted and never ends (C103_self_false, see C10). Definitions of error entries and of oneof fields are part of functions of the variables and use no messages here."
  },
  {
   "property": "C104",
   "status": "partial",
   "theorems": [
    "Verif.Embed.C104_expression",
    "Verif.Embed.C104_locale",
    "Verif.Embed.C104_quoted",
    "Verif.Embed.C104_argument_comment",
    "Verif.Embed.C104_field_comment",
    "Verif.Embed.C104_autobind_comment",
    "Verif.Embed.C104_definition_comment",
    "Verif.Embed.C104_file_partial",
    "Verif.Embed.C104_definition_partial",
    "Verif.Embed.C104_argument_partial",
    "Verif.Embed.C104_details_partial",
    "Verif.Embed.C104_expression_changed_false",
    "Verif.Embed.C104_carriage_return_false",
    "Verif.Embed.C104_backquote_false",
    "Verif.Embed.C104_locale_false",
    "Verif.Embed.C104_definition_comment_false"
   ],
   "note": "Proved exactly for expressions without backquote and carriage return, locales without quotes and backslashes, and definitions without `*/`. False of the code otherwise: an expression with a backquote changes or the file has no meaning for Go, carriage returns disappear, escapes in a locale are replaced, and a definition with the expression '*/*' ends its own comment (witnesses proved)."
  },
  {
   "property": "C105",
   "status": "partial",
   "theorems": [
    "Verif.EnvTag.C105_accepted",
    "Verif.EnvTag.C105_tag_partial",
    "Verif.EnvTag.C105_variable_partial",
    "Verif.EnvTag.C105_start_partial",
    "Verif.EnvTag.C105_twice_false",
    "Verif.EnvTag.C105_backquote_false",
    "Verif.EnvTag.C105_alternate_false",
    "Verif.EnvTag.C105_required_false"
   ],
   "note": "Proved for options without backquote, alternate names in capital letters and required variables without default. False of the code: a variable listed twice is accepted, a backquote in a default ends the tag, an alternate name with small letters is never read under that name, and a required variable with a default may be missing (witnesses proved). envconfig and reflect.StructTag are modelled from their definitions, not from /repo."
  },
  {
   "property": "C106",
   "status": "partial",
   "theorems": [
    "Verif.EnumAttr.C106_accepted_partial",
    "Verif.EnumAttr.C106_attr_partial",
    "Verif.EnumAttr.C106_names_partial",
    "Verif.EnumAttr.C106_complete_false",
    "Verif.EnumAttr.C106_crash_false",
    "Verif.EnumAttr.C106_number_false",
    "Verif.EnumAttr.C106_twice_false",
    "Verif.EnumAttr.C106_large_false",
    "Verif.EnumAttr.C106_unknown_false"
   ],
   "note": "Proved if no value has an attribute twice, numbers are different and in 32 bits, and strings have no backquote. False of the code: an attribute written twice at one value and missing at another is accepted, and crashes the generator if that value has no option; two values with one number, or an attribute written twice, give a table that does not compile; larger numbers are cut to 32 bits; `value` of an unknown name is 0 (witnesses proved)."
  },
  {
   "property": "C107",
   "status": "partial",
   "theorems": [
    "Verif.Start.C107_starts",
    "Verif.Start.C107_check",
    "Verif.Start.C107_clients",
    "Verif.Start.C107_cleanup",
    "Verif.Start.C107_failed_partial",
    "Verif.Start.C107_failed_false"
   ],
   "note": "Proved but for the last part: if `New` fails no plugin instance runs only if there are no plugins or it failed before they were loaded; an environment that cannot be read, or a check that fails, leaves all instances running (witness proved)."
  },
  {
   "property": "C108",
   "status": "partial",
   "theorems": [
    "Verif.Locals.C108_fields_partial",
    "Verif.Locals.C108_arguments_partial",
    "Verif.Locals.C108_snake",
    "Verif.Locals.C108_value_partial",
    "Verif.Locals.C108_nested_false",
    "Verif.Locals.C108_oneof_false",
    "Verif.Locals.C108_names_false",
    "Verif.Locals.C108_value_false"
   ],
   "note": "Proved exactly: with different Go names (C108_snake: snake case names), the code compiles in this respect if and only if error entries inside error entries and inside oneof fields have no definitions. False of the code otherwise: definitions of such inner error entries are not declared, `foo_bar` and `fooBar` give one field twice, and an expression on a field with a custom resolver or in a oneof leaves the variable unused (witnesses proved)."
  },
  {
   "property": "C109",
   "status": "partial",
   "theorems": [
    "Verif.FindPos.C109_contains",
    "Verif.FindPos.C109_found_partial",
    "Verif.FindPos.C109_option",
    "Verif.FindPos.C109_field_type",
    "Verif.FindPos.C109_field_by",
    "Verif.FindPos.C109_import",
    "Verif.FindPos.C109_timeout",
    "Verif.FindPos.C109_twice_false",
    "Verif.FindPos.C109_after_field_false",
    "Verif.FindPos.C109_after_method_false",
    "Verif.FindPos.C109_enum_false",
    "Verif.FindPos.C109_default_false",
    "Verif.FindPos.C109_compound_false"
   ],
   "note": "Soundness for tidy files: repeated fields of options are written as lists, and options, nested messages and enums come before fields and methods. False of the code otherwise: a second field `def` is taken for the first, an option after a field leads to the field, an option of a service after a method leads nowhere, enums of files are never searched, an alias after `default: true` and anything after a string of two literals is not found (witnesses proved)."
  },
  {
   "property": "C110",
   "status": "partial",
   "theorems": [
    "Verif.SemTok.C110_positions",
    "Verif.SemTok.C110_legend_partial",
    "Verif.SemTok.C110_name",
    "Verif.SemTok.C110_name_apart",
    "Verif.SemTok.C110_name_order_partial",
    "Verif.SemTok.C110_expression_partial",
    "Verif.SemTok.C110_expression_column",
    "Verif.SemTok.C110_call_partial",
    "Verif.SemTok.C110_file_partial",
    "Verif.SemTok.C110_names_partial",
    "Verif.SemTok.C110_brace_false",
    "Verif.SemTok.C110_enum_false",
    "Verif.SemTok.C110_call_false",
    "Verif.SemTok.C110_comment_false",
    "Verif.SemTok.C110_legend_false",
    "Verif.SemTok.C110_single_false",
    "Verif.SemTok.C110_names_false",
    "Verif.SemTok.C110_details_false"
   ],
   "note": "Proved: positions are right if and only if tokens are in order, and they are for files whose comments and terminals follow one another and whose names are in double quotation marks. False of the code: `enum: {\u2026}` and a list of aliases, a comment of several lines before a token to the left of its column, and a call whose parenthesis starts a line give a negative difference, which is read as more than four thousand million columns; a type the client does not know is read as the first one it knows; texts in single quotation marks overlap; arguments before the name, and messages of a list but the first, are classified wrongly (witnesses proved). Lengths are in bytes; the parser of expressions is a parameter."
  },
  {
   "property": "C111",
   "status": "partial",
   "theorems": [
    "Verif.MsgOnce.C111_once_partial",
    "Verif.MsgOnce.C111_ends",
    "Verif.MsgOnce.C111_alias_partial",
    "Verif.MsgOnce.C111_twice_false",
    "Verif.MsgOnce.C111_panics_partial",
    "Verif.MsgOnce.C111_panic_false"
   ],
   "note": "Proved if no nested message leads, by nesting and fields, back to the message it is nested in. False of the code otherwise: a message is put in the cache only after its nested messages are resolved, so `message A { message B { A a = 1; } }` gives two objects of A, and the field refers to the one whose options are never resolved; a declared alias is then not found (witness proved). The resolution also panics for the types a plugin exports, exactly if such a type is not resolved yet and has a nested message, for instance that of a map field, that is not resolved yet and not empty: the builder of locations it is given makes a new message each time, and what is nested in it is nil (exact condition and witness proved). Lookup of names is a parameter."
  },
  {
   "property": "C112",
   "status": "partial",
   "theorems": [
    "Verif.Calls.C112_calls",
    "Verif.Calls.C112_once_partial",
    "Verif.Calls.C112_answer",
    "Verif.Calls.C112_evaluations",
    "Verif.Calls.C112_evaluated_once_partial",
    "Verif.Calls.C112_twice_false"
   ],
   "note": "Proved for all programs: the same calls, as a set, and a definition is evaluated at most as often as it occurs in the plan. As often as the definitions say if no two definitions of a message wait for the same one. False of the code otherwise: two goroutines that both miss the cache before the first evaluation ends make the call twice (witness proved: a request that succeeds after two calls). What is called for one definition, retries included, is a function of the variables."
  },
  {
   "property": "C113",
   "status": "partial",
   "theorems": [
    "Verif.LocBuild.C113_location_partial",
    "Verif.LocBuild.C113_unchanged_partial",
    "Verif.LocBuild.C113_runs_partial",
    "Verif.LocBuild.C113_lazyMessage_partial",
    "Verif.LocBuild.C113_lazyEnum_partial",
    "Verif.LocBuild.C113_env_false",
    "Verif.LocBuild.C113_forgotten_false",
    "Verif.LocBuild.C113_lazy_false",
    "Verif.LocBuild.C113_lazyEnum_false"
   ],
   "note": "Proved for all builders but those for entries of the environment, and all parts but five. False of the code otherwise: WithVar of the environment builder keeps the new root in its function, so that WithName, WithType and WithOption of an entry change the location taken before and give one that points at the whole entry; Clone does not copy ImportName, If of a request, If of a retry, IgnoreAndResponse of an error and By of a detail, so the next call forgets them; lazy builders panic at the second level and forget the option of an enum (witnesses proved)."
  },
  {
   "property": "C114",
   "status": "partial",
   "theorems": [
    "Verif.Unfinished.C114_partial",
    "Verif.Unfinished.C114_validation_panics",
    "Verif.Unfinished.C114_custom_panics",
    "Verif.Unfinished.C114_map_panics",
    "Verif.Unfinished.C114_argument_panics",
    "Verif.Unfinished.C114_autobind_panics",
    "Verif.Unfinished.C114_autobind_unknown_panics",
    "Verif.Unfinished.C114_condition_panics",
    "Verif.Unfinished.C114_false",
    "Verif.Unfinished.C114_service_partial",
    "Verif.Unfinished.C114_service_missing_panics",
    "Verif.Unfinished.C114_service_message_panics",
    "Verif.Unfinished.C114_service_map_panics"
   ],
   "note": "Proved: no panic if nothing is missing, whatever else is wrong (undefined names, rejected expressions, names that are not allowed). False of the code otherwise, proved for all messages: a validation without `error`, a map without expression and without iterator name or source, an argument without value (or with two) of a message with options, and without expression a definition with `autobind`, with a condition that refers to a variable, or of a message with a custom resolver make the resolver panic, and so does `autobind` of a message that does not exist. The same for the variables of services: no panic if no expression is missing and all messages exist; a variable without expression, a message that does not exist, and a map without expression and iterator make the resolver panic. Not modelled: values that no later step reads. The checker of expressions is a parameter."
  },
  {
   "property": "C115",
   "status": "partial",
   "theorems": [
    "Verif.ProtoNames.C115_name_exact",
    "Verif.ProtoNames.C115_message_partial",
    "Verif.ProtoNames.C115_wellknown",
    "Verif.ProtoNames.C115_enum_partial",
    "Verif.ProtoNames.C115_value_partial",
    "Verif.ProtoNames.C115_fields_partial",
    "Verif.ProtoNames.C115_wrapper_partial",
    "Verif.ProtoNames.C115_request_partial",
    "Verif.ProtoNames.C115_response_partial",
    "Verif.ProtoNames.C115_client_partial",
    "Verif.ProtoNames.C115_call_exact",
    "Verif.ProtoNames.C115_method",
    "Verif.ProtoNames.C115_own_false",
    "Verif.ProtoNames.C115_nested_request_false",
    "Verif.ProtoNames.C115_lower_false",
    "Verif.ProtoNames.C115_camel_false",
    "Verif.ProtoNames.C115_reserved_false",
    "Verif.ProtoNames.C115_getter_false",
    "Verif.ProtoNames.C115_wrapper_false"
   ],
   "note": "Proved for messages, enums and values if and only if no nested name starts with a lower case letter; for fields whose Go names are different and no methods; for calls of services in other packages with requests that are not nested and with names in camel case. False of the code otherwise, each with a witness or for all inputs: a call of a service of the file's own Go package (the package is not imported), a nested request message (its parents are left out), services, responses and methods not in camel case, fields called like a method of messages or like a getter of another field, a nested message with the name of a oneof field in lower case. The rules of protoc-gen-go are from its public behaviour, not from /repo."
  },
  {
   "property": "C116",
   "status": "partial",
   "theorems": [
    "Verif.Offer.C116_message_partial",
    "Verif.Offer.C116_message_false",
    "Verif.Offer.C116_method_exact",
    "Verif.Offer.C116_method_partial",
    "Verif.Offer.C116_method_false",
    "Verif.Offer.C116_offered",
    "Verif.Offer.C116_name_exact",
    "Verif.Offer.C116_own_name",
    "Verif.Offer.C116_name_false",
    "Verif.Offer.C116_keywords",
    "Verif.Offer.C116_keywords_exact",
    "Verif.Offer.C116_filter_sound",
    "Verif.Offer.C116_filter_partial",
    "Verif.Offer.C116_filter_false",
    "Verif.Offer.C116_items",
    "Verif.Offer.C116_items_false"
   ],
   "note": "Proved if one package has the message among the files whose names end the path; for methods of packages that are not inside that of the message; for names that no known package is a part of once they are shortened; for texts in double quotation marks. False of the code otherwise (witnesses proved): a file whose name ends the path of another one, methods of packages inside the own one (never offered), shortened names that start like another package, aliases of messages and enums and enums for numbers (not offered), lists for single values (offered), texts in single quotation marks (never completed). Not modelled: collecting values from variables and parts of messages; columns count characters."
  },
  {
   "property": "C117",
   "status": "partial",
   "theorems": [
    "Verif.Given.C117_passed",
    "Verif.Given.C117_field_partial",
    "Verif.Given.C117_value_partial",
    "Verif.Given.C117_exact_partial",
    "Verif.Given.C117_oneof_not",
    "Verif.Given.C117_handlers",
    "Verif.Given.C117_oneof"
   ],
   "note": "That each variable is assigned: proved for all messages. That it has a field of its type and its value: proved if the Go names of the variables are different (and of the arguments among themselves); for equal ones C108 and C64 have the witnesses. Definitions of oneof options are not passed (C117_oneof_not); the documentation does not promise them. For definitions of error entries, details and oneof options, at any depth, it is proved that they are kept exactly if an expression reads them (messages of details always)."
  },
  {
   "property": "C118",
   "status": "partial",
   "theorems": [
    "Verif.SortKey.C118_reported_iff",
    "Verif.SortKey.C118_accepted_iff",
    "Verif.SortKey.C118_reported_once",
    "Verif.SortKey.C118_no_panic_partial",
    "Verif.SortKey.C118_no_panic",
    "Verif.SortKey.C118_less_iff",
    "Verif.SortKey.C118_rejected_panics",
    "Verif.SortKey.C118_null_false"
   ],
   "note": "Which sorts are reported: proved for all expressions. No crash: proved for keys that are not null, thus for all types except wrappers; false for wrappers (witness: an accepted sort by an Int64Value that is not set in one element panics, depending on the order of elements). The order of the result is C29. Trusted: which cel-go types and values have the trait Comparer, and their Compare."
  },
  {
   "property": "C119",
   "status": "partial",
   "theorems": [
    "Verif.LogVal.C119_sound",
    "Verif.LogVal.C119_complete_partial",
    "Verif.LogVal.C119_typed_iff",
    "Verif.LogVal.C119_attrs_iff",
    "Verif.LogVal.C119_line",
    "Verif.LogVal.C119_plain_line",
    "Verif.LogVal.C119_only",
    "Verif.LogVal.C119_mixed_false",
    "Verif.LogVal.C119_empty_list_false"
   ],
   "note": "Lines and attributes: proved for all sequences of calls in one context (contexts that share attributes are C31 and C63). Nothing else is logged: proved for all values. Everything is logged: proved if each map has keys of one type; false for maps with keys of different types (witness: of the keys 1 and '1' only one is logged) and for empty lists (logged like no list). Not modelled: handlers of slog, and what they print for values that are neither lists nor maps (C101 has messages)."
  },
  {
   "property": "C120",
   "status": "partial",
   "theorems": [
    "Verif.CastOneof.C120_compiles_iff_partial",
    "Verif.CastOneof.C120_member_function_iff",
    "Verif.CastOneof.C120_compiles_false",
    "Verif.CastOneof.C120_string_false",
    "Verif.CastOneof.C120_optional_false",
    "Verif.CastOneof.C120_shared_false",
    "Verif.CastOneof.C120_leaves_oneof_false"
   ],
   "note": "Proved: all functions compile exactly when every member of a oneof of a converted target comes from a message or bytes of another type and is not an optional field, and no member of a oneof is converted into a field outside of oneofs. False of the code otherwise (witnesses: a string in both oneofs, an optional field, a message that both oneofs share; a member that leaves its oneof crashes the generator). Fields of the same name must be of the same form; no renamed fields and enum selectors."
  },
  {
   "property": "C121",
   "status": "partial",
   "theorems": [
    "Verif.SetField.C121_by_partial",
    "Verif.SetField.C121_accepted_by_partial",
    "Verif.SetField.C121_autobind_partial",
    "Verif.SetField.C121_leaves_oneof_iff",
    "Verif.SetField.C121_autobind_member_iff",
    "Verif.SetField.C121_member_by_partial",
    "Verif.SetField.C121_member_by_false",
    "Verif.SetField.C121_member_null_false",
    "Verif.SetField.C121_autobind_string_false",
    "Verif.SetField.C121_accepted_false",
    "Verif.SetField.C121_optional_false"
   ],
   "note": "Proved for values of compatible types (those of C39) if the conversions between aliased messages compile (C120). False of the code otherwise: the type of the expression of a member of a oneof is not checked (a string for a number does not compile, a message for a string crashes the generator); null and enum.select for a member, autobound members that are not messages of another type, optional fields, enums for messages and single messages for lists are accepted and do not compile (witnesses proved). enum.select outside of oneofs is in C84."
  },
  {
   "property": "C122",
   "status": "partial",
   "theorems": [
    "Verif.ErrH.C122_code",
    "Verif.ErrH.C122_level",
    "Verif.ErrH.C122_entries",
    "Verif.ErrH.C122_call",
    "Verif.ErrH.C122_names",
    "Verif.ErrH.C122_validation_partial",
    "Verif.ErrH.C122_validation_false"
   ],
   "note": "False of the code for a validation without a code, which the options allow: the generator follows a nil pointer. Proved for all calls and for validations with a code."
  },
  {
   "property": "C123",
   "status": "partial",
   "theorems": [
    "Verif.HasArg.C123_read",
    "Verif.HasArg.C123_has_iff",
    "Verif.HasArg.C123_has_partial",
    "Verif.HasArg.C123_has_false",
    "Verif.HasArg.C123_nil",
    "Verif.HasArg.C123_names",
    "Verif.HasArg.C123_message_first"
   ],
   "note": "False of the code for lists, maps and bytes that are empty but not nil, like the value of []: has is true (proved for all of them). Proved for all other values. That no Go name is given twice is C64 and C65."
  },
  {
   "property": "C124",
   "status": "partial",
   "theorems": [
    "Verif.Types.C124_bound_iff",
    "Verif.Types.C124_by_iff",
    "Verif.Types.C124_by_other",
    "Verif.Types.C124_select",
    "Verif.Types.C124_each_field",
    "Verif.Types.C124_accepted_iff",
    "Verif.Types.C124_oneof_false"
   ],
   "note": "Proved for expressions, fields of aliased messages and autobind. False of the code for members of oneofs: the type of the expression in their option is not looked at (proved for all types; what follows for the generated code is C121)."
  },
  {
   "property": "C125",
   "status": "partial",
   "theorems": [
    "Verif.Meta.C125_incoming",
    "Verif.Meta.C125_order",
    "Verif.Meta.C125_none",
    "Verif.Meta.C125_plugin_partial",
    "Verif.Meta.C125_plugin_none",
    "Verif.Meta.C125_binary_false"
   ],
   "note": "False of the code for plugins: if any metadata of the request is not UTF-8 (binary values of keys that end in -bin), every call of every plugin function fails (proved for all of them), since the request of a plugin holds values in string fields, which protojson (trusted) rejects. Proved for expressions and, if all metadata is UTF-8, for plugins."
  }
 ]
}