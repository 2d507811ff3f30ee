# A Lean 4 model of mercari/grpc-federation

The source at /repo is read as text and never run. Everything here is a theorem about the Lean
definitions under `lean/Verif`, each of which cites the file and lines it models.

## Trusted base

* The Lean 4.33.0 kernel. No axioms are added. Theorems depend at most on `propext`,
  `Classical.choice` and `Quot.sound`. No `sorry`, no `native_decide`, no `bv_decide`.
* The reading of the Go source and of the `text/template` files into Lean definitions.
* Behaviour of third-party code, modelled as parameters or by the definitions named in each module:
  cel-go evaluation, `golang.org/x/sync/errgroup` and `singleflight`, `cenkalti/backoff` v4.2.1,
  `google.golang.org/grpc/status`, Go maps, channels, contexts and the Go compiler.

## Layout

Each topic has its own directory under `lean/Verif/` with
`Model.lean` (what the code does, with citations), `Spec.lean` (small declarative
specification, where the statement needs one), `Lemmas.lean` (helper lemmas) and
`Props.lean` (the property theorems, and beside each an `example` that meets its hypotheses).

## Plan per property

### C01 References are evaluated first

While a message is being resolved, the evaluation of a variable definition starts only after the evaluation of every earlier definition whose name it references (in an expression the resolver records) has finished successfully.

*Model and proof.* Model the graph construction and the generated group code as a small-step machine with one goroutine tree per group; invariant over all reachable machine states.

*Theorems.* `Verif.Exec.C01_references_first`. *Status:* proved. Hypothesis NoSelfRef excludes only self-referencing definitions (C08).

### C02 Validation is a barrier

No definition declared after a validation starts to be evaluated before that validation has been evaluated successfully; when the validation fails nothing declared after it is evaluated.

*Model and proof.* Same machine as C01, validation edges.

*Theorems.* `Verif.Exec.C02_validation_barrier`, `Verif.Exec.C02_failed_validation_stops`. *Status:* proved. 

### C03 Every definition is evaluated

When resolving a message's definitions finishes without error, every definition of the message has been evaluated.

*Model and proof.* Coverage of the groups by induction over the acyclic graph, plus machine invariant.

*Theorems.* `Verif.Graph.C03_plan_complete`, `Verif.Exec.C03_all_evaluated`. *Status:* proved. Static coverage of the plan and dynamic coverage of every successful run.

### C04 Evaluation terminates and never gets stuck

Whatever order the goroutines run in, the evaluation of a message's definitions cannot deadlock and takes a bounded number of steps, provided each single evaluation terminates.

*Model and proof.* Progress theorem and a decreasing measure for the machine of C01.

*Theorems.* `Verif.Exec.C04_no_deadlock`, `Verif.Exec.C04_terminates`. *Status:* proved. Single evaluations are assumed to return; the bound holds for every schedule.

### C05 Failures stop dependants and are reported

A definition is evaluated only after every definition it depends on, directly or transitively, has been evaluated successfully, so while all evaluations of a definition fail nothing that depends on it is evaluated; resolving the message's definitions returns an error exactly when some evaluation failed, and that error is one an evaluation ended with.

*Model and proof.* Invariant of the machine of C01.

*Theorems.* `Verif.Exec.C05_dependants_not_started`, `Verif.Exec.C05_failure_reported`, `Verif.Exec.C05_strict_false`. *Status:* proved. C05_strict_false records that the stronger reading (one failed evaluation suffices) is false because a definition can be evaluated twice.

### C06 Dependency edges are exactly the recorded references and validation barriers

Definition b is ordered directly after definition a exactly when a is declared no later than b and either b references a's name, a is the last such declaration and the name is not b's own map iterator, or a is a validation declared before b.

*Model and proof.* Functional model with mutable adjacency lists; iff theorem against a declarative relation.

*Theorems.* `Verif.Graph.C06_edges_exact`, `Verif.Graph.C06_parents_exact`, `Verif.Graph.C06_no_duplicate_edges`. *Status:* proved. 

### C07 Grouping is deterministic

The evaluation plan built for a message depends only on the set of its definitions and dependency edges, not on the iteration order of Go maps.

*Model and proof.* Model map iteration as an arbitrary permutation and prove the result is independent of it.

*Theorems.* `Verif.Graph.C07_grouping_deterministic`, `Verif.Graph.sorted_unique`, `Verif.Graph.C07_needs_distinct_names`. *Status:* proved. Distinct names are needed (counterexample proved) and are enforced by the resolver.

### C08 A self-referencing definition is reported

A definition that references its own name is rejected with an error, and never makes the message's definitions silently disappear from the generated code.

*Model and proof.* False of the code when no root remains: prove the negation, and prove that a cycle reachable from a root is reported.

*Theorems.* `Verif.Graph.C08_self_reference_dropped`, `Verif.Graph.C08_self_reference_overflow`, `Verif.Graph.C08_self_reference_reported_partial`, `Verif.Graph.C08_nothing_iff`. *Status:* partial. False of the code: negations proved with witnesses (definitions silently dropped; unbounded recursion). The exact condition under which an error is reported is proved.

### C09 All used names are recorded as references

Every variable name a definition reads when it is evaluated is recorded as a reference of that definition, so that ordering (C01) applies to it.

*Model and proof.* Model all expression sites as a syntax tree; negation for the omitted sites, partial completeness for the rest.

*Theorems.* `Verif.Refs.C09_argument_not_recorded`, `Verif.Refs.C09_reads_recorded_partial`, `Verif.Refs.C09_recorded_read_partial`, `Verif.Refs.C09_reads_ordered_partial`, `Verif.Refs.C09_request_if_false`, `Verif.Refs.C09_retry_if_false`, `Verif.Refs.C09_map_enum_false`, `Verif.Refs.C09_map_enum_unordered_false`, `Verif.Refs.C09_error_message_false`, `Verif.Refs.C09_validation_message_false`, `Verif.Refs.C09_ignore_and_response_false`, `Verif.Refs.C09_iterator_hides_source_false`, `Verif.Refs.C09_macro_variable_recorded`. *Status:* partial. False of the code for five expression sites and for an iterator named like its source; each negation is proved with a schedule in which the reader starts first. Proved for all definitions that use none of these sites.

### C10 Cyclic message dependencies are rejected

A set of messages whose message dependencies contain a cycle is rejected with a cyclic dependency error, and an acyclic one is accepted.

*Model and proof.* DFS with path set over an arbitrary graph; soundness and completeness for the part reachable from a root; negation for rootless cycles.

*Theorems.* `Verif.AllGraph.C10_edges_exact`, `Verif.AllGraph.C10_terminates`, `Verif.AllGraph.C10_rejected_iff`, `Verif.AllGraph.C10_acyclic_accepted`, `Verif.AllGraph.C10_cycle_rejected_partial`, `Verif.AllGraph.C10_accepted_acyclic_partial`, `Verif.AllGraph.C10_rootless_cycle_false`, `Verif.AllGraph.C10_self_dependency_false`. *Status:* partial. False of the code for cycles no root message reaches (negation proved). The exact condition of rejection is proved.

### C11 The reported error is a real failure

The error returned for a message is the error of an evaluation that failed by itself, not the cancellation of a sibling.

*Model and proof.* Extend the machine of C01 with cancellation; negation by a concrete trace, partial for a single nesting level.

*Theorems.* `Verif.Exec.C11_cancellation_reported`, `Verif.Exec.C11_some_real_failure_partial`, `Verif.Exec.C11_flat_plan_partial`. *Status:* partial. False of the code: negation proved by a concrete schedule. Proved: some real failure exists; and the claim itself for plans without nested errgroups.

### C12 A definition is not evaluated twice at the same time

While the groups of one message run concurrently, two evaluations of the same definition never overlap, every caller receives the result of some evaluation, and a caller that starts after a result has been stored never evaluates again.

*Model and proof.* State machine of cache + singleflight with arbitrarily many callers; the stronger 'at most once' claim is false and the negation is proved.

*Theorems.* `Verif.Exec.C12_no_overlap`, `Verif.Exec.C12_cached_not_reevaluated`, `Verif.Exec.C12_cache_kept`, `Verif.Exec.C12_result_is_evaluation`, `Verif.Exec.C12_at_most_once_false`. *Status:* proved. The stronger claim 'at most once' is false: C12_at_most_once_false gives the schedule.

### C13 Conditional definition semantics

A definition with an `if` is evaluated only when the condition is true; when it is false the variable holds the zero value and is still usable by later expressions; when evaluating the condition or the expression fails, the error is returned.

*Model and proof.* Functional model of evalDef over an abstract CEL evaluator.

*Theorems.* `Verif.Eval.C13_evaluated_iff`, `Verif.Eval.C13_condition_false`, `Verif.Eval.C13_condition_error`, `Verif.Eval.C13_value`, `Verif.Eval.C13_expression_error`, `Verif.Eval.C13_success_iff`, `Verif.Eval.C13_names_usable`, `Verif.Eval.C13_if_body`. *Status:* proved. CEL evaluation, callbacks and the setter are parameters.

### C14 Map definitions preserve length and order

A map definition evaluates its iterator expression exactly once per source element, in order, with the iterator name bound to that element; on success the result has one entry per element in the same order; on failure the first failing element decides the error and no further element is evaluated; variables outside are unchanged.

*Model and proof.* Functional model of evalMap; induction over the source list.

*Theorems.* `Verif.Eval.C14_success`, `Verif.Eval.C14_failure`, `Verif.Eval.C14_cases`, `Verif.Eval.C14_outside_unchanged`. *Status:* proved. 

### C15 CEL program cache is transparent

Evaluating an expression with the program cache gives the same result as compiling it afresh, in the generated code, because every call site has its own cache index.

*Model and proof.* Cache state machine refined to the uncached evaluator under injective indexes; generator counter proved injective.

*Theorems.* `Verif.CelCache.C15_cache_transparent`, `Verif.CelCache.C15_needs_unique_index`. *Status:* proved. For every interleaving. Hypothesis Stable: the environments in which one site is evaluated compile its expression to the same program (true when the variables it reads are declared, C01/C09).

### C16 Comparison with null rewriting

Comparing any expression with the literal null (either side, == or !=) is evaluated through a wrapper that treats a nil message as null; no other expression is changed and rewriting twice equals rewriting once.

*Model and proof.* Inductive expression type, rewriting as structural recursion, semantics-level theorem.

*Theorems.* `Verif.NullCmp.C16_exact_meaning`, `Verif.NullCmp.C16_null_aware_partial`, `Verif.NullCmp.C16_comparison`, `Verif.NullCmp.C16_unchanged`, `Verif.NullCmp.C16_idempotent`, `Verif.NullCmp.C16_executed`, `Verif.NullCmp.C16_executable_partial`, `Verif.NullCmp.C16_map_key_false`, `Verif.NullCmp.C16_macro_false`. *Status:* partial. False of the code for map keys and for expressions that also contain a macro (negations proved); proved for all others, for every meaning of the functions.

### C17 Timeout yields exactly one outcome and no goroutine leak

A call with a timeout returns exactly once, with either the body's own result or a DeadlineExceeded error; a panic in the body is returned as an error; and the worker goroutine always terminates once the body returns, even when nobody receives its result.

*Model and proof.* State machine with a one-slot channel; invariants over reachable states. Also: cancellation by the parent is reported as DeadlineExceeded (negation of the exact claim).

*Theorems.* `Verif.Timeout.C17_outcome`, `Verif.Timeout.C17_once`, `Verif.Timeout.C17_returns`, `Verif.Timeout.C17_worker_terminates`, `Verif.Timeout.C17_no_stuck_worker`. *Status:* proved. For every interleaving of caller, worker, timer and parent cancellation. DeadlineExceeded is also reported when the parent is cancelled (C51).

### C18 Retries are bounded and conditional

A call with a retry policy of max_retries n >= 1 (5 if not declared) is attempted at most n+1 times and always ends; it stops at the first success and is never retried when the retry condition is false or fails to evaluate, or once its context is done; it does not give up earlier otherwise; it returns the result of the last attempt, or the evaluation error of the condition. max_retries 0 means no limit.

*Model and proof.* Loop model over an outcome stream; the generated policy for n = 0 has no bound (negation), partial for n > 0.

*Theorems.* `Verif.Retry.C18_bound`, `Verif.Retry.C18_deterministic`, `Verif.Retry.C18_retry_only_if`, `Verif.Retry.C18_result`, `Verif.Retry.C18_stops_only_if`, `Verif.Retry.C18_zero_unlimited`, `Verif.Retry.C18_condition_sees_error`. *Status:* proved. Zero is documented to mean unlimited. The backoff library's loop is modelled from its published source (it is not in /repo).

### C19 Error handler: first matching entry decides

When a dependent call fails, the first `error` entry whose condition holds decides the outcome: ignore gives success with the call's value, ignore_and_response success with the given response (no value if it cannot be evaluated), otherwise the definition fails with the entry's status; code, message and details not declared are taken from the original error; entries after it are not evaluated; if evaluating an entry fails or none matches, the original error is returned. Whatever error results is passed through the service's error handler.

*Model and proof.* Decision function over a list of entries, proved against a declarative first-match specification.

*Theorems.* `Verif.ErrH.C19_ignore`, `Verif.ErrH.C19_ignore_and_response`, `Verif.ErrH.C19_status`, `Verif.ErrH.C19_entry_body_fails`, `Verif.ErrH.C19_no_match`, `Verif.ErrH.C19_entry_fails`, `Verif.ErrH.C19_cases`, `Verif.ErrH.C19_later_entries_irrelevant`. *Status:* proved. Expressions, the service's error handler, knowledge of message types and encodability of details are parameters. Original details of unknown types are dropped.

### C20 A failing call never turns into success unless ignored

If a dependent call fails and no matching `error` entry says ignore (or sets code OK), then the definition fails.

*Model and proof.* False when the original error has no gRPC status and the matching entry has no code: negation and partial theorem.

*Theorems.* `Verif.ErrH.C20_success_iff`, `Verif.ErrH.C20_failure_stays_failure_partial`, `Verif.ErrH.C20_failure_stays_failure_false`. *Status:* partial. False of the code for errors that are no gRPC status (recovered panics, failing retry conditions): an entry without code then gives success. Proved for status errors; the exact condition of success is proved.

### C21 Handlers see their own error

The `error` variable read by a retry condition or error handler of a call is the error of that call.

*Model and proof.* State machine with a shared variable slot: negation by trace, partial when handlers do not overlap.

*Theorems.* `Verif.ErrVar.C21_own_error_partial`, `Verif.ErrVar.C21_sequential_partial`, `Verif.ErrVar.C21_some_error`, `Verif.ErrVar.C21_own_error_false`. *Status:* partial. False of the code: all calls of a message share one variable (interleaving proved). Proved when no other call fails in between.

### C22 Validation outcome

A validation definition fails exactly when its `if` condition holds (or evaluating it fails); the status carries the configured code, the evaluated message and the details whose conditions hold, in declaration order.

*Model and proof.* Functional model against a declarative specification.

*Theorems.* `Verif.ErrH.C22_passes_iff`, `Verif.ErrH.C22_status`, `Verif.ErrH.C22_cases`, `Verif.ErrH.C22_always_status`, `Verif.ErrH.C22_ok_code_false`. *Status:* partial. False of the code for the declared code OK (such a validation never fails). Proved for every other code.

### C23 Checked integer casts

A checked integer conversion succeeds exactly when the value is representable in the target type and then preserves the value.

*Model and proof.* BitVec / bounded Int model of all nine conversions.

*Theorems.* `Verif.Cast.C23_checked_cast`, `Verif.Cast.C23_all_exist`. *Status:* proved. All nine functions, all values.

### C24 Numeric fields are never silently truncated

Whenever generated code converts a numeric value to a field of another numeric type, the value is preserved or an error is returned.

*Model and proof.* Table model of kinds; negation with concrete kinds, partial for the covered kinds.

*Theorems.* `Verif.Cast.C24_preserves_iff`, `Verif.Cast.C24_plain_kinds_partial`, `Verif.Cast.C24_sint64_false`, `Verif.Cast.C24_number_to_enum_false`, `Verif.Cast.C24_enum_to_unsigned_false`, `Verif.Cast.C24_fraction_false`. *Status:* partial. False of the code for sint/fixed/sfixed kinds, enums and floating point (witnesses proved). The pairs of integer kinds for which it holds are characterised exactly; it holds for int32, int64, uint32 and uint64.

### C25 Structural casts are faithful

Converting a repeated, map or message value converts element by element in order, field by field, preserves nil and length, and fails exactly when some element conversion fails.

*Model and proof.* Polymorphic functional model.

*Theorems.* `Verif.Cast.C25_converted_iff_types_differ`, `Verif.Cast.C25_list_ok`, `Verif.Cast.C25_list_error`, `Verif.Cast.C25_enum_number`, `Verif.Cast.C25_enum_list`, `Verif.Cast.C25_map_ok_partial`, `Verif.Cast.C25_map_error`, `Verif.Cast.C25_map_collision_false`, `Verif.Cast.C25_nil`, `Verif.Cast.C25_message_fields`, `Verif.Cast.C25_message_error`, `Verif.Cast.C25_oneof`, `Verif.Cast.C25_same_structure`. *Status:* partial. False of the code for maps whose converted keys coincide (witness proved: an entry is lost, which one depends on map iteration order). Proved for lists, messages, oneofs and maps with distinct converted keys; conversion between structurally equal types is the identity. Oneof members are messages: for others the generated comparison with nil does not compile.

### C26 Enum mapping

Converting an enum value along a declared alias follows the declared aliases; values without alias map to the declared default, or to zero; ambiguous conversions are rejected; converting to the alias enum and back gives the same value.

*Model and proof.* Functional model of the generated switch.

*Theorems.* `Verif.EnumMap.C26_declared_default`, `Verif.EnumMap.C26_dep_to_service_partial`, `Verif.EnumMap.C26_service_to_dep_partial`, `Verif.EnumMap.C26_round_trip`, `Verif.EnumMap.C26_both_aliased_false`, `Verif.EnumMap.C26_unaliased_partial`, `Verif.EnumMap.C26_unaliased_false`, `Verif.EnumMap.C26_ambiguous_not_reported_false`. *Status:* partial. False of the code when both enums have aliases or neither has (every value becomes zero), and ambiguity is not reported (witnesses proved). Proved for all conversions along an alias where the enum that declares it decides.

### C27 Oneof resolution picks the first true case

For a oneof built from conditional members, all conditions are evaluated in declaration order and a failing one fails the request; then the first member whose condition is true is set, otherwise the default member, otherwise the oneof stays unset; at most one member is set.

*Model and proof.* Functional model.

*Theorems.* `Verif.Field.C27_first_true`, `Verif.Field.C27_default`, `Verif.Field.C27_unset`, `Verif.Field.C27_condition_error`, `Verif.Field.C27_rules_compile`, `Verif.Field.C27_mixed_autobind_false`. *Status:* partial. False of the code for oneofs that mix autobound members with members having a oneof rule: the generated code does not compile (witness proved). Proved for oneofs whose members all have oneof rules.

### C28 Plugin values survive transport

A value passed to a CEL plugin function arrives unchanged, the expression gets the value the function returns unchanged, and fails if the function fails.

*Model and proof.* Round-trip model of the encode/decode pair; negation for narrowed integers.

*Theorems.* `Verif.Plugin.C28_argument_partial`, `Verif.Plugin.C28_list_argument_partial`, `Verif.Plugin.C28_truncated_false`, `Verif.Plugin.C28_result`, `Verif.Plugin.C28_error_partial`, `Verif.Plugin.C28_empty_error_false`. *Status:* partial. False of the code for integers outside the range of int32, uint32 and enum parameters, which arrive as other numbers, and for errors without message, which become successes with a zero value (witnesses proved). Proved for all values of the declared types, for lists and for results. Results of enum type are not modelled: the generated code does not compile.

### C29 List library functions

sortAsc/sortDesc/sortStableAsc/sortStableDesc return a sorted permutation (stable for the stable ones), flatten concatenates, first returns the first match, reduce folds left to right.

*Model and proof.* Functional models and standard list specifications.

*Theorems.* `Verif.ListLib.C29_sortAsc`, `Verif.ListLib.C29_sortDesc`, `Verif.ListLib.C29_stable`, `Verif.ListLib.C29_macro_partial`, `Verif.ListLib.C29_flatten`, `Verif.ListLib.C29_reduce`, `Verif.ListLib.C29_reduce_error`, `Verif.ListLib.C29_first`, `Verif.ListLib.C29_first_error`, `Verif.ListLib.goSort_stable`, `Verif.ListLib.C29_nan_false`, `Verif.ListLib.C29_target_false`, `Verif.ListLib.C29_evaluations_false`. *Status:* partial. False of the code for NaN keys (returned unsorted without error) and for targets that are not pure: a sorted target is evaluated twice, n chained sorts evaluate it 2^n times (witnesses proved). Proved for every total order of keys and pure targets; what package sort guarantees is a hypothesis, shown satisfiable by its insertion sort.

### C30 Plugin instance lifecycle

Every call on a plugin instance receives the response to its own request; closing is safe at any time and calls after closing fail with an error.

*Model and proof.* State machine of the instance; negation for double close / GC after close.

*Theorems.* `Verif.Plugin.C30_own_response_partial`, `Verif.Plugin.C30_after_close_partial`, `Verif.Plugin.C30_close_partial`, `Verif.Plugin.C30_gc_partial`, `Verif.Plugin.C30_double_close_false`, `Verif.Plugin.C30_gc_after_close_false`, `Verif.Plugin.C30_plugin_exit_false`, `Verif.Plugin.C30_extra_output_false`. *Status:* partial. Proved for all histories with plugins that write one line for each request. False of the code: closing twice and requesting GC after closing panic; after a plugin function panics, every later call and Close blocks forever; a plugin that prints to its standard output blocks the next call (all proved, the third for every later history).

### C31 Log attributes accumulate

Every context of a request has exactly the attributes its parent had when it was created followed by those added to it, in order; additions elsewhere never change them.

*Model and proof.* State machine refined to an append-only list.

*Theorems.* `Verif.Log.C31_linear_partial`, `Verif.Log.C31_siblings_false`, `Verif.Log.C31_parent_false`. *Status:* partial. False of the code: contexts share the array of their parent, so an attribute added by one message replaces that of another (witnesses proved). Proved for all histories in which attributes are only added to the context with the longest list, for every growth of capacities.

### C32 Every expression site gets its own cache index

In the generated code of one service no two expression sites share a cache index.

*Model and proof.* Counter threading model over the generated tree; Nodup theorem.

*Theorems.* `Verif.CelCache.C32_indexes_unique`. *Status:* proved. 

### C33 Import aliases are distinct

The import block of a generated file declares distinct names for distinct packages, imports every package it needs once, and types refer to their package by its name there.

*Model and proof.* Functional model; negation for three same-named packages and partial theorem for at most two.

*Theorems.* `Verif.Imports.C33_distinct_partial`, `Verif.Imports.C33_complete`, `Verif.Imports.C33_once`, `Verif.Imports.C33_only`, `Verif.Imports.C33_reference_partial`, `Verif.Imports.suffix_found`, `Verif.Imports.C33_three_false`, `Verif.Imports.C33_digit_false`, `Verif.Imports.C33_runtime_false`, `Verif.Imports.C33_reference_false`, `Verif.Imports.C33_order_false`. *Status:* partial. False of the code for three packages with the same name, names ending with the suffix digit, packages named like runtime imports without alias (trace, otel, metadata, standard library) and Go packages with several proto files, whose types refer to another package depending on map order (witnesses proved). Proved for all sets of packages without these.

### C34 Contexts are correctly scoped in generated group code

Every definition evaluation in generated code uses the context of the innermost enclosing errgroup and never the context of a group that has already been waited for.

*Model and proof.* Model code emission as a tree with level numbers; interpretation of ctx names.

*Theorems.* `Verif.Emit.C34_contexts_scoped`, `Verif.Emit.C34_declarations_compile`, `Verif.Emit.C34_resolver_plans`. *Status:* proved. 

### C35 Every needed conversion function is generated once

Every type conversion the generated code needs, directly or inside another generated conversion, has exactly one generated function.

*Model and proof.* Worklist model over an arbitrary type graph; negation for identifier collision, partial for unambiguous names.

*Theorems.* `Verif.TypeConv.C35_closed_partial`, `Verif.TypeConv.C35_required`, `Verif.TypeConv.C35_list_single_false`, `Verif.TypeConv.C35_needed_once`, `Verif.TypeConv.C35_functions`, `Verif.TypeConv.C35_right_function_partial`, `Verif.TypeConv.C35_names_false`, `Verif.TypeConv.C35_renamed_false`, `Verif.TypeConv.C35_method_response_false`, `Verif.GoNames.C64_full_names_false`. *Status:* partial. Proved for all schemas, also recursive ones, whose type names stay apart when concatenated and without renamed fields. False of the code otherwise, and for the `response` option of methods, whose nested conversions are missing (witnesses proved). A conversion is required exactly between different types of the same form; between a list and a single value of the same type it is not (witness proved). Oneof members are in C120, enum selectors in C84.

### C36 Plugin code-generation request round-trip

A code generation plugin that decodes the request sees the same files, messages, definitions and groups the resolver produced.

*Model and proof.* Encoder/decoder model with identifier-keyed tables; negation for same-named definitions and dropped parts; partial round-trip theorem.

*Theorems.* `Verif.Codegen.C36_objects_partial`, `Verif.Codegen.C36_group_ids`, `Verif.Codegen.C36_type`, `Verif.Codegen.C36_duration`, `Verif.Codegen.C36_duration_valid`, `Verif.Codegen.C36_retry`, `Verif.Codegen.C36_error_partial`, `Verif.Codegen.C36_call_partial`, `Verif.Codegen.C36_definition_partial`, `Verif.Codegen.C36_same_name_false`, `Verif.Codegen.C36_dangling_false`, `Verif.Codegen.C36_oneof_false`, `Verif.Codegen.C36_call_errors_false`, `Verif.Codegen.C36_error_false`, `Verif.Codegen.C36_detail_false`, `Verif.Codegen.C36_retry_false`, `Verif.Codegen.C36_file_partial`, `Verif.Codegen.C36_service_partial`, `Verif.Codegen.C36_method_partial`, `Verif.Codegen.C36_message_partial`, `Verif.Codegen.C36_field_partial`, `Verif.Codegen.C36_oneof_object`, `Verif.Codegen.C36_enum`, `Verif.Codegen.C36_enum_value`, `Verif.Codegen.C36_plugin`, `Verif.Codegen.C36_go_package_false`, `Verif.Codegen.C36_env_false`, `Verif.Codegen.C36_field_env_false`, `Verif.Codegen.C36_graph_partial`, `Verif.Codegen.C36_graph_roots`, `Verif.Codegen.C36_graph_positions`, `Verif.Codegen.C36_graph_parents_false`, `Verif.Codegen.C36_graph_size_false`, `Verif.Codegen.C36_message_ids`, `Verif.Codegen.C36_member_ids`, `Verif.Codegen.C36_service_ids`, `Verif.Codegen.C36_method_ids`, `Verif.Codegen.C36_file_ids`, `Verif.Codegen.C36_enum_ids`, `Verif.Codegen.C36_enum_value_ids`, `Verif.Codegen.C36_graph_ids_false`, `Verif.Codegen.C36_graph_roots_false`. *Status:* partial. Objects and references: proved for all heaps, also cyclic ones, in which identifiers tell objects of a kind apart and every emitted identifier is encoded. Data: proved for types, retry policies, variable definitions and all other objects within the stated conditions. False of the code for definitions of different messages with the same name, identifiers of enums that are not encoded, members of oneofs of message or enum type, error handling of calls, variables and log level of errors, missing definition sets, files without Go package (building the request panics), services without environment (the plugin sees an empty one), and the options of fields for environment variables (witnesses proved). Files, services, methods, messages, fields, oneofs, enums, their values and plugins survive otherwise, except for their descriptors. Identifiers of files, services, methods, messages, fields, oneofs, enums and values tell different objects apart; those of dependency graphs do not (witnesses proved). A plugin sees the paths of a dependency graph, but not that nodes are shared, and the request grows exponentially with shared nodes (proved).

### C37 Type kinds survive the plugin request

Every scalar kind is transported to plugins unchanged.

*Model and proof.* Finite table, both directions.

*Theorems.* `Verif.Codegen.C37_kinds`, `Verif.Codegen.C37_distinct`, `Verif.Codegen.C37_text`, `Verif.Codegen.C37_text_distinct`. *Status:* proved. All kinds, by cases. The text of a kind is read back except for message and enum, which have a name instead.

### C38 Exactly one value source

A field, argument or env value is accepted exactly when it names exactly one value source; otherwise an error is reported.

*Model and proof.* Decision model.

*Theorems.* `Verif.Field.C38_exactly_one`, `Verif.Field.C38_errors`, `Verif.Field.C38_field_option_partial`, `Verif.Field.C38_oneof_and_by_false`, `Verif.Field.C38_disabled_custom_resolver_false`. *Status:* partial. False of the code for fields with a `oneof` option (a `by` beside it is ignored) and for `custom_resolver: false` (witnesses proved). Proved for values of arguments and fields without `oneof` and `env`.

### C39 Assignable types

A field is bound from a value only when their types are compatible: same kind, number to number, enum to number, or null to a nullable type.

*Model and proof.* Decision model; iff theorem; negation: different messages and repeated/non-repeated are accepted.

*Theorems.* `Verif.Types.C39_bind_partial`, `Verif.Types.C39_bind_complete`, `Verif.Types.C39_request_partial`, `Verif.Types.C39_request_complete`, `Verif.Types.C39_enum_to_other_false`, `Verif.Types.C39_repeated_false`, `Verif.Types.C39_request_false`, `Verif.Types.C39_map_false`. *Status:* partial. False of the code: enums are accepted for strings and messages, lists for single values, scalars for request messages, and maps are compared by kinds only (witnesses proved). Proved outside these cases, and compatible values are always accepted.

### C40 Message argument consistency

If resolution succeeds, every place that builds a message supplies exactly the same argument names with compatible types.

*Model and proof.* Model of the argument table; invariant over call sites.

*Theorems.* `Verif.Args.C40_names_partial`, `Verif.Args.C40_types`, `Verif.Args.C40_no_other_fields`, `Verif.Args.C40_one_parent_partial`, `Verif.Args.C40_two_parents_false`, `Verif.Args.C40_inline_false`. *Status:* partial. False of the code for messages built by several parents and for inline values (witnesses proved). Types are proved in full; names for one parent without inline values and for names registered before.

### C41 Shared messages see only shared environment variables

A message used by several services can use exactly the environment variables (and service variables) that all of them define; the schema is rejected exactly if one of these has different types in two services; the result does not depend on the order of services.

*Model and proof.* Functional model; order independence.

*Theorems.* `Verif.SharedEnv.C41_shared`, `Verif.SharedEnv.C41_rejected_iff`, `Verif.SharedEnv.C41_type`, `Verif.SharedEnv.C41_order_independent`, `Verif.SharedEnv.C41_service_variables`, `Verif.SharedEnv.C41_same_type`, `Verif.SharedEnv.C41_enum_false`. *Status:* partial. Proved in full, for every order in which Go visits its maps, with types compared by fields and kinds at all depths. Only the names of enums and messages are not compared: two different enums count as the same type (witness proved).

### C42 Method names

A method reference `pkg.Service/Method` is split into exactly that package, service and method, and malformed names are rejected.

*Model and proof.* List-of-characters model; round-trip and rejection theorems.

*Theorems.* `Verif.Names.C42_qualified`, `Verif.Names.C42_unqualified`, `Verif.Names.C42_rejected_iff`, `Verif.Names.C42_reads_back`. *Status:* proved. Empty parts are accepted here and fail in the later lookup.

### C43 Longest package wins

A fully qualified name is attributed to the longest known package that prefixes it.

*Model and proof.* Functional model over name segments.

*Theorems.* `Verif.Names.C43_longest`, `Verif.Names.C43_none`, `Verif.Names.C43_rest`. *Status:* proved. 

### C44 go_package parsing

The go_package option `path;name` and `path` are parsed into import path, package name and alias as documented.

*Model and proof.* Functional model.

*Theorems.* `Verif.Names.C44_path_and_name`, `Verif.Names.C44_path_only`, `Verif.Names.C44_rejected_iff`. *Status:* proved. 

### C45 Enum alias completeness

If resolution of an enum with aliases succeeds, every value of the enum without explicit alias exists in every alias enum.

*Model and proof.* Decision model.

*Theorems.* `Verif.EnumMap.C45_auto_alias_complete`, `Verif.EnumMap.C45_explicit_alias_exists`, `Verif.EnumMap.C45_accepted_if`. *Status:* proved. 

### C46 Oneof rules are validated

If a message is accepted, every field with a oneof rule is a member of a oneof, is the default or has a condition, and has a value, and at most one member of every oneof is the default; messages satisfying this are not rejected because of their oneofs.

*Model and proof.* Decision model; note uniqueness is enforced per message rather than per oneof.

*Theorems.* `Verif.Field.C46_accepted`, `Verif.Field.C46_no_spurious_partial`, `Verif.Field.C46_two_oneofs_rejected_false`. *Status:* partial. The acceptance direction is proved. The converse is false of the code: two oneofs with a default each are rejected (witness proved); proved for messages with at most one default.

### C47 Service variables are kept

A service variable that type checks is present in the resolved service, in declaration order.

*Model and proof.* Functional model; negation for variables with a boolean `if`, partial for the others.

*Theorems.* `Verif.SvcVar.C47_kept_partial`, `Verif.SvcVar.C47_in_order_partial`, `Verif.SvcVar.C47_accepted_partial`, `Verif.SvcVar.C47_if_dropped_false`, `Verif.SvcVar.C47_two_validations_false`. *Status:* partial. False of the code for variables with `if`, which disappear silently, and for two unnamed validations, which are rejected as duplicates (witnesses proved). Proved for all others.

### C48 Function identifiers are unique

Two different plugin function signatures get different identifiers.

*Model and proof.* Injectivity on dot-free names proved; negation for names with underscores.

*Theorems.* `Verif.Names.C48_injective_partial`, `Verif.Names.C48_scalar_overloads_partial`, `Verif.Names.C48_unique_false`. *Status:* partial. False of the code: dots become underscores, so functions of different packages collide (witness proved). Proved for names without underscores whose parts are equally many, and for scalar overloads of one function.

### C49 Argument references are rewritten

In an accepted expression every `$` is replaced by the argument object and nothing else changes, string literals keep their value and different expressions stay different; an expression that already contains the reserved name is rejected.

*Model and proof.* String model; rewriting is injective on accepted expressions.

*Theorems.* `Verif.Names.C49_rewritten`, `Verif.Names.C49_reserved_iff`, `Verif.Names.C49_unchanged`, `Verif.Names.C49_restore_partial`, `Verif.Names.C49_collision_false`, `Verif.Names.C49_literal_false`. *Status:* partial. The textual part is proved in full. False of the code as a whole: `$` inside string literals is rewritten too and two different expressions can become equal (witnesses proved).

### C50 Completion offers every earlier definition

Completion inside definition i offers the names of exactly the definitions declared before i.

*Model and proof.* Functional model; negation and partial.

*Theorems.* `Verif.Complete.C50_sound_partial`, `Verif.Complete.C50_complete_partial`, `Verif.Complete.C50_exactly`, `Verif.Complete.C50_missing_false`, `Verif.Complete.C50_itself_false`, `Verif.Complete.C50_request_type_false`. *Status:* partial. False of the code: only the previous definition is offered, a definition is offered to itself in its arguments, and request values are filtered by the wrong field (witnesses proved). In `by` whatever is offered is usable.

### C51 A timeout error means that the timeout passed

A call with a timeout returns a DeadlineExceeded error only if its deadline passed; when the caller's own context is cancelled the error says so.

*Model and proof.* State machine of C17; negation witness and the part that holds (the message names the cause).

*Theorems.* `Verif.Timeout.C51_cancel_reported_as_deadline_false`, `Verif.Timeout.C51_message_names_cause_partial`. *Status:* partial. False of the code: cancellation of the parent is reported with code DeadlineExceeded (witness execution proved). Proved: the message names the real cause.

### C52 The retry condition sees the failure it decides about

Whether a failed attempt is retried is decided by the retry condition applied to the error of that attempt.

*Model and proof.* Retry loop of C18 with the `error` variable as state.

*Theorems.* `Verif.Retry.C52_condition_sees_own_error_false`, `Verif.Retry.C52_condition_sees_own_error_partial`. *Status:* partial. False of the code for errors that are not gRPC statuses: the variable keeps the status of an earlier attempt (witness proved). Proved for status errors.

### C53 Ignored errors are success

When the deciding `error` entry ignores the error the definition succeeds, whatever the service's error handler does with errors.

*Model and proof.* Model of C19 with the service's error handler as a parameter.

*Theorems.* `Verif.ErrH.C53_handler_called_without_error_false`, `Verif.ErrH.C53_ignored_is_success_partial`. *Status:* partial. False of the code: the error handler is also called with no error, and can turn it into one. Proved for handlers that return nil for nil.

### C54 The error variable carries the whole status

Inside handlers the `error` variable has the status' code and message, all its details in order, and every typed list (error_info, bad_requests, …) holds exactly the details of that type in order.

*Model and proof.* Fold over the details; invariant by induction.

*Theorems.* `Verif.ErrVar.C54_error_value`, `Verif.ErrVar.C54_partition`. *Status:* proved. Details that cannot be decoded or re-encoded are skipped, as logged by the code.

### C55 A conversion depends only on its two types

Converting a field of one numeric kind to another behaves the same whatever other conversions the service needs.

*Model and proof.* The name-keyed map of conversion functions; lookup after all assignments.

*Theorems.* `Verif.Cast.C55_conversion_independent_false`, `Verif.Cast.C55_conversion_independent_partial`. *Status:* partial. False of the code: functions are named by Go types, so a service that also converts sint64 to int32 loses the overflow check of int64 to int32 (witness proved). Proved for services in which no two pairs of kinds share their Go types.

### C56 Renamed fields survive conversion in both directions

If a field of a service message is declared an alias of a differently named field of a dependency message, converting either message to the other carries the value of that field.

*Model and proof.* Structural conversion model of C25; positive direction proved, the other refuted by a witness.

*Theorems.* `Verif.Cast.C56_renamed_field_partial`, `Verif.Cast.C56_renamed_field_false`. *Status:* partial. False of the code from the declaring message back to the aliased one: the field is left at its zero value (witness proved). Proved in the other direction.

### C57 Every field of an accepted message is set from its declared source

In the response built for an accepted message, a field with `by` gets the value of the expression, a field with `custom_resolver` the result of its resolver, a field without option the value of the only autobind definition that offers a field of that name, and a oneof member with a rule is a case or the default of its oneof; no field is set twice.

*Model and proof.* Composition of the resolver and generator models on fields; negations for oneof members with other rules and for messages with aliases.

*Theorems.* `Verif.Field.C57_by_partial`, `Verif.Field.C57_custom_resolver_partial`, `Verif.Field.C57_autobind`, `Verif.Field.C57_oneof_member`, `Verif.Field.C57_once`, `Verif.Field.C57_oneof_member_false`, `Verif.Field.C57_alias_autobind_false`. *Status:* partial. False of the code for members of a oneof with `by` or `custom_resolver`, and for autobound fields of messages with an alias: accepted but never set (witnesses proved). Proved for the other fields.

### C58 Nested messages are found by their dotted name

A message declared at any depth is found by the names of the enclosing messages and its own joined by dots, and no other name finds it.

*Model and proof.* Induction over declaration trees; names are dot free and unique among siblings.

*Theorems.* `Verif.Names.C58_found_iff`. *Status:* proved. 

### C59 Comparing shared variables ends

Resolution ends for every schema, whatever the types of variables shared between services.

*Model and proof.* Recursion depth bounded by rank for non-recursive types; no bound suffices for a recursive one.

*Theorems.* `Verif.SharedEnv.C59_terminates_partial`, `Verif.SharedEnv.C59_terminates_false`. *Status:* partial. False of the code: comparing a recursive message type (for example google.protobuf.Struct) never ends (witness proved for every bound). Proved for types without recursion.

### C60 Environment variable types are as declared

An accepted environment variable has exactly the declared type.

*Model and proof.* Induction over type declarations.

*Theorems.* `Verif.SvcVar.C60_as_declared_partial`, `Verif.SvcVar.C60_accepted`, `Verif.SvcVar.C60_lists_false`. *Status:* partial. False of the code for lists of maps and lists of lists, which are accepted as maps and lists (witness proved). Proved for all other types, nested to any depth.

### C61 Plugin functions take enums or integers

A plugin function can be called with an enum value or an integer at every place declared with an enum type, in all combinations, and with no other types; no overload is registered twice.

*Model and proof.* Induction over the number of enums left.

*Theorems.* `Verif.Sig.C61_overloads_partial`, `Verif.Sig.C61_distinct`, `Verif.Sig.C61_fuel`, `Verif.Sig.C61_list_of_enums_false`. *Status:* partial. Proved for all signatures whose identifiers differ (C48). False of the code for lists of enums: a single integer is accepted instead (witness proved).

### C62 Only complete plugins are accepted

A plugin is accepted at start exactly if it reports the protocol version of the host and every function of its configuration.

*Model and proof.* Direct proof about the model of the validation.

*Theorems.* `Verif.Plugin.C62_validate`. *Status:* proved. The transport of the version line is that of C30.

### C63 Log lines carry each attribute once

Everything logged while a message is resolved carries each attribute of its context once.

*Model and proof.* Induction over the nesting depth.

*Theorems.* `Verif.Log.C63_duplicates_false`, `Verif.Log.C63_once_partial`, `Verif.Log.C63_complete`. *Status:* partial. False of the code: n messages deep each attribute appears n+1 times (proved for all n). None is missing; outside of messages each appears once.

### C64 Different names become different Go names

Variables, fields and arguments with different names are different fields and functions of the generated code.

*Model and proof.* A left inverse of the conversion on names in snake case, by induction.

*Theorems.* `Verif.GoNames.C64_distinct_partial`, `Verif.GoNames.C64_fields_partial`, `Verif.GoNames.C64_exported`, `Verif.GoNames.C64_styles_false`, `Verif.GoNames.C64_digit_false`, `Verif.GoNames.C64_full_names_false`, `Verif.GoNames.C64_private_partial`. *Status:* partial. Proved for names in snake case without a letter after a digit. False of the code otherwise: user_id and userId, line1b and line1_b become the same Go name, and no check rejects them (witnesses proved).

### C65 `$` is what the caller passed

In every expression of a message, `$.x` is the argument x as passed by the caller, and the custom resolver gets all arguments and all used variables.

*Model and proof.* A specification without the struct; induction over definitions.

*Theorems.* `Verif.MsgArgs.C65_arguments_partial`, `Verif.MsgArgs.C65_snake_partial`, `Verif.MsgArgs.C65_custom_resolver_partial`, `Verif.MsgArgs.C65_custom_resolver_arguments_partial`, `Verif.MsgArgs.C65_struct_once`, `Verif.MsgArgs.C65_struct_partial`, `Verif.MsgArgs.C65_same_name_false`, `Verif.MsgArgs.C65_struct_false`. *Status:* partial. False of the code for a used variable with the name of an argument: the fields see the variable as `$.x`, and the argument struct has the type of the variable (witnesses proved). Proved for all others.

### C68 Everything the generated code refers to is declared

Every resolver function, gRPC client, method constant and custom resolver that the generated code of a service refers to is declared in it.

*Model and proof.* The four closures as recursive functions over the message graph; the references as an inductive relation; induction over reachability.

*Theorems.* `Verif.GenRefs.C68_resolvers_partial`, `Verif.GenRefs.C68_clients_partial`, `Verif.GenRefs.C68_constants_partial`, `Verif.GenRefs.C68_custom_resolvers_partial`, `Verif.GenRefs.C68_resolvers_false`, `Verif.GenRefs.C68_clients_false`, `Verif.GenRefs.C68_constants_false`, `Verif.GenRefs.C68_custom_resolvers_false`. *Status:* partial. False of the code for: a response message that another message resolves; clients of methods with the response option, of messages only service variables use, of calls two error levels deep or in error entries of oneof fields; constants of messages only error entries resolve and of method names not written like Go names; custom resolvers of messages only oneof fields resolve (witnesses proved). Proved for all services without these.

### C69 Every definition is evaluated

Every variable definition the user writes in a message, also in error entries, is part of an evaluation plan, and only these are.

*Model and proof.* The sets with a plan against an inductive relation 'definition of the message at any depth'.

*Theorems.* `Verif.GenRefs.C69_planned_partial`, `Verif.GenRefs.C69_only`, `Verif.GenRefs.C69_planned_false`. *Status:* partial. False of the code for definitions in error entries of calls that are themselves in error entries or in oneof fields (witnesses proved): they get no plan. Proved for all other messages.

### C70 The code of all error entries of a call compiles

The evaluation code of the error entries of one call declares no variable twice in one scope.

*Model and proof.* Emitted code as in C34; the codes of the entries share one block.

*Theorems.* `Verif.Emit.C70_entries_partial`, `Verif.Emit.C70_entries_false`. *Status:* partial. False of the code if two entries of a call each evaluate definitions concurrently (witness proved); proved if at most one does.

### C71 Watch mode keeps the generated files up to date

After every handled event the generated files are exactly those of the current proto files; every change of a proto file is handled once, in order; a single generation brings every generated file up to date.

*Model and proof.* Transition systems of the handler and of the two loops; an invariant between proto files, build cache and generated files, by induction over histories.

*Theorems.* `Verif.Watch.C71_current_partial`, `Verif.Watch.C71_once`, `Verif.Watch.C71_events`, `Verif.Watch.C71_import_false`, `Verif.Watch.C71_failure_false`, `Verif.Watch.C71_names_false`, `Verif.Watch.C71_shared_name_false`, `Verif.Watch.C71_unnoticed_false`, `Verif.Watch.C71_events_all_false`. *Status:* partial. False of the code: changing an imported file does not regenerate its importers; removing a file that had an error leaves its generated files; a changed output name leaves the old file; removing one of two files with a common output can remove it; events during a generation are lost, and their files stay stale (witnesses proved). Proved for all histories without these. Changes while the handler runs count as later changes; file system operations succeed.

### C72 Code generation plugins get the request

Every configured code generation plugin is run for every result with the whole request, only files with the configured hash are run, and failures of plugins are reported.

*Model and proof.* The loops as recursive functions that return the runs; induction.

*Theorems.* `Verif.GenPlugin.C72_hash`, `Verif.GenPlugin.C72_runs`, `Verif.GenPlugin.C72_requests_partial`, `Verif.GenPlugin.C72_requests_false`, `Verif.GenPlugin.C72_errors`, `Verif.GenPlugin.C72_protoc_failure_partial`, `Verif.GenPlugin.C72_protoc_error_false`. *Status:* partial. Hashes and failures: proved. False of the code for two plugins: the second and later ones get an empty request; and an error a protoc plugin reports in its response is ignored (witnesses proved). Proved for one plugin.

### C66 Names of variables

A message is accepted exactly if the names the user wrote are valid and differ; definitions without a name never collide with each other or with names of the user.

*Model and proof.* Names as character lists; generated names are injective in their indices; induction over the nesting.

*Theorems.* `Verif.AutoName.C66_distinct_partial`, `Verif.AutoName.C66_messages_partial`, `Verif.AutoName.C66_accept_partial`, `Verif.AutoName.C66_reject`, `Verif.AutoName.C66_usable_partial`, `Verif.AutoName.C66_word_false`, `Verif.AutoName.C66_entries_false`, `Verif.AutoName.C66_oneofs_false`, `Verif.AutoName.C66_nested_false`, `Verif.AutoName.C66_messages_false`, `Verif.AutoName.C66_again_partial`, `Verif.AutoName.C66_again_false`. *Status:* partial. False of the code: messages with unnamed definitions in two error entries of a call, in two oneof fields or in nested error entries are rejected; messages of details in different entries share a name; words of CEL such as `in` are accepted although no expression can refer to them; a second call of Resolve on the same resolver reports generated names (witnesses proved). Proved for all other messages.

### C73 Sources of maps

The `src` of a map may be every variable that expressions at the same place may use, and no other.

*Model and proof.* The look-up with its context against the scope of expressions; induction over the nesting.

*Theorems.* `Verif.MapSrc.C73_reported`, `Verif.MapSrc.C73_exact_partial`, `Verif.MapSrc.C73_entry_false`, `Verif.MapSrc.C73_detail_false`, `Verif.MapSrc.C73_oneof_false`, `Verif.MapSrc.C73_service_sound`, `Verif.MapSrc.C73_service_partial`, `Verif.MapSrc.C73_service_false`, `Verif.MapSrc.C73_service_leak`. *Status:* partial. No variable out of scope is accepted. False of the code in error entries, details and oneof fields, where variables around them are rejected (witnesses proved). Proved for all messages with maps elsewhere. For variables of services: exact if one file has services with variables; false of the code for several files, where the first service of a file finds the variables of services of earlier files (witness proved).

### C74 Places of generated files

Code is generated for exactly the requested files with a federated service or plugin and the files of their packages; it is written to the place the option asks for, and different proto files are written to different places.

*Model and proof.* Paths as component lists; the result files as a fold; induction.

*Theorems.* `Verif.OutPath.C74_name`, `Verif.OutPath.C74_source_relative_partial`, `Verif.OutPath.C74_source_relative_outside`, `Verif.OutPath.C74_import`, `Verif.OutPath.C74_module_partial`, `Verif.OutPath.C74_module_false`, `Verif.OutPath.C74_dots_false`, `Verif.OutPath.C74_distinct_partial`, `Verif.OutPath.C74_import_distinct`, `Verif.OutPath.C74_case_false`, `Verif.OutPath.C74_files_partial`, `Verif.OutPath.C74_plugin_false`, `Verif.OutPath.C74_requested_false`, `Verif.OutPath.C74_generator_partial`, `Verif.OutPath.C74_generator_own_partial`, `Verif.OutPath.C74_generator_false`. *Status:* partial. False of the code: the generator writes code of imported services and plugins next to the importing file with paths=source_relative; the module prefix is cut off in the middle of names; names that differ only in case share an output; directories that start with two dots are not found in import paths; plugins without any federated service get no code; protoc also gets code for files it does not ask for (witnesses proved). Proved for all other inputs. Paths contain no . and .. components.

### C76 Options of the generator

Every option in the configuration and on the command line takes effect, options that cannot be read are reported, and the standard plugins are used unless configured otherwise.

*Model and proof.* The parser against the meaning of a list of options; induction.

*Theorems.* `Verif.GenOpt.C76_options_partial`, `Verif.GenOpt.C76_errors`, `Verif.GenOpt.C76_unknown`, `Verif.GenOpt.C76_port_false`, `Verif.GenOpt.C76_separator_false`, `Verif.GenOpt.C76_module_false`, `Verif.GenOpt.C76_plugin_name`, `Verif.GenOpt.C76_plugins`, `Verif.GenOpt.C76_plugins_found`. *Status:* partial. False of the code for plugin locations with a colon (URLs with a port), values with a separator, and a module before paths, which is ignored silently (witnesses proved). Proved for all other options. Downloads succeed.

### C77 Imported files

With file imports in options, exactly the given files and everything they depend on or import are used, each once; every file is resolved once and after all it imports; cycles of imports are reported, and nothing else is reported as a cycle.

*Model and proof.* The recursive imports as a function with a bound that is shown to suffice; the registration with an invariant over the files not yet registered, in progress and done; induction.

*Theorems.* `Verif.ImportGraph.C77_imports_end`, `Verif.ImportGraph.C77_imports`, `Verif.ImportGraph.C77_imports_error`, `Verif.ImportGraph.C77_registered`, `Verif.ImportGraph.C77_cycles`, `Verif.ImportGraph.C77_resolved`, `Verif.ImportGraph.C77_check_needed`. *Status:* proved. Compiling a file gives it with everything it depends on (the compiler is not modelled); files have different names.

### C75 Enums and plugins of imports

The expressions of a file can use the enums and plugins of the file and of all files it imports; what is accepted when code is generated exists when the service runs.

*Model and proof.* The collection with its cache; every cache entry is right; induction along the order of registration.

*Theorems.* `Verif.FileEnums.C75_enums`, `Verif.FileEnums.C75_plugins`, `Verif.FileEnums.C75_exact`, `Verif.FileEnums.C75_runtime_partial`, `Verif.FileEnums.C75_declared`, `Verif.FileEnums.C75_runtime_false`, `Verif.FileEnums.C75_own_plugin_false`. *Status:* partial. False of the code: functions on enums of google (except google.rpc.Code) and attributes of enums without any are accepted and do not exist in the service; a plugin of an import hides one of the same name of the file (witnesses proved). Proved for all others.

### C67 Panics become errors

A panic while a request is resolved becomes an error of the request whose message is the text of the panic and whose stack is the stack trace, at any nesting of shared evaluations; it is logged with both.

*Model and proof.* Texts as character lists; frames around a panic; induction over the frames.

*Theorems.* `Verif.Recover.C67_panic_partial`, `Verif.Recover.C67_no_panic`, `Verif.Recover.C67_panic_false`, `Verif.Recover.C67_logged_partial`, `Verif.Recover.C67_logged_false`. *Status:* partial. False of the code for texts of several lines (only the first one is kept and the stack trace is lost) and for logs of panics in calls with a timeout (no stack trace). Witnesses proved; proved for all others. singleflight and grpc/status are taken as documented.

### C78 Logs of errors

A failed request is logged with the level and attributes of the error entry or validation that produced the error, with the code and message of its status; other errors are logged at the error level.

*Model and proof.* Errors as trees; induction.

*Theorems.* `Verif.Recover.C78_level`, `Verif.Recover.C78_default`, `Verif.Recover.C78_message`. *Status:* proved. 

### C79 Functions and methods of libraries are called by their names

In expressions, `pkg.f(args)` calls the function `pkg.f` of the libraries or plugins with the context of the request, and `value.f(args)` calls the method `f`, whatever other functions and methods share the short name; compiling an expression a second time does not change its calls.

*Model and proof.* Expressions as trees, macros and the name lookup of cel-go as functions; case analysis and mutual induction; the standard libraries as data.

*Theorems.* `Verif.FuncCall.C79_functions`, `Verif.FuncCall.C79_methods_partial`, `Verif.FuncCall.C79_std_methods_partial`, `Verif.FuncCall.C79_std_false`, `Verif.FuncCall.C79_recompile`, `Verif.FuncCall.C79_documented_functions`, `Verif.FuncCall.C79_documented_methods_partial`. *Status:* partial. Functions: proved, and for every function of the indices of docs/cel that it is one of them. Methods: proved for every method of those indices but `Time.add` and `URL.parse`; called exactly if no function of the same last part is declared later; false of the code for `Time.add`, `URL.parse` and five string methods of CEL, which can not be called at all. Macros and name lookup of cel-go are taken as documented; types of arguments other than the context are not modelled.

### C80 What the generator accepts works in the server

An expression that the generator accepts compiles in the server, and calls the same functions and methods.

*Model and proof.* Both environments built from the same libraries and plugins; mutual induction over expressions.

*Theorems.* `Verif.FuncCall.C80_accepted_partial`, `Verif.FuncCall.C80_accepted_false`, `Verif.FuncCall.C80_callable_false`, `Verif.FuncCall.C80_packages_partial`, `Verif.FuncCall.C80_packages_false`. *Status:* partial. Proved if names of plugins are apart from all others and expressions are in the package of the service. False of the code otherwise: a plugin function named like a method of CEL breaks the method in the server only; plugin functions called without package from their own package fail in the server only; plugin functions that share their last part with a library function are rejected by the generator; names relative to the package of a message that is not the package of the service fail in the server.

### C81 Variables and fields keep their types in expressions

A variable defined by an expression has the type of the expression, a field of a message has its own type, and passing a value through any number of definitions keeps the type, up to the width of numbers.

*Model and proof.* Both type systems as inductive types, the conversions as recursive functions; induction over types and chains.

*Theorems.* `Verif.CelTy.C81_variable_partial`, `Verif.CelTy.C81_one_type`, `Verif.CelTy.C81_expression_partial`, `Verif.CelTy.C81_expression_false`, `Verif.CelTy.C81_arguments_false`, `Verif.CelTy.C81_selector_argument_false`, `Verif.CelTy.C81_rejected`, `Verif.CelTy.C81_field_partial`, `Verif.CelTy.C81_enum_lists_false`, `Verif.CelTy.C81_map_partial`, `Verif.CelTy.C81_map_false`, `Verif.CelTy.C81_map_source`. *Status:* partial. False of the code for lists in lists or maps, JSON values, lists and maps of enums as fields, maps of lists, the arguments of a message as a whole, and enum selectors passed as arguments, which crash the generator (witnesses proved). Proved for all other types. cel-go is taken as documented.

### C82 Arguments and variables can be used by their names

All arguments passed to a message can be used as `$.name` with their types, and all environment and service variables under their names with their types; nothing else can.

*Model and proof.* Descriptors and their checks as functions; induction over fields and callers.

*Theorems.* `Verif.Descr.C82_arguments_partial`, `Verif.Descr.C82_callers_partial`, `Verif.Descr.C82_variables_partial`, `Verif.Descr.C82_map_names_iff`, `Verif.Descr.C82_map_names_false`, `Verif.Descr.C82_second_caller_false`, `Verif.Descr.C82_imports_false`, `Verif.Descr.C82_library_types_false`, `Verif.Descr.C82_same_file_name_false`. *Status:* partial. Proved for the arguments of the first caller and all variables, of types in imported files. False of the code: arguments that only a later caller passes can not be used (the generator crashes for enums); types of files that are not imported directly are rejected; map variables with an underscore or inner upper case letter in the name are rejected; packages and messages that differ in dots and underscores share a file name (proved). Checks of protobuf-go are taken as documented.

### C83 Oneofs can be used by their name

In an expression, `m.o` for a oneof whose fields all have the same type is the value of the field the oneof holds, with that type; other oneofs are rejected.

*Model and proof.* What the generator accepts, what it writes and what the server does with it as functions on messages; induction over fields and messages.

*Theorems.* `Verif.OneofSel.C83_accepted_iff`, `Verif.OneofSel.C83_compiles_iff`, `Verif.OneofSel.C83_compiles_false`, `Verif.OneofSel.C83_value_partial`, `Verif.OneofSel.C83_unset`, `Verif.OneofSel.C83_has_false`, `Verif.OneofSel.C83_other_messages_false`. *Status:* partial. Proved for the messages of the service. False of the code: a message with two such oneofs, a oneof of bytes or an optional field gives a server that does not compile; oneofs of other messages (responses of dependencies, arguments) are accepted and unknown to the server; has() is always false (proved). Names of generated Go types are taken to be those of protoc-gen-go.

### C84 enum.select is the chosen enum

`grpc.federation.enum.select(c, a, b)` is a if c is true and b otherwise, at any nesting, converted to the enum it is assigned to; an enum definition is the converted value of its expression, and a map that builds enums the list of the converted values for the elements of its source, in their order.

*Model and proof.* Expressions as trees, the selector value, the parameters of the template and the generated assignment as recursive functions; induction.

*Theorems.* `Verif.EnumSel.C84_accepted_iff`, `Verif.EnumSel.C84_constants_false`, `Verif.EnumSel.C84_compiles_iff`, `Verif.EnumSel.C84_nested_false_arm_false`, `Verif.EnumSel.C84_value_partial`, `Verif.EnumSel.C84_wrap_false`, `Verif.EnumSel.C84_equal_false`, `Verif.EnumSel.C84_definition_partial`, `Verif.EnumSel.C84_definition_rejected`, `Verif.EnumSel.C84_same_enum_definition_false`, `Verif.EnumSel.C84_unaliased_arm_false`, `Verif.EnumSel.C84_definition_casts`, `Verif.EnumSel.C84_map_casts`, `Verif.EnumSel.C84_definition_compiles_iff`, `Verif.EnumSel.C84_map_compiles_iff`, `Verif.EnumSel.C84_list_definition_false`, `Verif.EnumSel.C84_map_value_partial`, `Verif.EnumSel.C84_map_enum_partial`, `Verif.EnumSel.C84_map_fails`. *Status:* partial. The value is proved for all accepted expressions. False of the code: a select nested in the value for false does not compile; enum constants (the documented example) and enum fields are rejected; all selectors are equal; an enum definition or map of the same enum, or of a list, does not compile; arms of an enum definition need no alias (proved). Conversions between enums are in C26.

### C85 Variables have the same types in the generator and in the server

A variable, argument or iterator has the CEL type in the server that the generator checked its expressions with, and the Go type protobuf has for it.

*Model and proof.* Types as inductive types, the conversions as recursive functions; induction.

*Theorems.* `Verif.SrvTy.C85_variable_partial`, `Verif.SrvTy.C85_map_of_lists_false`, `Verif.SrvTy.C85_declared_partial`, `Verif.SrvTy.C85_declared_iff`, `Verif.SrvTy.C85_go_type_partial`, `Verif.SrvTy.C85_list_of_maps_false`, `Verif.SrvTy.C85_zero`, `Verif.SrvTy.C85_iterator_go`. *Status:* partial. False of the code for maps of lists (the generator takes them for maps of the elements) and for the Go type of lists of maps (witnesses proved). Proved for all other types. Names of Go types are not modelled here.

### C86 Warnings about imports are right

An import of the option is reported as unused exactly if nothing of its package is used by the options of the file; an import statement is reported exactly if only the options of this project need it.

*Model and proof.* Files, definitions, errors and expressions as inductive types; the walk of the code as recursive functions, use as a recursive predicate; induction over all of them.

*Theorems.* `Verif.ImportWarn.C86_unused_partial`, `Verif.ImportWarn.C86_reported_partial`, `Verif.ImportWarn.C86_each`, `Verif.ImportWarn.C86_only_partial`, `Verif.ImportWarn.C86_unused_false`, `Verif.ImportWarn.C86_outer_false`, `Verif.ImportWarn.C86_field_false`, `Verif.ImportWarn.C86_same_package_false`, `Verif.ImportWarn.C86_only_false`. *Status:* partial. False of the code at thirteen places (conditions, retries, comprehensions, response options, ...), for packages in packages, fields named like packages, two files of one package and options of messages (witnesses proved for each). Proved for all other uses at any nesting.

### C87 Every problem is shown

A problem found in a file is shown by the linter, the protoc plugin, the generator and the editor, with its file, line and column and the source line, and the exit code tells whether there was one.

*Model and proof.* Problems with locations as data, the formatting and the exit code as functions on lists of lines; induction over problems and lines.

*Theorems.* `Verif.Diag.C87_shown_partial`, `Verif.Diag.C87_exit_partial`, `Verif.Diag.C87_printed`, `Verif.Diag.C87_cycle_false`, `Verif.Diag.C87_text`, `Verif.Diag.C87_rows`, `Verif.Diag.C87_compiler`, `Verif.Diag.C87_file`, `Verif.Diag.C87_caret`, `Verif.Diag.C87_protoc_partial`, `Verif.Diag.C87_generator`, `Verif.Diag.C87_source_line_partial`, `Verif.Diag.C87_last_line_false`, `Verif.Diag.C87_diagnostics_partial`, `Verif.Diag.C87_no_place_false`, `Verif.Diag.C87_other_file_false`. *Status:* partial. False of the code: files that import each other by the option give no problem at all and exit code 0, and crash the protoc plugin; a problem in the last line without newline is shown without its source; the editor shows problems without a place at line 4294967295 and problems of other files in the edited one (proved). Columns are taken as columns of characters.

### C88 The right files are compiled

The file that is edited or generated from is compiled with the text it has in the editor, each import is the file of that name below the first import path that has one, and the result holds every file reachable by imports exactly once, after the files it imports.

*Model and proof.* Paths as texts with the documented functions of path/filepath, the search for a file and the collection of the descriptors as functions; induction over paths, import paths and the graph of imports.

*Theorems.* `Verif.Compile.C88_same_file`, `Verif.Compile.C88_name_partial`, `Verif.Compile.C88_name_false`, `Verif.Compile.C88_edited_partial`, `Verif.Compile.C88_relative_false`, `Verif.Compile.C88_shadowed_false`, `Verif.Compile.C88_import_partial`, `Verif.Compile.C88_builtin_partial`, `Verif.Compile.C88_builtin_false`, `Verif.Compile.C88_missing_false`, `Verif.Compile.C88_result`, `Verif.Compile.C88_compiled`, `Verif.Compile.C88_again_partial`, `Verif.Compile.C88_again_false`, `Verif.Compile.C88_option_partial`, `Verif.Compile.C88_option_false`. *Status:* partial. Proved for absolute clean import paths that are not prefixes of each other as texts. False of the code otherwise: /a/b is taken as a parent of /a/bc/x.proto; with a relative import path the saved text is compiled instead of the edited one; a file of the same name below an earlier import path is compiled instead; missing files whose name ends like a built-in one are accepted; the option of one compilation stays on for the next ones of the same compiler; an import by the option may be compiled under another name (witnesses proved). Parsing and linking of protocompile are a parameter.

### C89 The editor shows the problems of the current text

After an edit, the problems of the text that is in the editor are shown, and problems that were fixed disappear, in whatever order the checks of earlier edits finish.

*Model and proof.* The server as a state machine whose threads are the running checks; invariants over all interleavings.

*Theorems.* `Verif.EdSync.C89_text`, `Verif.EdSync.C89_published_partial`, `Verif.EdSync.C89_shown_partial`, `Verif.EdSync.C89_stale_false`, `Verif.EdSync.C89_paths_false`, `Verif.EdSync.C89_unparsable_false`, `Verif.EdSync.C89_opened_false`, `Verif.EdSync.C89_closed_false`. *Status:* partial. Proved: each answer is that of a text the document had, and of the last one if its check is the last to finish. False of the code: an earlier check may finish later and its problems stay; the import paths of the shared validator grow with each check, racing; problems stay shown when the text can not be parsed; a document is not checked when it is opened or closed (witnesses proved).

### C90 Go to definition leads to the definition

In the editor, going to the definition of a type, a method or an import opens the file that declares it at its declaration.

*Model and proof.* Declarations as trees, the search for file and declaration as functions; induction over declarations and files.

*Theorems.* `Verif.Defn.C90_type_partial`, `Verif.Defn.C90_found`, `Verif.Defn.C90_same_name_false`, `Verif.Defn.C90_enum_false`, `Verif.Defn.C90_field_partial`, `Verif.Defn.C90_field_false`, `Verif.Defn.C90_own_package_false`, `Verif.Defn.C90_package_false`, `Verif.Defn.C90_no_package_false`, `Verif.Defn.C90_unsaved_false`, `Verif.Defn.C90_directory_false`, `Verif.Defn.C90_path_partial`, `Verif.Defn.C90_method_partial`, `Verif.Defn.C90_method_false`, `Verif.Defn.C90_import_partial`, `Verif.Defn.C90_import_false`, `Verif.Defn.Target.C90_option_partial`, `Verif.Defn.Target.C90_field_type`, `Verif.Defn.Target.C90_import_name`, `Verif.Defn.Target.C90_nested_false`, `Verif.Defn.Target.C90_map_false`, `Verif.Defn.Target.C90_alias_false`, `Verif.Defn.Target.C90_service`, `Verif.Defn.Target.C90_enum_alias`, `Verif.Defn.Target.C90_name_partial`, `Verif.Defn.Target.C90_single_quotes_false`, `Verif.Defn.Target.C90_selects`, `Verif.Defn.Target.C90_links`, `Verif.Defn.Target.C90_place`. *Status:* partial. Proved for saved files below an import path, if the last part of the name is declared once in its file. False of the code otherwise: two types or methods of the same last part in a file; enums of a file; types of a message further out; names with the package of the file itself; files whose name is the end of the path of another; unsaved texts; files in the directory of the document (witnesses proved). Which search is made at a position is proved for every text of the option of a message that is not nested, for field types and imports; false of the code in nested messages and map expressions (nothing is searched, proved for all of them) and for aliases of fields and enum values (a type is searched). The links select the name without its quotation marks and lead to the places that were found; false of the code for names in single quotation marks (an error, proved for all of them).

### C91 A problem is shown at the element it is about

The location of a problem, for example the condition of the second definition of a message, leads to that value in the source of the file; if the value is not written, to the literal it is missing in.

*Model and proof.* Syntax trees and parts of locations as inductive types, the search as functions, places by paths from an option to a value; mutual induction over the parts.

*Theorems.* `Verif.SrcLoc.C91_message_partial`, `Verif.SrcLoc.C91_missing`, `Verif.SrcLoc.C91_somewhere`, `Verif.SrcLoc.C91_iterator`, `Verif.SrcLoc.C91_field`, `Verif.SrcLoc.C91_field_option_partial`, `Verif.SrcLoc.C91_field_by`, `Verif.SrcLoc.C91_enum`, `Verif.SrcLoc.C91_enum_value_partial`, `Verif.SrcLoc.C91_enum_alias_partial`, `Verif.SrcLoc.C91_service_partial`, `Verif.SrcLoc.C91_method_partial`, `Verif.SrcLoc.C91_import`, `Verif.SrcLoc.C91_import_names`, `Verif.SrcLoc.C91_imports`, `Verif.SrcLoc.C91_message_alias`, `Verif.SrcLoc.C91_enum_value_alias`, `Verif.SrcLoc.C91_go_package`, `Verif.SrcLoc.C91_named`, `Verif.SrcLoc.C91_part_false`, `Verif.SrcLoc.C91_part_shown`, `Verif.SrcLoc.C91_oneof_defs_false`, `Verif.SrcLoc.C91_split_string_false`, `Verif.SrcLoc.C91_two_options_false`, `Verif.SrcLoc.C91_method_false`, `Verif.SrcLoc.C91_plugin_false`, `Verif.SrcLoc.C91_oneof_false`, `Verif.SrcLoc.C91_import_false`. *Status:* partial. Proved for one option statement per declaration and all parts that are searched. False of the code: names of arguments, messages of errors, aliases of fields and types of environment variables lead to the literal around them; the second definition of a oneof to the whole message; strings written as two literals, methods without option and plugins nowhere; only the first option statement and only a list of imports is searched (witnesses proved).

### C92 The type of a field leads to the declared message

Whatever files refer to each other in whatever way, resolving them ends; the type of every field leads to the message that is declared, known by its full name and with its option, and each message is one object.

*Model and proof.* Objects as numbers in a heap, with the cache as a partial function; the recursion with fuel and a measure that bounds it; invariants over all calls (cache entries never change, each object is the cached one or being resolved).

*Theorems.* `Verif.MsgGraph.C92_ends`, `Verif.MsgGraph.C92_fields`, `Verif.MsgGraph.C92_declared`, `Verif.MsgGraph.C92_only_declared`, `Verif.MsgGraph.C92_one_object_partial`, `Verif.MsgGraph.C92_name_partial`, `Verif.MsgGraph.C92_option_partial`, `Verif.MsgGraph.C92_plugin_partial`, `Verif.MsgGraph.C92_one_object_false`, `Verif.MsgGraph.C92_option_false`, `Verif.MsgGraph.C92_name_false`, `Verif.MsgGraph.C92_plugin_false`. *Status:* partial. Ending, fields and declared messages for all files; one object, names and options for files in which no message leads back to one it is declared in. False of the code otherwise: with `message Node { map<string, Node> children = 1; }` the values of the map are a second object without the option; a message in a message in a message referring to the second gives it the name of a top-level message; a plugin whose type has a map field crashes the generator (witnesses proved). Enums, oneofs and their options are not part of this graph.

### C93 Times in expressions are those of Go

A time in an expression is the instant and the zone that Go's package time gives for the same calls: every function called on it (hour, format, isDST, ...) tells what Go's function tells.

*Model and proof.* Times as instants with locations, expressions as an inductive type with the code's and Go's semantics; induction over expressions.

*Theorems.* `Verif.CelTime.C93_instant_partial`, `Verif.CelTime.C93_reading_partial`, `Verif.CelTime.C93_kept`, `Verif.CelTime.C93_utc`, `Verif.CelTime.C93_date`, `Verif.CelTime.C93_isDST_false`, `Verif.CelTime.C93_add_false`, `Verif.CelTime.C93_addDate_false`, `Verif.CelTime.C93_parse_false`, `Verif.CelTime.C93_zero_offset_false`, `Verif.CelTime.C93_fixedZone_false`, `Verif.CelTime.C93_tzData_false`, `Verif.CelTime.C93_location_false`. *Status:* partial. Instants are right without addDate and with locations by name; all else if the zone does not change during a computation. False of the code: between two calls a time keeps only abbreviation and offset of its zone, so computations over the begin of daylight saving time are an hour off, isDST is always false, zones with offset zero are looked up by their abbreviation, data of zones is dropped, location() is the abbreviation (witnesses proved). The calendar is a parameter.

### C94 Functions of the string library are those of Go

Each documented function of the string library calls Go's function of that name with the arguments it is given and gives its result or its error; values do not change afterwards.

*Model and proof.* The overloads as a table with the conversions of the arguments, Go's functions as a parameter, arrays for appended bytes; induction over arguments and over sequences of appends.

*Theorems.* `Verif.CelStr.C94_go_partial`, `Verif.CelStr.C94_names`, `Verif.CelStr.C94_overloads`, `Verif.CelStr.C94_char`, `Verif.CelStr.C94_code`, `Verif.CelStr.C94_char_false`, `Verif.CelStr.C94_code_false`, `Verif.CelStr.C94_bytes_false`, `Verif.CelStr.C94_empty_false`, `Verif.CelStr.C94_error`, `Verif.CelStr.C94_error_false`, `Verif.CelStr.C94_append_partial`, `Verif.CelStr.C94_append_false`. *Status:* partial. Proved for characters of ASCII, errors without percent sign and bytes that are appended to once. False of the code: of other characters the first byte is taken; code points above 32 bits are cut; overloads for bytes and empty texts always fail; percent signs in errors are taken as formats; appending twice to the same bytes changes the first result (witnesses proved).

### C95 URLs in expressions are those of Go

A URL in an expression is the one that Go's package net/url gives for the same calls, and every function tells about it what Go tells.

*Model and proof.* URLs and messages as structures, net/url as a parameter, expressions with the code's and Go's semantics; induction over expressions.

*Theorems.* `Verif.CelUrl.C95_kept`, `Verif.CelUrl.C95_go_partial`, `Verif.CelUrl.C95_reading_partial`, `Verif.CelUrl.C95_user`, `Verif.CelUrl.C95_join_partial`, `Verif.CelUrl.C95_join_false`, `Verif.CelUrl.C95_raw_false`, `Verif.CelUrl.C95_no_user_false`, `Verif.CelUrl.C95_password_false`. *Status:* partial. All functions but the method joinPath for all URLs, joinPath for paths that need no escaping. False of the code: joinPath takes the unescaped path for a URL and keeps the escaped result as path, so it is escaped twice, and leaves the raw path; a URL without user has an empty one (witnesses proved).

### C96 Random numbers depend on the seed

The numbers of a random source depend only on its seed and on the functions called on it so far; comparing values does not change them.

*Model and proof.* Sources as objects in a heap, evaluations as commands; invariant that other commands leave a source alone.

*Theorems.* `Verif.CelRand.C96_taken_partial`, `Verif.CelRand.C96_seed_partial`, `Verif.CelRand.C96_reseed`, `Verif.CelRand.C96_equal`, `Verif.CelRand.C96_equal_seed`, `Verif.CelRand.C96_int31n`, `Verif.CelRand.C96_self_false`, `Verif.CelRand.C96_compare_false`, `Verif.CelRand.C96_int31n_false`. *Status:* partial. Proved if sources are not compared. False of the code: == takes a number from both sides, so a source is not equal to itself and gives other numbers afterwards; arguments of int31n are cut to 32 bits (witnesses proved).

### C97 The tree of dependencies shows what waits for what

The comment of a generated function shows every definition on a line of its own, with its name before a corner in the column of the definition that waits for it, all corners of one definition joined by bars; the dependencies can be read back from it.

*Model and proof.* The widths as a map, the text as a list of characters; the picture as a relation between rows with columns and lines of text; mutual induction over the groups, and injectivity of the text.

*Theorems.* `Verif.Tree.C97_picture_partial`, `Verif.Tree.C97_determines_partial`, `Verif.Tree.C97_shown`, `Verif.Tree.C97_single_false`. *Status:* partial. Proved for two or more groups. False of the code: with one group nothing is shown, although a chain of definitions that wait for each other is one group (witness proved).

### C98 A method answers with the message made of its request

The function generated for a method resolves the message of its option `response`, else its response, with the fields of the request as arguments, converts it to the response, and does so within its timeout.

*Model and proof.* Options and methods as data, the generated function as a term with a meaning, the walk over the map as any permutation.

*Theorems.* `Verif.Method.C98_arguments_partial`, `Verif.Method.C98_answer_partial`, `Verif.Method.C98_option`, `Verif.Method.C98_fields_partial`, `Verif.Method.C98_timeout`, `Verif.Method.C98_both_never`, `Verif.Method.C98_both_false`, `Verif.Method.C98_requests_false`, `Verif.Method.C98_built_false`, `Verif.Method.C98_types_false`, `Verif.Method.C98_streaming_false`. *Status:* partial. Proved for methods with at most one of the options whose message is their own. False of the code: a method with both options does not compile; of two methods with the same response and different requests one does not compile, and the order of a map decides which; neither does a method whose response another message builds; fields of the response option are compared by kind only, so a list is taken for a single value; streaming methods are accepted (witnesses proved).

### C99 A plugin has the functions that are declared

For each function that the option of a plugin declares, its Go interface has a method of its own with the declared arguments and result, and the generated handler compiles.

*Model and proof.* Declared types, resolved types and Go types as inductive types; induction over declared types, and injectivity of the numbered names.

*Theorems.* `Verif.PlugTy.C99_type_partial`, `Verif.PlugTy.C99_function_partial`, `Verif.PlugTy.C99_accepted`, `Verif.PlugTy.C99_arity`, `Verif.PlugTy.C99_names_partial`, `Verif.PlugTy.C99_nested_false`, `Verif.PlugTy.C99_undeclared_false`, `Verif.PlugTy.C99_missing_false`, `Verif.PlugTy.C99_no_return_false`, `Verif.PlugTy.C99_map_enum_false`, `Verif.PlugTy.C99_names_false`. *Status:* partial. Types are right exactly if lists are lists of base types, messages or enums, and all names are declared; names if none ends in a digit. False of the code: a list of lists becomes a list, a list of maps a map; an undeclared message is accepted and crashes the generator, as does a function without result; an argument without type crashes the resolver; maps, and enums as results, give code that does not compile; the second overload of `foo` is named like a function `foo2` (witnesses proved).

### C100 The result does not depend on the schedule

However the evaluations of a message's definitions are interleaved, a request that is not cancelled ends with the values that evaluating the definitions one after the other in the order of their declaration gives, or fails if that fails; and it always ends.

*Model and proof.* The machine of C03 to C05 with the variables: an evaluation may have read any value that a variable had since it started; invariant that a definition's evaluation reads what the evaluation in order reads, by induction over runs; progress by a measure.

*Theorems.* `Verif.Value.C100_values`, `Verif.Value.C100_failure`, `Verif.Value.C100_no_failure`, `Verif.Value.C100_same`, `Verif.Value.C100_progress`, `Verif.Value.C100_completes`. *Status:* proved. For accepted messages (names given and different: C66; no reference to itself: C08; reads only what it refers to: C09) and evaluations that are functions of what they read. Writing a variable and ending the evaluation are one step.

### C101 Messages are logged field by field

The generated code has one function for each message, argument, enum, list and map that it logs; these functions compile, and what they log has all fields of a message under their names, the elements of lists under their indices, the entries of maps under their keys, and enums by name.

*Model and proof.* The walk over messages as a function with fuel, proved to end by counting messages without function; functions as terms with Go types and a meaning; invariant that all calls have a function, induction over the depth of the value; the name of an argument by induction over the name.

*Theorems.* `Verif.LogFn.C101_ends`, `Verif.LogFn.C101_once`, `Verif.LogFn.C101_declared`, `Verif.LogFn.C101_compiles_partial`, `Verif.LogFn.C101_logged_partial`, `Verif.LogFn.C101_argument_partial`, `Verif.LogFn.C101_maps_false`, `Verif.LogFn.C101_argument_name_false`, `Verif.LogFn.C101_alias_false`, `Verif.LogFn.C101_nested_false`, `Verif.LogFn.C101_used_false`. *Status:* partial. Proved if different types have different Go names, enums have no aliases, used variables have the type of the argument of that name, and names of nested messages begin with a capital letter. False of the code otherwise: maps made by expressions share one function; the argument of `Foo` has the name of a message `FooArgument`; an enum with two names for a number gives a switch with a duplicate case; the argument of a nested message `bar` is declared under another name than the function that logs it; a variable with the name of an argument replaces its field (witnesses proved). The type of enum.select is not modelled.

### C102 A request or a message gets the values given for its fields

The request of a call has, in every field, the last value given for it whose condition holds, in a oneof the last one given for any of its members, and nothing else; a message gets as arguments the values given by name and the fields of inlined messages; the generated code compiles, and nothing is called if an expression fails.

*Model and proof.* The resolver and generator as functions from types to assignments with a Go type; assignments as steps on the struct; what is given as a list of assignments of which the last one counts; induction over the entries.

*Theorems.* `Verif.SetArg.C102_accepted`, `Verif.SetArg.C102_request_generated_partial`, `Verif.SetArg.C102_request_declared_partial`, `Verif.SetArg.C102_request_compiles_partial`, `Verif.SetArg.C102_request_partial`, `Verif.SetArg.C102_arguments_generated_partial`, `Verif.SetArg.C102_arguments_compile_partial`, `Verif.SetArg.C102_arguments_partial`, `Verif.SetArg.C102_oneof_enum_false`, `Verif.SetArg.C102_selector_false`, `Verif.SetArg.C102_enum_crash_false`, `Verif.SetArg.C102_argument_types_false`, `Verif.SetArg.C102_argument_numbers_false`, `Verif.SetArg.C102_inline_empty_false`, `Verif.SetArg.C102_null_argument_false`. *Status:* partial. Proved if values have the type they are given for or differ only in the kind of number, message or enum (for arguments: kind of scalar or enum). False of the code otherwise, although accepted: an enum member of a oneof given another enum, a value of enum.select for an enum, two messages or enums or a list and a single value for one argument, a number of another kind in an inlined message or inside a map, and inlining a message without fields do not compile; a message or map for an enum crashes the generator; null as argument panics at run time (witnesses proved).

### C103 A request is answered as its definitions say

However the goroutines of a message and of all the messages that are resolved for it, to any depth, are scheduled, a request that is not cancelled is answered with what evaluating the definitions of each message one after the other in the order of their declaration gives, conditions, maps and nested messages included, and fails exactly if that fails; it can always end.

*Model and proof.* Machines of C100 nested in each other: the evaluation of a definition may have any outcome that a run of the message it resolves may have; a relation is shown to be a function by induction over the number of messages that a message depends on, and then C100 applies.

*Theorems.* `Verif.Whole.C103_answer`, `Verif.Whole.C103_depth`, `Verif.Whole.C103_progress`, `Verif.Whole.C103_accepted_partial`, `Verif.Whole.C103_self_false`. *Status:* proved. For messages as in C100 that do not depend on themselves; if every message is below one that none depends on, acceptance guarantees that (C103_accepted_partial), else it does not: a message that uses itself is accepted and never ends (C103_self_false, see C10). Definitions of error entries and of oneof fields are part of functions of the variables and use no messages here.

### C104 Texts of options reach the server unchanged

The strings that options contain, expressions, conditions, names, locales and texts of error details, are written into the generated Go file so that the Go compiler reads exactly these strings in the fields they belong to, and the comments that show the options are read as comments.

*Model and proof.* Go's reading of strings and comments as a relation on texts, the templates as lists of parts; that a part is read back exactly if its string has no character that ends it, by induction over texts, and that parts do not disturb each other.

*Theorems.* `Verif.Embed.C104_expression`, `Verif.Embed.C104_locale`, `Verif.Embed.C104_quoted`, `Verif.Embed.C104_argument_comment`, `Verif.Embed.C104_field_comment`, `Verif.Embed.C104_autobind_comment`, `Verif.Embed.C104_definition_comment`, `Verif.Embed.C104_file_partial`, `Verif.Embed.C104_definition_partial`, `Verif.Embed.C104_argument_partial`, `Verif.Embed.C104_details_partial`, `Verif.Embed.C104_expression_changed_false`, `Verif.Embed.C104_carriage_return_false`, `Verif.Embed.C104_backquote_false`, `Verif.Embed.C104_locale_false`, `Verif.Embed.C104_definition_comment_false`. *Status:* partial. Proved exactly for expressions without backquote and carriage return, locales without quotes and backslashes, and definitions without `*/`. False of the code otherwise: an expression with a backquote changes or the file has no meaning for Go, carriage returns disappear, escapes in a locale are replaced, and a definition with the expression '*/*' ends its own comment (witnesses proved).

### C105 Environment variables are read as declared

A server reads each environment variable it declares under its name in capital letters, or under the alternate name given, takes the default if it is not set, does not read ignored ones and does not start if a required one is missing or a value has not the declared type.

*Model and proof.* Tags as texts, written by the generator and read by the lookup of Go's struct tags and by envconfig, both modelled from their definitions; that the written tag is read back, by induction over texts; what a variable gets as a specification over names and environments.

*Theorems.* `Verif.EnvTag.C105_accepted`, `Verif.EnvTag.C105_tag_partial`, `Verif.EnvTag.C105_variable_partial`, `Verif.EnvTag.C105_start_partial`, `Verif.EnvTag.C105_twice_false`, `Verif.EnvTag.C105_backquote_false`, `Verif.EnvTag.C105_alternate_false`, `Verif.EnvTag.C105_required_false`. *Status:* partial. Proved for options without backquote, alternate names in capital letters and required variables without default. False of the code: a variable listed twice is accepted, a backquote in a default ends the tag, an alternate name with small letters is never read under that name, and a required variable with a default may be missing (witnesses proved). envconfig and reflect.StructTag are modelled from their definitions, not from /repo.

### C106 Functions on enums give what the enum declares

`attr` gives the attribute written at the value of that number, `name` and `value` give the name of a number and the number of a name, and a set of attributes is accepted only if every value of the enum has each of them; the generated tables compile.

*Model and proof.* The declaration, the resolved enum, the generated table and the lookup as functions; counting of attribute names against the number of values; lookup in the table by induction over the values.

*Theorems.* `Verif.EnumAttr.C106_accepted_partial`, `Verif.EnumAttr.C106_attr_partial`, `Verif.EnumAttr.C106_names_partial`, `Verif.EnumAttr.C106_complete_false`, `Verif.EnumAttr.C106_crash_false`, `Verif.EnumAttr.C106_number_false`, `Verif.EnumAttr.C106_twice_false`, `Verif.EnumAttr.C106_large_false`, `Verif.EnumAttr.C106_unknown_false`. *Status:* partial. Proved if no value has an attribute twice, numbers are different and in 32 bits, and strings have no backquote. False of the code: an attribute written twice at one value and missing at another is accepted, and crashes the generator if that value has no option; two values with one number, or an attribute written twice, give a table that does not compile; larger numbers are cut to 32 bits; `value` of an unknown name is 0 (witnesses proved).

### C107 A server starts exactly if it is configured and its checks pass

`New` gives a server exactly if all parts of the configuration that it needs are set, every client can be made, every plugin can be loaded and is valid, the environment can be read, and the service's variables evaluated in their order pass all checks; it has the clients of the services it depends on, and after the cleanup function, or if `New` fails, no plugin instance runs.

*Model and proof.* `New` as a function from the configuration to a history of events and a result; evaluation of variables as an inductive relation; induction over clients, plugins and variables.

*Theorems.* `Verif.Start.C107_starts`, `Verif.Start.C107_check`, `Verif.Start.C107_clients`, `Verif.Start.C107_cleanup`, `Verif.Start.C107_failed_partial`, `Verif.Start.C107_failed_false`. *Status:* partial. Proved but for the last part: if `New` fails no plugin instance runs only if there are no plugins or it failed before they were loaded; an environment that cannot be read, or a check that fails, leaves all instances running (witness proved).

### C108 Variables of the generated code are declared and used

In the code of a message every definition is assigned to a field of the local struct that exists, has the type of the definition and is no other definition's field; variables passed to custom resolvers are fields of both structs with one type; and the local variable that holds them is declared exactly if it is used, so that the Go compiler accepts the code.

*Model and proof.* Messages as trees of definitions, error entries and details; what is declared (first two levels) and what is printed (all levels) as two functions; that one is a permutation of the other plus the deeper levels, by induction over the tree.

*Theorems.* `Verif.Locals.C108_fields_partial`, `Verif.Locals.C108_arguments_partial`, `Verif.Locals.C108_snake`, `Verif.Locals.C108_value_partial`, `Verif.Locals.C108_nested_false`, `Verif.Locals.C108_oneof_false`, `Verif.Locals.C108_names_false`, `Verif.Locals.C108_value_false`. *Status:* partial. Proved exactly: with different Go names (C108_snake: snake case names), the code compiles in this respect if and only if error entries inside error entries and inside oneof fields have no definitions. False of the code otherwise: definitions of such inner error entries are not declared, `foo_bar` and `fooBar` give one field twice, and an expression on a field with a custom resolver or in a oneof leaves the variable unused (witnesses proved).

### C109 What the language server finds at a position is written there

For a position in a file the language server finds the import, message option, definition, argument, request field, expression, field type, alias or timeout that is written there, and the element the found location names contains the position; completion and the search of definitions start from it.

*Model and proof.* Syntax trees as in C91 and the position of every node; the search as functions over them. Soundness: the location found, looked up with the function of C91, is a node that contains the position, by induction over the nesting. Completeness: what is written at the position is found, if different things are in different places.

*Theorems.* `Verif.FindPos.C109_contains`, `Verif.FindPos.C109_found_partial`, `Verif.FindPos.C109_option`, `Verif.FindPos.C109_field_type`, `Verif.FindPos.C109_field_by`, `Verif.FindPos.C109_import`, `Verif.FindPos.C109_timeout`, `Verif.FindPos.C109_twice_false`, `Verif.FindPos.C109_after_field_false`, `Verif.FindPos.C109_after_method_false`, `Verif.FindPos.C109_enum_false`, `Verif.FindPos.C109_default_false`, `Verif.FindPos.C109_compound_false`. *Status:* partial. Soundness for tidy files: repeated fields of options are written as lists, and options, nested messages and enums come before fields and methods. False of the code otherwise: a second field `def` is taken for the first, an option after a field leads to the field, an option of a service after a method leads nowhere, enums of files are never searched, an alias after `default: true` and anything after a string of two literals is not found (witnesses proved).

### C110 The tokens the editor reads are those of the file

The numbers the language server sends for a file, read as the protocol says, give for every comment, keyword, name and part of an expression the position at which it is written, its length, its type and its modifiers; names of messages are shown as types and other names as variables.

*Model and proof.* Tokens of terminals and comments, the 32 bit differences and the legend as functions; a decoder written from the protocol as specification. Decoding by induction over the tokens: positions are right exactly if the tokens are in order; order of names, expressions and files.

*Theorems.* `Verif.SemTok.C110_positions`, `Verif.SemTok.C110_legend_partial`, `Verif.SemTok.C110_name`, `Verif.SemTok.C110_name_apart`, `Verif.SemTok.C110_name_order_partial`, `Verif.SemTok.C110_expression_partial`, `Verif.SemTok.C110_expression_column`, `Verif.SemTok.C110_call_partial`, `Verif.SemTok.C110_file_partial`, `Verif.SemTok.C110_names_partial`, `Verif.SemTok.C110_brace_false`, `Verif.SemTok.C110_enum_false`, `Verif.SemTok.C110_call_false`, `Verif.SemTok.C110_comment_false`, `Verif.SemTok.C110_legend_false`, `Verif.SemTok.C110_single_false`, `Verif.SemTok.C110_names_false`, `Verif.SemTok.C110_details_false`. *Status:* partial. Proved: positions are right if and only if tokens are in order, and they are for files whose comments and terminals follow one another and whose names are in double quotation marks. False of the code: `enum: {…}` and a list of aliases, a comment of several lines before a token to the left of its column, and a call whose parenthesis starts a line give a negative difference, which is read as more than four thousand million columns; a type the client does not know is read as the first one it knows; texts in single quotation marks overlap; arguments before the name, and messages of a list but the first, are classified wrongly (witnesses proved). Lengths are in bytes; the parser of expressions is a parameter.

### C111 A reference to a message leads to the message of the file

Every message of the proto files is represented once: the message a field refers to is the one whose options are resolved, so that aliases, custom resolvers and rules written in the file hold for every reference; the resolution ends for all files, also if messages refer to themselves and to each other, and does not panic.

*Model and proof.* Resolved messages as objects with identity in a heap and the cache as a map, the recursive function with a bound on its depth. Termination by the number of messages not in the cache and the depth of nesting; uniqueness by an invariant that objects and cache are inverse to each other, kept by each call if no nested message leads back to its parent.

*Theorems.* `Verif.MsgOnce.C111_once_partial`, `Verif.MsgOnce.C111_ends`, `Verif.MsgOnce.C111_alias_partial`, `Verif.MsgOnce.C111_twice_false`, `Verif.MsgOnce.C111_panics_partial`, `Verif.MsgOnce.C111_panic_false`. *Status:* partial. Proved if no nested message leads, by nesting and fields, back to the message it is nested in. False of the code otherwise: a message is put in the cache only after its nested messages are resolved, so `message A { message B { A a = 1; } }` gives two objects of A, and the field refers to the one whose options are never resolved; a declared alias is then not found (witness proved). The resolution also panics for the types a plugin exports, exactly if such a type is not resolved yet and has a nested message, for instance that of a map field, that is not resolved yet and not empty: the builder of locations it is given makes a new message each time, and what is nested in it is nil (exact condition and witness proved). Lookup of names is a parameter.

### C112 A request calls the services its definitions say

Which methods of which services are called for a request that is answered, and with which requests, does not depend on how its definitions and those of the messages resolved for it are scheduled: they are the calls that the definitions make one after the other, each made as often as its definition says, no more.

*Model and proof.* The machine of C103 with a list of calls that evaluations add to; the specification makes the calls one after the other. Values by C103, then the calls by induction over the run: each ended evaluation adds the calls of the definition with the variables of the evaluation in order. Counting by an invariant: evaluations that ended plus those in the plan still to come never grow; the plan has each definition once if no two definitions wait for the same one.

*Theorems.* `Verif.Calls.C112_calls`, `Verif.Calls.C112_once_partial`, `Verif.Calls.C112_answer`, `Verif.Calls.C112_evaluations`, `Verif.Calls.C112_evaluated_once_partial`, `Verif.Calls.C112_twice_false`. *Status:* partial. Proved for all programs: the same calls, as a set, and a definition is evaluated at most as often as it occurs in the plan. As often as the definitions say if no two definitions of a message wait for the same one. False of the code otherwise: two goroutines that both miss the cache before the first evaluation ends make the call twice (witness proved: a request that succeeds after two calls). What is called for one definition, retries included, is a function of the variables.

### C113 A location says what the calls of its builder say

The location that a chain of builder calls gives names the parts of the file that the calls name, with the names and indices given to them, and nothing else; the same builder can start any number of chains, a location taken from a builder never changes later, and no call panics.

*Model and proof.* Locations as structures in a heap with pointers, Clone as a recursive copy, every method of the forty builders as a row of a table, builders with their functions as paths. The specification has no heap. Invariant over all programs: the trees of different builders share no structure, each builder's function finds a structure of its type, and the tree reads as the chain says.

*Theorems.* `Verif.LocBuild.C113_location_partial`, `Verif.LocBuild.C113_unchanged_partial`, `Verif.LocBuild.C113_runs_partial`, `Verif.LocBuild.C113_lazyMessage_partial`, `Verif.LocBuild.C113_lazyEnum_partial`, `Verif.LocBuild.C113_env_false`, `Verif.LocBuild.C113_forgotten_false`, `Verif.LocBuild.C113_lazy_false`, `Verif.LocBuild.C113_lazyEnum_false`. *Status:* partial. Proved for all builders but those for entries of the environment, and all parts but five. False of the code otherwise: WithVar of the environment builder keeps the new root in its function, so that WithName, WithType and WithOption of an entry change the location taken before and give one that points at the whole entry; Clone does not copy ImportName, If of a request, If of a retry, IgnoreAndResponse of an error and By of a detail, so the next call forgets them; lazy builders panic at the second level and forget the option of an enum (witnesses proved).

### C114 A mistake in a file never crashes the tool

Whatever parts of a definition are missing or wrong, as they are while a file is being written, the resolver reports errors; it does not panic, so that the language server, the linter and the generator go on.

*Model and proof.* Options as trees in which every part can be missing; the five steps of the resolver that read them as functions whose result is none where the code dereferences nil. No panic for finished definitions by induction over the trees through all steps; for each kind of missing part, that it leads to a panic wherever it is, by following a definition through the steps.

*Theorems.* `Verif.Unfinished.C114_partial`, `Verif.Unfinished.C114_validation_panics`, `Verif.Unfinished.C114_custom_panics`, `Verif.Unfinished.C114_map_panics`, `Verif.Unfinished.C114_argument_panics`, `Verif.Unfinished.C114_autobind_panics`, `Verif.Unfinished.C114_autobind_unknown_panics`, `Verif.Unfinished.C114_condition_panics`, `Verif.Unfinished.C114_false`, `Verif.Unfinished.C114_service_partial`, `Verif.Unfinished.C114_service_missing_panics`, `Verif.Unfinished.C114_service_message_panics`, `Verif.Unfinished.C114_service_map_panics`. *Status:* partial. Proved: no panic if nothing is missing, whatever else is wrong (undefined names, rejected expressions, names that are not allowed). False of the code otherwise, proved for all messages: a validation without `error`, a map without expression and without iterator name or source, an argument without value (or with two) of a message with options, and without expression a definition with `autobind`, with a condition that refers to a variable, or of a message with a custom resolver make the resolver panic, and so does `autobind` of a message that does not exist. The same for the variables of services: no panic if no expression is missing and all messages exist; a variable without expression, a message that does not exist, and a map without expression and iterator make the resolver panic. Not modelled: values that no later step reads. The checker of expressions is a parameter.

### C115 Generated code uses the names that the Go code of the proto files has

The generated Go file refers to the messages, enums, enum values, fields, getters, wrappers of oneof fields, clients and methods of the proto files by the names that protoc-gen-go and protoc-gen-go-grpc give them, qualified by a name under which their package is imported, so that it compiles.

*Model and proof.* References as a qualifier and a name; protobuf's naming (camel case of the dotted path, fields in order that avoid names in use, wrappers that avoid nested names) as a separate specification from its public rules. Names by induction over paths, fields by an invariant that no name still to come is in use; what a reference denotes by the imports of C33.

*Theorems.* `Verif.ProtoNames.C115_name_exact`, `Verif.ProtoNames.C115_message_partial`, `Verif.ProtoNames.C115_wellknown`, `Verif.ProtoNames.C115_enum_partial`, `Verif.ProtoNames.C115_value_partial`, `Verif.ProtoNames.C115_fields_partial`, `Verif.ProtoNames.C115_wrapper_partial`, `Verif.ProtoNames.C115_request_partial`, `Verif.ProtoNames.C115_response_partial`, `Verif.ProtoNames.C115_client_partial`, `Verif.ProtoNames.C115_call_exact`, `Verif.ProtoNames.C115_method`, `Verif.ProtoNames.C115_own_false`, `Verif.ProtoNames.C115_nested_request_false`, `Verif.ProtoNames.C115_lower_false`, `Verif.ProtoNames.C115_camel_false`, `Verif.ProtoNames.C115_reserved_false`, `Verif.ProtoNames.C115_getter_false`, `Verif.ProtoNames.C115_wrapper_false`. *Status:* partial. Proved for messages, enums and values if and only if no nested name starts with a lower case letter; for fields whose Go names are different and no methods; for calls of services in other packages with requests that are not nested and with names in camel case. False of the code otherwise, each with a witness or for all inputs: a call of a service of the file's own Go package (the package is not imported), a nested request message (its parents are left out), services, responses and methods not in camel case, fields called like a method of messages or like a getter of another field, a nested message with the name of a oneof field in lower case. The rules of protoc-gen-go are from its public behaviour, not from /repo.

### C116 What completion offers can be written

The language server offers completions for the message at the cursor; every message name that it offers leads to a message, every method name to its method, every keyword to a field of the option and every value to a type that the field takes, and accepting one gives the candidate and leaves the rest of the line as it was.

*Model and proof.* Candidates as functions of the names in the caches; what a name leads to by the model of resolveMessageByName and the lookup of packages of C43 and methods of C42; types by the specification of C09; edits as insertions into the line. Files by induction over their list; names by the exact set of prefixes.

*Theorems.* `Verif.Offer.C116_message_partial`, `Verif.Offer.C116_message_false`, `Verif.Offer.C116_method_exact`, `Verif.Offer.C116_method_partial`, `Verif.Offer.C116_method_false`, `Verif.Offer.C116_offered`, `Verif.Offer.C116_name_exact`, `Verif.Offer.C116_own_name`, `Verif.Offer.C116_name_false`, `Verif.Offer.C116_keywords`, `Verif.Offer.C116_keywords_exact`, `Verif.Offer.C116_filter_sound`, `Verif.Offer.C116_filter_partial`, `Verif.Offer.C116_filter_false`, `Verif.Offer.C116_items`, `Verif.Offer.C116_items_false`. *Status:* partial. Proved if one package has the message among the files whose names end the path; for methods of packages that are not inside that of the message; for names that no known package is a part of once they are shortened; for texts in double quotation marks. False of the code otherwise (witnesses proved): a file whose name ends the path of another one, methods of packages inside the own one (never offered), shortened names that start like another package, aliases of messages and enums and enums for numbers (not offered), lists for single values (offered), texts in single quotation marks (never completed). Not modelled: collecting values from variables and parts of messages; columns count characters.

### C117 A custom resolver is given every variable of its message

If a message or one of its fields is implemented in Go, the custom resolver is passed every value that a `def` of the message retrieves: the argument has a field for the variable, with its type and the value to which the definition evaluates, whether or not an expression reads the variable.

*Model and proof.* The flag of definitions as it goes through the four places that set it, on trees of definitions; the fields and assignments of the generated code by the model of C108, the values by that of C65. Which variables are flagged by structural recursion; composition.

*Theorems.* `Verif.Given.C117_passed`, `Verif.Given.C117_field_partial`, `Verif.Given.C117_value_partial`, `Verif.Given.C117_exact_partial`, `Verif.Given.C117_oneof_not`, `Verif.Given.C117_handlers`, `Verif.Given.C117_oneof`. *Status:* partial. That each variable is assigned: proved for all messages. That it has a field of its type and its value: proved if the Go names of the variables are different (and of the arguments among themselves); for equal ones C108 and C64 have the witnesses. Definitions of oneof options are not passed (C117_oneof_not); the documentation does not promise them. For definitions of error entries, details and oneof options, at any depth, it is proved that they are kept exactly if an expression reads them (messages of details always).

### C118 A sort that is accepted can compare its keys

`sortAsc`, `sortDesc`, `sortStableAsc` and `sortStableDesc` by a key whose values have no order are reported before code is generated, each once and wherever the sort is in the expression; the sorts of an expression without such a report never crash and put elements in the order of their keys.

*Model and proof.* Expressions as trees with the calls that the macros make; the validator with its loop over four functions and its memory of messages; the comparison as a function that can panic, under an arbitrary decision tree of comparisons. Induction over expressions, over the list of calls and over the decision tree.

*Theorems.* `Verif.SortKey.C118_reported_iff`, `Verif.SortKey.C118_accepted_iff`, `Verif.SortKey.C118_reported_once`, `Verif.SortKey.C118_no_panic_partial`, `Verif.SortKey.C118_no_panic`, `Verif.SortKey.C118_less_iff`, `Verif.SortKey.C118_rejected_panics`, `Verif.SortKey.C118_null_false`. *Status:* partial. Which sorts are reported: proved for all expressions. No crash: proved for keys that are not null, thus for all types except wrappers; false for wrappers (witness: an accepted sort by an Int64Value that is not set in one element panics, depending on the order of elements). The order of the result is C29. Trusted: which cel-go types and values have the trait Comparer, and their Compare.

### C119 Log lines have everything that is logged

`log.debug`, `log.info`, `log.warn` and `log.error` output one line with their level and message, whose attributes are those of the context, all that `log.add` added before, and the entries of the argument; everything inside lists and maps of the argument, at any depth, is in the line on the path that leads to it, and nothing else is; all five return true.

*Model and proof.* CEL values as mutual trees, Go maps with assignment and look-up; paths into values and into what is logged; induction over the derivation of a path, over entries and over the sequence of calls.

*Theorems.* `Verif.LogVal.C119_sound`, `Verif.LogVal.C119_complete_partial`, `Verif.LogVal.C119_typed_iff`, `Verif.LogVal.C119_attrs_iff`, `Verif.LogVal.C119_line`, `Verif.LogVal.C119_plain_line`, `Verif.LogVal.C119_only`, `Verif.LogVal.C119_mixed_false`, `Verif.LogVal.C119_empty_list_false`. *Status:* partial. Lines and attributes: proved for all sequences of calls in one context (contexts that share attributes are C31 and C63). Nothing else is logged: proved for all values. Everything is logged: proved if each map has keys of one type; false for maps with keys of different types (witness: of the keys 1 and '1' only one is logged) and for empty lists (logged like no list). Not modelled: handlers of slog, and what they print for values that are neither lists nor maps (C101 has messages).

### C120 Conversions of messages with oneofs compile

When the generator converts values between two messages that have oneofs or optional fields, the generated conversion functions compile, and the generator does not crash.

*Model and proof.* The declared conversions (the visit of C35, with members of oneofs) satisfy an invariant and contain all conversions of an inductive relation; the Go types of the functions made of them are compared. An exact condition on the fields of the same name is proved for all schemas; witnesses for the rest.

*Theorems.* `Verif.CastOneof.C120_compiles_iff_partial`, `Verif.CastOneof.C120_member_function_iff`, `Verif.CastOneof.C120_compiles_false`, `Verif.CastOneof.C120_string_false`, `Verif.CastOneof.C120_optional_false`, `Verif.CastOneof.C120_shared_false`, `Verif.CastOneof.C120_leaves_oneof_false`. *Status:* partial. Proved: all functions compile exactly when every member of a oneof of a converted target comes from a message or bytes of another type and is not an optional field, and no member of a oneof is converted into a field outside of oneofs. False of the code otherwise (witnesses: a string in both oneofs, an optional field, a message that both oneofs share; a member that leaves its oneof crashes the generator). Fields of the same name must be of the same form; no renamed fields and enum selectors.

### C121 The code that sets a field compiles

If the value given for a field of a message, by an expression, by autobind, or by the option of a member of a oneof, is accepted, then the code that is generated to convert and assign it compiles, and the conversion it calls is generated.

*Model and proof.* The generated assignment and the conversion function as outcomes (crash, broken, compiles), computed from the Go types; case analysis over the derivation of compatibility (the specification of C39).

*Theorems.* `Verif.SetField.C121_by_partial`, `Verif.SetField.C121_accepted_by_partial`, `Verif.SetField.C121_autobind_partial`, `Verif.SetField.C121_leaves_oneof_iff`, `Verif.SetField.C121_autobind_member_iff`, `Verif.SetField.C121_member_by_partial`, `Verif.SetField.C121_member_by_false`, `Verif.SetField.C121_member_null_false`, `Verif.SetField.C121_autobind_string_false`, `Verif.SetField.C121_accepted_false`, `Verif.SetField.C121_optional_false`. *Status:* partial. Proved for values of compatible types (those of C39) if the conversions between aliased messages compile (C120). False of the code otherwise: the type of the expression of a member of a oneof is not checked (a string for a number does not compile, a message for a string crashes the generator); null and enum.select for a member, autobound members that are not messages of another type, optional fields, enums for messages and single messages for lists are accepted and do not compile (witnesses proved). enum.select outside of oneofs is in C84.

### C122 A declared error has the declared code and log level

A call or validation that fails with an error of the options fails with exactly the code declared there, and is logged at exactly the level declared there (ERROR if none).

*Model and proof.* The text of the constants as a function of the names of codes; the composition with the error handlers of C19; induction over entries and names.

*Theorems.* `Verif.ErrH.C122_code`, `Verif.ErrH.C122_level`, `Verif.ErrH.C122_entries`, `Verif.ErrH.C122_call`, `Verif.ErrH.C122_names`, `Verif.ErrH.C122_validation_partial`, `Verif.ErrH.C122_validation_false`. *Status:* partial. False of the code for a validation without a code, which the options allow: the generator follows a nil pointer. Proved for all calls and for validations with a code.

### C123 `has` tells whether an argument has a value

In every expression of a message, `$.x` is accepted exactly for the arguments and is the value of the argument, and `has($.x)` is true exactly if it has a value; the same for environment and service variables.

*Model and proof.* Go values as reflect sees them, maps as lists of keys; presence as CEL defines it for fields of messages; induction over fields.

*Theorems.* `Verif.HasArg.C123_read`, `Verif.HasArg.C123_has_iff`, `Verif.HasArg.C123_has_partial`, `Verif.HasArg.C123_has_false`, `Verif.HasArg.C123_nil`, `Verif.HasArg.C123_names`, `Verif.HasArg.C123_message_first`. *Status:* partial. False of the code for lists, maps and bytes that are empty but not nil, like the value of []: has is true (proved for all of them). Proved for all other values. That no Go name is given twice is C64 and C65.

### C124 The values of all fields of a message are checked

A message is accepted exactly if each of its fields has an option and every value that the option binds to it is accepted for it; for a field of an enum, exactly the values of that enum and of its aliases are accepted, and if the enum has several aliases an expression has to be of the enum itself or use `enum.select`.

*Model and proof.* Types as an inductive type (C39); the values an expression can choose from as an inductive relation; induction over calls of enum.select and over fields.

*Theorems.* `Verif.Types.C124_bound_iff`, `Verif.Types.C124_by_iff`, `Verif.Types.C124_by_other`, `Verif.Types.C124_select`, `Verif.Types.C124_each_field`, `Verif.Types.C124_accepted_iff`, `Verif.Types.C124_oneof_false`. *Status:* partial. Proved for expressions, fields of aliased messages and autobind. False of the code for members of oneofs: the type of the expression in their option is not looked at (proved for all types; what follows for the generated code is C121).

### C125 Expressions and plugins see the metadata of the request

grpc.federation.metadata.incoming() has exactly the keys of the metadata of the request, each with the values that were sent with it in their order; the function of a plugin finds the same metadata in its context.

*Model and proof.* Maps as lists of entries, visited in any order (permutations); induction over the entries.

*Theorems.* `Verif.Meta.C125_incoming`, `Verif.Meta.C125_order`, `Verif.Meta.C125_none`, `Verif.Meta.C125_plugin_partial`, `Verif.Meta.C125_plugin_none`, `Verif.Meta.C125_binary_false`. *Status:* partial. False of the code for plugins: if any metadata of the request is not UTF-8 (binary values of keys that end in -bin), every call of every plugin function fails (proved for all of them), since the request of a plugin holds values in string fields, which protojson (trusted) rejects. Proved for expressions and, if all metadata is UTF-8, for plugins.


## Modelled code

Collected from the citations of the definitions: for each source file, the lines that the modules of a
topic model. What a definition leaves out of these lines is said in its comment.

* `compiler/compiler.go`: 37-64, 104-141, 149-230 (Compile); 147-199 (Diag)
* `generator/code_generator.go`: 1128-1162, 2031-2041, 2284-2315, 3586-3626, 3725-3739, 3745-3765 (Cast); 1116-1175, 1970-1983, 2234-2315, 2324-2353 (CastOneof); 335-346 (CelCache); 2531-2534, 2972-3014, 3026-3035, 3051-3060, 3180-3186, 3454-3457 (Embed); 713-734 (EnumAttr); 2085-2117, 2121-2153, 2157-2191 (EnumMap); 2001-2003, 2200-2211, 2546-2573, 3192-3206, 3269-3289, 3725-3743 (EnumSel); 2879-2904 (ErrH); 1921-1931, 2404-2431, 2593-2677 (Field); 663-699 (FileEnums); 1566-1637, 1675-1682, 2834-2844, 3079-3082, 3571-3584 (GenRefs); 3695-3703 (GoNames); 591-655 (Imports); 765-784, 1825-1827, 1834-1861, 2377-2442 (Locals); 755-756, 1116-1175, 1273-1278, 1289-1559, 1740-1743, 3717-3719 (LogFn); 1653-1682, 1701-1707 (Method); 839-847, 864-899, 1063-1070 (OneofSel); 103-112, 169-229, 249-315, 1116-1175 (PlugTy); 566-569, 932-946, 1177-1231, 1645-1647, 2069-2083, 2267-2274, 2295-2296, 2310-2311, 2334-2344, 2619-2623, 2834-2838, 3084-3093, 3108-3116, 3673-3693 (ProtoNames); 1116-1175, 3464-3569, 3725-3739, 3750-3752 (SetArg); 1116-1175, 2324-2353, 2444-2480, 2505-2543, 2599-2675, 3725-3739 (SetField); 1063-1175, 3239-3249, 3365-3396 (SrvTy); 1798-1809 (Tree); 2284-2315, 3586-3626, 3725-3739 (TypeConv)
* `generator/config.go`: 29-36, 42-47, 109-129, 141-167 (GenOpt)
* `generator/funcs.go`: 29-40 (Emit)
* `generator/generator.go`: 490-499, 623-629, 635-685 (Diag); 742-745, 752-813, 817-819, 823-888, 909-911, 918-932 (GenOpt); 102-128, 272-293, 467-468, 687-740, 747-750 (GenPlugin); 589-621, 635-685 (OutPath); 50-60, 64-70, 102-128, 144-145, 154-235, 324-360, 370-395, 406-509 (Watch)
* `generator/templates/cast.go.tmpl`: 24-95, 135-164 (Cast); 24-95 (CastOneof); 113-133 (EnumMap)
* `generator/templates/error_handler.go.tmpl`: 97-152, 261-302 (Embed); 32-38 (Emit); 12-26, 32-206 (ErrH); 195-208 (GenRefs); 34-38, 88-109 (Locals)
* `generator/templates/eval.go.tmpl`: 23-70, 85-172 (Calls); 74-86, 247-286 (Embed); 178-246 (Emit); 33-56, 93-116, 351-389 (EnumSel); 185-212 (Eval); 179-246 (Exec); 214-246 (GenRefs); 214-218 (Locals); 137-145 (ProtoNames); 130-132, 248-286, 305-349 (SetArg); 75-78 (Start); 23-74, 83-174 (Whole)
* `generator/templates/plugin.go.tmpl`: 59-63 (Meta); 71-81 (PlugTy); 41-44, 80-84 (Plugin)
* `generator/templates/retry.go.tmpl`: 13-15 (Retry)
* `generator/templates/server.go.tmpl`: 540-607 (Calls); 621-631 (Cast); 613-631 (CastOneof); 33-40 (EnumAttr); 141-143 (EnvTag); 711-735, 739-761 (Field); 309-314 (FileEnums); 307-355 (FuncCall); 111-125, 201-208, 446-451, 486-530, 535-540, 575-583, 685-703 (GenRefs); 556-561 (Locals); 634-680 (LogFn); 486-529 (Method); 570-572, 764-807 (MsgArgs); 266-289 (OneofSel); 472-477 (Recover); 613-631 (SetField); 234-454 (Start); 540-607 (Whole)
* `generator/templates/validation.go.tmpl`: 44-99 (Embed); 18-31, 101-118 (ErrH); 34-55 (Locals)
* `generator/watcher.go`: 90-159 (Watch)
* `grpc/federation/alias.go`: 61-88 (ErrH)
* `grpc/federation/cast.go`: 12-66 (Cast)
* `grpc/federation/cel.go`: 520-589, 599-686 (Calls); 283-295, 711-716, 757-772 (CelCache); 215-238, 246-259 (EnumAttr); 675-685 (EnumSel); 556-563 (ErrH); 819-871 (ErrVar); 310-316, 422-437, 482-493, 520-589, 599-686, 695-709 (Eval); 328-341, 374-392 (Exec); 213-239, 246-259 (FileEnums); 261-275, 778-804 (FuncCall); 70-114, 121-150 (HasArg); 778-804, 939-1004, 1019-1073 (NullCmp); 101-114, 154-185 (OneofSel); 818-822 (Retry); 695-709, 718-754, 884-903 (SetArg); 310-316, 429-431, 567-580 (Value); 520-589, 599-686 (Whole)
* `grpc/federation/cel/bind.go`: 20-63 (FuncCall)
* `grpc/federation/cel/cast.go`: 26-31 (FuncCall); 40-46 (NullCmp)
* `grpc/federation/cel/conv.go`: 49-63 (FuncCall); 49-63 (ImportWarn)
* `grpc/federation/cel/enum.go`: 27-58, 79-84, 104-143, 163-197, 354-386 (EnumSel); 32-32 (FuncCall)
* `grpc/federation/cel/lib.go`: 43-45 (CelTy); 15-34 (FuncCall)
* `grpc/federation/cel/list.go`: 65-104 (FuncCall); 109-135, 157-163, 181-243 (ListLib); 181-191, 232-236, 263-296 (SortKey)
* `grpc/federation/cel/log.go`: 41-85 (FuncCall); 102-176 (LogVal)
* `grpc/federation/cel/math.go`: 40-61 (FuncCall)
* `grpc/federation/cel/metadata.go`: 35-35 (FuncCall); 39-50 (Meta)
* `grpc/federation/cel/plugin.go`: 278-311 (FuncCall); 287-291, 300-304, 327-351 (Meta); 116-152, 180-251, 263-276, 317-325, 353-398, 402-487, 504-520 (Plugin)
* `grpc/federation/cel/private.pb.go`: 241-274 (EnumSel)
* `grpc/federation/cel/rand.go`: 32-37, 59-64, 93-228 (CelRand); 93-221 (FuncCall)
* `grpc/federation/cel/strings.go`: 43-770 (CelStr); 44-759 (FuncCall)
* `grpc/federation/cel/time.go`: 20-37, 67-80, 212-227, 380-565, 673-724, 737-761, 798-818, 861-893 (CelTime); 212-966 (FuncCall)
* `grpc/federation/cel/url.go`: 20-44, 78-106, 174-206, 216-225, 334-356, 372-386, 432-522 (CelUrl); 112-514 (FuncCall)
* `grpc/federation/cel/uuid.go`: 65-139 (FuncCall)
* `grpc/federation/cel_plugin.go`: 18-24 (Meta); 38-331 (PlugTy)
* `grpc/federation/error.go`: 29-39 (Exec); 20-23, 29-133 (Recover)
* `grpc/federation/generator/decode.go`: 80-575, 595-626, 651-812, 832-864, 934-1254, 1274-1631, 1660-1921 (Codegen)
* `grpc/federation/generator/encode.go`: 71-132, 146-294, 308-368, 382-413, 451-501, 515-570, 584-600, 614-648, 662-813, 839-859, 910-1078, 1088-1138, 1148-1257, 1287-1292, 1301-1306, 1315-1342 (Codegen)
* `grpc/federation/lib.go`: 29-39 (Recover); 98-117 (Retry); 17-55 (Timeout)
* `grpc/federation/log/context.go`: 19-45, 61-71 (Log); 23-33, 61-71 (LogVal)
* `grpc/federation/validation.go`: 23-83, 93-138, 147-164, 173-192 (ErrH)
* `lsp/server/completion.go`: 30-67 (Offer)
* `lsp/server/definition.go`: 22-35, 46-271, 279-299, 303-315, 323-344, 348-473 (Defn)
* `lsp/server/general.go`: 15-22 (SemTok)
* `lsp/server/handler.go`: 147-160 (EdSync)
* `lsp/server/semantic_tokens.go`: 29-35, 187-271, 284-479, 494-520, 553-605, 625-629 (SemTok)
* `lsp/server/text_document_sync.go`: 20-27 (EdSync)
* `lsp/server/util.go`: 11-32 (EdSync)
* `lsp/server/validator.go`: 24-49 (Diag); 15-53 (EdSync)
* `proto/grpc/federation/federation.proto`: 371-382 (ErrH); 514-530 (Field); 221-276, 308-315, 328-343, 470-483, 499-530 (Offer); 156-171, 613-634 (PlugTy)
* `proto_deps/google/rpc/code.proto`: 37-186 (ErrH)
* `resolver/candidates.go`: 18-37, 240-267, 296-338 (Complete); 39-89, 269-287 (Offer)
* `resolver/cel.go`: 50-81, 87-129, 196-213 (CelTy); 50-62, 159-191 (Descr); 143-194 (Diag); 53-62 (EnumSel); 279-296 (FuncCall); 143-194 (ImportGraph); 50-81 (OneofSel); 227-266 (Sig)
* `resolver/def.go`: 28-38, 145-195 (GenRefs); 324-370 (Given); 205-322 (Refs); 58-195, 214-217 (Unfinished)
* `resolver/enum.go`: 45-56 (EnumAttr); 26-43 (EnumMap)
* `resolver/error.go`: 11-23, 36-45, 83-88 (Diag)
* `resolver/field.go`: 10-22 (Types)
* `resolver/file.go`: 95-97 (Descr); 38-44, 51-93 (FileEnums); 127-148, 153-192, 198-216 (OutPath)
* `resolver/format.go`: 37-55, 102-315, 324-440 (Embed); 442-548, 560-620 (Tree)
* `resolver/fqdn.go`: 15-57, 89-94 (Codegen); 89-94 (Graph); 22-30 (LogFn); 22-30 (MsgGraph); 66-87 (TypeConv)
* `resolver/graph.go`: 12-46, 75-222, 466-488 (AllGraph); 14-27, 48-57, 75-222 (GenRefs); 224-232, 236-246, 250-295, 300-398, 407-457, 466-488 (Graph); 331-350 (Refs); 129-138, 169-178, 329-365 (Unfinished); 11-46, 100-194 (Whole)
* `resolver/message.go`: 43-61 (CelTy); 63-73 (Descr); 509-519 (EnumSel); 95-112, 121-194, 247-266, 331-343, 529-569, 619-663 (GenRefs); 247-253, 268-294, 308-343 (Given); 148-182, 196-245 (Locals); 22-30, 63-73 (LogFn); 75-83 (MsgGraph); 397-412 (OneofSel); 22-30 (PlugTy); 75-83 (ProtoNames); 384-395, 472-489, 497-506, 512-519 (SetArg); 43-61 (SrvTy); 460-527 (TypeConv); 276-294 (Unfinished)
* `resolver/oneof.go`: 13-32 (OneofSel); 36-50 (ProtoNames)
* `resolver/resolver.go`: 3679-3709, 3717-3839 (Args); 1440-1460, 1472-1532, 2370-2383, 2426-2437, 2713-2738, 2769-2804, 3004-3017 (AutoName); 3364-3367 (Cast); 3304-3309 (CastOneof); 3931-3933, 3950-3959, 3976-4018, 4780-4885 (CelTy); 360-364 (Codegen); 313-331 (Compile); 1962-2029, 4476-4495, 4893-4997, 5006-5036, 5045-5061 (Descr); 35-60, 125-131, 152-188 (Diag); 2757-2762, 2835-2914 (Embed); 1863-1894, 3130-3165, 3210-3243 (EnumAttr); 1698-1719, 1863-1873, 3130-3208, 3245-3270 (EnumMap); 4366-4396, 4736-4746 (EnumSel); 1909-2029 (EnvTag); 2688-2755, 2764-2811 (ErrH); 1322-1324, 1331-1371, 1382-1437, 1534-1548, 2916-3098, 5119-5151 (Field); 4716-4761 (FileEnums); 4504-4526 (FuncCall); 3582-3600, 3630-3644, 5072-5117 (GenRefs); 1303-1319, 1373-1438, 2828-2831, 4400-4423 (Given); 178-192, 231-239, 243-311, 352-358, 782-835 (ImportGraph); 407-714, 5277-5291 (ImportWarn); 1276-1295, 1896-1907, 2112-2133, 2137-2261, 2385-2390, 2426-2437, 2482-2515, 2652-2654, 2729-2738, 2794-2798, 3019-3025, 3845-3848, 3890-3892, 4137-4139, 4201-4203 (MapSrc); 768-780, 2304-2363, 3604-3627, 3689-3708, 5153-5160 (Method); 782-835, 1129-1189, 1276-1285, 1303-1321, 3272-3345 (MsgGraph); 782-835, 1129-1189, 1303-1320, 1675-1697, 3277-3283, 5181-5200 (MsgOnce); 4425-4432, 5162-5200, 5248-5260, 5277-5299, 5360-5374 (Names); 1113-1127 (Offer); 3304-3309, 3630-3645 (OneofSel); 152-188, 360-373 (OutPath); 853-864, 874-897, 901-997, 1113-1127, 3329-3373 (PlugTy); 3422-3425, 3478-3481 (Retry); 1580-1672, 3498-3539, 3748-3749, 3778-3779, 5301-5316 (SetArg); 1555-1576 (SetField); 4540-4597, 4617-4714, 5318-5350 (SharedEnv); 2031-2081, 2095-2261 (SvcVar); 1534-1719, 1731-1861, 5301-5316 (Types); 1278-1283, 1321-1327, 2112-2133, 2137-2275, 2426-2743, 2757-2833, 2979-3029, 3541-3572, 3679-3710, 3717-3809, 3814-3826, 3845-3848, 3866-3901, 3907-4398, 4425-4453, 5079-5093, 5107-5151 (Unfinished)
* `resolver/service.go`: 51-78, 96-129, 138-174 (GenRefs)
* `resolver/type_conversion.go`: 13-83, 118-139 (CastOneof); 13-97 (EnumSel); 13-83, 118-139 (SetArg); 118-139 (SetField); 13-83, 118-139 (TypeConv)
* `resolver/types.go`: 411-418 (CelTy); 15-44, 48-114, 121-178, 247-253, 287-296, 300-308, 339-352, 358-386, 398-409, 469-473, 490-502 (Codegen); 186-194 (Given); 74-109, 121-124, 173-178, 186-194, 237-245, 265-270, 287-296, 300-308, 363-378, 509-514 (ImportWarn); 126-137 (MsgGraph); 411-418, 431-448 (SetArg); 431-448 (SrvTy); 431-448 (Types)
* `resolver/value.go`: 17-44 (Refs); 24-44 (Unfinished)
* `resolver/wellknown_types.go`: 68-75 (Types)
* `source/file.go`: 153-222, 234-295, 327-495, 515-844, 862-927 (FindPos); 97-112, 161-186, 497-513, 969-1702, 1729-1867, 1888-2008 (SrcLoc)
* `source/location_builder.go`: 102-112, 151-154, 413-423, 828-850 (LocBuild); 762-772, 826-837 (MsgGraph); 80-89, 762-796, 810-820, 828-837 (MsgOnce); 762-772 (SrcLoc)
* `types/types.go`: 53-93 (Cast); 53-131 (Codegen)
* `util/name.go`: 12-36 (GoNames)
* `validator/validator.go`: 32-39, 63-224 (Diag); 58-60 (EdSync)

## Code that is not modelled

* Parsing of proto files and of the options: the parsing and linking of protocompile behind `compiler/`, `source/` except completion, the builders of locations and their places, `resolver/format.go` except the tree of dependencies and the comments of C104,
  `resolver/extension.go`, `resolver/std_fd.go`, `resolver/wellknown_types.go`.
* The parts of `resolver/resolver.go` outside the ranges above: the CEL type environment beyond function names,
  plugin resolution beyond signatures, field and enum building, type checking of arguments.
* The parts of `generator/code_generator.go` and of the templates outside the ranges above: text output,
  formatting, the plugin template, tracing and log statements except what they log of messages.
* `generator/protoc_gen_go_grpc.go`, the parts of `generator/{config,generator,watcher,wasm}.go` outside
  the ranges above, `lsp/` except completion, diagnostics, text synchronisation, semantic tokens and go to definition, `cmd/` except the
  linter and the ranges above.
* Results of the CEL library functions in `grpc/federation/cel/{uuid,math}.go` (their names and declarations are
  modelled), and the Go functions that the functions in `strings.go`, `time.go`, `url.go` and `rand.go` call.
* Third-party code and the Go runtime: taken as parameters or as the definitions named in the trusted base.

## Axioms each theorem depends on

As printed by `#print axioms`. Theorems are those listed in MANIFEST.json.

* no axioms (27 theorems): `Verif.CelRand.C96_int31n_false`, `Verif.CelTime.C93_kept`, `Verif.CelTime.C93_parse_false`, `Verif.CelUrl.C95_kept`, `Verif.Codegen.C37_distinct`, `Verif.Codegen.C37_kinds`, `Verif.Embed.C104_carriage_return_false`, `Verif.Embed.C104_expression_changed_false`, `Verif.Embed.C104_locale_false`, `Verif.EnumAttr.C106_crash_false`, `Verif.EnvTag.C105_twice_false`, `Verif.ErrVar.C21_some_error`, `Verif.GenPlugin.C72_protoc_error_false`, `Verif.GenPlugin.C72_requests_false`, `Verif.ListLib.C29_flatten`, `Verif.ListLib.C29_reduce`, `Verif.Log.C63_once_partial`, `Verif.Meta.C125_none`, `Verif.MsgGraph.C92_one_object_false`, `Verif.ProtoNames.C115_call_exact`, `Verif.Retry.C52_condition_sees_own_error_false`, `Verif.SemTok.C110_call_false`, `Verif.SrvTy.C85_list_of_maps_false`, `Verif.Start.C107_failed_false`, `Verif.SvcVar.C60_lists_false`, `Verif.Timeout.C17_once`, `Verif.Timeout.C51_cancel_reported_as_deadline_false`
* axioms Classical.choice, Quot.sound, propext (416 theorems): `Verif.AllGraph.C10_accepted_acyclic_partial`, `Verif.AllGraph.C10_acyclic_accepted`, `Verif.AllGraph.C10_cycle_rejected_partial`, `Verif.AllGraph.C10_rejected_iff`, `Verif.AllGraph.C10_terminates`, `Verif.Args.C40_names_partial`, `Verif.Args.C40_no_other_fields`, `Verif.Args.C40_one_parent_partial`, `Verif.Args.C40_two_parents_false`, `Verif.Args.C40_types`, `Verif.AutoName.C66_accept_partial`, `Verif.AutoName.C66_again_partial`, `Verif.AutoName.C66_distinct_partial`, `Verif.AutoName.C66_entries_false`, `Verif.AutoName.C66_messages_partial`, `Verif.AutoName.C66_nested_false`, `Verif.AutoName.C66_oneofs_false`, `Verif.AutoName.C66_reject`, `Verif.AutoName.C66_usable_partial`, `Verif.AutoName.C66_word_false`, `Verif.Calls.C112_answer`, `Verif.Calls.C112_calls`, `Verif.Calls.C112_evaluated_once_partial`, `Verif.Calls.C112_evaluations`, `Verif.Calls.C112_once_partial`, `Verif.Calls.C112_twice_false`, `Verif.Cast.C23_checked_cast`, `Verif.Cast.C24_plain_kinds_partial`, `Verif.Cast.C24_preserves_iff`, `Verif.Cast.C25_enum_number`, `Verif.Cast.C25_message_fields`, `Verif.Cast.C25_oneof`, `Verif.Cast.C25_same_structure`, `Verif.Cast.C55_conversion_independent_partial`, `Verif.Cast.C56_renamed_field_partial`, `Verif.CastOneof.C120_compiles_iff_partial`, `Verif.CastOneof.C120_member_function_iff`, `Verif.CelCache.C15_cache_transparent`, `Verif.CelCache.C15_needs_unique_index`, `Verif.CelCache.C32_indexes_unique`, `Verif.CelRand.C96_int31n`, `Verif.CelStr.C94_append_partial`, `Verif.CelStr.C94_bytes_false`, `Verif.CelStr.C94_char`, `Verif.CelStr.C94_char_false`, `Verif.CelStr.C94_code`, `Verif.CelStr.C94_code_false`, `Verif.CelStr.C94_empty_false`, `Verif.CelStr.C94_error`, `Verif.CelStr.C94_error_false`, `Verif.CelStr.C94_go_partial`, `Verif.CelStr.C94_names`, `Verif.CelTime.C93_instant_partial`, `Verif.CelTime.C93_reading_partial`, `Verif.CelTime.C93_utc`, `Verif.CelTy.C81_field_partial`, `Verif.CelTy.C81_variable_partial`, `Verif.CelUrl.C95_join_false`, `Verif.CelUrl.C95_no_user_false`, `Verif.CelUrl.C95_password_false`, `Verif.Codegen.C36_dangling_false`, `Verif.Codegen.C36_graph_ids_false`, `Verif.Codegen.C36_graph_partial`, `Verif.Codegen.C36_graph_positions`, `Verif.Codegen.C36_graph_size_false`, `Verif.Codegen.C36_group_ids`, `Verif.Codegen.C36_objects_partial`, `Verif.Codegen.C36_oneof_false`, `Verif.Codegen.C36_same_name_false`, `Verif.Codegen.C37_text`, `Verif.Codegen.C37_text_distinct`, `Verif.Compile.C88_again_false`, `Verif.Compile.C88_builtin_false`, `Verif.Compile.C88_missing_false`, `Verif.Compile.C88_name_false`, `Verif.Compile.C88_option_false`, `Verif.Compile.C88_relative_false`, `Verif.Compile.C88_shadowed_false`, `Verif.Complete.C50_complete_partial`, `Verif.Complete.C50_exactly`, `Verif.Complete.C50_itself_false`, `Verif.Complete.C50_sound_partial`, `Verif.Defn.C90_directory_false`, `Verif.Defn.C90_enum_false`, `Verif.Defn.C90_field_false`, `Verif.Defn.C90_field_partial`, `Verif.Defn.C90_found`, `Verif.Defn.C90_import_false`, `Verif.Defn.C90_method_false`, `Verif.Defn.C90_method_partial`, `Verif.Defn.C90_no_package_false`, `Verif.Defn.C90_own_package_false`, `Verif.Defn.C90_package_false`, `Verif.Defn.C90_same_name_false`, `Verif.Defn.C90_type_partial`, `Verif.Defn.C90_unsaved_false`, `Verif.Defn.Target.C90_field_type`, `Verif.Defn.Target.C90_import_name`, `Verif.Defn.Target.C90_nested_false`, `Verif.Defn.Target.C90_option_partial`, `Verif.Descr.C82_arguments_partial`, `Verif.Descr.C82_callers_partial`, `Verif.Descr.C82_imports_false`, `Verif.Descr.C82_library_types_false`, `Verif.Descr.C82_map_names_false`, `Verif.Descr.C82_map_names_iff`, `Verif.Descr.C82_same_file_name_false`, `Verif.Descr.C82_second_caller_false`, `Verif.Descr.C82_variables_partial`, `Verif.Diag.C87_caret`, `Verif.Diag.C87_cycle_false`, `Verif.Diag.C87_exit_partial`, `Verif.Diag.C87_generator`, `Verif.Diag.C87_other_file_false`, `Verif.Diag.C87_printed`, `Verif.Diag.C87_protoc_partial`, `Verif.Diag.C87_rows`, `Verif.Diag.C87_source_line_partial`, `Verif.Diag.C87_text`, `Verif.Embed.C104_definition_partial`, `Verif.Embed.C104_quoted`, `Verif.Emit.C34_resolver_plans`, `Verif.EnumAttr.C106_accepted_partial`, `Verif.EnumAttr.C106_attr_partial`, `Verif.EnumMap.C26_ambiguous_not_reported_false`, `Verif.EnumMap.C26_both_aliased_false`, `Verif.EnumMap.C26_dep_to_service_partial`, `Verif.EnumMap.C26_round_trip`, `Verif.EnumMap.C26_service_to_dep_partial`, `Verif.EnumMap.C26_unaliased_false`, `Verif.EnumMap.C26_unaliased_partial`, `Verif.EnumSel.C84_list_definition_false`, `Verif.EnvTag.C105_start_partial`, `Verif.EnvTag.C105_variable_partial`, `Verif.ErrH.C122_call`, `Verif.ErrH.C122_code`, `Verif.ErrH.C122_entries`, `Verif.ErrH.C122_level`, `Verif.ErrH.C122_names`, `Verif.ErrH.C122_validation_false`, `Verif.ErrH.C122_validation_partial`, `Verif.ErrH.C19_entry_body_fails`, `Verif.ErrH.C19_status`, `Verif.ErrH.C20_failure_stays_failure_partial`, `Verif.ErrH.C20_success_iff`, `Verif.ErrH.C22_cases`, `Verif.ErrH.C22_status`, `Verif.Eval.C13_names_usable`, `Verif.Eval.C13_success_iff`, `Verif.Eval.C14_cases`, `Verif.Eval.C14_failure`, `Verif.Eval.C14_success`, `Verif.Exec.C01_references_first`, `Verif.Exec.C02_failed_validation_stops`, `Verif.Exec.C02_validation_barrier`, `Verif.Exec.C03_all_evaluated`, `Verif.Exec.C04_no_deadlock`, `Verif.Exec.C05_dependants_not_started`, `Verif.Exec.C05_failure_reported`, `Verif.Exec.C05_strict_false`, `Verif.Exec.C11_cancellation_reported`, `Verif.Exec.C11_flat_plan_partial`, `Verif.Exec.C11_some_real_failure_partial`, `Verif.Exec.C12_at_most_once_false`, `Verif.Exec.C12_no_overlap`, `Verif.Exec.C12_result_is_evaluation`, `Verif.Field.C57_oneof_member`, `Verif.FileEnums.C75_enums`, `Verif.FileEnums.C75_exact`, `Verif.FileEnums.C75_plugins`, `Verif.FileEnums.C75_runtime_partial`, `Verif.FindPos.C109_after_field_false`, `Verif.FindPos.C109_after_method_false`, `Verif.FindPos.C109_compound_false`, `Verif.FindPos.C109_contains`, `Verif.FindPos.C109_default_false`, `Verif.FindPos.C109_enum_false`, `Verif.FindPos.C109_field_by`, `Verif.FindPos.C109_field_type`, `Verif.FindPos.C109_found_partial`, `Verif.FindPos.C109_import`, `Verif.FindPos.C109_option`, `Verif.FindPos.C109_timeout`, `Verif.FindPos.C109_twice_false`, `Verif.FuncCall.C79_documented_functions`, `Verif.FuncCall.C79_documented_methods_partial`, `Verif.FuncCall.C79_functions`, `Verif.FuncCall.C79_methods_partial`, `Verif.FuncCall.C79_recompile`, `Verif.FuncCall.C79_std_methods_partial`, `Verif.FuncCall.C80_accepted_partial`, `Verif.FuncCall.C80_callable_false`, `Verif.GenOpt.C76_plugin_name`, `Verif.GenRefs.C68_clients_false`, `Verif.GenRefs.C68_clients_partial`, `Verif.GenRefs.C68_constants_false`, `Verif.GenRefs.C68_constants_partial`, `Verif.GenRefs.C68_custom_resolvers_partial`, `Verif.GenRefs.C68_resolvers_partial`, `Verif.GenRefs.C69_planned_false`, `Verif.Given.C117_exact_partial`, `Verif.Given.C117_value_partial`, `Verif.GoNames.C64_digit_false`, `Verif.GoNames.C64_full_names_false`, `Verif.GoNames.C64_styles_false`, `Verif.Graph.C03_plan_complete`, `Verif.Graph.C07_grouping_deterministic`, `Verif.Graph.C07_needs_distinct_names`, `Verif.Graph.C08_nothing_iff`, `Verif.Graph.C08_self_reference_dropped`, `Verif.Graph.C08_self_reference_overflow`, `Verif.Graph.C08_self_reference_reported_partial`, `Verif.Graph.sorted_unique`, `Verif.HasArg.C123_names`, `Verif.ImportGraph.C77_imports_end`, `Verif.ImportGraph.C77_resolved`, `Verif.ImportWarn.C86_only_partial`, `Verif.ImportWarn.C86_reported_partial`, `Verif.ImportWarn.C86_unused_false`, `Verif.ImportWarn.C86_unused_partial`, `Verif.Imports.C33_complete`, `Verif.Imports.C33_digit_false`, `Verif.Imports.C33_distinct_partial`, `Verif.Imports.C33_once`, `Verif.Imports.C33_only`, `Verif.Imports.C33_order_false`, `Verif.Imports.C33_reference_false`, `Verif.Imports.C33_reference_partial`, `Verif.Imports.C33_runtime_false`, `Verif.Imports.C33_three_false`, `Verif.Imports.suffix_found`, `Verif.ListLib.C29_macro_partial`, `Verif.ListLib.C29_sortAsc`, `Verif.ListLib.C29_sortDesc`, `Verif.ListLib.C29_stable`, `Verif.LocBuild.C113_lazyEnum_partial`, `Verif.LocBuild.C113_lazyMessage_partial`, `Verif.LocBuild.C113_location_partial`, `Verif.LocBuild.C113_runs_partial`, `Verif.LocBuild.C113_unchanged_partial`, `Verif.Locals.C108_fields_partial`, `Verif.Locals.C108_nested_false`, `Verif.Locals.C108_oneof_false`, `Verif.Log.C31_linear_partial`, `Verif.LogFn.C101_argument_partial`, `Verif.LogFn.C101_compiles_partial`, `Verif.LogFn.C101_ends`, `Verif.LogFn.C101_logged_partial`, `Verif.LogVal.C119_mixed_false`, `Verif.LogVal.C119_typed_iff`, `Verif.MapSrc.C73_exact_partial`, `Verif.MapSrc.C73_service_partial`, `Verif.Meta.C125_binary_false`, `Verif.Meta.C125_order`, `Verif.Method.C98_answer_partial`, `Verif.Method.C98_arguments_partial`, `Verif.Method.C98_fields_partial`, `Verif.MsgArgs.C65_arguments_partial`, `Verif.MsgArgs.C65_custom_resolver_arguments_partial`, `Verif.MsgArgs.C65_custom_resolver_partial`, `Verif.MsgArgs.C65_same_name_false`, `Verif.MsgArgs.C65_snake_partial`, `Verif.MsgArgs.C65_struct_false`, `Verif.MsgArgs.C65_struct_once`, `Verif.MsgArgs.C65_struct_partial`, `Verif.MsgGraph.C92_name_partial`, `Verif.MsgGraph.C92_option_partial`, `Verif.MsgOnce.C111_alias_partial`, `Verif.MsgOnce.C111_once_partial`, `Verif.MsgOnce.C111_panics_partial`, `Verif.MsgOnce.C111_twice_false`, `Verif.Names.C42_reads_back`, `Verif.Names.C42_rejected_iff`, `Verif.Names.C43_rest`, `Verif.Names.C44_rejected_iff`, `Verif.Names.C48_scalar_overloads_partial`, `Verif.Names.C48_unique_false`, `Verif.Names.C49_collision_false`, `Verif.Names.C49_literal_false`, `Verif.Names.C49_reserved_iff`, `Verif.Names.C49_restore_partial`, `Verif.Names.C49_rewritten`, `Verif.Names.C49_unchanged`, `Verif.NullCmp.C16_idempotent`, `Verif.NullCmp.C16_macro_false`, `Verif.NullCmp.C16_map_key_false`, `Verif.Offer.C116_filter_partial`, `Verif.Offer.C116_filter_sound`, `Verif.Offer.C116_items`, `Verif.Offer.C116_items_false`, `Verif.Offer.C116_message_false`, `Verif.Offer.C116_method_false`, `Verif.Offer.C116_name_false`, `Verif.Offer.C116_offered`, `Verif.OneofSel.C83_other_messages_false`, `Verif.OneofSel.C83_unset`, `Verif.OneofSel.C83_value_partial`, `Verif.PlugTy.C99_names_partial`, `Verif.Plugin.C62_validate`, `Verif.ProtoNames.C115_camel_false`, `Verif.ProtoNames.C115_client_partial`, `Verif.ProtoNames.C115_enum_partial`, `Verif.ProtoNames.C115_fields_partial`, `Verif.ProtoNames.C115_getter_false`, `Verif.ProtoNames.C115_lower_false`, `Verif.ProtoNames.C115_message_partial`, `Verif.ProtoNames.C115_method`, `Verif.ProtoNames.C115_name_exact`, `Verif.ProtoNames.C115_nested_request_false`, `Verif.ProtoNames.C115_own_false`, `Verif.ProtoNames.C115_request_partial`, `Verif.ProtoNames.C115_reserved_false`, `Verif.ProtoNames.C115_response_partial`, `Verif.ProtoNames.C115_value_partial`, `Verif.ProtoNames.C115_wellknown`, `Verif.ProtoNames.C115_wrapper_false`, `Verif.ProtoNames.C115_wrapper_partial`, `Verif.Refs.C09_error_message_false`, `Verif.Refs.C09_ignore_and_response_false`, `Verif.Refs.C09_iterator_hides_source_false`, `Verif.Refs.C09_macro_variable_recorded`, `Verif.Refs.C09_map_enum_unordered_false`, `Verif.Refs.C09_reads_ordered_partial`, `Verif.Refs.C09_request_if_false`, `Verif.Refs.C09_retry_if_false`, `Verif.Refs.C09_validation_message_false`, `Verif.Retry.C18_bound`, `Verif.Retry.C18_result`, `Verif.Retry.C18_retry_only_if`, `Verif.Retry.C18_stops_only_if`, `Verif.Retry.C52_condition_sees_own_error_partial`, `Verif.SemTok.C110_expression_partial`, `Verif.SemTok.C110_file_partial`, `Verif.SemTok.C110_legend_false`, `Verif.SemTok.C110_legend_partial`, `Verif.SemTok.C110_names_partial`, `Verif.SemTok.C110_positions`, `Verif.SetArg.C102_accepted`, `Verif.SetArg.C102_arguments_compile_partial`, `Verif.SetArg.C102_request_compiles_partial`, `Verif.SharedEnv.C41_order_independent`, `Verif.SharedEnv.C41_rejected_iff`, `Verif.SharedEnv.C41_same_type`, `Verif.SharedEnv.C41_service_variables`, `Verif.SharedEnv.C41_shared`, `Verif.SharedEnv.C41_type`, `Verif.SharedEnv.C59_terminates_false`, `Verif.SharedEnv.C59_terminates_partial`, `Verif.SortKey.C118_accepted_iff`, `Verif.SortKey.C118_less_iff`, `Verif.SortKey.C118_no_panic`, `Verif.SortKey.C118_no_panic_partial`, `Verif.SortKey.C118_rejected_panics`, `Verif.SortKey.C118_reported_iff`, `Verif.SrcLoc.C91_enum`, `Verif.SrcLoc.C91_enum_alias_partial`, `Verif.SrcLoc.C91_enum_value_alias`, `Verif.SrcLoc.C91_enum_value_partial`, `Verif.SrcLoc.C91_field`, `Verif.SrcLoc.C91_field_by`, `Verif.SrcLoc.C91_field_option_partial`, `Verif.SrcLoc.C91_go_package`, `Verif.SrcLoc.C91_import`, `Verif.SrcLoc.C91_import_false`, `Verif.SrcLoc.C91_import_names`, `Verif.SrcLoc.C91_imports`, `Verif.SrcLoc.C91_iterator`, `Verif.SrcLoc.C91_message_alias`, `Verif.SrcLoc.C91_message_partial`, `Verif.SrcLoc.C91_method_false`, `Verif.SrcLoc.C91_method_partial`, `Verif.SrcLoc.C91_missing`, `Verif.SrcLoc.C91_named`, `Verif.SrcLoc.C91_oneof_defs_false`, `Verif.SrcLoc.C91_oneof_false`, `Verif.SrcLoc.C91_part_false`, `Verif.SrcLoc.C91_part_shown`, `Verif.SrcLoc.C91_plugin_false`, `Verif.SrcLoc.C91_service_partial`, `Verif.SrcLoc.C91_somewhere`, `Verif.SrcLoc.C91_split_string_false`, `Verif.SrcLoc.C91_two_options_false`, `Verif.Start.C107_cleanup`, `Verif.Start.C107_clients`, `Verif.Start.C107_failed_partial`, `Verif.SvcVar.C47_if_dropped_false`, `Verif.Tree.C97_determines_partial`, `Verif.Tree.C97_picture_partial`, `Verif.Tree.C97_shown`, `Verif.TypeConv.C35_closed_partial`, `Verif.TypeConv.C35_method_response_false`, `Verif.TypeConv.C35_names_false`, `Verif.TypeConv.C35_needed_once`, `Verif.TypeConv.C35_renamed_false`, `Verif.Types.C124_accepted_iff`, `Verif.Types.C124_by_iff`, `Verif.Types.C124_select`, `Verif.Types.C39_map_false`, `Verif.Unfinished.C114_autobind_panics`, `Verif.Unfinished.C114_autobind_unknown_panics`, `Verif.Unfinished.C114_custom_panics`, `Verif.Unfinished.C114_partial`, `Verif.Value.C100_completes`, `Verif.Value.C100_failure`, `Verif.Value.C100_no_failure`, `Verif.Value.C100_progress`, `Verif.Value.C100_same`, `Verif.Value.C100_values`, `Verif.Watch.C71_current_partial`, `Verif.Watch.C71_failure_false`, `Verif.Watch.C71_names_false`, `Verif.Whole.C103_accepted_partial`, `Verif.Whole.C103_answer`, `Verif.Whole.C103_depth`, `Verif.Whole.C103_progress`, `Verif.Whole.C103_self_false`
* axioms Quot.sound, propext (262 theorems): `Verif.AllGraph.C10_edges_exact`, `Verif.AllGraph.C10_rootless_cycle_false`, `Verif.AllGraph.C10_self_dependency_false`, `Verif.AutoName.C66_again_false`, `Verif.AutoName.C66_messages_false`, `Verif.Cast.C24_fraction_false`, `Verif.Cast.C25_converted_iff_types_differ`, `Verif.Cast.C25_enum_list`, `Verif.Cast.C25_list_error`, `Verif.Cast.C25_list_ok`, `Verif.Cast.C25_map_error`, `Verif.Cast.C25_map_ok_partial`, `Verif.Cast.C25_message_error`, `Verif.CastOneof.C120_compiles_false`, `Verif.CastOneof.C120_leaves_oneof_false`, `Verif.CastOneof.C120_optional_false`, `Verif.CastOneof.C120_shared_false`, `Verif.CastOneof.C120_string_false`, `Verif.CelRand.C96_seed_partial`, `Verif.CelRand.C96_taken_partial`, `Verif.CelStr.C94_append_false`, `Verif.CelTime.C93_date`, `Verif.CelUrl.C95_go_partial`, `Verif.CelUrl.C95_join_partial`, `Verif.CelUrl.C95_reading_partial`, `Verif.CelUrl.C95_user`, `Verif.Codegen.C36_duration_valid`, `Verif.Codegen.C36_graph_parents_false`, `Verif.Codegen.C36_graph_roots`, `Verif.Codegen.C36_graph_roots_false`, `Verif.Codegen.C36_method_ids`, `Verif.Codegen.C36_service_ids`, `Verif.Compile.C88_builtin_partial`, `Verif.Compile.C88_compiled`, `Verif.Compile.C88_edited_partial`, `Verif.Compile.C88_import_partial`, `Verif.Compile.C88_name_partial`, `Verif.Compile.C88_option_partial`, `Verif.Compile.C88_result`, `Verif.Compile.C88_same_file`, `Verif.Complete.C50_request_type_false`, `Verif.Defn.C90_import_partial`, `Verif.Defn.C90_path_partial`, `Verif.Defn.Target.C90_links`, `Verif.Defn.Target.C90_place`, `Verif.Defn.Target.C90_selects`, `Verif.Diag.C87_compiler`, `Verif.Diag.C87_diagnostics_partial`, `Verif.Diag.C87_file`, `Verif.Diag.C87_shown_partial`, `Verif.EdSync.C89_opened_false`, `Verif.EdSync.C89_published_partial`, `Verif.EdSync.C89_shown_partial`, `Verif.Embed.C104_argument_comment`, `Verif.Embed.C104_argument_partial`, `Verif.Embed.C104_autobind_comment`, `Verif.Embed.C104_definition_comment`, `Verif.Embed.C104_details_partial`, `Verif.Embed.C104_expression`, `Verif.Embed.C104_field_comment`, `Verif.Embed.C104_locale`, `Verif.Emit.C34_contexts_scoped`, `Verif.Emit.C34_declarations_compile`, `Verif.Emit.C70_entries_false`, `Verif.Emit.C70_entries_partial`, `Verif.EnumAttr.C106_large_false`, `Verif.EnumAttr.C106_names_partial`, `Verif.EnumMap.C26_declared_default`, `Verif.EnumMap.C45_accepted_if`, `Verif.EnumMap.C45_auto_alias_complete`, `Verif.EnumMap.C45_explicit_alias_exists`, `Verif.EnumSel.C84_definition_compiles_iff`, `Verif.EnumSel.C84_map_compiles_iff`, `Verif.EnumSel.C84_map_fails`, `Verif.EnumSel.C84_map_value_partial`, `Verif.EnumSel.C84_value_partial`, `Verif.EnvTag.C105_accepted`, `Verif.EnvTag.C105_tag_partial`, `Verif.ErrH.C19_cases`, `Verif.ErrH.C19_entry_fails`, `Verif.ErrH.C19_ignore`, `Verif.ErrH.C19_ignore_and_response`, `Verif.ErrH.C19_no_match`, `Verif.ErrH.C53_handler_called_without_error_false`, `Verif.ErrH.C53_ignored_is_success_partial`, `Verif.ErrVar.C21_own_error_false`, `Verif.ErrVar.C21_own_error_partial`, `Verif.ErrVar.C21_sequential_partial`, `Verif.ErrVar.C54_error_value`, `Verif.ErrVar.C54_partition`, `Verif.Eval.C13_condition_false`, `Verif.Eval.C13_if_body`, `Verif.Exec.C04_terminates`, `Verif.Field.C27_default`, `Verif.Field.C27_first_true`, `Verif.Field.C27_rules_compile`, `Verif.Field.C27_unset`, `Verif.Field.C38_errors`, `Verif.Field.C38_exactly_one`, `Verif.Field.C38_field_option_partial`, `Verif.Field.C46_accepted`, `Verif.Field.C46_no_spurious_partial`, `Verif.Field.C46_two_oneofs_rejected_false`, `Verif.Field.C57_autobind`, `Verif.Field.C57_by_partial`, `Verif.Field.C57_custom_resolver_partial`, `Verif.Field.C57_once`, `Verif.FileEnums.C75_declared`, `Verif.FileEnums.C75_runtime_false`, `Verif.FuncCall.C79_std_false`, `Verif.FuncCall.C80_packages_partial`, `Verif.GenOpt.C76_module_false`, `Verif.GenOpt.C76_options_partial`, `Verif.GenOpt.C76_plugins`, `Verif.GenOpt.C76_plugins_found`, `Verif.GenPlugin.C72_errors`, `Verif.GenPlugin.C72_requests_partial`, `Verif.GenRefs.C68_custom_resolvers_false`, `Verif.GenRefs.C68_resolvers_false`, `Verif.GenRefs.C69_only`, `Verif.GenRefs.C69_planned_partial`, `Verif.Given.C117_field_partial`, `Verif.Given.C117_handlers`, `Verif.Given.C117_oneof`, `Verif.Given.C117_oneof_not`, `Verif.Given.C117_passed`, `Verif.GoNames.C64_distinct_partial`, `Verif.GoNames.C64_exported`, `Verif.GoNames.C64_fields_partial`, `Verif.GoNames.C64_private_partial`, `Verif.Graph.C06_edges_exact`, `Verif.Graph.C06_no_duplicate_edges`, `Verif.Graph.C06_parents_exact`, `Verif.HasArg.C123_has_false`, `Verif.HasArg.C123_has_iff`, `Verif.HasArg.C123_has_partial`, `Verif.HasArg.C123_nil`, `Verif.HasArg.C123_read`, `Verif.ImportGraph.C77_check_needed`, `Verif.ImportGraph.C77_cycles`, `Verif.ImportGraph.C77_imports`, `Verif.ImportGraph.C77_imports_error`, `Verif.ImportGraph.C77_registered`, `Verif.ImportWarn.C86_field_false`, `Verif.ImportWarn.C86_outer_false`, `Verif.ListLib.C29_evaluations_false`, `Verif.ListLib.C29_first`, `Verif.ListLib.C29_first_error`, `Verif.ListLib.C29_reduce_error`, `Verif.ListLib.goSort_stable`, `Verif.LocBuild.C113_env_false`, `Verif.LocBuild.C113_forgotten_false`, `Verif.Locals.C108_arguments_partial`, `Verif.Locals.C108_names_false`, `Verif.Locals.C108_snake`, `Verif.Locals.C108_value_partial`, `Verif.LogFn.C101_declared`, `Verif.LogFn.C101_once`, `Verif.LogVal.C119_line`, `Verif.LogVal.C119_plain_line`, `Verif.MapSrc.C73_detail_false`, `Verif.MapSrc.C73_entry_false`, `Verif.MapSrc.C73_oneof_false`, `Verif.MapSrc.C73_reported`, `Verif.MapSrc.C73_service_false`, `Verif.MapSrc.C73_service_leak`, `Verif.MapSrc.C73_service_sound`, `Verif.Meta.C125_incoming`, `Verif.Meta.C125_plugin_partial`, `Verif.Method.C98_both_false`, `Verif.Method.C98_both_never`, `Verif.Method.C98_option`, `Verif.Method.C98_requests_false`, `Verif.Method.C98_timeout`, `Verif.MsgGraph.C92_declared`, `Verif.MsgGraph.C92_ends`, `Verif.MsgGraph.C92_fields`, `Verif.MsgGraph.C92_name_false`, `Verif.MsgGraph.C92_one_object_partial`, `Verif.MsgGraph.C92_only_declared`, `Verif.MsgGraph.C92_option_false`, `Verif.MsgGraph.C92_plugin_false`, `Verif.MsgOnce.C111_ends`, `Verif.Names.C42_qualified`, `Verif.Names.C43_longest`, `Verif.Names.C43_none`, `Verif.Names.C48_injective_partial`, `Verif.Names.C58_found_iff`, `Verif.NullCmp.C16_comparison`, `Verif.NullCmp.C16_exact_meaning`, `Verif.NullCmp.C16_null_aware_partial`, `Verif.Offer.C116_message_partial`, `Verif.Offer.C116_method_exact`, `Verif.Offer.C116_method_partial`, `Verif.Offer.C116_name_exact`, `Verif.OneofSel.C83_accepted_iff`, `Verif.OneofSel.C83_compiles_iff`, `Verif.OutPath.C74_distinct_partial`, `Verif.OutPath.C74_files_partial`, `Verif.OutPath.C74_generator_own_partial`, `Verif.OutPath.C74_generator_partial`, `Verif.OutPath.C74_import_distinct`, `Verif.OutPath.C74_module_partial`, `Verif.PlugTy.C99_accepted`, `Verif.PlugTy.C99_arity`, `Verif.PlugTy.C99_function_partial`, `Verif.PlugTy.C99_no_return_false`, `Verif.PlugTy.C99_type_partial`, `Verif.Plugin.C28_argument_partial`, `Verif.Plugin.C28_list_argument_partial`, `Verif.Recover.C67_logged_partial`, `Verif.Recover.C67_no_panic`, `Verif.Recover.C67_panic_partial`, `Verif.Recover.C78_default`, `Verif.Recover.C78_level`, `Verif.Recover.C78_message`, `Verif.Refs.C09_argument_not_recorded`, `Verif.Refs.C09_reads_recorded_partial`, `Verif.Refs.C09_recorded_read_partial`, `Verif.Retry.C18_deterministic`, `Verif.Retry.C18_zero_unlimited`, `Verif.SemTok.C110_brace_false`, `Verif.SemTok.C110_call_partial`, `Verif.SemTok.C110_expression_column`, `Verif.SemTok.C110_name`, `Verif.SemTok.C110_name_apart`, `Verif.SemTok.C110_name_order_partial`, `Verif.SemTok.C110_single_false`, `Verif.SetArg.C102_arguments_generated_partial`, `Verif.SetArg.C102_arguments_partial`, `Verif.SetArg.C102_request_declared_partial`, `Verif.SetArg.C102_request_generated_partial`, `Verif.SetArg.C102_request_partial`, `Verif.SetArg.C102_selector_false`, `Verif.SetField.C121_autobind_member_iff`, `Verif.SharedEnv.C41_enum_false`, `Verif.Sig.C61_distinct`, `Verif.Sig.C61_fuel`, `Verif.Sig.C61_list_of_enums_false`, `Verif.Sig.C61_overloads_partial`, `Verif.SortKey.C118_null_false`, `Verif.SortKey.C118_reported_once`, `Verif.SrvTy.C85_declared_iff`, `Verif.Start.C107_check`, `Verif.Start.C107_starts`, `Verif.SvcVar.C47_accepted_partial`, `Verif.SvcVar.C47_in_order_partial`, `Verif.SvcVar.C47_kept_partial`, `Verif.Tree.C97_single_false`, `Verif.TypeConv.C35_functions`, `Verif.TypeConv.C35_right_function_partial`, `Verif.Types.C124_bound_iff`, `Verif.Types.C124_each_field`, `Verif.Unfinished.C114_argument_panics`, `Verif.Unfinished.C114_false`, `Verif.Unfinished.C114_map_panics`, `Verif.Unfinished.C114_service_map_panics`, `Verif.Unfinished.C114_service_message_panics`, `Verif.Unfinished.C114_service_missing_panics`, `Verif.Unfinished.C114_service_partial`, `Verif.Unfinished.C114_validation_panics`, `Verif.Watch.C71_once`
* axioms propext (249 theorems): `Verif.Args.C40_inline_false`, `Verif.Cast.C23_all_exist`, `Verif.Cast.C24_enum_to_unsigned_false`, `Verif.Cast.C24_number_to_enum_false`, `Verif.Cast.C24_sint64_false`, `Verif.Cast.C25_map_collision_false`, `Verif.Cast.C25_nil`, `Verif.Cast.C55_conversion_independent_false`, `Verif.Cast.C56_renamed_field_false`, `Verif.CelRand.C96_compare_false`, `Verif.CelRand.C96_equal`, `Verif.CelRand.C96_equal_seed`, `Verif.CelRand.C96_reseed`, `Verif.CelRand.C96_self_false`, `Verif.CelStr.C94_overloads`, `Verif.CelTime.C93_addDate_false`, `Verif.CelTime.C93_add_false`, `Verif.CelTime.C93_fixedZone_false`, `Verif.CelTime.C93_isDST_false`, `Verif.CelTime.C93_location_false`, `Verif.CelTime.C93_tzData_false`, `Verif.CelTime.C93_zero_offset_false`, `Verif.CelTy.C81_arguments_false`, `Verif.CelTy.C81_enum_lists_false`, `Verif.CelTy.C81_expression_false`, `Verif.CelTy.C81_expression_partial`, `Verif.CelTy.C81_map_false`, `Verif.CelTy.C81_map_partial`, `Verif.CelTy.C81_map_source`, `Verif.CelTy.C81_one_type`, `Verif.CelTy.C81_rejected`, `Verif.CelTy.C81_selector_argument_false`, `Verif.CelUrl.C95_raw_false`, `Verif.Codegen.C36_call_errors_false`, `Verif.Codegen.C36_call_partial`, `Verif.Codegen.C36_definition_partial`, `Verif.Codegen.C36_detail_false`, `Verif.Codegen.C36_duration`, `Verif.Codegen.C36_enum`, `Verif.Codegen.C36_enum_ids`, `Verif.Codegen.C36_enum_value`, `Verif.Codegen.C36_enum_value_ids`, `Verif.Codegen.C36_env_false`, `Verif.Codegen.C36_error_false`, `Verif.Codegen.C36_error_partial`, `Verif.Codegen.C36_field_env_false`, `Verif.Codegen.C36_field_partial`, `Verif.Codegen.C36_file_ids`, `Verif.Codegen.C36_file_partial`, `Verif.Codegen.C36_go_package_false`, `Verif.Codegen.C36_member_ids`, `Verif.Codegen.C36_message_ids`, `Verif.Codegen.C36_message_partial`, `Verif.Codegen.C36_method_partial`, `Verif.Codegen.C36_oneof_object`, `Verif.Codegen.C36_plugin`, `Verif.Codegen.C36_retry`, `Verif.Codegen.C36_retry_false`, `Verif.Codegen.C36_service_partial`, `Verif.Codegen.C36_type`, `Verif.Compile.C88_again_partial`, `Verif.Complete.C50_missing_false`, `Verif.Defn.Target.C90_alias_false`, `Verif.Defn.Target.C90_enum_alias`, `Verif.Defn.Target.C90_map_false`, `Verif.Defn.Target.C90_name_partial`, `Verif.Defn.Target.C90_service`, `Verif.Defn.Target.C90_single_quotes_false`, `Verif.Diag.C87_last_line_false`, `Verif.Diag.C87_no_place_false`, `Verif.EdSync.C89_closed_false`, `Verif.EdSync.C89_paths_false`, `Verif.EdSync.C89_stale_false`, `Verif.EdSync.C89_text`, `Verif.EdSync.C89_unparsable_false`, `Verif.Embed.C104_backquote_false`, `Verif.Embed.C104_definition_comment_false`, `Verif.Embed.C104_file_partial`, `Verif.EnumAttr.C106_complete_false`, `Verif.EnumAttr.C106_number_false`, `Verif.EnumAttr.C106_twice_false`, `Verif.EnumAttr.C106_unknown_false`, `Verif.EnumSel.C84_accepted_iff`, `Verif.EnumSel.C84_compiles_iff`, `Verif.EnumSel.C84_constants_false`, `Verif.EnumSel.C84_definition_casts`, `Verif.EnumSel.C84_definition_partial`, `Verif.EnumSel.C84_definition_rejected`, `Verif.EnumSel.C84_equal_false`, `Verif.EnumSel.C84_map_casts`, `Verif.EnumSel.C84_map_enum_partial`, `Verif.EnumSel.C84_nested_false_arm_false`, `Verif.EnumSel.C84_same_enum_definition_false`, `Verif.EnumSel.C84_unaliased_arm_false`, `Verif.EnumSel.C84_wrap_false`, `Verif.EnvTag.C105_alternate_false`, `Verif.EnvTag.C105_backquote_false`, `Verif.EnvTag.C105_required_false`, `Verif.ErrH.C19_later_entries_irrelevant`, `Verif.ErrH.C20_failure_stays_failure_false`, `Verif.ErrH.C22_always_status`, `Verif.ErrH.C22_ok_code_false`, `Verif.ErrH.C22_passes_iff`, `Verif.Eval.C13_condition_error`, `Verif.Eval.C13_evaluated_iff`, `Verif.Eval.C13_expression_error`, `Verif.Eval.C13_value`, `Verif.Eval.C14_outside_unchanged`, `Verif.Exec.C12_cache_kept`, `Verif.Exec.C12_cached_not_reevaluated`, `Verif.Field.C27_condition_error`, `Verif.Field.C27_mixed_autobind_false`, `Verif.Field.C38_disabled_custom_resolver_false`, `Verif.Field.C38_oneof_and_by_false`, `Verif.Field.C57_alias_autobind_false`, `Verif.Field.C57_oneof_member_false`, `Verif.FileEnums.C75_own_plugin_false`, `Verif.FuncCall.C80_accepted_false`, `Verif.FuncCall.C80_packages_false`, `Verif.GenOpt.C76_errors`, `Verif.GenOpt.C76_port_false`, `Verif.GenOpt.C76_separator_false`, `Verif.GenOpt.C76_unknown`, `Verif.GenPlugin.C72_hash`, `Verif.GenPlugin.C72_protoc_failure_partial`, `Verif.GenPlugin.C72_runs`, `Verif.HasArg.C123_message_first`, `Verif.ImportWarn.C86_each`, `Verif.ImportWarn.C86_only_false`, `Verif.ImportWarn.C86_same_package_false`, `Verif.ListLib.C29_nan_false`, `Verif.ListLib.C29_target_false`, `Verif.LocBuild.C113_lazyEnum_false`, `Verif.LocBuild.C113_lazy_false`, `Verif.Locals.C108_value_false`, `Verif.Log.C31_parent_false`, `Verif.Log.C31_siblings_false`, `Verif.Log.C63_complete`, `Verif.Log.C63_duplicates_false`, `Verif.LogFn.C101_alias_false`, `Verif.LogFn.C101_argument_name_false`, `Verif.LogFn.C101_maps_false`, `Verif.LogFn.C101_nested_false`, `Verif.LogFn.C101_used_false`, `Verif.LogVal.C119_attrs_iff`, `Verif.LogVal.C119_complete_partial`, `Verif.LogVal.C119_empty_list_false`, `Verif.LogVal.C119_only`, `Verif.LogVal.C119_sound`, `Verif.Meta.C125_plugin_none`, `Verif.Method.C98_built_false`, `Verif.Method.C98_streaming_false`, `Verif.Method.C98_types_false`, `Verif.MsgGraph.C92_plugin_partial`, `Verif.MsgOnce.C111_panic_false`, `Verif.Names.C42_unqualified`, `Verif.Names.C44_path_and_name`, `Verif.Names.C44_path_only`, `Verif.NullCmp.C16_executable_partial`, `Verif.NullCmp.C16_executed`, `Verif.NullCmp.C16_unchanged`, `Verif.Offer.C116_filter_false`, `Verif.Offer.C116_keywords`, `Verif.Offer.C116_keywords_exact`, `Verif.Offer.C116_own_name`, `Verif.OneofSel.C83_compiles_false`, `Verif.OneofSel.C83_has_false`, `Verif.OutPath.C74_case_false`, `Verif.OutPath.C74_dots_false`, `Verif.OutPath.C74_generator_false`, `Verif.OutPath.C74_import`, `Verif.OutPath.C74_module_false`, `Verif.OutPath.C74_name`, `Verif.OutPath.C74_plugin_false`, `Verif.OutPath.C74_requested_false`, `Verif.OutPath.C74_source_relative_outside`, `Verif.OutPath.C74_source_relative_partial`, `Verif.PlugTy.C99_map_enum_false`, `Verif.PlugTy.C99_missing_false`, `Verif.PlugTy.C99_names_false`, `Verif.PlugTy.C99_nested_false`, `Verif.PlugTy.C99_undeclared_false`, `Verif.Plugin.C28_empty_error_false`, `Verif.Plugin.C28_error_partial`, `Verif.Plugin.C28_result`, `Verif.Plugin.C28_truncated_false`, `Verif.Plugin.C30_after_close_partial`, `Verif.Plugin.C30_close_partial`, `Verif.Plugin.C30_double_close_false`, `Verif.Plugin.C30_extra_output_false`, `Verif.Plugin.C30_gc_after_close_false`, `Verif.Plugin.C30_gc_partial`, `Verif.Plugin.C30_own_response_partial`, `Verif.Plugin.C30_plugin_exit_false`, `Verif.Recover.C67_logged_false`, `Verif.Recover.C67_panic_false`, `Verif.Refs.C09_map_enum_false`, `Verif.Retry.C18_condition_sees_error`, `Verif.SemTok.C110_comment_false`, `Verif.SemTok.C110_details_false`, `Verif.SemTok.C110_enum_false`, `Verif.SemTok.C110_names_false`, `Verif.SetArg.C102_argument_numbers_false`, `Verif.SetArg.C102_argument_types_false`, `Verif.SetArg.C102_enum_crash_false`, `Verif.SetArg.C102_inline_empty_false`, `Verif.SetArg.C102_null_argument_false`, `Verif.SetArg.C102_oneof_enum_false`, `Verif.SetField.C121_accepted_by_partial`, `Verif.SetField.C121_accepted_false`, `Verif.SetField.C121_autobind_partial`, `Verif.SetField.C121_autobind_string_false`, `Verif.SetField.C121_by_partial`, `Verif.SetField.C121_leaves_oneof_iff`, `Verif.SetField.C121_member_by_false`, `Verif.SetField.C121_member_by_partial`, `Verif.SetField.C121_member_null_false`, `Verif.SetField.C121_optional_false`, `Verif.SrvTy.C85_declared_partial`, `Verif.SrvTy.C85_go_type_partial`, `Verif.SrvTy.C85_iterator_go`, `Verif.SrvTy.C85_map_of_lists_false`, `Verif.SrvTy.C85_variable_partial`, `Verif.SrvTy.C85_zero`, `Verif.SvcVar.C47_two_validations_false`, `Verif.SvcVar.C60_accepted`, `Verif.SvcVar.C60_as_declared_partial`, `Verif.Timeout.C17_no_stuck_worker`, `Verif.Timeout.C17_outcome`, `Verif.Timeout.C17_returns`, `Verif.Timeout.C17_worker_terminates`, `Verif.Timeout.C51_message_names_cause_partial`, `Verif.TypeConv.C35_list_single_false`, `Verif.TypeConv.C35_required`, `Verif.Types.C124_by_other`, `Verif.Types.C124_oneof_false`, `Verif.Types.C39_bind_complete`, `Verif.Types.C39_bind_partial`, `Verif.Types.C39_enum_to_other_false`, `Verif.Types.C39_repeated_false`, `Verif.Types.C39_request_complete`, `Verif.Types.C39_request_false`, `Verif.Types.C39_request_partial`, `Verif.Unfinished.C114_condition_panics`, `Verif.Watch.C71_events`, `Verif.Watch.C71_events_all_false`, `Verif.Watch.C71_import_false`, `Verif.Watch.C71_shared_name_false`, `Verif.Watch.C71_unnoticed_false`
