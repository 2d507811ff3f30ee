{"id": "C01", "title": "References are evaluated first", "statement": "While a message is being resolved, the evaluation of a variable definition starts only after the evaluation of every earlier definition whose name it references (in an expression the resolver records) has finished successfully.", "quantifier": "every list of definitions in which no definition references its own name, every schedule of the goroutines, every pattern of failures", "why_tests_cant": "The generated code runs groups of definitions concurrently; a test sees one interleaving of one message.", "anchors": ["resolver/graph.go: setupVariableDependencyByReferenceName, VariableDefinitionGroups", "generator/templates/eval.go.tmpl: evalDefGroup, evalDefSet", "grpc/federation/cel.go: LocalValue.do"]}
{"id": "C02", "title": "Validation is a barrier", "statement": "No definition declared after a validation starts to be evaluated before that validation has been evaluated successfully; when the validation fails nothing declared after it is evaluated.", "quantifier": "every list of definitions without self reference, every schedule and failure pattern", "why_tests_cant": "The barrier is encoded as extra graph edges and must survive every grouping and interleaving.", "anchors": ["resolver/graph.go: setupVariableDependencyByValidation", "generator/templates/eval.go.tmpl: evalDefSet"]}
{"id": "C03", "title": "Every definition is evaluated", "statement": "When resolving a message's definitions finishes without error, every definition of the message has been evaluated.", "quantifier": "every list of definitions without self reference, every schedule", "why_tests_cant": "A definition lost by the grouping would only be visible for the dependency shape that loses it.", "anchors": ["resolver/graph.go: uniqueChildren, children, createVariableDefinitionGroup"]}
{"id": "C04", "title": "Evaluation terminates and never gets stuck", "statement": "Whatever order the goroutines run in, the evaluation of a message's definitions cannot deadlock and takes a bounded number of steps, provided each single evaluation terminates.", "quantifier": "every list of definitions without self reference, every schedule and failure pattern", "why_tests_cant": "Absence of deadlock is a statement about all schedules.", "anchors": ["generator/templates/eval.go.tmpl: evalDefGroup", "grpc/federation/error.go: GoWithRecover"]}
{"id": "C05", "title": "Failures stop dependants and are reported", "statement": "A definition is evaluated only after every definition it depends on, directly or transitively, has been evaluated successfully, so while all evaluations of a definition fail nothing that depends on it is evaluated; resolving the message's definitions returns an error exactly when some evaluation failed, and that error is one an evaluation ended with.", "quantifier": "every list of definitions without self reference, every schedule and failure pattern", "why_tests_cant": "Needs all interleavings of failing and succeeding goroutines.", "anchors": ["generator/templates/eval.go.tmpl: evalDefGroup, evalMessageDef"]}
{"id": "C06", "title": "Dependency edges are exactly the recorded references and validation barriers", "statement": "Definition b is ordered directly after definition a exactly when a is declared no later than b and either b references a's name, a is the last such declaration and the name is not b's own map iterator, or a is a validation declared before b.", "quantifier": "every list of definitions", "why_tests_cant": "Quantifies over every pair of positions and every name clash.", "anchors": ["resolver/graph.go: setupVariableDependencyByReferenceName, setupVariableDependencyByValidation"]}
{"id": "C07", "title": "Grouping is deterministic", "statement": "The evaluation plan built for a message depends only on the set of its definitions and dependency edges, not on the iteration order of Go maps.", "quantifier": "every dependency graph with distinct definition names and every map iteration order", "why_tests_cant": "Go randomises map iteration; a test observes one order per run.", "anchors": ["resolver/graph.go: uniqueChildren, createVariableDefinitionGroup"]}
{"id": "C08", "title": "A self-referencing definition is reported", "statement": "A definition that references its own name is rejected with an error, and never makes the message's definitions silently disappear from the generated code.", "quantifier": "every list of definitions", "why_tests_cant": "The failing shape (no root remains) is not in the test corpus.", "anchors": ["resolver/graph.go: setupVariableDefinitionSet"]}
{"id": "C09", "title": "All used names are recorded as references", "statement": "Every variable name a definition reads when it is evaluated is recorded as a reference of that definition, so that ordering (C01) applies to it.", "quantifier": "every definition expression and every name", "why_tests_cant": "There are more than a dozen expression sites; each is a separate omission to test for.", "anchors": ["resolver/def.go: VariableDefinition.ReferenceNames", "resolver/value.go: CELValue.ReferenceNames", "resolver/message.go: GRPCError.ReferenceNames"]}
{"id": "C10", "title": "Cyclic message dependencies are rejected", "statement": "A set of messages whose message dependencies contain a cycle is rejected with a cyclic dependency error, and an acyclic one is accepted.", "quantifier": "every finite message dependency graph", "why_tests_cant": "Graph shapes are unbounded.", "anchors": ["resolver/graph.go: CreateAllMessageDependencyGraph, validateAllMessageGraph"]}
{"id": "C11", "title": "The reported error is a real failure", "statement": "The error returned for a message is the error of an evaluation that failed by itself, not the cancellation of a sibling.", "quantifier": "every list of definitions, schedule and failure pattern", "why_tests_cant": "Depends on a race between cancellation and error propagation.", "anchors": ["generator/templates/eval.go.tmpl: evalDefGroup", "grpc/federation/cel.go: LocalValue.do"]}
{"id": "C12", "title": "A definition is not evaluated twice at the same time", "statement": "While the groups of one message run concurrently, two evaluations of the same definition never overlap, every caller receives the result of some evaluation, and a caller that starts after a result has been stored never evaluates again.", "quantifier": "every number of concurrent callers and every schedule", "why_tests_cant": "Race between cache lookup and singleflight is schedule dependent.", "anchors": ["grpc/federation/cel.go: LocalValue.do"]}
{"id": "C13", "title": "Conditional definition semantics", "statement": "A definition with an `if` is evaluated only when the condition is true; when it is false the variable holds the zero value and is still usable by later expressions; when evaluating the condition or the expression fails, the error is returned.", "quantifier": "every condition result, every expression result and every prior set of variables", "why_tests_cant": "All combinations of missing parts, failing parts and prior state.", "anchors": ["grpc/federation/cel.go: EvalDef, evalDef"]}
{"id": "C14", "title": "Map definitions preserve length and order", "statement": "A map definition evaluates its iterator expression exactly once per source element, in order, with the iterator name bound to that element; on success the result has one entry per element in the same order; on failure the first failing element decides the error and no further element is evaluated; variables outside are unchanged.", "quantifier": "every source list, every iterator behaviour", "why_tests_cant": "Lists of every length with failures at every position.", "anchors": ["grpc/federation/cel.go: EvalDefMap, evalDefMap, evalMap, MapIteratorValue"]}
{"id": "C15", "title": "CEL program cache is transparent", "statement": "Evaluating an expression with the program cache gives the same result as compiling it afresh, in the generated code, because every call site has its own cache index.", "quantifier": "every sequence of evaluations of a service", "why_tests_cant": "A collision would only appear for the combination of call sites that collide.", "anchors": ["grpc/federation/cel.go: EvalCEL, createCELProgram, CELCacheMap", "generator/code_generator.go: CELCacheIndex"]}
{"id": "C16", "title": "Comparison with null rewriting", "statement": "Comparing any expression with the literal null (either side, == or !=) is evaluated through a wrapper that treats a nil message as null; no other expression is changed and rewriting twice equals rewriting once.", "quantifier": "every CEL syntax tree", "why_tests_cant": "Trees are unbounded.", "anchors": ["grpc/federation/cel.go: replaceComparingNull / comparingNullResolver"]}
{"id": "C17", "title": "Timeout yields exactly one outcome and no goroutine leak", "statement": "A call with a timeout returns exactly once, with either the body's own result or a DeadlineExceeded error; a panic in the body is returned as an error; and the worker goroutine always terminates once the body returns, even when nobody receives its result.", "quantifier": "every interleaving of body, worker, context and receiver", "why_tests_cant": "The leak and double outcome need specific interleavings.", "anchors": ["grpc/federation/lib.go: WithTimeout"]}
{"id": "C18", "title": "Retries are bounded and conditional", "statement": "A call with a retry policy of max_retries n >= 1 (5 if not declared) is attempted at most n+1 times and always ends; it stops at the first success and is never retried when the retry condition is false or fails to evaluate, or once its context is done; it does not give up earlier otherwise; it returns the result of the last attempt, or the evaluation error of the condition. max_retries 0 means no limit.", "quantifier": "every n, every sequence of attempt outcomes and condition results", "why_tests_cant": "All outcome sequences.", "anchors": ["grpc/federation/lib.go: WithRetry", "generator/templates/retry.go.tmpl", "resolver/resolver.go: resolveRetry"]}
{"id": "C19", "title": "Error handler: first matching entry decides", "statement": "When a dependent call fails, the first `error` entry whose condition holds decides the outcome: ignore gives success with the call's value, ignore_and_response success with the given response (no value if it cannot be evaluated), otherwise the definition fails with the entry's status; code, message and details not declared are taken from the original error; entries after it are not evaluated; if evaluating an entry fails or none matches, the original error is returned. Whatever error results is passed through the service's error handler.", "quantifier": "every list of error entries, every condition outcome and every original error", "why_tests_cant": "Combinations of entries and failures are unbounded.", "anchors": ["generator/templates/error_handler.go.tmpl: errorHandler"]}
{"id": "C20", "title": "A failing call never turns into success unless ignored", "statement": "If a dependent call fails and no matching `error` entry says ignore (or sets code OK), then the definition fails.", "quantifier": "every original error, every list of entries", "why_tests_cant": "Needs an error without gRPC status reaching an entry without code.", "anchors": ["generator/templates/error_handler.go.tmpl: errorHandler (defaultCode)"]}
{"id": "C21", "title": "Handlers see their own error", "statement": "The `error` variable read by a retry condition or error handler of a call is the error of that call.", "quantifier": "every interleaving of concurrent failing calls of one message", "why_tests_cant": "Race between two concurrent handlers.", "anchors": ["grpc/federation/cel.go: SetGRPCError", "generator/templates/error_handler.go.tmpl", "grpc/federation/lib.go: WithRetry"]}
{"id": "C22", "title": "Validation outcome", "statement": "A validation definition fails exactly when its `if` condition holds (or evaluating it fails); the status carries the configured code, the evaluated message and the details whose conditions hold, in declaration order.", "quantifier": "every validation rule and every evaluation outcome", "why_tests_cant": "All combinations of detail conditions and failures.", "anchors": ["generator/templates/validation.go.tmpl: messageValidation", "grpc/federation/validation.go"]}
{"id": "C23", "title": "Checked integer casts", "statement": "A checked integer conversion succeeds exactly when the value is representable in the target type and then preserves the value.", "quantifier": "every value of every source integer type", "why_tests_cant": "2^64 inputs per conversion.", "anchors": ["grpc/federation/cast.go"]}
{"id": "C24", "title": "Numeric fields are never silently truncated", "statement": "Whenever generated code converts a numeric value to a field of another numeric type, the value is preserved or an error is returned.", "quantifier": "every pair of numeric kinds and every value", "why_tests_cant": "18 kinds squared times all values.", "anchors": ["generator/code_generator.go: castValidationNumberMap", "generator/templates/cast.go.tmpl"]}
{"id": "C25", "title": "Structural casts are faithful", "statement": "Converting a repeated, map or message value converts element by element in order, field by field, preserves nil and length, and fails exactly when some element conversion fails.", "quantifier": "every value and element conversion", "why_tests_cant": "Unbounded lists and maps.", "anchors": ["generator/templates/cast.go.tmpl"]}
{"id": "C26", "title": "Enum mapping", "statement": "Converting an enum value along a declared alias follows the declared aliases; values without alias map to the declared default, or to zero; ambiguous conversions are rejected; converting to the alias enum and back gives the same value.", "quantifier": "every enum declaration and every number", "why_tests_cant": "All declarations and unknown numbers.", "anchors": ["generator/code_generator.go: toEnumFromDepServiceToService, toEnumFromServiceToDepService", "generator/templates/cast.go.tmpl: castEnum"]}
{"id": "C27", "title": "Oneof resolution picks the first true case", "statement": "For a oneof built from conditional members, all conditions are evaluated in declaration order and a failing one fails the request; then the first member whose condition is true is set, otherwise the default member, otherwise the oneof stays unset; at most one member is set.", "quantifier": "every list of cases and condition results", "why_tests_cant": "All truth assignments.", "anchors": ["generator/templates/server.go.tmpl", "generator/code_generator.go: oneof fields"]}
{"id": "C28", "title": "Plugin values survive transport", "statement": "A value passed to a CEL plugin function arrives unchanged, the expression gets the value the function returns unchanged, and fails if the function fails.", "quantifier": "every CEL value", "why_tests_cant": "Unbounded values.", "anchors": ["grpc/federation/cel/plugin.go refToCELPluginValue celPluginValueToRef recvResponse", "grpc/federation/cel_plugin.go", "generator/code_generator.go Converter"]}
{"id": "C29", "title": "List library functions", "statement": "sortAsc/sortDesc/sortStableAsc/sortStableDesc return a sorted permutation (stable for the stable ones), flatten concatenates, first returns the first match, reduce folds left to right.", "quantifier": "every list and key function", "why_tests_cant": "Unbounded lists.", "anchors": ["grpc/federation/cel/list.go"]}
{"id": "C30", "title": "Plugin instance lifecycle", "statement": "Every call on a plugin instance receives the response to its own request; closing is safe at any time and calls after closing fail with an error.", "quantifier": "every sequence of calls, GC requests and closes", "why_tests_cant": "Sequences and interleavings unbounded.", "anchors": ["grpc/federation/cel/plugin.go: CELPluginInstance"]}
{"id": "C31", "title": "Log attributes accumulate", "statement": "Every context of a request has exactly the attributes its parent had when it was created followed by those added to it, in order; additions elsewhere never change them.", "quantifier": "every history of creating contexts and adding attributes", "why_tests_cant": "Sequences unbounded.", "anchors": ["grpc/federation/log/context.go WithLogger AddAttrs Attrs", "generator/templates/server.go.tmpl 470 543"]}
{"id": "C32", "title": "Every expression site gets its own cache index", "statement": "In the generated code of one service no two expression sites share a cache index.", "quantifier": "every service definition", "why_tests_cant": "Only a collision for the specific service would be seen.", "anchors": ["generator/code_generator.go: CELCacheIndex"]}
{"id": "C33", "title": "Import aliases are distinct", "statement": "The import block of a generated file declares distinct names for distinct packages, imports every package it needs once, and types refer to their package by its name there.", "quantifier": "every list of imported packages", "why_tests_cant": "Needs three packages with the same name.", "anchors": ["generator/code_generator.go Imports getAlias"]}
{"id": "C34", "title": "Contexts are correctly scoped in generated group code", "statement": "Every definition evaluation in generated code uses the context of the innermost enclosing errgroup and never the context of a group that has already been waited for.", "quantifier": "every evaluation plan", "why_tests_cant": "Nested plans of every depth.", "anchors": ["generator/templates/eval.go.tmpl: evalDefGroup", "generator/funcs.go: ParentCtx"]}
{"id": "C35", "title": "Every needed conversion function is generated once", "statement": "Every type conversion the generated code needs, directly or inside another generated conversion, has exactly one generated function.", "quantifier": "every set of message and enum types", "why_tests_cant": "Closure over nested and recursive types.", "anchors": ["resolver/type_conversion.go typeConversionDecls", "resolver/fqdn.go Type.FQDN", "generator/code_generator.go CastFields requiredCast toStructField"]}
{"id": "C36", "title": "Plugin code-generation request round-trip", "statement": "A code generation plugin that decodes the request sees the same files, messages, definitions and groups the resolver produced.", "quantifier": "every resolved set of files", "why_tests_cant": "Any name clash or dropped field breaks it.", "anchors": ["grpc/federation/generator/encode.go toVariableDefinition toVariableExpr toCallExpr toGRPCError toType toFile toService toServiceRule toMethod toMessage toField toFieldRule toEnum toEnumValue toOneof toCELPlugin toMessageDependencyGraph toMessageDependencyGraphNode toFileID toDependencyGraphID", "resolver/fqdn.go FQDN", "grpc/federation/generator/decode.go toVariableDefinition toVariableExpr toCallExpr toGRPCError toType toFile toService toEnv toMethod toMessage toField toFieldRule toEnum toEnumValue toOneof toCELPlugin"]}
{"id": "C37", "title": "Type kinds survive the plugin request", "statement": "Every scalar kind is transported to plugins unchanged.", "quantifier": "every kind", "why_tests_cant": "Table completeness.", "anchors": ["grpc/federation/generator/encode.go: toTypeKind", "grpc/federation/generator/decode.go: toTypeKind"]}
{"id": "C38", "title": "Exactly one value source", "statement": "A field, argument or env value is accepted exactly when it names exactly one value source; otherwise an error is reported.", "quantifier": "every combination of options", "why_tests_cant": "All subsets of options.", "anchors": ["resolver/resolver.go: resolveValue"]}
{"id": "C39", "title": "Assignable types", "statement": "A field is bound from a value only when their types are compatible: same kind, number to number, enum to number, or null to a nullable type.", "quantifier": "every pair of types", "why_tests_cant": "All pairs including message and enum identities.", "anchors": ["resolver/resolver.go: isDifferentType"]}
{"id": "C40", "title": "Message argument consistency", "statement": "If resolution succeeds, every place that builds a message supplies exactly the same argument names with compatible types.", "quantifier": "every set of messages and call sites", "why_tests_cant": "All call graphs.", "anchors": ["resolver/resolver.go: resolveMessageArgument, validateMessageDependencyArgumentName"]}
{"id": "C41", "title": "Shared messages see only shared environment variables", "statement": "A message used by several services can use exactly the environment variables (and service variables) that all of them define; the schema is rejected exactly if one of these has different types in two services; the result does not depend on the order of services.", "quantifier": "every set of services", "why_tests_cant": "Intersections over arbitrary sets and map orders.", "anchors": ["resolver/resolver.go: buildEnvMessage"]}
{"id": "C42", "title": "Method names", "statement": "A method reference `pkg.Service/Method` is split into exactly that package, service and method, and malformed names are rejected.", "quantifier": "every string", "why_tests_cant": "All strings.", "anchors": ["resolver/resolver.go: splitMethodFullName"]}
{"id": "C43", "title": "Longest package wins", "statement": "A fully qualified name is attributed to the longest known package that prefixes it.", "quantifier": "every name and set of packages", "why_tests_cant": "All overlapping package sets.", "anchors": ["resolver/resolver.go: lookupPackage, lookupMessage"]}
{"id": "C44", "title": "go_package parsing", "statement": "The go_package option `path;name` and `path` are parsed into import path, package name and alias as documented.", "quantifier": "every string", "why_tests_cant": "All strings.", "anchors": ["resolver/resolver.go: resolveGoPackage/splitGoPackageName"]}
{"id": "C45", "title": "Enum alias completeness", "statement": "If resolution of an enum with aliases succeeds, every value of the enum without explicit alias exists in every alias enum.", "quantifier": "every enum declaration", "why_tests_cant": "All declarations.", "anchors": ["resolver/resolver.go: resolveEnumValueAlias"]}
{"id": "C46", "title": "Oneof rules are validated", "statement": "If a message is accepted, every field with a oneof rule is a member of a oneof, is the default or has a condition, and has a value, and at most one member of every oneof is the default; messages satisfying this are not rejected because of their oneofs.", "quantifier": "every message", "why_tests_cant": "All combinations.", "anchors": ["resolver/resolver.go: validateFieldsOneofRule"]}
{"id": "C47", "title": "Service variables are kept", "statement": "A service variable that type checks is present in the resolved service, in declaration order.", "quantifier": "every list of service variables", "why_tests_cant": "Needs the conditional variable case.", "anchors": ["resolver/resolver.go: resolveServiceVariables"]}
{"id": "C48", "title": "Function identifiers are unique", "statement": "Two different plugin function signatures get different identifiers.", "quantifier": "every pair of names", "why_tests_cant": "Needs clashing names.", "anchors": ["resolver/resolver.go: toPluginFunctionID", "resolver/cel.go: Signatures"]}
{"id": "C49", "title": "Argument references are rewritten", "statement": "In an accepted expression every `$` is replaced by the argument object and nothing else changes, string literals keep their value and different expressions stay different; an expression that already contains the reserved name is rejected.", "quantifier": "every expression string", "why_tests_cant": "All strings.", "anchors": ["resolver/resolver.go: resolveCELValue"]}
{"id": "C50", "title": "Completion offers every earlier definition", "statement": "Completion inside definition i offers the names of exactly the definitions declared before i.", "quantifier": "every list of definitions and position", "why_tests_cant": "All positions.", "anchors": ["resolver/candidates.go: candidatesVariableName"]}
{"id": "C51", "title": "A timeout error means that the timeout passed", "statement": "A call with a timeout returns a DeadlineExceeded error only if its deadline passed; when the caller's own context is cancelled the error says so.", "quantifier": "all interleavings of the call, its worker, the timer and cancellation of the parent context", "why_tests_cant": "depends on the order of concurrent events", "anchors": ["grpc/federation/lib.go WithTimeout"]}
{"id": "C52", "title": "The retry condition sees the failure it decides about", "statement": "Whether a failed attempt is retried is decided by the retry condition applied to the error of that attempt.", "quantifier": "all sequences of attempts, errors and condition values", "why_tests_cant": "depends on the history of earlier attempts", "anchors": ["grpc/federation/lib.go WithRetry", "grpc/federation/cel.go SetGRPCError"]}
{"id": "C53", "title": "Ignored errors are success", "statement": "When the deciding `error` entry ignores the error the definition succeeds, whatever the service's error handler does with errors.", "quantifier": "all error entries, errors and error handlers", "why_tests_cant": "depends on user supplied handlers and arbitrary entries", "anchors": ["generator/templates/error_handler.go.tmpl errorHandler", "grpc/federation/error.go ErrorHandler"]}
{"id": "C54", "title": "The error variable carries the whole status", "statement": "Inside handlers the `error` variable has the status' code and message, all its details in order, and every typed list (error_info, bad_requests, \u2026) holds exactly the details of that type in order.", "quantifier": "all statuses with any number and mix of details", "why_tests_cant": "unbounded lists of details of eleven kinds", "anchors": ["grpc/federation/cel.go SetGRPCError"]}
{"id": "C55", "title": "A conversion depends only on its two types", "statement": "Converting a field of one numeric kind to another behaves the same whatever other conversions the service needs.", "quantifier": "all sets of conversions of a service, all values", "why_tests_cant": "depends on the whole service definition", "anchors": ["generator/code_generator.go CastFields castFuncName castName", "generator/templates/server.go.tmpl"]}
{"id": "C56", "title": "Renamed fields survive conversion in both directions", "statement": "If a field of a service message is declared an alias of a differently named field of a dependency message, converting either message to the other carries the value of that field.", "quantifier": "all message schemas with renamed fields, all values", "why_tests_cant": "ranges over all schemas and nested values", "anchors": ["generator/code_generator.go toStructField ToStruct", "resolver/field.go SourceTypes"]}
{"id": "C57", "title": "Every field of an accepted message is set from its declared source", "statement": "In the response built for an accepted message, a field with `by` gets the value of the expression, a field with `custom_resolver` the result of its resolver, a field without option the value of the only autobind definition that offers a field of that name, and a oneof member with a rule is a case or the default of its oneof; no field is set twice.", "quantifier": "all message definitions with any mix of field options, aliases and autobind definitions", "why_tests_cant": "ranges over all schemas", "anchors": ["resolver/resolver.go resolveFieldRule resolveAutoBindFields validateMessageFields", "generator/code_generator.go ReturnFields oneofValueToReturnField"]}
{"id": "C58", "title": "Nested messages are found by their dotted name", "statement": "A message declared at any depth is found by the names of the enclosing messages and its own joined by dots, and no other name finds it.", "quantifier": "all trees of message declarations, all names", "why_tests_cant": "trees of any depth and width", "anchors": ["resolver/resolver.go lookupMessage lookupMessageRecursive"]}
{"id": "C59", "title": "Comparing shared variables ends", "statement": "Resolution ends for every schema, whatever the types of variables shared between services.", "quantifier": "all schemas, including recursive message types", "why_tests_cant": "termination on all inputs", "anchors": ["resolver/resolver.go isExactlySameType"]}
{"id": "C60", "title": "Environment variable types are as declared", "statement": "An accepted environment variable has exactly the declared type.", "quantifier": "all type declarations, nested to any depth", "why_tests_cant": "types are nested without bound", "anchors": ["resolver/resolver.go resolveEnvType"]}
{"id": "C61", "title": "Plugin functions take enums or integers", "statement": "A plugin function can be called with an enum value or an integer at every place declared with an enum type, in all combinations, and with no other types; no overload is registered twice.", "quantifier": "all function signatures with any number of enum arguments", "why_tests_cant": "exponentially many combinations for any number of arguments", "anchors": ["resolver/cel.go Signatures signatures"]}
{"id": "C62", "title": "Only complete plugins are accepted", "statement": "A plugin is accepted at start exactly if it reports the protocol version of the host and every function of its configuration.", "quantifier": "all sets of declared and implemented functions", "why_tests_cant": "sets of any size", "anchors": ["grpc/federation/cel/plugin.go ValidatePlugin"]}
{"id": "C63", "title": "Log lines carry each attribute once", "statement": "Everything logged while a message is resolved carries each attribute of its context once.", "quantifier": "every nesting depth and every list of attributes", "why_tests_cant": "depth unbounded", "anchors": ["grpc/federation/log/context.go Logger", "generator/templates/server.go.tmpl 543 578 690"]}
{"id": "C64", "title": "Different names become different Go names", "statement": "Variables, fields and arguments with different names are different fields and functions of the generated code.", "quantifier": "all names", "why_tests_cant": "names are strings of any length", "anchors": ["util/name.go", "generator/code_generator.go protoFQDNToPublicGoName DeclVariables"]}
{"id": "C65", "title": "`$` is what the caller passed", "statement": "In every expression of a message, `$.x` is the argument x as passed by the caller, and the custom resolver gets all arguments and all used variables.", "quantifier": "all arguments, variables, fields and expressions", "why_tests_cant": "expressions are arbitrary functions; any number of variables", "anchors": ["generator/templates/server.go.tmpl 540-607", "generator/code_generator.go CustomResolverArguments toDeclTypes", "grpc/federation/cel.go NewLocalValue"]}
{"id": "C68", "title": "Everything the generated code refers to is declared", "statement": "Every resolver function, gRPC client, method constant and custom resolver that the generated code of a service refers to is declared in it.", "quantifier": "all messages, definitions at any nesting and services", "why_tests_cant": "message graphs and nesting of any size", "anchors": ["resolver/service.go HasMessageInMethod HasMessageInVariables CustomResolvers ServiceDependencies UseServices", "resolver/message.go AllVariableDefinitions CustomResolvers DependServices", "generator/code_generator.go DependentMethods dependentMethods Messages", "generator/templates/server.go.tmpl", "generator/templates/error_handler.go.tmpl"]}
{"id": "C69", "title": "Every definition is evaluated", "statement": "Every variable definition the user writes in a message, also in error entries, is part of an evaluation plan, and only these are.", "quantifier": "all messages and definitions at any nesting", "why_tests_cant": "nesting of any depth", "anchors": ["resolver/resolver.go resolveMessageDependencies resolveGRPCErrorMessageDependencies", "generator/templates/eval.go.tmpl evalDefSet"]}
{"id": "C70", "title": "The code of all error entries of a call compiles", "statement": "The evaluation code of the error entries of one call declares no variable twice in one scope.", "quantifier": "all lists of error entries with all plans", "why_tests_cant": "any number of entries with plans of any shape", "anchors": ["generator/templates/error_handler.go.tmpl errorHandler", "generator/templates/eval.go.tmpl evalDefSet"]}
{"id": "C71", "title": "Watch mode keeps the generated files up to date", "statement": "After every handled event the generated files are exactly those of the current proto files; every change of a proto file is handled once, in order; a single generation brings every generated file up to date.", "quantifier": "all histories of changes of proto files, all map orders, all schedules of the two event loops", "why_tests_cant": "histories and schedules are unbounded", "anchors": ["generator/generator.go Generate GenerateAll setWatcher otherResults createProtoFile updateProtoFile deleteProtoFile WriteFiles", "generator/watcher.go handleEvent receiveEventLoop"]}
{"id": "C72", "title": "Code generation plugins get the request", "statement": "Every configured code generation plugin is run for every result with the whole request, only files with the configured hash are run, and failures of plugins are reported.", "quantifier": "all plugins, requests and plugin behaviours", "why_tests_cant": "any number of plugins and requests", "anchors": ["generator/generator.go evalAllCodeGenerationPlugin generateByPlugin", "generator/wasm.go evalCodeGeneratorPlugin"]}
{"id": "C66", "title": "Names of variables", "statement": "A message is accepted exactly if the names the user wrote are valid and differ; definitions without a name never collide with each other or with names of the user.", "quantifier": "all messages with definitions at any nesting of error entries, details and oneof fields", "why_tests_cant": "any number of definitions at any depth; names of any length", "anchors": ["resolver/resolver.go resolveMessageRule validateName validateDuplicatedVariableName resolveGRPCError"]}
{"id": "C73", "title": "Sources of maps", "statement": "The `src` of a map may be every variable that expressions at the same place may use, and no other.", "quantifier": "all messages with definitions at any nesting of error entries, details and oneof fields; all files with any services and variables", "why_tests_cant": "any number of definitions at any depth, any number of files", "anchors": ["resolver/resolver.go resolveVariableDefinitions resolveMapIterator resolveServiceRules resolveServiceVariables", "resolver/context.go"]}
{"id": "C74", "title": "Places of generated files", "statement": "Code is generated for exactly the requested files with a federated service or plugin and the files of their packages; it is written to the place the option asks for, and different proto files are written to different places.", "quantifier": "all sets of files, packages, import paths and modes", "why_tests_cant": "any number of files with names of any length", "anchors": ["resolver/file.go OutputDir OutputPath FileName", "resolver/resolver.go resultFiles Resolve", "generator/generator.go CreateCodeGeneratorResponse generateByGRPCFederation"]}
{"id": "C76", "title": "Options of the generator", "statement": "Every option in the configuration and on the command line takes effect, options that cannot be read are reported, and the standard plugins are used unless configured otherwise.", "quantifier": "all lists of options and plugins, all map orders", "why_tests_cant": "any number of options with values of any length", "anchors": ["generator/generator.go parseOptString parseOpt parsePluginsOption splitOptPattern", "generator/config.go setupConfig PluginOption.String"]}
{"id": "C77", "title": "Imported files", "statement": "With file imports in options, exactly the given files and everything they depend on or import are used, each once; every file is resolved once and after all it imports; cycles of imports are reported, and nothing else is reported as a cycle.", "quantifier": "all sets of files with any imports, all map orders", "why_tests_cant": "any number of files, any import graph", "anchors": ["resolver/resolver.go resolveFileImportRule resolveFileImportRuleRecursive resolveFiles resolveFile", "resolver/cel.go RegisterFiles registerFileDeps"]}
{"id": "C75", "title": "Enums and plugins of imports", "statement": "The expressions of a file can use the enums and plugins of the file and of all files it imports; what is accepted when code is generated exists when the service runs.", "quantifier": "all import graphs without cycles, all enums and plugins, all map orders, all sequences of questions to the shared cache", "why_tests_cant": "any number of files, enums and questions", "anchors": ["resolver/file.go AllEnums AllEnumsIncludeDeps allEnumsIncludeDeps AllCELPlugins", "resolver/resolver.go createCELEnv createEnumAccessors", "generator/code_generator.go File.Enums", "generator/templates/server.go.tmpl", "grpc/federation/cel.go EnumAccessorOptions EnumAttrOption NewDefaultEnvOptions"]}
{"id": "C67", "title": "Panics become errors", "statement": "A panic while a request is resolved becomes an error of the request whose message is the text of the panic and whose stack is the stack trace, at any nesting of shared evaluations; it is logged with both.", "quantifier": "all texts and stack traces, all nestings of shared evaluations and recovering functions", "why_tests_cant": "any text, any nesting", "anchors": ["grpc/federation/error.go RecoverError GoWithRecover OutputErrorLog", "grpc/federation/lib.go WithTimeout", "generator/templates/server.go.tmpl"]}
{"id": "C78", "title": "Logs of errors", "statement": "A failed request is logged with the level and attributes of the error entry or validation that produced the error, with the code and message of its status; other errors are logged at the error level.", "quantifier": "all errors with any wrapping", "why_tests_cant": "wrapping of any depth", "anchors": ["grpc/federation/error.go OutputErrorLog NewErrorWithLogAttrs ErrorWithLogAttrs"]}
{"id": "C79", "title": "Functions and methods of libraries are called by their names", "statement": "In expressions, `pkg.f(args)` calls the function `pkg.f` of the libraries or plugins with the context of the request, and `value.f(args)` calls the method `f`, whatever other functions and methods share the short name; compiling an expression a second time does not change its calls.", "quantifier": "all lists of declarations in any order, all expressions, all packages", "why_tests_cant": "any nesting of calls, any set of libraries", "anchors": ["grpc/federation/cel/bind.go BindFunction BindMemberFunction", "grpc/federation/cel/conv.go toSelectorName", "grpc/federation/cel/lib.go NewLibrary", "grpc/federation/cel.go createCELAst"]}
{"id": "C80", "title": "What the generator accepts works in the server", "statement": "An expression that the generator accepts compiles in the server, and calls the same functions and methods.", "quantifier": "all library declarations, all plugins, all expressions, all packages", "why_tests_cant": "any nesting of calls, any set of plugins", "anchors": ["resolver/resolver.go createCELEnv createMessageCELEnv", "resolver/cel.go CompileOptions", "grpc/federation/cel.go NewDefaultEnvOptions", "grpc/federation/cel/plugin.go CompileOptions", "generator/templates/server.go.tmpl"]}
{"id": "C81", "title": "Variables and fields keep their types in expressions", "statement": "A variable defined by an expression has the type of the expression, a field of a message has its own type, and passing a value through any number of definitions keeps the type, up to the width of numbers.", "quantifier": "all types of resolver and CEL at any nesting, all chains of definitions", "why_tests_cant": "types nested to any depth, chains of any length", "anchors": ["resolver/cel.go ToCELType FindStructFieldType LookupEnum", "resolver/resolver.go fromCELType resolveVariableExprCELValues resolveMapExprCELValues"]}
{"id": "C82", "title": "Arguments and variables can be used by their names", "statement": "All arguments passed to a message can be used as `$.name` with their types, and all environment and service variables under their names with their types; nothing else can.", "quantifier": "all schemas, arguments and variables of any types, any number of callers", "why_tests_cant": "any number of files, fields and callers", "anchors": ["resolver/resolver.go messageArgumentFileDescriptor dynamicMsgFileDescriptor messageToDescriptor toMapEntryName resolveEnvVar resolveMessageArgumentRecursive", "resolver/cel.go RegisterFiles registerFileDeps FindStructFieldType"]}
{"id": "C83", "title": "Oneofs can be used by their name", "statement": "In an expression, `m.o` for a oneof whose fields all have the same type is the value of the field the oneof holds, with that type; other oneofs are rejected.", "quantifier": "all messages with any oneofs, all services, all values", "why_tests_cant": "any number of messages, oneofs and fields", "anchors": ["resolver/cel.go FindStructFieldType", "resolver/oneof.go IsSameType", "resolver/message.go Oneof", "generator/code_generator.go OneofTypes toMakeZeroValue", "generator/templates/server.go.tmpl", "grpc/federation/cel.go FindStructFieldType NewOneofSelectorFieldType"]}
{"id": "C84", "title": "enum.select is the chosen enum", "statement": "`grpc.federation.enum.select(c, a, b)` is a if c is true and b otherwise, at any nesting, converted to the enum it is assigned to; an enum definition is the converted value of its expression, and a map that builds enums the list of the converted values for the elements of its source, in their order.", "quantifier": "all expressions with any nesting of select, all conditions and values, all conversions", "why_tests_cant": "any nesting", "anchors": ["grpc/federation/cel/enum.go", "generator/code_generator.go createEnumSelectorParam EnumCastFunc MapResolver.EnumCastFunc", "resolver/type_conversion.go enumSelectorTypeConversionDecls", "resolver/message.go TypeConversionDecls", "generator/templates/eval.go.tmpl setEnumValueByEnumSelector", "resolver/resolver.go resolveEnumExprCELValues createEnumAccessors"]}
{"id": "C85", "title": "Variables have the same types in the generator and in the server", "statement": "A variable, argument or iterator has the CEL type in the server that the generator checked its expressions with, and the Go type protobuf has for it.", "quantifier": "all types at any nesting", "why_tests_cant": "types nested to any depth", "anchors": ["generator/code_generator.go toCELTypeDeclare toTypeText toMakeZeroValue toCELNativeType IteratorCELType IteratorType", "resolver/cel.go ToCELType", "grpc/federation/alias.go"]}
{"id": "C86", "title": "Warnings about imports are right", "statement": "An import of the option is reported as unused exactly if nothing of its package is used by the options of the file; an import statement is reported exactly if only the options of this project need it.", "quantifier": "all files with any services, messages, enums, definitions, errors and expressions at any nesting, all imports", "why_tests_cant": "any number of declarations, expressions nested to any depth", "anchors": ["resolver/resolver.go validateFileImport lookupPackageNameMapFromFile lookupPackage", "resolver/conv.go ToIdentifiers"]}
{"id": "C87", "title": "Every problem is shown", "statement": "A problem found in a file is shown by the linter, the protoc plugin, the generator and the editor, with its file, line and column and the source line, and the exit code tells whether there was one.", "quantifier": "all lists of problems, all files and positions, all graphs of imports", "why_tests_cant": "any number of problems, lines and files", "anchors": ["resolver/resolver.go Resolve", "resolver/error.go", "validator/validator.go", "cmd/grpc-federation-linter/main.go", "generator/generator.go CreateCodeGeneratorResponse compileProto createGRPCFederationFiles", "lsp/server/validator.go"]}
{"id": "C88", "title": "The right files are compiled", "statement": "The file that is edited or generated from is compiled with the text it has in the editor, each import is the file of that name below the first import path that has one, and the result holds every file reachable by imports exactly once, after the files it imports.", "quantifier": "all paths, import paths, working directories, contents of the disk and graphs of imports", "why_tests_cant": "any number of files and import paths, paths of any depth", "anchors": ["compiler/compiler.go Compile RelativePathFromImportPaths getProtoFiles", "resolver/resolver.go findProto compileProto"]}
{"id": "C89", "title": "The editor shows the problems of the current text", "statement": "After an edit, the problems of the text that is in the editor are shown, and problems that were fixed disappear, in whatever order the checks of earlier edits finish.", "quantifier": "all histories of opened, changed and closed documents, all interleavings of the checks", "why_tests_cant": "any number of edits and checks running at the same time", "anchors": ["lsp/server/text_document_sync.go", "lsp/server/util.go", "lsp/server/validator.go", "lsp/server/handler.go", "validator/validator.go"]}
{"id": "C90", "title": "Go to definition leads to the definition", "statement": "In the editor, going to the definition of a type, a method or an import opens the file that declares it at its declaration.", "quantifier": "all documents, imported files with any nesting of declarations, import paths and contents of the disk", "why_tests_cant": "any number of files, declarations nested to any depth", "anchors": ["lsp/server/definition.go findTypeDefinition findMethodDefinition findImportFileDefinition typeAndFilePath methodAndFilePath getDeclaredTypeNames currentPackageName filePathFromFileDescriptorProto", "lsp/server/definition.go definitionWithLink isImportNameDefinition isMessageNameDefinition isTypeAlias isFieldType isMethodNameDefinition", "lsp/server/definition.go definition toLocationLinks toLocation"]}
{"id": "C91", "title": "A problem is shown at the element it is about", "statement": "The location of a problem, for example the condition of the second definition of a message, leads to that value in the source of the file; if the value is not written, to the literal it is missing in.", "quantifier": "all files with any declarations and options nested to any depth, all parts a location can name", "why_tests_cant": "any number of declarations and definitions, any nesting of messages, definitions and errors", "anchors": ["source/file.go NodeInfoByLocation nodeInfoByMessage nodeInfoByField nodeInfoByEnum nodeInfoByService nodeInfoByDef nodeInfoByCallExpr nodeInfoByGRPCError nodeInfoByGRPCErrorDetail ImportsByImportRule optionValuesByImportRule matchOption", "source/location.go"]}
{"id": "C92", "title": "The type of a field leads to the declared message", "statement": "Whatever files refer to each other in whatever way, resolving them ends; the type of every field leads to the message that is declared, known by its full name and with its option, and each message is one object.", "quantifier": "all sets of files with messages nested to any depth and any references between them, all orders of resolving them", "why_tests_cant": "any number of messages, any cycles of references", "anchors": ["resolver/resolver.go resolveMessage resolveFields resolveField resolveType resolveFile resolveCELPlugin resolveMessageRules", "resolver/message.go ParentMessageNames", "resolver/fqdn.go", "source/location_builder.go ToLazyMessageBuilder MessageBuilder.WithMessage"]}
{"id": "C93", "title": "Times in expressions are those of Go", "statement": "A time in an expression is the instant and the zone that Go's package time gives for the same calls: every function called on it (hour, format, isDST, ...) tells what Go's function tells.", "quantifier": "all expressions of time functions nested to any depth, all instants, all zones with any changes of offset", "why_tests_cant": "any nesting of calls, all instants and zones", "anchors": ["grpc/federation/cel/time.go GoTime GoLocation toTimeValue CompileOptions"]}
{"id": "C94", "title": "Functions of the string library are those of Go", "statement": "Each documented function of the string library calls Go's function of that name with the arguments it is given and gives its result or its error; values do not change afterwards.", "quantifier": "all functions and overloads of the library, all arguments, all sequences of appends", "why_tests_cant": "all texts and numbers, any number of appends", "anchors": ["grpc/federation/cel/strings.go CompileOptions", "docs/cel/strings.md"]}
{"id": "C95", "title": "URLs in expressions are those of Go", "statement": "A URL in an expression is the one that Go's package net/url gives for the same calls, and every function tells about it what Go tells.", "quantifier": "all expressions of URL functions nested to any depth, all texts", "why_tests_cant": "any nesting of calls, all texts", "anchors": ["grpc/federation/cel/url.go GoURL GoUserinfo toURLValue toUserinfoValue CompileOptions"]}
{"id": "C96", "title": "Random numbers depend on the seed", "statement": "The numbers of a random source depend only on its seed and on the functions called on it so far; comparing values does not change them.", "quantifier": "all sequences of evaluations with any number of sources and generators sharing them", "why_tests_cant": "any number of sources and evaluations", "anchors": ["grpc/federation/cel/rand.go Source Rand Equal CompileOptions"]}
{"id": "C97", "title": "The tree of dependencies shows what waits for what", "statement": "The comment of a generated function shows every definition on a line of its own, with its name before a corner in the column of the definition that waits for it, all corners of one definition joined by bars; the dependencies can be read back from it.", "quantifier": "all sets of definition groups, nested to any depth and with any names", "why_tests_cant": "any number of groups, any depth, any lengths of names", "anchors": ["resolver/format.go DependencyGraphTreeFormat treeFormat treeFormatByVariableDefinitionGroup setTextMaxLength setupIndent lineIndents", "generator/code_generator.go VariableDefinitionSet.DependencyGraph"]}
{"id": "C98", "title": "A method answers with the message made of its request", "statement": "The function generated for a method resolves the message of its option `response`, else its response, with the fields of the request as arguments, converts it to the response, and does so within its timeout.", "quantifier": "all methods of all services, all requests and all orders in which the map of methods is walked", "why_tests_cant": "any number of methods and fields, all orders of a map", "anchors": ["resolver/resolver.go resolveMethodRule validateMethodResponse resolveMessageArgument lookupRequestMessageFromResponseMessage", "resolver/method.go FederationResponse", "generator/templates/server.go.tmpl", "generator/code_generator.go Method.UseTimeout CustomResponse ResolverName ReturnTypeArguments"]}
{"id": "C99", "title": "A plugin has the functions that are declared", "statement": "For each function that the option of a plugin declares, its Go interface has a method of its own with the declared arguments and result, and the generated handler compiles.", "quantifier": "all declared functions with types nested to any depth, all numbers of overloads", "why_tests_cant": "types nested to any depth, any number of functions and overloads", "anchors": ["resolver/resolver.go resolvePluginType resolvePluginFunctionArguments resolvePluginFunctionArgumentsAndReturn resolvePluginMethod resolvePluginGlobalFunction", "generator/code_generator.go CELFunction.GoName CELFunctionArgument.Converter CELFunctionReturn.Converter PluginFunctions toTypeText", "generator/templates/plugin.go.tmpl", "grpc/federation/cel_plugin.go"]}
{"id": "C100", "title": "The result does not depend on the schedule", "statement": "However the evaluations of a message's definitions are interleaved, a request that is not cancelled ends with the values that evaluating the definitions one after the other in the order of their declaration gives, or fails if that fails; and it always ends.", "quantifier": "all accepted lists of definitions, all evaluations, all interleavings of goroutines, all values", "why_tests_cant": "every interleaving; any number of definitions, all values", "anchors": ["grpc/federation/cel.go LocalValue getEvalValues setEvalValue evalDef EvalDef", "generator/templates/server.go.tmpl message_value def groups", "resolver/graph.go"]}
{"id": "C101", "title": "Messages are logged field by field", "statement": "The generated code has one function for each message, argument, enum, list and map that it logs; these functions compile, and what they log has all fields of a message under their names, the elements of lists under their indices, the entries of maps under their keys, and enums by name.", "quantifier": "all sets of messages, including those that contain themselves, all names and all values", "why_tests_cant": "messages that refer to each other in any way, values nested to any depth", "anchors": ["generator/code_generator.go LogValues setLogValueByMessage setLogValueByMapMessage setLogValueByMessageArgument setLogValueByEnum setLogValueByRepeatedType logType logValue logMapValue msgArgumentLogValue logValueFuncName newTypeDeclaresWithMessage", "generator/templates/server.go.tmpl"]}
{"id": "C102", "title": "A request or a message gets the values given for its fields", "statement": "The request of a call has, in every field, the last value given for it whose condition holds, in a oneof the last one given for any of its members, and nothing else; a message gets as arguments the values given by name and the fields of inlined messages; the generated code compiles, and nothing is called if an expression fails.", "quantifier": "all requests and arguments of any types, all values, conditions and errors of expressions", "why_tests_cant": "any number of fields and arguments, types nested to any depth, all values", "anchors": ["resolver/resolver.go resolveRequest validateRequestFieldType isDifferentType", "resolver/message.go TypeConversionDecls", "resolver/type_conversion.go typeConversionDecls requiredTypeConversion", "generator/code_generator.go argument castFunc requiredCast castName", "generator/templates/eval.go.tmpl setCELArgument setArgumentBySetter setArgument", "grpc/federation/cel.go SetCELValue If EvalCEL"]}
{"id": "C103", "title": "A request is answered as its definitions say", "statement": "However the goroutines of a message and of all the messages that are resolved for it, to any depth, are scheduled, a request that is not cancelled is answered with what evaluating the definitions of each message one after the other in the order of their declaration gives, conditions, maps and nested messages included, and fails exactly if that fails; it can always end.", "quantifier": "all programs whose messages do not use themselves, all arguments, all schedules of all messages at once", "why_tests_cant": "every interleaving at every level; any number of messages, definitions and elements, any depth", "anchors": ["generator/templates/server.go.tmpl", "generator/templates/eval.go.tmpl", "grpc/federation/cel.go evalDef evalDefMap evalMap", "resolver/graph.go"]}
{"id": "C104", "title": "Texts of options reach the server unchanged", "statement": "The strings that options contain, expressions, conditions, names, locales and texts of error details, are written into the generated Go file so that the Go compiler reads exactly these strings in the fields they belong to, and the comments that show the options are read as comments.", "quantifier": "all strings of all options, all lists of parts of a file", "why_tests_cant": "all strings of any length", "anchors": ["resolver/format.go VariableDefinition.ProtoFormat VariableExpr.ProtoFormat CallExpr.ProtoFormat MapExpr.ProtoFormat MessageExpr.ProtoFormat EnumExpr.ProtoFormat ValidationExpr.ProtoFormat GRPCError.ProtoFormat GRPCErrorDetail.ProtoFormat Argument.ProtoFormat Value.ProtoFormat FieldRule.ProtoFormat", "generator/templates/eval.go.tmpl", "generator/templates/error_handler.go.tmpl", "generator/templates/validation.go.tmpl", "resolver/resolver.go resolvePreconditionFailureViolations resolveBadRequestFieldViolations resolveLocalizedMessages resolveGRPCErrorIf"]}
{"id": "C105", "title": "Environment variables are read as declared", "statement": "A server reads each environment variable it declares under its name in capital letters, or under the alternate name given, takes the default if it is not set, does not read ignored ones and does not start if a required one is missing or a value has not the declared type.", "quantifier": "all declarations of variables, all names and options, all environments", "why_tests_cant": "all names and defaults of any length, any number of variables, all environments", "anchors": ["resolver/resolver.go resolveEnv resolveEnvVar resolveEnvVarOption resolveEnvVarWithField", "generator/code_generator.go EnvVar.Tag", "generator/templates/server.go.tmpl", "grpc/federation/alias.go LoadEnv"]}
{"id": "C106", "title": "Functions on enums give what the enum declares", "statement": "`attr` gives the attribute written at the value of that number, `name` and `value` give the name of a number and the number of a name, and a set of attributes is accepted only if every value of the enum has each of them; the generated tables compile.", "quantifier": "all enums with any values, numbers and attributes, all arguments of the functions", "why_tests_cant": "any number of values and attributes, all numbers and strings", "anchors": ["resolver/resolver.go resolveEnumRules resolveEnumValueRule resolveEnumValueAttributes resolveEnumValueAttribute", "resolver/enum.go AttributeMap", "generator/code_generator.go EnumAttributes", "generator/templates/server.go.tmpl", "grpc/federation/cel.go EnumAccessorOptions EnumAttrOption"]}
{"id": "C107", "title": "A server starts exactly if it is configured and its checks pass", "statement": "`New` gives a server exactly if all parts of the configuration that it needs are set, every client can be made, every plugin can be loaded and is valid, the environment can be read, and the service's variables evaluated in their order pass all checks; it has the clients of the services it depends on, and after the cleanup function, or if `New` fails, no plugin instance runs.", "quantifier": "all services, configurations, client factories, plugins, environments and variables", "why_tests_cant": "any number of services, plugins and variables, all outcomes of all calls", "anchors": ["generator/templates/server.go.tmpl New Cleanup initServiceVariables", "generator/templates/eval.go.tmpl", "generator/code_generator.go VariableDefinition.VarFieldName"]}
{"id": "C108", "title": "Variables of the generated code are declared and used", "statement": "In the code of a message every definition is assigned to a field of the local struct that exists, has the type of the definition and is no other definition's field; variables passed to custom resolvers are fields of both structs with one type; and the local variable that holds them is declared exactly if it is used, so that the Go compiler accepts the code.", "quantifier": "all messages with all nestings of definitions, error entries, details and oneof fields", "why_tests_cant": "definitions nested to any depth, all names and types", "anchors": ["resolver/message.go VariableDefinitionGroups AllVariableDefinitions HasCELValue", "resolver/def.go GRPCError.DefinitionGroups", "generator/code_generator.go DeclVariables IsDeclVariables CustomResolverArguments ReturnFields", "generator/templates/server.go.tmpl", "generator/templates/eval.go.tmpl", "generator/templates/error_handler.go.tmpl", "generator/templates/validation.go.tmpl"]}
{"id": "C109", "title": "What the language server finds at a position is written there", "statement": "For a position in a file the language server finds the import, message option, definition, argument, request field, expression, field type, alias or timeout that is written there, and the element the found location names contains the position; completion and the search of definitions start from it.", "quantifier": "all files, all layouts of their nodes, all positions", "why_tests_cant": "files of any size and nesting, all positions", "anchors": ["source/file.go FindLocationByPos containsPos findMessageByPos findFieldByPos findMessageOptionByPos findDefByPos findCallExprByPos findMethodRequestByPos findMessageExprByPos findMessageArgumentByPos findEnumByPos findServiceByPos buildLocation NodeInfoByLocation", "lsp/server/definition.go", "lsp/server/completion.go"]}
{"id": "C110", "title": "The tokens the editor reads are those of the file", "statement": "The numbers the language server sends for a file, read as the protocol says, give for every comment, keyword, name and part of an expression the position at which it is written, its length, its type and its modifiers; names of messages are shown as types and other names as variables.", "quantifier": "all files with all layouts of tokens, comments and expressions, all legends of clients", "why_tests_cant": "files of any size, all positions, all legends", "anchors": ["lsp/server/semantic_tokens.go SemanticTokens calcLineAndCol setFederationOptionTokens setNameToken setMethodToken setEnumToken setFieldToken setAliasToken setCELSemanticTokens VisitExpr", "lsp/server/general.go initialize"]}
{"id": "C111", "title": "A reference to a message leads to the message of the file", "statement": "Every message of the proto files is represented once: the message a field refers to is the one whose options are resolved, so that aliases, custom resolvers and rules written in the file hold for every reference; the resolution ends for all files, also if messages refer to themselves and to each other, and does not panic.", "quantifier": "all sets of files with any nesting and any references between messages, all orders of files, methods and plugins", "why_tests_cant": "any number of messages, any cycles of references", "anchors": ["resolver/resolver.go resolveMessage resolveFields resolveField resolveType resolveFile resolveMessageRules findMessageAliasName resolveCELPlugin", "source/location_builder.go ToLazyMessageBuilder MessageBuilder.WithMessage MessageBuilder.WithField"]}
{"id": "C112", "title": "A request calls the services its definitions say", "statement": "Which methods of which services are called for a request that is answered, and with which requests, does not depend on how its definitions and those of the messages resolved for it are scheduled: they are the calls that the definitions make one after the other, each made as often as its definition says, no more.", "quantifier": "all programs of messages with any nesting, all requests, all interleavings of evaluations at all levels", "why_tests_cant": "all programs, schedules at every level of nesting", "anchors": ["generator/templates/eval.go.tmpl", "generator/templates/server.go.tmpl", "grpc/federation/cel.go evalDef evalDefMap evalMap", "resolver/message_graph.go VariableDefinitionGroups"]}
{"id": "C113", "title": "A location says what the calls of its builder say", "statement": "The location that a chain of builder calls gives names the parts of the file that the calls name, with the names and indices given to them, and nothing else; the same builder can start any number of chains, a location taken from a builder never changes later, and no call panics.", "quantifier": "all programs of any number of builders and calls, all chains, all parts of locations", "why_tests_cant": "chains of any length that share builders in any way", "anchors": ["source/location_builder.go", "source/clone.go", "source/location.go Location"]}
{"id": "C114", "title": "A mistake in a file never crashes the tool", "statement": "Whatever parts of a definition are missing or wrong, as they are while a file is being written, the resolver reports errors; it does not panic, so that the language server, the linter and the generator go on.", "quantifier": "all messages with all nestings of definitions, error entries, details and oneof fields, and all lists of variables of services, with any parts of them missing; all checkers of expressions, all declared messages and methods", "why_tests_cant": "definitions nested to any depth, any combination of missing parts", "anchors": ["resolver/resolver.go resolveVariableDefinitions resolveVariableExpr resolveMapIterator resolveMessageExpr resolveMessageExprArgument resolveValidationExpr resolveGRPCError resolveGRPCErrorDetails resolveVariableDefinitionCELValues resolveMapExprCELValues resolveMapIteratorExprCELValues resolveMessageExprCELValues validateMessageDependencyArgumentName resolveAutoBindFields resolveMessageDependencies resolveServiceVariables resolveServiceVariable", "resolver/message.go UseAllNameReference", "resolver/graph.go setupVariableDependencyByReferenceName", "resolver/def.go MessageToDefsMap MessageExprs"]}
{"id": "C115", "title": "Generated code uses the names that the Go code of the proto files has", "statement": "The generated Go file refers to the messages, enums, enum values, fields, getters, wrappers of oneof fields, clients and methods of the proto files by the names that protoc-gen-go and protoc-gen-go-grpc give them, qualified by a name under which their package is imported, so that it compiles.", "quantifier": "all names and nestings of messages and enums, all lists of fields and oneofs, all sets of imported packages", "why_tests_cant": "all proto names with any underscores and capitals, any nesting, any clashes between names", "anchors": ["generator/code_generator.go messageTypeToText enumTypeToText oneofTypeToText toEnumValueText CastOneofWrapper RequestType ReturnType ClientType ClientConstructor", "resolver/oneof.go IsConflict", "util/string.go ToPublicGoVariable"]}
{"id": "C116", "title": "What completion offers can be written", "statement": "The language server offers completions for the message at the cursor; every message name that it offers leads to a message, every method name to its method, every keyword to a field of the option and every value to a type that the field takes, and accepting one gives the candidate and leaves the rest of the line as it was.", "quantifier": "all paths and sets of files, all packages, all sets of messages and methods, all types, all lines, texts and candidates", "why_tests_cant": "any nesting of packages and names, texts of any length", "anchors": ["resolver/candidates.go Candidates candidatesMethodName candidatesMessageName Filter", "lsp/server/completion.go completion", "resolver/resolver.go resolveMessageByName"]}
{"id": "C117", "title": "A custom resolver is given every variable of its message", "statement": "If a message or one of its fields is implemented in Go, the custom resolver is passed every value that a `def` of the message retrieves: the argument has a field for the variable, with its type and the value to which the definition evaluates, whether or not an expression reads the variable.", "quantifier": "all messages with all lists and nestings of definitions and fields, all names, types, arguments and expressions", "why_tests_cant": "any number of definitions, nested error entries, any set of names that expressions read", "anchors": ["resolver/message.go UseAllNameReference HasCustomResolver HasCustomResolverFields", "resolver/def.go MarkUsed", "resolver/resolver.go resolveMessageRules resolveAutoBindFields resolveUsedNameReference", "generator/code_generator.go toDeclTypes CustomResolverArguments", "generator/templates/server.go.tmpl"]}
{"id": "C118", "title": "A sort that is accepted can compare its keys", "statement": "`sortAsc`, `sortDesc`, `sortStableAsc` and `sortStableDesc` by a key whose values have no order are reported before code is generated, each once and wherever the sort is in the expression; the sorts of an expression without such a report never crash and put elements in the order of their keys.", "quantifier": "all expressions with sorts at any depth and in any chain, all key types, all lists of key values, all sorting algorithms and both directions", "why_tests_cant": "any nesting and chain of sorts, any list and any sequence of comparisons of the algorithm", "anchors": ["grpc/federation/cel/list.go listValidator.Validate makeSort sortRefVal", "grpc/federation/cel/lib.go NewASTValidators"]}
{"id": "C119", "title": "Log lines have everything that is logged", "statement": "`log.debug`, `log.info`, `log.warn` and `log.error` output one line with their level and message, whose attributes are those of the context, all that `log.add` added before, and the entries of the argument; everything inside lists and maps of the argument, at any depth, is in the line on the path that leads to it, and nothing else is; all five return true.", "quantifier": "all values with lists and maps of any depth, all keys, all sequences of calls in a context, all orders in which a map is iterated", "why_tests_cant": "any nesting, any keys, any history of calls", "anchors": ["grpc/federation/cel/log.go log expandVal add debug info warn error", "grpc/federation/log/context.go Logger AddAttrs"]}
{"id": "C120", "title": "Conversions of messages with oneofs compile", "statement": "When the generator converts values between two messages that have oneofs or optional fields, the generated conversion functions compile, and the generator does not crash.", "quantifier": "all schemas, also recursive ones, with any number of messages, fields and oneofs, and all conversions a service needs", "why_tests_cant": "whether a function compiles depends on the fields of all messages reached through the converted ones; the examples only have oneofs of messages of different packages", "anchors": ["resolver/type_conversion.go typeConversionDecls requiredTypeConversion", "generator/code_generator.go CastField ToStruct ToOneof CastOneofWrapper", "generator/templates/cast.go.tmpl castMessage castOneof"]}
{"id": "C121", "title": "The code that sets a field compiles", "statement": "If the value given for a field of a message, by an expression, by autobind, or by the option of a member of a oneof, is accepted, then the code that is generated to convert and assign it compiles, and the conversion it calls is generated.", "quantifier": "all types of values and fields, all schemas of maps, aliases and wrappers", "why_tests_cant": "all pairs of types, with lists, maps and members of oneofs on both sides", "anchors": ["generator/code_generator.go celValueToReturnField autoBindFieldToReturnField oneofValueToReturnField", "generator/templates/server.go.tmpl setReturnValueBySetter setReturnValueByAutoBind setReturnValueByOneofField", "resolver/field.go RequiredTypeConversion SourceTypes", "resolver/resolver.go validateBindFieldType"]}
{"id": "C122", "title": "A declared error has the declared code and log level", "statement": "A call or validation that fails with an error of the options fails with exactly the code declared there, and is logged at exactly the level declared there (ERROR if none).", "quantifier": "all lists of declared errors, codes, levels and failures", "why_tests_cant": "codes and levels pass through texts and constants of generated code; lists of any length; names of any length", "anchors": ["resolver/resolver.go resolveGRPCErrorLogLevel resolveGRPCError", "generator/code_generator.go GoGRPCStatusCode LogLevelValue", "generator/templates/error_handler.go.tmpl", "generator/templates/validation.go.tmpl", "grpc/federation/alias.go OKCode"]}
{"id": "C123", "title": "`has` tells whether an argument has a value", "statement": "In every expression of a message, `$.x` is accepted exactly for the arguments and is the value of the argument, and `has($.x)` is true exactly if it has a value; the same for environment and service variables.", "quantifier": "all structs of arguments with any number of fields, all values", "why_tests_cant": "arguments are read by reflection, so the compiler checks nothing; any number of structs, fields and values", "anchors": ["grpc/federation/cel.go NewCELFieldType FindStructFieldType FindStructFieldNames FindStructType", "generator/templates/server.go.tmpl CELTypeHelperFieldMap"]}
{"id": "C124", "title": "The values of all fields of a message are checked", "statement": "A message is accepted exactly if each of its fields has an option and every value that the option binds to it is accepted for it; for a field of an enum, exactly the values of that enum and of its aliases are accepted, and if the enum has several aliases an expression has to be of the enum itself or use `enum.select`.", "quantifier": "all messages with any number of fields, all types of values, calls of enum.select nested to any depth", "why_tests_cant": "any number of fields and aliases, all pairs of types, any nesting of calls", "anchors": ["resolver/resolver.go validateMessageFields validateEnumMultipleAliases validateBindFieldType validateBindFieldEnumSelectorType"]}
{"id": "C125", "title": "Expressions and plugins see the metadata of the request", "statement": "grpc.federation.metadata.incoming() has exactly the keys of the metadata of the request, each with the values that were sent with it in their order; the function of a plugin finds the same metadata in its context.", "quantifier": "all metadata with any number of keys and values, all orders in which Go visits a map", "why_tests_cant": "Go visits maps in a random order; any number of keys, values and bytes", "anchors": ["grpc/federation/cel/metadata.go CompileOptions", "grpc/federation/cel/plugin.go CompileOptions Call sendRequest", "grpc/federation/cel_plugin.go DecodeCELPluginRequest", "generator/templates/plugin.go.tmpl"]}
