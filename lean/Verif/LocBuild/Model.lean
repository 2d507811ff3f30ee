/-!
# Builders of locations

Models `source/location_builder.go` and `source/clone.go`: how the resolver makes the locations of problems, step by step.

A location is a tree of structures linked by pointers (`source/location.go` lines 4-326).  The structures are in a heap, so that
sharing and later changes are in the model.  A structure has what its builder is given (an index, a name), flags, and pointers.
The strings and numbers that are not given to a builder step are left out.
-/

namespace Verif.LocBuild

/-- The structures of `source/location.go` lines 4-326, in their order there. -/
inductive Kind where
  | location | export | wasm | pluginType | pluginFunction | pluginArg | service | method | serviceOption | env | envVar | envVarOption
  | svcVar | svcValidation | methodOption | enum | enumOption | enumValue | enumValueOption | attr | message | field | fieldOption
  | fieldOneof | oneof | messageOption | varDef | mapExpr | iterator | call | messageExpr | enumExpr | request | retry | retryConstant
  | retryExponential | argument | validation | grpcError | detail | precondition | badRequest | localized
deriving DecidableEq

/-- The fields of these structures. -/
inductive Fld where
  | alias | alternate | args | attr | badRequest | «by» | call | code | constant | «def» | default | detail | enum | env | error
  | exponential | export | field | functions | goPackage | idx | «if» | ignore | ignoreAndResponse | ignored | importName
  | initialInterval | inline | interval | iterator | localizedMessage | map | maxInterval | message | method | methods | name
  | nestedMessage | oneof | option | preconditionFailure | request | required | response | retry | returnType | service | sha256 | source
  | timeout | type | types | url | validation | value | var | wasm
deriving DecidableEq

/-- What a step is given: nothing, an index, a name, or an index and the place in it. -/
inductive Arg where
  | none
  | idx (i : Nat)
  | name (s : String)
  | idxName (i : Nat) (s : String)
  | violation (i j : Nat) (s : String)
deriving DecidableEq

/-- A structure: what it was given, its flags (a name for `ImportName`), and its pointers. -/
structure Node where
  kind : Kind
  arg : Arg
  val : Fld → Option Arg
  kid : Fld → Option Nat

abbrev Heap := List Node

/-- The fields other than pointers that `Clone` copies, `source/clone.go`.  `name` also stands for `FileName` of a location, `Value` of
an enum value and the violations and field names of details. -/
def copied : Kind → List Fld
  | .location => [.name, .goPackage]                                   -- lines 3-15
  | .export => [.name]                                                 -- lines 17-27
  | .wasm => [.url, .sha256]                                           -- lines 29-37
  | .pluginType => [.idx, .name]                                       -- lines 39-48
  | .pluginFunction => [.idx, .name, .returnType]                      -- lines 50-60
  | .pluginArg => [.idx, .type]                                        -- lines 62-70
  | .service => [.name]                                                -- lines 72-81
  | .method => [.name, .request, .response]                            -- lines 83-93
  | .serviceOption => []                                               -- lines 95-103
  | .env => [.message]                                                 -- lines 105-113
  | .envVar => [.idx, .name, .type]                                    -- lines 115-125
  | .envVarOption => [.alternate, .default, .required, .ignored]       -- lines 127-137
  | .svcVar => [.idx, .name, .if, .by]                                 -- lines 139-153
  | .svcValidation => [.if, .message]                                  -- lines 155-163
  | .methodOption => [.timeout, .response]                             -- lines 165-173
  | .enum => [.name]                                                   -- lines 175-184
  | .enumOption => [.alias]                                            -- lines 186-193
  | .enumValue => [.name]                                              -- lines 195-203
  | .enumValueOption => [.alias, .default]                             -- lines 205-214
  | .attr => [.idx, .name, .value]                                     -- lines 216-225
  | .message => [.name]                                                -- lines 227-239
  | .field => [.name]                                                  -- lines 241-249
  | .fieldOption => [.by, .alias]                                      -- lines 251-260
  | .fieldOneof => [.if, .default, .by]                                -- lines 262-272
  | .oneof => [.name]                                                  -- lines 274-282
  | .messageOption => [.alias]                                         -- lines 291-299
  | .varDef => [.idx, .name, .if, .by]                                 -- lines 301-316
  | .mapExpr => [.by]                                                  -- lines 318-328
  | .iterator => [.name, .source]                                      -- lines 330-338
  | .call => [.method, .timeout]                                       -- lines 340-351
  | .messageExpr => [.name]                                            -- lines 353-361
  | .enumExpr => [.name, .by]                                          -- lines 363-371
  | .request => [.idx, .field, .by]                                    -- lines 373-382
  | .retry => []                                                       -- lines 384-392
  | .retryConstant => [.interval]                                      -- lines 394-402
  | .retryExponential => [.initialInterval, .maxInterval]              -- lines 404-415
  | .argument => [.idx, .name, .by, .inline]                           -- lines 417-427
  | .validation => [.name]                                             -- lines 429-437
  | .grpcError => [.idx, .if, .code, .message, .ignore]                -- lines 439-452
  | .detail => [.idx, .if]                                             -- lines 454-467
  | .precondition => [.idx, .name]                                     -- lines 469-477
  | .badRequest => [.idx, .name]                                       -- lines 479-487
  | .localized => [.idx, .name]                                        -- lines 489-497

/-- The pointers that `Clone` follows, `source/clone.go`, with the lines of `copied`; the pointer of a oneof, line 280, is never set. -/
def followed : Kind → List Fld
  | .location => [.export, .service, .message, .enum]
  | .export => [.wasm, .types, .functions]
  | .pluginType => [.methods]
  | .pluginFunction => [.args]
  | .service => [.method, .option]
  | .method => [.option]
  | .serviceOption => [.env, .var]
  | .env => [.var]
  | .envVar => [.option]
  | .svcVar => [.map, .message, .enum, .validation]
  | .enum => [.option, .value]
  | .enumValue => [.option]
  | .enumValueOption => [.attr]
  | .message => [.option, .field, .enum, .oneof, .nestedMessage]
  | .field => [.option]
  | .fieldOption => [.oneof]
  | .fieldOneof => [.def]
  | .messageOption => [.def]
  | .varDef => [.map, .call, .message, .enum, .validation]
  | .mapExpr => [.iterator, .message, .enum]
  | .call => [.request, .retry, .error]
  | .messageExpr => [.args]
  | .retry => [.constant, .exponential]
  | .validation => [.error]
  | .grpcError => [.def, .detail]
  | .detail => [.def, .message, .preconditionFailure, .badRequest, .localizedMessage]
  | _ => []

/-- What a structure was given, after `Clone`: `Idx` and `Name` are fields like others, `source/clone.go` lines 3-497. -/
def keepArg (k : Kind) : Arg → Arg
  | .none => .none
  | .idx i => if .idx ∈ copied k then .idx i else .none
  | .name s => if .name ∈ copied k then .name s else .none
  | .idxName i s => if .idx ∈ copied k ∧ .name ∈ copied k then .idxName i s else .none
  | .violation i j s => if .idx ∈ copied k ∧ .name ∈ copied k then .violation i j s else .none

/-- The copies of the structures that the pointers lead to, one after the other, for example `source/clone.go` lines 9-13; a nil pointer
stays nil, for example lines 4-6. -/
def cloneKids (cl : Heap → Nat → Option (Heap × Nat)) (kid : Fld → Option Nat) : List Fld → Heap → Option (Heap × (Fld → Option Nat))
  | [], H => some (H, fun _ => none)
  | f :: fs, H =>
    match kid f with
    | none => cloneKids cl kid fs H
    | some a =>
      match cl H a with
      | none => none
      | some (H1, b) =>
        match cloneKids cl kid fs H1 with
        | none => none
        | some (H2, k) => some (H2, fun g => if g = f then some b else k g)

/-- `Clone`, `source/clone.go` lines 3-497, up to a depth. -/
def clone : Nat → Heap → Nat → Option (Heap × Nat)
  | 0, _, _ => none
  | n + 1, H, a =>
    match H[a]? with
    | none => none
    | some nd =>
      match cloneKids (clone n) nd.kid (followed nd.kind) H with
      | none => none
      | some (H1, kid) =>
        some (H1 ++ [⟨nd.kind, keepArg nd.kind nd.arg, fun f => if f ∈ copied nd.kind then nd.val f else none, kid⟩], H1.length)

/-- The names of the methods of builders. -/
inductive Meth where
  | withAlias | withAlternate | withArgs | withAttr | withBadRequest | withBy | withCall | withCode | withConstantInterval | withDef
  | withDefault | withDetail | withEnum | withEnv | withError | withExponentialInitialInterval | withExponentialMaxInterval | withExport
  | withField | withFunctions | withGoPackage | withIf | withIgnore | withIgnoreAndResponse | withIgnored | withImportName | withInline
  | withIteratorName | withIteratorSource | withLocalizedMessage | withMap | withMessage | withMethod | withMethods | withName | withOneof
  | withOption | withPreconditionFailure | withRequest | withRequired | withResponse | withRetry | withReturnType | withService
  | withSha256 | withTimeout | withType | withTypes | withURL | withValidation | withValue | withVar | withWasm
deriving DecidableEq

/-- The types of parameters. -/
inductive Sig where
  | none | idx | name | idxName | violation
deriving DecidableEq

/-- The type of what is given. -/
def Arg.sig : Arg → Sig
  | .none => .none
  | .idx _ => .idx
  | .name _ => .name
  | .idxName _ _ => .idxName
  | .violation _ _ _ => .violation

/-- What a method does to the structure its builder is for: set a field that is no pointer; set a pointer to a new structure with some
flags and stay; set a pointer to a new structure and go on with a builder for it; and the same with a function that keeps the new root
(`source/location_builder.go` line 420 has `root`, where the others have `loc`). -/
inductive Effect where
  | set (f : Fld)
  | put (f : Fld) (k : Kind) (flags : List Fld)
  | enter (f : Fld) (k : Kind)
  | capture (f : Fld) (k : Kind)

/-- The methods of the builder for a structure, `source/location_builder.go`; the lines of the first and of the last method. -/
def methods : Kind → List (Meth × Sig × Effect)
  | .location =>                                                       -- lines 33-91
    [(.withGoPackage, .none, .set .goPackage), (.withImportName, .name, .set .importName), (.withExport, .name, .enter .export .export),
     (.withService, .name, .enter .service .service), (.withEnum, .name, .enter .enum .enum), (.withMessage, .name, .enter .message .message)]
  | .export =>                                                         -- lines 102-136
    [(.withWasm, .none, .enter .wasm .wasm), (.withTypes, .idx, .enter .types .pluginType),
     (.withFunctions, .idx, .enter .functions .pluginFunction)]
  | .wasm => [(.withURL, .none, .set .url), (.withSha256, .none, .set .sha256)]                      -- lines 147-165
  | .pluginType => [(.withName, .none, .set .name), (.withMethods, .idx, .enter .methods .pluginFunction)] -- lines 176-196
  | .pluginFunction =>                                                 -- lines 207-237
    [(.withName, .none, .set .name), (.withReturnType, .none, .set .returnType), (.withArgs, .idx, .enter .args .pluginArg)]
  | .pluginArg => [(.withType, .none, .set .type)]                     -- lines 248-256
  | .service => [(.withMethod, .name, .enter .method .method), (.withOption, .none, .enter .option .serviceOption)] -- lines 267-289
  | .method =>                                                         -- lines 300-330
    [(.withRequest, .none, .set .request), (.withResponse, .none, .set .response), (.withOption, .none, .enter .option .methodOption)]
  | .methodOption => [(.withTimeout, .none, .set .timeout), (.withResponse, .none, .set .response)]  -- lines 341-359
  | .serviceOption => [(.withEnv, .none, .enter .env .env), (.withVar, .idx, .enter .var .svcVar)]   -- lines 370-392
  | .env => [(.withMessage, .none, .set .message), (.withVar, .idx, .capture .var .envVar)]          -- lines 403-423
  | .envVar =>                                                         -- lines 434-464
    [(.withName, .none, .set .name), (.withType, .none, .set .type), (.withOption, .none, .enter .option .envVarOption)]
  | .envVarOption =>                                                   -- lines 475-513
    [(.withAlternate, .none, .set .alternate), (.withDefault, .none, .set .default), (.withRequired, .none, .set .required),
     (.withIgnored, .none, .set .ignored)]
  | .svcVar =>                                                         -- lines 524-600
    [(.withName, .none, .set .name), (.withIf, .none, .set .if), (.withBy, .none, .set .by), (.withMap, .none, .enter .map .mapExpr),
     (.withMessage, .none, .enter .message .messageExpr), (.withEnum, .none, .enter .enum .enumExpr),
     (.withValidation, .none, .enter .validation .svcValidation)]
  | .svcValidation => [(.withIf, .none, .set .if), (.withMessage, .none, .set .message)]             -- lines 611-629
  | .enum => [(.withOption, .none, .put .option .enumOption [.alias]), (.withValue, .name, .enter .value .enumValue)] -- lines 640-660
  | .enumValue => [(.withOption, .none, .enter .option .enumValueOption)]                            -- lines 671-681
  | .enumValueOption =>                                                -- lines 692-722
    [(.withAlias, .none, .set .alias), (.withDefault, .none, .set .default), (.withAttr, .idx, .enter .attr .attr)]
  | .attr => [(.withName, .none, .set .name), (.withValue, .none, .set .value)]                      -- lines 733-751
  | .message =>                                                        -- lines 762-820
    [(.withMessage, .name, .enter .nestedMessage .message), (.withEnum, .name, .enter .enum .enum), (.withField, .name, .enter .field .field),
     (.withOption, .none, .enter .option .messageOption), (.withOneof, .name, .enter .oneof .oneof)]
  | .field => [(.withOption, .none, .enter .option .fieldOption)]      -- lines 861-871
  | .fieldOption =>                                                    -- lines 878-908
    [(.withBy, .none, .set .by), (.withAlias, .none, .set .alias), (.withOneof, .none, .enter .oneof .fieldOneof)]
  | .fieldOneof =>                                                     -- lines 919-959
    [(.withIf, .none, .set .if), (.withDefault, .none, .set .default), (.withBy, .none, .set .by), (.withDef, .idx, .enter .def .varDef)]
  | .varDef =>                                                         -- lines 970-1058
    [(.withName, .none, .set .name), (.withIf, .none, .set .if), (.withBy, .none, .set .by),
     (.withMessage, .none, .enter .message .messageExpr), (.withEnum, .none, .enter .enum .enumExpr), (.withCall, .none, .enter .call .call),
     (.withValidation, .none, .enter .validation .validation), (.withMap, .none, .enter .map .mapExpr)]
  | .messageExpr => [(.withName, .none, .set .name), (.withArgs, .idx, .enter .args .argument)]      -- lines 1069-1089
  | .enumExpr => [(.withName, .none, .set .name), (.withBy, .none, .set .by)]                        -- lines 1100-1118
  | .argument => [(.withName, .none, .set .name), (.withBy, .none, .set .by), (.withInline, .none, .set .inline)] -- lines 1129-1157
  | .messageOption => [(.withAlias, .none, .set .alias), (.withDef, .idx, .enter .def .varDef)]      -- lines 1168-1188
  | .call =>                                                           -- lines 1208-1262
    [(.withMethod, .none, .set .method), (.withTimeout, .none, .set .timeout), (.withRetry, .none, .enter .retry .retry),
     (.withRequest, .idx, .enter .request .request), (.withError, .idx, .enter .error .grpcError)]
  | .retry =>                                                          -- lines 1273-1311
    [(.withIf, .none, .set .if), (.withConstantInterval, .none, .put .constant .retryConstant [.interval]),
     (.withExponentialInitialInterval, .none, .put .exponential .retryExponential [.initialInterval]),
     (.withExponentialMaxInterval, .none, .put .exponential .retryExponential [.maxInterval])]
  | .request => [(.withField, .none, .set .field), (.withBy, .none, .set .by), (.withIf, .none, .set .if)] -- lines 1322-1350
  | .validation => [(.withName, .none, .set .name), (.withError, .none, .enter .error .grpcError)]   -- lines 1361-1381
  | .grpcError =>                                                      -- lines 1388-1460
    [(.withDef, .idx, .enter .def .varDef), (.withIf, .none, .set .if), (.withCode, .none, .set .code), (.withMessage, .none, .set .message),
     (.withIgnore, .none, .set .ignore), (.withIgnoreAndResponse, .none, .set .ignoreAndResponse), (.withDetail, .idx, .enter .detail .detail)]
  | .detail =>                                                         -- lines 1471-1558
    [(.withDef, .idx, .enter .def .varDef), (.withMessage, .idx, .enter .message .varDef), (.withIf, .none, .set .if), (.withBy, .none, .set .by),
     (.withPreconditionFailure, .violation, .put .preconditionFailure .precondition []),
     (.withBadRequest, .violation, .put .badRequest .badRequest []), (.withLocalizedMessage, .idxName, .put .localizedMessage .localized [])]
  | .mapExpr =>                                                        -- lines 1569-1621
    [(.withBy, .none, .set .by), (.withIteratorName, .none, .put .iterator .iterator [.name]),
     (.withIteratorSource, .none, .put .iterator .iterator [.source]), (.withMessage, .none, .enter .message .messageExpr),
     (.withEnum, .none, .enter .enum .enumExpr)]
  | _ => []

/-- A call of a method of a builder. -/
structure Call where
  meth : Meth
  arg : Arg

/-- The method that is called, if the call is one that compiles. -/
def effect (k : Kind) (c : Call) : Option Effect :=
  ((methods k).find? fun e => e.1 = c.meth ∧ e.2.1 = c.arg.sig).map (·.2.2)

/-- What a new structure is given: the error of a validation has index 0 (`source/location_builder.go` line 1374). -/
def given (k : Kind) (a : Arg) : Arg := if k = .validation then .idx 0 else a

/-- The function of a builder that finds its structure: it follows pointers from the root it is called with; it follows them from a root
it has kept (`source/location_builder.go` lines 413-423); or it first sets the message or enum of the root to a new one (lines 828-850). -/
inductive Sel where
  | path (p : List Fld)
  | kept (root : Nat) (p : List Fld)
  | lazy (f : Fld) (k : Kind) (name : String) (p : List Fld)

/-- `func(loc *Location) *X { return b.option(loc).X }`, for example `source/location_builder.go` lines 108-110. -/
def Sel.extend (f : Fld) : Sel → Sel
  | .path p => .path (p ++ [f])
  | .kept r p => .kept r (p ++ [f])
  | .lazy g k n p => .lazy g k n (p ++ [f])

/-- `func(loc *Location) *EnvVar { return b.env(root).Var }`, `source/location_builder.go` lines 419-421; the builder of an environment
always has a path. -/
def Sel.capture (root : Nat) (f : Fld) : Sel → Sel
  | .path p => .kept root (p ++ [f])
  | s => s.extend f

/-- Pointers followed from a structure; none if one is nil. -/
def find (H : Heap) : Nat → List Fld → Option Nat
  | a, [] => some a
  | a, f :: p =>
    match H[a]? with
    | none => none
    | some nd =>
      match nd.kid f with
      | none => none
      | some b => find H b p

/-- The call of the function of a builder with a root; none if what it gives cannot be written to. -/
def select (H : Heap) (root : Nat) : Sel → Option (Heap × Nat)
  | .path p => (find H root p).map fun x => (H, x)
  | .kept r p => (find H r p).map fun x => (H, x)
  | .lazy f k n [] =>
    match H[root]? with
    | none => none
    | some nd =>
      some (H.set root { nd with kid := fun g => if g = f then some H.length else nd.kid g } ++
        [⟨k, .name n, fun _ => none, fun _ => none⟩], H.length)
  | .lazy _ _ _ (_ :: _) => none

/-- The new structure, for example `source/location_builder.go` lines 105 and 643. -/
def leaf (k : Kind) (a : Arg) (flags : List Fld) : Node := ⟨k, a, fun f => if f ∈ flags then some .none else none, fun _ => none⟩

/-- The change of the structure of the builder, for example `source/location_builder.go` lines 105, 150 and 643. -/
def write (H : Heap) (x : Nat) (nd : Node) (a : Arg) : Effect → Heap
  | .set f => H.set x { nd with val := fun g => if g = f then some a else nd.val g }
  | .put f k flags => H.set x { nd with kid := fun g => if g = f then some H.length else nd.kid g } ++ [leaf k (given nd.kind a) flags]
  | .enter f k => H.set x { nd with kid := fun g => if g = f then some H.length else nd.kid g } ++ [leaf k (given nd.kind a) []]
  | .capture f k => H.set x { nd with kid := fun g => if g = f then some H.length else nd.kid g } ++ [leaf k (given nd.kind a) []]

structure Builder where
  root : Nat
  sel : Sel
  kind : Kind

/-- The builder that a method gives, for example `source/location_builder.go` lines 106-111, 151-154 and 417-422. -/
def next (b : Builder) (root : Nat) : Effect → Builder
  | .set _ => ⟨root, b.sel, b.kind⟩
  | .put _ _ _ => ⟨root, b.sel, b.kind⟩
  | .enter f k => ⟨root, b.sel.extend f, k⟩
  | .capture f k => ⟨root, b.sel.capture root f, k⟩

/-- What a program does with builders; builders are numbered in the order they are made. -/
inductive Op where
  | new (file : String)
  | call (b : Nat) (c : Call)
  | lazyMessage (b : Nat) (name : String)
  | lazyEnum (b : Nat) (name : String)

structure St where
  heap : Heap
  builders : List Builder

/-- How far a program gets: a panic; a program that does not compile; more depth is needed. -/
inductive Res where
  | ok (s : St)
  | panic
  | bad
  | more

/-- `ToLazyMessageBuilder` and `ToLazyEnumBuilder`, `source/location_builder.go` lines 828-850. -/
def makeLazy (fuel : Nat) (s : St) (b : Nat) (f : Fld) (k : Kind) (name : String) : Res :=
  match s.builders[b]? with
  | none => .bad
  | some bl =>
    match clone fuel s.heap bl.root with
    | none => .more
    | some (H, r) => .ok ⟨H, s.builders ++ [⟨r, .lazy f k name [], k⟩]⟩

/-- A method of a builder, for example `source/location_builder.go` lines 102-112: a copy of the root, the function of the builder,
the change, and the new builder. -/
def callMethod (fuel : Nat) (s : St) (b : Nat) (c : Call) : Res :=
  match s.builders[b]? with
  | none => .bad
  | some bl =>
    match effect bl.kind c with
    | none => .bad
    | some e =>
      match clone fuel s.heap bl.root with
      | none => .more
      | some (H, r) =>
        match select H r bl.sel with
        | none => .panic
        | some (H1, x) =>
          match H1[x]? with
          | none => .panic
          | some nd => .ok ⟨write H1 x nd c.arg e, s.builders ++ [next bl r e]⟩

/-- A step of the program; `NewLocationBuilder`, `source/location_builder.go` lines 7-11. -/
def step (fuel : Nat) (s : St) : Op → Res
  | .new file => .ok ⟨s.heap ++ [⟨.location, .name file, fun _ => none, fun _ => none⟩], s.builders ++ [⟨s.heap.length, .path [], .location⟩]⟩
  | .call b c => callMethod fuel s b c
  | .lazyMessage b name => makeLazy fuel s b .message .message name
  | .lazyEnum b name => makeLazy fuel s b .enum .enum name

/-- A program. -/
def runFrom (fuel : Nat) (s : St) : List Op → Res
  | [] => .ok s
  | o :: os =>
    match step fuel s o with
    | .ok s1 => runFrom fuel s1 os
    | r => r

def run (fuel : Nat) (os : List Op) : Res := runFrom fuel ⟨[], []⟩ os

end Verif.LocBuild
