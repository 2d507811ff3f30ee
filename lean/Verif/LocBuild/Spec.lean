import Verif.LocBuild.Model

/-!
# What a location should say

A location says which parts of a file it is about: paths of parts, each with the name or index that was given for it.
-/

namespace Verif.LocBuild

abbrev Path := List Fld
abbrev Content := Path → Option Arg

/-- What a reader of a location finds at a path: a structure or a flag, with its name or index. -/
def read (H : Heap) : Nat → Content
  | a, [] => H[a]?.map (·.arg)
  | a, f :: p =>
    match H[a]? with
    | none => none
    | some nd =>
      match nd.kid f with
      | some b => read H b p
      | none =>
        match p with
        | [] => nd.val f
        | _ :: _ => none

/-- `Location()` of builder number `i`. -/
def location (s : St) (i : Nat) : Content := fun p =>
  match s.builders[i]? with
  | none => none
  | some b => read s.heap b.root p

/-- The parts that a method is named after. -/
def named : Meth → Path
  | .withAlias => [.alias] | .withAlternate => [.alternate] | .withArgs => [.args] | .withAttr => [.attr]
  | .withBadRequest => [.badRequest] | .withBy => [.by] | .withCall => [.call] | .withCode => [.code]
  | .withConstantInterval => [.constant, .interval] | .withDef => [.def] | .withDefault => [.default] | .withDetail => [.detail]
  | .withEnum => [.enum] | .withEnv => [.env] | .withError => [.error]
  | .withExponentialInitialInterval => [.exponential, .initialInterval] | .withExponentialMaxInterval => [.exponential, .maxInterval]
  | .withExport => [.export] | .withField => [.field] | .withFunctions => [.functions] | .withGoPackage => [.goPackage]
  | .withIf => [.if] | .withIgnore => [.ignore] | .withIgnoreAndResponse => [.ignoreAndResponse] | .withIgnored => [.ignored]
  | .withImportName => [.importName] | .withInline => [.inline] | .withIteratorName => [.iterator, .name]
  | .withIteratorSource => [.iterator, .source] | .withLocalizedMessage => [.localizedMessage] | .withMap => [.map]
  | .withMessage => [.message] | .withMethod => [.method] | .withMethods => [.methods] | .withName => [.name] | .withOneof => [.oneof]
  | .withOption => [.option] | .withPreconditionFailure => [.preconditionFailure] | .withRequest => [.request]
  | .withRequired => [.required] | .withResponse => [.response] | .withRetry => [.retry] | .withReturnType => [.returnType]
  | .withService => [.service] | .withSha256 => [.sha256] | .withTimeout => [.timeout] | .withType => [.type]
  | .withTypes => [.types] | .withURL => [.url] | .withValidation => [.validation] | .withValue => [.value] | .withVar => [.var]
  | .withWasm => [.wasm]

/-- The parts of a call: those of the name of the method, but a message in a message is a nested one, and the option of an enum is its
alias. -/
def parts (k : Kind) (m : Meth) : Path :=
  if k = .message ∧ m = .withMessage then [.nestedMessage]
  else if k = .enum ∧ m = .withOption then [.option, .alias]
  else named m

/-- The only error of a validation is its first. -/
def argOf (k : Kind) (c : Call) : Arg := if k = .validation ∧ c.meth = .withError then .idx 0 else c.arg

/-- The content after parts `q` at `pos` are set: the last of them has what was given, the others are there, and nothing else is under the
first of them. -/
def say (c : Content) (pos q : Path) (a : Arg) : Content := fun p =>
  if p = pos ++ q then some a
  else if pos ++ q.take 1 <+: p then (if p <+: pos ++ q then some .none else none)
  else c p

/-- The type of the builder that a call gives. -/
def returns (k : Kind) : Effect → Kind
  | .set _ => k
  | .put _ _ _ => k
  | .enter _ k' => k'
  | .capture _ k' => k'

/-- A builder as a user sees it: what its location should say, where its methods apply, and its type. -/
structure Said where
  content : Content
  pos : Path
  kind : Kind

/-- After a call: a builder of another type, and any that a message builder gives, is for the part that was set. -/
def Said.call (s : Said) (c : Call) : Option Said :=
  match effect s.kind c with
  | none => none
  | some e =>
    some ⟨say s.content s.pos (parts s.kind c.meth) (argOf s.kind c),
      if returns s.kind e ≠ s.kind ∨ s.kind = .message then s.pos ++ parts s.kind c.meth else s.pos, returns s.kind e⟩

/-- `NewLocationBuilder`. -/
def start (file : String) : Said := ⟨fun p => if p = [] then some (.name file) else none, [], .location⟩

/-- The builders that a program makes from a new one by calls: the number of the builder, what it should say, and the parts set by the
last call. -/
inductive Made (os : List Op) : Nat → Said → Path → Prop where
  | new (i : Nat) (file : String) : os[i]? = some (.new file) → Made os i (start file) []
  | call (i j : Nat) (c : Call) (s s' : Said) (last : Path) : os[i]? = some (.call j c) → j < i → Made os j s last →
      s.call c = some s' → Made os i s' (s.pos ++ parts s.kind c.meth)

/-- What a call forgets of the calls before it: the name of an import, the condition of a request or of a retry, `ignore_and_response`
of an error and `by` of a detail. -/
def Forgotten (p : Path) : Prop :=
  p = [.importName] ∨ [.request, .if] <:+ p ∨ [.retry, .if] <:+ p ∨ [.error, .ignoreAndResponse] <:+ p ∨ [.detail, .by] <:+ p

end Verif.LocBuild
