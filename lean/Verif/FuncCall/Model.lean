/-!
# Calls of library and plugin functions in expressions

Functions are declared in two ways: `BindFunction` and `BindMemberFunction` declare a function whose
first parameter is the context of the request, and a parser macro that inserts the argument; plain
`cel.Function` declarations have neither.  This module models the macros (grpc/federation/cel/bind.go),
the declarations of the standard libraries, and the environments of the generator and of the server.

From cel-go, as documented: macros are keyed by the short name of a receiver-style call and a later
macro of a key replaces an earlier one; macros are expanded from the inside out; a receiver-style call
`a.b.f(…)` means the function `a.b.f` if there is one, and the method `f` of `a.b` otherwise; a name is
looked up in the container of the environment, from the innermost package outwards.

Simplifications: arguments have the types that the functions declare, except for the context, whose
type is different from all other types; macros of a fixed number of arguments (`filter`, `first`, …)
and names with a leading dot are not modelled.
-/

namespace Verif.FuncCall

/-- A dotted name, one entry per part. -/
abbrev QName := List String

/-- A declaration of the environment: its package (empty for a method), its short name, whether it is a
method, and whether it is bound to the context (`BindFunction`, grpc/federation/cel/bind.go 20–44, and
`BindMemberFunction`, grpc/federation/cel/bind.go 46–63). -/
structure Decl where
  pkg : QName
  short : String
  method : Bool
  bound : Bool
  deriving DecidableEq, Repr

/-- `BindFunction` with the name `pkg.short`, grpc/federation/cel/bind.go 20–44. -/
def Decl.fn (pkg : QName) (short : String) : Decl := ⟨pkg, short, false, true⟩

/-- `BindMemberFunction`, grpc/federation/cel/bind.go 46–63. -/
def Decl.meth (short : String) : Decl := ⟨[], short, true, true⟩

/-- `cel.Function` with `cel.Overload`, for example grpc/federation/cel/cast.go 26–31. -/
def Decl.plainFn (pkg : QName) (short : String) : Decl := ⟨pkg, short, false, false⟩

/-- `cel.Function` with `cel.MemberOverload`, for example grpc/federation/cel/list.go 89–104. -/
def Decl.plainMeth (short : String) : Decl := ⟨[], short, true, false⟩

/-- The whole name of a declaration. -/
def Decl.name (d : Decl) : QName := d.pkg ++ [d.short]

/-- Expressions: literals, names, selections of fields, receiver-style calls `t.f(args)` and calls of a
function by its name. -/
inductive Expr
  | lit (n : Nat)
  | ident (x : String)
  | select (e : Expr) (f : String)
  | member (t : Expr) (f : String) (args : List Expr)
  | global (q : QName) (args : List Expr)
  deriving Repr

/-- `ContextVariableName`, grpc/federation/cel/context.go 12. -/
def ctxName : String := "__CTX__"

/-- `len(args) > 0 && args[0].AsIdent() == ContextVariableName`, grpc/federation/cel/bind.go 35 and
grpc/federation/cel/bind.go 54. -/
def startsCtx : List Expr → Bool
  | .ident x :: _ => x == ctxName
  | _ => false

/-- `argsWithCtx`, grpc/federation/cel/bind.go 34–39 and grpc/federation/cel/bind.go 53–58. -/
def withCtx (args : List Expr) : List Expr :=
  if startsCtx args then args else .ident ctxName :: args

/-- `toSelectorName`, grpc/federation/cel/conv.go 49–63. -/
def selectorName : Expr → QName
  | .select e f => selectorName e ++ [f]
  | .ident x => [x]
  | _ => []

/-- The macro of a short name: the kind of the last bound declaration of the short name.  `BindFunction`
takes the last part of the name, grpc/federation/cel/bind.go 21–22, `BindMemberFunction` the name,
grpc/federation/cel/bind.go 52. -/
def macroOf (ds : List Decl) (f : String) : Option Bool :=
  (ds.reverse.find? fun d => d.bound && d.short == f).map (·.method)

/-- The expansion of one receiver-style call: `BindFunction`, grpc/federation/cel/bind.go 28–41,
`BindMemberFunction`, grpc/federation/cel/bind.go 52–60; without a macro the call is kept. -/
def expandCall (ds : List Decl) (t : Expr) (f : String) (args : List Expr) : Expr :=
  match macroOf ds f with
  | none => .member t f args
  | some false => .global (selectorName t ++ [f]) (withCtx args)
  | some true => .member t f (withCtx args)

mutual
/-- The expansion of all macros of an expression, from the inside out. -/
def expand (ds : List Decl) : Expr → Expr
  | .lit n => .lit n
  | .ident x => .ident x
  | .select e f => .select (expand ds e) f
  | .member t f args => expandCall ds (expand ds t) f (expandList ds args)
  | .global q args => .global q (expandList ds args)
/-- The expansion of all macros of the arguments. -/
def expandList (ds : List Decl) : List Expr → List Expr
  | [] => []
  | e :: es => expand ds e :: expandList ds es
end

/-- The name that a chain of selections spells, as in cel-go's checker. -/
def qualified? : Expr → Option QName
  | .select e f => (qualified? e).map (· ++ [f])
  | .ident x => some [x]
  | _ => none

/-- The names that a name may stand for in a container: the container's packages from the innermost
outwards, then the name itself. -/
def candidates (c q : QName) : List QName :=
  (List.range (c.length + 1)).reverse.map fun k => c.take k ++ q

/-- The declared name that a name stands for in a container. -/
def lookup (ds : List Decl) (c q : QName) : Option QName :=
  (candidates c q).find? fun n => ds.any (·.name == n)

/-- Whether a name has a declaration of the kind that takes the arguments. -/
def has (ds : List Decl) (n : QName) (method ctx : Bool) : Bool :=
  ds.any fun d => d.name == n && d.method == method && d.bound == ctx

/-- What is called: the declared name, and whether it is called as a method. -/
structure Callee where
  name : QName
  method : Bool
  deriving DecidableEq, Repr

/-- The checker of cel-go for a call by name. -/
def resolveGlobal (ds : List Decl) (c q : QName) (args : List Expr) : Option Callee :=
  match lookup ds c q with
  | some n => if has ds n false (startsCtx args) then some ⟨n, false⟩ else none
  | none => none

/-- The name of the function that a receiver-style call means, if it means one. -/
def namespaced? (ds : List Decl) (c : QName) (t : Expr) (f : String) : Option QName :=
  (qualified? t).bind fun q => lookup ds c (q ++ [f])

/-- The checker of cel-go for a receiver-style call. -/
def resolveMember (ds : List Decl) (c : QName) (t : Expr) (f : String) (args : List Expr) :
    Option Callee :=
  match namespaced? ds c t f with
  | some n => if has ds n false (startsCtx args) then some ⟨n, false⟩ else none
  | none =>
    match lookup ds c [f] with
    | some n => if has ds n true (startsCtx args) then some ⟨n, true⟩ else none
    | none => none

mutual
/-- Everything that an expression calls, or nothing if the environment does not accept the
expression.  Types of variables and fields are not modelled. -/
def callees (ds : List Decl) (c : QName) : Expr → Option (List Callee)
  | .lit _ => some []
  | .ident _ => some []
  | .select e _ => if (qualified? e).isSome then some [] else callees ds c e
  | .member t f args => do
    let k ← resolveMember ds c t f args
    let as ← calleesList ds c args
    if k.method then
      let ts ← if (qualified? t).isSome then some [] else callees ds c t
      pure (k :: ts ++ as)
    else pure (k :: as)
  | .global q args => do
    let k ← resolveGlobal ds c q args
    let as ← calleesList ds c args
    pure (k :: as)
/-- Everything that arguments call. -/
def calleesList (ds : List Decl) (c : QName) : List Expr → Option (List Callee)
  | [] => some []
  | e :: es => do
    let k ← callees ds c e
    let ks ← calleesList ds c es
    pure (k ++ ks)
end

/-- `env.Compile` of an expression: macros, then the checker. -/
def compile (ds : List Decl) (c : QName) (e : Expr) : Option (List Callee) :=
  callees ds c (expand ds e)

/-! ## The environments -/

/-- A function or method of a plugin, resolver/resolver.go 874–897: a function has the package of the
plugin, a method has none. -/
structure PluginFn where
  pkg : QName
  short : String
  method : Bool
  deriving DecidableEq, Repr

/-- `CompileOptions` of a plugin in the generator, resolver/cel.go 279–296: plain declarations. -/
def PluginFn.atGeneration (p : PluginFn) : Decl := ⟨p.pkg, p.short, p.method, false⟩

/-- `CompileOptions` of a plugin in the server, grpc/federation/cel/plugin.go 278–311: bound
declarations. -/
def PluginFn.atRunTime (p : PluginFn) : Decl := ⟨p.pkg, p.short, p.method, true⟩

/-- The environment of the generator, `createCELEnv`, resolver/resolver.go 4504–4526. -/
def genEnv (base : List Decl) (ps : List PluginFn) : List Decl := base ++ ps.map (·.atGeneration)

/-- The environment of the server, `NewDefaultEnvOptions`, grpc/federation/cel.go 261–275, and
generator/templates/server.go.tmpl 307–355. -/
def runEnv (base : List Decl) (ps : List PluginFn) : List Decl := base ++ ps.map (·.atRunTime)

/-! ## The standard libraries -/

/-- Methods of cel-go's own standard library and string extension that are called with arguments or
without, as documented: no macros. -/
def celLib : List Decl := [
  .plainMeth "contains", .plainMeth "endsWith", .plainMeth "matches", .plainMeth "startsWith",
  .plainMeth "size", .plainMeth "charAt", .plainMeth "format", .plainMeth "indexOf",
  .plainMeth "join", .plainMeth "lastIndexOf", .plainMeth "lowerAscii", .plainMeth "replace",
  .plainMeth "reverse", .plainMeth "split", .plainMeth "substring", .plainMeth "trim",
  .plainMeth "upperAscii"]

/-- `CompileOptions`, grpc/federation/cel/url.go 112–514: the declarations, in order. -/
def urlLib : List Decl := [
  .fn ["grpc", "federation", "url"] "joinPath",
  .fn ["grpc", "federation", "url"] "pathEscape",
  .fn ["grpc", "federation", "url"] "pathUnescape",
  .fn ["grpc", "federation", "url"] "queryEscape",
  .fn ["grpc", "federation", "url"] "queryUnescape",
  .fn ["grpc", "federation", "url"] "parse",
  .fn ["grpc", "federation", "url"] "parseRequestURI",
  .meth "scheme",
  .meth "opaque",
  .meth "userinfo",
  .meth "host",
  .meth "path",
  .meth "rawPath",
  .meth "omitHost",
  .meth "forceQuery",
  .meth "rawQuery",
  .meth "fragment",
  .meth "rawFragment",
  .meth "escapedFragment",
  .meth "escapedPath",
  .meth "hostname",
  .meth "isAbs",
  .meth "joinPath",
  .meth "marshalBinary",
  .meth "parse",
  .meth "port",
  .meth "query",
  .meth "redacted",
  .meth "requestURI",
  .meth "resolveReference",
  .meth "string",
  .meth "unmarshalBinary",
  .fn ["grpc", "federation", "url"] "user",
  .fn ["grpc", "federation", "url"] "userPassword",
  .meth "username",
  .meth "password",
  .meth "passwordSet",
  .meth "string"]

/-- `CompileOptions`, grpc/federation/cel/strings.go 44–759: the declarations, in order. -/
def stringsLib : List Decl := [
  .fn ["grpc", "federation", "strings"] "clone",
  .fn ["grpc", "federation", "strings"] "compare",
  .fn ["grpc", "federation", "strings"] "contains",
  .fn ["grpc", "federation", "strings"] "containsAny",
  .fn ["grpc", "federation", "strings"] "containsRune",
  .fn ["grpc", "federation", "strings"] "count",
  .fn ["grpc", "federation", "strings"] "cut",
  .fn ["grpc", "federation", "strings"] "cutPrefix",
  .fn ["grpc", "federation", "strings"] "cutSuffix",
  .fn ["grpc", "federation", "strings"] "equalFold",
  .fn ["grpc", "federation", "strings"] "fields",
  .fn ["grpc", "federation", "strings"] "hasPrefix",
  .fn ["grpc", "federation", "strings"] "hasSuffix",
  .fn ["grpc", "federation", "strings"] "index",
  .fn ["grpc", "federation", "strings"] "indexAny",
  .fn ["grpc", "federation", "strings"] "indexByte",
  .fn ["grpc", "federation", "strings"] "indexRune",
  .fn ["grpc", "federation", "strings"] "join",
  .fn ["grpc", "federation", "strings"] "lastIndex",
  .fn ["grpc", "federation", "strings"] "lastIndexAny",
  .fn ["grpc", "federation", "strings"] "lastIndexByte",
  .fn ["grpc", "federation", "strings"] "repeat",
  .fn ["grpc", "federation", "strings"] "replace",
  .fn ["grpc", "federation", "strings"] "replaceAll",
  .fn ["grpc", "federation", "strings"] "split",
  .fn ["grpc", "federation", "strings"] "splitAfter",
  .fn ["grpc", "federation", "strings"] "splitAfterN",
  .fn ["grpc", "federation", "strings"] "splitN",
  .fn ["grpc", "federation", "strings"] "title",
  .fn ["grpc", "federation", "strings"] "toLower",
  .fn ["grpc", "federation", "strings"] "toTitle",
  .fn ["grpc", "federation", "strings"] "toUpper",
  .fn ["grpc", "federation", "strings"] "toValidUTF8",
  .fn ["grpc", "federation", "strings"] "trim",
  .fn ["grpc", "federation", "strings"] "trimLeft",
  .fn ["grpc", "federation", "strings"] "trimPrefix",
  .fn ["grpc", "federation", "strings"] "trimRight",
  .fn ["grpc", "federation", "strings"] "trimSpace",
  .fn ["grpc", "federation", "strings"] "trimSuffix",
  .fn ["grpc", "federation", "strings"] "appendBool",
  .fn ["grpc", "federation", "strings"] "appendFloat",
  .fn ["grpc", "federation", "strings"] "appendInt",
  .fn ["grpc", "federation", "strings"] "appendQuote",
  .fn ["grpc", "federation", "strings"] "appendQuoteRune",
  .fn ["grpc", "federation", "strings"] "appendQuoteRuneToASCII",
  .fn ["grpc", "federation", "strings"] "appendQuoteRuneToGraphic",
  .fn ["grpc", "federation", "strings"] "appendQuoteToASCII",
  .fn ["grpc", "federation", "strings"] "appendQuoteToGraphic",
  .fn ["grpc", "federation", "strings"] "appendUint",
  .fn ["grpc", "federation", "strings"] "atoi",
  .fn ["grpc", "federation", "strings"] "canBackquote",
  .fn ["grpc", "federation", "strings"] "formatBool",
  .fn ["grpc", "federation", "strings"] "formatComplex",
  .fn ["grpc", "federation", "strings"] "formatFloat",
  .fn ["grpc", "federation", "strings"] "formatInt",
  .fn ["grpc", "federation", "strings"] "formatUint",
  .fn ["grpc", "federation", "strings"] "isGraphic",
  .fn ["grpc", "federation", "strings"] "isPrint",
  .fn ["grpc", "federation", "strings"] "itoa",
  .fn ["grpc", "federation", "strings"] "parseBool",
  .fn ["grpc", "federation", "strings"] "parseComplex",
  .fn ["grpc", "federation", "strings"] "parseFloat",
  .fn ["grpc", "federation", "strings"] "parseInt",
  .fn ["grpc", "federation", "strings"] "parseUint",
  .fn ["grpc", "federation", "strings"] "quote",
  .fn ["grpc", "federation", "strings"] "quoteRune",
  .fn ["grpc", "federation", "strings"] "quoteRuneToASCII",
  .fn ["grpc", "federation", "strings"] "quoteRuneToGraphic",
  .fn ["grpc", "federation", "strings"] "quoteToASCII",
  .fn ["grpc", "federation", "strings"] "quoteToGraphic",
  .fn ["grpc", "federation", "strings"] "quotedPrefix",
  .fn ["grpc", "federation", "strings"] "unquote",
  .fn ["grpc", "federation", "strings"] "unquoteChar"]

/-- `CompileOptions`, grpc/federation/cel/math.go 40–61: the declarations, in order. -/
def mathLib : List Decl := [
  .fn ["grpc", "federation", "math"] "sqrt",
  .fn ["grpc", "federation", "math"] "pow",
  .fn ["grpc", "federation", "math"] "floor"]

/-- `CompileOptions`, grpc/federation/cel/time.go 212–966: the declarations, in order. -/
def timeLib : List Decl := [
  .fn ["grpc", "federation", "time"] "LOCAL",
  .fn ["grpc", "federation", "time"] "UTC",
  .fn ["grpc", "federation", "time"] "toDuration",
  .fn ["grpc", "federation", "time"] "parseDuration",
  .fn ["grpc", "federation", "time"] "since",
  .fn ["grpc", "federation", "time"] "until",
  .meth "abs",
  .meth "hours",
  .meth "microseconds",
  .meth "milliseconds",
  .meth "minutes",
  .meth "nanoseconds",
  .meth "round",
  .meth "seconds",
  .meth "string",
  .meth "truncate",
  .fn ["grpc", "federation", "time"] "fixedZone",
  .fn ["grpc", "federation", "time"] "loadLocation",
  .fn ["grpc", "federation", "time"] "loadLocationFromTZData",
  .meth "string",
  .meth "asTime",
  .fn ["grpc", "federation", "time"] "date",
  .fn ["grpc", "federation", "time"] "now",
  .fn ["grpc", "federation", "time"] "parse",
  .fn ["grpc", "federation", "time"] "parseInLocation",
  .fn ["grpc", "federation", "time"] "unix",
  .fn ["grpc", "federation", "time"] "unixMicro",
  .fn ["grpc", "federation", "time"] "unixMilli",
  .meth "add",
  .meth "addDate",
  .meth "after",
  .meth "appendFormat",
  .meth "before",
  .meth "compare",
  .meth "day",
  .meth "equal",
  .meth "format",
  .meth "hour",
  .meth "withLocation",
  .meth "isDST",
  .meth "isZero",
  .meth "local",
  .meth "location",
  .meth "minute",
  .meth "month",
  .meth "nanosecond",
  .meth "round",
  .meth "second",
  .meth "string",
  .meth "sub",
  .meth "truncate",
  .meth "utc",
  .meth "unix",
  .meth "unixMicro",
  .meth "unixMilli",
  .meth "unixNano",
  .meth "weekday",
  .meth "year",
  .meth "yearDay"]

/-- `CompileOptions`, grpc/federation/cel/list.go 65–89: the declarations, in order. -/
def listLib : List Decl := [
  .plainFn ["grpc", "federaiton", "list"] "@sortAsc",
  .plainFn ["grpc", "federaiton", "list"] "@sortDesc",
  .plainFn ["grpc", "federaiton", "list"] "@sortStableAsc",
  .plainFn ["grpc", "federaiton", "list"] "@sortStableDesc",
  .plainMeth "flatten"]

/-- `CompileOptions`, grpc/federation/cel/rand.go 93–221: the declarations, in order. -/
def randLib : List Decl := [
  .fn ["grpc", "federation", "rand"] "newSource",
  .meth "int63",
  .meth "seed",
  .fn ["grpc", "federation", "rand"] "new",
  .meth "expFloat64",
  .meth "float32",
  .meth "float64",
  .meth "int",
  .meth "int31",
  .meth "int31n",
  .meth "int63",
  .meth "int63n",
  .meth "intn",
  .meth "normFloat64",
  .meth "seed",
  .meth "uint32"]

/-- `CompileOptions`, grpc/federation/cel/uuid.go 65–139: the declarations, in order. -/
def uuidLib : List Decl := [
  .fn ["grpc", "federation", "uuid"] "new",
  .fn ["grpc", "federation", "uuid"] "newRandom",
  .fn ["grpc", "federation", "uuid"] "newRandomFromRand",
  .meth "domain",
  .meth "id",
  .meth "time",
  .meth "urn",
  .meth "string",
  .meth "version"]

/-- `CompileOptions`, grpc/federation/cel/enum.go 32–32: the declarations, in order. -/
def enumLib : List Decl := [
  .fn ["grpc", "federation", "enum"] "select"]

/-- `CompileOptions`, grpc/federation/cel/metadata.go 35–35: the declarations, in order. -/
def metadataLib : List Decl := [
  .fn ["grpc", "federation", "metadata"] "incoming"]

/-- `CompileOptions`, grpc/federation/cel/log.go 41–85: the declarations, in order. -/
def logLib : List Decl := [
  .fn ["grpc", "federation", "log"] "info",
  .fn ["grpc", "federation", "log"] "debug",
  .fn ["grpc", "federation", "log"] "warn",
  .fn ["grpc", "federation", "log"] "error",
  .fn ["grpc", "federation", "log"] "add"]

/-- `CompileOptions`, grpc/federation/cel/cast.go 26–26: the declarations, in order. -/
def castLib : List Decl := [
  .plainFn ["grpc", "federation", "cast"] "null_value"]

/-- `NewLibrary`, grpc/federation/cel/lib.go 15–34, after the libraries of cel-go,
grpc/federation/cel.go 263–265 and resolver/resolver.go 4506–4508. -/
def std : List Decl :=
  celLib ++ urlLib ++ stringsLib ++ mathLib ++ timeLib ++ listLib ++ randLib ++ uuidLib ++ enumLib ++
    metadataLib ++ logLib ++ castLib

end Verif.FuncCall
