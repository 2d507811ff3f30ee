import Verif.ErrH.Model

/-!
# Codes and log levels in the options

Models how the code and the log level of an `error` in the options become those of the generated server: `resolver/resolver.go` lines
2736, 2741 and 2745-2755, `generator/code_generator.go` lines 2879-2904, `generator/templates/error_handler.go.tmpl` lines 35, 155-160,
187 and `generator/templates/validation.go.tmpl` lines 101-118, and the constants of `grpc/federation/alias.go` lines 61-88.

Simplified: the condition, message and details of an entry are as in `Verif.ErrH.Model`. `cases.Title` is modelled for words of ASCII
letters, which the words of the names of codes are.
-/

namespace Verif.ErrH

abbrev Text := List Char

/-- `GRPCError.LogLevel`, `proto/grpc/federation/federation.proto` lines 371-382. -/
inductive PLevel where
  | unknown | debug | info | warn | error
deriving DecidableEq, Repr

/-- `google.rpc.Code`, `proto_deps/google/rpc/code.proto` lines 37-186: names and numbers. -/
def rpcCodes : List (Text × Nat) :=
  [("OK".toList, 0), ("CANCELLED".toList, 1), ("UNKNOWN".toList, 2), ("INVALID_ARGUMENT".toList, 3), ("DEADLINE_EXCEEDED".toList, 4),
   ("NOT_FOUND".toList, 5), ("ALREADY_EXISTS".toList, 6), ("PERMISSION_DENIED".toList, 7), ("UNAUTHENTICATED".toList, 16),
   ("RESOURCE_EXHAUSTED".toList, 8), ("FAILED_PRECONDITION".toList, 9), ("ABORTED".toList, 10), ("OUT_OF_RANGE".toList, 11),
   ("UNIMPLEMENTED".toList, 12), ("INTERNAL".toList, 13), ("UNAVAILABLE".toList, 14), ("DATA_LOSS".toList, 15)]

/-- The constants of the runtime, `grpc/federation/alias.go` lines 61-88. The numbers are those of the package
`google.golang.org/grpc/codes`. -/
def goConsts : List (Text × Nat) :=
  [("OKCode".toList, 0), ("CancelledCode".toList, 1), ("UnknownCode".toList, 2), ("InvalidArgumentCode".toList, 3),
   ("DeadlineExceededCode".toList, 4), ("NotFoundCode".toList, 5), ("AlreadyExistsCode".toList, 6), ("PermissionDeniedCode".toList, 7),
   ("ResourceExhaustedCode".toList, 8), ("FailedPreconditionCode".toList, 9), ("AbortedCode".toList, 10), ("OutOfRangeCode".toList, 11),
   ("UnimplementedCode".toList, 12), ("InternalCode".toList, 13), ("UnavailableCode".toList, 14), ("DataLossCode".toList, 15),
   ("UnauthenticatedCode".toList, 16)]

/-- `strings.Split(s, "_")`. -/
def splitUnder : Text → List Text
  | [] => [[]]
  | c :: cs => if c = '_' then [] :: splitUnder cs else
    match splitUnder cs with
    | w :: ws => (c :: w) :: ws
    | [] => [[c]]

def upperC (c : Char) : Char := if 'a' ≤ c ∧ c ≤ 'z' then Char.ofNat (c.toNat - 32) else c
def lowerC (c : Char) : Char := if 'A' ≤ c ∧ c ≤ 'Z' then Char.ofNat (c.toNat + 32) else c

/-- `cases.Title(language.Und).String(part)` for ASCII letters. -/
def title : Text → Text
  | [] => []
  | c :: cs => upperC c :: cs.map lowerC

/-- `GRPCError.GoGRPCStatusCode`, `generator/code_generator.go` lines 2879-2892, for a code of the given name. -/
def goCode (name : Text) : Text :=
  if name = "OK".toList then "OKCode".toList else ((splitUnder name).map title).flatten ++ "Code".toList

/-- `resolveGRPCErrorLogLevel`, `resolver/resolver.go` lines 2745-2755; `GetLogLevel` gives UNKNOWN if there is none. -/
def resolveLevel (l : Option PLevel) : Level :=
  match l.getD .unknown with
  | .debug => .debug
  | .info => .info
  | .warn => .warn
  | _ => .error

/-- `GRPCError.LogLevelValue`, `generator/code_generator.go` lines 2894-2904. -/
def levelText : Level → Text
  | .debug => "slog.LevelDebug".toList
  | .info => "slog.LevelInfo".toList
  | .warn => "slog.LevelWarn".toList
  | .error => "slog.LevelError".toList

/-- The levels of the package `log/slog`. -/
def slogConsts : List (Text × Level) :=
  [("slog.LevelDebug".toList, .debug), ("slog.LevelInfo".toList, .info), ("slog.LevelWarn".toList, .warn), ("slog.LevelError".toList, .error)]

/-- What a constant of the generated code is. -/
def lookupConst {α : Type} (cs : List (Text × α)) (n : Text) : Option α := (cs.find? (fun c => c.1 = n)).map (·.2)

/-- Why there is no server. -/
inductive NoServer where
  /-- the generator stops: a nil pointer is followed -/
  | generator
  /-- the generated code does not compile: an undeclared name -/
  | compiler
deriving DecidableEq, Repr

variable {V X D R E : Type}

/-- An `error` of the options: `rest` has what is not about code and level. -/
structure Decl (V X D R : Type) where
  code : Option Text
  level : Option PLevel
  rest : Entry V X D R

/-- The level in the generated code. -/
def genLevel (l : Option PLevel) : Except NoServer Level :=
  match lookupConst slogConsts (levelText (resolveLevel l)) with
  | some l => .ok l
  | none => .error .compiler

/-- The code in the generated code. -/
def genCode (n : Text) : Except NoServer Nat :=
  match lookupConst goConsts (goCode n) with
  | some k => .ok k
  | none => .error .compiler

/-- An entry of a call, `generator/templates/error_handler.go.tmpl` lines 35, 155-160, 187. -/
def genEntry (d : Decl V X D R) : Except NoServer (Entry V X D R) :=
  match genLevel d.level with
  | .error x => .error x
  | .ok l =>
    match d.code with
    | none => .ok { d.rest with code := none, level := l }
    | some n =>
      match genCode n with
      | .error x => .error x
      | .ok k => .ok { d.rest with code := some k, level := l }

/-- The entries of a call, `generator/templates/error_handler.go.tmpl` lines 34-189. -/
def genEntries : List (Decl V X D R) → Except NoServer (List (Entry V X D R))
  | [] => .ok []
  | d :: ds =>
    match genEntry d with
    | .error x => .error x
    | .ok e =>
      match genEntries ds with
      | .error x => .error x
      | .ok es => .ok (e :: es)

/-- A validation, `generator/templates/validation.go.tmpl` lines 101-118: the code and the level. `GoGRPCStatusCode` is called also if there
is no code, and follows the nil pointer (`generator/code_generator.go` line 2880). -/
def genValidation (d : Decl V X D R) : Except NoServer (Nat × Level) :=
  match d.code with
  | none => .error .generator
  | some n =>
    match genCode n with
    | .error x => .error x
    | .ok k =>
      match genLevel d.level with
      | .error x => .error x
      | .ok l => .ok (k, l)

/-- The error of a validation with its level, `generator/templates/validation.go.tmpl` line 118: evaluation errors have none. -/
def validationError (ty : Types D) (d : Decl V X D R) (v : V) : Except NoServer (Option (VErr X D × Option Level)) :=
  match genValidation d with
  | .error x => .error x
  | .ok (k, l) =>
    .ok ((runValidation ty k d.rest v).map (fun e => match e with
      | .eval x => (.eval x, none)
      | .status s => (.status s, some l)))

end Verif.ErrH
