/-!
# Error handlers and validations

Models the code generated for a failing dependent call (`generator/templates/error_handler.go.tmpl`
lines 1-215, called from `generator/templates/eval.go.tmpl` lines 167-169), the code generated for a
validation (`generator/templates/validation.go.tmpl` lines 1-119) and the runtime functions they use
(`grpc/federation/validation.go`, `grpc/federation/error.go`, `If` and `evalDef` in
`grpc/federation/cel.go`).

Expressions are arbitrary functions of the environment `V` (the local value with its variables) that
give a value or an evaluation error `X`; evaluating a set of definitions gives a new environment
or an error (the evaluation itself is modelled in `Exec` and `Eval`). Log output is not modelled.
-/

namespace Verif.ErrH

/-- Messages attached to a status. `custom` is any message built by `message` or `by`. -/
inductive Detail (D : Type) where
  | custom (d : D)
  | precondition (vs : List (String × String × String))
  | badRequest (vs : List (String × String))
  | localized (locale msg : String)
deriving DecidableEq, Repr

/-- A gRPC status; code 0 is OK. -/
structure Status (D : Type) where
  code : Nat
  msg : String
  details : List (Detail D)
deriving DecidableEq, Repr

/-- `codes.OK`. -/
def okCode : Nat := 0

/-- Severity of the log entry of an error, `error_handler.go.tmpl` lines 30, 35. -/
inductive Level where
  | debug | info | warn | error
deriving DecidableEq, Repr

/-- Facts about message types the runtime knows: `known` = `Status.Details()` can decode the detail
(`generator/templates/error_handler.go.tmpl` lines 15-21), `packable` = `Status.WithDetails` can encode it. -/
structure Types (D : Type) where
  known : Detail D → Bool
  packable : Detail D → Bool

/-- A violation of `PreconditionFailure`: the three expressions. -/
structure PreViolation (V X : Type) where
  typ : V → Except X String
  subject : V → Except X String
  desc : V → Except X String

/-- A violation of `BadRequest`. -/
structure BadViolation (V X : Type) where
  field : V → Except X String
  desc : V → Except X String

/-- One entry of `details`, `resolver/resolver.go` lines 2764-2811. -/
structure DetailRule (V X D : Type) where
  /-- `def`; `none` if there are none (`VariableDefinitionSet` gives nil) -/
  defs : Option (V → Except X V)
  cond : V → Except X Bool
  /-- `message`: evaluation of the message definitions, then reading each of them -/
  msgSet : Option (V → Except X V)
  msgs : List (V → Except X D)
  byExprs : List (V → Except X (Option D))
  preconditions : List (List (PreViolation V X))
  badRequests : List (List (BadViolation V X))
  localized : List (String × (V → Except X String))

/-- One `error` entry, `resolver/resolver.go` lines 2688-2743. `R` is the response type. -/
structure Entry (V X D R : Type) where
  defs : Option (V → Except X V)
  cond : V → Except X Bool
  ignore : Bool
  ignoreAndResponse : Option (V → Except X R)
  code : Option Nat
  message : Option (V → Except X String)
  details : List (DetailRule V X D)
  level : Level

variable {V X D R E : Type}

/-- `{{ if .VariableDefinitionSet }}{{ template "evalDefSet" }}`: `generator/templates/error_handler.go.tmpl` lines 36-38, 89-96, 102-108. -/
def runDefs (d : Option (V → Except X V)) (v : V) : Except X V :=
  match d with
  | none => .ok v
  | some f => f v

/-- One violation, `grpc/federation/validation.go` lines 27-78: skipped if one of its expressions fails. -/
def preViolation (v : V) (p : PreViolation V X) : Option (String × String × String) :=
  match p.typ v with
  | .error _ => none
  | .ok t => match p.subject v with
    | .error _ => none
    | .ok s => match p.desc v with
      | .error _ => none
      | .ok d => some (t, s, d)

/-- `PreconditionFailure`, `grpc/federation/validation.go` lines 23-83: nil if no violation is left. -/
def preconditionFailure (v : V) (vs : List (PreViolation V X)) : Option (Detail D) :=
  match vs.filterMap (preViolation v) with
  | [] => none
  | l => some (.precondition l)

/-- One field violation, `grpc/federation/validation.go` lines 98-133. -/
def badViolation (v : V) (p : BadViolation V X) : Option (String × String) :=
  match p.field v with
  | .error _ => none
  | .ok f => match p.desc v with
    | .error _ => none
    | .ok d => some (f, d)

/-- `BadRequest`, `grpc/federation/validation.go` lines 93-138. -/
def badRequest (v : V) (vs : List (BadViolation V X)) : Option (Detail D) :=
  match vs.filterMap (badViolation v) with
  | [] => none
  | l => some (.badRequest l)

/-- `LocalizedMessage`, `grpc/federation/validation.go` lines 147-164. -/
def localizedMessage (v : V) (l : String × (V → Except X String)) : Option (Detail D) :=
  match l.2 v with
  | .error _ => none
  | .ok m => some (.localized l.1 m)

/-- `CustomMessage`, `grpc/federation/validation.go` lines 173-192. -/
def customMessage (v : V) (m : V → Except X D) : Option (Detail D) :=
  match m v with
  | .error _ => none
  | .ok d => some (.custom d)

/-- `generator/templates/error_handler.go.tmpl` lines 121-136: an evaluation error is logged and nothing is appended. -/
def byDetail (v : V) (b : V → Except X (Option D)) : Option (Detail D) :=
  match b v with
  | .error _ => none
  | .ok none => none
  | .ok (some d) => some (.custom d)

/-- What the body of a detail whose condition holds appends, in order: `generator/templates/error_handler.go.tmpl` lines 109-146. -/
def detailItems (v : V) (d : DetailRule V X D) : List (Detail D) :=
  (match d.msgSet with
    | none => []
    | some _ => d.msgs.filterMap (customMessage v)) ++
  d.byExprs.filterMap (byDetail v) ++
  d.preconditions.filterMap (preconditionFailure v) ++
  d.badRequests.filterMap (badRequest v) ++
  d.localized.filterMap localizedMessageAt
where
  localizedMessageAt (l : String × (V → Except X String)) : Option (Detail D) := localizedMessage v l

/-- One detail, `generator/templates/error_handler.go.tmpl` lines 88-152: definitions, then `If` with the body. -/
def runDetail (d : DetailRule V X D) (v : V) (acc : List (Detail D)) :
    Except X (V × List (Detail D)) :=
  match runDefs d.defs v with
  | .error x => .error x
  | .ok v1 => match d.cond v1 with
    | .error x => .error x
    | .ok false => .ok (v1, acc)
    | .ok true => match runDefs d.msgSet v1 with
      | .error x => .error x
      | .ok v2 => .ok (v2, acc ++ detailItems v2 d)

/-- All details, `generator/templates/error_handler.go.tmpl` lines 86-153. -/
def runDetails : List (DetailRule V X D) → V → List (Detail D) → Except X (V × List (Detail D))
  | [], v, acc => .ok (v, acc)
  | d :: ds, v, acc => match runDetail d v acc with
    | .error x => .error x
    | .ok (v', acc') => runDetails ds v' acc'

/-- `NewGRPCStatus(code, msg)` followed by `WithDetails`, `generator/templates/error_handler.go.tmpl` lines 162-178: on failure (the code is OK,
or a detail cannot be encoded) the status without details is used. -/
def statusWithDetails (ty : Types D) (code : Nat) (msg : String) (ds : List (Detail D)) : Status D :=
  if code = okCode then ⟨code, msg, []⟩
  else if ds.all ty.packable then ⟨code, msg, ds⟩
  else ⟨code, msg, []⟩

/-- The defaults taken from the original error, `generator/templates/error_handler.go.tmpl` lines 7-26. -/
structure Defaults (D : Type) where
  msg : String
  code : Nat
  details : List (Detail D)

/-- `generator/templates/error_handler.go.tmpl` lines 12-26. -/
def defaults (ty : Types D) (st : Option (Status D)) : Defaults D :=
  match st with
  | none => ⟨"", okCode, []⟩
  | some s => ⟨s.msg, s.code, s.details.filter ty.known⟩

/-- The message of an entry, `generator/templates/error_handler.go.tmpl` lines 65-83. -/
def errorMessage (m : Option (V → Except X String)) (dflt : Defaults D) (v : V) : Except X String :=
  match m with
  | some f => f v
  | none => .ok (if dflt.msg ≠ "" then dflt.msg else "error")

/-- The body of a matching entry, `generator/templates/error_handler.go.tmpl` lines 43-182: the status it sets and the response. `ret` is the
response returned by the failed call. -/
def entryBody (ty : Types D) (dflt : Defaults D) (e : Entry V X D R) (ret : Option R) (v : V) :
    Except X (Status D × Option R) :=
  if e.ignore then .ok (⟨okCode, "ignore error", []⟩, ret)
  else match e.ignoreAndResponse with
    | some f => match f v with
      -- `IgnoreAndResponse` fails: logged; its setter has stored the zero value (`grpc/federation/cel.go` 575-578)
      | .error _ => .ok (⟨okCode, "ignore error", []⟩, none)
      | .ok r => .ok (⟨okCode, "ignore error", []⟩, some r)
    | none => match errorMessage e.message dflt v with
      | .error x => .error x
      | .ok msg =>
        let code := e.code.getD dflt.code
        match e.details with
        | [] => .ok (statusWithDetails ty code msg dflt.details, ret)
        | ds => match runDetails ds v [] with
          | .error x => .error x
          | .ok (_, l) => .ok (statusWithDetails ty code msg l, ret)

/-- The function literal of `generator/templates/error_handler.go.tmpl` lines 32-191. -/
def entriesLoop (ty : Types D) (dflt : Defaults D) (ret : Option R) :
    List (Entry V X D R) → V → Except X (Option (Status D × Level) × Option R)
  | [], _ => .ok (none, ret)
  | e :: es, v => match runDefs e.defs v with
    | .error x => .error x
    | .ok v1 => match e.cond v1 with
      | .error x => .error x
      | .ok false => entriesLoop ty dflt ret es v1
      | .ok true => match entryBody ty dflt e ret v1 with
        | .error x => .error x
        | .ok (s, r) => .ok (some (s, e.level), r)

/-- The error of a definition. -/
inductive Err (D E : Type) where
  | orig (e : E)
  | status (s : Status D)
deriving DecidableEq, Repr

/-- `Status.Err()`: nil for OK. -/
def statusErr (s : Status D) : Option (Err D E) := if s.code = okCode then none else some (.status s)

/-- `if err := s.errorHandler(...); err != nil { return nil, err }` followed by `return ret, nil`
(`generator/templates/error_handler.go.tmpl` lines 192-206, `eval.go.tmpl` line 170). -/
def finish (handler : Option (Err D E) → Option (Err D E)) (err : Option (Err D E)) (lvl : Level)
    (ret : Option R) : Except (Err D E × Level) (Option R) :=
  match handler err with
  | some e => .error (e, lvl)
  | none => .ok ret

/-- The code for a failed call, `generator/templates/error_handler.go.tmpl` lines 4-211. `setError` stores the status in the `error` variable
(`SetGRPCError`), `statusOf` is `status.FromError`. -/
def handleCallError (ty : Types D) (handler : Option (Err D E) → Option (Err D E))
    (setError : Status D → V → V) (statusOf : E → Option (Status D)) (entries : List (Entry V X D R))
    (err : E) (ret : Option R) (v : V) : Except (Err D E × Level) (Option R) :=
  match entries with
  | [] => finish handler (some (.orig err)) .error ret
  | es =>
    let v0 := match statusOf err with
      | some s => setError s v
      | none => v
    match entriesLoop ty (defaults ty (statusOf err)) ret es v0 with
    | .error _ => finish handler (some (.orig err)) .error ret
    | .ok (some (s, lvl), r) => finish handler (statusErr s) lvl r
    | .ok (none, r) => finish handler (some (.orig err)) .error r

/-- The errors of a validation: an evaluation error or the configured status. -/
inductive VErr (X D : Type) where
  | eval (x : X)
  | status (s : Status D)
deriving DecidableEq, Repr

/-- The message of a validation, `generator/templates/validation.go.tmpl` lines 18-31. -/
def validationMessage (e : Entry V X D R) (v : V) : Except X String :=
  match e.message with
  | some f => f v
  | none => .ok "error"

/-- `messageValidation`, `generator/templates/validation.go.tmpl` lines 1-119: nil or the error. -/
def runValidation (ty : Types D) (code : Nat) (e : Entry V X D R) (v : V) : Option (VErr X D) :=
  match runDefs e.defs v with
  | .error x => some (.eval x)
  | .ok v1 => match e.cond v1 with
    | .error x => some (.eval x)
    | .ok false => none
    | .ok true =>
      match validationMessage e v1 with
      | .error x => some (.eval x)
      | .ok msg => match e.details with
        | [] => verr (⟨code, msg, []⟩ : Status D)
        | ds => match runDetails ds v1 [] with
          | .error x => some (.eval x)
          | .ok (_, l) => verr (statusWithDetails ty code msg l)
where
  /-- `stat.Err()`, `generator/templates/validation.go.tmpl` line 118 -/
  verr (s : Status D) : Option (VErr X D) := if s.code = okCode then none else some (.status s)

/-- Code of the status an evaluation error is turned into. -/
def internalCode : Nat := 13

/-- The validation as a definition: `evalDef`, `grpc/federation/cel.go` lines 556-563: an error that is no status is
wrapped as Internal. `statusOf` says whether an evaluation error is a status, `text` is its text. -/
def evalValidation (ty : Types D) (code : Nat) (e : Entry V X D R) (statusOf : X → Option (Status D))
    (text : X → String) (v : V) : Option (Status D) :=
  match runValidation ty code e v with
  | none => none
  | some (.status s) => some s
  | some (.eval x) => match statusOf x with
    | some s => some s
    | none => some ⟨internalCode, "failed running validations: " ++ text x, []⟩

end Verif.ErrH
