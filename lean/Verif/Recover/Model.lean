/-!
# Model: recovered panics and logs of errors

Source: `grpc/federation/error.go` (all), the `recover` of the generated methods
(`generator/templates/server.go.tmpl` lines 472-477) and of calls with a timeout (`grpc/federation/lib.go`
lines 29-39), and where generated code adds a log level and attributes to an error
(`generator/templates/error_handler.go.tmpl` lines 192-211, `generator/templates/validation.go.tmpl` line 118).

Texts are lists of characters.  Code of other modules, as it is documented there:
`golang.org/x/sync/singleflight` turns a panic into another one whose text is that of the first one, an empty
line and the stack without its first line; `google.golang.org/grpc/status.FromError` and `Convert`.
-/

namespace Verif.Recover

abbrev Text := List Char

/-- `strings.Split(s, "\n")`. -/
def splitLines : Text → List Text
  | [] => [[]]
  | c :: cs =>
    if c = '\n' then [] :: splitLines cs
    else (c :: (splitLines cs).headD []) :: (splitLines cs).tail

/-- `strings.TrimPrefix(line, "\t")`. -/
def trimTab : Text → Text
  | [] => []
  | c :: cs => if c = '\t' then cs else c :: cs

/-- The loops over lines, `grpc/federation/error.go` lines 108-114 and 122-128. -/
def stackLines (lines : List Text) : List Text := (lines.filter (· ≠ [])).map trimTab

/-- `RecoveredError`, `grpc/federation/error.go` lines 20-23. -/
structure Recovered where
  message : Text
  stack : List Text
  deriving DecidableEq

/-- `RecoverError`, `grpc/federation/error.go` lines 103-133.  `msg` is `fmt.Sprint(v)`. -/
def recoverError (msg rawStack : Text) : Recovered :=
  if (splitLines msg).length ≤ 1 then ⟨msg, stackLines (splitLines rawStack)⟩
  else ⟨(splitLines msg).headD [], stackLines (splitLines msg).tail⟩

/-! ## Propagation -/

/-- How a call ends: the error is a recovered panic or any other one. -/
inductive Outcome
  | ok
  | error (code : Nat)
  | recovered (e : Recovered)
  | panic (text : Text)
  deriving DecidableEq

/-- What surrounds a call: `singleflight.Group.Do`, with the stack it sees, or one of the functions with a
`recover`, with the stack it sees: `GoWithRecover` (`grpc/federation/error.go` lines 29-39), `WithTimeout`
(`grpc/federation/lib.go` lines 29-39) and the generated method (`generator/templates/server.go.tmpl` lines
472-477). -/
inductive Frame
  | flight (stack : Text)
  | guard (stack : Text)

/-- The stack of a panic of singleflight: without the line of the goroutine. -/
def dropFirstLine (s : Text) : Text := if '\n' ∈ s then (s.dropWhile (· ≠ '\n')).tail else s

/-- The outcome of a surrounding call. -/
def frame (f : Frame) : Outcome → Outcome
  | .panic t =>
    match f with
    | .flight s => .panic (t ++ '\n' :: '\n' :: dropFirstLine s)
    | .guard s => .recovered (recoverError t s)
  | o => o

/-- The outcome of all surrounding calls, the innermost first. -/
def surround (fs : List Frame) (o : Outcome) : Outcome := fs.foldl (fun o f => frame f o) o

/-! ## Logs -/

/-- Log levels. -/
inductive Level
  | debug | info | warn | error
  deriving DecidableEq

/-- An error: one with a gRPC status, a recovered panic, any other one, one with a log level and attributes
(`ErrorWithLogAttrs`, `grpc/federation/error.go` lines 41-68), or one that wraps another one and has its own
text. -/
inductive Err
  | plain (text : Text)
  | status (code : Nat) (text : Text)
  | recovered (e : Recovered)
  | withAttrs (e : Err) (level : Level) (attrs : List Nat)
  | wrap (text : Text) (e : Err)

/-- `"recovered error: "`, `grpc/federation/error.go` line 26. -/
def recoveredPrefix : Text := ['r', 'e', 'c', 'o', 'v', 'e', 'r', 'e', 'd', ' ', 'e', 'r', 'r', 'o', 'r', ':', ' ']

/-- `Error()`.  `statusText` is the text of an error with a status. -/
def Err.text (statusText : Nat → Text → Text) : Err → Text
  | .plain t => t
  | .status c t => statusText c t
  | .recovered e => recoveredPrefix ++ e.message
  | .withAttrs e _ _ => e.text statusText
  | .wrap t _ => t

/-- `grpcstatus.FromError` if its second result is true: code and message.  `ErrorWithLogAttrs` has the status
`Convert` makes of its error (`grpc/federation/error.go` lines 55-57), that is unknown (2) with the text of the
error if it has none. -/
def Err.status? (statusText : Nat → Text → Text) : Err → Option (Nat × Text)
  | .plain _ => none
  | .status c t => some (c, t)
  | .recovered _ => none
  | .withAttrs e _ _ => some ((e.status? statusText).getD (2, e.text statusText))
  | .wrap t e => (e.status? statusText).map fun s => (s.1, t)

/-- `errors.As` for `ErrorWithLogAttrs`. -/
def Err.attrs? : Err → Option (Level × List Nat)
  | .withAttrs _ l as => some (l, as)
  | .wrap _ e => e.attrs?
  | _ => none

/-- `errors.As` for `RecoveredError`. -/
def Err.recovered? : Err → Option Recovered
  | .recovered e => some e
  | .withAttrs e _ _ => e.recovered?
  | .wrap _ e => e.recovered?
  | _ => none

/-- A line of the log: level, message, attributes, the code in the group `grpc_status` and the group
`stack_trace` with its numbered lines. -/
structure Line where
  level : Level
  message : Text
  attrs : List Nat
  code : Option Nat
  stack : List (Nat × Text)
  deriving DecidableEq

/-- The numbering of the stack, `grpc/federation/error.go` lines 94-96. -/
def numbered : Nat → List Text → List (Nat × Text)
  | _, [] => []
  | n, t :: ts => (n + 1, t) :: numbered (n + 1) ts

/-- `OutputErrorLog`, `grpc/federation/error.go` lines 70-101. -/
def outputErrorLog (statusText : Nat → Text → Text) (e : Err) : Line :=
  match e.status? statusText with
  | some s => ⟨(e.attrs?.getD (.error, [])).1, s.2, (e.attrs?.getD (.error, [])).2, some s.1, []⟩
  | none =>
    match e.recovered? with
    | some r => ⟨.error, r.message, [], none, numbered 0 r.stack⟩
    | none => ⟨.error, e.text statusText, [], none, []⟩

end Verif.Recover
