/-!
# Calls with a timeout

Models `WithTimeout` (`grpc/federation/lib.go` lines 16-57): the calling goroutine, the worker
goroutine, the channel `errch` and the context, as a state machine whose steps interleave freely.
-/

namespace Verif.Timeout

/-- Why a context is done: its deadline passed, or the parent context was cancelled. -/
inductive Cause where
  | deadline
  | canceled
deriving DecidableEq, Repr

/-- Errors the call can return. `body` errors come from the callee. -/
inductive Err (E : Type) where
  | body (e : E)
  /-- `RecoverError`, line 32 -/
  | recovered (p : Nat)
  /-- the status built in lines 42-53: code DeadlineExceeded, message `ctx.Err().Error()` -/
  | deadlineExceeded (msg : Cause)
deriving DecidableEq, Repr

/-- How the body ends: it returns a value and an error, or panics. -/
inductive BodyEnd (T E : Type) where
  | ret (res : Option T) (err : Option E)
  | panic (p : Nat)
deriving DecidableEq, Repr

/-- The worker goroutine (lines 29-39): running the body, having ended it and about to send, or
finished. -/
inductive Worker (T E : Type) where
  | running
  | sending (b : BodyEnd T E)
  | exited (b : BodyEnd T E)
deriving DecidableEq, Repr

/-- The calling goroutine: in the `select` (line 40), or returned. -/
inductive Caller (T E : Type) where
  | waiting
  | returned (res : Option T) (err : Option (Err E))
deriving DecidableEq, Repr

/-- Capacity of `errch`, line 27. -/
def bufCap : Nat := 1

/-- State: caller, worker, the variable `ret` (line 20), the channel buffer and the context. -/
structure St (T E : Type) where
  caller : Caller T E
  worker : Worker T E
  ret : Option T
  buf : List (Option (Err E))
  done : Option Cause
deriving DecidableEq, Repr

/-- Lines 17-29. The parent context may already be cancelled. -/
def St.init {T E} (d : Option Cause) : St T E := ⟨.waiting, .running, none, [], d⟩

/-- The value the worker sends: line 38, or line 32 after a panic. -/
def sendVal {T E} : BodyEnd T E → Option (Err E)
  | .ret _ err => err.map .body
  | .panic p => some (.recovered p)

/-- One step of one of the goroutines, of the timer or of the parent context. -/
inductive Step {T E} : St T E → St T E → Prop where
  /-- lines 36-37: the body returns, `ret = res` -/
  | bodyRet {s res err} : s.worker = .running →
      Step s { s with worker := .sending (.ret res err), ret := res }
  /-- lines 30-34: the body panics -/
  | bodyPanic {s p} : s.worker = .running → Step s { s with worker := .sending (.panic p) }
  /-- lines 32 and 38: send into the buffer, possible when there is room -/
  | send {s b} : s.worker = .sending b → s.buf.length < bufCap →
      Step s { s with worker := .exited b, buf := s.buf ++ [sendVal b] }
  /-- lines 32 and 38 with 54: hand over to a caller that is waiting in the select -/
  | handOver {s b} : s.worker = .sending b → s.caller = .waiting → s.buf = [] →
      Step s { s with worker := .exited b, caller := .returned s.ret (sendVal b) }
  /-- the deadline passes or the parent is cancelled -/
  | ctxDone {s c} : s.done = none → Step s { s with done := some c }
  /-- lines 41-53 -/
  | timeout {s c} : s.caller = .waiting → s.done = some c →
      Step s { s with caller := .returned none (some (.deadlineExceeded c)) }
  /-- lines 54-55 -/
  | recv {s x rest} : s.caller = .waiting → s.buf = x :: rest →
      Step s { s with caller := .returned s.ret x, buf := rest }
  /-- line 18: `defer cancel()` -/
  | cancelOnReturn {s r e} : s.caller = .returned r e → s.done = none →
      Step s { s with done := some .canceled }

/-- Reachable states, with the trace of body ends (at most one) kept by the worker itself. -/
inductive Reach {T E} (d : Option Cause) : St T E → Prop where
  | init : Reach d (.init d)
  | step {s s'} : Reach d s → Step s s' → Reach d s'

end Verif.Timeout
