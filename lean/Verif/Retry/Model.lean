/-!
# Retried calls

Models the retry policy from its declaration to the calls it makes: `resolveRetry` and its helpers
(`resolver/resolver.go` lines 3376-3496), the `retry` template
(`generator/templates/retry.go.tmpl` lines 1-17), `BackOffWithMaxRetries` / `BackOffWithContext`
(`grpc/federation/alias.go` lines 90-100), `WithRetry` (`grpc/federation/lib.go` lines 96-122) and
the part of `github.com/cenkalti/backoff/v4` it runs on (`doRetryNotify`, `backOffTries`,
`backOffContext`; trusted, since that package is not in `/repo`).

Time is not modelled: whether the base policy says stop (elapsed time), whether the context is done
when the policy is consulted, what each attempt returns and what the condition evaluates to are
arbitrary functions of the attempt number.
-/

namespace Verif.Retry

/-- `resolver.go` lines 3422-3425 and 3478-3481: the default is 5. -/
def declaredMax (declared : Option Nat) : Nat :=
  match declared with
  | some n => n
  | none => 5

/-- `retry.go.tmpl` lines 13-15: the limiting policy is generated only for a non-zero maximum. -/
def limiter (max : Nat) : Option Nat := if max = 0 then none else some max

/-- What happens outside the retry loop. -/
structure Env (T E X : Type) where
  /-- result of the i-th call of `param.Body` -/
  attempt : Nat → Except E T
  /-- the i-th evaluation of `param.If`, given the value of the `error` variable -/
  cond : Nat → Option E → Except X Bool
  /-- whether `SetGRPCError` accepts the error: it is a gRPC status -/
  isStatus : E → Bool
  /-- the base policy says Stop at the i-th consultation -/
  baseStop : Nat → Bool
  /-- the context is done at the i-th consultation -/
  ctxDone : Nat → Bool

/-- The error returned by the operation: `backoff.Permanent` or plain. -/
inductive OpErr (E X : Type) where
  | permanentEval (x : X)
  | permanent (e : E)
  | plain (e : E)
deriving DecidableEq, Repr

/-- The error returned by the whole call: the body's, or the condition's evaluation error. -/
inductive Err (E X : Type) where
  | body (e : E)
  | eval (x : X)
deriving DecidableEq, Repr

/-- `SetGRPCError`, `grpc/federation/cel.go` lines 818-822: an error that is not a status leaves the variable. -/
def setErr {T E X} (env : Env T E X) (var : Option E) (e : E) : Option E :=
  if env.isStatus e then some e else var

/-- The function passed to `backoff.Retry`, `grpc/federation/lib.go` lines 98-117. The second component is the
`error` variable after it. -/
def op {T E X} (env : Env T E X) (i : Nat) (var : Option E) : Except (OpErr E X) T × Option E :=
  match env.attempt i with
  | .ok v => (.ok v, var)
  | .error e =>
    let var' := setErr env var e
    match env.cond i var' with
    | .error x => (.error (.permanentEval x), var')
    | .ok false => (.error (.permanent e), var')
    | .ok true => (.error (.plain e), var')

/-- `NextBackOff` of the generated policy: context outermost (`retry.go.tmpl` line 16), then the
limit, then the base policy. `none` is Stop, otherwise the new number of tries. -/
def nextBackOff {T E X} (env : Env T E X) (lim : Option Nat) (i tries : Nat) : Option Nat :=
  if env.ctxDone i then none
  else match lim with
    | none => if env.baseStop i then none else some tries
    | some max => if max ≤ tries then none else if env.baseStop i then none else some (tries + 1)

/-- `doRetryNotify`: `fuel` bounds the number of iterations looked at, `none` means that the loop is
still going. The result carries the number of attempts made. -/
def loop {T E X} (env : Env T E X) (lim : Option Nat) :
    (fuel i tries : Nat) → Option E → Option (Nat × Except (Err E X) T)
  | 0, _, _, _ => none
  | fuel + 1, i, tries, var =>
    match op env i var with
    | (.ok v, _) => some (i + 1, .ok v)
    | (.error (.permanentEval x), _) => some (i + 1, .error (.eval x))
    | (.error (.permanent e), _) => some (i + 1, .error (.body e))
    | (.error (.plain e), var') =>
      match nextBackOff env lim i tries with
      | none => some (i + 1, .error (.body e))
      | some tries' => loop env lim fuel (i + 1) tries' var'

/-- A retried call, from the declared maximum. -/
def withRetry {T E X} (env : Env T E X) (declared : Option Nat) (fuel : Nat) :
    Option (Nat × Except (Err E X) T) :=
  loop env (limiter (declaredMax declared)) fuel 0 0 none

end Verif.Retry
