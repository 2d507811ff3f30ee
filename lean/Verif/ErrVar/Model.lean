/-!
# The `error` variable

Models `SetGRPCError` (`grpc/federation/cel.go` lines 818-875) and the reads of the `error`
variable by the retry conditions and error entries of the calls of one message
(`grpc/federation/lib.go` lines 100-107, `generator/templates/error_handler.go.tmpl` lines 6,
39-41, 66). All calls of a message share one local value, and every access holds its lock
(`grpc/federation/cel.go` lines 719-720, 872-874), so an execution is an interleaving of atomic accesses.
-/

namespace Verif.ErrVar

/-- An access by the handler of a call: `set c e` when an attempt of call `c` failed with `e`,
`read c` when an expression of its handler is evaluated. -/
inductive Access (E : Type) where
  | set (c : Nat) (e : E)
  | read (c : Nat)
deriving DecidableEq, Repr

/-- The call that makes the access. -/
def Access.call {E} : Access E → Nat
  | .set c _ => c
  | .read c => c

/-- `SetGRPCError`, `grpc/federation/cel.go` lines 819-822: an error that is no status is not stored. -/
def store {E} (isStatus : E → Bool) (var : Option E) (e : E) : Option E :=
  if isStatus e then some e else var

/-- One access: the new variable and what was read. -/
def access {E} (isStatus : E → Bool) (var : Option E) : Access E → Option E × Option (Option E)
  | .set _ e => (store isStatus var e, none)
  | .read _ => (var, some var)

/-- The variable after a sequence of accesses. -/
def varAfter {E} (isStatus : E → Bool) (var : Option E) (t : List (Access E)) : Option E :=
  t.foldl (fun v a => (access isStatus v a).1) var

/-- What the access at the end of a history sees. -/
def seenAt {E} (isStatus : E → Bool) (t : List (Access E)) (a : Access E) : Option (Option E) :=
  (access isStatus (varAfter isStatus none t) a).2

end Verif.ErrVar
