/-!
# The CEL program cache

Models `EvalCEL`, `createCELProgram` and the cache (`grpc/federation/cel.go` lines 283-308, 718-776,
806-816) as a state machine in which requests of many goroutines interleave, and the generator's
cache index counter (`generator/code_generator.go` lines 328-346).
-/

namespace Verif.CelCache

/-- What the model leaves to cel-go: compiling an expression in an environment of declared variables
(`NewCELEnv`, `createCELAst`, `env.Program`) and running a program on values
(`program.ContextEval` and the conversion of its result). -/
structure CEL (Expr Env Vals Prog Res Err : Type) where
  compile : Expr → Env → Except Err Prog
  exec : Prog → Vals → Except Err Res
  /-- `ErrCELCacheIndex`, line 726 -/
  errIndex : Err

/-- `EvalCELRequest`, `grpc/federation/cel.go` lines 711-716: cache index and expression are constants of the call site, the
environment and the values come from the local value. -/
structure Req (Expr Env Vals : Type) where
  index : Nat
  expr : Expr
  env : Env
  vals : Vals

variable {Expr Env Vals Prog Res Err : Type}

/-- Evaluation without any cache: compile, then run. -/
def fresh (C : CEL Expr Env Vals Prog Res Err) (r : Req Expr Env Vals) : Except Err Res :=
  match C.compile r.expr r.env with
  | .error e => .error e
  | .ok p => C.exec p r.vals

/-- The shared state: `CELCacheMap` (one per service, `grpc/federation/cel.go` lines 283-288), the programs compiled by
requests that have not stored them yet, and the finished requests with their results. -/
structure St (Expr Env Vals Prog Res Err : Type) where
  cache : Nat → Option Prog
  pending : List (Req Expr Env Vals × Prog)
  log : List (Req Expr Env Vals × Except Err Res)

/-- `NewCELCacheMap`, `grpc/federation/cel.go` lines 291-295. -/
def St.init : St Expr Env Vals Prog Res Err := ⟨fun _ => none, [], []⟩

/-- One atomic action.  `EvalCEL` holds the lock of *its* local value (line 719) only, so requests of
different local values interleave between the lookup (line 757) and the store (line 774). -/
inductive Step (C : CEL Expr Env Vals Prog Res Err) (r : Req Expr Env Vals) :
    St Expr Env Vals Prog Res Err → St Expr Env Vals Prog Res Err → Prop where
  /-- line 725 -/
  | badIndex {s} : r.index = 0 → Step C r s { s with log := (r, .error C.errIndex) :: s.log }
  /-- `grpc/federation/cel.go` lines 757-759, then 733 -/
  | hit {s p} : r.index ≠ 0 → s.cache r.index = some p →
      Step C r s { s with log := (r, C.exec p r.vals) :: s.log }
  /-- `grpc/federation/cel.go` lines 761-772 with an error -/
  | fail {s e} : r.index ≠ 0 → s.cache r.index = none → C.compile r.expr r.env = .error e →
      Step C r s { s with log := (r, .error e) :: s.log }
  /-- `grpc/federation/cel.go` lines 761-772 -/
  | miss {s p} : r.index ≠ 0 → s.cache r.index = none → C.compile r.expr r.env = .ok p →
      Step C r s { s with pending := (r, p) :: s.pending }
  /-- line 774, then 733 -/
  | store {s p} : (r, p) ∈ s.pending →
      Step C r s { s with
        cache := fun i => if i = r.index then some p else s.cache i
        log := (r, C.exec p r.vals) :: s.log }

/-- States reachable by requests from the set `R`, in any interleaving. -/
inductive Reach (C : CEL Expr Env Vals Prog Res Err) (R : Req Expr Env Vals → Prop) :
    St Expr Env Vals Prog Res Err → Prop where
  | init : Reach C R .init
  | step {s s' r} : Reach C R s → R r → Step C r s s' → Reach C R s'

/-! ## Cache indexes in the generated code -/

/-- A code template: text, an expression site (which takes the next cache index), or a sequence —
the result of `range`, `if` and `template` actions on a given input.  The 35 sites are the
occurrences of `.CELCacheIndex` in `generator/templates/*.tmpl`. -/
inductive Tmpl (Expr : Type) where
  | text (s : String)
  | site (e : Expr)
  | seq (ts : List (Tmpl Expr))

mutual
/-- Rendering: `Service.CELCacheIndex` increments the counter of the service and returns it
(`generator/code_generator.go` lines 343-346).  Result: the counter afterwards and the emitted
expression sites with their index. -/
def render {Expr} : Tmpl Expr → Nat → Nat × List (Nat × Expr)
  | .text _, n => (n, [])
  | .site e, n => (n + 1, [(n + 1, e)])
  | .seq ts, n => renderL ts n
def renderL {Expr} : List (Tmpl Expr) → Nat → Nat × List (Nat × Expr)
  | [], n => (n, [])
  | t :: ts, n =>
    let (n1, a) := render t n
    let (n2, b) := renderL ts n1
    (n2, a ++ b)
end

/-- Code of one service: the counter starts at zero (`newService`, `generator/code_generator.go` lines 335-341). -/
def generate {Expr} (t : Tmpl Expr) : List (Nat × Expr) := (render t 0).2

end Verif.CelCache
