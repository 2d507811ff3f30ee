import Verif.Exec.Model

/-!
# Values of the variables while the definitions of a message run

Adds values to the machine of `Verif.Exec`: the variables of a `LocalValue` (`evalValues`, `grpc/federation/cel.go` lines
310-316 and 429-431), which evaluations read while they run and write when they end (`evalDef`, lines 520-589).

An evaluation reads the variables at any times between its start and its end (each expression copies them, lines 414-420).
What it may have read is therefore any value that the variable had since the start.  Simplification: the write (lines
575-581) and the end of the evaluation are one step; what an evaluation computes from what it has read is a parameter, and
services answer the same to the same request.
-/

namespace Verif.Value
open Verif.Graph (Def Grp)
open Verif.Exec

/-- The variables with their values, `evalValues`, `grpc/federation/cel.go` lines 310-316. -/
abbrev Store (V : Type) := String → Option V

/-- `setEvalValue`, `grpc/federation/cel.go` lines 429-431. -/
def set {V : Type} (st : Store V) (n : String) (v : V) : Store V := fun m => if m = n then some v else st m

/-- The variable of definition `d` is written. -/
def write {V : Type} (defs : List Def) (st : Store V) (d : Nat) (v : V) : Store V :=
  match defs[d]? with
  | some D => set st D.name v
  | none => st

/-- How an evaluation ends by itself. -/
inductive Outcome (V : Type) where
  | ok (v : V)
  | fail (k : Nat)
  | panic

/-- The error of an evaluation, as the machine of `Verif.Exec` has it. -/
def Outcome.res {V : Type} (d : Nat) : Outcome V → Res
  | .ok _ => none
  | .fail k => some (.own d k)
  | .panic => some (.panicked d)

/-- The state: that of `Verif.Exec`, the variables, and for each evaluation the values that each variable had since it
started. -/
structure VSys (V : Type) where
  sys : Sys
  store : Store V
  seen : Nat → Nat → String → Option V → Prop

/-- After a write all running evaluations may see the new value. -/
def noticed {V : Type} (seen : Nat → Nat → String → Option V → Prop) (st : Store V) : Nat → Nat → String → Option V → Prop :=
  fun d f n x => seen d f n x ∨ x = st n

/-- The error of a cancelled context. -/
def IsCancel : Err → Prop
  | .canceled _ => True
  | _ => False

/-- One step: a step of `Verif.Exec`, and what it does to the variables.  `eval d view` is what the evaluation of definition
`d` gives if it reads `view`. -/
inductive VStep {V : Type} (defs : List Def) (eval : Nat → Store V → Outcome V) : VSys V → VSys V → Prop where
  /-- a step that neither starts nor ends an evaluation -/
  | quiet {s s' st seen} : SStep s s' → s'.g.log = s.g.log → VStep defs eval ⟨s, st, seen⟩ ⟨s', st, seen⟩
  /-- an evaluation starts -/
  | start {s s' st seen d f} : SStep s s' → s'.g.log = .start d f :: s.g.log →
      VStep defs eval ⟨s, st, seen⟩
        ⟨s', st, fun d' f' n x => if d' = d ∧ f' = f then x = st n else seen d' f' n x⟩
  /-- an evaluation ends with a value, which is written (`grpc/federation/cel.go` lines 567-580) -/
  | ok {s s' st seen d f view v} : SStep s s' → s'.g.log = .fin d f none :: s.g.log →
      (∀ n, seen d f n (view n)) → eval d view = .ok v →
      VStep defs eval ⟨s, st, seen⟩ ⟨s', write defs st d v, noticed seen (write defs st d v)⟩
  /-- an evaluation ends with an error, by itself or because it is cancelled; it may have written any value (the variable is
  written although there is an error, `grpc/federation/cel.go` lines 570-580) -/
  | fail {s s' st seen d f x} (st' : Store V) : SStep s s' → s'.g.log = .fin d f (some x) :: s.g.log →
      (IsCancel x ∨ ∃ view : Store V, (∀ n, seen d f n (view n)) ∧ (eval d view).res d = some x) →
      (st' = st ∨ ∃ v, st' = write defs st d v) →
      VStep defs eval ⟨s, st, seen⟩ ⟨s', st', noticed seen st'⟩

/-- The states that some schedule leads to; `st0` holds the arguments of the message. -/
inductive VReach {V : Type} (defs : List Def) (eval : Nat → Store V → Outcome V) (gs : List Grp) (st0 : Store V) :
    VSys V → Prop where
  | init : VReach defs eval gs st0 ⟨.init gs false, st0, fun _ _ _ _ => False⟩
  | step {s s'} : VReach defs eval gs st0 s → VStep defs eval s s' → VReach defs eval gs st0 s'

end Verif.Value
