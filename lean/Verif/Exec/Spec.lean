import Verif.Exec.Model
import Verif.Graph.Spec

/-!
# Vocabulary for the execution properties

A log lists what happened, newest event first, so in `post ++ e :: pre` the list `pre` is what
happened before `e`.
-/

namespace Verif.Exec

open Verif.Graph (Grp)

/-- Some evaluation of `d` has succeeded. -/
def FinOk (log : List Event) (d : Nat) : Prop := ∃ f, Event.fin d f none ∈ log

/-- Some evaluation of `d` has started. -/
def Started (log : List Event) (d : Nat) : Prop := ∃ f, Event.start d f ∈ log

/-- Whenever an evaluation started, all the definitions it has to wait for had been evaluated
successfully. -/
def StartsAfter (dep : Nat → Nat → Prop) (log : List Event) : Prop :=
  ∀ post b f pre, log = post ++ Event.start b f :: pre → ∀ a, dep b a → FinOk pre a

/-- Whenever an evaluation of `d` started, every earlier evaluation of `d` had ended. -/
def NoOverlap (log : List Event) : Prop :=
  ∀ post d f pre, log = post ++ Event.start d f :: pre →
    ∀ f', Event.start d f' ∈ pre → ∃ r, Event.fin d f' r ∈ pre

/-- A number of steps of the system. -/
inductive Steps : Nat → Sys → Sys → Prop where
  | refl (s) : Steps 0 s s
  | step {n s s' s''} : Steps n s s' → SStep s' s'' → Steps (n + 1) s s''

end Verif.Exec
