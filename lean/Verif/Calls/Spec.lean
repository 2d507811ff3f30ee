import Verif.Calls.Model
import Verif.Whole.Spec

/-! # The calls that definitions make one after the other -/

namespace Verif.Calls
open Verif.Graph (Def DependsOn)
open Verif.Value (Store Outcome)
open Verif.Whole

variable {V C : Type}

/-- The calls of a definition or an element, if messages make the calls `tr`. -/
def simpleCalls (tr : Nat → Store V → List C) (own : Store V → List C) : Simple V → Store V → List C
  | .pure _, vars => own vars
  | .message m args, vars => match args vars with
    | none => []
    | some a => tr m a

/-- The calls of the body of a definition: for a `map` those of its elements in order. -/
def bodyCalls (tr : Nat → Store V → List C) (own : Store V → List C) : Body V → Store V → List C
  | .simple s, vars => simpleCalls tr own s vars
  | .map src iter elem, vars => match src vars with
    | none => []
    | some us => us.flatMap fun u => simpleCalls tr own elem fun n => if n = iter then some u else vars n

/-- The calls of a definition: none if its condition does not hold. -/
def defCalls (tr : Nat → Store V → List C) (own : Store V → List C) (d : WDef V) (vars : Store V) : List C :=
  match d.cond with
  | none => bodyCalls tr own d.body vars
  | some c => if c vars = some true then bodyCalls tr own d.body vars else []

/-- The calls of definitions evaluated one after the other; `i` is the number of the first. -/
def runCalls (ans : Nat → Store V → Option V) (tr : Nat → Store V → List C) (own : Nat → Store V → List C) (list : List V → V) :
    Nat → List (WDef V) → Store V → List C
  | _, [], _ => []
  | i, d :: ds, vars => defCalls tr (own i) d vars ++
    match defValue ans list d vars with
    | none => []
    | some v => runCalls ans tr own list (i + 1) ds fun n => if n = d.defn.name then some v else vars n

/-- The calls made for a message, with messages nested less than `n` deep: those of its definitions one after the other. -/
def calls (P : Prog V) (own : Own V C) : Nat → Nat → Store V → List C
  | 0, _, _ => []
  | n + 1, m, args => match P.msgs[m]? with
    | none => []
    | some M => runCalls (answer P n) (calls P own n) (own m) P.list 0 M.defs args

/-- The calls of a definition depend only on the variables that it refers to (C09), those of an element also on the iterator. -/
def ownReads (d : WDef V) (own : Store V → List C) : Prop :=
  match d.body with
  | .simple _ => Reads own fun n => n ∈ d.defn.refs ∧ n ≠ d.defn.iter
  | .map _ _ _ => Reads own (· ∈ d.defn.refs)

/-- What the resolver guarantees about the calls. -/
def SoundCalls (P : Prog V) (own : Own V C) : Prop :=
  ∀ (m : Nat) (M : Msg V), P.msgs[m]? = some M → ∀ (i : Nat) (d : WDef V), M.defs[i]? = some d → ownReads d (own m i)

/-- How many evaluations of definition `d` have ended. -/
def fins (d : Nat) (log : List Verif.Exec.Event) : Nat := log.countP fun e => match e with
  | .fin d' _ _ => d' == d
  | _ => false

/-- No two definitions wait for the same one. -/
def Unshared (defs : List Def) : Prop := ∀ a b c : Nat, DependsOn defs b a → DependsOn defs c a → b = c

end Verif.Calls
