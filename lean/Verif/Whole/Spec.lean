import Verif.Whole.Model
import Verif.Value.Spec
import Verif.AllGraph.Spec

/-! # What a message means: its definitions one after the other -/

namespace Verif.Whole
open Verif.Graph (Def DistinctNames NoSelfRef)
open Verif.Value (Store Outcome)

variable {V : Type}

/-- The value of a definition or an element, if messages answer `ans`. -/
def simpleValue (ans : Nat → Store V → Option V) : Simple V → Store V → Option V
  | .pure f, vars => f vars
  | .message m args, vars => (args vars).bind (ans m)

/-- All elements, or nothing if one fails. -/
def allOf (f : V → Option V) : List V → Option (List V)
  | [] => some []
  | u :: us => (f u).bind fun v => (allOf f us).map (v :: ·)

def bodyValue (ans : Nat → Store V → Option V) (list : List V → V) : Body V → Store V → Option V
  | .simple s, vars => simpleValue ans s vars
  | .map src iter elem, vars => (src vars).bind fun us =>
      (allOf (fun u => simpleValue ans elem fun n => if n = iter then some u else vars n) us).map list

/-- The value of a definition: the zero value if its condition does not hold. -/
def defValue (ans : Nat → Store V → Option V) (list : List V → V) (d : WDef V) (vars : Store V) : Option V :=
  match d.cond with
  | none => bodyValue ans list d.body vars
  | some c => match c vars with
    | none => none
    | some b => if b then bodyValue ans list d.body vars else some d.zero

/-- The variables after definitions evaluated one after the other. -/
def run (ans : Nat → Store V → Option V) (list : List V → V) : List (WDef V) → Store V → Option (Store V)
  | [], vars => some vars
  | d :: ds, vars => (defValue ans list d vars).bind fun v => run ans list ds fun n => if n = d.defn.name then some v else vars n

/-- The answer of a message, with messages nested less than `n` deep: its definitions one after the other, then its fields. -/
def answer (P : Prog V) : Nat → Nat → Store V → Option V
  | 0, _, _ => none
  | n + 1, m, args => match P.msgs[m]? with
    | none => none
    | some M => (run (answer P n) P.list M.defs args).bind M.build

/-- `f` depends only on the variables in `ns`. -/
def Reads {α : Type} (f : Store V → α) (ns : String → Prop) : Prop :=
  ∀ view view' : Store V, (∀ n, ns n → view n = view' n) → f view = f view'

/-- A definition reads only variables that it refers to (C09); elements of a `map` also the iterator. -/
def simpleReads (s : Simple V) (ns : String → Prop) : Prop :=
  match s with
  | .pure f => Reads f ns
  | .message _ args => Reads args ns

def defReads (d : WDef V) : Prop :=
  (∀ c, d.cond = some c → Reads c fun n => n ∈ d.defn.refs ∧ n ≠ d.defn.iter) ∧
  match d.body with
  | .simple s => simpleReads s fun n => n ∈ d.defn.refs ∧ n ≠ d.defn.iter
  | .map src iter elem => iter = d.defn.iter ∧ Reads src (fun n => n ∈ d.defn.refs ∧ n ≠ iter) ∧ simpleReads elem (· ∈ d.defn.refs)

/-- The messages that are used. -/
def uses : Body V → List Nat
  | .simple (.message m _) => [m]
  | .map _ _ (.message m _) => [m]
  | _ => []

/-- What the resolver guarantees about a message: names are told apart and given (C66), no definition refers to itself (C08) or
to a later one, evaluations read only what they refer to (C09), and the messages that are used exist. -/
structure SoundMsg (P : Prog V) (M : Msg V) : Prop where
  names : DistinctNames (M.defs.map (·.defn))
  named : ∀ d ∈ M.defs, d.defn.name ≠ ""
  noSelf : NoSelfRef (M.defs.map (·.defn))
  earlier : ∀ (i j : Nat) (d e : WDef V), M.defs[i]? = some d → M.defs[j]? = some e → e.defn.name ∈ d.defn.refs →
    e.defn.name ≠ d.defn.iter → j ≤ i
  reads : ∀ d ∈ M.defs, defReads d
  exist : ∀ d ∈ M.defs, ∀ m ∈ uses d.body, m < P.msgs.length

end Verif.Whole
