import Verif.AllGraph.Model

/-! # Declarative reading of "message `a` depends on message `b`" -/

namespace Verif.AllGraph

/-- The definition mentions the message `m`, at any depth. -/
inductive Mentions : MDef → Nat → Prop where
  | message (m) : Mentions (.message m) m
  | map (m) : Mentions (.map m) m
  | nested {ds d m} : d ∈ ds → Mentions d m → Mentions (.nested ds) m

/-- Message `a` has the message option and one of its definitions mentions `b`, which has it too. -/
def Depends (msgs : List Msg) (a b : Nat) : Prop :=
  (∃ defs, msgs[a]? = some (some defs) ∧ ∃ d ∈ defs, Mentions d b) ∧ ∃ defs, msgs[b]? = some (some defs)

/-- Depends through one or more steps. -/
inductive DependsT (msgs : List Msg) : Nat → Nat → Prop where
  | one {a b} : Depends msgs a b → DependsT msgs a b
  | more {a b c} : Depends msgs a b → DependsT msgs b c → DependsT msgs a c

/-- A message with the option that no message depends on. -/
def IsRoot (msgs : List Msg) (r : Nat) : Prop :=
  (∃ defs, msgs[r]? = some (some defs)) ∧ ∀ a, ¬ Depends msgs a r

end Verif.AllGraph
