import Verif.Graph.Model

/-!
# Dependency graph of all messages

Models `resolver/graph.go` lines 11-222 and 450-488: which message depends on which, and the check
for cyclic dependencies between messages.  A message is identified with its position in the list
`r.allMessages(files)`; a message without the message option is `none`.
-/

namespace Verif.AllGraph

/-- What `buildVariableDefinition` (`resolver/graph.go` lines 100-115) distinguishes in a definition:
a message expression (123-154), a map over a message expression (156-194), an expression with error
entries — call or validation — whose nested definitions are visited in order (117-121, 196-222), or
anything else. -/
inductive MDef where
  | message (m : Nat)
  | map (m : Nat)
  | nested (defs : List MDef)
  | other

/-- A message: `none` without message option (`msg.Rule == nil`), otherwise its definitions,
followed by those of its oneof fields (lines 75-98). -/
abbrev Msg := Option (List MDef)

/-- Is `m` a key of `msgToNode` (lines 13-19)? -/
def hasNode (msgs : List Msg) (m : Nat) : Bool :=
  match msgs[m]? with
  | some (some _) => true
  | _ => false

mutual
/-- `buildVariableDefinition` and the functions below it, lines 100-222.  `acc` is `b.node.Children`
so far, which is also the key set of `b.childMap`.
Simplification: a dependency on a message without message option creates a node of its own (line
137/178) that has no children, is not in `msgToNode` and so is neither a root nor on a cycle: it is
left out, and so is the error reported for it (lines 139-146 and 179-186). -/
def addDef (msgs : List Msg) : MDef → List Nat → List Nat
  | .message m, acc => if m ∈ acc then acc else if hasNode msgs m then acc ++ [m] else acc
  | .map m, acc => if m ∈ acc then acc else if hasNode msgs m then acc ++ [m] else acc
  | .nested defs, acc => addDefs msgs defs acc
  | .other, acc => acc
/-- The loops over definitions, lines 78-80, 88-96, 118-120, 204-209, 216-221. -/
def addDefs (msgs : List Msg) : List MDef → List Nat → List Nat
  | [], acc => acc
  | d :: ds, acc => addDefs msgs ds (addDef msgs d acc)
end

/-- `node.Children` after the second loop, lines 21-27. -/
def children (msgs : List Msg) (n : Nat) : List Nat :=
  match msgs[n]? with
  | some (some defs) => addDefs msgs defs []
  | _ => []

/-- `node.Parent`: extended together with `Children` (lines 149-152 and 189-192). -/
def parents (msgs : List Msg) (m : Nat) : List Nat :=
  (List.range msgs.length).filter fun n => decide (m ∈ children msgs n)

/-- Lines 28-33: the nodes without parent.  Simplification: in declaration order; the Go code
collects them from a map and sorts them by name, which only decides which cycle is reported. -/
def roots (msgs : List Msg) : List Nat :=
  (List.range msgs.length).filter fun m => hasNode msgs m && (parents msgs m).isEmpty

/-- Result of `CreateAllMessageDependencyGraph`: `noGraph` is `nil` without an error (lines 34-36),
`cyclic` is `nil` with a cyclic dependency error (lines 41-44). -/
inductive Verdict where
  | noGraph
  | cyclic
  | graph (roots : List Nat)
deriving DecidableEq, Repr

/-- `CreateAllMessageDependencyGraph`, lines 12-46.  The recursion of
`validateAllMessageGraphNodeCyclicDependency` (lines 466-488) is `Graph.cyclic`; the fuel is shown to
suffice in `Props.lean`. -/
def create (msgs : List Msg) : Option Verdict :=
  if (roots msgs).isEmpty then some .noGraph
  else match Graph.cyclicRoots (children msgs) (msgs.length + 1) (roots msgs) with
    | none => none
    | some true => some .cyclic
    | some false => some (.graph (roots msgs))

end Verif.AllGraph
