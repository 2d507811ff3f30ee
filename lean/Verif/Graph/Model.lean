/-!
# Dependency graph of the variable definitions of one message

Models `resolver/graph.go` lines 224-405: how the definitions of a message become a graph,
how the graph is checked, and how it is turned into the groups the generated code executes.

A node of the Go graph (`*MessageDependencyGraphNode`) is identified here with the position of its
definition in the declaration list, because the Go code creates exactly one node per definition
(lines 301-305) and compares nodes by pointer.
-/

namespace Verif.Graph

/-- What `resolver/graph.go` reads of a `*VariableDefinition` (lines 331-345, 372):
its name, `ReferenceNames()`, the iterator name of a `map` expression (`""` when there is none,
exactly like the Go zero value at line 341) and `IsValidation()`.
Simplification: how the reference names are collected is a separate model (`Verif.Refs`). -/
structure Def where
  name : String
  refs : List String
  iter : String := ""
  isValidation : Bool := false
deriving Repr, DecidableEq

/-- `Children`/`Parent` slices of all nodes (`resolver/graph.go` lines 288-295).
`ChildrenMap`/`ParentMap` only answer "is it already in the slice", so they are not kept apart. -/
structure Adj where
  ch : Nat → List Nat
  pa : Nat → List Nat

/-- No edges yet: `newMessageDependencyGraphNode`, `resolver/graph.go` lines 288-295. -/
def Adj.empty : Adj := ⟨fun _ => [], fun _ => []⟩

/-- Append `x` to the slice at `i` unless present (the `if _, exists := …; !exists` pattern). -/
def push (f : Nat → List Nat) (i x : Nat) : Nat → List Nat :=
  fun j => if j = i then (if x ∈ f i then f i else f i ++ [x]) else f j

/-- `resolver/graph.go` lines 355-362 and 377-384: the two slices are extended independently. -/
def addEdge (g : Adj) (a b : Nat) : Adj := ⟨push g.ch a b, push g.pa b a⟩

/-- `nameToNode[name] = i` (`resolver/graph.go` lines 333-335). -/
def setName (m : String → Option Nat) (name : String) (i : Nat) : String → Option Nat :=
  fun s => if s = name then some i else m s

/-- Body of the loop over `refs`, `resolver/graph.go` lines 345-363. -/
def addRefs (m : String → Option Nat) (iter : String) (i : Nat) : List String → Adj → Adj
  | [], g => g
  | r :: rs, g =>
    if r = iter then addRefs m iter i rs g
    else match m r with
      | none => addRefs m iter i rs g
      | some a => addRefs m iter i rs (addEdge g a i)

/-- `setupVariableDependencyByReferenceName`, `resolver/graph.go` lines 329-365, started at node
number `i` with the name table `m`.  The definition's own name is entered in the table *before* its
references are looked up (lines 333-335). -/
def byRef : List Def → Nat → (String → Option Nat) → Adj → Adj
  | [], _, _, g => g
  | d :: ds, i, m, g =>
    let m' := if d.name = "" then m else setName m d.name i
    byRef ds (i + 1) m' (addRefs m' d.iter i d.refs g)

/-- Inner loop of `setupVariableDependencyByValidation`, `resolver/graph.go` lines 375-385:
edges from node `v` to `k` consecutive nodes starting with `i`. -/
def addFrom (v : Nat) : Nat → Nat → Adj → Adj
  | _, 0, g => g
  | i, k + 1, g => addFrom v (i + 1) k (addEdge g v i)

/-- Outer loop with its `break`, `resolver/graph.go` lines 371-387: the first validation node of
the suffix starting at node number `i`. -/
def firstValidation : List Def → Nat → Adj → Adj
  | [], _, g => g
  | d :: ds, i, g =>
    if d.isValidation then addFrom i (i + 1) ds.length g else firstValidation ds (i + 1) g

/-- `setupVariableDependencyByValidation`, `resolver/graph.go` lines 367-389
(recursion on `nodes[1:]` at line 387). -/
def byValidation : List Def → Nat → Adj → Adj
  | [], _, g => g
  | d :: ds, i, g => byValidation ds (i + 1) (firstValidation (d :: ds) i g)

/-- Lines 301-308 of `resolver/graph.go`: the graph before roots are computed. -/
def build (defs : List Def) : Adj :=
  byValidation defs 0 (byRef defs 0 (fun _ => none) Adj.empty)

/-- Lines 310-315 of `resolver/graph.go`: nodes without parent, in declaration order. -/
def roots (defs : List Def) (g : Adj) : List Nat :=
  (List.range defs.length).filter fun i => (g.pa i).isEmpty

/-- A loop that stops at the first error (`some true`), as in `resolver/graph.go` lines 441-445:
`for _, child := range …{ if err := …; err != nil { return err } }`. -/
def firstTrue (f : Nat → Option Bool) : List Nat → Option Bool
  | [] => some false
  | c :: cs =>
    match f c with
    | none => none
    | some true => some true
    | some false => firstTrue f cs

/-- `validateMessageNodeCyclicDependency`, `resolver/graph.go` lines 407-448, also
`validateAllMessageGraphNodeCyclicDependency`, lines 466-488.
`true` means a cyclic dependency error.  `visited` is the set of nodes on the current path: a node
is added at line 437/480 and deleted at line 444/486, so the argument of the recursive call is
exactly the current path.  `fuel` bounds the recursion depth; `none` means the depth was exceeded.
Simplification: the text of the error message is not modelled. -/
def cyclic (ch : Nat → List Nat) : Nat → List Nat → Nat → Option Bool
  | 0, _, _ => none
  | fuel + 1, visited, n =>
    if n ∈ visited then some true
    else firstTrue (cyclic ch fuel (n :: visited)) (ch n)

/-- `validateMessageGraph`, `resolver/graph.go` lines 391-398 (and 450-457): every root in turn,
stopping at the first error. -/
def cyclicRoots (ch : Nat → List Nat) (fuel : Nat) (rs : List Nat) : Option Bool :=
  firstTrue (cyclic ch fuel []) rs

/-- A group: `SequentialVariableDefinitionGroup` / `ConcurrentVariableDefinitionGroup`
(`resolver/types.go`), with definitions replaced by node numbers. A sequential group without start
is `seq0`. -/
inductive Grp where
  | seq0 (e : Nat)
  | seq (start : Grp) (e : Nat)
  | conc (starts : List Grp) (e : Nat)
deriving Repr

/-- The `for` loop of `children`, `resolver/graph.go` lines 252-258: append the results in order. -/
def concatSome (f : Nat → Option (List Nat)) : List Nat → Option (List Nat)
  | [] => some []
  | n :: ns =>
    match f n, concatSome f ns with
    | some a, some b => some (a ++ b)
    | _, _ => none

/-- `children`, `resolver/graph.go` lines 250-260: the leaves below `nodes`, with repetitions.
`none`: recursion depth exceeded. -/
def leaves (ch : Nat → List Nat) : Nat → List Nat → Option (List Nat)
  | 0, _ => none
  | fuel + 1, nodes =>
    concatSome (fun n => if (ch n).isEmpty then some [n] else leaves ch fuel (ch n)) nodes

/-- Remove repetitions (the `uniqueMap` of `uniqueChildren`, lines 236-239). The order of the
result stands for *some* map iteration order; `Verif.Graph.C07_grouping_deterministic` shows that the
order does not matter. -/
def dedup : List Nat → List Nat
  | [] => []
  | x :: xs => if x ∈ xs then dedup xs else x :: dedup xs

/-- Insert into a sorted list by key. -/
def insertBy (key : Nat → String) (x : Nat) : List Nat → List Nat
  | [] => [x]
  | y :: ys => if key x < key y then x :: y :: ys else y :: insertBy key x ys

/-- `sort.Slice(…, func(i, j) { return FQDN(i) < FQDN(j) })`, `resolver/graph.go` lines 244-246 and
276-278. All nodes share the base message, so comparing `FQDN()`s
(`resolver/fqdn.go` lines 89-94, `<message>_<name>`) is comparing names.
Simplification: Go's sort is some unstable sort; with pairwise distinct keys every correct sort
gives the same result (`Verif.Graph.sorted_unique`). -/
def sortBy (key : Nat → String) : List Nat → List Nat
  | [] => []
  | x :: xs => insertBy key x (sortBy key xs)

/-- One group per node, in order (the loops at `resolver/graph.go` lines 226-230 and 279-283; the
`nil` case of line 263 cannot occur). -/
def collect (f : Nat → Option Grp) : List Nat → Option (List Grp)
  | [] => some []
  | p :: ps =>
    match f p, collect f ps with
    | some a, some b => some (a :: b)
    | _, _ => none

/-- `createVariableDefinitionGroup`, `resolver/graph.go` lines 262-286. `none`: recursion depth
exceeded (in Go: stack overflow). -/
def mkGroup (key : Nat → String) (pa : Nat → List Nat) : Nat → Nat → Option Grp
  | 0, _ => none
  | fuel + 1, n =>
    match pa n with
    | [] => some (.seq0 n)
    | [p] => (mkGroup key pa fuel p).map fun s => .seq s n
    | ps => (collect (mkGroup key pa fuel) (sortBy key ps)).map fun ss => .conc ss n

/-- All groups of a list of leaves (`VariableDefinitionGroups`, `resolver/graph.go` lines
224-232). -/
def mkGroups (key : Nat → String) (pa : Nat → List Nat) (fuel : Nat) (ns : List Nat) :
    Option (List Grp) := collect (mkGroup key pa fuel) ns

/-- Key used for sorting: the name of the definition at position `i`. -/
def keyOf (defs : List Def) (i : Nat) : String :=
  match defs[i]? with
  | some d => d.name
  | none => ""

/-- Outcome of `setupVariableDefinitionSet`. -/
inductive Outcome where
  /-- an error was added to the resolver context (line 322) -/
  | error
  /-- no graph, no groups and no error (lines 316-318) -/
  | nothing
  /-- the groups stored in the definition set (lines 325-326) -/
  | groups (gs : List Grp)
  /-- unbounded recursion (Go: stack overflow) -/
  | overflow
deriving Repr

/-- `setupVariableDefinitionSet`, `resolver/graph.go` lines 300-327, for a given enumeration order
`perm` of the set of leaves (the map iteration at lines 240-243). -/
def setupWith (perm : List Nat → List Nat) (fuel : Nat) (defs : List Def) : Outcome :=
  let g := build defs
  let rs := roots defs g
  if rs.isEmpty then .nothing
  else match cyclicRoots g.ch fuel rs with
    | none => .overflow
    | some true => .error
    | some false =>
      match leaves g.ch fuel rs with
      | none => .overflow
      | some ls =>
        match mkGroups (keyOf defs) g.pa fuel (sortBy (keyOf defs) (perm (dedup ls))) with
        | none => .overflow
        | some gs => .groups gs

/-- `setupVariableDefinitionSet` with one fixed enumeration order and enough fuel for every
declaration list without unbounded recursion (each recursive call moves to another node). -/
def setup (defs : List Def) : Outcome := setupWith id (defs.length + 1) defs

end Verif.Graph
