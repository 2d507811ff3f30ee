import Verif.Codegen.Graph

/-!
# The request of code generation plugins: dependency graphs

Models how the graph of the variables of a message is encoded (`grpc/federation/generator/encode.go` lines 781-813) and decoded
(`grpc/federation/generator/decode.go` lines 743-812). Nodes of the graph are shared between their parents; the request has a tree of
messages, and the decoder makes a new node for each of them.

Simplified: the recursion of the encoder has a bound; the theorems give one that suffices for graphs without cycles, which the resolver
ensures. References to the message and the variable of a node are a label. Decoded nodes are named by their position in the request:
the number of the root and the numbers of the children down to the node.
-/

namespace Verif.Codegen

/-- `resolver.MessageDependencyGraph` (`resolver/types.go` lines 398-409): the children of a node, and its label, the message and the variable. -/
structure DGraph where
  children : Nat → List Nat
  label : Nat → Name × Name

/-- `plugin.MessageDependencyGraphNode`. -/
inductive PNode where
  | node (label : Name × Name) (children : List PNode)

/-- `encoder.toMessageDependencyGraphNode` and `toMessageDependencyGraphNodes`, `grpc/federation/generator/encode.go` lines 796-813. -/
def encNode (G : DGraph) : Nat → Nat → PNode
  | 0, n => .node (G.label n) []
  | fuel + 1, n => .node (G.label n) ((G.children n).map (encNode G fuel))

/-- `encoder.toMessageDependencyGraph`, `grpc/federation/generator/encode.go` lines 781-794. -/
def encGraph (G : DGraph) (fuel : Nat) (roots : List Nat) : List PNode := roots.map (encNode G fuel)

abbrev Pos := List Nat

/-- A node the decoder makes: its label, children and parents. -/
structure DNode where
  label : Name × Name
  children : List Pos
  parents : List Pos
deriving DecidableEq, Repr

mutual
/-- `decoder.toMessageDependencyGraphNode`, `grpc/federation/generator/decode.go` lines 783-812: the loop over the children (lines 803-807) makes the node the
parent of each of them. -/
def decNode (p : Pos) (parents : List Pos) : PNode → List (Pos × DNode)
  | .node l cs => (p, ⟨l, (List.range cs.length).map (fun i => p ++ [i]), parents⟩) :: decNodes p [p] 0 cs
/-- `decoder.toMessageDependencyGraphNodes`, `grpc/federation/generator/decode.go` lines 765-781. -/
def decNodes (p : Pos) (parents : List Pos) (i : Nat) : List PNode → List (Pos × DNode)
  | [] => []
  | c :: cs => decNode (p ++ [i]) parents c ++ decNodes p parents (i + 1) cs
end

/-- `decoder.toMessageDependencyGraph`, `grpc/federation/generator/decode.go` lines 743-763. -/
def decGraph (roots : List PNode) : List (Pos × DNode) := decNodes [] [] 0 roots

end Verif.Codegen
