/-!
# Sources of map expressions

Models which variables the resolver finds as `src` of a map iterator (`resolver/resolver.go` lines
2426-2437, 2482-2515, 2588-2662, 2688-2743, 2764-2811, 2979-3029 and `resolver/context.go` lines 27-88) and
which variables expressions at the same place can use (`resolver/resolver.go` lines 3841-3946, 4101-4103,
4133-4139, 4195-4203).
-/

namespace Verif.MapSrc

mutual

/-- A variable definition: its name, the source of its map iterator if it is a map, and the error entries
of its call or the one of its validation. -/
inductive Def where
  | mk (name : Nat) (src : Option Nat) (errors : List Entry)

/-- An error entry: its definitions and those of its details. -/
inductive Entry where
  | mk (defs : List Def) (details : List (List Def))

end

structure Msg where
  defs : List Def
  oneofs : List (List Def)

/-- The look-up of a source, `resolver/resolver.go` lines 2493-2509: the name that is reported. -/
def lookup (vars : List Nat) : Option Nat → List Nat
  | none => []
  | some s => if s ∈ vars then [] else [s]

mutual

/-- `resolveVariableDefinitions`, `resolver/resolver.go` lines 2426-2437: the sources that are not found.  `vars` is the map of the context; it is empty at first (line 2427).  A definition with
error entries gives its own context an empty map (the contexts of line 2431 are separate, but share the map
until then), so line 2433 does not add it to the map of the others. -/
def missing (vars : List Nat) : List Def → List Nat
  | [] => []
  | .mk n src errors :: ds =>
    lookup vars src ++ (missingEntries errors ++ missing (if errors.isEmpty then n :: vars else vars) ds)

/-- `resolver/resolver.go` lines 2652-2654 and 2665 with 2729-2738: definitions of an entry and of each
detail start with an empty map. -/
def missingEntries : List Entry → List Nat
  | [] => []
  | .mk defs details :: es => missing [] defs ++ (missingDetails details ++ missingEntries es)

/-- `resolver/resolver.go` lines 2794-2798. -/
def missingDetails : List (List Def) → List Nat
  | [] => []
  | ds :: rest => missing [] ds ++ missingDetails rest

end

/-- The sources of a message that are reported as not defined: `resolver/resolver.go` lines 2385-2390 and
3019-3025. -/
def reported (m : Msg) : List Nat := missing [] m.defs ++ missingDetails m.oneofs

end Verif.MapSrc
