/-!
# Completion

Models `candidatesVariableName`, `candidatesMessageArguments`, `candidatesCELValue`, `Unique`, `Names` and
the places that call them (`resolver/candidates.go` lines 18-37, 110-200, 289-338), and `requestFieldType`
(lines 240-267) for messages with a rule.
-/

namespace Verif.Complete

abbrev Name := List Char

/-- A definition: its name, and whether it has an expression (it always has in a resolved message). -/
structure Def where
  name : Name
  hasExpr : Bool := true
deriving DecidableEq, Repr

/-- Line 309: names that are never offered. -/
def hidden (n : Name) : Bool := n.isEmpty || ['_'].isPrefixOf n

/-- The body of the loop, lines 307-318: always looks at definition `defIdx`. -/
def offer (defs : List Def) (defIdx : Nat) : List Name :=
  match defs[defIdx]? with
  | none => []
  | some d => if hidden d.name || !d.hasExpr then [] else [d.name]

/-- `candidatesVariableName`, lines 296-320. The index is given as `defIdx + 1` and is 0 for -1. -/
def variableNames (defs : List Def) (count : Nat) : List Name :=
  match count with
  | 0 => []
  | defIdx + 1 => if defs.length ≤ defIdx then [] else (List.range (defIdx + 1)).flatMap (fun _ => offer defs defIdx)

/-- `candidatesMessageArguments`, lines 322-338. -/
def argumentNames (args : List Name) : List Name := args.map (fun a => '$' :: '.' :: a)

/-- `Unique` followed by `Names`, lines 18-37. -/
def unique (seen : List Name) : List Name → List Name
  | [] => []
  | n :: ns => if n ∈ seen then unique seen ns else n :: unique (n :: seen) ns

/-- `candidatesCELValue(…).Unique().Names()`. -/
def candidates (defs : List Def) (args : List Name) (count : Nat) : List Name :=
  unique [] (variableNames defs count ++ argumentNames args)

/-- Completion of `by` in definition `i` (line 134: index `i - 1`). -/
def inBy (defs : List Def) (args : List Name) (i : Nat) : List Name := candidates defs args i

/-- Completion of an argument of a message expression in definition `i` (line 189: index `i`). -/
def inArgument (defs : List Def) (args : List Name) (i : Nat) : List Name := candidates defs args (i + 1)

/-- Completion of `by` of a field (line 121: the last definition), before filtering by type. -/
def inField (defs : List Def) (args : List Name) : List Name := candidates defs args defs.length

/-- `requestFieldType`, lines 240-267: the type by which candidates for entry `reqIdx` of a request are
filtered. `fields` are the fields of the request message, with types. -/
def requestFieldType {T} (fields : List (Name × T)) (reqIdx : Nat) : Option T := (fields[reqIdx]?).map (·.2)

end Verif.Complete
