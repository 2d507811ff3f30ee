/-!
# The tree of dependencies in generated code

Models `resolver/format.go` lines 442-631 and `generator/code_generator.go` lines 1798-1809: the text that shows which
definitions wait for which ones, in a comment of the generated function.

Simplifications: texts are lists of characters; names are texts of ASCII, so that their bytes are their characters.  A
sequential group has one start or none and a concurrent one several; both are written by the same code, and are one type
here.  The end of a group is always there (`resolver/dependency_graph.go` sets it).
-/

namespace Verif.Tree

abbrev Text := List Char

/-- `SequentialVariableDefinitionGroup` and `ConcurrentVariableDefinitionGroup`. -/
inductive Group where
  | mk (starts : List Group) (name : Text)

/-- The map `depthToMaxLength`: the latest entry for a key counts. -/
abbrev Lens := List (Nat × Nat)

def Lens.get? (m : Lens) (d : Nat) : Option Nat := (m.find? fun p => p.1 == d).map (·.2)

/-- Reading a missing key of a map gives zero. -/
def Lens.get (m : Lens) (d : Nat) : Nat := (m.get? d).getD 0

mutual
/-- `setTextMaxLength`, `resolver/format.go` lines 524-548. -/
def Group.setMax (d : Nat) : Group → Lens → Lens
  | .mk starts name, m =>
    let m := setMaxAll (d + 1) starts m
    if m.get d < name.length then (d, name.length) :: m else m
def setMaxAll (d : Nat) : List Group → Lens → Lens
  | [], m => m
  | g :: gs, m => setMaxAll d gs (g.setMax d m)
end

/-- `maxDepth`, `resolver/format.go` lines 602-610. -/
def maxDepth (m : Lens) : Nat := m.foldl (fun a p => if a < p.1 then p.1 else a) 0

/-- `getTotalMaxLength`, `resolver/format.go` lines 568-574.  The recursion ends at the first missing depth, at the latest
after the greatest one, which bounds the steps. -/
def total (m : Lens) : Nat → Nat → Nat
  | 0, _ => 0
  | fuel + 1, d =>
    match m.get? d with
    | none => 0
    | some l => l + total m fuel (d + 1)

def lineSpace : Nat := 2

/-- `setupIndent`, `resolver/format.go` lines 560-566: a missing depth has indent zero. -/
def indent (m : Lens) (d : Nat) : Nat :=
  match m.get? d with
  | none => 0
  | some _ => total m (maxDepth m + 1) (d + 1) + (maxDepth m - d) * lineSpace

/-- `variableDefinitionGroupTreeFormatContext`: the depths with a line, the latest first. -/
structure Ctx where
  m : Lens
  depth : Nat
  lines : List Nat

/-- `withLineDepth`, `resolver/format.go` lines 577-589. -/
def Ctx.withLineDepth (c : Ctx) : Ctx := if c.depth ∈ c.lines then c else { c with lines := c.depth :: c.lines }

/-- `withNextDepth`, `resolver/format.go` lines 592-599. -/
def Ctx.withNextDepth (c : Ctx) : Ctx := { c with depth := c.depth + 1 }

def insertInt (x : Nat) : List Nat → List Nat
  | [] => [x]
  | y :: l => if x ≤ y then x :: y :: l else y :: insertInt x l

/-- `sort.Ints`. -/
def sortInts : List Nat → List Nat
  | [] => []
  | x :: l => insertInt x (sortInts l)

/-- `lineIndents`, `resolver/format.go` lines 613-620. -/
def Ctx.lineIndents (c : Ctx) : List Nat := sortInts (c.lines.map (indent c.m))

/-- The lines after a corner, `resolver/format.go` lines 503-513. -/
def bars : Nat → List Nat → Text
  | _, [] => []
  | prev, x :: xs => if x < prev + 1 then bars x xs else List.replicate (x - prev - 1) ' ' ++ '│' :: bars x xs

/-- `treeFormatByVariableDefinition`, `resolver/format.go` lines 518-522. -/
def endText (c : Ctx) (name : Text) : Text :=
  List.replicate (indent c.m c.depth) ' ' ++ (List.replicate (c.m.get c.depth - name.length) ' ' ++ name)

/-- `" ─┐"` and `" ─┤"`. -/
def corner (first : Bool) : Text := [' ', '─', if first then '┐' else '┤']

mutual
/-- `treeFormat`, `resolver/format.go` lines 467-491. -/
def Group.treeFormat (c : Ctx) : Group → Text
  | .mk starts name => startsFormat c true starts ++ endText c name
/-- `treeFormatByVariableDefinitionGroup` for each start, `resolver/format.go` lines 493-516. -/
def startsFormat (c : Ctx) (first : Bool) : List Group → Text
  | [] => []
  | g :: gs =>
    let c' := if first then c else c.withLineDepth
    g.treeFormat c'.withNextDepth ++ corner first ++ bars (indent c'.m c'.depth) c'.lineIndents ++ '\n' ::
      startsFormat c false gs
end

/-- The loop of `DependencyGraphTreeFormat`, `resolver/format.go` lines 451-463. -/
def topFormat (c : Ctx) (first : Bool) : List Group → Text
  | [] => []
  | g :: gs =>
    let c := if first then c else c.withLineDepth
    g.treeFormat c.withNextDepth ++ corner first ++ '\n' :: topFormat c false gs

/-- `DependencyGraphTreeFormat`, `resolver/format.go` lines 442-465. -/
def format (gs : List Group) : Text :=
  let c : Ctx := ⟨setMaxAll 1 gs [(0, 0)], 0, []⟩
  match gs with
  | [g] => g.treeFormat c
  | gs => topFormat c true gs

/-- `DependencyGraph`, `generator/code_generator.go` lines 1798-1809. -/
def dependencyGraph (gs : List Group) : Text :=
  if (format gs).getLast? = some '\n' then format gs else []

end Verif.Tree
