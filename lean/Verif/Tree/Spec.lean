import Verif.Tree.Model

/-!
# What the tree of dependencies shows

A definition that another one waits for has a row of its own, above the row of the one that waits.  The row has the name,
then a corner in the column of the definition that waits.  A row of another subtree in between has a bar in that column, so
that the corners of all those a definition waits for are joined.
-/

namespace Verif.Tree

/-- A row of the tree: the name of a definition, the depth of the one that waits for it (the roots are waited for by the
message, at depth 0), whether it is the first of those waited for, and the depths whose bars pass through the row. -/
structure Row where
  name : Text
  depth : Nat
  first : Bool
  through : List Nat

mutual
/-- The rows of a definition that is waited for by one at depth `e`: those it waits for, one deeper, and its own. -/
def Group.rows (e : Nat) (through : List Nat) (first : Bool) : Group → List Row
  | .mk starts name => rowsAll (e + 1) through true starts ++ [⟨name, e, first, through⟩]
/-- The rows of all that one at depth `e` waits for.  From the second on, the bar in the column of the one that waits comes
down from the first one's corner. -/
def rowsAll (e : Nat) (through : List Nat) (first : Bool) : List Group → List Row
  | [] => []
  | g :: gs => g.rows e (if first then through else e :: through) first ++ rowsAll e through false gs
end

/-- How a row looks, when the corners of depth `d` are in column `X d`: spaces, the name, a dash that leads to the corner,
and to the right of the corner a bar in the column of every depth whose bar passes, and nothing else. -/
structure Drawn (X : Nat → Nat) (r : Row) (line : Text) : Prop where
  fits : X (r.depth + 1) + r.name.length + 2 ≤ X r.depth
  name : line.take (X r.depth - 2) = List.replicate (X r.depth - 2 - r.name.length) ' ' ++ r.name
  dash : line[X r.depth - 2]? = some ' ' ∧ line[X r.depth - 1]? = some '─'
  corner : line[X r.depth]? = some (if r.first then '┐' else '┤')
  bars : ∀ c, X r.depth < c →
    line[c]? = if ∃ d ∈ r.through, X d = c then some '│' else if ∃ d ∈ r.through, c < X d then some ' ' else none

/-- The text is the rows, each on a line. -/
inductive Picture (X : Nat → Nat) : List Row → Text → Prop where
  | nil : Picture X [] []
  | cons {r rs line text} : Drawn X r line → '\n' ∉ line → Picture X rs text → Picture X (r :: rs) (line ++ '\n' :: text)

mutual
/-- All names in a group. -/
def Group.names : Group → List Text
  | .mk starts name => namesAll starts ++ [name]
def namesAll : List Group → List Text
  | [] => []
  | g :: gs => g.names ++ namesAll gs
end

/-- Names of definitions: not empty, of letters, digits and underscores. -/
def isName (n : Text) : Bool := !n.isEmpty && n.all fun c => c.isAlphanum || c == '_'

def Names (gs : List Group) : Prop := ∀ n ∈ namesAll gs, isName n = true

instance (gs : List Group) : Decidable (Names gs) := inferInstanceAs (Decidable (∀ n ∈ namesAll gs, isName n = true))

end Verif.Tree
