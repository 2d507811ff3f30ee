import Verif.Value.Model
import Verif.Graph.Spec

/-! # Evaluating definitions one after the other -/

namespace Verif.Value
open Verif.Graph

/-- The variables after the first `k` definitions, evaluated in the order in which they are declared, or `none` if one of
them fails. -/
def inOrder {V : Type} (defs : List Def) (eval : Nat → Store V → Outcome V) (st0 : Store V) : Nat → Option (Store V)
  | 0 => some st0
  | k + 1 =>
    match inOrder defs eval st0 k, defs[k]? with
    | some st, some D =>
      match eval k st with
      | .ok v => some fun n => if n = D.name then some v else st n
      | _ => none
    | st, _ => st

/-- What the resolver guarantees about an accepted message: names are told apart and given (C66), no definition refers to
itself (C08) or to a later one, and an evaluation reads only variables it refers to (C09). -/
structure Accepted {V : Type} (defs : List Def) (eval : Nat → Store V → Outcome V) : Prop where
  names : DistinctNames defs
  named : ∀ D ∈ defs, D.name ≠ ""
  noSelf : NoSelfRef defs
  earlier : ∀ (i j : Nat) (D E : Def), defs[i]? = some D → defs[j]? = some E → E.name ∈ D.refs → E.name ≠ D.iter → j ≤ i
  reads : ∀ (i : Nat) (D : Def) (view view' : Store V), defs[i]? = some D → (∀ n ∈ D.refs, n ≠ D.iter → view n = view' n) →
    eval i view = eval i view'

end Verif.Value
