import Verif.Graph.Model

/-!
# Declarative reading of "b has to wait for a"

Nothing here mentions the graph algorithms; only the list of declarations.
-/

namespace Verif.Graph

/-- Definition number `b` references definition number `a` by name: `a` is declared no later than
`b`, carries the referenced name, no declaration between `a` (exclusive) and `b` (inclusive)
carries it again, and the name is not the name of `b`'s own map iterator. -/
def RefersTo (defs : List Def) (b a : Nat) : Prop :=
  ∃ da db, defs[a]? = some da ∧ defs[b]? = some db ∧ a ≤ b ∧
    da.name ≠ "" ∧ da.name ∈ db.refs ∧ da.name ≠ db.iter ∧
    ∀ c dc, a < c → c ≤ b → defs[c]? = some dc → dc.name ≠ da.name

/-- Definition number `a` is a validation declared before definition number `b`. -/
def ValidationBefore (defs : List Def) (a b : Nat) : Prop :=
  a < b ∧ b < defs.length ∧ ∃ da, defs[a]? = some da ∧ da.isValidation = true

/-- `b` has to wait for `a`. -/
def DependsOn (defs : List Def) (b a : Nat) : Prop :=
  RefersTo defs b a ∨ ValidationBefore defs a b

/-- No definition references its own name (through anything but its own map iterator). -/
def NoSelfRef (defs : List Def) : Prop :=
  ∀ d ∈ defs, d.name ≠ "" → d.name ∈ d.refs → d.name = d.iter

instance (defs : List Def) : Decidable (NoSelfRef defs) := by
  unfold NoSelfRef; infer_instance

/-- Definition names are pairwise distinct. -/
def DistinctNames (defs : List Def) : Prop := (defs.map Def.name).Nodup

instance (defs : List Def) : Decidable (DistinctNames defs) := by
  unfold DistinctNames; infer_instance

/-- The definitions a group evaluates. -/
def Grp.defs : Grp → List Nat
  | .seq0 e => [e]
  | .seq s e => s.defs ++ [e]
  | .conc ss e => go ss ++ [e]
where go : List Grp → List Nat
  | [] => []
  | g :: gs => g.defs ++ go gs

/-- The definition a group evaluates last. -/
def Grp.last : Grp → Nat
  | .seq0 e => e
  | .seq _ e => e
  | .conc _ e => e

end Verif.Graph

namespace Verif.Graph

/-- A walk of at least one edge. -/
inductive Walk (ch : Nat → List Nat) : Nat → Nat → Prop where
  | edge {a b} : b ∈ ch a → Walk ch a b
  | cons {a b c} : b ∈ ch a → Walk ch b c → Walk ch a c

/-- Some cycle can be reached from `r`. -/
def CycleFrom (ch : Nat → List Nat) (r : Nat) : Prop :=
  ∃ x, (x = r ∨ Walk ch r x) ∧ Walk ch x x

/-- In the group every definition comes directly after exactly the definitions it depends on. -/
def Grp.Follows (dep : Nat → Nat → Prop) : Grp → Prop
  | .seq0 e => ∀ a, ¬ dep e a
  | .seq s e => (∀ a, dep e a ↔ a = s.last) ∧ s.Follows dep
  | .conc ss e => (∀ a, dep e a ↔ a ∈ ss.map Grp.last) ∧ go ss
where go : List Grp → Prop
  | [] => True
  | g :: gs => g.Follows dep ∧ go gs

end Verif.Graph
