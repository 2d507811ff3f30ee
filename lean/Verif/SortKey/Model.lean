import Verif.CelTy.Model

/-!
# The check of sort keys, and comparing them

`listValidator.Validate` and the comparison inside `sortRefVal`, grpc/federation/cel/list.go.
-/

namespace Verif.SortKey

open Verif.CelTy (CTy Prim)

/-- The four functions the macros expand to: grpc/federation/cel/list.go lines 267-272. -/
inductive Fn where | asc | desc | stableAsc | stableDesc
deriving DecidableEq, Repr

/-- A position in the text of an expression: line and column. -/
abbrev Loc := Nat × Nat

/-- A checked expression. `sort` is what `makeSort` builds (grpc/federation/cel/list.go lines 181-191): a call of `fn` with a copy of the
target and with the mapping of the target to its keys. `loc` is where the result of that mapping starts and `key` is the type of the
keys: the mapping has the type `list(key)`. Simplified: every other expression is a leaf or a pair of its children. -/
inductive Expr where
  | leaf
  | pair (a b : Expr)
  | sort (fn : Fn) (loc : Loc) (key : CTy) (target mapping : Expr)
deriving Repr

/-- cel-go, trusted: `Type.HasTrait(traits.ComparerType)`. The types of bool, int, uint, double, string and bytes, their wrappers,
durations and timestamps have the trait; enums are integers. -/
def comparer : CTy → Bool
  | .prim _ | .wrapper _ | .tagged _ | .duration | .timestamp => true
  | _ => false

/-- `ast.MatchDescendants` with `ast.FunctionMatcher`: the calls of a function, outer ones first.
grpc/federation/cel/list.go line 275. -/
def calls (fn : Fn) : Expr → List (Loc × CTy)
  | .leaf => []
  | .pair a b => calls fn a ++ calls fn b
  | .sort g loc key t m => (if g = fn then [(loc, key)] else []) ++ (calls fn t ++ calls fn m)

/-- What has been reported: a message at a place about a type. -/
abbrev Report := Fn × Loc × CTy

/-- The loop over the calls of one function: grpc/federation/cel/list.go lines 276-294. A report is made once for the same
function, place and type. Simplified: the key is the triple instead of its text. -/
def scan (fn : Fn) : List (Loc × CTy) → List Report → List Report
  | [], seen => seen
  | (loc, key) :: cs, seen =>
    if (fn, loc, key) ∉ seen ∧ comparer key = false then scan fn cs (seen ++ [(fn, loc, key)]) else scan fn cs seen

/-- `Validate`: grpc/federation/cel/list.go lines 263-296. -/
def validate (e : Expr) : List Report :=
  [Fn.asc, .desc, .stableAsc, .stableDesc].foldl (fun seen fn => scan fn (calls fn e) seen) []

/-! ## Comparing -/

/-- A value of a key at run time: a value of one of the types with an order, with what orders it, or something else. Simplified: what
orders a value is any type; `nan` is the number that compares with none. -/
inductive KV (O : Type) where
  | prim (p : Prim) (o : O)
  | nan
  | dur (o : O)
  | time (o : O)
  | null
  | other
deriving DecidableEq, Repr

/-- What one comparison does. -/
inductive Cmp where
  /-- the assertion to `traits.Comparer` fails -/
  | panic
  | less (r : Bool)
deriving DecidableEq, Repr

/-- `Compare`, cel-go, trusted: values of the same type are ordered by `cmp`, a number that is no number and values of different types
give an error (simplified: numbers of different types too), which is no direction. -/
def compare {O : Type} (cmp : O → O → Int) : KV O → KV O → Option Int
  | .prim p a, .prim q b => if p = q then some (cmp a b) else none
  | .dur a, .dur b => some (cmp a b)
  | .time a, .time b => some (cmp a b)
  | _, _ => none

/-- Whether a value is a `traits.Comparer`, cel-go, trusted: null, lists, maps and messages are not. -/
def isComparer {O : Type} : KV O → Bool
  | .null | .other => false
  | _ => true

/-- The function given to package sort: grpc/federation/cel/list.go lines 232-236. Only the left value is asserted. -/
def less {O : Type} (cmp : O → O → Int) (direction : Int) (a b : KV O) : Cmp :=
  if isComparer a then .less (compare cmp a b == some direction) else .panic

/-- A sorting algorithm of package sort that orders positions: it asks for comparisons and goes on with the answers. -/
inductive Alg where
  | done (out : List Nat)
  | ask (i j : Nat) (k : Bool → Alg)

/-- Running the algorithm: `none` when a comparison panics. -/
def run {O : Type} (cmp : O → O → Int) (direction : Int) (vals : List (KV O)) : Alg → Option (List Nat)
  | .done out => some out
  | .ask i j k => match vals[i]?, vals[j]? with
    | some a, some b => match less cmp direction a b with
      | .panic => none
      | .less r => run cmp direction vals (k r)
    | _, _ => none

end Verif.SortKey
