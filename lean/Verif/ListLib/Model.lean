/-!
# The list library

Models `grpc/federation/cel/list.go`: the sort macros (`makeSort`, lines 181-191), `sortRefVal` (lines
209-243), `flatten` (lines 109-135), `makeReduce` (lines 141-155) and `makeFirst` (lines 157-163), with the
comprehensions of cel-go they expand to.

Simplified: Go's `sort.Slice` and `sort.SliceStable` are parameters of the model (`fn`); `goSort` is what both
do for up to 12 elements. Comparing values is `cmp`, with `none` when it reports an error. A missing key makes the
result `none`.
-/

namespace Verif.ListLib

/-- The function passed to `sort.Slice`, lines 232-236: `Compare` gives the direction. -/
def less {A K : Type} (cmp : K → K → Option Int) (direction : Int) (a b : A × K) : Bool := cmp a.2 b.2 == some direction

/-- Values before expansion with their keys, lines 218-226. -/
def pairUp {A K : Type} : List A → List K → Option (List (A × K))
  | [], _ => some []
  | _ :: _, [] => none
  | a :: as, k :: ks => (pairUp as ks).map ((a, k) :: ·)

/-- A sorting function of package sort. -/
abbrev SortFn (B : Type) := (B → B → Bool) → List B → List B

/-- `sortRefVal`, lines 209-243. -/
def sortRefVal {A K : Type} (fn : SortFn (A × K)) (cmp : K → K → Option Int) (direction : Int) (orig : List A) (expanded : List K) :
    Option (List A) :=
  (pairUp orig expanded).map (fun vals => (fn (less cmp direction) vals).map (·.1))

/-- `sortAsc`, `sortStableAsc`, lines 193-195, 201-203. -/
def sortAsc {A K : Type} (fn : SortFn (A × K)) (cmp : K → K → Option Int) := @sortRefVal A K fn cmp (-1)

/-- `sortDesc`, `sortStableDesc`, lines 197-199, 205-207. -/
def sortDesc {A K : Type} (fn : SortFn (A × K)) (cmp : K → K → Option Int) := @sortRefVal A K fn cmp 1

/-- The expression a sort macro expands to, lines 181-191: the target is copied, so it is evaluated once for
the values and once for the keys. -/
def sortMacro {A K W : Type} (sort : List A → List K → Option (List A)) (key : A → K) (target : W → List A × W) (w : W) :
    Option (List A) × W :=
  let (orig, w1) := target w
  let (again, w2) := target w1
  (sort orig (again.map key), w2)

/-- Expressions with `n` chained sort macros around a target, for counting evaluations. -/
def chain {A K W : Type} (sort : List A → List K → Option (List A)) (key : A → K) (target : W → List A × W) : Nat → W → List A × W
  | 0 => target
  | n + 1 => fun w =>
    let r := sortMacro sort key (chain sort key target n) w
    (r.1.getD [], r.2)

/-- One insertion of package sort's `insertionSort`, from the right; the list is reversed. -/
def insertRev {B : Type} (lt : B → B → Bool) (x : B) : List B → List B
  | [] => [x]
  | y :: ys => if lt x y then y :: insertRev lt x ys else x :: y :: ys

/-- Package sort for short slices. -/
def goSort {B : Type} : SortFn B := fun lt xs => (xs.foldl (fun acc x => insertRev lt x acc) []).reverse

/-- CEL values as far as `flatten` tells them apart. -/
inductive V where
  | atom (n : Nat)
  | list (vs : List V)

/-- `flatten`, lines 109-135. -/
def flatten : Nat → List V → List V
  | 0, vs => vs
  | d + 1, vs => vs.flatMap (fun v => match v with
    | .atom n => [.atom n]
    | .list l => flatten d l)

/-- The comprehension of `reduce`: the accumulator may be an error. -/
def reduce {A X E : Type} (step : Except E A → X → Except E A) (init : Except E A) (range : List X) : Except E A :=
  range.foldl step init

/-- The step of `parser.MakeFilter`: `pred ? accu + [x] : accu`. -/
def filterStep {X E : Type} (pred : X → Except E Bool) (accu : Except E (List X)) (x : X) : Except E (List X) :=
  match pred x with
  | .error e => .error e
  | .ok true => accu.map (· ++ [x])
  | .ok false => accu

/-- `first`, lines 157-163: `filter(...)[?0]`. -/
def first {X E : Type} (pred : X → Except E Bool) (range : List X) : Except E (Option X) :=
  (reduce (filterStep pred) (.ok []) range).map (·.head?)

end Verif.ListLib
