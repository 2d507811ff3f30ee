/-!
# Random sources in expressions

Models `grpc/federation/cel/rand.go` lines 20-73 and the functions in lines 88-233.  Sources are objects that change when a
number is taken.  Go's generator is a parameter: a state for each seed, and for each function the number it gives and the
next state.  Left out: the bytes `Rand.Read` keeps, which only `uuid.newRandomFromRand` uses.
-/

namespace Verif.CelRand

/-- Go's generator.  `σ` are its states, `ops` the functions that take numbers: `Int63`, `Float64`, `Intn` and so on; `none` is
a panic, as of `Intn(0)`. -/
structure Gen (σ Op : Type) where
  seed : Int → σ
  take : Op → σ → Option Int × σ
  int63 : Op
  int : Op

/-- The sources that were made; a value of type `Source` or `Rand` is the number of its source, since `rand.New` keeps the
source. -/
structure Heap (σ : Type) where
  next : Nat
  state : Nat → σ

def Heap.set {σ : Type} (h : Heap σ) (i : Nat) (s : σ) : Heap σ := { h with state := fun j => if j = i then s else h.state j }

/-- Evaluations.  Values are referred to by their position. -/
inductive Cmd (Op : Type) where
  /-- `newSource(seed)` -/
  | newSource (seed : Int)
  /-- `rand.new(values[i])` -/
  | new (i : Nat)
  /-- `values[i].int63()`, `values[i].intn(n)` and so on -/
  | take (i : Nat) (op : Op)
  /-- `values[i].seed(n)` -/
  | seed (i : Nat) (n : Int)
  /-- `values[i] == values[j]` for sources -/
  | eqSource (i j : Nat)
  /-- `values[i] == values[j]` for random number generators -/
  | eqRand (i j : Nat)

/-- What an evaluation gives. -/
inductive Out where
  | object (i : Nat)
  | number (n : Int)
  | bool (b : Bool)
  | error
deriving DecidableEq

/-- `Source.Equal` and `Rand.Equal`, `grpc/federation/cel/rand.go` lines 32-37 and 59-64: a number is taken from the first,
then one from the second. -/
def equal {σ Op : Type} (G : Gen σ Op) (op : Op) (h : Heap σ) (a b : Nat) : Heap σ × Out :=
  let r := G.take op (h.state a)
  let h1 := h.set a r.2
  let q := G.take op (h1.state b)
  (h1.set b q.2, .bool (r.1 = q.1))

/-- One evaluation, `grpc/federation/cel/rand.go` lines 93-119 (newSource, int63, seed), 122-131 (new), 132-228 (the
functions of generators). -/
def step {σ Op : Type} (G : Gen σ Op) (h : Heap σ) (vs : List Out) : Cmd Op → Heap σ × Out
  | .newSource n => ({ next := h.next + 1, state := fun j => if j = h.next then G.seed n else h.state j }, .object h.next)
  | .new i =>
    match vs[i]? with
    | some (.object a) => (h, .object a)
    | _ => (h, .error)
  | .take i op =>
    match vs[i]? with
    | some (.object a) =>
      let r := G.take op (h.state a)
      (h.set a r.2, match r.1 with | some n => .number n | none => .error)
    | _ => (h, .error)
  | .seed i n =>
    match vs[i]? with
    | some (.object a) => (h.set a (G.seed n), .bool true)
    | _ => (h, .error)
  | .eqSource i j =>
    match vs[i]?, vs[j]? with
    | some (.object a), some (.object b) => equal G G.int63 h a b
    | _, _ => (h, .error)
  | .eqRand i j =>
    match vs[i]?, vs[j]? with
    | some (.object a), some (.object b) => equal G G.int h a b
    | _, _ => (h, .error)

/-- Evaluations one after the other. -/
def run {σ Op : Type} (G : Gen σ Op) : List (Cmd Op) → Heap σ → List Out → Heap σ × List Out
  | [], h, vs => (h, vs)
  | c :: cs, h, vs => let r := step G h vs c; run G cs r.1 (vs ++ [r.2])

/-- The argument of `int31n`, an `int64`, as an `int32`, `grpc/federation/cel/rand.go` line 176. -/
def int31nArg (n : Int) : Int :=
  if n % 4294967296 < 2147483648 then n % 4294967296 else n % 4294967296 - 4294967296

end Verif.CelRand
