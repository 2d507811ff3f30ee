import Verif.Log.Model

/-!
# What the logging functions of CEL output

`debug`, `info`, `warn`, `error`, `add` and `expandVal` of grpc/federation/cel/log.go.
-/

namespace Verif.LogVal

/-- The keys of a CEL map. -/
inductive Key where
  | int (i : Int)
  | uint (n : Nat)
  | bool (b : Bool)
  | string (s : String)
deriving DecidableEq, Repr

/-- `fmt.Sprint(k.Value())`: grpc/federation/cel/log.go lines 135, 150 and 171. -/
def Key.text : Key → String
  | .int i => i.repr
  | .uint n => n.repr
  | .bool b => if b then "true" else "false"
  | .string s => s

mutual
/-- A CEL value: a list, a map, or one that is neither, of which the Go value is logged. -/
inductive V (S : Type) where
  | scalar (s : S)
  | list (xs : Vs S)
  | map (es : Es S)
/-- The elements of a list. -/
inductive Vs (S : Type) where
  | nil
  | cons (v : V S) (vs : Vs S)
/-- The entries of a map, in the order in which its iterator gives them. -/
inductive Es (S : Type) where
  | nil
  | cons (k : Key) (v : V S) (es : Es S)
end

mutual
/-- A Go value: `null` is a slice that was never made. -/
inductive O (S : Type) where
  | scalar (s : S)
  | null
  | list (o : O S) (os : Os S)
  | map (m : Ms S)
/-- The other elements of a slice. -/
inductive Os (S : Type) where
  | nil
  | cons (o : O S) (os : Os S)
/-- A `map[string]any`. -/
inductive Ms (S : Type) where
  | nil
  | cons (k : String) (o : O S) (m : Ms S)
end

/-- The assignment `m[k] = o`. -/
def Ms.set {S : Type} (k : String) (o : O S) : Ms S → Ms S
  | .nil => .cons k o .nil
  | .cons k' o' m => if k' = k then .cons k o m else .cons k' o' (m.set k o)

/-- `m[k]`. -/
def Ms.get {S : Type} (k : String) : Ms S → Option (O S)
  | .nil => none
  | .cons k' o m => if k' = k then some o else m.get k

mutual
/-- `expandVal`: grpc/federation/cel/log.go lines 142-162. -/
def expand {S : Type} : V S → O S
  | .scalar s => .scalar s
  | .list xs => expandList xs
  | .map es => .map (expandMap es .nil)
/-- The loop over a list, lines 154-158 of the same file: `var o []any` stays nil without elements. -/
def expandList {S : Type} : Vs S → O S
  | .nil => .null
  | .cons v vs => .list (expand v) (expandRest vs)
/-- The further rounds of the loop over a list. -/
def expandRest {S : Type} : Vs S → Os S
  | .nil => .nil
  | .cons v vs => .cons (expand v) (expandRest vs)
/-- The loop over a map: grpc/federation/cel/log.go lines 146-152. -/
def expandMap {S : Type} : Es S → Ms S → Ms S
  | .nil, m => m
  | .cons k v es, m => expandMap es (m.set k.text (expand v))
end

/-- The attributes of the entries of the argument: grpc/federation/cel/log.go lines 131-136 and 167-172. -/
def attrs {S : Type} : Es S → List (String × O S)
  | .nil => []
  | .cons k v es => (k.text, expand v) :: attrs es

inductive Level where | debug | info | warn | error
deriving DecidableEq, Repr

/-- One output line: level, message, and attributes of the logger of the context followed by those of the call. -/
structure Line (S : Type) where
  level : Level
  msg : String
  attrs : List (String × O S)

/-- A call of one of the functions. -/
inductive Call (S : Type) where
  | log (l : Level) (msg : String)
  | logArgs (l : Level) (msg : String) (args : Es S)
  | add (args : Es S)

/-- The context and the lines that have been output. -/
structure St (S : Type) where
  ctx : Log.Ctx (String × O S)
  out : List (Line S)

/-- One call: grpc/federation/cel/log.go lines 102-140 and 164-176; the attributes of the context: `Logger` and `AddAttrs`,
grpc/federation/log/context.go lines 23-33 and 61-71. The result is always true. -/
def call {S : Type} (st : St S) : Call S → St S × Bool
  | .log l msg => ({ st with out := st.out ++ [⟨l, msg, Log.logged st.ctx⟩] }, true)
  | .logArgs l msg args => ({ st with out := st.out ++ [⟨l, msg, Log.logged st.ctx ++ attrs args⟩] }, true)
  | .add args => ({ st with ctx := { st.ctx with attrs := st.ctx.attrs ++ attrs args } }, true)

/-- Calls one after another in one context. -/
def runCalls {S : Type} (st : St S) (cs : List (Call S)) : St S := cs.foldl (fun st c => (call st c).1) st

end Verif.LogVal
