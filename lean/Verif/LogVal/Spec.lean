import Verif.LogVal.Model

/-! # C119: the specification -/

namespace Verif.LogVal

/-- The list has `v` at position `i`. -/
inductive Nth {S : Type} : Vs S → Nat → V S → Prop where
  | zero (v vs) : Nth (.cons v vs) 0 v
  | succ {vs i v} (w) (h : Nth vs i v) : Nth (.cons w vs) (i + 1) v

/-- The map has the entry. -/
inductive Entry {S : Type} : Es S → Key → V S → Prop where
  | head (k v es) : Entry (.cons k v es) k v
  | tail {es k v} (k' v') (h : Entry es k v) : Entry (.cons k' v' es) k v

/-- A step into a value. -/
inductive Step where
  | idx (i : Nat)
  | key (k : Key)

/-- A step into what is logged. -/
inductive OStep where
  | idx (i : Nat)
  | key (k : String)

/-- How a step is logged: keys become texts. -/
def Step.text : Step → OStep
  | .idx i => .idx i
  | .key k => .key k.text

/-- Following the path into the value leads to `s`, which is neither list nor map. -/
inductive Leaf {S : Type} : V S → List Step → S → Prop where
  | here (s) : Leaf (.scalar s) [] s
  | list {xs i v p s} (h : Nth xs i v) (hl : Leaf v p s) : Leaf (.list xs) (.idx i :: p) s
  | map {es k v p s} (h : Entry es k v) (hl : Leaf v p s) : Leaf (.map es) (.key k :: p) s

/-- Position `i` of a slice. -/
inductive ONth {S : Type} : Os S → Nat → O S → Prop where
  | zero (o os) : ONth (.cons o os) 0 o
  | succ {os i o} (o') (h : ONth os i o) : ONth (.cons o' os) (i + 1) o

/-- Following the path into what is logged leads to `s`. -/
inductive OLeaf {S : Type} : O S → List OStep → S → Prop where
  | here (s) : OLeaf (.scalar s) [] s
  | list {o os i x p s} (h : ONth (.cons o os) i x) (hl : OLeaf x p s) : OLeaf (.list o os) (.idx i :: p) s
  | map {m : Ms S} {k o p s} (h : m.get k = some o) (hl : OLeaf o p s) : OLeaf (.map m) (.key k :: p) s

/-- A list, map or value inside a value, at any depth. -/
inductive Inside {S : Type} : V S → V S → Prop where
  | refl (v) : Inside v v
  | list {xs i v w} (h : Nth xs i v) (hi : Inside v w) : Inside (.list xs) w
  | map {es k v w} (h : Entry es k v) (hi : Inside v w) : Inside (.map es) w

/-- The keys have different texts. -/
inductive TextsDiffer {S : Type} : Es S → Prop where
  | nil : TextsDiffer .nil
  | cons {es} (k v) (h : ∀ k' v', Entry es k' v' → k'.text ≠ k.text) (ht : TextsDiffer es) : TextsDiffer (.cons k v es)

/-- The keys are different, as those of all CEL maps. -/
inductive KeysDiffer {S : Type} : Es S → Prop where
  | nil : KeysDiffer .nil
  | cons {es} (k v) (h : ∀ k' v', Entry es k' v' → k' ≠ k) (ht : KeysDiffer es) : KeysDiffer (.cons k v es)

/-- The type of a key. -/
inductive Kind where | int | uint | bool | string

def Key.kind : Key → Kind
  | .int _ => .int
  | .uint _ => .uint
  | .bool _ => .bool
  | .string _ => .string

/-- The value is of a type without `dyn` keys: all keys of a map are of one type, and different. -/
def Typed {S : Type} (v : V S) : Prop := ∀ es, Inside v (.map es) → KeysDiffer es ∧ ∃ t, ∀ k w, Entry es k w → k.kind = t

end Verif.LogVal
