import Verif.CelTy.Model

/-! # Specification: the same type up to the width of numbers -/

namespace Verif.CelTy

/-- Numbers have three types in CEL. The widest protobuf kind of each stands for all of them. -/
def widest : Kind → Kind
  | .int32 | .sint32 | .sfixed32 | .sint64 | .sfixed64 | .int64 => .int64
  | .uint32 | .fixed32 | .fixed64 | .uint64 => .uint64
  | .float | .double => .double
  | k => k

/-- Wrappers of numbers, likewise. -/
def widestName (n : Name) : Name :=
  if n = ["google", "protobuf", "Int32Value"] then ["google", "protobuf", "Int64Value"]
  else if n = ["google", "protobuf", "UInt32Value"] then ["google", "protobuf", "UInt64Value"]
  else if n = ["google", "protobuf", "FloatValue"] then ["google", "protobuf", "DoubleValue"]
  else n

/-- `Widened t t'`: the same type, with the widest kind for every number. -/
inductive Widened : Ty → Ty → Prop
  | null {r} : Widened (.null r) (.null r)
  | scalar {k r} : Widened (.scalar k r) (.scalar (widest k) r)
  | msg {n r} : Widened (.msg n r) (.msg (widestName n) r)
  | enum {n r} : Widened (.enum n r) (.enum n r)
  | map {k v k' v' r} : Widened k k' → Widened v v' → Widened (.map k v r) (.map k' v' r)
  | selector {t f t' f' r} : Widened t t' → Widened f f' → Widened (.selector t f r) (.selector t' f' r)

def repeated : Ty → Bool
  | .null r | .scalar _ r | .msg _ r | .enum _ r | .map _ _ r | .selector _ _ r => r

/-- The messages of `google/protobuf/struct.proto`. -/
def json : List Name :=
  [["google", "protobuf", "Struct"], ["google", "protobuf", "Value"], ["google", "protobuf", "ListValue"],
   ["google", "protobuf", "NullValue"]]

/-- The names messages can have: known names, or names of the library `grpc.federation.<library>.<type>`; no
JSON values, and not the name of enum selectors. -/
def MsgName (K : Known) (n : Name) : Prop :=
  n ∉ json ∧ n ≠ ["grpc", "federation", "private", "EnumSelector"] ∧ ((∃ a b, n = ["grpc", "federation", a, b]) ∨
    (K.msgs n = true ∧ ∀ rest, n ≠ "grpc" :: "federation" :: rest))

/-- Types a variable can be used with: known names, no lists inside of maps and selectors. -/
def Usable (K : Known) : Ty → Prop
  | .null _ => True
  | .scalar _ _ => True
  | .msg n _ => MsgName K n
  | .enum n _ => K.enums n = true
  | .map k v _ => Usable K k ∧ Usable K v ∧ repeated k = false ∧ repeated v = false
  | .selector t f _ => Usable K t ∧ Usable K f ∧ isEnumish t ∧ isEnumish f
where
  /-- enums and selectors of enums, no lists -/
  isEnumish : Ty → Prop
    | .enum _ r => r = false
    | .selector _ _ r => r = false
    | _ => False

/-- No enum inside of a list or a map. -/
def NoEnumLists : Ty → Prop
  | .enum _ r => r = false
  | .map k v _ => noEnum k ∧ noEnum v
  | .selector _ _ _ => False
  | _ => True
where
  noEnum : Ty → Prop
    | .enum _ _ => False
    | .map k v _ => noEnum k ∧ noEnum v
    | .selector _ _ _ => False
    | _ => True

/-- `SameCEL c c'`: the same CEL type; the type of an enum field is the type of its enum. -/
inductive SameCEL : CTy → CTy → Prop
  | refl (c) : SameCEL c c
  | enum (e) : SameCEL (.tagged e) (.opq e (.prim .int))
  | list {t t'} : SameCEL t t' → SameCEL (.list t) (.list t')
  | map {k v k' v'} : SameCEL k k' → SameCEL v v' → SameCEL (.map k v) (.map k' v')
  | sel {t f t' f'} : SameCEL t t' → SameCEL f f' → SameCEL (.sel t f) (.sel t' f')

/-- CEL types of expressions: no lists inside of lists, maps and selectors, no JSON values, known names. -/
def Plain (K : Known) : CTy → Prop
  | .list t => (∀ u, t ≠ .list u) ∧ Plain K t
  | .map k v => Plain K k ∧ Plain K v ∧ (∀ u, k ≠ .list u) ∧ (∀ u, v ≠ .list u)
  | .obj n => MsgName K n ∧ wellKnown.lookup n = none
  | .opq n p => K.enums n = true ∧ p = .prim .int
  | .sel t f => arm t ∧ arm f ∧ Plain K t ∧ Plain K f
  | .dyn => False
  | .crash => False
  | _ => True
where
  arm : CTy → Prop
    | .tagged _ | .opq _ _ | .sel _ _ => True
    | _ => False

end Verif.CelTy
