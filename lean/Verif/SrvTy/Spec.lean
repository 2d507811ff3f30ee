import Verif.SrvTy.Model

/-! # Specification: one type in the generator, the server and Go -/

namespace Verif.SrvTy

open Verif.CelTy

/-- `AsServer c c'`: `c'` is the type the server must use for a variable that has the type `c` in the generator: the
same, but CEL has no enums when it runs, so that enums are integers, and selectors of enums are messages. -/
inductive AsServer : CTy → CTy → Prop
  | prim (p) : AsServer (.prim p) (.prim p)
  | wrapper (p) : AsServer (.wrapper p) (.wrapper p)
  | any : AsServer .any .any
  | duration : AsServer .duration .duration
  | timestamp : AsServer .timestamp .timestamp
  | null : AsServer .null .null
  | dyn : AsServer .dyn .dyn
  | obj (n) : AsServer (.obj n) (.obj n)
  | list {t t'} : AsServer t t' → AsServer (.list t) (.list t')
  | map {k v k' v'} : AsServer k k' → AsServer v v' → AsServer (.map k v) (.map k' v')
  | enum (e) : AsServer (.opq e (.prim .int)) (.prim .int)
  | selector (t f) : AsServer (.sel t f) (.obj ["grpc", "federation", "private", "EnumSelector"])

/-- No lists as keys and values of maps, and no message with the name of enum selectors. -/
def Flat : Ty → Prop
  | .null _ | .scalar _ _ | .enum _ _ | .selector _ _ _ => True
  | .msg n _ => n ≠ ["grpc", "federation", "private", "EnumSelector"]
  | .map k v _ => Flat k ∧ Flat v ∧ elem k ∧ elem v
where
  elem : Ty → Prop
    | .null r | .scalar _ r | .msg _ r | .enum _ r | .map _ _ r | .selector _ _ r => r = false

/-- `null`, or a map with nulls. -/
inductive HasNull : Ty → Prop
  | null (r) : HasNull (.null r)
  | key {k v r} : HasNull k → HasNull (.map k v r)
  | value {k v r} : HasNull v → HasNull (.map k v r)

/-- The Go type protobuf has for a type: slices for lists, pointers for messages. -/
inductive ProtoGo : Ty → GoTy → Prop
  | null : ProtoGo (.null false) .any
  | double : ProtoGo (.scalar .double false) (.float 64)
  | float : ProtoGo (.scalar .float false) (.float 32)
  | int32 : ProtoGo (.scalar .int32 false) (.int 32)
  | sint32 : ProtoGo (.scalar .sint32 false) (.int 32)
  | sfixed32 : ProtoGo (.scalar .sfixed32 false) (.int 32)
  | int64 : ProtoGo (.scalar .int64 false) (.int 64)
  | sint64 : ProtoGo (.scalar .sint64 false) (.int 64)
  | sfixed64 : ProtoGo (.scalar .sfixed64 false) (.int 64)
  | uint32 : ProtoGo (.scalar .uint32 false) (.uint 32)
  | fixed32 : ProtoGo (.scalar .fixed32 false) (.uint 32)
  | uint64 : ProtoGo (.scalar .uint64 false) (.uint 64)
  | fixed64 : ProtoGo (.scalar .fixed64 false) (.uint 64)
  | bool : ProtoGo (.scalar .bool false) .bool
  | string : ProtoGo (.scalar .string false) .string
  | bytes : ProtoGo (.scalar .bytes false) .bytes
  | enum (n) : ProtoGo (.enum n false) (.enum n)
  | msg (n) : ProtoGo (.msg n false) (.msg n)
  | selector (t f) : ProtoGo (.selector t f false) (.msg ["grpc", "federation", "private", "EnumSelector"])
  | map {k v k' v'} : ProtoGo k k' → ProtoGo v v' → ProtoGo (.map k v false) (.map k' v')
  | list {t g} : isRep t = true → ProtoGo (single t) g → ProtoGo t (.slice g)

/-- No lists of maps and no lists of nulls. -/
def NoMapLists : Ty → Prop
  | .null r => r = false
  | .map k v r => r = false ∧ NoMapLists k ∧ NoMapLists v
  | _ => True

end Verif.SrvTy
