import Verif.CelTy.Model

/-!
# Types of variables in the generated server

Models `toCELTypeDeclare`, `toTypeText`, `toMakeZeroValue` and `toCELNativeType` (`generator/code_generator.go` lines
1063-1175 and 3365-3396), the types of iterators (`generator/code_generator.go` lines 3239-3255) and the names these
texts have in the runtime (`grpc/federation/alias.go` lines 44-58). `toCELType` of the generator is in
`Verif.CelTy.Model`.

The texts of types are modelled by what they denote in Go. Fields of oneofs are not types of variables and are left out
here, see `Verif.OneofSel`.
-/

namespace Verif.SrvTy

open Verif.CelTy

/-- `t.Repeated` -/
def isRep : Ty → Bool
  | .null r | .scalar _ r | .msg _ r | .enum _ r | .map _ _ r | .selector _ _ r => r

/-- `t.Clone()` with `Repeated = false`. -/
def single : Ty → Ty
  | .null _ => .null false
  | .scalar k _ => .scalar k false
  | .msg n _ => .msg n false
  | .enum n _ => .enum n false
  | .map k v _ => .map k v false
  | .selector t f _ => .selector t f false

/-- `toCELNativeType`, `generator/code_generator.go` lines 3365-3396. The result of `enum.select` is a message with the
name of enum selectors (`resolver/message.go` lines 43-61). -/
def native : Ty → CTy
  | .null r => listIf r .null
  | .scalar k r => listIf r (.prim (primOf k))
  | .msg n r => listIf r (objectType n)
  | .enum _ r => listIf r (.prim .int)
  | .map k v r => listIf r (.map (native k) (native v))
  | .selector _ _ r => listIf r (objectType selectorName)

/-- `toCELTypeDeclare`, `generator/code_generator.go` lines 1083-1114. `none`: the text of the type is empty, and the
generated file does not compile. `NullType` has the kind 0 (`resolver/types.go` line 547). -/
def declare : Ty → Option CTy
  | .null _ => none
  | .scalar k r => some (listIf r (.prim (primOf k)))
  | .msg n r => some (listIf r (objectType n))
  | .enum _ r => some (listIf r (.prim .int))
  | .map k v r => match declare k with
    | none => none
    | some k' => match declare v with
      | none => none
      | some v' => some (listIf r (.map k' v'))
  | .selector _ _ r => some (listIf r (objectType selectorName))

/-- Types of Go. `int n`/`uint n`/`float n` have `n` bits, `msg n` is a pointer to the type of the message `n`. -/
inductive GoTy where
  | any | bool | string | bytes
  | int (bits : Nat) | uint (bits : Nat) | float (bits : Nat)
  | enum (n : Name)
  | msg (n : Name)
  | slice (t : GoTy)
  | map (k v : GoTy)
deriving DecidableEq, Repr

/-- The numbers, strings and bytes of `toTypeText`, `generator/code_generator.go` lines 1129-1158. -/
def goKind : Kind → GoTy
  | .double => .float 64
  | .float => .float 32
  | .int32 => .int 32
  | .int64 => .int 64
  | .uint32 => .uint 32
  | .uint64 => .uint 64
  | .sint32 => .int 32
  | .sint64 => .int 64
  | .fixed32 => .uint 32
  | .fixed64 => .uint 64
  | .sfixed32 => .int 32
  | .sfixed64 => .int 64
  | .bool => .bool
  | .string => .string
  | .bytes => .bytes

def sliceIf (repeated : Bool) (t : GoTy) : GoTy := if repeated then .slice t else t

/-- `toTypeText`, `generator/code_generator.go` lines 1116-1175: null is `any` (line 1118) and a map returns before
`Repeated` is looked at (lines 1163-1165). -/
def goTy : Ty → GoTy
  | .null _ => .any
  | .scalar k r => sliceIf r (goKind k)
  | .msg n r => sliceIf r (.msg n)
  | .enum n r => sliceIf r (.enum n)
  | .map k v _ => .map (goTy k) (goTy v)
  | .selector _ _ r => sliceIf r (.msg selectorName)

/-- Texts of zero values. -/
inductive Zero where
  /-- `T(nil)`, and `(T)(nil)` for types with a star -/
  | nil (t : GoTy)
  /-- `T(0)` -/
  | num (t : GoTy)
  /-- `false` -/
  | no
  /-- `""` -/
  | empty
deriving DecidableEq, Repr

/-- `toMakeZeroValue`, `generator/code_generator.go` lines 1063-1081, without fields of oneofs. The numbers
are those of `IsNumber`, `resolver/types.go` lines 431-448. -/
def zero (t : Ty) : Zero :=
  if isRep t then .nil (goTy t)
  else match t with
    | .scalar .bytes _ => .nil (goTy t)
    | .scalar .bool _ => .no
    | .scalar .string _ => .empty
    | .scalar _ _ => .num (goTy t)
    | .enum _ _ => .num (goTy t)
    | _ => .nil (goTy t)

/-- The Go type of a zero value, and whether the text compiles: `nil` is no value of numbers, booleans, strings and
enums, 0 only of numbers and enums. -/
def Zero.typ : Zero → Option GoTy
  | .no => some .bool
  | .empty => some .string
  | .num t => match t with
    | .int _ | .uint _ | .float _ | .enum _ => some t
    | _ => none
  | .nil t => match t with
    | .any | .bytes | .msg _ | .slice _ | .map _ _ => some t
    | _ => none

/-- `IteratorCELType`, `generator/code_generator.go` lines 3239-3243: the type of the iterator of a map definition
over a variable of type `src`. -/
def iterCEL (src : Ty) : CTy := native (single src)

/-- `IteratorType`, `generator/code_generator.go` lines 3245-3249, for an expression of type `t`. -/
def iterGo (t : Ty) : GoTy := goTy (single t)

end Verif.SrvTy
