import Verif.CelTy.Model

/-!
# `grpc.federation.enum.select` and enum definitions

The function and its check at generation time (`grpc/federation/cel/enum.go` lines 26-84 and 94-197), the generated code
that reads the chosen enum (`createEnumSelectorParam`, `generator/code_generator.go` lines 2546-2573,
`generator/templates/eval.go.tmpl` lines 351-389), and enum definitions (`resolver/resolver.go` lines 4353-4398,
`generator/code_generator.go` lines 3192-3206, `generator/templates/eval.go.tmpl` lines 92-117).

The conversion between two enums is a parameter here: it is modelled in `Verif.EnumMap`. cel-go is trusted: an expression
outside of `select` is its type and its value.
-/

namespace Verif.EnumSel

open Verif.CelTy

/-- What an expression of an enum is. -/
inductive Leaf where
  /-- `pkg.Enum.value('A')`, `pkg.Enum.from(1)`, or a variable of an enum type -/
  | accessor
  /-- a field of a message (`res.kind`) -/
  | field
  /-- a constant (`pkg.Enum.A`) -/
  | const
deriving DecidableEq, Repr

/-- Expressions: of the enum `e`, whose value depends on the variables, and calls of `select`. -/
inductive Expr (Env : Type) where
  | leaf (l : Leaf) (e : Name) (v : Env → Int)
  | select (c : Env → Bool) (t f : Expr Env)

/-- The type cel-go gives an expression in the generator: `resolver/resolver.go` lines 4736-4746 for `value` and `from`,
`resolver/cel.go` lines 53-62 for fields, and int for constants. `select` has type parameters
(`grpc/federation/cel/enum.go` lines 27-34). -/
def typeOf {Env : Type} : Expr Env → CTy
  | .leaf .accessor e _ => .opq e (.prim .int)
  | .leaf .field e _ => .tagged e
  | .leaf .const _ _ => .prim .int
  | .select _ t f => .sel (typeOf t) (typeOf f)

/-- Whether the kind of a type is int. -/
def intKind : CTy → Bool
  | .prim .int => true
  | .tagged _ => true
  | _ => false

/-- `validateType` with the two candidates, `grpc/federation/cel/enum.go` lines 112-115 and 163-197: the type of enum
selectors by its name, or an opaque type with one parameter of kind int. -/
def validArm : CTy → Bool
  | .sel _ _ => true
  | .opq _ p => intKind p
  | _ => false

/-- `Validate`, `grpc/federation/cel/enum.go` lines 104-143: both arms of all calls in an expression. -/
def validate {Env : Type} : Expr Env → Bool
  | .leaf _ _ _ => true
  | .select _ t f => validArm (typeOf t) && validArm (typeOf f) && validate t && validate f

/-- Go's conversion of an integer to `int32`. -/
def wrap32 (n : Int) : Int := (n + 2147483648) % 4294967296 - 2147483648

/-- Values: an integer, or `EnumSelector` (`grpc/federation/cel/private.pb.go`), whose arms are `int32`. -/
inductive Val where
  | int (n : Int)
  | sel (cond : Bool) (t f : Val)
deriving DecidableEq, Repr

/-- An arm: a selector, or the integer as `int32`, `grpc/federation/cel/enum.go` lines 39-56. -/
def armOf : Val → Val
  | .int n => .int (wrap32 n)
  | v => v

/-- The value of an expression, `grpc/federation/cel/enum.go` lines 35-58. -/
def eval {Env : Type} (env : Env) : Expr Env → Val
  | .leaf _ _ v => .int (v env)
  | .select c t f => .sel (c env) (armOf (eval env t)) (armOf (eval env f))

/-- `Equal`, `grpc/federation/cel/enum.go` lines 79-84, and the equality of integers. -/
def equal : Val → Val → Bool
  | .int a, .int b => a == b
  | .sel _ _ _, .sel _ _ _ => true
  | _, _ => false

/-- `EnumSelectorSetterParam`: what the template needs to know about an arm. -/
inductive Param where
  /-- an enum, and whether it must be converted -/
  | enum (cast : Bool) (e : Name)
  | selector (t f : Param)
deriving DecidableEq, Repr

/-- `createEnumSelectorParam`, `generator/code_generator.go` lines 2546-2573, with `requiredCast` (lines 3725-3739) for an arm
that is no selector. Types that are neither enums nor selectors are no arms. -/
def param (to : Name) : Ty → Option Param
  | .enum e _ => some (.enum (decide (e ≠ to)) e)
  | .selector t f _ => match param to t with
    | none => none
    | some p => match param to f with
      | none => none
      | some q => some (.selector p q)
  | _ => none

/-- Whether the Go compiler accepts what `setEnumValueByEnumSelector` writes, `generator/templates/eval.go.tmpl` lines 351-389:
the function for a selector in the false arm (line 372) has no result, and line 374 returns one. -/
def compiles : Param → Bool
  | .enum _ _ => true
  | .selector t f => compiles t && (match f with
    | .enum _ _ => true
    | .selector _ _ => false)

/-- `GetTrueSelector`, `GetFalseSelector` (`none` is nil): `grpc/federation/cel/private.pb.go` lines 248-274. -/
def getSel : Val → Option Val
  | .sel c t f => some (.sel c t f)
  | .int _ => none

/-- `GetTrueValue`, `GetFalseValue`: `grpc/federation/cel/private.pb.go` lines 241-267. -/
def getInt : Val → Int
  | .int n => n
  | .sel _ _ _ => 0

/-- `setEnumValueByEnumSelector`, `generator/templates/eval.go.tmpl` lines 351-389, on a selector (`none` is nil, whose getters
return zero values): the value of `Dst`. The last argument of `conv` is the value to convert. -/
def assign (conv : Name → Name → Int → Int) (to : Name) : Param → Param → Option Val → Int
  | t, f, some (.sel c vt vf) => if c then arm t (some vt) else arm f (some vf)
  | _, f, _ => arm f none
where
  /-- lines 354-369 and 371-386 -/
  arm : Param → Option Val → Int
    | .enum cast e, v => if cast then conv e to ((v.map getInt).getD 0) else (v.map getInt).getD 0
    | .selector t f, v => match v.bind getSel with
      | some (.sel c vt vf) => if c then arm t (some vt) else arm f (some vf)
      | _ => arm f none

/-- Whether `def { enum { name: to by: ... } }` is accepted for an expression of a type, `resolver/resolver.go` lines 4366-4396.
`aliased` is `findEnumAliasName`. -/
def defAccepted (aliased : Name → Name → Bool) (to : Name) : Ty → Bool
  | .enum e _ => decide (e = to) || aliased e to
  | .selector _ _ _ => true
  | _ => false

/-- Whether the Go compiler accepts the generated function, `generator/templates/eval.go.tmpl` lines 93-116. `EnumCastFunc` is
`v` for the same enum (`generator/code_generator.go` lines 3197-3199), and `return v` in a function with two results does not
compile. For a list the conversion makes a slice of a type that is none (`generator/templates/cast.go.tmpl` line 2 with
`generator/code_generator.go` lines 2200-2211), and a list of selectors has no `GetCond` (`generator/templates/eval.go.tmpl` line
353); see `Verif.EnumSel.Casts`. -/
def defCompiles (to : Name) : Ty → Bool
  | .enum e r => decide (e ≠ to) && !r
  | .selector t f r => !r && match param to (.selector t f r) with
    | some p => compiles p
    | none => false
  | _ => false

/-- The value of an enum definition, `generator/templates/eval.go.tmpl` lines 93-116. -/
def defValue (conv : Name → Name → Int → Int) (to : Name) (t : Ty) (v : Val) : Option Int :=
  match t with
  | .enum e _ => some (conv e to (getInt v))
  | .selector a b _ => match param to a, param to b with
    | some p, some q => some (assign conv to p q (some v))
    | _, _ => none
  | _ => none

end Verif.EnumSel
