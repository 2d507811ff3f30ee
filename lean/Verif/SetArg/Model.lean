import Verif.LogFn.Model

/-!
# Setting the fields of requests and arguments

Models the code that is generated for the fields of the request of a `call` and for the arguments of a `message`:
`argument` (`generator/code_generator.go` lines 3464-3569), the templates `setCELArgument`, `setArgumentBySetter` and
`setArgument` (`generator/templates/eval.go.tmpl` lines 248-349), `SetCELValue`, `If` and `EvalCEL`
(`grpc/federation/cel.go` lines 884-903, 695-709, 718-754), and what the resolver does before: `resolveRequest`
(`resolver/resolver.go` lines 3498-3539) and the conversions it declares (`resolver/message.go` lines 460-505,
`resolver/type_conversion.go` lines 13-83).

Simplifications: of the conversions only the outermost is modelled, C35 is about those inside it; a conversion function is
identified by the Go types of its parameter and result (C64 and C55 say when this is right). Locks and caches are left
out (C15).
-/

namespace Verif.SetArg
open Verif.GoNames
open Verif.LogFn (Kind)

/-- `resolver.Type` (`resolver/types.go` lines 411-418). `selector` is the type of `grpc.federation.enum.select`, `null`
that of `null`. A map is given by the types of its key and value. -/
inductive Ty where
  | scalar (k : Kind) (rep : Bool)
  | msg (i : Nat) (rep : Bool)
  | enum (e : Nat) (rep : Bool)
  | map (key : Kind) (val : Ty)
  | selector (rep : Bool)
  | null
deriving DecidableEq, Repr

/-- A field and the oneof it belongs to. -/
structure Field where
  name : Name
  ty : Ty
  oneof : Option Name
deriving DecidableEq, Repr

/-- `Message.Field`, `resolver/message.go` lines 384-395. -/
def fieldOf (fs : List Field) (n : Name) : Option Field := fs.find? (·.name == n)

/-- Go types. -/
inductive GoTy where
  | f64 | f32 | i64 | u64 | i32 | u32 | bool | string | bytes | any | selector
  | ptr (i : Nat) | enum (e : Nat) | slice (t : GoTy) | map (k v : GoTy)
deriving DecidableEq, Repr

/-- The scalar types of `toTypeText`, `generator/code_generator.go` lines 1129-1159. -/
def goKind : Kind → GoTy
  | .double => .f64
  | .float => .f32
  | .int32 | .sint32 | .sfixed32 => .i32
  | .int64 | .sint64 | .sfixed64 => .i64
  | .uint32 | .fixed32 => .u32
  | .uint64 | .fixed64 => .u64
  | .bool => .bool
  | .string => .string
  | .bytes => .bytes

def slices (rep : Bool) (t : GoTy) : GoTy := if rep then .slice t else t

/-- `toTypeText` of a type without oneof, `generator/code_generator.go` lines 1116-1175. -/
def goTy : Ty → GoTy
  | .scalar k r => slices r (goKind k)
  | .msg i r => slices r (.ptr i)
  | .enum e r => slices r (.enum e)
  | .map k v => .map (goKind k) (goTy v)
  | .selector r => slices r .selector
  | .null => .any

/-! ### The resolver -/

def isNumberKind : Kind → Bool
  | .bool | .string | .bytes => false
  | _ => true

/-- `IsNumber`, `resolver/types.go` lines 431-448. -/
def isNumber : Ty → Bool
  | .scalar k _ => isNumberKind k
  | _ => false

/-- `Type.Kind`. -/
inductive KindOf where
  | scalar (k : Kind) | message | enum | unknown
deriving DecidableEq, Repr

def kindOf : Ty → KindOf
  | .scalar k _ => .scalar k
  | .msg _ _ | .map _ _ | .selector _ => .message
  | .enum _ _ => .enum
  | .null => .unknown

def repeated : Ty → Bool
  | .scalar _ r | .msg _ r | .enum _ r | .selector r => r
  | _ => false

/-- `isDifferentType`, `resolver/resolver.go` lines 5301-5316; what two values for an argument are compared by, lines
3748-3749 and 3778-3779. -/
def isDifferent (frm to : Ty) : Bool :=
  if isNumber frm && isNumber to then false
  else if kindOf frm = .enum && isNumber to then false
  else if frm = .null && (repeated to || kindOf to = .message || kindOf to = .scalar .bytes) then false
  else kindOf frm != kindOf to

/-- `validateRequestFieldType`, `resolver/resolver.go` lines 1580-1672: whether a value is accepted for a field of a request.
`msgAlias` and `enumAlias` tell which types are aliases of each other; number wrappers are left out. -/
def requestTakes (msgAlias enumAlias : Nat → Nat → Bool) (frm to : Ty) : Bool :=
  match to, frm with
  | .msg j _, .msg i _ => i == j || msgAlias i j
  | .map k v, .map k' v' => !isDifferent (.scalar k' false) (.scalar k false) && !isDifferent v' v
  | .msg _ _, .map _ _ | .msg _ _, .selector _ | .map _ _, .msg _ _ | .map _ _, .selector _ => false
  | .msg _ _, _ | .map _ _, _ => true
  | .enum e _, .enum e' _ => e == e' || enumAlias e' e
  | .enum _ _, _ => true
  | to, frm => !isDifferent frm to

/-- An entry of the request of a `call`: field, expression, its type, condition. -/
structure Entry where
  field : Name
  expr : Nat
  frm : Ty
  cond : Option Nat
deriving DecidableEq, Repr

/-- `resolver.Argument`, of a request or of a message. `inline` has the fields of the message if the value is inlined. -/
structure Arg where
  name : Name
  ty : Option Ty
  oneof : Option Name
  expr : Nat
  frm : Ty
  inline : Option (List Field)
  cond : Option Nat
deriving DecidableEq, Repr

inductive ReqErr where
  | noField (n : Name) | needsIf (n : Name)
deriving DecidableEq, Repr

/-- `resolveRequest`, `resolver/resolver.go` lines 3498-3539: errors and arguments. -/
def resolveEntry (fields : List Field) (e : Entry) : List ReqErr × Arg :=
  match fieldOf fields e.field with
  | none => ([.noField e.field], ⟨e.field, none, none, e.expr, e.frm, none, e.cond⟩)
  | some f => (if f.oneof.isSome && e.cond.isNone then [.needsIf e.field] else [],
      ⟨e.field, some f.ty, f.oneof, e.expr, e.frm, none, e.cond⟩)

def resolveRequest (fields : List Field) (es : List Entry) : List ReqErr × List Arg :=
  ((es.map (resolveEntry fields)).flatMap (·.1), (es.map (resolveEntry fields)).map (·.2))

/-- `requiredTypeConversion`, `resolver/type_conversion.go` lines 118-139. -/
def required : Ty → Ty → Bool
  | .map k v, .map k' v' => k != k' || required v v'
  | .map _ _, _ => false
  | .msg i _, .msg j _ => i != j
  | .msg _ _, _ => true
  | .selector _, _ => true
  | .enum e _, .enum e' _ => e != e'
  | .enum _ _, _ => true
  | .scalar k _, .scalar k' _ => k != k'
  | .scalar _ _, _ => true
  | .null, _ => false

/-- The outermost conversion that `typeConversionDecls` declares, `resolver/type_conversion.go` lines 13-83; `none` if it
reads the fields of a message that is missing (line 72). -/
def declOf (frm to : Ty) : Option (List (Ty × Ty)) :=
  match frm, to with
  | .null, _ | _, .null => some []
  | .msg _ _, .scalar _ _ | .msg _ _, .enum _ _ => none
  | .selector _, .enum _ _ => some []
  | .selector _, .scalar _ _ => none
  | frm, to => some (if required frm to then [(frm, to)] else [])

/-- The conversions for a `call`, `resolver/message.go` lines 472-489; those of a type inside a oneof are without the oneof. -/
def requestDecls (fields : List Field) : List Arg → Option (List (Ty × Ty))
  | [] => some []
  | a :: as => match requestDecls fields as, fieldOf fields a.name with
    | none, _ => none
    | some ds, none => some ds
    | some ds, some f => (declOf a.frm f.ty).map (· ++ ds)

/-- The conversions of one argument of a `message`, `resolver/message.go` lines 497-506. -/
def argDecls (msgArg : List Field) (a : Arg) : Option (List (Ty × Ty)) :=
  if a.name ≠ [] then match fieldOf msgArg a.name with
    | some f => declOf a.frm f.ty
    | none => none
  else match a.inline with
    | none => some []
    | some fs => fs.foldr (fun f acc => match acc, fieldOf msgArg f.name with
      | some ds, some g => (declOf f.ty g.ty).map (· ++ ds)
      | _, _ => none) (some [])

/-- The conversions of the arguments of a `message` inside a `map`: only those of an `enum` are looked at,
`resolver/message.go` lines 512-519. -/
def mapArgDecls (_msgArg : List Field) (_a : Arg) : Option (List (Ty × Ty)) := some []

/-! ### The generator -/

/-- `castName`, `generator/code_generator.go` lines 3745-3765: the name of a type in the name of a conversion function. -/
inductive CName where
  | plain (t : GoTy)
  | oneof (rep : Bool) (oneof field : Name)
deriving DecidableEq, Repr

def cname (t : Ty) : CName := .plain (goTy t)

/-- `castName` of the type of a field, which may be in a oneof, `generator/code_generator.go` lines 3750-3752. -/
def cnameIn (name : Name) (oneof : Option Name) (t : Ty) : CName :=
  match oneof with
  | some o => .oneof (repeated t) o name
  | none => cname t

/-- `requiredCast`, `generator/code_generator.go` lines 3725-3739; `none` if it reads a message that is missing (line 3730). -/
def requiredCast : Ty → Ty → Option Bool
  | .map k v, .map k' v' => (requiredCast v v').map (k != k' || ·)
  | .map _ _, .msg _ _ | .map _ _, .selector _ => some true
  | .map _ _, _ => none
  | .msg i _, .msg j _ => some (i != j)
  | .msg _ _, _ => some true
  | .selector _, _ => some true
  | .enum e _, .enum e' _ => some (e != e')
  | .enum _ _, _ => some true
  | .scalar k _, .scalar k' _ => some (k != k')
  | .scalar _ _, _ => some true
  | .null, _ => some true

/-- The right sides: `v`, `s.cast_A__to__B(v)`, `v.GetX()`. -/
inductive Expr where
  | v
  | cast (a b : CName)
  | get (sel : Name)
deriving DecidableEq, Repr

/-- An assignment, template `setArgument`, `generator/templates/eval.go.tmpl` lines 318-349: to `args.Sel`, or to the oneof
`args.Oneof` with the member `Sel`. -/
structure Set where
  sel : Name
  oneof : Option Name
  val : Expr
deriving DecidableEq, Repr

/-- The code for an argument: the type parameter of `SetCELValue`, expression, condition, assignments. -/
structure Code where
  ty : GoTy
  expr : Nat
  cond : Option Nat
  sets : List Set
deriving DecidableEq, Repr

/-- The right side and the type of `v` in `argument`, `generator/code_generator.go` lines 3498-3553; `none` for a crash. -/
def argValue (msgArg : Option (List Field)) (a : Arg) : Option (GoTy × Expr) :=
  let to := a.ty.getD a.frm
  let argField : Option Field := match msgArg with
    | some fs => if a.name ≠ [] then fieldOf fs a.name else none
    | none => none
  match a.frm with
  | .msg _ _ | .map _ _ | .selector _ =>
    (requiredCast a.frm to).map fun c => (goTy a.frm, if c then .cast (cname a.frm) (cname to) else .v)
  | .enum _ _ =>
    match argField with
    | some f => if kindOf f.ty ≠ kindOf to then some (goTy a.frm, .cast (cname a.frm) (cnameIn f.name f.oneof f.ty))
      else (requiredCast a.frm to).map fun c => (goTy a.frm, if c then .cast (cname a.frm) (cnameIn a.name a.oneof to) else .v)
    | none => (requiredCast a.frm to).map fun c => (goTy a.frm, if c then .cast (cname a.frm) (cnameIn a.name a.oneof to) else .v)
  | .scalar _ _ | .null =>
    match argField with
    | some f => if kindOf f.ty ≠ kindOf to then some (goTy to, .cast (cname to) (cnameIn f.name f.oneof f.ty)) else some (goTy to, .v)
    | none => some (goTy to, .v)

/-- `argument`, `generator/code_generator.go` lines 3464-3569, with `setArgumentBySetter`,
`generator/templates/eval.go.tmpl` lines 305-316. -/
def argument (msgArg : Option (List Field)) (a : Arg) : Option Code :=
  (argValue msgArg a).map fun (t, e) =>
    let sets : List Set := match a.inline with
      | some (f :: fs) => (f :: fs).map fun f => ⟨toPublicGoVariable f.name, a.oneof.map toPublicGoVariable, .get (toPublicGoVariable f.name)⟩
      | _ => [⟨toPublicGoVariable a.name, a.oneof.map toPublicGoVariable, e⟩]
    ⟨t, a.expr, a.cond, sets⟩

def arguments (msgArg : Option (List Field)) : List Arg → Option (List Code)
  | [] => some []
  | a :: as => match argument msgArg a, arguments msgArg as with
    | some c, some cs => some (c :: cs)
    | _, _ => none

/-! ### What Go makes of it -/

/-- The type of a right side, if `v` has the type `t` and, for `v.GetX()`, the fields `fs`; `fns` are the conversions that
there are functions for. -/
def exprTy (fns : List (Ty × Ty)) (fs : List Field) (t : GoTy) : Expr → Option GoTy
  | .v => some t
  | .cast a b => match fns.find? (fun p => cname p.1 == a && cname p.2 == b) with
    | some p => if goTy p.1 = t then some (goTy p.2) else none
    | none => none
  | .get sel => (fs.find? (fun f => toPublicGoVariable f.name == sel)).map (goTy ·.ty)

/-- The type of the target of an assignment: the field of the struct, or the member of the oneof. -/
def targetTy (struct : List Field) (s : Set) : Option GoTy :=
  (struct.find? (fun f => toPublicGoVariable f.name == s.sel && f.oneof.map toPublicGoVariable == s.oneof)).map (goTy ·.ty)

/-- A value of type `t` may be assigned to `t'`. -/
def assignable (t t' : GoTy) : Bool := t == t' || t' == .any

def setOk (fns : List (Ty × Ty)) (struct fs : List Field) (t : GoTy) (s : Set) : Bool :=
  match exprTy fns fs t s.val, targetTy struct s with
  | some a, some b => !s.sel.isEmpty && assignable a b
  | _, _ => false

/-- The code for an argument compiles. -/
def codeOk (fns : List (Ty × Ty)) (struct fs : List Field) (c : Code) : Bool := c.sets.all (setOk fns struct fs c.ty)

/-! ### What the code does -/

/-- Results of expressions: an optional without value, null, or a value. -/
inductive Out (V : Type) where
  | none | null | val (v : V)

/-- Values of expressions (`V`) and Go values (`G`): what expressions and conditions evaluate to, `ConvertToNative`,
`out.Value()`, zero values, the conversion functions, the getters. -/
structure Env (V G : Type) where
  eval : Nat → Option (Out V)
  cond : Nat → Option Bool
  native : GoTy → V → Option G
  raw : V → G
  zero : GoTy → G
  cast : GoTy → GoTy → G → Option G
  get : Name → G → G

inductive Res (α : Type) where
  | ok (a : α) | err | panic

/-- `EvalCEL`, `grpc/federation/cel.go` lines 718-754. A type parameter `any` has no `reflect.Type`. A result `none` is a nil
interface. -/
def evalCEL {V G : Type} (E : Env V G) (t : GoTy) (x : Nat) : Res (Option G) :=
  match E.eval x with
  | none => .err
  | some .none => if t = .any then .panic else .ok (some (E.zero t))
  | some .null => if t = .any then .ok none else .ok (some (E.zero t))
  | some (.val v) => if t = .any then .ok (some (E.raw v)) else match E.native t v with
    | some g => .ok (some g)
    | none => .err

/-- The struct `args`: its fields and its oneofs. -/
structure State (G : Type) where
  fields : Name → Option G
  oneofs : Name → Option (Name × G)

def State.empty {G : Type} : State G := ⟨fun _ => none, fun _ => none⟩

def exprVal {V G : Type} (E : Env V G) (g : G) : Expr → Option G
  | .v => some g
  | .cast (.plain a) (.plain b) => E.cast a b g
  | .cast _ _ => none
  | .get sel => some (E.get sel g)

/-- An assignment, `generator/templates/eval.go.tmpl` lines 318-349. -/
def runSet {V G : Type} (E : Env V G) (g : G) (s : Set) (st : State G) : Option (State G) :=
  (exprVal E g s.val).map fun x => match s.oneof with
    | none => ⟨fun n => if n = s.sel then some x else st.fields n, st.oneofs⟩
    | some o => ⟨st.fields, fun n => if n = o then some (s.sel, x) else st.oneofs n⟩

def runSets {V G : Type} (E : Env V G) (g : G) : List Set → State G → Option (State G)
  | [], st => some st
  | s :: ss, st => match runSet E g s st with
    | none => none
    | some st => runSets E g ss st

/-- `SetCELValue`, `grpc/federation/cel.go` lines 884-903. A type assertion on a nil interface panics. -/
def setCELValue {V G : Type} (E : Env V G) (c : Code) (st : State G) : Res (State G) :=
  match evalCEL E c.ty c.expr with
  | .err => .err
  | .panic => .panic
  | .ok none => .panic
  | .ok (some g) => match runSets E g c.sets st with
    | some st => .ok st
    | none => .err

/-- `setCELArgument`, `generator/templates/eval.go.tmpl` lines 248-286, with `If`, `grpc/federation/cel.go` lines 695-709. -/
def runCode {V G : Type} (E : Env V G) (c : Code) (st : State G) : Res (State G) :=
  match c.cond with
  | none => setCELValue E c st
  | some x => match E.cond x with
    | none => .err
    | some true => setCELValue E c st
    | some false => .ok st

/-- All arguments in the order of their declaration, `generator/templates/eval.go.tmpl` lines 130-132. -/
def runAll {V G : Type} (E : Env V G) : List Code → State G → Res (State G)
  | [], st => .ok st
  | c :: cs, st => match runCode E c st with
    | .ok st => runAll E cs st
    | .err => .err
    | .panic => .panic

end Verif.SetArg
