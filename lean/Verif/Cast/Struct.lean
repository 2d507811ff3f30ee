import Verif.Cast.Num

/-!
# Conversion functions for lists, maps and messages

Models the conversion functions generated from `generator/templates/cast.go.tmpl` (dispatch in
`generator/templates/server.go.tmpl` lines 613-631) with the data prepared by `ToSlice`, `ToStruct`,
`toStructField`, `ToOneof` and `ToMap` (`generator/code_generator.go` lines 2200-2375) and
`requiredCast` (lines 3725-3739).

The generated functions call each other by name; here one function dispatches on the two types and
recurses on the value.  Which function a name denotes is the subject of C35 and C55.
-/

namespace Verif.Cast

/-- Types. Messages and enums are identified by numbers (the resolver has one object for each).
`other` stands for the remaining scalar kinds (string, bytes, bool, …). A map is never repeated
(`resolver/resolver.go` lines 3364-3367). -/
inductive Ty where
  | num (k : Kind)
  | enum (e : Nat)
  | other (k : Nat)
  | msg (m : Nat)
  | map (k v : Ty)
  | list (t : Ty)
deriving DecidableEq, Repr

/-- A field: its type, the alias fields of its rule (message and field name) and its oneof. -/
structure FieldDef where
  name : String
  ty : Ty
  aliases : List (Nat × String) := []
  oneof : Option String := none
deriving DecidableEq, Repr

/-- All messages, and the mapping between enum numbers (`Verif.EnumMap`). -/
structure Schema where
  fields : Nat → List FieldDef
  enumMap : Nat → Nat → Int → Int

/-- Values as seen through getters: every field of a message is present, an unset oneof field is
`nil`. Numbers are integers; enums their number. Simplification: only messages are members of
oneofs (the generated code does not compile otherwise: it compares the value with nil). -/
inductive Val where
  | num (n : Int)
  | other (k : Nat)
  | nil
  | list (vs : List Val)
  | map (es : List (Val × Val))
  | msg (fs : List (String × Val))

inductive Err where
  | overflow
  | illTyped
deriving DecidableEq, Repr

/-- `requiredCast`, `generator/code_generator.go` lines 3725-3739; `Repeated` is not looked at. -/
def requiredCast : Ty → Ty → Bool
  | .list a, .list b => requiredCast a b
  | .list a, b => requiredCast a b
  | .map k v, .map k' v' => requiredCast k k' || requiredCast v v'
  | .msg m, .msg m' => m != m'
  | .enum e, .enum e' => e != e'
  | .num k, .num k' => k != k'
  | .other k, .other k' => k != k'
  | _, _ => true

/-- A conversion of a given value between any two types. -/
abbrev Conv := Ty → Ty → Except Err Val

/-- All results, or the first error. -/
def seqAll {α} : List (Except Err α) → Except Err (List α)
  | [] => .ok []
  | .error e :: _ => .error e
  | .ok v :: rs => match seqAll rs with
    | .error e => .error e
    | .ok vs => .ok (v :: vs)

/-- `castRepeated`, `generator/templates/cast.go.tmpl` lines 1-20. -/
def listBody (cs : List Conv) (a b : Ty) : Except Err Val :=
  match seqAll (cs.map (fun c => c a b)) with
  | .error e => .error e
  | .ok vs => .ok (.list vs)

mutual
/-- Equality of map keys. -/
def Val.beq : Val → Val → Bool
  | .num a => fun w => match w with
    | .num b => a == b
    | _ => false
  | .other a => fun w => match w with
    | .other b => a == b
    | _ => false
  | .nil => fun w => match w with
    | .nil => true
    | _ => false
  | .list as => fun w => match w with
    | .list bs => Val.beqL as bs
    | _ => false
  | .map as => fun w => match w with
    | .map bs => Val.beqE as bs
    | _ => false
  | .msg as => fun w => match w with
    | .msg bs => Val.beqF as bs
    | _ => false
def Val.beqL : List Val → List Val → Bool
  | [] => fun w => w.isEmpty
  | a :: as => fun w => match w with
    | b :: bs => Val.beq a b && Val.beqL as bs
    | [] => false
def Val.beqE : List (Val × Val) → List (Val × Val) → Bool
  | [] => fun w => w.isEmpty
  | (a, a') :: as => fun w => match w with
    | b :: bs => Val.beq a b.1 && Val.beq a' b.2 && Val.beqE as bs
    | [] => false
def Val.beqF : List (String × Val) → List (String × Val) → Bool
  | [] => fun w => w.isEmpty
  | (a, a') :: as => fun w => match w with
    | b :: bs => a == b.1 && Val.beq a' b.2 && Val.beqF as bs
    | [] => false
end

/-- `ret[key] = val`: replaces the value of an existing key. -/
def insert (k v : Val) : List (Val × Val) → List (Val × Val)
  | [] => [(k, v)]
  | (k', v') :: es => if Val.beq k' k then (k', v) :: es else (k', v') :: insert k v es

/-- The loop of `castMap`, `generator/templates/cast.go.tmpl` lines 135-164; the entries come in any order (Go map iteration). -/
def mapLoop (a b a' b' : Ty) : List (Conv × Conv) → List (Val × Val) → Except Err (List (Val × Val))
  | [], acc => .ok acc
  | (ck, cv) :: cs, acc => match ck a b with
    | .error e => .error e
    | .ok k => match cv a' b' with
      | .error e => .error e
      | .ok v => mapLoop a b a' b' cs (insert k v acc)

/-- `castMap`. -/
def mapBody (cs : List (Conv × Conv)) (a b a' b' : Ty) : Except Err Val :=
  match mapLoop a b a' b' cs [] with
  | .error e => .error e
  | .ok es => .ok (.map es)

/-- Zero value of a field that is not assigned. -/
def zero : Ty → Val
  | .num _ => .num 0
  | .enum _ => .num 0
  | .other _ => .other 0
  | .msg _ => .nil
  | .map _ _ => .map []
  | .list _ => .list []

/-- `toStructField`, `generator/code_generator.go` lines 2284-2315: the source field of a target field. An alias field that is not
a field of the source message is skipped. -/
def sourceField (S : Schema) (frm : Nat) (f : FieldDef) : Option FieldDef :=
  match f.aliases.find? (fun a => a.1 == frm) with
  | some a => (S.fields frm).find? (fun g => g.name == a.2)
  | none => (S.fields frm).find? (fun g => g.name == f.name)

/-- Fields outside oneofs, then the fields of oneofs: the order in which `castMessage` handles them
(`generator/templates/cast.go.tmpl` lines 28-85) and in which message values list their fields here. -/
def canon (fs : List FieldDef) : List FieldDef :=
  fs.filter (fun f => f.oneof.isNone) ++ fs.filter (fun f => f.oneof.isSome)

/-- `from.GetX()` with the conversion of the value. -/
def getConv (cs : List (String × Val × Conv)) (n : String) : Option (Val × Conv) :=
  (cs.find? (fun p => p.1 == n)).map (·.2)

/-- `case from.GetX() != nil`, line 52. -/
def isSet (S : Schema) (frm : Nat) (cs : List (String × Val × Conv)) (f : FieldDef) : Bool :=
  match sourceField S frm f with
  | none => false
  | some g => match getConv cs g.name with
    | some (.nil, _) => false
    | some _ => true
    | none => false

/-- The case taken by the switch of a oneof, `generator/templates/cast.go.tmpl` lines 48-63: its first field that is set. -/
def chosen (S : Schema) (frm to : Nat) (cs : List (String × Val × Conv)) (o : String) : Option String :=
  (((S.fields to).filter (fun f => f.oneof == some o)).find? (isSet S frm cs)).map (·.name)

/-- The value assigned to one field of the target message, `generator/templates/cast.go.tmpl` lines 30-40, 52-61 and 67-78. -/
def fieldResult (S : Schema) (frm to : Nat) (cs : List (String × Val × Conv)) (f : FieldDef) :
    Except Err Val :=
  match f.oneof with
  | some o =>
    if chosen S frm to cs o = some f.name then
      match sourceField S frm f with
      | none => .ok (zero f.ty)
      | some g => match getConv cs g.name with
        | none => .error .illTyped
        | some (_, c) => c g.ty f.ty
    else .ok .nil
  | none => match sourceField S frm f with
    | none => .ok (zero f.ty)
    | some g => match getConv cs g.name with
      | none => .error .illTyped
      | some (_, c) => c g.ty f.ty

/-- `castMessage`, `generator/templates/cast.go.tmpl` lines 24-95, for a non-nil message. -/
def msgBody (S : Schema) (frm to : Nat) (cs : List (String × Val × Conv)) : Except Err Val :=
  match seqAll ((canon (S.fields to)).map (fieldResult S frm to cs)) with
  | .error e => .error e
  | .ok vs => .ok (.msg ((canon (S.fields to)).map (·.name) |>.zip vs))

/-- The conversions of numbers and enums (`castEnumAndNumber`, `castEnum`,
`castRequiredValidationNumber`, `castDefault`). -/
def numBody (S : Schema) (n : Int) (a b : Ty) : Except Err Val :=
  let ofNum (r : Except Unit Int) : Except Err Val := match r with
    | .error _ => .error .overflow
    | .ok v => .ok (.num v)
  match a, b with
  | .num k, .num k' => ofNum (generatedCast k k' n)
  | .enum _, .num k' => ofNum (generatedCast .enum k' n)
  | .num k, .enum _ => ofNum (generatedCast k .enum n)
  | .enum e, .enum e' => .ok (.num (S.enumMap e e' n))
  | _, _ => .error .illTyped

/-- Applied only where the types require it: `{{ if .RequiredCast }}`. -/
def whenRequired (v : Val) (c : Conv) : Conv := fun a b => if requiredCast a b then c a b else .ok v

mutual
/-- The generated conversion from type `a` to type `b`, applied to a value. -/
def Val.cast (S : Schema) : Val → Conv
  | .num n => fun a b => numBody S n a b
  | .other k => fun a b => match a, b with
    | .other _, .other _ => .ok (.other k)
    | _, _ => .error .illTyped
  | .nil => fun a b => match a, b with
    | .msg _, .msg _ => .ok .nil
    | _, _ => .error .illTyped
  | .list vs => fun a b => match a, b with
    | .list a', .list b' => listBody (convL S vs) a' b'
    | _, _ => .error .illTyped
  | .map es => fun a b => match a, b with
    | .map k v, .map k' v' => mapBody (convE S es) k k' v v'
    | _, _ => .error .illTyped
  | .msg fs => fun a b => match a, b with
    | .msg m, .msg m' => msgBody S m m' (convF S fs)
    | _, _ => .error .illTyped
def convL (S : Schema) : List Val → List Conv
  | [] => []
  | v :: vs => whenRequired v (v.cast S) :: convL S vs
def convE (S : Schema) : List (Val × Val) → List (Conv × Conv)
  | [] => []
  | (k, v) :: es => (whenRequired k (k.cast S), whenRequired v (v.cast S)) :: convE S es
def convF (S : Schema) : List (String × Val) → List (String × Val × Conv)
  | [] => []
  | (n, v) :: fs => (n, v, whenRequired v (v.cast S)) :: convF S fs
end

/-- A value converted from type `a` to type `b` where the generated code needs it. -/
def Val.conv (S : Schema) (v : Val) : Conv := whenRequired v (v.cast S)

end Verif.Cast
