import Verif.SetArg.Model

/-! # What the fields of requests and arguments should be -/

namespace Verif.SetArg
open Verif.GoNames

/-- A value that is given for a field, or for a member of a oneof. -/
inductive Asg (G : Type) where
  | field (n : Name) (x : G)
  | member (o n : Name) (x : G)

/-- The last value given for a field. -/
def lastField {G : Type} (n : Name) (as : List (Asg G)) : Option G :=
  (as.filterMap fun
    | .field m x => if m = n then some x else none
    | _ => none).getLast?

/-- The last value given for any member of a oneof. -/
def lastMember {G : Type} (o : Name) (as : List (Asg G)) : Option (Name × G) :=
  (as.filterMap fun
    | .member o' m x => if o' = o then some (m, x) else none
    | _ => none).getLast?

variable {V G : Type}

/-- The value of an expression as a Go value of a type; null and missing values are zero values. -/
def valueAs (E : Env V G) (t : GoTy) (x : Nat) : Option G :=
  match E.eval x with
  | none => none
  | some .none | some .null => some (E.zero t)
  | some (.val v) => E.native t v

/-- Conversion of a Go value. -/
def convert (E : Env V G) (a b : Ty) (g : G) : Option G := if a = b then some g else E.cast (goTy a) (goTy b) g

def isScalar : Ty → Bool
  | .scalar _ _ | .null => true
  | _ => false

/-- The value of an expression of type `frm` for a field of type `to`: expressions of scalar types are evaluated to the type
of the field, others are converted. -/
def requestValue (E : Env V G) (frm to : Ty) (x : Nat) : Option G :=
  if isScalar frm then valueAs E (goTy to) x else (valueAs E (goTy frm) x).bind (convert E frm to)

def given (f : Field) (x : G) : Asg G :=
  match f.oneof with
  | none => .field f.name x
  | some o => .member o f.name x

/-- What an entry of a request gives; `none` if it fails. -/
def entryGives (E : Env V G) (fields : List Field) (e : Entry) : Option (List (Asg G)) :=
  match fieldOf fields e.field with
  | none => none
  | some f => match e.cond with
    | none => (requestValue E e.frm f.ty e.expr).map fun x => [given f x]
    | some c => match E.cond c with
      | none => none
      | some false => some []
      | some true => (requestValue E e.frm f.ty e.expr).map fun x => [given f x]

/-- What all entries give; `none` if one fails. -/
def allGive {α : Type} (one : α → Option (List (Asg G))) : List α → Option (List (Asg G))
  | [] => some []
  | a :: as => match one a, allGive one as with
    | some x, some xs => some (x ++ xs)
    | _, _ => none

/-- What an argument of a message gives: the value under its name, or for an inlined message all its fields. -/
def argGives (E : Env V G) (msgArg : List Field) (a : Arg) : Option (List (Asg G)) :=
  match a.inline with
  | some fs => (valueAs E (goTy a.frm) a.expr).map fun g => fs.map fun f => .field f.name (E.get (toPublicGoVariable f.name) g)
  | none => match fieldOf msgArg a.name with
    | none => none
    | some f => ((valueAs E (goTy a.frm) a.expr).bind (convert E a.frm f.ty)).map fun x => [.field a.name x]

/-- Types that differ at most in what they are made of, where conversion is meant to be possible. -/
def sameShape : Ty → Ty → Bool
  | .scalar _ r, .scalar _ r' | .msg _ r, .msg _ r' | .enum _ r, .enum _ r' => r == r'
  | .enum _ r, .scalar _ r' | .scalar _ r, .enum _ r' => r == r'
  | .map _ v, .map _ v' => sameShape v v'
  | _, _ => false

/-- Names of fields and oneofs that are distinct, also in Go. -/
structure Names (fields : List Field) : Prop where
  nodup : (fields.map (·.name)).Nodup
  nonempty : ∀ f ∈ fields, toPublicGoVariable f.name ≠ []
  goNames : ∀ f ∈ fields, ∀ g ∈ fields, toPublicGoVariable f.name = toPublicGoVariable g.name → f.name = g.name
  oneofs : ∀ f ∈ fields, ∀ g ∈ fields, ∀ o o', f.oneof = some o → g.oneof = some o' →
    toPublicGoVariable o = toPublicGoVariable o' → o = o'
  typed : ∀ f ∈ fields, f.ty ≠ .null

/-- A value may be given for a field of a request: a scalar or null for all, others for types of the same shape, enums for
members of oneofs only if they need no conversion. -/
def Fits (frm : Ty) (f : Field) : Prop :=
  isScalar frm = true ∨ (sameShape frm f.ty = true ∧ (kindOf frm = .enum → f.oneof.isSome → frm = f.ty))

/-- A value may be given for an argument of a message: it has its type, or both are scalars or enums of different kinds. -/
def ArgFits (frm : Ty) (f : Field) : Prop := sameShape frm f.ty = true ∧ (frm = f.ty ∨ kindOf frm ≠ kindOf f.ty)

/-- An argument of a message with the arguments `msgArg`: either it is named, and its value may be given for that argument, or
it is a message with fields, all of which have the types of the arguments of the same names. -/
def ArgOk (msgArg : List Field) (a : Arg) : Prop :=
  a.ty = none ∧ a.oneof = none ∧ a.cond = none ∧ match a.inline with
    | none => a.name ≠ [] ∧ ∃ f, fieldOf msgArg a.name = some f ∧ ArgFits a.frm f
    | some fs => a.name = [] ∧ fs ≠ [] ∧ Names fs ∧ (∃ i, a.frm = .msg i false) ∧
        ∀ g ∈ fs, ∃ f, fieldOf msgArg g.name = some f ∧ goTy g.ty = goTy f.ty

end Verif.SetArg
