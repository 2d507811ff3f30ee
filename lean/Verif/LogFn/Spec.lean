import Verif.LogFn.Model

/-! # What logs of messages should be -/

namespace Verif.LogFn
open Verif.GoNames

/-- What is logged for a number or text of a kind. -/
def family : Kind → Slog
  | .double | .float => .float64
  | .int32 | .int64 | .sint32 | .sint64 | .sfixed32 | .sfixed64 => .int64
  | .uint32 | .uint64 | .fixed32 | .fixed64 => .uint64
  | .bool => .bool
  | .string | .bytes => .string

/-- The name of an enum value, empty for an unknown number. -/
def enumText (w : World) (e : Nat) (x : Int) : Name :=
  match (w.enum e).values.find? (·.2 == x) with
  | some c => c.1
  | none => []

mutual
/-- The log of a value: a message is a group of its fields under their names, a list a group of its elements under their
indices, a map a group of its values under their keys, an enum its name. -/
def logOf (w : World) : Ty → Val → Log
  | .scalar k false, .leaf x => .leaf (family k) x
  | .scalar _ true, v => .any v
  | .enum e false, .enum x => .str (enumText w e x)
  | .enum e true, .list vs => .group (logList w (.enum e false) 0 vs)
  | .msg _ false, .nil => .group []
  | .msg i false, .msg vs => .group (logFields w (w.msg i).fields vs)
  | .msg i true, .list vs => .group (logList w (.msg i false) 0 vs)
  | .map _ _ v, .map ks vs => .group (logEntries w v ks vs)
  | _, _ => .bad
def logList (w : World) (t : Ty) : Nat → List Val → List (Key × Log)
  | _, [] => []
  | i, v :: vs => (.idx i, logOf w t v) :: logList w t (i + 1) vs
def logFields (w : World) : List Field → List Val → List (Key × Log)
  | f :: fs, v :: vs => (.name f.name, logOf w f.ty v) :: logFields w fs vs
  | fs, [] => fs.map fun f => (.name f.name, .bad)
  | [], _ => []
def logEntries (w : World) (t : Ty) : List Int → List Val → List (Key × Log)
  | k :: ks, v :: vs => (.key k, logOf w t v) :: logEntries w t ks vs
  | _, _ => []
end

mutual
/-- How deep a value is. -/
def depth : Val → Nat
  | .leaf _ | .enum _ | .nil => 1
  | .list vs | .map _ vs | .msg vs => depths vs + 1
def depths : List Val → Nat
  | [] => 0
  | v :: vs => max (depth v) (depths vs)
end

/-- The types that the messages `roots`, with their arguments, are made of. -/
inductive Occurs (w : World) (roots : List Nat) : Ty → Prop where
  | root {i} : i ∈ roots → Occurs w roots (.msg i false)
  | arg {i fields used f} : i ∈ roots → (w.msg i).arg = some (fields, used) → f ∈ fields → Occurs w roots f.ty
  | field {i f} : Occurs w roots (.msg i false) → f ∈ (w.msg i).fields → Occurs w roots f.ty
  | nested {i t} : Occurs w roots (.msg i false) → t ∈ (w.msg i).nested → Occurs w roots t
  | enum {i e} : Occurs w roots (.msg i false) → e ∈ (w.msg i).enums → Occurs w roots (.enum e false)
  | element {i} : Occurs w roots (.msg i true) → Occurs w roots (.msg i false)
  | enumElement {e} : Occurs w roots (.enum e true) → Occurs w roots (.enum e false)
  | value {n k v} : Occurs w roots (.map n k v) → Occurs w roots v

/-- The type of the elements of a list. -/
def single : Ty → Ty
  | .scalar k _ => .scalar k false
  | .msg i _ => .msg i false
  | .enum e _ => .enum e false
  | .map n k v => .map n k v

def IsScalar : Ty → Prop
  | .scalar _ _ => True
  | _ => False

/-- Different messages, enums, maps and arguments have different Go names. -/
structure DifferentNames (w : World) (roots : List Nat) : Prop where
  types : ∀ t u, Occurs w roots t → Occurs w roots u → ¬ IsScalar t → ¬ IsScalar u → goNameOf w t = goNameOf w u →
    goTy (single t) = goTy (single u)
  args : ∀ i t, i ∈ roots → (w.msg i).arg.isSome → Occurs w roots t → ¬ IsScalar t →
    fqdnToGoName (w.msg i).argName ≠ goNameOf w t
  two : ∀ i j, i ∈ roots → j ∈ roots → (w.msg i).arg.isSome → (w.msg j).arg.isSome →
    fqdnToGoName (w.msg i).argName = fqdnToGoName (w.msg j).argName → i = j

/-- A part of a proto name. -/
def Ident (s : Name) : Prop := s ≠ [] ∧ ∀ x ∈ s, x ≠ '.' ∧ x ≠ '-'

/-- A part of a proto name that begins with an upper case letter. -/
def Capital (s : Name) : Prop := Ident s ∧ ∃ c cs, s = c :: cs ∧ isUpper c = true

end Verif.LogFn
