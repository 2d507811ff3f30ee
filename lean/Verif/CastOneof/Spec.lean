import Verif.CastOneof.Model

/-! # C120: the specification -/

namespace Verif.CastOneof

open Verif.TypeConv (Ty)

/-- The two messages have the fields `g` and `f` of the same name. -/
def Corresponds (S : Schema) (m m' : Nat) (g f : Field) : Prop := f ∈ S m' ∧ fieldOf (S m) f.name = some g

/-- The types between which values are converted, starting from what the definitions and fields of the service need, and going into
lists, maps and fields of the same name as long as the types are different. -/
inductive Converts (S : Schema) (roots : List (Ty × Ty)) : Ty → Ty → Prop where
  | root {a b} (h : (a, b) ∈ roots) (hne : a ≠ b) : Converts S roots a b
  | elem {a b} (h : Converts S roots (.list a) (.list b)) : Converts S roots a b
  | key {k v k' v'} (h : Converts S roots (.map k v) (.map k' v')) (hne : k ≠ k') : Converts S roots k k'
  | value {k v k' v'} (h : Converts S roots (.map k v) (.map k' v')) (hne : v ≠ v') : Converts S roots v v'
  | field {m m' g f} (h : Converts S roots (.msg m) (.msg m')) (hc : Corresponds S m m' g f) (hne : g.ty ≠ f.ty) :
      Converts S roots g.ty f.ty

/-- Both are messages, or both are neither messages nor lists nor maps. -/
def LikeSingle : Ty → Ty → Prop
  | .msg _, .msg _ => True
  | .scalar _, .scalar _ | .scalar _, .enum _ | .enum _, .scalar _ | .enum _, .enum _ => True
  | _, _ => False

/-- The two types are of the same form. -/
def Like : Ty → Ty → Prop
  | .list a, .list b => LikeSingle a b
  | .map k v, .map k' v' => LikeSingle k k' ∧ LikeSingle v v'
  | a, b => LikeSingle a b

/-- Neither a list nor a map, as all members of oneofs. -/
def NotMany : Ty → Prop
  | .list _ | .map _ _ => False
  | _ => True

/-- What the schema must be like: fields of the same name of converted messages are of the same form, and members of oneofs are neither
lists nor maps. -/
structure Fits (S : Schema) (roots : List (Ty × Ty)) : Prop where
  root : ∀ p ∈ roots, Like p.1 p.2
  like : ∀ m m' g f, Converts S roots (.msg m) (.msg m') → Corresponds S m m' g f → Like g.ty f.ty
  single : ∀ m f, f ∈ S m → f.oneof.isSome = true → NotMany f.ty

/-- The condition on two fields of the same name: a member of a oneof of the target, which must be a real one, comes from a message or
bytes of another type; a field outside of oneofs comes from a field outside of oneofs or from one of the same type. -/
def FieldOk (g f : Field) : Prop := match f.oneof with
  | some o => o.synthetic = false ∧ g.ty ≠ f.ty ∧ ((∃ m, g.ty = .msg m) ∨ g.ty = .scalar bytesKind)
  | none => g.oneof = none ∨ g.ty = f.ty

end Verif.CastOneof
