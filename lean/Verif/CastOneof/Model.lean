import Verif.TypeConv.Model

/-!
# Conversions of messages with oneofs

Which conversion functions are declared (`typeConversionDecls`, resolver/type_conversion.go lines 13-83), and whether the functions that
generator/templates/cast.go.tmpl makes of them compile, for messages with oneofs and `optional` fields, for which protoc makes a oneof
of their own.

Simplified: no enum selectors, no renamed fields (`C35_renamed_false`), no null types. Functions between numbers, enums, strings and bytes
are taken to compile.
-/

namespace Verif.CastOneof

open Verif.TypeConv (Ty elem required visit)

/-- A oneof. `synthetic`: the one of an `optional` field; the Go struct of the message has no field for it. -/
structure Oneof where
  name : String
  synthetic : Bool
deriving DecidableEq, Repr

/-- A field; `oneof` is set by `resolveField`, resolver/resolver.go lines 3304-3309. -/
structure Field where
  name : String
  ty : Ty
  oneof : Option Oneof := none
deriving DecidableEq, Repr

/-- The fields of each message. -/
abbrev Schema := Nat → List Field

/-- `Message.Field`: resolver/message.go. -/
def fieldOf (fs : List Field) (n : String) : Option Field := fs.find? (fun f => f.name == n)

/-- `resolver.Type`: `member` is `OneofField`, the message and the name of the field. -/
structure CT where
  ty : Ty
  member : Option (Nat × String)
deriving DecidableEq, Repr

/-- The type of field `f` of message `m`: resolver/resolver.go lines 3304-3309. -/
def typeOf (m : Nat) (f : Field) : CT := ⟨f.ty, f.oneof.map (fun _ => (m, f.name))⟩

/-- The conversions `typeConversionDecls` goes on with: resolver/type_conversion.go lines 29-81. -/
def children (S : Schema) (p : CT × CT) : List (CT × CT) := match p.1.ty, elem p.2.ty with
  | .map k v, .map k' v' => [(⟨k, none⟩, ⟨k', none⟩), (⟨v, none⟩, ⟨v', none⟩)]
  | .list t, b => [(⟨t, p.1.member⟩, ⟨b, p.2.member⟩)]
  | a, b =>
    if p.1.member.isSome then [(⟨a, none⟩, ⟨p.2.ty, none⟩)]
    else match a, b with
      | .msg m, .msg m' => (S m').filterMap (fun f => (fieldOf (S m) f.name).map (fun g => (typeOf m g, typeOf m' f)))
      | _, _ => []

/-- `typeConversionDecls` for the conversions that definitions and fields need, with any text `key` for `FQDN`:
resolver/type_conversion.go lines 13-83. `OneofField` is not looked at to decide whether a conversion is required, lines 118-139. -/
def decls {K : Type} [DecidableEq K] (S : Schema) (key : CT × CT → K) (fuel : Nat) (roots : List (CT × CT)) : List (CT × CT) :=
  (roots.foldl (visit (fun p => required p.1.ty p.2.ty) key (children S) fuel) ([], [])).2

/-! ## The generated functions -/

/-- Go types. `wrapper m f` is a pointer to the struct that protoc-gen-go makes for member `f` of a oneof. -/
inductive GoTy where
  | basic (k : Nat)
  | enum (e : Nat)
  | ptr (m : Nat)
  | map (k v : GoTy)
  | slice (t : GoTy)
  | wrapper (m : Nat) (f : String)
deriving DecidableEq, Repr

/-- `toTypeText` of a type without `OneofField`: generator/code_generator.go lines 1116-1175. -/
def goTy : Ty → GoTy
  | .scalar k => .basic k
  | .enum e => .enum e
  | .msg m => .ptr m
  | .map k v => .map (goTy k) (goTy v)
  | .list t => .slice (goTy t)

/-- The number of the kind bytes in descriptors. -/
def bytesKind : Nat := 12

/-- Whether Go can compare values of the type with nil. -/
def nilable : GoTy → Bool
  | .basic k => k == bytesKind
  | .enum _ => false
  | _ => true

/-- `ResponseType`: generator/code_generator.go lines 1979-1983. The parameter, lines 1970-1977, has the type without oneof. -/
def result (t : CT) : GoTy := match t.member with
  | some (m, f) => .wrapper m f
  | none => goTy t.ty

/-- What becomes of a function: the generator crashes, the function does not compile, or it does. -/
inductive Out where
  | panic | broken | ok
deriving DecidableEq, Repr

def Out.of (b : Bool) : Out := if b then .ok else .broken

/-- The type of an element after the conversion, if the function for it is there: generator/templates/cast.go.tmpl lines 4-12. -/
def converted (ds : List (CT × CT)) (a b : CT) : Option GoTy :=
  if required a.ty b.ty then (if (a, b) ∈ ds then some (result b) else none) else some (goTy a.ty)

/-- A field of the target, generator/templates/cast.go.tmpl lines 30-63: outside of oneofs the value is put into the struct; a member of a
oneof is compared with nil and assigned to the oneof. -/
def fieldCompiles (ds : List (CT × CT)) (m m' : Nat) (g f : Field) : Bool :=
  match f.oneof with
  | none => converted ds (typeOf m g) (typeOf m' f) == some (goTy f.ty)
  | some o => !o.synthetic && nilable (goTy g.ty) && converted ds (typeOf m g) (typeOf m' f) == some (.wrapper m' f.name)

/-- `castMessage` with `ToStruct`: generator/templates/cast.go.tmpl lines 24-95, generator/code_generator.go lines 2234-2315. -/
def structCompiles (S : Schema) (ds : List (CT × CT)) (m m' : Nat) : Bool :=
  (S m').all (fun f => match fieldOf (S m) f.name with
    | none => true
    | some g => fieldCompiles ds m m' g f)

/-- The function of a declared conversion: the dispatch in generator/templates/server.go.tmpl lines 613-631. `ToOneof`
(generator/code_generator.go lines 2324-2353) reads the oneof of the target, which may be nil; `ToStruct` the message. -/
def function (S : Schema) (ds : List (CT × CT)) (p : CT × CT) : Out :=
  match p.1.ty, p.2.ty with
  | .list t, .list t' => .of (converted ds ⟨t, p.1.member⟩ ⟨t', p.2.member⟩ == some (goTy t'))
  | .list _, _ => .broken
  | .map k v, .map k' v' =>
    .of (converted ds ⟨k, none⟩ ⟨k', none⟩ == some (goTy k') && converted ds ⟨v, none⟩ ⟨v', none⟩ == some (goTy v'))
  | a, b =>
    if p.1.member.isSome then
      if p.2.member.isSome then .of (nilable (goTy a) && converted ds ⟨a, none⟩ ⟨b, none⟩ == some (goTy b)) else .panic
    else match a, b with
      | .msg m, .msg m' => .of (structCompiles S ds m m')
      | .msg _, _ => .panic
      | _, _ => .ok

end Verif.CastOneof
