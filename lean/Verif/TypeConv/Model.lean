/-!
# Which conversion functions are generated

Models `typeConversionDecls` and `requiredTypeConversion` (`resolver/type_conversion.go` lines 13-83 and
118-139), `Type.FQDN` (`resolver/fqdn.go` lines 66-87), the conversions a generated conversion function calls
(`ToSlice`, `ToMap`, `toStructField`, `generator/code_generator.go` lines 2200-2211, 2284-2315, 2362-2375) and
`CastFields` (lines 3586-3626).

Simplified: no enum selectors, no oneof members, no null types. The recursion has a bound in the model; it ends because
each step records a new pair (`C35_closed_partial` shows that the number of pairs suffices). Messages and enums
are numbers, the fields of a message are given by the schema, which may be recursive.
-/

namespace Verif.TypeConv

abbrev Name := List Char

/-- `resolver.Type`. -/
inductive Ty where
  | scalar (kind : Nat)
  | enum (e : Nat)
  | msg (m : Nat)
  | map (k v : Ty)
  | list (t : Ty)
deriving DecidableEq, Repr

structure Field where
  name : Name
  ty : Ty
deriving DecidableEq, Repr

/-- A schema: names, the fields of each message, and the aliases of fields: `alias m f m'` is the field of `m'`
that field `f` of `m` is an alias of. -/
structure Schema where
  kindName : Nat → Name
  enumName : Nat → Name
  msgName : Nat → Name
  fields : Nat → List Field
  alias : Nat → Name → Nat → Option Name

/-- `Message.Field`. -/
def fieldOf (fs : List Field) (n : Name) : Option Field := fs.find? (fun f => f.name == n)

/-- `Type.FQDN`, `resolver/fqdn.go` lines 66-87. -/
def fqdn (S : Schema) : Ty → Name
  | .scalar k => S.kindName k
  | .enum e => S.enumName e
  | .msg m => S.msgName m
  | .map k v => "map<".toList ++ fqdn S k ++ ", ".toList ++ fqdn S v ++ ">".toList
  | .list t => "repeated ".toList ++ fqdn S t

/-- `TypeConversionDecl.FQDN`, `resolver/type_conversion.go` lines 9-11. -/
def key (S : Schema) (p : Ty × Ty) : Name := fqdn S p.1 ++ fqdn S p.2

/-- The type without `Repeated`. -/
def elem : Ty → Ty
  | .list t => t
  | t => t

/-- `requiredTypeConversion`, `resolver/type_conversion.go` lines 118-139, and `requiredCast` (`generator/code_generator.go` lines 3725-3739):
`Repeated` is not looked at. For a map and a type that is none, the second gives true. -/
def required : Ty → Ty → Bool
  | .list t, b => required t b
  | .map k v, b => match elem b with
    | .map k' v' => required k k' || required v v'
    | _ => false
  | .scalar x, b => elem b != .scalar x
  | .enum e, b => elem b != .enum e
  | .msg m, b => elem b != .msg m

/-- The conversions `typeConversionDecls` goes on with, `resolver/type_conversion.go` lines 29-81. -/
def children (S : Schema) (p : Ty × Ty) : List (Ty × Ty) := match p.1, elem p.2 with
  | .list t, b => [(t, b)]
  | .map k v, .map k' v' => [(k, k'), (v, v')]
  | .msg m, .msg m' => (S.fields m').filterMap (fun f => (fieldOf (S.fields m) f.name).map (fun g => (g.ty, f.ty)))
  | _, _ => []

/-- `typeConversionDecls`, `resolver/type_conversion.go` lines 13-83, for any key, children and need. The state is `convertedFQDNMap` and the
declarations. -/
def visit {P K : Type} [DecidableEq K] (req : P → Bool) (key : P → K) (children : P → List P) : Nat → List K × List P → P → List K × List P
  | 0, st, _ => st
  | n + 1, st, p =>
    if !req p then st
    else if key p ∈ st.1 then st
    else (children p).foldl (visit req key children n) (key p :: st.1, st.2 ++ [p])

/-- `Message.TypeConversionDecls` (`resolver/message.go` lines 460-527), given the conversions its definitions
and fields need. -/
def decls (S : Schema) (fuel : Nat) (roots : List (Ty × Ty)) : List (Ty × Ty) :=
  (roots.foldl (visit (fun p => required p.1 p.2) (key S) (children S) fuel) ([], [])).2

/-- `toStructField`, `generator/code_generator.go` lines 2284-2315: the field a field of the target is converted from. -/
def structField (S : Schema) (m m' : Nat) (f : Field) : Option Field :=
  match S.alias m' f.name m with
  | some n => fieldOf (S.fields m) n
  | none => fieldOf (S.fields m) f.name

/-- The conversion functions the function for a pair calls, of the types that require it. -/
def calls (S : Schema) (p : Ty × Ty) : List (Ty × Ty) :=
  let all : List (Ty × Ty) := match p.1, elem p.2 with
    | .list t, b => [(t, b)]
    | .map k v, .map k' v' => [(k, k'), (v, v')]
    | .msg m, .msg m' => (S.fields m').filterMap (fun f => (structField S m m' f).map (fun (g : Field) => (g.ty, f.ty)))
    | _, _ => []
  all.filter (fun q => required q.1 q.2)

/-- `CastFields`, `generator/code_generator.go` lines 3586-3626: one function for each name; the responses of methods are added on their
own, later ones replace earlier ones of the same name. -/
def castFields {N : Type} [DecidableEq N] (name : Ty × Ty → N) (responses decls : List (Ty × Ty)) : List (Ty × Ty) :=
  (responses ++ decls).reverse.foldl (fun acc p => if acc.any (fun q => name q == name p) then acc else acc ++ [p]) []

end Verif.TypeConv
