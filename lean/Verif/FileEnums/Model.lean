import Verif.ImportGraph.Model

/-!
# Model: enums and plugins a file can use

Source: `resolver/file.go` lines 37-93, `resolver/resolver.go` lines 4504-4525 and 4716-4761,
`generator/code_generator.go` lines 663-699, `grpc/federation/cel.go` lines 213-275 and the range over the
enums in `generator/templates/server.go.tmpl` lines 309-314.

A file is its name, linked to the files it imports as in `Verif.ImportGraph`.  The collection of enums and
the collection of plugins are the same code except for the cache, so both are written for elements of any
type with a name.  Simplification: a Go map from names to elements is the list of its elements; the order in
which the map is ranged over is a parameter.
-/

namespace Verif.FileEnums

open Verif.ImportGraph (Name)

/-- A name: the fully qualified name of an enum or the name of a plugin. -/
abbrev Key := List Char

section
variable {α : Type} (key : α → Key)

/-- `enumMap[enum.FQDN()] = enum`, `resolver/file.go` line 77, and `pluginMap[plugin.Name] = plugin`,
`resolver/file.go` line 54. -/
def put (m : List α) (x : α) : List α := m.filter (fun y => decide (key y ≠ key x)) ++ [x]

/-- Inserting into a sorted list. -/
def insertSorted (x : α) : List α → List α
  | [] => [x]
  | y :: ys => if key y < key x then y :: insertSorted x ys else x :: y :: ys

/-- The `sort.Slice` by name, `resolver/file.go` lines 65-67 and 88-90. -/
def sortByKey (l : List α) : List α := l.foldr (insertSorted key) []

/-- The loop over the imported files, `resolver/file.go` lines 56-60 and 79-83.  `visit` is the recursive
call; `s` is the cache. -/
def importLoop {σ : Type} (visit : σ → Name → Option (σ × List α)) (s : σ) (m : List α) :
    List Name → Option (σ × List α)
  | [] => some (s, m)
  | d :: ds =>
    match visit s d with
    | none => none
    | some (s, xs) => importLoop visit s (xs.foldl (put key) m) ds

/-- `AllCELPlugins`, `resolver/file.go` lines 51-69, with a bound on the depth of the recursion.  `own` are
the plugins a file exports. -/
def plugins (links : Name → List Name) (own : Name → List α) (order : List α → List α) :
    Nat → Name → Option (List α)
  | 0, _ => none
  | n + 1, f =>
    (importLoop key (fun s d => (plugins links own order n d).map fun xs => (s, xs)) () ((own f).foldl (put key) [])
      (links f)).map fun r => sortByKey key (order r.2)

/-- The cache of `allEnumsIncludeDeps`: the newest entry of a file first. -/
abbrev Cache (α : Type) := List (Name × List α)

/-- `allEnumsIncludeDeps`, `resolver/file.go` lines 71-93, with a bound on the depth of the recursion. `own`
is `AllEnums`, the enums a file defines outside and inside of messages (lines 38-44). -/
def enums (links : Name → List Name) (own : Name → List α) (order : List α → List α) :
    Nat → Cache α → Name → Option (Cache α × List α)
  | 0, _, _ => none
  | n + 1, cache, f =>
    match cache.lookup f with
    | some es => some (cache, es)
    | none =>
      match importLoop key (enums links own order n) cache ((own f).foldl (put key) []) (links f) with
      | none => none
      | some (cache, m) => some ((f, sortByKey key (order m)) :: cache, sortByKey key (order m))

/-- Asking for the enums of files one after another with the cache of the resolver,
`r.cachedFileAllEnumMap`, `resolver/resolver.go` lines 112 and 4723. -/
def ask (links : Name → List Name) (own : Name → List α) (order : List α → List α) (fuel : Nat) :
    Cache α → List Name → Option (List (List α))
  | _, [] => some []
  | cache, f :: fs =>
    match enums key links own order fuel cache f with
    | none => none
    | some (cache, es) => (ask links own order fuel cache fs).map (es :: ·)

end

/-! ## Functions on enums -/

/-- An enum: its name and whether one of its values has attributes (`AttributeMap` is not empty,
`resolver/enum.go` lines 45-56). `id` tells apart two enums of the same name. -/
structure Enum where
  fqdn : Key
  attrs : Bool
  id : Nat
  deriving DecidableEq

/-- The functions on an enum. -/
inductive Fn
  | name | value | «from» | attr
  deriving DecidableEq

/-- The functions declared for the check of the expressions of a file, `createEnumAccessors`,
`resolver/resolver.go` lines 4716-4761. -/
def checked (es : List Enum) (f : Key × Fn) : Bool := es.any fun e => decide (e.fqdn = f.1)

/-- The enums skipped by the generator, `generator/code_generator.go` lines 667-673. -/
def skipped (k : Key) : Bool :=
  ['g', 'o', 'o', 'g', 'l', 'e', '.'].isPrefixOf k ||
  ['g', 'r', 'p', 'c', '.', 'f', 'e', 'd', 'e', 'r', 'a', 't', 'i', 'o', 'n', '.'].isPrefixOf k

/-- `"google.rpc.Code"`, `grpc/federation/cel.go` line 273. -/
def codeName : Key := ['g', 'o', 'o', 'g', 'l', 'e', '.', 'r', 'p', 'c', '.', 'C', 'o', 'd', 'e']

/-- `File.Enums` of the generator, `generator/code_generator.go` lines 663-699. -/
def generated (es : List Enum) : List Enum := es.filter fun e => !skipped e.fqdn

/-- The functions declared in the environment of a generated service: those of `google.rpc.Code`
(`grpc/federation/cel.go` lines 213-239 and 273), and for each enum of the generator its accessors and, if it
has attributes, `attr` (`generator/templates/server.go.tmpl` lines 309-314, `grpc/federation/cel.go` lines
246-259). -/
def declared (es : List Enum) (f : Key × Fn) : Bool :=
  (decide (f.1 = codeName) && decide (f.2 ≠ .attr)) ||
  (generated es).any fun e => decide (e.fqdn = f.1) && (decide (f.2 ≠ .attr) || e.attrs)

end Verif.FileEnums
