/-!
# Imports of generated files

Models `File.Imports` (`generator/code_generator.go` lines 591-647) and `File.getAlias` (lines 649-655).

Packages are given sorted by path, as lines 633-640 sort them; the order of packages with the same path is that of a
Go map. The model's `id` is the identity of the package object: there is one for each proto file, so several
objects have the same path. The search for a free suffix (lines 615-622) has a bound in the model,
`suffix_found` shows that it suffices. Imports of the standard library and of the runtime
(`StandardImports`, `DefaultImports`, lines 510-589) are given as a list.
-/

namespace Verif.Imports

abbrev Name := List Char

/-- `resolver.GoPackage`. -/
structure Pkg where
  id : Nat
  path : Name
  name : Name
deriving DecidableEq, Repr

/-- An import of the runtime: its path, its alias (empty without) and the name of the package. -/
structure Default where
  path : Name
  alias : Name
  base : Name
deriving DecidableEq, Repr

/-- The identifier a default import declares. -/
def Default.ident (d : Default) : Name := if d.alias = [] then d.base else d.alias

/-- State of `Imports`: `importPathMap`, `importAliasMap`, the imports (path and alias) and `aliasMap`. -/
structure St where
  paths : List Name
  names : List Name
  imports : List (Name × Name)
  aliases : List (Nat × Name)

/-- `fmt.Sprint(suffixIndex)`. -/
def digits (k : Nat) : Name := (toString k).toList

/-- The loop, lines 615-622. -/
def suffixed (names : List Name) (name : Name) : Nat → Nat → Name
  | 0, k => name ++ digits k
  | fuel + 1, k => if name ++ digits k ∈ names then suffixed names name fuel (k + 1) else name ++ digits k

/-- `strings.HasPrefix(pkg.Name, "google.")`. -/
def isGoogle (n : Name) : Bool := ['g', 'o', 'o', 'g', 'l', 'e', '.'].isPrefixOf n

/-- `addImport`, lines 601-632. -/
def addImport (cur : Name) (st : St) (p : Pkg) : St :=
  if isGoogle p.name then st
  else if p.path = cur then st
  else if p.path ∈ st.paths then st
  else
    let alias := if p.name ∈ st.names then suffixed st.names p.name (st.names.length + 1) 1 else p.name
    { paths := p.path :: st.paths
      names := p.name :: st.names
      imports := st.imports ++ [(p.path, alias)]
      aliases := (p.id, alias) :: st.aliases }

/-- `Imports`, lines 591-647. -/
def imports (cur : Name) (ds : List Default) (pkgs : List Pkg) : St :=
  pkgs.foldl (addImport cur) ⟨ds.map (·.path), ds.map (·.alias), [], []⟩

/-- `getAlias`, lines 649-655. -/
def getAlias (st : St) (p : Pkg) : Name :=
  match st.aliases.lookup p.id with
  | some a => a
  | none => p.name

end Verif.Imports
