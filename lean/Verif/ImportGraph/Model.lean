/-!
# Imported files

Models the imports of the `grpc.federation.file` option (`resolver/resolver.go` lines 228-311), the
registration of all files with the check for cycles (`resolver/cel.go` lines 143-194), the links between
files (`resolver/resolver.go` lines 352-358, 782-835) and what is collected along them (`resolver/file.go`
lines 37-93).

A file is its name.  `fileNameToDefMap` (`resolver/resolver.go` lines 219, 292-302) has one descriptor for each
name, so the dependencies of a file are a function of its name.
-/

namespace Verif.ImportGraph

abbrev Name := Nat

/-! ## Imports of the option -/

/-- The proto files that can be found: the imports of the `grpc.federation.file` option of a file, and what
compiling a path gives (`compileProto`, `resolver/resolver.go` lines 313-331): the names of the file and of
all files it depends on. -/
structure Sys where
  imports : Name → List Name
  compile : Name → Option (List Name)

/-- `Dependency` of each descriptor and the paths whose errors were reported. -/
structure St where
  deps : Name → List Name
  errors : List Name

/-- The imports of a file that are not among its dependencies, `resolver/resolver.go` lines 275-282. -/
def fresh (sys : Sys) (st : St) (f : Name) : List Name := (sys.imports f).filter fun p => decide (p ∉ st.deps f)

/-- One file, `resolver/resolver.go` lines 279-305: its fresh imports become dependencies. -/
def step (sys : Sys) (st : St) (f : Name) : St :=
  ⟨fun g => if g = f then st.deps f ++ fresh sys st f else st.deps g,
   st.errors ++ (fresh sys st f).filter fun p => (sys.compile p).isNone⟩

/-- What importing a path adds, `resolver/resolver.go` line 303. -/
def added (sys : Sys) (p : Name) : List Name := (sys.compile p).getD []

/-- The loop of `resolveFileImportRuleRecursive`, `resolver/resolver.go` lines 259-306: the state and
`importFileDefs`. -/
def level (sys : Sys) (st : St) : List Name → St × List Name
  | [] => (st, [])
  | f :: fs =>
    ((level sys (step sys st f) fs).1, (fresh sys st f).flatMap (added sys) ++ (level sys (step sys st f) fs).2)

/-- `resolveFileImportRuleRecursive`, `resolver/resolver.go` lines 258-311, with a bound on the depth of the
recursion. -/
def importRec (sys : Sys) : Nat → St → List Name → Option (St × List Name)
  | 0, _, _ => none
  | n + 1, st, files =>
    if (level sys st files).2 = [] then some ((level sys st files).1, [])
    else (importRec sys n (level sys st files).1 (level sys st files).2).map fun r =>
      (r.1, (level sys st files).2 ++ r.2)

/-- `newFileDefs`, `resolver/resolver.go` lines 231-239. -/
def dedup (seen : List Name) : List Name → List Name
  | [] => []
  | f :: fs => if f ∈ seen then dedup seen fs else f :: dedup (f :: seen) fs

/-- `r.files` after `resolveFileImportRule`, `resolver/resolver.go` lines 243-255. -/
def allFiles (files imp : List Name) : List Name :=
  (dedup [] imp).reverse.foldl (fun fs f => if f ∈ fs then fs else f :: fs) files

/-! ## Registration -/

/-- `fileMap` and the registered files, `resolver/cel.go` lines 143-194: `present` are the names with a
descriptor, `opened` those with the entry nil, `done` the registered files in their order. -/
structure Reg where
  present : List Name
  opened : List Name
  done : List Name

inductive Res where
  | fuel
  | cycle (dep : Name)
  | ok (r : Reg)

/-- Lines 178-192 of `resolver/cel.go`.  Simplification: building the descriptor succeeds. -/
def finish (r : Reg) (f : Name) : Reg :=
  ⟨r.present, r.opened.filter (· ≠ f), if f ∈ r.done then r.done else r.done ++ [f]⟩

/-- The loop over dependencies, `resolver/cel.go` lines 164-175; `visit` is the recursive call. -/
def depLoop (visit : Reg → Name → Res) (r : Reg) : List Name → Res
  | [] => .ok r
  | d :: ds =>
    if d ∈ r.present then
      match visit r d with
      | .ok r => depLoop visit r ds
      | e => e
    else if d ∈ r.opened then .cycle d
    else depLoop visit r ds

/-- `registerFileDeps`, `resolver/cel.go` lines 160-194, with a bound on the depth of the recursion. -/
def register (deps : Name → List Name) : Nat → Reg → Name → Res
  | 0, _, _ => .fuel
  | n + 1, r, f =>
    match depLoop (register deps n) ⟨r.present.filter (· ≠ f), f :: r.opened, r.done⟩ (deps f) with
    | .ok r => .ok (finish r f)
    | e => e

/-- The loop of `RegisterFiles` over the map, `resolver/cel.go` lines 152-156: `order` is the order in which
the entries would be visited; entries deleted before are not visited. -/
def registerLoop (deps : Name → List Name) (fuel : Nat) (r : Reg) : List Name → Res
  | [] => .ok r
  | f :: fs =>
    if f ∈ r.present then
      match register deps fuel r f with
      | .ok r => registerLoop deps fuel r fs
      | e => e
    else registerLoop deps fuel r fs

/-- `RegisterFiles`, `resolver/cel.go` lines 143-158, for files with different names. -/
def registerFiles (deps : Name → List Name) (files order : List Name) : Res :=
  registerLoop deps files.length ⟨files, [], []⟩ order

/-! ## Links between files -/

/-- The files a file is linked to, `resolver/resolver.go` lines 806-812. -/
def importFiles (deps : Name → List Name) (files : List Name) (f : Name) : List Name :=
  (deps f).filter fun d => decide (d ∈ files)

/-- `resolveFile`, `resolver/resolver.go` lines 782-835, with a bound on the depth of the recursion; the
list is `cachedFileMap`. -/
def resolveFile (links : Name → List Name) : Nat → List Name → Name → Option (List Name)
  | 0, _, _ => none
  | n + 1, cache, f =>
    if f ∈ cache then some cache
    else ((links f).foldlM (resolveFile links n) cache).map (· ++ [f])

/-- `resolveFiles`, `resolver/resolver.go` lines 352-358. -/
def resolveFiles (links : Name → List Name) (fuel : Nat) (files : List Name) : Option (List Name) :=
  files.foldlM (resolveFile links fuel) []

end Verif.ImportGraph
