/-!
# Where generated files are written

Models the output path of a generated file (`resolver/file.go` lines 109-216), the files code is generated
for (`resolver/resolver.go` lines 152-188, 375-384, 716-759), and the two callers: the protoc plugin
(`generator/generator.go` lines 635-685) and the generator (`generator/generator.go` lines 589-621).

Simplification: a path is the list of its components, none of which is `.` or `..`; this is what
`filepath.Clean` leaves of such paths, and `filepath.Join` (`resolver/file.go` line 158) appends.
-/

namespace Verif.OutPath

abbrev Text := List Char

/-- A path as its components. -/
abbrev Path := List Text

/-- `strings.Split` with a separator of one character (standard library). -/
def split (sep : Char) : Text → List Text
  | [] => [[]]
  | c :: cs =>
    match split sep cs with
    | [] => [[]]
    | p :: ps => if c = sep then [] :: p :: ps else (c :: p) :: ps

/-- The components of a path written with slashes, as `filepath.Clean` finds them (standard library). -/
def comps (t : Text) : Path := (split '/' t).filter fun c => !c.isEmpty

/-- A proto file: its name, its proto package, the import path of its `go_package` option (none without
options: `resolver/resolver.go` lines 360-373), whether a service of it has the `grpc.federation.service`
option and whether it defines plugins. -/
structure File where
  name : Path
  package : Nat
  goPackage : Option Text
  service : Bool
  plugin : Bool
deriving DecidableEq

inductive Mode where
  | import | modulePrefix | sourceRelative
deriving DecidableEq

/-- `OutputFilePathConfig`, `resolver/file.go` lines 127-136.  Simplification: `FilePath` is left out, no
caller sets it. -/
structure Cfg where
  mode : Mode
  «prefix» : Text
  importPaths : List Path

/-- What is left of a path after the components of another one. -/
def strip : Path → Path → Option Path
  | [], p => some p
  | _ :: _, [] => none
  | a :: as, b :: bs => if a = b then strip as bs else none

/-- `strings.HasPrefix(rel, "..")` for a path without `..`, `resolver/file.go` line 210. -/
def dotted : Path → Bool
  | ('.' :: '.' :: _) :: _ => true
  | _ => false

/-- `relativePath`, `resolver/file.go` lines 204-216.  `filepath.Rel` starts with `..` if the import path
does not contain the file. -/
def relativePath : List Path → Path → Path
  | [], file => file
  | ip :: ips, file =>
    match strip ip file with
    | some rel => if dotted rel then relativePath ips file else rel
    | none => relativePath ips file

/-- `strings.TrimPrefix` (standard library). -/
def trimPrefix (pre t : Text) : Text := if pre.isPrefixOf t then t.drop pre.length else t

/-- `OutputDir`, `resolver/file.go` lines 138-148, 161-192.  `none`: an error is reported. -/
def outputDir (cfg : Cfg) (fileName : Path) (gopkg : Option Text) : Option Path :=
  match cfg.mode with
  | .modulePrefix => gopkg.map fun p => comps (trimPrefix ['/'] (trimPrefix cfg.prefix p))
  | .sourceRelative => some (relativePath cfg.importPaths fileName).dropLast
  | .import => gopkg.map comps

/-- The name without its extension, `resolver/file.go` line 200. -/
def stem (base : Text) : Text :=
  match base.reverse.dropWhile (· != '.') with
  | [] => base
  | _ :: r => r.reverse

/-- The end of the names of generated files. -/
def suffix : Text :=
  ['_', 'g', 'r', 'p', 'c', '_', 'f', 'e', 'd', 'e', 'r', 'a', 't', 'i', 'o', 'n', '.', 'p', 'b', '.', 'g', 'o']

/-- `FileName`, `resolver/file.go` lines 198-202.  Simplification: only ASCII letters have a lower case. -/
def fileName (f : File) : Text := (stem (f.name.getLast?.getD [])).map Char.toLower ++ suffix

/-- `OutputPath`, `resolver/file.go` lines 153-159. -/
def outputPath (cfg : Cfg) (f : File) : Option Path :=
  (outputDir cfg f.name f.goPackage).map fun dir => dir ++ [fileName f]

/-! ## The files -/

/-- `resultFiles`, `resolver/resolver.go` lines 716-735, with `hasServiceOrPluginRuleFiles` (lines 737-748)
and `samePackageFiles` (lines 750-759): `acc` is `ret`, whose names are the keys of `fileMap`. -/
def addNew (acc : List File) : List File → List File
  | [] => acc
  | f :: fs => addNew (if acc.any (fun g => g.name = f.name) then acc else acc ++ [f]) fs

def resultFiles (all : List File) (acc : List File) : List File → List File
  | [] => acc
  | f :: fs =>
    if f.service || f.plugin then
      if acc.any (fun g => g.name = f.name) then resultFiles all acc fs
      else resultFiles all (addNew (acc ++ [f]) (all.filter fun g => g.package = f.package ∧ g ≠ f)) fs
    else resultFiles all acc fs

/-- `Resolve`, `resolver/resolver.go` lines 152-188: the files of the result if there is no error. -/
def resolve (files : List File) : List File :=
  if files.any File.service then resultFiles files [] files else []

/-- All results or none, as the loops below return at the first error. -/
def allSome : List (Option Path) → Option (List Path)
  | [] => some []
  | none :: _ => none
  | some p :: ps => (allSome ps).map (p :: ·)

/-- `CreateCodeGeneratorResponse`, `generator/generator.go` lines 635-685: the paths of the response.  The
request names the files to generate code for; `req.FileToGenerate` is not read. -/
def protoc (cfg : Cfg) (_toGenerate : List Path) (files : List File) : Option (List Path) :=
  allSome ((resolve files).map (outputPath cfg))

/-- `generateByGRPCFederation`, `generator/generator.go` lines 589-621: the paths of the response for the
proto file at `protoPath` (relative to the working directory).  Line 610 passes the path of this file for
every file. -/
def generator (cfg : Cfg) (protoPath : Path) (files : List File) : Option (List Path) :=
  allSome ((resolve files).map fun f => (outputDir cfg protoPath f.goPackage).map fun dir => dir ++ [fileName f])

end Verif.OutPath
