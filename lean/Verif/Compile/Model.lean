/-!
# Which files are compiled

Models the compiler of proto files: `compiler/compiler.go` lines 26-230 and how the resolver finds the files imported
by the option, `resolver/resolver.go` lines 313-349.

Paths are texts as in the code.  The functions of `path/filepath` (for Unix) are taken as documented: `Clean`, `Join`,
`Abs`, `Rel`, `Dir`, `IsAbs`.  The lookup of protocompile is taken as documented too: `SourceResolver` joins each of
its import paths with the name and takes the first one the accessor opens, and `WithStandardImports` gives its own
files for names that are not found.  Simplifications: no symbolic links, every error of `os.Open` and `os.Stat` is
that there is no such file, the working directory can be found, and parsing and linking in protocompile are a
parameter.
-/

namespace Verif.Compile

abbrev Text := List Char

/-! ## Paths -/

/-- The parts of a text between slashes. -/
def split : Text → List Text
  | [] => [[]]
  | c :: cs =>
    if c = '/' then [] :: split cs
    else
      match split cs with
      | s :: ss => (c :: s) :: ss
      | [] => [[c]]

/-- `filepath.IsAbs`. -/
def isAbs (t : Text) : Bool := t.head? == some '/'

/-- A clean path: whether it starts with a slash, and its parts. -/
structure Path where
  rooted : Bool
  parts : List Text
  deriving DecidableEq

/-- One part of a path in `filepath.Clean`; the parts so far are in reverse order. -/
def push (rooted : Bool) (stack : List Text) (seg : Text) : List Text :=
  if seg = [] ∨ seg = ['.'] then stack
  else if seg = ['.', '.'] then
    match stack with
    | [] => if rooted then [] else [['.', '.']]
    | t :: ts => if t = ['.', '.'] then ['.', '.'] :: t :: ts else ts
  else seg :: stack

/-- The path `filepath.Clean` gives. -/
def parse (t : Text) : Path := ⟨isAbs t, ((split t).foldl (push (isAbs t)) []).reverse⟩

/-- Parts with slashes between them. -/
def slashed : List Text → Text
  | [] => []
  | [p] => p
  | p :: ps => p ++ '/' :: slashed ps

/-- The text of a clean path. -/
def Path.text (p : Path) : Text :=
  if p.rooted then '/' :: slashed p.parts else if p.parts = [] then ['.'] else slashed p.parts

/-- `filepath.Clean`. -/
def clean (t : Text) : Text := (parse t).text

/-- `filepath.Join` of two texts. -/
def join (a b : Text) : Text :=
  if a = [] then (if b = [] then [] else clean b)
  else if b = [] then clean a
  else clean (a ++ '/' :: b)

/-- `filepath.Abs`; `cwd` is the working directory. -/
def abs (cwd t : Text) : Text := if isAbs t then clean t else join cwd t

/-- The parts of `filepath.Rel` for clean absolute paths. -/
def relParts : List Text → List Text → List Text
  | [], ts => ts
  | bs, [] => List.replicate bs.length ['.', '.']
  | b :: bs, t :: ts => if b = t then relParts bs ts else List.replicate (bs.length + 1) ['.', '.'] ++ t :: ts

/-- `filepath.Rel` for absolute paths. -/
def rel (base targ : Text) : Text := (Path.mk false (relParts (parse base).parts (parse targ).parts)).text

/-- `filepath.Dir`. -/
def dir (t : Text) : Text := clean (t.reverse.dropWhile (· ≠ '/')).reverse

/-! ## The name of a file -/

/-- A path made absolute, `compiler/compiler.go` lines 111-119 and 122-129: absolute paths are not cleaned. -/
def toAbs (cwd t : Text) : Text := if isAbs t then t else abs cwd t

/-- The loop of `RelativePathFromImportPaths`, `compiler/compiler.go` lines 131-140: `strings.HasPrefix` compares
texts. -/
def relLoop (cwd protoPath : Text) : List Text → Text
  | [] => protoPath
  | i :: is =>
    if (toAbs cwd i).isPrefixOf (toAbs cwd protoPath) then rel (toAbs cwd i) (toAbs cwd protoPath)
    else relLoop cwd protoPath is

/-- `RelativePathFromImportPaths`, `compiler/compiler.go` lines 104-141; without import paths the loop gives the path
itself, as lines 105-107 do. -/
def relativePath (cwd protoPath : Text) (importPaths : List Text) : Text := relLoop cwd protoPath importPaths

/-! ## The content of a file -/

/-- Where files come from: the files on the disk by clean absolute paths, the working directory, the files that come
with the compiler (`compiler/compiler.go` lines 173-178) and those that come with protocompile. -/
structure World (α : Type) where
  disk : Text → Option α
  cwd : Text
  builtin : List (Text × α)
  standard : Text → Option α

/-- `os.Open`: relative paths are below the working directory. -/
def World.open {α : Type} (w : World α) (p : Text) : Option α := w.disk (abs w.cwd p)

/-- The file that is compiled: its path, its content in the editor, its imports and those of the option. -/
structure Source (α : Type) where
  path : Text
  content : α
  imports : List Text
  optionImports : List Text

/-- `Accessor`, `compiler/compiler.go` lines 166-187. -/
def access {α : Type} (w : World α) (manual : Bool) (f : Source α) (p : Text) : Option α :=
  if p = f.path then some f.content
  else
    match w.open p with
    | some c => some c
    | none => if manual then none else (w.builtin.find? fun b => b.1.isSuffixOf p).map (·.2)

/-- `SourceResolver` of protocompile with the import paths of `compiler/compiler.go` line 165. -/
def search {α : Type} (w : World α) (manual : Bool) (importPaths : List Text) (f : Source α) (name : Text) :
    Option α :=
  (importPaths ++ [dir (relativePath w.cwd f.path importPaths), []]).findSome? fun i => access w manual f (join i name)

/-- With `WithStandardImports`, `compiler/compiler.go` line 164. -/
def find {α : Type} (w : World α) (manual : Bool) (importPaths : List Text) (f : Source α) (name : Text) : Option α :=
  match search w manual importPaths f name with
  | some c => some c
  | none => w.standard name

/-! ## Compiling -/

/-- `Compiler`, `compiler/compiler.go` lines 28-32. -/
structure Compiler where
  importPaths : List Text
  manualImport : Bool
  importRule : Bool
  deriving DecidableEq

/-- `New`, `compiler/compiler.go` lines 62-64. -/
def Compiler.new : Compiler := ⟨[], false, false⟩

/-- `Option`, `compiler/compiler.go` lines 37-59. -/
inductive Opt where
  | importPath (paths : List Text)
  | manualImport
  | importRule

def Compiler.apply (c : Compiler) : Opt → Compiler
  | .importPath ps => { c with importPaths := c.importPaths ++ ps }
  | .manualImport => { c with manualImport := true }
  | .importRule => { c with importRule := true }

/-- The options of a call, `compiler/compiler.go` lines 150-154. -/
def Compiler.start (c : Compiler) (opts : List Opt) : Compiler :=
  opts.foldl Compiler.apply { c with importPaths := [] }

/-- The names that are compiled, `compiler/compiler.go` lines 192-196. -/
def names {α : Type} (c : Compiler) (cwd : Text) (f : Source α) : List Text :=
  relativePath cwd f.path c.importPaths :: f.imports ++ if c.importRule then f.optionImports else []

/-- A linked file: its name and the files it imports. -/
inductive Linked where
  | mk (name : Text) (imports : List Linked)

def Linked.name : Linked → Text
  | .mk n _ => n

def Linked.imports : Linked → List Linked
  | .mk _ is => is

mutual
/-- `getFileDescriptors`, `compiler/compiler.go` lines 222-230. -/
def descriptors : Linked → List Text
  | .mk n is => descriptorsL is ++ [n]
def descriptorsL : List Linked → List Text
  | [] => []
  | f :: fs => descriptors f ++ descriptorsL fs
end

/-- The loop body of `getProtoFiles`, `compiler/compiler.go` lines 211-217. -/
def addFile (protos : List Text) (n : Text) : List Text := if n ∈ protos then protos else protos ++ [n]

/-- `getProtoFiles`, `compiler/compiler.go` lines 205-220. -/
def protoFiles (fs : List Linked) : List Text := (descriptorsL fs).foldl addFile []

/-- `Compile`, `compiler/compiler.go` lines 149-203: `link` stands for protocompile, which gets the names and the
lookup; the compiler afterwards is returned too, since it is used again. -/
def compile {α : Type} (w : World α) (link : (Text → Option α) → List Text → Option (List Linked)) (c : Compiler)
    (f : Source α) (opts : List Opt) : Option (List Text) × Compiler :=
  let c' := c.start opts
  ((link (find w c'.manualImport c'.importPaths f) (names c' w.cwd f)).map protoFiles, c')

/-! ## Files imported by the option -/

/-- `findProto`, `resolver/resolver.go` lines 333-349. -/
def findProto {α : Type} (w : World α) (importPaths : List Text) (path : Text) : Option Text :=
  ((importPaths.map fun i => join i path) ++ [path]).find? fun p => (w.open p).isSome

/-- The name under which `compileProto` compiles the file of an import of the option, `resolver/resolver.go` lines
313-331 with `compiler/compiler.go` lines 156 and 192. -/
def optionImportName {α : Type} (w : World α) (importPaths : List Text) (path : Text) : Option Text :=
  (findProto w importPaths path).map fun p => relativePath w.cwd p importPaths

end Verif.Compile
