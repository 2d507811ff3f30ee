import Verif.Compile.Model

/-!
# Go to definition

Models how the language server finds the declaration of a type, method or imported file:
`lsp/server/definition.go` lines 80-101 and 128-376.

Paths and the functions of `path/filepath` are those of `Verif.Compile.Model`.  Names of types and packages are lists
of their parts between dots.  A position in a file is the list of the indices of the declarations that lead to it.
Simplifications: `os.Stat` and `os.ReadFile` succeed for the same paths; a file that is read can be parsed.
-/

namespace Verif.Defn

open Verif.Compile (Text join abs isAbs split)

abbrev QName := List Text

/-- Declarations of messages and enums. -/
inductive Decl where
  | msg (name : Text) (body : List Decl)
  | enum (name : Text)

def Decl.name : Decl → Text
  | .msg n _ => n
  | .enum n => n

structure Service where
  name : Text
  methods : List Text

/-- A file: its name, its package and what it declares. -/
structure File where
  name : Text
  pkg : QName
  decls : List Decl
  services : List Service

/-- The server: the document, its import paths, the working directory, and the declarations in the files on the
disk by their absolute paths. -/
structure World where
  path : Text
  importPaths : List Text
  cwd : Text
  disk : Text → Option (List Decl × List Service)

/-- Enums of a body. -/
def enumNames : List Decl → List Text
  | [] => []
  | .enum n :: ds => n :: enumNames ds
  | .msg _ _ :: ds => enumNames ds

mutual
/-- `getDeclaredTypeNames`, `lsp/server/definition.go` lines 303-315, for messages. -/
def declNames : Decl → List QName
  | .msg n body => [n] :: ((msgNames body).map (n :: ·) ++ (enumNames body).map fun e => [n, e])
  | .enum _ => []
/-- The types the loop over messages goes through, `lsp/server/definition.go` lines 286-287 and 306-310. -/
def msgNames : List Decl → List QName
  | [] => []
  | d :: ds => declNames d ++ msgNames ds
end

/-- The name of a package in front of a type, `lsp/server/definition.go` line 292: a file without package gives a
leading dot. -/
def pkgParts (pkg : QName) : QName := if pkg = [] then [[]] else pkg

/-- How a declared name is written in a file of the package `cur`, `lsp/server/definition.go` lines 288-293. -/
def qualify (cur pkg : QName) (n : QName) : QName := if pkg = cur then n else pkgParts pkg ++ n

/-- `filepath.Base`. -/
def base (t : Text) : Text := (split t).getLast?.getD []

/-- `filePathFromFileDescriptorProto`, `lsp/server/definition.go` lines 357-376. -/
def filePath (w : World) (f : File) : Option Text :=
  if base w.path = f.name then some w.path
  else
    (w.importPaths.map fun i => if isAbs (join i f.name) then join i f.name else abs w.cwd (join i f.name)).find?
      fun p => (w.disk p).isSome

/-- `currentPackageName`, `lsp/server/definition.go` lines 348-355. -/
def currentPackage (w : World) (files : List File) : Option QName :=
  (files.find? fun f => f.name.isSuffixOf w.path).map (·.pkg)

/-- The loop of `typeAndFilePath`, `lsp/server/definition.go` lines 279-299: the path of the first file that declares
the type. -/
def typeLoop (w : World) (cur : QName) (name : QName) : List File → Option Text
  | [] => none
  | f :: fs =>
    match filePath w f with
    | none => typeLoop w cur name fs
    | some p =>
      if name ∈ (msgNames f.decls).map (qualify cur f.pkg) then some p else typeLoop w cur name fs

mutual
/-- The declarations in the order `ast.Walk` visits them, with their positions; `i` is the index of the first one. -/
def walkDecl (pos : List Nat) : Decl → List (List Nat × Text)
  | .msg n body => (pos, n) :: walk pos 0 body
  | .enum n => [(pos, n)]
def walk (pos : List Nat) (i : Nat) : List Decl → List (List Nat × Text)
  | [] => []
  | d :: ds => walkDecl (pos ++ [i]) d ++ walk pos (i + 1) ds
end

/-- The declaration `findTypeDefinition` finds in a file, `lsp/server/definition.go` lines 164-181: the last one that
is visited. -/
def findDecl (decls : List Decl) (last : Text) : Option (List Nat) :=
  (((walk [] 0 decls).filter fun x => decide (x.2 = last)).getLast?).map (·.1)

/-- `findTypeDefinition`, `lsp/server/definition.go` lines 150-188: the file and the position of the declaration. -/
def findType (w : World) (files : List File) (name : QName) : Option (Text × List Nat) :=
  match currentPackage w files with
  | none => none
  | some cur =>
    match typeLoop w cur name files with
    | none => none
    | some p =>
      match w.disk p with
      | none => none
      | some (decls, _) => (findDecl decls (name.getLast?.getD [])).map fun pos => (p, pos)

/-- The type of a field, `lsp/server/definition.go` lines 80-101: within the messages around it first; `scope` are
their names. -/
def findFieldType (w : World) (files : List File) (scope : QName) (name : QName) : Option (Text × List Nat) :=
  match findType w files (scope ++ name) with
  | some l => some l
  | none => findType w files name

/-- The methods of the services of a file with their positions. -/
def methodsFrom (i : Nat) : List Service → List (List Nat × Text × Text)
  | [] => []
  | s :: ss => (s.methods.zipIdx.map fun m => ([i, m.2], s.name, m.1)) ++ methodsFrom (i + 1) ss

/-- How a service is written in a file of the package `cur`, `lsp/server/definition.go` lines 333-338. -/
def qualifyService (cur pkg : QName) (svc : Text) : QName := qualify cur pkg [svc]

/-- The loop of `methodAndFilePath`, `lsp/server/definition.go` lines 323-344. -/
def methodLoop (w : World) (cur : QName) (svc : QName) (method : Text) : List File → Option Text
  | [] => none
  | f :: fs =>
    match filePath w f with
    | none => methodLoop w cur svc method fs
    | some p =>
      if (methodsFrom 0 f.services).any fun m => qualifyService cur f.pkg m.2.1 = svc ∧ m.2.2 = method then some p
      else methodLoop w cur svc method fs

/-- `findMethodDefinition`, `lsp/server/definition.go` lines 190-219: the last method of that name in the file. -/
def findMethod (w : World) (files : List File) (svc : QName) (method : Text) : Option (Text × List Nat) :=
  match currentPackage w files with
  | none => none
  | some cur =>
    match methodLoop w cur svc method files with
    | none => none
    | some p =>
      match w.disk p with
      | none => none
      | some (_, services) =>
        (((methodsFrom 0 services).filter fun m => decide (m.2.2 = method)).getLast?).map fun m => (p, m.1)

/-- `findImportFileDefinition`, `lsp/server/definition.go` lines 128-148. -/
def findImport (w : World) (files : List File) (name : Text) : Option Text :=
  (files.filterMap (filePath w)).find? fun p => name.isSuffixOf p

end Verif.Defn
