import Verif.ImportGraph.Model

/-!
# Errors and warnings shown to the user

Models how the problems found in proto files reach the user: what `Resolve` returns (`resolver/resolver.go` lines
152-188, `resolver/error.go`), the validator (`validator/validator.go`), the linter
(`cmd/grpc-federation-linter/main.go`), the protoc plugin (`generator/generator.go` lines 635-685,
`cmd/protoc-gen-grpc-federation/main.go`), the generator (`generator/generator.go` lines 490-499, 623-629) and the
diagnostics of the language server (`lsp/server/validator.go`).

Texts are lists of characters.
-/

namespace Verif.Diag

abbrev Text := List Char

/-! ## What `Resolve` returns -/

/-- `LocationError` and `Warning`, `resolver/error.go` lines 25-29 and `resolver/resolver.go` lines 133-137; `Λ` are
the locations within a file. -/
structure Item (Λ : Type) where
  file : Text
  loc : Λ
  msg : Text

/-- The errors `Resolve` returns: `Error`, `resolver/error.go` lines 11-15, or any other error. -/
inductive RErr (Λ : Type) where
  | located (errs : List (Item Λ))
  | plain (msg : Text)

/-- `Result`, `resolver/resolver.go` lines 125-131; a file is its name. -/
structure Result (Λ : Type) where
  files : List Text
  warnings : List (Item Λ)

/-- What happens while the files are resolved, in order. -/
structure Run (Λ : Type) where
  /-- Errors of `resolvePackageAndFileReference` and `resolveFileImportRule`. -/
  pkgErrs : List (Item Λ)
  /-- The error of `RegisterFiles`, `resolver/cel.go` lines 143-194. -/
  register : Option Text
  /-- Errors of `resolveFiles` and `resolveRule`. -/
  ruleErrs : List (Item Λ)
  /-- `existsServiceRule`. -/
  hasService : Bool
  /-- Errors of the other steps. -/
  restErrs : List (Item Λ)
  warnings : List (Item Λ)
  files : List Text

/-- `errorBuilder.build`, `resolver/error.go` lines 83-88. -/
def build {Λ : Type} (errs : List (Item Λ)) : Option (RErr Λ) := if errs = [] then none else some (.located errs)

/-- `Resolve`, `resolver/resolver.go` lines 152-188.  Warnings are only added by the last step (line 182). -/
def resolve {Λ : Type} (r : Run Λ) : Option (Result Λ) × Option (RErr Λ) :=
  match build r.pkgErrs with
  | some e => (none, some e)
  | none =>
    match r.register with
    | some m => (none, some (.plain m))
    | none =>
      if r.hasService then (some ⟨r.files, r.warnings⟩, build (r.ruleErrs ++ r.restErrs))
      else (some ⟨[], []⟩, build r.ruleErrs)

/-- The error of `RegisterFiles` for a cycle of imports, `resolver/cel.go` lines 164-170; `show` is the name of a
file. -/
def cycleError («show» : ImportGraph.Name → Text) (deps : ImportGraph.Name → List ImportGraph.Name)
    (files order : List ImportGraph.Name) : Option Text :=
  match ImportGraph.registerFiles deps files order with
  | .cycle d => some ("import cycle in file: ".toList ++ «show» d)
  | _ => none

/-- `ExtractIndividualErrors`, `resolver/error.go` lines 36-45. -/
def individual {Λ : Type} : Option (RErr Λ) → List (Item Λ)
  | some (.located errs) => errs
  | _ => []

/-! ## The validator -/

/-- `ast.SourcePos` without the file name. -/
structure Pos where
  line : Nat
  col : Nat
  deriving DecidableEq, Repr

/-- `ValidationOutput`, `validator/validator.go` lines 32-39. -/
structure Out where
  isWarning : Bool
  path : Text
  start : Pos
  stop : Pos
  msg : Text
  sourceLine : Text
  deriving DecidableEq

/-- A parsed file: its lines and `NodeInfoByLocation`. -/
structure Src (Λ : Type) where
  lines : List Text
  node : Λ → Option (Pos × Pos)

/-- The files on the disk: what reading and parsing a path below an import path gives. -/
abbrev Disk (Λ : Type) := Text → Text → Option (Src Λ)

/-- `getFile`, `validator/validator.go` lines 168-186; the cache gives the same file again. -/
def getFile {Λ : Type} (disk : Disk Λ) (importPaths : List Text) (path : Text) : Option (Src Λ) :=
  ([] :: importPaths).findSome? fun p => disk p path

/-- The line of the source that is shown, `validator/validator.go` lines 153-158. -/
def sourceLine (lines : List Text) (line : Nat) : Text :=
  if lines.length > line ∧ line > 0 then lines.getD (line - 1) [] else []

/-- `toValidationOutput`, `validator/validator.go` lines 137-166. -/
def toOut {Λ : Type} (find : Text → Option (Src Λ)) (warning : Bool) (i : Item Λ) : Out :=
  match find i.file with
  | none => ⟨warning, i.file, ⟨0, 0⟩, ⟨0, 0⟩, i.msg, []⟩
  | some s =>
    match s.node i.loc with
    | none => ⟨warning, i.file, ⟨0, 0⟩, ⟨0, 0⟩, i.msg, []⟩
    | some (a, b) => ⟨warning, i.file, a, b, i.msg, sourceLine s.lines a.line⟩

/-- Insertion into a list sorted by a key, before the elements with the same key. -/
def insertBy (key : Out → Nat) (x : Out) : List Out → List Out
  | [] => [x]
  | y :: ys => if key y < key x then y :: insertBy key x ys else x :: y :: ys

/-- `sort.SliceStable`. -/
def stableSort (key : Out → Nat) (outs : List Out) : List Out := outs.foldr (insertBy key) []

/-- `ToValidationOutputByResolverResult`, `validator/validator.go` lines 84-100, with lines 119-135.  All errors of
`Error` have locations. -/
def toOuts {Λ : Type} (find : Text → Option (Src Λ)) (res : Option (Result Λ) × Option (RErr Λ)) : List Out :=
  stableSort (fun o => o.start.line) (stableSort (fun o => o.start.col)
    ((match res.1 with
      | some r => r.warnings.map (toOut find true)
      | none => []) ++ (individual res.2).map (toOut find false)))

/-- What compiling gives: descriptors, a `CompilerError` with positions, or another error
(`compiler/compiler.go` lines 147-199). -/
inductive Compiled where
  | ok
  | failed (msg : Text) (withPos : List (Pos × Text))
  | other (msg : Text)

/-- `compilerErrorToValidationOutputs`, `validator/validator.go` lines 102-117. -/
def compilerOuts (msg : Text) (withPos : List (Pos × Text)) : List Out :=
  if withPos = [] then [⟨false, [], ⟨0, 0⟩, ⟨0, 0⟩, msg, []⟩]
  else withPos.map fun e => ⟨false, [], e.1, e.1, e.2, []⟩

/-- `Validate`, `validator/validator.go` lines 63-82. -/
def validate {Λ : Type} (find : Text → Option (Src Λ)) (c : Compiled) (r : Run Λ) : List Out :=
  match c with
  | .failed msg withPos => compilerOuts msg withPos
  | .other _ => []
  | .ok => toOuts find (resolve r)

/-- `ExistsError`, `validator/validator.go` lines 188-196. -/
def existsError : List Out → Bool
  | [] => false
  | o :: os => if o.isWarning then existsError os else true

/-- Decimal digits, as `%d` writes them. -/
def num (n : Nat) : Text := (Nat.repr n).toList

/-- The start of the lines with the source, `validator/validator.go` line 218. -/
def header (o : Out) : Text := num o.start.line ++ ": ".toList

/-- The line with the message, `validator/validator.go` lines 201-216. -/
def headline (o : Out) : Text :=
  let msg := if o.isWarning then "[WARN] ".toList ++ o.msg else o.msg
  if o.path = [] then msg
  else if o.start.line = 0 then o.path ++ ": ".toList ++ msg
  else o.path ++ ":".toList ++ num o.start.line ++ ":".toList ++ num o.start.col ++ ": ".toList ++ msg

/-- The line of the source and the line with the caret, `validator/validator.go` lines 219-220. -/
def sourceRow (o : Out) : Text := header o ++ " ".toList ++ o.sourceLine

def caretRow (o : Out) : Text := List.replicate ((header o).length + o.start.col) ' ' ++ "^".toList

/-- The lines written for one problem, `validator/validator.go` lines 200-222. -/
def rows (o : Out) : List Text :=
  if o.path = [] ∨ o.sourceLine = [] then [headline o] else [headline o, sourceRow o, caretRow o]

/-- `Format`, `validator/validator.go` lines 198-224. -/
def format (outs : List Out) : Text := outs.flatMap fun o => (rows o).flatMap fun r => r ++ ['\n']

/-! ## Commands -/

/-- What the linter does for one argument: the file can not be read or parsed, or it is validated. -/
inductive Arg (Λ : Type) where
  | unreadable
  | file (c : Compiled) (r : Run Λ)

/-- The loop of the linter, `cmd/grpc-federation-linter/main.go` lines 35-60: the exit code and the printed texts;
`existsErr` is the flag so far. -/
def lint {Λ : Type} (find : Text → Option (Src Λ)) (existsErr : Bool) : List (Arg Λ) → Nat × List Text
  | [] => (if existsErr then 1 else 0, [])
  | .unreadable :: _ => (1, [])
  | .file c r :: args =>
    if validate find c r = [] then lint find existsErr args
    else
      ((lint find (existsErr || existsError (validate find c r)) args).1,
       format (validate find c r) :: (lint find (existsErr || existsError (validate find c r)) args).2)

/-- What a command ends with. -/
inductive End where
  | generated (files : List Text)
  | error (msg : Text)
  | panic
  deriving DecidableEq

/-- `CreateCodeGeneratorResponse`, `generator/generator.go` lines 635-685: `result.Files` of the nil result panics
(line 650).  Simplification: no code generation plugins, and writing the code does not fail. -/
def protoc {Λ : Type} (find : Text → Option (Src Λ)) (r : Run Λ) : End :=
  if existsError (toOuts find (resolve r)) then .error (format (toOuts find (resolve r)))
  else
    match (resolve r).1 with
    | none => .panic
    | some res => .generated res.files

/-- `compileProto` and `createGRPCFederationFiles` of the generator, `generator/generator.go` lines 490-499 and
623-629: the text of `Error` is made of the texts of its errors (`resolver/error.go` lines 17-23). -/
def generate {Λ : Type} (find : Text → Option (Src Λ)) (c : Compiled) (r : Run Λ) : End :=
  if existsError (validate find c r) then .error (format (validate find c r))
  else
    match c with
    | .failed msg _ => .error msg
    | .other msg => .error msg
    | .ok =>
      match resolve r with
      | (_, some (.plain m)) => .error m
      | (_, some (.located errs)) => .error ("grpc-federation: ".toList ++ List.intercalate ['\n'] (errs.map (·.msg)))
      | (none, none) => .panic
      | (some res, none) => .generated res.files

/-! ## Diagnostics of the language server -/

/-- `protocol.Position`. -/
structure LspPos where
  line : UInt32
  character : UInt32
  deriving DecidableEq

/-- A published diagnostic, `lsp/server/validator.go` lines 40-49: it is shown in the document `doc`. -/
structure Diagnostic where
  doc : Text
  isError : Bool
  start : LspPos
  stop : LspPos
  msg : Text
  deriving DecidableEq

/-- Conversion of positions, `lsp/server/validator.go` lines 27-34. -/
def lspPos (p : Pos) : LspPos := ⟨UInt32.ofNat p.line - 1, UInt32.ofNat p.col - 1⟩

/-- `validateText`, `lsp/server/validator.go` lines 24-49. -/
def diagnostics (doc : Text) (outs : List Out) : List Diagnostic :=
  outs.map fun o => ⟨doc, !o.isWarning, lspPos o.start, lspPos o.stop, o.msg⟩

end Verif.Diag
