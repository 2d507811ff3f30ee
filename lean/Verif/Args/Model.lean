/-!
# Arguments of messages

Models `resolveMessageArgumentFields` and `validateMessageDependencyArgumentName`
(`resolver/resolver.go` lines 3717-3839) and the accumulation of the argument's fields in
`resolveMessageArgument` and `resolveMessageArgumentRecursive` (up to line 3715), for one message.

Types are abstract, `diff` is `isDifferentType` (`Verif.Types`). Arguments whose expression has no type
are not modelled. Errors are collected in a list; a schema is accepted if it is empty. (For roots that
are no response of a method the code drops the errors; not modelled.)
-/

namespace Verif.Args

abbrev Name := String

/-- An argument at a place that builds the message: `name: …, by: …` or `inline: …`. `none` stands for
an inline value that is no message. -/
inductive Arg (Ty : Type) where
  | named (n : Name) (t : Ty)
  | inline (fields : Option (List (Name × Ty)))

/-- A place that builds the message (`MessageExpr`). -/
abbrev Site (Ty : Type) := List (Arg Ty)

/-- All definitions of one parent that build the message, each with its message expressions. -/
abbrev Visit (Ty : Type) := List (List (Site Ty))

inductive Err where
  | missing (n : Name)
  | typeDiffers (n : Name)
  | inlineNotMessage
deriving DecidableEq, Repr

abbrev Fields (Ty : Type) := List (Name × Ty)

/-- `evaluatedArgNameMap[n]`. -/
def lookup {Ty} (fs : Fields Ty) (n : Name) : Option Ty := (fs.find? (fun f => f.1 == n)).map (·.2)

/-- The named arguments of a site. -/
def namedArgs {Ty} (s : Site Ty) : List Name := s.filterMap (fun a => match a with
  | .named n _ => some n
  | .inline _ => none)

/-- `argNameMap`, lines 3718-3735. -/
def argNames {Ty} (fs : Fields Ty) (v : Visit Ty) : List Name :=
  v.flatMap (fun d => d.flatMap namedArgs) ++ fs.map (·.1)

/-- `curDepArgNameMap`, lines 3813-3826. -/
def siteNames {Ty} (s : Site Ty) : List Name := s.flatMap (fun a => match a with
  | .named n _ => [n]
  | .inline (some fs) => fs.map (·.1)
  | .inline none => [])

/-- `validateMessageDependencyArgumentName`, lines 3811-3839. -/
def missingErrs {Ty} (names : List Name) (d : List (Site Ty)) : List Err :=
  d.flatMap (fun s => (names.filter (fun n => !(siteNames s).contains n)).map .missing)

/-- One name with its type, lines 3748-3764 and 3777-3796. -/
def addField {Ty} (diff : Ty → Ty → Bool) (fs : Fields Ty) (n : Name) (t : Ty) : Fields Ty × List Err :=
  match lookup fs n with
  | some t0 => (fs, if diff t0 t then [.typeDiffers n] else [])
  | none => (fs ++ [(n, t)], [])

/-- The fields of an inline message. -/
def addFields {Ty} (diff : Ty → Ty → Bool) : Fields Ty → List (Name × Ty) → Fields Ty × List Err
  | fs, [] => (fs, [])
  | fs, f :: rest =>
    let r := addField diff fs f.1 f.2
    let r' := addFields diff r.1 rest
    (r'.1, r.2 ++ r'.2)

/-- One argument, lines 3740-3803. -/
def addArg {Ty} (diff : Ty → Ty → Bool) (fs : Fields Ty) : Arg Ty → Fields Ty × List Err
  | .named n t => addField diff fs n t
  | .inline none => (fs, [.inlineNotMessage])
  | .inline (some l) => addFields diff fs l

def addArgs {Ty} (diff : Ty → Ty → Bool) : Fields Ty → List (Arg Ty) → Fields Ty × List Err
  | fs, [] => (fs, [])
  | fs, a :: rest =>
    let r := addArg diff fs a
    let r' := addArgs diff r.1 rest
    (r'.1, r.2 ++ r'.2)

/-- `resolveMessageArgumentFields`, lines 3717-3809: fields and errors after a parent was visited. -/
def visit {Ty} (diff : Ty → Ty → Bool) (fs : Fields Ty) (v : Visit Ty) : Fields Ty × List Err :=
  let names := argNames fs v
  let r := addArgs diff fs (v.flatMap (fun d => d.flatMap id))
  (r.1, v.flatMap (fun d => d.flatMap (fun _ => missingErrs names d)) ++ r.2)

/-- All parents in the order in which the dependency graph is walked (lines 3679-3709), starting with
the fields of the request if the message is the response of a method (line 3624). -/
def run {Ty} (diff : Ty → Ty → Bool) : Fields Ty → List (Visit Ty) → Fields Ty × List Err
  | fs, [] => (fs, [])
  | fs, v :: vs =>
    let r := visit diff fs v
    let r' := run diff r.1 vs
    (r'.1, r.2 ++ r'.2)

end Verif.Args
