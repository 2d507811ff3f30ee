/-!
# Texts and problems in the editor

Models how the language server keeps the texts of the editor and publishes problems: `lsp/server/text_document_sync.go`
lines 12-28, `lsp/server/util.go` lines 11-32, `lsp/server/validator.go` lines 15-53, `lsp/server/handler.go` lines
127-130 and 147-160, with the options of the validator, `validator/validator.go` lines 43-66.

Every change starts a goroutine; the goroutines share one validator, so its fields are part of the state.  A
trace is any order of requests and steps of goroutines.  Simplifications: a document is its path; the
functions that parse and check a text are parameters, where checking depends on the import paths of the validator when
the compiler gets them (`validator/validator.go` line 66); each access to a field of the validator is one step; the
second call of `applyOptions` (line 85) and the fields of the shared compiler are not modelled.
-/

namespace Verif.EdSync

abbrev Doc := String
abbrev Text := String
abbrev Paths := List String
abbrev Problems := List String

/-- What the server works with: the files on the disk, its import paths, which texts can be parsed, and the problems
of a text. -/
structure Env where
  disk : Doc → Option Text
  paths : Paths
  parses : Text → Bool
  check : Doc → Text → Paths → Problems

/-- Where a goroutine of `validateText` is, `lsp/server/validator.go` lines 15-53. -/
inductive Pc where
  /-- before line 16 -/
  | start
  /-- before `applyOptions`, `validator/validator.go` line 64 -/
  | read (t : Text)
  /-- after `v.importPaths = []string{}`, `validator/validator.go` line 57 -/
  | reset (t : Text)
  /-- after the options, `validator/validator.go` lines 58-60 -/
  | added (t : Text)
  /-- before `PublishDiagnostics`, `lsp/server/validator.go` line 47 -/
  | checked (o : Problems)
  | done
  deriving DecidableEq

structure Thread where
  doc : Doc
  pc : Pc
  deriving DecidableEq

/-- The server and what the editor shows; `none` is that nothing was published. -/
structure State where
  content : Doc → Option Text
  importPaths : Paths
  threads : List Thread
  shown : Doc → Option Problems

def init : State := ⟨fun _ => none, [], [], fun _ => none⟩

def set {α : Type} (f : Doc → Option α) (d : Doc) (v : α) : Doc → Option α := fun x => if x = d then some v else f x

/-- `getFile`, `lsp/server/util.go` lines 11-32. -/
def getFile (e : Env) (s : State) (d : Doc) : Option Text :=
  match s.content d with
  | some t => some t
  | none => e.disk d

/-- Requests of the editor and steps of goroutines. -/
inductive Event where
  | opened (d : Doc)
  | changed (d : Doc) (texts : List Text)
  | saved (d : Doc)
  | closed (d : Doc)
  | step (i : Nat)

/-- `didChange`, `lsp/server/text_document_sync.go` lines 20-27. -/
def didChange (s : State) (d : Doc) (texts : List Text) : State :=
  { s with
    content := texts.foldl (fun c t => set c d t) s.content
    threads := s.threads ++ [⟨d, .start⟩] }

/-- The next step of a goroutine. -/
def stepThread (e : Env) (s : State) (th : Thread) : State × Pc :=
  match th.pc with
  | .start =>
    match getFile e s th.doc with
    | none => (s, .done)
    | some t => if e.parses t then (s, .read t) else (s, .done)
  | .read t => ({ s with importPaths := [] }, .reset t)
  | .reset t => ({ s with importPaths := s.importPaths ++ e.paths }, .added t)
  | .added t => (s, .checked (e.check th.doc t s.importPaths))
  | .checked o => ({ s with shown := set s.shown th.doc o }, .done)
  | .done => (s, .done)

/-- An event; opening, saving and closing do nothing, `lsp/server/handler.go` lines 147-160. -/
def apply (e : Env) (s : State) : Event → State
  | .opened _ => s
  | .saved _ => s
  | .closed _ => s
  | .changed d texts => didChange s d texts
  | .step i =>
    match s.threads[i]? with
    | none => s
    | some th => { (stepThread e s th).1 with threads := s.threads.set i ⟨th.doc, (stepThread e s th).2⟩ }

def run (e : Env) (s : State) (evs : List Event) : State := evs.foldl (apply e) s

end Verif.EdSync
