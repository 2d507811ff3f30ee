/-!
# Watch mode of the generator

Models how `grpc-federation-generator -w` keeps the generated files up to date:
`generator/generator.go` lines 102-128, 144-235, 320-472, `generator/watcher.go` lines 90-159 and
`cmd/grpc-federation-generator/main.go` lines 50-57.

Paths of proto files, names of generated files and contents are identified with numbers.
-/

namespace Verif.Watch

abbrev Path := Nat
abbrev Name := Nat
abbrev Text := Nat

/-- The proto files under the source directories. -/
abbrev Fs := Path → Option Text

/-- The files of a `CodeGeneratorResponse`, in order. -/
abbrev Resp := List (Name × Text)

/-- What compiling a proto file and running the configured plugins on it does
(`generator/generator.go` lines 474-509 with the body of the loop in lines 443-470): the responses of
the plugins up to the first failure, and whether there was no failure.  It reads the file system, since
a proto file can import others.
Simplification: a plugin that returns no response at all does not occur; resolved federation files,
which only code generation plugins see, are left out. -/
abbrev Gen := Fs → Path → List Resp × Bool

/-- Proto files, `buildCacheMap` (`generator/generator.go` lines 55-60) and generated files. -/
structure St where
  fs : Fs
  cache : Path → Option (List Resp)
  out : Name → Option Text

def set {α : Type} (f : Nat → α) (p : Nat) (v : α) : Nat → α := fun q => if q = p then v else f q

/-- `ProtoFileResult`, `generator/generator.go` lines 64-70; `delete` tells `DeleteAction` from the other
actions, which `WriteFiles` treats alike. -/
structure Result where
  delete : Bool
  files : List (Name × Text)

/-- `WriteFiles`, `generator/generator.go` lines 102-128.
Simplification: the file system operations succeed. -/
def Result.writeFiles (r : Result) (out : Name → Option Text) : Name → Option Text :=
  r.files.foldl (fun out f => set out f.1 (if r.delete then none else some f.2)) out

/-- The files of all responses. -/
def filesOf (rs : List Resp) : List (Name × Text) := rs.flatten

/-- `GenerateAll` once every plugin has succeeded for every file, `generator/generator.go` lines 196-235. -/
def generateAll (gen : Gen) (fs : Fs) : Path → Option (List Resp) := fun p =>
  if fs p = none then none
  else if (gen fs p).1 = [] then none else some (gen fs p).1

/-- `createGeneratorResult`, `generator/generator.go` lines 434-472: every response is appended to the
cache entry of the path as soon as it is there. `none` is an error. -/
def createGeneratorResult (gen : Gen) (st : St) (p : Path) : St × Option Result :=
  let g := gen st.fs p
  let cache := if g.1 = [] then st.cache else set st.cache p (some ((st.cache p).getD [] ++ g.1))
  ({ st with cache := cache }, if g.2 then some ⟨false, filesOf g.1⟩ else none)

/-- `updateProtoFile`, `generator/generator.go` lines 406-415. -/
def updateProtoFile (gen : Gen) (st : St) (p : Path) : St × Option Result :=
  createGeneratorResult gen { st with cache := set st.cache p none } p

/-- `deleteProtoFile`, `generator/generator.go` lines 417-432. -/
def deleteProtoFile (st : St) (p : Path) : St × Result :=
  ({ st with cache := set st.cache p none }, ⟨true, filesOf ((st.cache p).getD [])⟩)

/-- `otherResults`, `generator/generator.go` lines 370-395.  `order` is the order in which Go visits the
keys of the map, which is not specified. -/
def otherResults (path : Path) : List Path → St → St × List Result
  | [], st => (st, [])
  | p :: order, st =>
    if p = path then otherResults path order st
    else if st.fs p = none then
      let (st', r) := deleteProtoFile st p
      let (st'', rs) := otherResults path order st'
      (st'', r :: rs)
    else
      let (st'', rs) := otherResults path order st
      (st'', ⟨false, filesOf ((st.cache p).getD [])⟩ :: rs)

/-- `order` is an order of the keys of the map. -/
def Keys (order : List Path) (cache : Path → Option (List Resp)) : Prop :=
  order.Nodup ∧ ∀ p, p ∈ order ↔ (cache p).isSome

/-- Kinds of file events; `rename` is handled like `remove`. -/
inductive Event where
  | create | remove | write
deriving DecidableEq

/-- The part of the event handler that generates, `generator/generator.go` lines 333-350 (an event with
several kinds counts as the first of them that has a case). -/
def react (gen : Gen) (ev : Event) (p : Path) (st : St) : St × Option Result :=
  match ev with
  | .create => createGeneratorResult gen st p
  | .remove => ((deleteProtoFile st p).1, some (deleteProtoFile st p).2)
  | .write => updateProtoFile gen st p

/-- The rest of the handler: the results of the other files, `generator/generator.go` line 351, then the
post process handler that writes all results (lines 355-359, `cmd/grpc-federation-generator/main.go`
lines 50-57).  Code generation plugins (lines 352-354) are left out. -/
def finish (order : List Path) (p : Path) (st : St) (r : Result) : St :=
  let (st', rs) := otherResults p order st
  { st' with out := (r :: rs).foldl (fun out r => r.writeFiles out) st.out }

/-- A change of the proto files and the event the handler gets for it, if any. -/
structure Act where
  path : Path
  content : Option Text
  event : Option Event

/-- One change and its handling: `generator/generator.go` lines 324-360.  A removal is reported as such,
and nothing else is.  Simplification: the files do not change while the handler runs; such a change
counts as a later one. -/
inductive Step (gen : Gen) : Act → St → St → Prop where
  /-- no event reaches the handler -/
  | silent {p c st} : Step gen ⟨p, c, none⟩ st { st with fs := set st.fs p c }
  /-- the handler returns early, lines 336-339 and 345-348 -/
  | failed {p c ev st st'} : (c = none ↔ ev = .remove) →
      react gen ev p { st with fs := set st.fs p c } = (st', none) →
      Step gen ⟨p, c, some ev⟩ st st'
  | done {p c ev st st' r order} : (c = none ↔ ev = .remove) →
      react gen ev p { st with fs := set st.fs p c } = (st', some r) → Keys order st'.cache →
      Step gen ⟨p, c, some ev⟩ st (finish order p st' r)

/-- A history of changes. -/
inductive Run (gen : Gen) : List Act → St → St → Prop where
  | nil {st} : Run gen [] st st
  | snoc {as a st st' st''} : Run gen as st st' → Step gen a st' st'' → Run gen (as ++ [a]) st st''

/-- The state when the watch starts: everything is generated, nothing is written yet
(`generator/generator.go` lines 154-167). -/
def start (gen : Gen) (fs : Fs) : St := ⟨fs, generateAll gen fs, fun _ => none⟩

/-- `Generate` without watch mode on a fresh generator, `generator/generator.go` lines 155-161 and
170-193: all files are generated, the named one once more.  Code generation plugins (lines 184-186) are
left out. `none` is an error. -/
def once (gen : Gen) (order : List Path) (path : Path) (fs : Fs) (out : Name → Option Text) : Option St :=
  let (st1, rs) := otherResults path order ⟨fs, generateAll gen fs, out⟩
  let (st2, r) := if (st1.cache path).isSome then updateProtoFile gen st1 path
    else createGeneratorResult gen st1 path
  r.map fun r => { st2 with out := (rs ++ [r]).foldl (fun out r => r.writeFiles out) out }

/-! ## The event loops -/

/-- Where the receiving loop is: `generator/watcher.go` lines 140-147. -/
inductive Recv (E : Type) where
  | idle
  | got (e : E)
  | handling (e : E)

/-- State of the two loops.  `sending` is the event that `handleEvent` waits to send on the unbuffered
channel, `handled` the finished calls of the handler. -/
structure Loops (E : Type) where
  working : Bool
  sending : Option E
  recv : Recv E
  handled : List E

/-- Steps of the two loops, `generator/watcher.go` lines 90-159.  `relevant` is the condition of lines
111-116 (`isModified` and not `ignoreFilePath`). -/
inductive LoopStep {E : Type} (relevant : E → Bool) : Option E → Loops E → Loops E → Prop where
  /-- lines 108-110: the event is dropped -/
  | busy {e s} : s.sending = none → s.working = true → LoopStep relevant (some e) s s
  /-- lines 111-116 -/
  | ignore {e s} : s.sending = none → s.working = false → relevant e = false → LoopStep relevant (some e) s s
  /-- line 117, waiting for the receiver -/
  | send {e s} : s.sending = none → s.working = false → relevant e = true →
      LoopStep relevant (some e) s { s with sending := some e }
  /-- the event passes through the channel, lines 117 and 142 -/
  | take {e s} : s.sending = some e → s.recv = .idle →
      LoopStep relevant none s { s with sending := none, recv := .got e }
  /-- line 143 -/
  | begin {e s} : s.recv = .got e → LoopStep relevant none s { s with working := true, recv := .handling e }
  /-- lines 144-145 -/
  | finish {e s} : s.recv = .handling e →
      LoopStep relevant none s { s with working := false, recv := .idle, handled := s.handled ++ [e] }

/-- Whether a call of the handler is running. -/
def Recv.running {E : Type} : Recv E → Bool
  | .handling _ => true
  | _ => false

/-- A run of the loops with the events that `fsnotify` delivers, in order; each is recorded with whether
a call of the handler was running when it was looked at. -/
inductive LoopRun {E : Type} (relevant : E → Bool) : List (E × Bool) → Loops E → Prop where
  | init : LoopRun relevant [] ⟨false, none, .idle, []⟩
  | event {es e s s'} : LoopRun relevant es s → LoopStep relevant (some e) s s' →
      LoopRun relevant (es ++ [(e, s.recv.running)]) s'
  | tau {es s s'} : LoopRun relevant es s → LoopStep relevant none s s' → LoopRun relevant es s'

end Verif.Watch
