/-!
# The instance of a plugin

Models `CELPluginInstance` (`grpc/federation/cel/plugin.go` lines 116-345 and 369-398) together with the loop
of the generated plugin (`generator/templates/plugin.go.tmpl` lines 11-53). One instance is created with the
service and shared by all requests; all operations but `GC` hold its mutex, so a history of operations is a
sequence.

Simplified: the pipes have no buffer, so the plugin is blocked while a line it wrote has not been read, and
the host is blocked while the plugin does not read. Each line is written at once. The runtime does not close
the pipes when the plugin ends. Whether the runtime reports an error when the plugin ends is `exitErr`.
-/

namespace Verif.Plugin

/-- The plugin process. `exited true`: the result of the module is still in `instanceModErrCh`. -/
inductive Proc where
  | running
  | exited (pending : Bool)
deriving DecidableEq, Repr

/-- What a plugin does with a request: write lines or end (panic, `os.Exit`). -/
inductive Beh (R : Type) where
  | answer (lines : List R)
  | exit

/-- State. `out`: lines the plugin is blocked writing. `stuck`: a blocked operation holds the mutex. -/
structure St (R : Type) where
  closed : Bool
  gcClosed : Bool
  queue : Bool
  proc : Proc
  out : List R
  stuck : Bool

/-- `CreateInstance`, `grpc/federation/cel/plugin.go` lines 116-152. -/
def init {R} : St R := ⟨false, false, false, .running, [], false⟩

/-- Operations: a call, `Close`, `GC`, a turn of the GC goroutine, and the plugin ending by itself between
calls. -/
inductive Op (Q : Type) where
  | call (q : Q)
  | close
  | gc
  | gcTurn
  | crash

/-- Outcomes. -/
inductive Out (R : Type) where
  | value (r : R)
  | error
  | done
  | hang
  | panic
deriving DecidableEq, Repr

/-- Results of `write`. -/
inductive W where
  | ok | err | hang
deriving DecidableEq, Repr

/-- `write`, `grpc/federation/cel/plugin.go` lines 220-239. -/
def write {R} (exitErr : Bool) (s : St R) : St R × W :=
  if s.closed then (s, .ok)
  else match s.proc with
    | .exited true => ({ s with closed := true, proc := .exited false }, if exitErr then .err else .ok)
    | .exited false => ({ s with stuck := true }, .hang)
    | .running => if s.out.isEmpty then (s, .ok) else ({ s with stuck := true }, .hang)

/-- `recvContent`, `grpc/federation/cel/plugin.go` lines 369-398, after `write` succeeded with a request the plugin handles with `b`. -/
def recv {R} (b : Beh R) (s : St R) : St R × Out R :=
  if s.closed then (s, .error)
  else match b with
    | .exit => ({ s with proc := .exited false }, .error)
    | .answer [] => ({ s with stuck := true }, .hang)
    | .answer (l :: ls) => ({ s with out := ls }, .value l)

/-- One operation: `Call` (`grpc/federation/cel/plugin.go` lines 317-325), `Close` (lines 241-251), `enqueueGC` (lines 263-269), `startGC`
(lines 271-276). -/
def step {Q R} (exitErr : Bool) (serve : Q → Beh R) (s : St R) : Op Q → St R × Out R
  | .call q =>
    if s.stuck then (s, .hang)
    else match write exitErr s with
      | (s1, .hang) => (s1, .hang)
      | (s1, .err) => (s1, .error)
      | (s1, .ok) => recv (serve q) s1
  | .close =>
    if s.stuck then (s, .hang)
    else match write exitErr s with
      | (s1, .hang) => (s1, .hang)
      | (s1, .err) => ({ s1 with closed := true }, .error)
      | (s1, .ok) =>
        let proc := if s1.proc = .running then .exited true else s1.proc
        if s1.gcClosed then ({ s1 with closed := true, proc := proc }, .panic)
        else ({ s1 with closed := true, gcClosed := true, proc := proc }, .done)
  | .gc =>
    if s.gcClosed then (s, .panic) else ({ s with queue := true }, .done)
  | .gcTurn =>
    if s.queue then
      if s.stuck then ({ s with queue := false }, .hang)
      else match write exitErr { s with queue := false } with
        | (s1, .hang) => (s1, .hang)
        | (s1, _) => (s1, .done)
    else (s, .done)
  | .crash =>
    if s.proc = .running then ({ s with proc := .exited true }, .done) else (s, .done)

/-- The state after a history. -/
def exec {Q R} (exitErr : Bool) (serve : Q → Beh R) : St R → List (Op Q) → St R
  | s, [] => s
  | s, o :: os => exec exitErr serve (step exitErr serve s o).1 os

/-- `ValidatePlugin`, `grpc/federation/cel/plugin.go` lines 180-218: the version and the functions the plugin reports. -/
def validate (protocol : Nat) (functions : List String) (version : Nat) (implemented : List String) : Bool :=
  if version ≠ protocol then false
  else (functions.filter (fun f => !implemented.contains f)).isEmpty

end Verif.Plugin
