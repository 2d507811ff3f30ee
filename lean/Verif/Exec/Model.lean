import Verif.Graph.Model

/-!
# Execution of an evaluation plan

Models the code generated for the definitions of one message
(`generator/templates/eval.go.tmpl` lines 178-246, `evalMessageDef`, `evalDefGroup`, `evalDefSet`)
together with `LocalValue.do` (`grpc/federation/cel.go` lines 374-392), `GoWithRecover`
(`grpc/federation/error.go` lines 29-39), and the parts of `errgroup` and `singleflight` these use.

The machine is a tree of goroutines working on shared state. Every step of every goroutine that
reads or writes shared state is one step of the machine, and any goroutine may take the next step.

Simplifications: what an evaluation computes is not modelled, only that it starts, that it finishes
and whether it fails. Definitions are identified by their position, which is the same as by name
because the names in one message are distinct. Spans and logging are left out.
-/

namespace Verif.Exec

open Verif.Graph (Grp)

/-- Errors of an evaluation. -/
inductive Err where
  /-- the evaluation of definition `d` failed by itself, with an arbitrary error `k` -/
  | own (d k : Nat)
  /-- the evaluation of definition `d` failed because its context was cancelled -/
  | canceled (d : Nat)
  /-- the evaluation of definition `d` panicked -/
  | panicked (d : Nat)
deriving Repr, DecidableEq

/-- Go's `error`: `none` is `nil`. -/
abbrev Res := Option Err

/-- A goroutine inside `def_d(ctx)`, i.e. inside `LocalValue.do` (`grpc/federation/cel.go` lines 374-392). -/
inductive Phase where
  /-- before the cache lookup (line 375) -/
  | called
  /-- after a cache miss, before `sg.Do` (line 381) -/
  | missed
  /-- inside the callback as leader of flight `f`, evaluating (line 382) -/
  | leading (f : Nat)
  /-- `cb()` has returned `r`, the result is not stored yet (`grpc/federation/cel.go` lines 383-388) -/
  | evaluated (f : Nat) (r : Res)
  /-- the callback has returned, `singleflight` has not ended the flight yet (line 389) -/
  | stored (f : Nat) (r : Res)
  /-- waiting for flight `f` led by another goroutine (inside `sg.Do`, line 381) -/
  | waiting (f : Nat)
deriving Repr, DecidableEq

/-- Goroutine tree. -/
inductive Proc where
  /-- a call of `def_d` -/
  | leaf (d : Nat) (ph : Phase)
  /-- `p` runs first, then `def_e` (`eval.go.tmpl` lines 203-209) -/
  | seq (p : Proc) (e : Nat)
  /-- an errgroup with its unfinished goroutines, the error it has recorded first, and the
  definition evaluated after `Wait` if there is one (`eval.go.tmpl` lines 187-199 and 228-243) -/
  | par (ps : List Proc) (first : Option Err) (e : Option Nat)
  /-- finished with result `r` -/
  | done (r : Res)

/-- What happened, for stating properties. -/
inductive Event where
  /-- the evaluation of definition `d` (flight `f`) starts -/
  | start (d f : Nat)
  /-- the evaluation of definition `d` (flight `f`) ends with `r` -/
  | fin (d f : Nat) (r : Res)
deriving Repr, DecidableEq

/-- Shared state of one `LocalValue`: `sgCache.resultMap`, the map of the `singleflight.Group`, the
results of ended flights, and a counter that names flights. The log (newest event first) is
history only: no step reads it. -/
structure Glob where
  cache : Nat → Option Res
  cur : Nat → Option Nat
  res : Nat → Nat → Option Res
  next : Nat
  log : List Event

/-- Initial shared state (`NewLocalValue`, `grpc/federation/cel.go` lines 328-341: empty cache and zero
`singleflight.Group`). -/
def Glob.init : Glob := ⟨fun _ => none, fun _ => none, fun _ _ => none, 0, []⟩

/-- Function update (assignment to a Go map entry). -/
def upd {β : Type} (f : Nat → β) (i : Nat) (v : β) : Nat → β := fun j => if j = i then v else f j

/-- `evalDefGroup`, `eval.go.tmpl` lines 185-212, at the moment its code is entered. The goroutines
of a concurrent group are all created before `Wait`; none of them has done anything yet. -/
def start : Grp → Proc
  | .seq0 e => .leaf e .called
  | .seq s e => .seq (start s) e
  | .conc ss e => .par (go ss) none (some e)
where go : List Grp → List Proc
  | [] => []
  | g :: gs => start g :: go gs

/-- `evalDefSet`, `eval.go.tmpl` lines 214-246: one group runs inline, several run in an errgroup,
no group is nothing to do. -/
def startAll : List Grp → Proc
  | [] => .done none
  | [g] => start g
  | gs => .par (gs.map start) none none

/-- Which results an evaluation may have: a cancellation error only when its context is cancelled.
(Trusted: an evaluation does not invent `context.Canceled` by itself; such an error is `own`.) -/
def Allowed (cx : Bool) (d : Nat) : Res → Prop
  | none => True
  | some (.own d' _) => d' = d
  | some (.canceled d') => d' = d ∧ cx = true
  | some (.panicked d') => d' = d

/-- A panic unwinds the callback before line 384 of `grpc/federation/cel.go`, so nothing is cached. -/
def IsPanic : Res → Prop
  | some (.panicked _) => True
  | _ => False

/-- Steps of a goroutine inside `LocalValue.do`, `grpc/federation/cel.go` lines 374-392. -/
inductive LStep (cx : Bool) (d : Nat) : Glob → Phase → Glob → Proc → Prop where
  /-- `grpc/federation/cel.go` lines 376-379: cached result -/
  | hit {g r} : g.cache d = some r → LStep cx d g .called g (.done r)
  /-- line 380: not cached -/
  | miss {g} : g.cache d = none → LStep cx d g .called g (.leaf d .missed)
  /-- `singleflight.Group.Do`: a flight for this key exists, wait for it -/
  | join {g f} : g.cur d = some f → LStep cx d g .missed g (.leaf d (.waiting f))
  /-- `singleflight.Group.Do`: no flight for this key, start one and run the callback -/
  | lead {g} : g.cur d = none →
      LStep cx d g .missed
        { g with cur := upd g.cur d (some g.next), next := g.next + 1,
                 log := .start d g.next :: g.log }
        (.leaf d (.leading g.next))
  /-- line 382: the evaluation returns (or panics) -/
  | finish {g f r} : Allowed cx d r →
      LStep cx d g (.leading f) { g with log := .fin d f r :: g.log } (.leaf d (.evaluated f r))
  /-- `grpc/federation/cel.go` lines 383-388: store the result -/
  | store {g f r} : ¬ IsPanic r →
      LStep cx d g (.evaluated f r) { g with cache := upd g.cache d (some r) } (.leaf d (.stored f r))
  /-- a panic skips `grpc/federation/cel.go` lines 383-388 -/
  | unwind {g f r} : IsPanic r → LStep cx d g (.evaluated f r) g (.leaf d (.stored f r))
  /-- `singleflight.Group.doCall`: wake the waiters and delete the flight, in one critical section;
  a panic is re-raised and turned into an error by `GoWithRecover` (`grpc/federation/error.go` lines 29-39) -/
  | leave {g f r} :
      LStep cx d g (.stored f r)
        { g with cur := upd g.cur d none, res := upd g.res d (upd (g.res d) f (some r)) } (.done r)
  /-- a waiter gets the flight's result (or re-raises its panic) -/
  | receive {g f r} : g.res d f = some r → LStep cx d g (.waiting f) g (.done r)

/-- Steps of the goroutine tree. `cx` says whether the context of this code is cancelled; the
goroutines of an errgroup run under a context that is also cancelled once the group has recorded an
error. -/
inductive PStep : Bool → Glob → Proc → Glob → Proc → Prop where
  | leaf {cx d g ph g' p'} : LStep cx d g ph g' p' → PStep cx g (.leaf d ph) g' p'
  /-- the start of a sequential group runs -/
  | seqRun {cx g p g' p' e} : PStep cx g p g' p' → PStep cx g (.seq p e) g' (.seq p' e)
  /-- it has succeeded: go on with the end definition -/
  | seqOk {cx g e} : PStep cx g (.seq (.done none) e) g (.leaf e .called)
  /-- it has failed: `return nil, err` (`eval.go.tmpl` lines 179-182) -/
  | seqErr {cx g x e} : PStep cx g (.seq (.done (some x)) e) g (.done (some x))
  /-- some goroutine of the errgroup makes a step -/
  | parRun {cx g p g' p' l r first e} : PStep (cx || first.isSome) g p g' p' →
      PStep cx g (.par (l ++ p :: r) first e) g' (.par (l ++ p' :: r) first e)
  /-- a goroutine of the errgroup has returned; the first error is recorded (`errgroup.Group.Go`) -/
  | parCollect {cx g x l r first e} :
      PStep cx g (.par (l ++ .done x :: r) first e) g (.par (l ++ r) (first <|> x) e)
  /-- `Wait` returns `nil` and there is an end definition (`eval.go.tmpl` lines 196-198) -/
  | parEnd {cx g e} : PStep cx g (.par [] none (some e)) g (.leaf e .called)
  /-- `Wait` returns `nil` and there is no end definition -/
  | parOk {cx g} : PStep cx g (.par [] none none) g (.done none)
  /-- `Wait` returns an error (`eval.go.tmpl` lines 193-195 and 240-242) -/
  | parErr {cx g x e} : PStep cx g (.par [] (some x) e) g (.done (some x))

/-- Whole system: shared state, goroutine tree and whether the request context is cancelled. -/
structure Sys where
  g : Glob
  p : Proc
  ext : Bool

/-- One step of the system: a goroutine steps, or the request context is cancelled from outside. -/
inductive SStep : Sys → Sys → Prop where
  | proc {g p ext g' p'} : PStep ext g p g' p' → SStep ⟨g, p, ext⟩ ⟨g', p', ext⟩
  | cancel {g p} : SStep ⟨g, p, false⟩ ⟨g, p, true⟩

/-- Start of the evaluation of a plan. -/
def Sys.init (gs : List Grp) (ext : Bool) : Sys := ⟨.init, startAll gs, ext⟩

/-- States some schedule leads to. -/
inductive Reach (gs : List Grp) (ext : Bool) : Sys → Prop where
  | init : Reach gs ext (.init gs ext)
  | step {s s'} : Reach gs ext s → SStep s s' → Reach gs ext s'

/-! ## Executable steps, used to exhibit concrete schedules -/

/-- What to do at the chosen place of the tree. -/
inductive Choice where
  /-- the only possible move of the goroutine there, other than `finish` -/
  | go
  /-- an evaluation ends with result `r` -/
  | finish (r : Res)
  /-- collect finished goroutine `i` of the errgroup there -/
  | collect (i : Nat)
deriving Repr

/-- `Allowed` as a Boolean. -/
def allowedB (cx : Bool) (d : Nat) : Res → Bool
  | none => true
  | some (.own d' _) => d' == d
  | some (.canceled d') => d' == d && cx
  | some (.panicked d') => d' == d

/-- Executable `LStep`. -/
def lstep (cx : Bool) (d : Nat) (c : Choice) (g : Glob) : Phase → Option (Glob × Proc)
  | .called => match g.cache d with
    | some r => some (g, .done r)
    | none => some (g, .leaf d .missed)
  | .missed => match g.cur d with
    | some f => some (g, .leaf d (.waiting f))
    | none => some ({ g with cur := upd g.cur d (some g.next), next := g.next + 1,
                             log := .start d g.next :: g.log }, .leaf d (.leading g.next))
  | .leading f => match c with
    | .finish r => if allowedB cx d r then
        some ({ g with log := .fin d f r :: g.log }, .leaf d (.evaluated f r)) else none
    | _ => none
  | .evaluated f r => match r with
    | some (.panicked x) => some (g, .leaf d (.stored f (some (.panicked x))))
    | r => some ({ g with cache := upd g.cache d (some r) }, .leaf d (.stored f r))
  | .stored f r => some
      ({ g with cur := upd g.cur d none, res := upd g.res d (upd (g.res d) f (some r)) }, .done r)
  | .waiting f => match g.res d f with
    | some r => some (g, .done r)
    | none => none

/-- Executable `PStep`: `path` leads through the tree (index of the child of an errgroup, any number
for a sequential group). -/
def pstep (cx : Bool) (c : Choice) : List Nat → Glob → Proc → Option (Glob × Proc)
  | [], g, .leaf d ph => lstep cx d c g ph
  | [], g, .seq (.done none) e => some (g, .leaf e .called)
  | [], g, .seq (.done (some x)) _ => some (g, .done (some x))
  | [], g, .par ps first e => match c with
    | .collect i => match ps[i]? with
      | some (.done x) => some (g, .par (ps.eraseIdx i) (first <|> x) e)
      | _ => none
    | _ => match ps, first, e with
      | [], none, some e => some (g, .leaf e .called)
      | [], none, none => some (g, .done none)
      | [], some x, _ => some (g, .done (some x))
      | _, _, _ => none
  | _ :: path, g, .seq p e => match pstep cx c path g p with
    | some (g', p') => some (g', .seq p' e)
    | none => none
  | i :: path, g, .par ps first e => match ps[i]? with
    | some p => match pstep (cx || first.isSome) c path g p with
      | some (g', p') => some (g', .par (ps.set i p') first e)
      | none => none
    | none => none
  | _, _, _ => none

/-- Run a list of choices. -/
def run (cx : Bool) : List (List Nat × Choice) → Glob → Proc → Option (Glob × Proc)
  | [], g, p => some (g, p)
  | (path, c) :: cs, g, p => match pstep cx c path g p with
    | some (g', p') => run cx cs g' p'
    | none => none

end Verif.Exec
