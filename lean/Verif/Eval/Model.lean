/-!
# Evaluation of one definition

Models `grpc/federation/cel.go` lines 328-480 (the local value), 508-589 (`EvalDef`), 591-653
(`EvalDefMap`), 655-686 (`evalMap`) and 695-709 (`If`).

CEL evaluation, the message/enum/validation callbacks and the generated setter are parameters.
Simplification: the locks are left out; the sections between `lock` and `unlock` are atomic here and
concurrency is modelled in `Verif.Exec`.
-/

namespace Verif.Eval

/-- The part of `LocalValue`/`MapIteratorValue` that evaluation reads and writes
(`grpc/federation/cel.go` lines 310-316, 433-437): the declared variables with their types
(`envOpts`, in order) and the bound values (`evalValues`). -/
structure LV (Ty V : Type) where
  env : List (String × Ty)
  vals : String → Option V

/-- `setEnvOptValue` then `setEvalValue`, lines 422-431. -/
def LV.set {Ty V} (lv : LV Ty V) (name : String) (ty : Ty) (v : V) : LV Ty V :=
  ⟨lv.env ++ [(name, ty)], fun n => if n = name then some v else lv.vals n⟩

/-- An error: one, or several joined by `errors.Join` (lines 583-587). -/
inductive Err (E : Type) where
  | one (e : E)
  | join (es : List E)
deriving DecidableEq, Repr

/-- `if len(errs) == 1 {…} else if len(errs) > 1 {…}; return nil`, lines 583-589 and 647-652. -/
def combine {E} : List E → Option (Err E)
  | [] => none
  | [e] => some (.one e)
  | es => some (.join es)

/-- What happened during an evaluation, oldest first. -/
inductive Event (V : Type) where
  /-- the `if` expression was evaluated -/
  | cond
  /-- the defining expression was evaluated -/
  | run
  /-- the setter of the generated code was called with this value -/
  | set (v : V)
deriving DecidableEq, Repr

/-- `Def` (lines 482-493) as far as `evalDef` uses it.
* `cond`: `none` when `If == ""`, otherwise the CEL evaluation of the condition;
* `run`: the `switch` of lines 545-565; `(none, _)` is a `nil` result, the second component the error;
* `setter`: error of the generated setter, if any. -/
structure Def (Ty V E : Type) where
  name : String
  ty : Ty
  cond : Option (LV Ty V → Except E Bool)
  run : LV Ty V → Option V × Option E
  setter : V → Option E

/-- Result of an evaluation: the local value afterwards, the returned error and the event log. -/
structure Out (Ty V E : Type) where
  lv : LV Ty V
  err : Option (Err E)
  log : List (Event V)

/-- Lines 575-589 and 639-653: call the setter, declare and bind the variable, combine the errors. -/
def finish {Ty V E} (d : Def Ty V E) (lv : LV Ty V) (v : V) (runErr : Option E)
    (log : List (Event V)) : Out Ty V E :=
  ⟨lv.set d.name d.ty v, combine (runErr.toList ++ (d.setter v).toList), log ++ [.set v]⟩

/-- Lines 543-573 and 622-636 (`cond` is true): run and take the result, or keep the zero value. -/
def runBody {Ty V E} (zero : V) (d : Def Ty V E) (lv : LV Ty V) (log : List (Event V)) : Out Ty V E :=
  let r := d.run lv
  finish d lv (r.1.getD zero) r.2 (log ++ [.run])

/-- `evalDef`, lines 520-589, and the frame of `evalDefMap`, lines 599-653.
`zero` is the zero value of the type (`var v T`). -/
def evalDef {Ty V E} (zero : V) (d : Def Ty V E) (lv : LV Ty V) : Out Ty V E :=
  match d.cond with
  | none => runBody zero d lv []
  | some c =>
    match c lv with
    | .error e => ⟨lv, some (.one e), [.cond]⟩
    | .ok true => runBody zero d lv [.cond]
    | .ok false => finish d lv zero none [.cond]

/-- Loop of `evalMap`, lines 675-684.  `iter` is `iterValue`: its values are copied from the outer
value once (lines 667-671) and the iterator is overwritten per element, its `envOpts` are rebuilt
per element.  The second component records the local value each call of `cb` received. -/
def mapLoop {Ty V E} (name : String) (ty : Ty) (envOpts : List (String × Ty))
    (cb : LV Ty V → Except E V) : (String → Option V) → List V → List V →
    Except E (List V) × List (LV Ty V)
  | _, [], acc => (.ok acc, [])
  | vals, u :: us, acc =>
    let iter : LV Ty V := ⟨envOpts ++ [(name, ty)], fun n => if n = name then some u else vals n⟩
    match cb iter with
    | .error e => (.error e, [iter])
    | .ok v =>
      let (r, calls) := mapLoop name ty envOpts cb iter.vals us (acc ++ [v])
      (r, iter :: calls)

/-- `evalMap`, lines 655-686. -/
def evalMap {Ty V E} (name : String) (ty : Ty) (src : LV Ty V → List V)
    (cb : LV Ty V → Except E V) (lv : LV Ty V) : Except E (List V) × List (LV Ty V) :=
  mapLoop name ty lv.env cb lv.vals (src lv) []

/-- `evalDefMap` (lines 599-653) is `evalDef` whose body is `evalMap`; `ofList` builds the slice
value (lines 673, 682, 684). -/
def mapDef {Ty V E} (name : String) (ty : Ty) (cond : Option (LV Ty V → Except E Bool))
    (iterName : String) (iterTy : Ty) (src : LV Ty V → List V) (cb : LV Ty V → Except E V)
    (ofList : List V → V) (setter : V → Option E) : Def Ty V E where
  name := name
  ty := ty
  cond := cond
  run lv := match (evalMap iterName iterTy src cb lv).1 with
    | .ok vs => (some (ofList vs), none)
    | .error e => (none, some e)
  setter := setter

/-- Successive evaluations on one local value, stopping at the first error: what the generated code
does for a sequential group (`generator/templates/eval.go.tmpl` lines 185-212; concurrency is in
`Verif.Exec`). -/
def evalAll {Ty V E} (zero : V) : List (Def Ty V E) → LV Ty V → LV Ty V × Option (Err E)
  | [], lv => (lv, none)
  | d :: ds, lv =>
    match (evalDef zero d lv).err with
    | none => evalAll zero ds (evalDef zero d lv).lv
    | some e => ((evalDef zero d lv).lv, some e)

/-- `If`, lines 695-709: evaluate the condition, run the body only when it is true. The Boolean
says whether the body ran. -/
def evalIf {Ty V E} (cond : LV Ty V → Except E Bool) (body : LV Ty V → Option E) (lv : LV Ty V) :
    Option E × Bool :=
  match cond lv with
  | .error e => (some e, false)
  | .ok true => (body lv, true)
  | .ok false => (none, false)

end Verif.Eval
