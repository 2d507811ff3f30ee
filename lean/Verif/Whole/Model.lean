import Verif.Value.Model
import Verif.AllGraph.Model

/-!
# All messages of a request

Puts the parts together: messages whose definitions are evaluated by the machine of `Verif.Value`, where the evaluation of a
definition may resolve other messages, which have machines of their own.

Models the functions `resolve_…` of the generated code (`generator/templates/server.go.tmpl` lines 540-607), the functions
`def_…` in them (`generator/templates/eval.go.tmpl` lines 1-176) and `evalDef`, `evalDefMap` and `evalMap`
(`grpc/federation/cel.go` lines 520-686).

Simplifications: expressions, calls of services (with their retries, timeouts and error entries), validations, setting of
arguments (C102) and of the fields of the result (C57) are functions of the variables; the definitions of error entries and of
oneof fields belong to these functions and use no messages. Which error a message ends with is not modelled (see C05, C11).
-/

namespace Verif.Whole
open Verif.Graph (Def Grp setup)
open Verif.Exec Verif.Value

/-- What a definition or an element of a `map` is: something without other messages (`by`, `call`, `enum`, `validation`), or a
message with arguments; `none` is an error. `generator/templates/eval.go.tmpl` lines 23-71 and 83-174. -/
inductive Simple (V : Type) where
  | pure (f : Store V → Option V)
  | message (m : Nat) (args : Store V → Option (Store V))

/-- The expression of a definition, `generator/templates/eval.go.tmpl` lines 6-8 and 73-74. -/
inductive Body (V : Type) where
  | simple (s : Simple V)
  | map (src : Store V → Option (List V)) (iter : String) (elem : Simple V)

/-- A definition; `zero` is the zero value of its type (`grpc/federation/cel.go` lines 521-526). -/
structure WDef (V : Type) where
  defn : Def
  cond : Option (Store V → Option Bool)
  zero : V
  body : Body V

/-- A message: its definitions, and how its fields are set from the variables. -/
structure Msg (V : Type) where
  defs : List (WDef V)
  build : Store V → Option V

/-- All messages, and how a list is made of its elements. -/
structure Prog (V : Type) where
  msgs : List (Msg V)
  list : List V → V

variable {V : Type}

/-- Possible results of a definition or an element; `R m args r` if message `m` with arguments `args` may have the result
`r`. -/
def SimpleR (R : Nat → Store V → Option V → Prop) : Simple V → Store V → Option V → Prop
  | .pure f, view, r => r = f view
  | .message m args, view, r => match args view with
    | none => r = none
    | some a => R m a r

/-- `evalMap`, `grpc/federation/cel.go` lines 655-686: one element after the other, up to the first error. -/
inductive ElemsR (step : V → Option V → Prop) : List V → Option (List V) → Prop where
  | nil : ElemsR step [] (some [])
  | fail {u us} : step u none → ElemsR step (u :: us) none
  | later {u us v} : step u (some v) → ElemsR step us none → ElemsR step (u :: us) none
  | cons {u us v vs} : step u (some v) → ElemsR step us (some vs) → ElemsR step (u :: us) (some (v :: vs))

/-- The body of `evalDef` and `evalDefMap`, `grpc/federation/cel.go` lines 543-573 and 622-636. -/
def BodyR (R : Nat → Store V → Option V → Prop) (list : List V → V) : Body V → Store V → Option V → Prop
  | .simple s, view, r => SimpleR R s view r
  | .map src iter elem, view, r => match src view with
    | none => r = none
    | some us => ∃ vs, ElemsR (fun u => SimpleR R elem (set view iter u)) us vs ∧ r = vs.map list

/-- `evalDef` and `evalDefMap`, `grpc/federation/cel.go` lines 520-589 and 599-653. -/
def DefR (R : Nat → Store V → Option V → Prop) (list : List V → V) (d : WDef V) (view : Store V) (r : Option V) : Prop :=
  match d.cond with
  | none => BodyR R list d.body view r
  | some c => match c view with
    | none => r = none
    | some false => r = some d.zero
    | some true => BodyR R list d.body view r

/-- How an evaluation ends by itself, for the machine. -/
def outcome : Option V → Outcome V
  | some v => .ok v
  | none => .fail 0

/-- Possible outcomes of definition `i` of a message. -/
def evalR (P : Prog V) (R : Nat → Store V → Option V → Prop) (M : Msg V) (i : Nat) (view : Store V) (o : Outcome V) : Prop :=
  ∃ d, M.defs[i]? = some d ∧ ∃ r, DefR R P.list d view r ∧ o = outcome r

/-- One step of the machine of `Verif.Value` (`VStep`), where an evaluation may have one of several outcomes. -/
inductive VStepR (defs : List Def) (eval : Nat → Store V → Outcome V → Prop) : VSys V → VSys V → Prop where
  | quiet {s s' st seen} : SStep s s' → s'.g.log = s.g.log → VStepR defs eval ⟨s, st, seen⟩ ⟨s', st, seen⟩
  | start {s s' st seen d f} : SStep s s' → s'.g.log = .start d f :: s.g.log →
      VStepR defs eval ⟨s, st, seen⟩
        ⟨s', st, fun d' f' n x => if d' = d ∧ f' = f then x = st n else seen d' f' n x⟩
  | ok {s s' st seen d f view v} : SStep s s' → s'.g.log = .fin d f none :: s.g.log →
      (∀ n, seen d f n (view n)) → eval d view (.ok v) →
      VStepR defs eval ⟨s, st, seen⟩ ⟨s', write defs st d v, noticed seen (write defs st d v)⟩
  | fail {s s' st seen d f x} (st' : Store V) : SStep s s' → s'.g.log = .fin d f (some x) :: s.g.log →
      (IsCancel x ∨ ∃ (view : Store V) (o : Outcome V), (∀ n, seen d f n (view n)) ∧ eval d view o ∧ o.res d = some x) →
      (st' = st ∨ ∃ v, st' = write defs st d v) →
      VStepR defs eval ⟨s, st, seen⟩ ⟨s', st', noticed seen st'⟩

/-- The states that some schedule leads to. -/
inductive VReachR (defs : List Def) (eval : Nat → Store V → Outcome V → Prop) (gs : List Grp) (st0 : Store V) :
    VSys V → Prop where
  | init : VReachR defs eval gs st0 ⟨.init gs false, st0, fun _ _ _ _ => False⟩
  | step {s s'} : VReachR defs eval gs st0 s → VStepR defs eval s s' → VReachR defs eval gs st0 s'

/-- What a message that is resolved with messages nested at most `k` deep may end with, if it is not cancelled: the machine has
ended, and the fields are set from the variables (`generator/templates/server.go.tmpl` lines 540-607). Every message that
is resolved meanwhile has its own machine and its own schedule. -/
def AnswersN (P : Prog V) : Nat → Nat → Store V → Option V → Prop
  | 0, _, _, _ => False
  | k + 1, m, args, r => ∃ M, P.msgs[m]? = some M ∧
    ((M.defs = [] ∧ r = M.build args) ∨
      ∃ gs, setup (M.defs.map (·.defn)) = .groups gs ∧ ∃ s, VReachR (M.defs.map (·.defn)) (evalR P (AnswersN P k) M) gs args s ∧
        ((s.sys.p = .done none ∧ r = M.build s.store) ∨ (s.sys.ext = false ∧ (∃ x, s.sys.p = .done (some x)) ∧ r = none)))

/-- What a message may end with. -/
def Answers (P : Prog V) (m : Nat) (args : Store V) (r : Option V) : Prop := ∃ k, AnswersN P k m args r

/-- The definitions as the check for cyclic dependencies sees them, `resolver/graph.go` lines 100-194. -/
def mdef (d : WDef V) : AllGraph.MDef :=
  match d.body with
  | .simple (.message m _) => .message m
  | .map _ _ (.message m _) => .map m
  | _ => .other

/-- The messages for the check for cyclic dependencies, `resolver/graph.go` lines 11-46. -/
def graph (P : Prog V) : List AllGraph.Msg := P.msgs.map fun M => some (M.defs.map mdef)

end Verif.Whole
