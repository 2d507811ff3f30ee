import Verif.Whole.Model

/-!
# The calls of services that a request makes

Adds to the machine of `Verif.Whole` which services are called: the evaluation of a definition that is a `call`
(`generator/templates/eval.go.tmpl` lines 119-171) calls a method with a request that is made of the variables, the evaluation of a
`message` makes the calls of that message, and of a `map` those of its elements (`grpc/federation/cel.go` lines 655-686).

Simplifications: as in `Verif.Whole`; the calls of an evaluation are noted when it ends, and what it calls, retries included, is a
function of the variables.
-/

namespace Verif.Calls
open Verif.Graph (Def Grp setup)
open Verif.Exec Verif.Value Verif.Whole

variable {V C : Type}

/-- The calls that a definition or an element of a `map` makes by itself, if it sees these variables: `own m i` for definition `i` of
message `m`, `generator/templates/eval.go.tmpl` lines 119-171.  (Elements of a `map` are no calls, lines 23-70; custom plugins that call
something may be counted.) -/
abbrev Own (V C : Type) := Nat → Nat → Store V → List C

/-- A definition or an element with its calls; `R m args r cs` if message `m` may have the result `r` after the calls `cs`.
`generator/templates/eval.go.tmpl` lines 23-70 and 85-172. -/
def SimpleT (R : Nat → Store V → Option V → List C → Prop) (own : Store V → List C) : Simple V → Store V → Option V → List C → Prop
  | .pure f, view, r, cs => r = f view ∧ cs = own view
  | .message m args, view, r, cs => match args view with
    | none => r = none ∧ cs = []
    | some a => R m a r cs

/-- `evalMap`, `grpc/federation/cel.go` lines 655-686: one element after the other, up to the first error. -/
inductive ElemsT (step : V → Option V → List C → Prop) : List V → Option (List V) → List C → Prop where
  | nil : ElemsT step [] (some []) []
  | fail {u us cs} : step u none cs → ElemsT step (u :: us) none cs
  | later {u us v cs cs'} : step u (some v) cs → ElemsT step us none cs' → ElemsT step (u :: us) none (cs ++ cs')
  | cons {u us v vs cs cs'} : step u (some v) cs → ElemsT step us (some vs) cs' → ElemsT step (u :: us) (some (v :: vs)) (cs ++ cs')

/-- The body of `evalDef` and `evalDefMap`, `grpc/federation/cel.go` lines 543-573 and 622-636. -/
def BodyT (R : Nat → Store V → Option V → List C → Prop) (own : Store V → List C) (list : List V → V) :
    Body V → Store V → Option V → List C → Prop
  | .simple s, view, r, cs => SimpleT R own s view r cs
  | .map src iter elem, view, r, cs => match src view with
    | none => r = none ∧ cs = []
    | some us => ∃ vs, ElemsT (fun u => SimpleT R own elem (set view iter u)) us vs cs ∧ r = vs.map list

/-- `evalDef` and `evalDefMap`, `grpc/federation/cel.go` lines 520-589 and 599-653: nothing is called if the condition does not
hold. -/
def DefT (R : Nat → Store V → Option V → List C → Prop) (own : Store V → List C) (list : List V → V) (d : WDef V) (view : Store V)
    (r : Option V) (cs : List C) : Prop :=
  match d.cond with
  | none => BodyT R own list d.body view r cs
  | some c => match c view with
    | none => r = none ∧ cs = []
    | some false => r = some d.zero ∧ cs = []
    | some true => BodyT R own list d.body view r cs

/-- Possible outcomes of definition `i` of message `m`. -/
def evalT (P : Prog V) (own : Own V C) (R : Nat → Store V → Option V → List C → Prop) (m : Nat) (M : Msg V) (i : Nat) (view : Store V)
    (o : Outcome V) (cs : List C) : Prop :=
  ∃ d, M.defs[i]? = some d ∧ ∃ r, DefT R (own m i) P.list d view r cs ∧ o = outcome r

/-- One step of the machine of `Verif.Whole` (`VStepR`), with the calls that have been made so far.  An evaluation that is cancelled may
have made any calls. -/
inductive VStepT (defs : List Def) (eval : Nat → Store V → Outcome V → List C → Prop) : VSys V → List C → VSys V → List C → Prop where
  | quiet {s s' st seen cs} : SStep s s' → s'.g.log = s.g.log → VStepT defs eval ⟨s, st, seen⟩ cs ⟨s', st, seen⟩ cs
  | start {s s' st seen d f cs} : SStep s s' → s'.g.log = .start d f :: s.g.log →
      VStepT defs eval ⟨s, st, seen⟩ cs
        ⟨s', st, fun d' f' n x => if d' = d ∧ f' = f then x = st n else seen d' f' n x⟩ cs
  | ok {s s' st seen d f view v cs new} : SStep s s' → s'.g.log = .fin d f none :: s.g.log →
      (∀ n, seen d f n (view n)) → eval d view (.ok v) new →
      VStepT defs eval ⟨s, st, seen⟩ cs ⟨s', write defs st d v, noticed seen (write defs st d v)⟩ (cs ++ new)
  | fail {s s' st seen d f x cs} (st' : Store V) (new : List C) : SStep s s' → s'.g.log = .fin d f (some x) :: s.g.log →
      (IsCancel x ∨ ∃ (view : Store V) (o : Outcome V), (∀ n, seen d f n (view n)) ∧ eval d view o new ∧ o.res d = some x) →
      (st' = st ∨ ∃ v, st' = write defs st d v) →
      VStepT defs eval ⟨s, st, seen⟩ cs ⟨s', st', noticed seen st'⟩ (cs ++ new)

/-- The states that some schedule leads to, with the calls made on the way. -/
inductive VReachT (defs : List Def) (eval : Nat → Store V → Outcome V → List C → Prop) (gs : List Grp) (st0 : Store V) :
    VSys V → List C → Prop where
  | init : VReachT defs eval gs st0 ⟨.init gs false, st0, fun _ _ _ _ => False⟩ []
  | step {s s' cs cs'} : VReachT defs eval gs st0 s cs → VStepT defs eval s cs s' cs' → VReachT defs eval gs st0 s' cs'

/-- What a message that is resolved with messages nested at most `k` deep may end with, if it is not cancelled, and the calls that are
made for it, `generator/templates/server.go.tmpl` lines 540-607. -/
def AnswersTN (P : Prog V) (own : Own V C) : Nat → Nat → Store V → Option V → List C → Prop
  | 0, _, _, _, _ => False
  | k + 1, m, args, r, cs => ∃ M, P.msgs[m]? = some M ∧
    ((M.defs = [] ∧ r = M.build args ∧ cs = []) ∨
      ∃ gs, setup (M.defs.map (·.defn)) = .groups gs ∧
        ∃ s, VReachT (M.defs.map (·.defn)) (evalT P own (AnswersTN P own k) m M) gs args s cs ∧
        ((s.sys.p = .done none ∧ r = M.build s.store) ∨ (s.sys.ext = false ∧ (∃ x, s.sys.p = .done (some x)) ∧ r = none)))

/-- What a message may end with, and the calls that are made for it. -/
def AnswersT (P : Prog V) (own : Own V C) (m : Nat) (args : Store V) (r : Option V) (cs : List C) : Prop :=
  ∃ k, AnswersTN P own k m args r cs

end Verif.Calls
