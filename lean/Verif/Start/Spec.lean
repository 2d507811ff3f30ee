/-!
# What starting a server means
-/

namespace Verif.Start

abbrev Name := List Char

/-- A variable of a service, or a check. Conditions, expressions and messages are functions of the environment and of the
variables (`none` for a variable that has no value yet); their result is `none` if the evaluation fails. -/
inductive Def (E V : Type) where
  | define (name : Name) (cond : Option (Option E → (Name → Option V) → Option Bool))
      (expr : Option E → (Name → Option V) → Option V) (zero : V)
  | validation (cond : Option E → (Name → Option V) → Option Bool) (message : Option E → (Name → Option V) → Option Name)

/-- The value of a variable after the variables in a list were set one after the other. -/
def valueOf {V : Type} (given : List (Name × V)) (n : Name) : Option V :=
  (given.reverse.find? (fun p => p.1 == n)).map Prod.snd

/-- The variables that the definitions give, one after the other, each from the environment and those before it: the value of the
expression, or the zero value if there is a condition that does not hold. All checks pass. -/
inductive Gives {E V : Type} (env : Option E) : List (Name × V) → List (Def E V) → List (Name × V) → Prop
  | nil {given : List (Name × V)} : Gives env given [] given
  | always {given after : List (Name × V)} {n : Name} {e z v} {ds : List (Def E V)} :
      e env (valueOf given) = some v → Gives env (given ++ [(n, v)]) ds after →
      Gives env given (.define n none e z :: ds) after
  | holds {given after : List (Name × V)} {n : Name} {c e z v} {ds : List (Def E V)} :
      c env (valueOf given) = some true → e env (valueOf given) = some v → Gives env (given ++ [(n, v)]) ds after →
      Gives env given (.define n (some c) e z :: ds) after
  | zero {given after : List (Name × V)} {n : Name} {c e z} {ds : List (Def E V)} :
      c env (valueOf given) = some false → Gives env (given ++ [(n, z)]) ds after →
      Gives env given (.define n (some c) e z :: ds) after
  | passes {given after : List (Name × V)} {c m} {ds : List (Def E V)} :
      c env (valueOf given) = some false → Gives env given ds after → Gives env given (.validation c m :: ds) after

/-- What can be seen of a start from outside: a client is asked for, an instance of a plugin is started or closed. -/
inductive Event where
  | ask (client service : Name)
  | opened (plugin : Nat)
  | closed (plugin : Nat)
deriving DecidableEq, Repr

/-- The instances that run after a history. -/
def running : List Event → List Nat
  | [] => []
  | .opened i :: es => i :: running es
  | .closed i :: es => (running es).filter (· ≠ i)
  | .ask _ _ :: es => running es

end Verif.Start
