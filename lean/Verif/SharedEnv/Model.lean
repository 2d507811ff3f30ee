/-!
# Environment variables of messages used by several services

Models `buildEnvMessage`, `buildServiceVariablesMessage` and `isExactlySameType`
(`resolver/resolver.go` lines 4527-4714 and 5318-5350).

The iteration order of Go maps is a parameter: the services are given in any order, and the names in any
order `names`. The resulting message is a list of variables, errors are lists of variable names.
-/

namespace Verif.SharedEnv

abbrev Name := String

mutual
/-- `resolver.Type` as far as it is compared, unfolded to a tree (`Verif.SharedEnv.Graph` has recursive
types). Kinds are numbers. -/
inductive Ty where
  | scalar (kind : Nat) (repeated : Bool)
  | enum (name : Name) (repeated : Bool)
  | msg (name : Name) (repeated : Bool) (fields : Fields)
/-- Fields of a message. -/
inductive Fields where
  | nil
  | cons (name : Name) (ty : Ty) (rest : Fields)
end

def Fields.length : Fields → Nat
  | .nil => 0
  | .cons _ _ r => r.length + 1

/-- `lfMap[name]`: the last field of that name. -/
def Fields.last : Fields → Name → Option Ty
  | .nil, _ => none
  | .cons n t r, x => match r.last x with
    | some t' => some t'
    | none => if n = x then some t else none

mutual
/-- `isExactlySameType`, lines 5318-5350. -/
def same : Ty → Ty → Bool
  | l, .scalar k r => match l with
    | .scalar k' r' => k' == k && r' == r
    | _ => false
  | l, .enum _ r => match l with
    | .enum _ r' => r' == r
    | _ => false
  | l, .msg _ r fs => match l with
    | .msg _ r' ls => r' == r && ls.length == fs.length && sameFields ls fs
    | _ => false
/-- The loop over the fields of the right message, lines 5339-5347. -/
def sameFields : Fields → Fields → Bool
  | _, .nil => true
  | ls, .cons n t rest => (match ls.last n with
    | some lt => same lt t
    | none => false) && sameFields ls rest
end

/-- Variables of a service: name and type. -/
abbrev Vars (T : Type) := List (Name × T)

/-- `envVarMap[name]`, lines 4540-4549: the last variable of that name. -/
def lookup {T} (vs : Vars T) (n : Name) : Option T := (vs.reverse.find? (fun v => v.1 == n)).map (·.2)

/-- `svcEnvVars`, lines 4562-4574: the types in all services, `none` if a service lacks the variable. -/
def typesOf {T} (svcs : List (Vars T)) (n : Name) : Option (List T) :=
  match svcs with
  | [] => some []
  | s :: rest => match lookup s n with
    | none => none
    | some t => (typesOf rest n).map (t :: ·)

/-- The loop over all names, lines 4552-4597: variables and mismatching names. `svcs` are the variables
of the services that use the message, `names` are the names of all these variables. -/
def build {T} (same : T → T → Bool) (svcs : List (Vars T)) : List Name → Vars T × List Name
  | [] => ([], [])
  | n :: ns =>
    let r := build same svcs ns
    match typesOf svcs n with
    | some (t :: ts) => ((n, t) :: r.1, if ts.any (fun u => !same t u) then n :: r.2 else r.2)
    | _ => r

/-- A service variable: its type is missing if its expression has no value. -/
structure SvcVar (T : Type) where
  name : Name
  ty : Option T

/-- Lines 4632-4643: variables without name or type are skipped. -/
def usable {T} (vs : List (SvcVar T)) : Vars T :=
  vs.filterMap (fun v => if v.name = "" then none else v.ty.map (fun t => (v.name, t)))

/-- `buildServiceVariablesMessage`, lines 4617-4714. -/
def buildVars {T} (same : T → T → Bool) (svcs : List (List (SvcVar T))) (names : List Name) : Vars T × List Name :=
  build same (svcs.map usable) names

/-! ## Recursive types -/

/-- A type of a schema whose messages may refer to each other. -/
inductive GTy where
  | scalar (kind : Nat) (repeated : Bool)
  | msg (name : Name) (repeated : Bool)
deriving DecidableEq

/-- The fields of every message. -/
abbrev Graph := Name → List (Name × GTy)

/-- `isExactlySameType` with a bound on the depth of recursion; `none` if the bound is reached. Go has
no bound but its stack: a call without result for any bound ends in a crash. -/
def sameG (G : Graph) : Nat → GTy → GTy → Option Bool
  | 0, _, _ => none
  | fuel + 1, l, r => match l, r with
    | .scalar k a, .scalar k' a' => some (k == k' && a == a')
    | .msg m a, .msg m' a' =>
      if a != a' || (G m).length != (G m').length then some false
      else loop (fun l r => sameG G fuel l r) (G m) (G m')
    | _, _ => some false
where
  /-- The loop over the fields of the right message. -/
  loop (rec : GTy → GTy → Option Bool) (ls : List (Name × GTy)) : List (Name × GTy) → Option Bool
    | [] => some true
    | (n, t) :: rest => match lookup ls n with
      | none => some false
      | some lt => match rec lt t with
        | none => none
        | some false => some false
        | some true => loop rec ls rest

end Verif.SharedEnv
