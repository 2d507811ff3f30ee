/-!
# Variables and environment of a service

Models `resolveServiceVariables`, `resolveServiceVariable` and `resolveEnvType`
(`resolver/resolver.go` lines 2031-2261).

Type checking of expressions (cel-go) is a parameter `ty`: the type of an expression in an environment, or
`none` if it is rejected. Message, enum and map expressions are one case `other`, whose check adds an error
but does not drop the variable.
-/

namespace Verif.SvcVar

abbrev Name := String

/-- Types, as far as they matter here. -/
inductive Ty where
  | bool
  | string
  | other (id : Nat)
deriving DecidableEq, Repr

inductive Body (E : Type) where
  | «by» (e : E)
  | other (e : E)
  | validation (cond msg : E)

/-- `federation.ServiceVariable`. -/
structure Def (E : Type) where
  name : Name
  cond : Option E
  body : Body E

/-- `resolver.ServiceVariable`: name, definition and type. -/
structure Var (E : Type) where
  name : Name
  body : Body E
  ty : Option Ty

inductive Err where
  | noName | badName | duplicate | badExpr | condNotBool | msgNotString
deriving DecidableEq, Repr

/-- The variables known so far. -/
abbrev Env := List (Name × Ty)

def isValidation {E} : Body E → Bool
  | .validation _ _ => true
  | _ => false

/-- The last part of `resolveServiceVariable`, lines 2191-2260. -/
def resolveBody {E} (ty : Env → E → Option Ty) (env : Env) (name : Name) : Body E → Option (Var E) × List Err
  | .by e => match ty env e with
    | none => (none, [.badExpr])
    | some t => (some ⟨name, .by e, some t⟩, [])
  | .other e => match ty env e with
    | none => (some ⟨name, .other e, none⟩, [.badExpr])
    | some t => (some ⟨name, .other e, some t⟩, [])
  | .validation c m => match ty env c with
    | none => (none, [.badExpr])
    | some t =>
      if t ≠ .bool then (none, [.condNotBool])
      else match ty env m with
        | none => (none, [.badExpr])
        | some t' =>
          if t' ≠ .string then (none, [.msgNotString])
          else (some ⟨name, .validation c m, some .bool⟩, [])

/-- `resolveServiceVariable`, lines 2137-2261. `valid` is `validateName`; expressions that were accepted
have a type (`ifValue.Out != nil`). -/
def resolveVar {E} (ty : Env → E → Option Ty) (valid : Name → Bool) (env : Env) (used : List Name) (d : Def E) :
    Option (Var E) × List Err :=
  if d.name = "" && !isValidation d.body then (none, [.noName])
  else if !valid d.name then (none, [.badName])
  else if used.contains d.name then (none, [.duplicate])
  else match d.cond with
    | some c => match ty env c with
      | none => (none, [.badExpr])
      | some t => (none, if t ≠ .bool then [.condNotBool] else [])
    | none => resolveBody ty env d.name d.body

/-- `resolveServiceVariables`, lines 2095-2135. -/
def resolveVars {E} (ty : Env → E → Option Ty) (valid : Name → Bool) : Env → List Name → List (Def E) → List (Var E) × List Err
  | _, _, [] => ([], [])
  | env, used, d :: ds =>
    let r := resolveVar ty valid env used d
    match r.1 with
    | none =>
      let r' := resolveVars ty valid env used ds
      (r'.1, r.2 ++ r'.2)
    | some v =>
      let env' := match v.ty with
        | some t => if v.name ≠ "" then env ++ [(v.name, t)] else env
        | none => env
      let r' := resolveVars ty valid env' (used ++ [v.name]) ds
      (v :: r'.1, r.2 ++ r'.2)

/-! ## Types of environment variables -/

/-- `federation.EnvType`. Kinds that are not supported are `none`. -/
inductive EnvTy where
  | kind (k : Option Nat)
  | repeated (t : EnvTy)
  | map (k v : EnvTy)
  | unset
deriving DecidableEq, Repr

/-- The resolved type: maps are never repeated. -/
inductive RTy where
  | scalar (k : Nat) (repeated : Bool)
  | map (k v : RTy)
deriving DecidableEq, Repr

/-- `resolveEnvType`, lines 2031-2081. -/
def resolveEnvType : EnvTy → Bool → Option RTy
  | .kind (some k), rep => some (.scalar k rep)
  | .kind none, _ => none
  | .repeated t, _ => resolveEnvType t true
  | .map k v, _ => match resolveEnvType k false with
    | none => none
    | some k' => match resolveEnvType v false with
      | none => none
      | some v' => some (.map k' v')
  | .unset, _ => none

end Verif.SvcVar
