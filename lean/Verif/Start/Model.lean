import Verif.Start.Spec

/-!
# Starting and closing a generated server

Models `New...` (`generator/templates/server.go.tmpl` lines 234-396), `Cleanup...` (lines 399-407) and
`initServiceVariables` (lines 410-454 of `generator/templates/server.go.tmpl`). Plugins are modelled in `Plugin`, the environment
in `EnvTag`; here they succeed or fail. Histories are written with the latest event first.
-/

namespace Verif.Start

/-- What the template is filled with: the services that are called (with the name of the method of the client factory), whether
there are custom resolvers, the number of plugins, whether there is an environment, and the variables. -/
structure Service (E V : Type) where
  deps : List (Name × Name)
  resolvers : Bool
  plugins : Nat
  env : Bool
  vars : List (Def E V)

/-- The configuration and what the calls of `New...` give: whether the three parts of the configuration are set, the clients, whether
a plugin can be loaded and is valid (C62), and the environment (C105). -/
structure World (C E : Type) where
  clientCfg : Bool
  resolverCfg : Bool
  pluginCfg : Bool
  client : Name → Name → Option C
  load : Nat → Bool
  valid : Nat → Bool
  env : Option E

/-- Why `New...` fails. -/
inductive Err where
  | clientConfig
  | resolverConfig
  | pluginConfig
  | client
  | plugin
  | env
  | failed
  | invalid (message : Name)
deriving DecidableEq, Repr

/-- The server. -/
structure Svc (C E V : Type) where
  clients : List C
  instances : List Nat
  env : Option E
  vars : Name → Option V

/-- The clients, `generator/templates/server.go.tmpl` lines 250-257. -/
def askAll {C : Type} (client : Name → Name → Option C) : List (Name × Name) → List Event → List Event × Option (List C)
  | [], es => (es, some [])
  | (c, s) :: ds, es =>
    match client c s with
    | none => (.ask c s :: es, none)
    | some x =>
      match askAll client ds (.ask c s :: es) with
      | (es, some xs) => (es, some (x :: xs))
      | (es, none) => (es, none)

/-- The plugins from number `i` on, `generator/templates/server.go.tmpl` lines 324-357: an instance that is not valid is not
closed. -/
def openAll (load valid : Nat → Bool) : (n i : Nat) → List Event → List Event × Option (List Nat)
  | 0, _, es => (es, some [])
  | n + 1, i, es =>
    if load i then
      if valid i then
        match openAll load valid n (i + 1) (.opened i :: es) with
        | (es, some is) => (es, some (i :: is))
        | (es, none) => (es, none)
      else (.opened i :: es, none)
    else (es, none)

/-- Whether a variable is evaluated, `generator/templates/eval.go.tmpl` lines 75-78. -/
def holds {E V : Type} (c : Option (Option E → (Name → Option V) → Option Bool)) (env : Option E) (st : Name → Option V) :
    Option Bool :=
  match c with
  | none => some true
  | some c => c env st

/-- `initServiceVariables`, `generator/templates/server.go.tmpl` lines 410-454; a condition that does not hold gives the zero value
(C13). -/
def initVars {E V : Type} (env : Option E) : List (Def E V) → (Name → Option V) → Except Err (Name → Option V)
  | [], st => .ok st
  | .define n c e z :: ds, st =>
    match holds c env st with
    | none => .error .failed
    | some false => initVars env ds (fun x => if n == x then some z else st x)
    | some true =>
      match e env st with
      | none => .error .failed
      | some v => initVars env ds (fun x => if n == x then some v else st x)
  | .validation c m :: ds, st =>
    match c env st with
    | none => .error .failed
    | some false => initVars env ds st
    | some true =>
      match m env st with
      | none => .error .failed
      | some t => .error (.invalid t)

/-- `New...`, `generator/templates/server.go.tmpl` lines 234-396. -/
def new {C E V : Type} (s : Service E V) (w : World C E) : List Event × Except Err (Svc C E V) :=
  if s.deps ≠ [] ∧ w.clientCfg = false then ([], .error .clientConfig)
  else if s.resolvers = true ∧ w.resolverCfg = false then ([], .error .resolverConfig)
  else if s.plugins ≠ 0 ∧ w.pluginCfg = false then ([], .error .pluginConfig)
  else
    match askAll w.client s.deps [] with
    | (es, none) => (es, .error .client)
    | (es, some cs) =>
      match openAll w.load w.valid s.plugins 0 es with
      | (es, none) => (es, .error .plugin)
      | (es, some is) =>
        if s.env = true ∧ w.env.isNone then (es, .error .env)
        else
          let env := if s.env then w.env else none
          match initVars env s.vars (fun _ => none) with
          | .error e => (es, .error e)
          | .ok st => (es, .ok { clients := cs, instances := is, env := env, vars := st })

/-- `Cleanup...`, `generator/templates/server.go.tmpl` lines 399-407. -/
def cleanup {C E V : Type} (svc : Svc C E V) (es : List Event) : List Event :=
  svc.instances.foldl (fun es i => .closed i :: es) es

end Verif.Start
