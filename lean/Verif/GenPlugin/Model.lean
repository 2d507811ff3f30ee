/-!
# Plugins of the generator

Models how the generator runs code generation plugins written for WebAssembly
(`generator/generator.go` lines 687-740 and `generator/wasm.go` lines 14-34) and protoc plugins
(`generator/generator.go` lines 261-294).
-/

namespace Verif.GenPlugin

abbrev Bytes := List Nat

/-- `WasmPluginOption`, `generator/generator.go` lines 747-750. -/
structure Plugin where
  path : Nat
  sha256 : Bytes

/-- The outside world: `os.ReadFile`, the hash in hexadecimal, and whether running a module with the given
standard input succeeds. -/
structure World where
  readFile : Nat → Option Bytes
  hash : Bytes → Bytes
  run : Bytes → Bytes → Bool

/-- A run of a module: the module and what it can read from its standard input. -/
structure Call where
  wasm : Bytes
  stdin : Bytes
deriving DecidableEq, Repr

/-- The loop over the plugins, `generator/generator.go` lines 719-737.  `buf` is the unread part of the
buffer, which every plugin gets as its standard input (`generator/wasm.go` line 26); `Reset` (line 736)
empties it, however much of it the plugin has read.  Returns the runs and whether there was no error. -/
def evalPlugins (w : World) : List Plugin → Bytes → List Call × Bool
  | [], _ => ([], true)
  | p :: ps, buf =>
    match w.readFile p.path with
    | none => ([], false)
    | some f =>
      if p.sha256 ≠ w.hash f then ([], false)
      else if w.run f buf then
        let (cs, ok) := evalPlugins w ps []
        (⟨f, buf⟩ :: cs, ok)
      else ([⟨f, buf⟩], false)

/-- `evalAllCodeGenerationPlugin`, `generator/generator.go` lines 687-740, for the encoded requests of the
results.  Encoding the requests (lines 695-717) is left out. -/
def evalAll (w : World) (plugins : List Plugin) : List Bytes → List Call × Bool
  | [] => ([], true)
  | req :: reqs =>
    let (cs, ok) := evalPlugins w plugins req
    if ok then
      let (cs', ok') := evalAll w plugins reqs
      (cs ++ cs', ok')
    else (cs, false)

/-- A `CodeGeneratorResponse` of a protoc plugin: its `error` field and its files. -/
structure Response where
  error : Option Nat
  files : List (Nat × Nat)
deriving DecidableEq

/-- What a run of a protoc plugin gives: whether the process ended without error, and its decoded output. -/
structure Process where
  exitOk : Bool
  stdout : Option Response

/-- `generateByPlugin` for an installed plugin, `generator/generator.go` lines 272-293; `none` is an
error. -/
def generateByPlugin (p : Process) : Option Response :=
  if p.exitOk then p.stdout else none

/-- What the generator takes over from the response: its files (`generator/generator.go` lines 467-468,
102-128). -/
def takeOver (p : Process) : Option (List (Nat × Nat)) := (generateByPlugin p).map (·.files)

end Verif.GenPlugin
