/-!
# Incoming metadata in expressions and plugins

Models `grpc.federation.metadata.incoming()`, `grpc/federation/cel/metadata.go` lines 35-52, and the way of the metadata to the functions
of a plugin, `grpc/federation/cel/plugin.go` lines 280-351 and `generator/templates/plugin.go.tmpl` lines 54-63.
`metadata.FromIncomingContext` (grpc-go) is a parameter: the metadata of the context, if there is any.  Go maps are lists of entries with
different keys; `range` visits them in any order.  Keys and values are bytes: the values of keys that end in `-bin` need not be UTF-8.  The
CEL map is read by `[]`, `in` and `size` (cel-go), which for keys of type string are those of the Go map behind it.
-/

namespace Verif.Meta

/-- The bytes of a Go string. -/
abbrev Text := List UInt8

/-- Assignment to a Go map. -/
def assign {V : Type} (k : Text) (v : V) : List (Text × V) → List (Text × V)
  | [] => [(k, v)]
  | (k', v') :: m => if k' = k then (k, v) :: m else (k', v') :: assign k v m

/-- The loop over the metadata, `grpc/federation/cel/metadata.go` lines 46-48, in the order in which `range` visits the entries. -/
def fill {V : Type} : List (Text × V) → List (Text × V) → List (Text × V)
  | m, [] => m
  | m, (k, v) :: rest => fill (assign k v m) rest

/-- The function, `grpc/federation/cel/metadata.go` lines 39-50.  `visited` is the metadata of the context as `range` visits it. -/
def incoming (visited : Option (List (Text × List Text))) : List (Text × List Text) :=
  match visited with
  | none => []
  | some es => fill [] es

/-- `m[k]` of CEL; `none` is the error for a missing key. -/
def index {V : Type} (m : List (Text × V)) (k : Text) : Option V := (m.find? fun e => e.1 = k).map (·.2)

/-! ## Plugins -/

/-- `CELPluginRequest`; the values of arguments are C28. -/
structure Request (A : Type) where
  method : Text
  metadata : List (Text × List Text)
  args : List A

/-- `protojson.Marshal` and, in the plugin, `protojson.Unmarshal` (`grpc/federation/cel/plugin.go` line 343, `grpc/federation/cel_plugin.go`
lines 18-24): the same request arrives; a string that is not UTF-8 is an error.  `utf8` is `utf8.ValidString`. -/
def transport {A : Type} (utf8 : Text → Bool) (r : Request A) : Option (Request A) :=
  if utf8 r.method && r.metadata.all (fun e => utf8 e.1 && e.2.all utf8) then some r else none

/-- The functions of a plugin, `grpc/federation/cel/plugin.go` lines 287-291 and 300-304, with `sendRequest`,
`grpc/federation/cel/plugin.go` lines 327-351: the request that arrives.  `visited` is the metadata as `range` visits it, `args` the encoded
arguments; `none` is an error. -/
def send {A : Type} (utf8 : Text → Bool) (fn : Text) (visited : Option (List (Text × List Text))) (args : Option (List A)) :
    Option (Request A) :=
  match args with
  | none => none
  | some as => transport utf8 ⟨fn, visited.getD [], as⟩

/-- The metadata of the context of the function in the plugin, `generator/templates/plugin.go.tmpl` lines 59-63. -/
def pluginMetadata {A : Type} (r : Request A) : List (Text × List Text) := fill [] r.metadata

end Verif.Meta
