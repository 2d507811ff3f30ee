import Verif.Codegen.Graph

/-!
# The request of code generation plugins: identifiers

Models the full names of the resolver (`resolver/fqdn.go` lines 8-64, 89-94) and the identifiers under which
`grpc/federation/generator/encode.go` (lines 1252-1324) records objects.

Simplified: an object is given by the names it is built from: the package, the names of the messages around it from the outside to the
inside (`resolver/message.go` lines 75-83), and its own. A package is its name; objects without a file have the empty one.
-/

namespace Verif.Codegen

/-- `strings.Join(names, ".")`. -/
def joinDot : List Name → Name
  | [] => []
  | [w] => w
  | w :: ws => w ++ '.' :: joinDot ws

/-- The names of a message. -/
structure MsgName where
  pkg : Name
  parents : List Name
  name : Name
deriving DecidableEq, Repr

/-- `Message.FQDN`, `resolver/fqdn.go` lines 22-30. -/
def msgId (m : MsgName) : Name := joinDot ((m.pkg :: m.parents) ++ [m.name])

/-- `Service.FQDN`, `resolver/fqdn.go` lines 8-13. -/
def serviceId (pkg name : Name) : Name := pkg ++ '.' :: name

/-- `Method.FQDN`, `resolver/fqdn.go` lines 15-20. -/
def methodId (pkg service name : Name) : Name := serviceId pkg service ++ '/' :: name

/-- `Field.FQDN`, `resolver/fqdn.go` lines 32-40, for a field of a message, `OneofField.FQDN`, `resolver/fqdn.go` lines 42-47, and `encoder.toOneofID`,
`grpc/federation/generator/encode.go` lines 1287-1292. -/
def memberId (m : MsgName) (name : Name) : Name := msgId m ++ '.' :: name

/-- The names of an enum: inside a message or outside. -/
inductive EnumName where
  | nested (m : MsgName) (name : Name)
  | top (pkg name : Name)
deriving DecidableEq, Repr

/-- `Enum.FQDN`, `resolver/fqdn.go` lines 49-57. -/
def enumId : EnumName → Name
  | .nested m name => msgId m ++ '.' :: name
  | .top pkg name => pkg ++ '.' :: name

/-- `encoder.toEnumValueID`, `grpc/federation/generator/encode.go` lines 1301-1306. -/
def enumValueId (e : EnumName) (value : Name) : Name := enumId e ++ '.' :: value

/-- `MessageDependencyGraphNode.FQDN`, `resolver/fqdn.go` lines 89-94. -/
def nodeId (m : MsgName) (var : Name) : Name := msgId m ++ '_' :: var

/-- `encoder.toDependencyGraphID`, `grpc/federation/generator/encode.go` lines 1315-1324. -/
def graphId (roots : List (MsgName × Name)) : Name := joinColon (roots.map (fun r => nodeId r.1 r.2))

end Verif.Codegen
