import Verif.Offer.Model
import Verif.Names.Props
import Verif.Types.Spec

/-! # What completion should offer -/

namespace Verif.Offer

open Names (Str PackagePart)

/-- The fields of the options, `proto/grpc/federation/federation.proto` lines 221-236, 514-530, 239-276, 328-343, 470-483,
308-315 and 499-511. -/
def optionFields : Place → List String
  | .messageOption => ["def", "custom_resolver", "alias"]
  | .fieldOption => ["custom_resolver", "by", "alias", "oneof", "env"]
  | .definition => ["name", "if", "autobind", "by", "map", "message", "call", "validation", "enum"]
  | .call => ["method", "request", "timeout", "retry", "error"]
  | .request => ["field", "by", "if"]
  | .message => ["name", "args"]
  | .argument => ["name", "by", "inline"]

/-- The name of a method as it is written in a call. -/
def methodName (pkg svc m : Str) : Str := pkg ++ '.' :: (svc ++ '/' :: m)

/-- What an editor does with an edit that inserts a text into a line. -/
def insert (line : Str) (e : Nat × Str) : Str := line.take e.1 ++ e.2 ++ line.drop e.1

end Verif.Offer
