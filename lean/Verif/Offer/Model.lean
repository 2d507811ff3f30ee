import Verif.Names.Model
import Verif.Types.Model

/-!
# What completion offers

Models the file and message that completion is about, the names of methods and messages and the keywords that are
offered, the filter by type (`resolver/candidates.go`), and the items sent to the editor (`lsp/server/completion.go`).
The candidates for values are in `Verif.Complete`.  The cached messages and methods are lists of their keys, as Go
maps are visited in any order; the lists that are offered are sorted afterwards, which is left out.
-/

namespace Verif.Offer

open Names (Str lookupPackage trimPackage trimPrefix)

/-! ## The message -/

/-- A file of the resolver. -/
structure File where
  name : Str
  pkg : Str

/-- `fmt.Sprintf("%s.%s", pkg, name)`, `resolver/candidates.go` line 78 and `resolver/resolver.go` line 1130. -/
def key (pkg name : Str) : Str := pkg ++ '.' :: name

/-- `Candidates`, `resolver/candidates.go` lines 72-89: the key of the message that candidates are for. `path` and `msg` are
the file name and the message of the location. -/
def message (cached : List Str) (path msg : Str) : List File → Option Str
  | [] => none
  | f :: fs =>
    if f.name.isSuffixOf path then
      (if key f.pkg msg ∈ cached then some (key f.pkg msg) else message cached path msg fs)
    else message cached path msg fs

/-! ## Names -/

/-- `candidatesMethodName`, `resolver/candidates.go` lines 196-207: keys of methods, without those that start with the
package of the message. -/
def methodNames (own : Str) (cached : List Str) : List Str :=
  cached.filter fun n => !(own ++ ['.']).isPrefixOf n

def federation : Str := "grpc.federation.".toList

/-- `candidatesMessageName`, `resolver/candidates.go` lines 269-287. `self` is the name of the message. -/
def messageNames (own self : Str) (cached : List Str) : List Str :=
  (cached.filter fun n => !(n == key own self) && !federation.isPrefixOf n).map (trimPrefix (own ++ ['.']))

/-- `resolveMessageByName`, `resolver/resolver.go` lines 1113-1127, up to the key that is looked up (line 1130). -/
def target (known : Str → Bool) (own name : Str) : Str :=
  if name.contains '.' then
    match lookupPackage known name with
    | none => key own name
    | some pkg => key pkg (trimPackage pkg name)
  else key own name

/-! ## Keywords -/

/-- Where a keyword is completed: the location has no part inside of it. -/
inductive Place where
  | messageOption | fieldOption | definition | call | request | message | argument
deriving DecidableEq, Repr

/-- `resolver/candidates.go` lines 106, 130, 146, 158, 169, 179 and 193. -/
def keywords : Place → List String
  | .messageOption => ["def", "custom_resolver", "alias"]
  | .fieldOption => ["by"]
  | .definition => ["name", "by", "map", "call", "message", "validation"]
  | .call => ["method", "request", "timeout", "retry"]
  | .request => ["field", "by"]
  | .message => ["name", "args"]
  | .argument => ["name", "by", "inline"]

/-! ## Types -/

open Types (Ty isNumber kindOf)

/-- The message and the enum of a type; those of `enum.select` are messages that no field has. -/
def msgOf : Ty → Option Types.Name
  | .msg n _ => some n
  | .selector _ _ => some Types.selectorName
  | _ => none
def enumOf : Ty → Option Types.Name
  | .enum n _ => some n
  | _ => none

/-- The conditions of `Filter`, `resolver/candidates.go` lines 42-67; `none` is a type that is not known.  Messages and enums
are compared by their names, as there is one object of each.  Comparing the pointers of types (line 52) keeps no more. -/
def keeps : Option Ty → Option Ty → Bool
  | some c, some t =>
    ((msgOf c).isNone && (enumOf c).isNone && kindOf c == kindOf t) ||
    (isNumber c && isNumber t) ||
    ((msgOf c).isSome && (msgOf t).isSome && msgOf c == msgOf t) ||
    ((enumOf c).isSome && (enumOf t).isSome && enumOf c == enumOf t)
  | _, _ => true

/-- `Filter`, `resolver/candidates.go` lines 39-70. -/
def filter {N : Type} (cs : List (N × Option Ty)) (t : Option Ty) : List (N × Option Ty) := cs.filter fun c => keeps c.2 t

/-! ## Items -/

/-- `strconv.Unquote` for texts without escape sequences; with a single quotation mark it takes one character. -/
def unquote (s : Str) : Option Str :=
  match s with
  | ['\'', c, '\''] => some [c]
  | '"' :: rest => if rest.getLast? = some '"' && !rest.dropLast.contains '"' then some rest.dropLast else none
  | _ => none

/-- A `CompletionItem`: label, and the position and text of its edit. -/
structure Item where
  label : Str
  edit : Option (Nat × Str)
deriving DecidableEq, Repr

/-- `completion`, `lsp/server/completion.go` lines 30-67: `raw` is the text at the cursor and `endCol` the column after it,
counted from 1. The line of the edit is that of the text. -/
def items (raw : Str) (endCol : Nat) (cands : List Str) : List Item :=
  let cur := (unquote raw).getD raw
  let found := (cands.filter fun c => cur.isPrefixOf c).map fun c => ⟨c, some (endCol - 2, c.drop cur.length)⟩
  if found.isEmpty then cands.map fun c => ⟨c, none⟩ else found

end Verif.Offer
