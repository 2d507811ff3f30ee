/-!
# Names of variable definitions without a name

Models how the resolver names variable definitions and checks that names differ:
`resolver/resolver.go` lines 1440-1532 (checks) and 2365-2384, 2426-2437, 2713-2728, 2764-2833, 3003-3018
(names).
-/

namespace Verif.AutoName

abbrev Name := List Char

def digits (n : Nat) : Name := Nat.toDigits 10 n

mutual

/-- A variable definition: its name (empty if there is none) and the error entries of its call or the one
of its validation.  Simplification: every definition has an expression, and only its error entries are
kept. -/
inductive Def where
  | mk (name : Name) (errors : List Entry)

/-- An error entry: its definitions and details. -/
inductive Entry where
  | mk (defs : List Def) (details : List Detail)

/-- An error detail: its definitions and the number of its `message` entries. -/
inductive Detail where
  | mk (defs : List Def) (messages : Nat)

end

/-- The options of a message: its definitions and those of its oneof fields. -/
structure Msg where
  defs : List Def
  oneofs : List (List Def)

/-- `resolver/resolver.go` line 2372. -/
def defName (i : Nat) : Name := ['_', 'd', 'e', 'f'] ++ digits i

/-- `resolver/resolver.go` line 3006. -/
def oneofName (i : Nat) : Name := ['_', 'o', 'n', 'e', 'o', 'f', '_', 'd', 'e', 'f'] ++ digits i

/-- `resolver/resolver.go` line 2716. -/
def errorName (d i : Nat) : Name := ['_', 'd', 'e', 'f'] ++ digits d ++ ['_', 'd', 'e', 'f'] ++ digits i

/-- `resolver/resolver.go` line 2779. -/
def detailName (d e i : Nat) : Name :=
  ['_', 'd', 'e', 'f'] ++ digits d ++ ['_', 'e', 'r', 'r', '_', 'd', 'e', 't', 'a', 'i', 'l'] ++ digits e ++ ['_', 'd', 'e', 'f'] ++ digits i

/-- `resolver/resolver.go` line 2819. -/
def messageName (d e i : Nat) : Name :=
  ['_', 'd', 'e', 'f'] ++ digits d ++ ['_', 'e', 'r', 'r', '_', 'd', 'e', 't', 'a', 'i', 'l'] ++ digits e ++ ['_', 'm', 's', 'g'] ++ digits i

/-- `validateName` for a name that is not empty, `resolver/resolver.go` lines 1440-1460. -/
def validName (n : Name) : Bool :=
  (match n with
    | [] => false
    | c :: cs => c.isAlpha && cs.all fun c => c.isAlpha || c.isDigit || c == '_') &&
  n != ['e', 'r', 'r', 'o', 'r']

/-- The name of a definition after resolving: `resolver/resolver.go` lines 2370-2383 and the same code in
lines 2714-2727, 2777-2790, 3004-3017. -/
def resolved (auto n : Name) : Name :=
  if n = [] then auto else if validName n then n else []

mutual

/-- The names of the variables of a list of definitions, in the order in which the check visits them
(`resolver/resolver.go` lines 1495-1520); `d` of the names in their error entries is the position in this
list (lines 2426-2437).  With `msgs`, also the variables of detail messages, which the check does not
visit. -/
def defsNames (msgs : Bool) (auto : Nat → Name) (i : Nat) : List Def → List Name
  | [] => []
  | .mk n errors :: ds => resolved (auto i) n :: (entriesNames msgs i errors ++ defsNames msgs auto (i + 1) ds)

/-- `resolver/resolver.go` lines 1522-1532 and 2713-2738; neither name depends on the position of the
entry. -/
def entriesNames (msgs : Bool) (d : Nat) : List Entry → List Name
  | [] => []
  | .mk defs details :: es =>
    defsNames msgs (errorName d) 0 defs ++ (detailsNames msgs d 0 details ++ entriesNames msgs d es)

/-- `resolver/resolver.go` lines 1526-1531 and 2769-2804. -/
def detailsNames (msgs : Bool) (d e : Nat) : List Detail → List Name
  | [] => []
  | .mk defs messages :: ds =>
    defsNames msgs (detailName d e) 0 defs ++
      ((if msgs then (List.range messages).map (messageName d e) else []) ++ detailsNames msgs d (e + 1) ds)

end

/-- The names of the variables of a message, `resolver/resolver.go` lines 1472-1493. -/
def names (msgs : Bool) (m : Msg) : List Name :=
  defsNames msgs defName 0 m.defs ++ m.oneofs.flatMap (defsNames msgs oneofName 0)

mutual

/-- The names the user has written. -/
def defsUser : List Def → List Name
  | [] => []
  | .mk n errors :: ds => (if n = [] then [] else [n]) ++ (entriesUser errors ++ defsUser ds)

def entriesUser : List Entry → List Name
  | [] => []
  | .mk defs details :: es => defsUser defs ++ (detailsUser details ++ entriesUser es)

def detailsUser : List Detail → List Name
  | [] => []
  | .mk defs _ :: ds => defsUser defs ++ detailsUser ds

end

/-- The names the user has written in a message. -/
def userNames (m : Msg) : List Name := defsUser m.defs ++ m.oneofs.flatMap defsUser

/-- The check with `nameMap`, `resolver/resolver.go` lines 1495-1509. -/
def noDuplicate (seen : List Name) : List Name → Bool
  | [] => true
  | n :: ns => (n == [] || !seen.contains n) && noDuplicate (n :: seen) ns

/-- Whether a message is accepted: no name is invalid and none is found twice. -/
def accepted (m : Msg) : Bool := (userNames m).all validName && noDuplicate [] (names false m)

/-! ## Calling `Resolve` again

A resolver copies the descriptors it is made from (`resolver/resolver.go` lines 83-84, 117-123), so only a
second call of `Resolve` on the same resolver sees these changes. -/

mutual

/-- The definitions after resolving: names are written into the descriptors (`resolver/resolver.go` lines
2373, 2377, 2717, 2721, 2780, 2784, 3007, 3011). -/
def defsAfter (auto : Nat → Name) (i : Nat) : List Def → List Def
  | [] => []
  | .mk n errors :: ds => .mk (resolved (auto i) n) (entriesAfter i errors) :: defsAfter auto (i + 1) ds

def entriesAfter (d : Nat) : List Entry → List Entry
  | [] => []
  | .mk defs details :: es => .mk (defsAfter (errorName d) 0 defs) (detailsAfter d 0 details) :: entriesAfter d es

def detailsAfter (d e : Nat) : List Detail → List Detail
  | [] => []
  | .mk defs messages :: ds => .mk (defsAfter (detailName d e) 0 defs) messages :: detailsAfter d (e + 1) ds

end

/-- The descriptors of a message after resolving. -/
def after (m : Msg) : Msg := ⟨defsAfter defName 0 m.defs, m.oneofs.map (defsAfter oneofName 0)⟩

end Verif.AutoName
