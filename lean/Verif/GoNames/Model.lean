/-!
# Go names of proto names

Models `util/name.go` (lines 7-37): `GoCamelCase` is linked from
`google.golang.org/protobuf/internal/strs.GoCamelCase`, whose published source is modelled here; and
`protoFQDNToPublicGoName` (`generator/code_generator.go` lines 3695-3703). Names are ASCII, as proto names are.
-/

namespace Verif.GoNames

abbrev Name := List Char

def isLower (c : Char) : Bool := 97 ≤ c.toNat && c.toNat ≤ 122
def isUpper (c : Char) : Bool := 65 ≤ c.toNat && c.toNat ≤ 90
def isDigit (c : Char) : Bool := 48 ≤ c.toNat && c.toNat ≤ 57

/-- `c -= 'a' - 'A'` and `strings.ToUpper` of a character. -/
def upper (c : Char) : Char := if isLower c then Char.ofNat (c.toNat - 32) else c

/-- `strings.ToLower` of a character. -/
def lower (c : Char) : Char := if isUpper c then Char.ofNat (c.toNat + 32) else c

def nextLower : Name → Bool
  | [] => false
  | c :: _ => isLower c

/-- The loop of `GoCamelCase`. `start` tells whether the previous character is missing or a dot, `copy` whether
the inner loop, which copies lower case letters, is running. -/
def go : Bool → Bool → Name → Name
  | _, _, [] => []
  | start, copy, c :: cs =>
    if copy && isLower c then c :: go false true cs
    else if c = '.' then
      if nextLower cs then go true false cs else '_' :: go true false cs
    else if c = '_' && start then 'X' :: go false false cs
    else if c = '_' && nextLower cs then go false false cs
    else if isDigit c then c :: go false false cs
    else upper c :: go false true cs

/-- `GoCamelCase`, `ToGoVariable` (`util/name.go` lines 9-10, 20-22). -/
def goCamelCase (s : Name) : Name := go true false s

/-- `ToPublicVariable`, `util/name.go` lines 24-29. -/
def toPublicVariable : Name → Name
  | [] => []
  | c :: cs => upper c :: cs

/-- `ToPrivateVariable`, `util/name.go` lines 31-36. -/
def toPrivateVariable : Name → Name
  | [] => []
  | c :: cs => lower c :: cs

/-- `ToPublicGoVariable`, `util/name.go` lines 12-14. -/
def toPublicGoVariable (s : Name) : Name := toPublicVariable (goCamelCase s)

/-- `ToPrivateGoVariable`, `util/name.go` lines 16-18. -/
def toPrivateGoVariable (s : Name) : Name := toPrivateVariable (goCamelCase s)

/-- `strings.Split(s, ".")`. -/
def splitDots (s : Name) : List Name :=
  s.foldr (fun c acc => if c = '.' then [] :: acc else match acc with
    | [] => [[c]]
    | w :: ws => (c :: w) :: ws) [[]]

/-- `strings.Join(names, "_")`. -/
def joinUnderscore : List Name → Name
  | [] => []
  | [w] => w
  | w :: ws => w ++ '_' :: joinUnderscore ws

/-- `protoFQDNToPublicGoName`, `generator/code_generator.go` lines 3695-3703. -/
def fqdnToGoName (s : Name) : Name :=
  joinUnderscore ((splitDots s).map (fun w => toPublicGoVariable (w.map (fun c => if c = '-' then '_' else c))))

end Verif.GoNames
