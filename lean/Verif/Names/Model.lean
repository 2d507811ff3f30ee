/-!
# Names

Models `splitMethodFullName`, `lookupMessage`, `lookupMessageRecursive`, `lookupPackage`, `trimPackage`,
`splitGoPackageName`, `toPluginFunctionID`, the rewriting of `$` in `resolveCELValue` and `validateName`
(`resolver/resolver.go` lines 999-1008, 1440-1460, 4425-4456, 5162-5299, 5360-5374), and `toSignatureID`
(`resolver/cel.go` lines 268-277). Strings are lists of characters.
-/

namespace Verif.Names

abbrev Str := List Char

/-- `strings.Split(s, sep)` for a one character separator. -/
def split (sep : Char) : Str → List Str
  | [] => [[]]
  | c :: cs => if c = sep then [] :: split sep cs
    else match split sep cs with
      | [] => [[c]]
      | h :: t => (c :: h) :: t

/-- `strings.Join`. -/
def join (sep : Str) : List Str → Str
  | [] => []
  | [a] => a
  | a :: b :: rest => a ++ sep ++ join sep (b :: rest)

/-- `strings.TrimPrefix`. -/
def trimPrefix (p s : Str) : Str := if p.isPrefixOf s then s.drop p.length else s

/-- `splitMethodFullName`, `resolver/resolver.go` lines 5162-5179: package, service, method. `pkg` is the current package. -/
def splitMethod (pkg name : Str) : Option (Str × Str × Str) :=
  match split '/' name with
  | [svc, method] =>
    if !svc.contains '.' then some (pkg, svc, method)
    else
      let names := split '.' svc
      if names.length ≤ 1 then none
      else some (join ['.'] names.dropLast, names.getLastD [], method)
  | _ => none

/-- The loop of `lookupPackage`, `resolver/resolver.go` lines 5283-5289: prefixes of `names` of length `i`, `i-1`, ..., 1. -/
def findPackage (known : Str → Bool) (names : List Str) : Nat → Option Str
  | 0 => none
  | i + 1 =>
    let p := join ['.'] (names.take (i + 1))
    if known p then some p else findPackage known names i

/-- `lookupPackage`, `resolver/resolver.go` lines 5277-5291. `known` says which packages exist. -/
def lookupPackage (known : Str → Bool) (name : Str) : Option Str :=
  let names := split '.' (trimPrefix ['.'] name)
  if names.length ≤ 1 then none else findPackage known names (names.length - 1)

/-- `trimPackage`, `resolver/resolver.go` lines 5293-5299. -/
def trimPackage (pkg name : Str) : Str :=
  let n := trimPrefix ['.'] name
  if !n.contains '.' then n else trimPrefix (pkg ++ ['.']) n

/-- A declared message with the messages declared inside it. -/
inductive Msg where
  | mk (id : Nat) (name : Str) (nested : List Msg)

def Msg.id : Msg → Nat
  | .mk i _ _ => i
def Msg.name : Msg → Str
  | .mk _ n _ => n
def Msg.nested : Msg → List Msg
  | .mk _ _ l => l

mutual
/-- `lookupMessageRecursive`, `resolver/resolver.go` lines 5248-5260. -/
def lookupRec (name parent : Str) : Msg → Option Nat
  | .mk i n nested =>
    let full := parent ++ '.' :: n
    if full = name then some i else lookupNested name full nested
def lookupNested (name parent : Str) : List Msg → Option Nat
  | [] => none
  | m :: ms => match lookupRec name parent m with
    | some i => some i
    | none => lookupNested name parent ms
end

/-- `lookupMessage`, `resolver/resolver.go` lines 5181-5200, over the messages of all files of the package. -/
def lookupMessage (name : Str) : List Msg → Option Nat
  | [] => none
  | m :: ms =>
    if m.name = name then some m.id
    else match lookupNested name m.name m.nested with
      | some i => some i
      | none => lookupMessage name ms

/-- `splitGoPackageName`, `resolver/resolver.go` lines 5360-5374: import path and package name. -/
def splitGoPackage (s : Str) : Option (Str × Str) :=
  match split ';' s with
  | [path] => some (path, (split '/' path).getLastD [])
  | [path, name] => some (path, name)
  | _ => none

/-- `strings.ReplaceAll(s, ".", "_")`. -/
def underscores (s : Str) : Str := s.map (fun c => if c = '.' then '_' else c)

/-- `toPluginFunctionID` and `toSignatureID`: `types` are the full names of the argument types and of
the return type. -/
def functionID (pre : Str) (types : List Str) : Str := underscores (join ['_'] (pre :: types))

/-- The name given to a function by its package and name (line 895). -/
def functionPrefix (pkg fn : Str) : Str := pkg ++ '_' :: fn

/-- `federation.MessageArgumentVariableName`. -/
def arg : Str := "__ARG__".toList

/-- Whether `p` occurs in `s` (`strings.Contains`). -/
def occurs (p : Str) : Str → Bool
  | [] => p.isEmpty
  | c :: cs => p.isPrefixOf (c :: cs) || occurs p cs

/-- `strings.Replace(expr, "$", MessageArgumentVariableName, -1)`. -/
def rewrite (s : Str) : Str := s.flatMap (fun c => if c = '$' then arg else [c])

/-- The string part of `resolveCELValue`, `resolver/resolver.go` lines 4425-4432: the expression that is compiled. -/
def celExpr (s : Str) : Option Str := if occurs arg s then none else some (rewrite s)

end Verif.Names
