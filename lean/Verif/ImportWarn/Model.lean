/-!
# Warnings about imports

Models `validateFileImport` and the functions that collect the packages a file uses, `resolver/resolver.go` lines
396-714, with `ToIdentifiers`, `grpc/federation/cel/conv.go` lines 5-63, and `lookupPackage`,
`resolver/resolver.go` lines 5277-5291.

Names and packages are lists of parts.  Maps of package names are lists.  Simplifications: everything the
options refer to exists (otherwise an error is reported anyway), expressions are given as cel-go parsed them (macros
are expanded), names have no leading dot, and the option of the file can be read.
-/

namespace Verif.ImportWarn

abbrev QName := List String

/-! ## Expressions -/

/-- Parsed expressions; `compr` are the parts of a comprehension, to which cel-go expands `all`, `exists`, `filter`
and `map`. -/
inductive Ast where
  | lit
  | ident (x : String)
  | select (e : Ast) (f : String)
  | call (f : String) (args : List Ast)
  | member (t : Ast) (f : String) (args : List Ast)
  | list (es : List Ast)
  | map (ks vs : List Ast)
  | struct (ty : QName) (vals : List Ast)
  | compr (parts : List Ast)

/-- `toSelectorName`, `grpc/federation/cel/conv.go` lines 49-63. -/
def selectorName : Ast → QName
  | .select e f => selectorName e ++ [f]
  | .ident x => [x]
  | _ => []

mutual
/-- `ToIdentifiers`, `grpc/federation/cel/conv.go` lines 5-47; `compr` has no case there. -/
def idents : Ast → List QName
  | .lit => []
  | .ident x => [[x]]
  | .select e f => [selectorName e ++ [f]]
  | .call _ args => identsL args
  | .member t _ args => idents t ++ identsL args
  | .list es => identsL es
  | .map ks vs => identsL ks ++ identsL vs
  | .struct ty vals => ty :: identsL vals
  | .compr _ => []
def identsL : List Ast → List QName
  | [] => []
  | a :: as => idents a ++ identsL as
end

/-- `lookupPackage`, `resolver/resolver.go` lines 5277-5291: `names[:lastIdx]` for `lastIdx` from the length minus
one down to one; `known` are the keys of `protoPackageNameToPackage`. -/
def lookupFrom (known : List QName) (n : QName) : Nat → Option QName
  | 0 => none
  | k + 1 => if n.take (k + 1) ∈ known then some (n.take (k + 1)) else lookupFrom known n k

def lookupPackage (known : List QName) (n : QName) : Option QName := lookupFrom known n (n.length - 1)

/-- The loop body of `lookupPackageNameMapFromCELValue`, `resolver/resolver.go` lines 695-701. -/
def identPkg (known : List QName) (n : QName) : Option QName :=
  match lookupPackage known n with
  | some p => some p
  | none => if n ∈ known then some n else none

/-- `lookupPackageNameMapFromCELValue`, `resolver/resolver.go` lines 677-703. -/
def celPkgs (known : List QName) (a : Ast) : List QName := (idents a).filterMap (identPkg known)

def celPkgsO (known : List QName) : Option Ast → List QName
  | none => []
  | some a => celPkgs known a

/-! ## Types and definitions -/

/-- Types, as far as their packages go. -/
inductive Ty where
  | scalar
  | pkg (p : QName)
  | map (k v : Ty)

/-- `lookupPackageNameMapRecursiveFromType`, `resolver/resolver.go` lines 497-521. -/
def Ty.pkgs : Ty → List QName
  | .scalar => []
  | .pkg p => [p]
  | .map k v => k.pkgs ++ v.pkgs

/-- `Argument`, `resolver/types.go` lines 509-514. -/
structure Arg where
  ty : Ty
  value : Option Ast
  cond : Option Ast

mutual
/-- `VariableDefinition`, `resolver/types.go` lines 186-194. -/
inductive Def where
  | mk (cond : Option Ast) (expr : DExpr)
/-- `VariableExpr`, `resolver/types.go` lines 237-245; a map has one of three expressions
(`resolver/types.go` lines 265-270). -/
inductive DExpr where
  | value (a : Ast)
  | call (svc req : QName) (args : List Arg) (retryIf : Option Ast) (errs : List Err)
  | msg (p : QName) (args : List Arg)
  | enum (p : QName) (value : Ast)
  | mapValue (a : Ast)
  | mapMsg (p : QName) (args : List Arg)
  | mapEnum (p : QName) (value : Ast)
  | validation (e : Err)
/-- `GRPCError`, `resolver/types.go` lines 287-296. -/
inductive Err where
  | mk (defs : List Def) (cond msg ignoreResp : Option Ast) (details : List Detail)
/-- `GRPCErrorDetail`, `resolver/types.go` lines 300-308; `texts` are the expressions of preconditions, bad requests
and localized messages. -/
inductive Detail where
  | mk (cond : Option Ast) (defs msgs : List Def) (values texts : List Ast)
end

/-- `lookupPackageNameMapFromMessageArguments`, `resolver/resolver.go` lines 705-714. -/
def argPkgs (known : List QName) (args : List Arg) : List QName :=
  args.flatMap fun a => celPkgsO known a.value ++ a.ty.pkgs

mutual
/-- One definition of `lookupPackageNameMapFromVariableDefinitionSet`, `resolver/resolver.go` lines 595-638. -/
def defPkgs (known : List QName) : Def → List QName
  | .mk _ e => exprPkgs known e
/-- The cases of `lookupPackageNameMapFromVariableDefinitionSet`, `resolver/resolver.go` lines 599-637. -/
def exprPkgs (known : List QName) : DExpr → List QName
  | .value a => celPkgs known a
  | .call svc req args _ errs => svc :: req :: argPkgs known args ++ errsPkgs known errs
  | .msg p args => p :: argPkgs known args
  | .enum p _ => [p]
  | .mapValue a => celPkgs known a
  | .mapMsg p args => p :: argPkgs known args
  | .mapEnum _ _ => []
  | .validation e => errPkgs known e
/-- `lookupPackageNameMapFromGRPCError`, `resolver/resolver.go` lines 642-675. -/
def errPkgs (known : List QName) : Err → List QName
  | .mk _ c m i ds => celPkgsO known c ++ celPkgsO known m ++ celPkgsO known i ++ detailsPkgs known ds
/-- The loop body for details, `resolver/resolver.go` lines 650-673. -/
def detailPkgs (known : List QName) : Detail → List QName
  | .mk c defs msgs vs ts =>
    celPkgsO known c ++ vs.flatMap (celPkgs known) ++ defsPkgs known msgs ++ defsPkgs known defs ++
      ts.flatMap (celPkgs known)
/-- `lookupPackageNameMapFromVariableDefinitionSet`, `resolver/resolver.go` lines 590-640. -/
def defsPkgs (known : List QName) : List Def → List QName
  | [] => []
  | d :: ds => defPkgs known d ++ defsPkgs known ds
def errsPkgs (known : List QName) : List Err → List QName
  | [] => []
  | e :: es => errPkgs known e ++ errsPkgs known es
def detailsPkgs (known : List QName) : List Detail → List QName
  | [] => []
  | d :: ds => detailPkgs known d ++ detailsPkgs known ds
end

/-! ## Files -/

/-- `FieldOneofRule`, `resolver/types.go` lines 381-386. -/
structure OneofRule where
  cond : Option Ast
  value : Option Ast
  defs : List Def

/-- A field: the packages of its options, its type, the packages of the messages of its aliases, its value and
its oneof rule (`resolver/types.go` lines 363-378). -/
structure Field where
  opts : List QName
  ty : Ty
  aliases : List QName
  value : Option Ast
  oneof : Option OneofRule

/-- A message: the packages of its options, the packages of its aliases and its definitions (`resolver/types.go`
lines 173-178), its fields, the packages of the aliases of the enums declared in it, and the messages declared in
it. -/
inductive Msg where
  | mk (opts aliases : List QName) (defs : List Def) (fields : List Field) (enums : List (List QName))
    (nested : List Msg)

/-- A method: the packages of its options, of its request and response, and of the message of the `response` option
(`resolver/types.go` lines 121-124). -/
structure Method where
  opts : List QName
  req : QName
  resp : QName
  fedResp : Option QName

/-- A service: the packages of its options, its methods, the types of its environment variables and its variables
(`resolver/types.go` lines 74-109). -/
structure Service where
  opts : List QName
  methods : List Method
  env : List Ty
  vars : List Def

/-- An import: the name and the package of the file, and whether it is in the `import` list of the
`grpc.federation.file` option. -/
structure Import where
  name : String
  pkg : QName
  byOption : Bool
  deriving DecidableEq

/-- A file: known packages, the packages of its other options, what it declares (enums as the packages of their
aliases), and its imports. -/
structure File where
  known : List QName
  opts : List QName
  services : List Service
  messages : List Msg
  enums : List (List QName)
  imports : List Import

mutual
/-- `lookupPackageNameMapUsedInProtoDefinitionFromMessage`, `resolver/resolver.go` lines 478-495. -/
def msgProtoPkgs : Msg → List QName
  | .mk _ _ _ fields _ nested => (fields.flatMap fun f => f.opts ++ f.ty.pkgs) ++ msgsProtoPkgs nested
def msgsProtoPkgs : List Msg → List QName
  | [] => []
  | m :: ms => msgProtoPkgs m ++ msgsProtoPkgs ms
end

/-- `lookupPackageNameMapUsedInProtoDefinitionFromFile`, `resolver/resolver.go` lines 449-476. -/
def protoPkgs (f : File) : List QName :=
  (f.services.flatMap fun s => s.opts ++ s.methods.flatMap fun m => m.opts ++ [m.req, m.resp]) ++
    msgsProtoPkgs f.messages

/-- The fields of `lookupPackageNameMapUsedInGRPCFederationDefinitionFromMessage`, `resolver/resolver.go` lines
553-570. -/
def fieldFedPkgs (known : List QName) (f : Field) : List QName :=
  f.aliases ++ celPkgsO known f.value ++ celPkgsO known (f.oneof.bind (·.value))

mutual
/-- `lookupPackageNameMapUsedInGRPCFederationDefinitionFromMessage`, `resolver/resolver.go` lines 544-577. -/
def msgFedPkgs (known : List QName) : Msg → List QName
  | .mk _ aliases defs fields _ nested =>
    aliases ++ defsPkgs known defs ++ fields.flatMap (fieldFedPkgs known) ++ msgsFedPkgs known nested
def msgsFedPkgs (known : List QName) : List Msg → List QName
  | [] => []
  | m :: ms => msgFedPkgs known m ++ msgsFedPkgs known ms
end

/-- `lookupPackageNameMapUsedInGRPCFederationDefinitionFromFile`, `resolver/resolver.go` lines 523-542, with
`lookupPackageNameMapUsedInGRPCFederationDefinitionFromEnum`, `resolver/resolver.go` lines 579-588. -/
def fedPkgs (f : File) : List QName :=
  (f.services.flatMap fun s => s.env.flatMap Ty.pkgs) ++ msgsFedPkgs f.known f.messages ++ f.enums.flatMap id

inductive Warning where
  | unused (name : String)
  | onlyFederation (name : String)
  deriving DecidableEq

/-- The loop body of `validateFileImport`, `resolver/resolver.go` lines 427-446. -/
def warnFor (f : File) (i : Import) : List Warning :=
  if i.byOption then
    if i.pkg ∈ fedPkgs f then [] else [.unused i.name]
  else if i.pkg ∈ protoPkgs f then []
  else if i.pkg ∈ fedPkgs f then [.onlyFederation i.name]
  else []

/-- `validateFileImport`, `resolver/resolver.go` lines 407-447. -/
def warnings (f : File) : List Warning := f.imports.flatMap (warnFor f)

end Verif.ImportWarn
