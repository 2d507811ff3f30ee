import Verif.ImportWarn.Model

/-! # What it means to use a package -/

namespace Verif.ImportWarn

/-- Places of a file at which a package may be used and which are special in one way or another. -/
inductive Place where
  /-- `if` of a definition -/
  | defIf
  /-- `if` of a field of a request -/
  | argIf
  /-- `retry.if` of a call -/
  | retryIf
  /-- `by` of an enum definition -/
  | enumBy
  /-- an enum in a map definition -/
  | mapEnum
  /-- definitions of an error -/
  | errorDefs
  /-- `if` of a oneof field -/
  | oneofIf
  /-- definitions of a oneof field -/
  | oneofDefs
  /-- variables of a service -/
  | serviceVars
  /-- the `response` option of a method -/
  | methodResponse
  /-- aliases of enums declared in messages -/
  | nestedEnum
  /-- within `all`, `exists`, `filter` and `map` of an expression -/
  | comprehension
  /-- within `(…)` of `(…).field` -/
  | operand
  deriving DecidableEq

/-- The name a chain of selections spells. -/
def qualified? : Ast → Option QName
  | .select e f => (qualified? e).map (· ++ [f])
  | .ident x => some [x]
  | _ => none

/-- The package of a qualified name is `p`: the longest known one that the name is in. -/
def InPackage (known : List QName) (p n : QName) : Prop :=
  p ∈ known ∧ p ≠ [] ∧ (∃ x xs, n = p ++ x :: xs) ∧
    ∀ q ∈ known, (∃ x xs, n = q ++ x :: xs) → q.length ≤ p.length

mutual
/-- The expression uses something of the package `p`, at places in `S`: a type, enum or value by its name, or a
function. -/
def Ast.Uses (S : Place → Prop) (known : List QName) (p : QName) : Ast → Prop
  | .lit => False
  | .ident _ => False
  | .select e f =>
    match qualified? e with
    | some n => InPackage known p (n ++ [f])
    | none => S .operand ∧ e.Uses S known p
  | .call _ args => UsesL S known p args
  | .member t f args =>
    (match qualified? t with
     | some n => InPackage known p (n ++ [f])
     | none => t.Uses S known p) ∨ UsesL S known p args
  | .list es => UsesL S known p es
  | .map ks vs => UsesL S known p ks ∨ UsesL S known p vs
  | .struct ty vals => InPackage known p ty ∨ UsesL S known p vals
  | .compr parts => S .comprehension ∧ UsesL S known p parts
def UsesL (S : Place → Prop) (known : List QName) (p : QName) : List Ast → Prop
  | [] => False
  | a :: as => a.Uses S known p ∨ UsesL S known p as
end

/-- A package occurs in a type. -/
def Ty.Has (P : QName → Prop) : Ty → Prop
  | .scalar => False
  | .pkg p => P p
  | .map k v => k.Has P ∨ v.Has P

/-- What to look for: the places, a condition on expressions and a condition on packages. -/
structure Query where
  S : Place → Prop
  E : Ast → Prop
  P : QName → Prop

def Query.EO (q : Query) (o : Option Ast) : Prop := ∃ a, o = some a ∧ q.E a

def Arg.Has (q : Query) (a : Arg) : Prop := q.EO a.value ∨ a.ty.Has q.P ∨ (q.S .argIf ∧ q.EO a.cond)

mutual
/-- A definition has an expression or a package that is looked for. -/
def Def.Has (q : Query) : Def → Prop
  | .mk c e => (q.S .defIf ∧ q.EO c) ∨ e.Has q
def DExpr.Has (q : Query) : DExpr → Prop
  | .value a => q.E a
  | .call svc req args r errs =>
    q.P svc ∨ q.P req ∨ (∃ a ∈ args, a.Has q) ∨ (q.S .retryIf ∧ q.EO r) ∨ errsHas q errs
  | .msg p args => q.P p ∨ ∃ a ∈ args, a.Has q
  | .enum p v => q.P p ∨ (q.S .enumBy ∧ q.E v)
  | .mapValue a => q.E a
  | .mapMsg p args => q.P p ∨ ∃ a ∈ args, a.Has q
  | .mapEnum p v => q.S .mapEnum ∧ (q.P p ∨ q.E v)
  | .validation e => e.Has q
def Err.Has (q : Query) : Err → Prop
  | .mk defs c m i ds => (q.S .errorDefs ∧ defsHas q defs) ∨ q.EO c ∨ q.EO m ∨ q.EO i ∨ detailsHas q ds
def Detail.Has (q : Query) : Detail → Prop
  | .mk c defs msgs vs ts =>
    q.EO c ∨ (∃ a ∈ vs, q.E a) ∨ defsHas q msgs ∨ defsHas q defs ∨ ∃ a ∈ ts, q.E a
def defsHas (q : Query) : List Def → Prop
  | [] => False
  | d :: ds => d.Has q ∨ defsHas q ds
def errsHas (q : Query) : List Err → Prop
  | [] => False
  | e :: es => e.Has q ∨ errsHas q es
def detailsHas (q : Query) : List Detail → Prop
  | [] => False
  | d :: ds => d.Has q ∨ detailsHas q ds
end

def Field.Has (q : Query) (f : Field) : Prop :=
  (∃ p ∈ f.aliases, q.P p) ∨ q.EO f.value ∨
    ∃ o, f.oneof = some o ∧ (q.EO o.value ∨ (q.S .oneofIf ∧ q.EO o.cond) ∨ (q.S .oneofDefs ∧ defsHas q o.defs))

mutual
def Msg.Has (q : Query) : Msg → Prop
  | .mk _ aliases defs fields enums nested =>
    (∃ p ∈ aliases, q.P p) ∨ defsHas q defs ∨ (∃ f ∈ fields, f.Has q) ∨
      (q.S .nestedEnum ∧ ∃ e ∈ enums, ∃ p ∈ e, q.P p) ∨ msgsHas q nested
def msgsHas (q : Query) : List Msg → Prop
  | [] => False
  | m :: ms => m.Has q ∨ msgsHas q ms
end

def Service.Has (q : Query) (s : Service) : Prop :=
  (∃ t ∈ s.env, t.Has q.P) ∨ (q.S .serviceVars ∧ defsHas q s.vars) ∨
    (q.S .methodResponse ∧ ∃ m ∈ s.methods, ∃ p, m.fedResp = some p ∧ q.P p)

/-- The options of the file have an expression or a package that is looked for. -/
def File.Has (q : Query) (f : File) : Prop :=
  (∃ s ∈ f.services, s.Has q) ∨ msgsHas q f.messages ∨ ∃ e ∈ f.enums, ∃ p ∈ e, q.P p

/-- The options of the file use something of the package, at places in `S` or at places that are not special. -/
def UsedByFederation (S : Place → Prop) (f : File) (p : QName) : Prop :=
  f.Has ⟨S, fun a => a.Uses S f.known p, (· = p)⟩

/-- No known package is around `p`. -/
def NoOuter (known : List QName) (p : QName) : Prop :=
  p ∈ known ∧ p ≠ [] ∧ ∀ q ∈ known, q ≠ [] → q <+: p → q = p

/-- No known package is within `p`. -/
def NoInner (known : List QName) (p : QName) : Prop := ∀ q ∈ known, p <+: q → q = p

/-! Names that look like packages. -/

mutual
/-- Every name of the expression that starts with the package is the name of something in it: the package itself is
not written alone, and fields are only selected from names. -/
def Ast.Clean (p : QName) : Ast → Prop
  | .lit => True
  | .ident x => [x] ≠ p
  | .select e f => ∃ n, qualified? e = some n ∧ n ++ [f] ≠ p
  | .call _ args => CleanL p args
  | .member t _ args => ((qualified? t).isSome = true ∨ t.Clean p) ∧ CleanL p args
  | .list es => CleanL p es
  | .map ks vs => CleanL p ks ∧ CleanL p vs
  | .struct ty vals => ty ≠ p ∧ CleanL p vals
  | .compr _ => True
def CleanL (p : QName) : List Ast → Prop
  | [] => True
  | a :: as => a.Clean p ∧ CleanL p as
end

/-- All expressions of the file are clean. -/
def CleanFile (f : File) (p : QName) : Prop :=
  ¬f.Has ⟨fun _ => True, fun a => ¬a.Clean p, fun _ => False⟩

/-! Use without options of this project. -/

mutual
/-- The declarations of a message use the package: options of fields and types; `S` tells whether the options of
the message count. -/
def Msg.ProtoUses (S : Prop) (p : QName) : Msg → Prop
  | .mk opts _ _ fields _ nested =>
    (S ∧ p ∈ opts) ∨ (∃ f ∈ fields, p ∈ f.opts ∨ f.ty.Has (· = p)) ∨ msgsProtoUse S p nested
def msgsProtoUse (S : Prop) (p : QName) : List Msg → Prop
  | [] => False
  | m :: ms => m.ProtoUses S p ∨ msgsProtoUse S p ms
end

/-- The declarations of the file use the package; `S` tells whether options of the file, of messages, enums, enum
values and oneofs count. -/
def UsedByProto (S : Prop) (f : File) (p : QName) : Prop :=
  (∃ s ∈ f.services, p ∈ s.opts ∨ ∃ m ∈ s.methods, p ∈ m.opts ∨ p = m.req ∨ p = m.resp) ∨
    msgsProtoUse S p f.messages ∨ (S ∧ p ∈ f.opts)

end Verif.ImportWarn
