import Verif.FindPos.Model

/-! # Specification: how a file is laid out, and tidy files -/

namespace Verif.FindPos

open SrcLoc

/-- The order of positions. -/
def Pos.le (a b : Pos) : Prop := a.line < b.line ∨ a.line = b.line ∧ a.col ≤ b.col

/-- A node lies in another one. -/
def Inside (span : Id → Span) (a b : Id) : Prop :=
  Pos.le (span b).start (span a).start ∧ Pos.le (span a).end (span b).end

/-- A value that is written in a value, or is that value. -/
inductive Part : Val → Val → Prop
  | refl (v : Val) : Part v v
  | field {i : Id} {fs : List (String × Val)} {e : String × Val} {w : Val} : e ∈ fs → Part e.2 w → Part (.msg i fs) w
  | elem {i : Id} {vs : List Val} {u w : Val} : u ∈ vs → Part u w → Part (.arr i vs) w

/-- Values lie in the values they are written in. -/
def ValLaid (span : Id → Span) (v : Val) : Prop := ∀ u w, Part v u → Part u w → Inside span w.id u.id

/-- The value of an option lies in it. -/
def OptLaid (span : Id → Span) (o : Opt) : Prop := Inside span o.val.id o.id ∧ ValLaid span o.val

/-- What is written in something lies in it. -/
structure Laid (span : Id → Span) (f : List Top) : Prop where
  msgs : ∀ n nested i body, message f n nested = some (i, body) → ∀ o ∈ options body, Inside span o.id i ∧ OptLaid span o
  values : ∀ n nested i body, message f n nested = some (i, body) → ∀ e, Decl.enum e ∈ body → ∀ v ∈ e.values, ∀ o ∈ v.opts,
    ValLaid span o.val
  svcs : ∀ s, Top.svc s ∈ f → ∀ o ∈ s.opts, Inside span o.id s.id ∧ OptLaid span o

/-- Every field of a literal is written once; repeated ones as a list. -/
def Once (v : Val) : Prop := ∀ i fs, Part v (.msg i fs) → (fs.map Prod.fst).Nodup

/-- There is at most one option of this name, and its fields are written once. -/
def OneOption (name : String) (os : List Opt) : Prop := (os.filter (·.named name)).length ≤ 1 ∧ ∀ o ∈ os, Once o.val

/-- The names of the messages of a message. -/
def msgNames (body : List Decl) : List String := body.filterMap fun | .msg _ n _ => some n | _ => none

/-- The names of the enums of a message. -/
def enumNames (body : List Decl) : List String := body.filterMap fun | .enum e => some e.name | _ => none

/-- What is not an option, message or enum. -/
def plain : Decl → Bool
  | .opt _ => false
  | .msg _ _ _ => false
  | .enum _ => false
  | _ => true

/-- An enum: different names of values, one option each, the options of the enum before the values. -/
structure TidyEnum (e : Enum) : Prop where
  values : (e.values.map EnumVal.name).Nodup
  option : OneOption "grpc.federation.enum" e.opts
  valueOptions : ∀ v ∈ e.values, OneOption "grpc.federation.enum_value" v.opts
  first : ∀ pre o post, e.decls = pre ++ .opt o :: post → ∀ v, EnumDecl.value v ∉ pre

/-- A message: different names, one option each, and no option, message or enum after a field. -/
structure TidyMsg (body : List Decl) : Prop where
  msgs : (msgNames body).Nodup
  enums : (enumNames body).Nodup
  fields : ((fields body).map Field.name).Nodup
  option : OneOption "grpc.federation.message" (options body)
  fieldOptions : ∀ g ∈ SrcLoc.fields body, OneOption "grpc.federation.field" g.opts
  enumsTidy : ∀ e, Decl.enum e ∈ body → TidyEnum e
  last : ∀ pre d post, body = pre ++ d :: post → SrcLoc.fields pre ≠ [] → plain d = true

/-- A service: different names of methods, one option each, and its options before its methods. -/
structure TidySvc (s : Service) : Prop where
  rpcs : (s.rpcs.map Rpc.name).Nodup
  methodOptions : ∀ r ∈ s.rpcs, OneOption "grpc.federation.method" r.opts
  first : ∀ pre o post, s.decls = pre ++ .opt o :: post → ∀ r, SvcDecl.rpc r ∉ pre

/-- A file with different names, whose imports are written once, and whose messages and services are tidy. -/
structure Tidy (f : List Top) : Prop where
  msgNames : (f.filterMap fun | .msg _ n _ => some n | _ => none).Nodup
  svcNames : (f.filterMap fun | .svc s => some s.name | _ => none).Nodup
  imports : ∀ pre i n post, f = pre ++ .import i n :: post → ∀ t ∈ pre, (∀ j, t ≠ .import j n) ∧
    ∀ o, t = .opt o → ∀ v ∈ importValues o, v.text? ≠ some n
  msgs : ∀ n nested i body, message f n nested = some (i, body) → TidyMsg body
  svcs : ∀ s, Top.svc s ∈ f → TidySvc s

end Verif.FindPos
