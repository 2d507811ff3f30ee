import Verif.FindPos.Spec

/-! # Specification: what is written where, and files in which different things are written in different places -/

namespace Verif.FindPos

open SrcLoc

/-- A position in a node. -/
def In (span : Id → Span) (i : Id) (pos : Pos) : Prop := Pos.le (span i).start pos ∧ Pos.le pos (span i).end

/-- Two nodes have no position in common. -/
def Disjoint (span : Id → Span) (a b : Id) : Prop := ∀ pos, ¬ (In span a pos ∧ In span b pos)

/-- The fields of literals and the elements of lists are written in different places. -/
def ValApart (span : Id → Span) (v : Val) : Prop :=
  (∀ i fs, Part v (.msg i fs) → fs.Pairwise fun a b => Disjoint span a.2.id b.2.id) ∧
  (∀ i vs, Part v (.arr i vs) → vs.Pairwise fun a b => Disjoint span a.id b.id)

/-! ## Kinds of values, as the schema of the options has them -/

def IsStr (v : Val) : Prop := ∃ i s, v = .str i s

/-- The fields of these names are strings. -/
def Strs (names : List String) (m : Lit) : Prop := ∀ e ∈ m.fields, e.1 ∈ names → IsStr e.2

/-- A message expression. -/
structure MsgKind (m : Lit) : Prop where
  name : Strs ["name"] m
  args : ∀ e ∈ m.fields, e.1 = "args" → ∀ x ∈ messages e.2, Strs ["name", "by", "inline"] x

/-- A call. -/
structure CallKind (m : Lit) : Prop where
  method : Strs ["method"] m
  request : ∀ e ∈ m.fields, e.1 = "request" → ∀ x ∈ messages e.2, Strs ["field", "by", "if"] x

/-- A definition. -/
structure DefKind (m : Lit) : Prop where
  strs : Strs ["name", "if", "by"] m
  call : ∀ e ∈ m.fields, e.1 = "call" → ∃ x, e.2.lit? = some x ∧ CallKind x
  message : ∀ e ∈ m.fields, e.1 = "message" → ∃ x, e.2.lit? = some x ∧ MsgKind x

/-- The option of a message. -/
def OptionKind (v : Val) : Prop := ∀ i fs, v = .msg i fs → ∀ e ∈ fs, e.1 = "def" → ∀ m ∈ messages e.2, DefKind m

/-! ## What is written -/

/-- The field of an argument, and the part of a location for it. -/
inductive ArgKey : String → ArgPart → Prop
  | name : ArgKey "name" .name
  | by : ArgKey "by" .by
  | inline : ArgKey "inline" .inline

/-- The field of a field of a request, and the part of a location for it. -/
inductive RequestKey : String → RequestPart → Prop
  | field : RequestKey "field" .field
  | by : RequestKey "by" .by
  | if : RequestKey "if" .if

/-- The strings of definition number `d` of a list of definitions, and the part of a location for each of them. -/
inductive DefText (m : Lit) : DefPart → Id → Prop
  | name {i : Id} {s : Text} : ("name", .str i s) ∈ m.fields → DefText m .name i
  | if {i : Id} {s : Text} : ("if", .str i s) ∈ m.fields → DefText m .if i
  | by {i : Id} {s : Text} : ("by", .str i s) ∈ m.fields → DefText m .by i
  | message {j i : Id} {fs : List (String × Val)} {s : Text} :
    ("message", .msg j fs) ∈ m.fields → ("name", .str i s) ∈ fs → DefText m (.message .name) i
  | args {j i : Id} {fs : List (String × Val)} {v : Val} {a : Nat} {x : Lit} {key : String} {p : ArgPart} {s : Text} :
    ("message", .msg j fs) ∈ m.fields → ("args", v) ∈ fs → (messages v)[a]? = some x → (key, .str i s) ∈ x.fields → ArgKey key p →
    DefText m (.message (.args a p)) i
  | method {j i : Id} {fs : List (String × Val)} {s : Text} :
    ("call", .msg j fs) ∈ m.fields → ("method", .str i s) ∈ fs → DefText m (.call .method) i
  | request {j i : Id} {fs : List (String × Val)} {v : Val} {a : Nat} {x : Lit} {key : String} {p : RequestPart} {s : Text} :
    ("call", .msg j fs) ∈ m.fields → ("request", v) ∈ fs → (messages v)[a]? = some x → (key, .str i s) ∈ x.fields →
    RequestKey key p → DefText m (.call (.request a p)) i

/-- The values of the option of a message, and the part of a location for each of them. -/
inductive OptionText (o : Opt) : MsgOptPart → Id → Prop
  | alias {j : Id} {fs : List (String × Val)} {v : Val} : o.val = .msg j fs → ("alias", v) ∈ fs → OptionText o .alias v.id
  | short {i : Id} {s : Text} : o.val = .str i s → o.ends "alias" = true → OptionText o .alias i
  | def {j i : Id} {fs : List (String × Val)} {v : Val} {d : Nat} {m : Lit} {p : DefPart} :
    o.val = .msg j fs → ("def", v) ∈ fs → (messages v)[d]? = some m → DefText m p i → OptionText o (.def d p) i

/-- The `by` of a field. -/
inductive ByText (o : Opt) : Id → Prop
  | by {j i : Id} {fs : List (String × Val)} {s : Text} : o.val = .msg j fs → ("by", .str i s) ∈ fs → ByText o i
  | short {i : Id} {s : Text} : o.val = .str i s → o.ends "by" = true → ByText o i

/-- The timeout of a method. -/
inductive TimeoutText (o : Opt) : Id → Prop
  | timeout {j i : Id} {fs : List (String × Val)} {s : Text} : o.val = .msg j fs → ("timeout", .str i s) ∈ fs → TimeoutText o i
  | short {i : Id} {s : Text} : o.val = .str i s → o.ends "timeout" = true → TimeoutText o i

/-! ## The parts of a file -/

/-- A value of an option, or another node. -/
inductive Root where
  | val (v : Val)
  | node (i : Id)

def Root.id : Root → Id
  | .val v => v.id
  | .node i => i

def optRoots (os : List Opt) : List Root := os.map fun o => .val o.val

/-- The options and the type of a field. -/
def fieldRoots (g : Field) : List Root := optRoots g.opts ++ [.node g.typeId]

def enumRoots (e : Enum) : List Root :=
  e.decls.flatMap fun | .opt o => [.val o.val] | .value v => optRoots v.opts

def oneofRoots (ds : List OneofDecl) : List Root :=
  ds.flatMap fun | .opt o => [.val o.val] | .field g => fieldRoots g

/-- The options of a message and of what is in it, and the types of its fields, in the order they are written. -/
def bodyRoots : List Decl → List Root
  | [] => []
  | .opt o :: ds => .val o.val :: bodyRoots ds
  | .field g :: ds => fieldRoots g ++ bodyRoots ds
  | .msg _ _ b :: ds => bodyRoots b ++ bodyRoots ds
  | .enum e :: ds => enumRoots e ++ bodyRoots ds
  | .oneof _ fs :: ds => oneofRoots fs ++ bodyRoots ds
  | .other :: ds => bodyRoots ds

def svcRoots (s : Service) : List Root :=
  s.decls.flatMap fun | .opt o => [.val o.val] | .rpc r => optRoots r.opts

def topRoots : Top → List Root
  | .import i _ => [.node i]
  | .msg _ _ b => bodyRoots b
  | .svc s => svcRoots s
  | _ => []

/-- The imports, options and types of a file, in the order they are written. -/
def roots (f : List Top) : List Root := f.flatMap topRoots

/-- In a file, different things are written in different places, and what is written in something lies in it. -/
structure Spread (span : Id → Span) (f : List Top) : Prop where
  apart : (roots f).Pairwise fun a b => Disjoint span a.id b.id
  vals : ∀ v, Root.val v ∈ roots f → ValLaid span v ∧ ValApart span v

end Verif.FindPos
