import Verif.FindPos.Model
import Verif.SrcLoc.Model

/-! # What is searched for at a position

`definitionWithLink` of `lsp/server/definition.go`: from the position of the cursor to the kind of definition that is
searched.  The searches themselves are in `Verif.Defn.Model`. -/

namespace Verif.Defn.Target

open SrcLoc FindPos

/-- The searches of `definitionWithLink`, `lsp/server/definition.go` lines 60-124. -/
inductive Search where
  | importFile
  | messageName
  /-- With the names of the message the field is in, which are tried as a prefix first, `lsp/server/definition.go` lines 80-101. -/
  | fieldType (inside : List String)
  | typeAlias
  | methodName
deriving DecidableEq

/-- `isImportNameDefinition`, `lsp/server/definition.go` lines 378-380. -/
def isImportName (l : Loc) : Bool := l.importName != []

/-- `isMessageNameDefinition`, `lsp/server/definition.go` lines 382-396.  Only the option of the outermost message is looked
at, and a location in a nested message has none there. -/
def isMessageName (l : Loc) : Bool :=
  match l.message with
  | some ⟨_, [], { option := some (.def _ (.message .name)), .. }⟩ => true
  | _ => false

/-- `isTypeAliasByEnum`, `lsp/server/definition.go` lines 429-442. -/
def isEnumAlias (e : EnumLoc) : Bool :=
  e.alias == some true || (match e.value with | some { option := some .alias, .. } => true | _ => false)

/-- `isTypeAliasByMessage`, `lsp/server/definition.go` lines 408-427.  The recursion into nested messages ends at the
innermost one, which has the parts. -/
def isMessageAlias (m : MsgLoc) : Bool :=
  (match m.parts.option with | some .alias => true | _ => false) ||
  (match m.parts.field with | some { option := some .alias, .. } => true | _ => false) ||
  (match m.parts.enum with | some e => isEnumAlias e | none => false)

/-- `isTypeAlias`, `lsp/server/definition.go` lines 398-406. -/
def isTypeAlias (l : Loc) : Bool :=
  (match l.message with | some m => isMessageAlias m | none => false) ||
  (match l.enum with | some e => isEnumAlias e | none => false)

/-- `isFieldType`, `lsp/server/definition.go` lines 444-457. -/
def isFieldType (m : MsgLoc) : Bool := match m.parts.field with | some g => g.type | none => false

/-- `isMethodNameDefinition`, `lsp/server/definition.go` lines 459-473.  As for the names of messages. -/
def isMethodName (l : Loc) : Bool :=
  match l.message with
  | some ⟨_, [], { option := some (.def _ (.call .method)), .. }⟩ => true
  | _ => false

/-- The cases of `definitionWithLink`, `lsp/server/definition.go` lines 60-125, in their order.  The names of the message for
a field type are all names from the outermost one inwards, `lsp/server/definition.go` lines 81-84. -/
def search (l : Loc) : Option Search :=
  if isImportName l then some .importFile
  else if isMessageName l then some .messageName
  else match l.message.filter isFieldType with
    | some m => some (.fieldType (m.name :: m.nested))
    | none => if isTypeAlias l then some .typeAlias else if isMethodName l then some .methodName else none

/-- `definitionWithLink`, `lsp/server/definition.go` lines 46-60: the location at the position (line and column
counted from one), its node, and the search that
is made for the text of the node.  Without a location or a node there is no search.  Not modelled: the file is read, parsed
and compiled before. -/
def target (span : Id → Span) (maps : Id → Bool) (f : List Top) (pos : Pos) : Option (Search × Id) :=
  match find span maps f pos with
  | none => none
  | some l =>
    match nodeInfo f l with
    | none => none
    | some id => (search l).map (·, id)

end Verif.Defn.Target
