import Verif.SrcLoc.Model

/-! # Specification of places in options -/

namespace Verif.SrcLoc

/-- A step into a message literal: a field, or an element of a repeated field. -/
inductive Step where
  | fld (name : String)
  | itm (name : String) (idx : Nat)

/-- What a part is in the source. -/
inductive Kind where
  | string | flag | message | any
deriving DecidableEq

/-- A value as it is expected: strings are one literal, flags an identifier. -/
def Kind.ok : Kind → Val → Bool
  | .string, .str _ _ => true
  | .flag, .ident _ => true
  | .message, .msg _ _ => true
  | .any, _ => true
  | _, _ => false

/-- The elements of a list, or a single element. -/
def Val.elems : Val → List Val
  | .arr _ vs => vs
  | v => [v]

/-- The elements of a repeated field: it may be written once as a list or several times. -/
def elems (fs : List (String × Val)) (name : String) : List Val :=
  (fs.filter fun e => e.1 = name).flatMap fun e => e.2.elems

/-- The messages among some values. -/
def lits (vs : List Val) : List Lit := vs.filterMap Val.lit?

/-- The value at the end of a path. -/
def at? : Val → List Step → Option Val
  | v, [] => some v
  | .msg _ fs, .fld n :: r =>
    match fs.find? fun e => e.1 = n with
    | some e => at? e.2 r
    | none => none
  | .msg _ fs, .itm n i :: r =>
    match (lits (elems fs n))[i]? with
    | some m => at? m.val r
    | none => none
  | _, _ :: _ => none

/-! ## Where the parts are -/

def ArgPart.path : ArgPart → List Step
  | .none => []
  | .name => [.fld "name"]
  | .by => [.fld "by"]
  | .inline => [.fld "inline"]
def ArgPart.kind : ArgPart → Kind
  | .none => .message
  | _ => .string

def MsgExprPart.path : MsgExprPart → List Step
  | .none => []
  | .name => [.fld "name"]
  | .args i p => .itm "args" i :: p.path
def MsgExprPart.kind : MsgExprPart → Kind
  | .none => .message
  | .name => .string
  | .args _ p => p.kind

def EnumExprPart.path : EnumExprPart → List Step
  | .none => []
  | .name => [.fld "name"]
  | .by => [.fld "by"]
def EnumExprPart.kind : EnumExprPart → Kind
  | .none => .message
  | _ => .string

def MapPart.path : MapPart → List Step
  | .none => []
  | .iteratorName => [.fld "iterator", .fld "name"]
  | .iteratorSource => [.fld "iterator", .fld "src"]
  | .by => [.fld "by"]
  | .message p => .fld "message" :: p.path
  | .enum p => .fld "enum" :: p.path
def MapPart.kind : MapPart → Kind
  | .none => .message
  | .iteratorName => .any
  | .iteratorSource => .any
  | .by => .string
  | .message p => p.kind
  | .enum p => p.kind

def RetryPart.path : RetryPart → List Step
  | .none => []
  | .if => [.fld "if"]
  | .interval => [.fld "constant", .fld "interval"]
  | .initialInterval => [.fld "exponential", .fld "initial_interval"]
  | .maxInterval => [.fld "exponential", .fld "max_interval"]
def RetryPart.kind : RetryPart → Kind
  | .none => .message
  | .if => .string
  | _ => .any

def RequestPart.path : RequestPart → List Step
  | .none => []
  | .field => [.fld "field"]
  | .by => [.fld "by"]
  | .if => [.fld "if"]
def RequestPart.kind : RequestPart → Kind
  | .none => .message
  | _ => .string

mutual
def DefPart.path : DefPart → List Step
  | .none => []
  | .name => [.fld "name"]
  | .if => [.fld "if"]
  | .by => [.fld "by"]
  | .map p => .fld "map" :: p.path
  | .call p => .fld "call" :: p.path
  | .message p => .fld "message" :: p.path
  | .enum p => .fld "enum" :: p.path
  | .validation p => .fld "validation" :: .fld "error" :: p.path
def CallPart.path : CallPart → List Step
  | .none => []
  | .method => [.fld "method"]
  | .timeout => [.fld "timeout"]
  | .retry p => .fld "retry" :: p.path
  | .request i p => .itm "request" i :: p.path
  | .error i p => .itm "error" i :: p.path
def ErrPart.path : ErrPart → List Step
  | .none => []
  | .if => [.fld "if"]
  | .message => [.fld "message"]
  | .ignore => [.fld "ignore"]
  | .ignoreAndResponse => [.fld "ignore_and_response"]
  | .def i p => .itm "def" i :: p.path
  | .detail i p => .itm "details" i :: p.path
def DetailPart.path : DetailPart → List Step
  | .none => []
  | .if => [.fld "if"]
  | .by => [.fld "by"]
  | .def i p => .itm "def" i :: p.path
  | .message i p => .itm "message" i :: p.path
  | .precondition i j f => [.itm "precondition_failure" i, .itm "violations" j, .fld f]
  | .badRequest i j f => [.itm "bad_request" i, .itm "field_violations" j, .fld f]
  | .localized i f => [.itm "localized_message" i, .fld f]
end

mutual
def DefPart.kind : DefPart → Kind
  | .none => .message
  | .name => .string
  | .if => .string
  | .by => .string
  | .map p => p.kind
  | .call p => p.kind
  | .message p => p.kind
  | .enum p => p.kind
  | .validation p => p.kind
def CallPart.kind : CallPart → Kind
  | .none => .message
  | .method => .string
  | .timeout => .any
  | .retry p => p.kind
  | .request _ p => p.kind
  | .error _ p => p.kind
def ErrPart.kind : ErrPart → Kind
  | .none => .message
  | .if => .string
  | .message => .string
  | .ignore => .flag
  | .ignoreAndResponse => .string
  | .def _ p => p.kind
  | .detail _ p => p.kind
def DetailPart.kind : DetailPart → Kind
  | .none => .message
  | .if => .string
  | .by => .string
  | .def _ p => p.kind
  | .message _ p => p.kind
  | .precondition _ _ _ => .string
  | .badRequest _ _ _ => .string
  | .localized _ _ => .string
end

def MsgOptPart.path : MsgOptPart → List Step
  | .none => []
  | .alias => [.fld "alias"]
  | .def i p => .itm "def" i :: p.path
def MsgOptPart.kind : MsgOptPart → Kind
  | .none => .message
  | .alias => .any
  | .def _ p => p.kind

def OneofPart.path : OneofPart → List Step
  | .none => []
  | .if => [.fld "if"]
  | .default => [.fld "default"]
  | .by => [.fld "by"]
  | .def i p => .itm "def" i :: p.path
def OneofPart.kind : OneofPart → Kind
  | .none => .message
  | .if => .string
  | .default => .any
  | .by => .string
  | .def _ p => p.kind

def FieldOptPart.path : FieldOptPart → List Step
  | .none => []
  | .by => [.fld "by"]
  | .alias => [.fld "alias"]
  | .oneof p => .fld "oneof" :: p.path
def FieldOptPart.kind : FieldOptPart → Kind
  | .none => .message
  | .by => .string
  | .alias => .string
  | .oneof p => p.kind

def AttrPart.path : AttrPart → List Step
  | .none => []
  | .name => [.fld "name"]
  | .value => [.fld "value"]
def AttrPart.kind : AttrPart → Kind
  | .none => .message
  | _ => .string

def ValueOptPart.path : ValueOptPart → List Step
  | .none => []
  | .alias => [.fld "alias"]
  | .default => [.fld "default"]
  | .attr i p => .itm "attr" i :: p.path
def ValueOptPart.kind : ValueOptPart → Kind
  | .none => .message
  | .alias => .any
  | .default => .any
  | .attr _ p => p.kind

def EnvVarPart.path : EnvVarPart → List Step
  | .none => []
  | .name => [.fld "name"]
  | .type => [.fld "type"]
def EnvVarPart.kind : EnvVarPart → Kind
  | .none => .message
  | .name => .string
  | .type => .message

def EnvPart.path : EnvPart → List Step
  | .none => []
  | .message => [.fld "message"]
  | .var i p => .itm "var" i :: p.path
def EnvPart.kind : EnvPart → Kind
  | .none => .message
  | .message => .string
  | .var _ p => p.kind

def SvcValidationPart.path : SvcValidationPart → List Step
  | .none => []
  | .if => [.fld "if"]
  | .message => [.fld "message"]
def SvcValidationPart.kind : SvcValidationPart → Kind
  | .none => .message
  | _ => .string

def SvcVarPart.path : SvcVarPart → List Step
  | .none => []
  | .name => [.fld "name"]
  | .if => [.fld "if"]
  | .by => [.fld "by"]
  | .map p => .fld "map" :: p.path
  | .message p => .fld "message" :: p.path
  | .enum p => .fld "enum" :: p.path
  | .validation p => .fld "validation" :: p.path
def SvcVarPart.kind : SvcVarPart → Kind
  | .none => .message
  | .name => .string
  | .if => .string
  | .by => .string
  | .map p => p.kind
  | .message p => p.kind
  | .enum p => p.kind
  | .validation p => p.kind

def SvcOptPart.path : SvcOptPart → List Step
  | .none => []
  | .env p => .fld "env" :: p.path
  | .var i p => .itm "var" i :: p.path
def SvcOptPart.kind : SvcOptPart → Kind
  | .none => .message
  | .env p => p.kind
  | .var _ p => p.kind

def MethodOptPart.path : MethodOptPart → List Step
  | .none => []
  | .timeout => [.fld "timeout"]
  | .response => [.fld "response"]
def MethodOptPart.kind : MethodOptPart → Kind
  | .none => .message
  | _ => .string

/-! ## Parts that are searched

All of them, except names of arguments, messages of errors, aliases of fields and types of environment variables, and
except the fields of an iterator. -/

def ArgPart.searched : ArgPart → Bool
  | .name => false
  | _ => true
def MsgExprPart.searched : MsgExprPart → Bool
  | .args _ p => p.searched
  | _ => true
def MapPart.searched : MapPart → Bool
  | .iteratorName => false
  | .iteratorSource => false
  | .message p => p.searched
  | _ => true

mutual
def DefPart.searched : DefPart → Bool
  | .map p => p.searched
  | .call p => p.searched
  | .message p => p.searched
  | .validation p => p.searched
  | .none => true
  | .name => true
  | .if => true
  | .by => true
  | .enum _ => true
def CallPart.searched : CallPart → Bool
  | .error _ p => p.searched
  | .none => true
  | .method => true
  | .timeout => true
  | .retry _ => true
  | .request _ _ => true
def ErrPart.searched : ErrPart → Bool
  | .message => false
  | .def _ p => p.searched
  | .detail _ p => p.searched
  | .none => true
  | .if => true
  | .ignore => true
  | .ignoreAndResponse => true
def DetailPart.searched : DetailPart → Bool
  | .def _ p => p.searched
  | .message _ p => p.searched
  | .none => true
  | .if => true
  | .by => true
  | .precondition _ _ _ => true
  | .badRequest _ _ _ => true
  | .localized _ _ => true
end

def MsgOptPart.searched : MsgOptPart → Bool
  | .def _ p => p.searched
  | _ => true
def OneofPart.searched : OneofPart → Bool
  | .def _ p => p.searched
  | _ => true
def FieldOptPart.searched : FieldOptPart → Bool
  | .alias => false
  | .oneof p => p.searched
  | _ => true
def EnvVarPart.searched : EnvVarPart → Bool
  | .type => false
  | _ => true
def EnvPart.searched : EnvPart → Bool
  | .var _ p => p.searched
  | _ => true
def SvcVarPart.searched : SvcVarPart → Bool
  | .map p => p.searched
  | .message p => p.searched
  | _ => true
def SvcOptPart.searched : SvcOptPart → Bool
  | .env p => p.searched
  | .var _ p => p.searched
  | _ => true

/-! ## The deepest element -/

/-- The end of a path, or the last message on it before a field that is not there.  Nothing, if there is no element
of an index although there are others, or a value is not of the expected kind. -/
def deepest (k : Kind) : Lit → List Step → Option Id
  | m, [] => if k.ok m.val then some m.id else none
  | m, .fld n :: r =>
    match m.fields.find? fun e => e.1 = n with
    | none => some m.id
    | some e =>
      match r with
      | [] => if k.ok e.2 then some e.2.id else none
      | s :: r =>
        match e.2.lit? with
        | some x => deepest k x (s :: r)
        | none => none
  | m, .itm n i :: r =>
    match lits (elems m.fields n) with
    | [] => some m.id
    | x :: xs =>
      match (x :: xs)[i]? with
      | some y => deepest k y r
      | none => none
termination_by _ path => path.length

end Verif.SrcLoc
