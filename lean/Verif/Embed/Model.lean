import Verif.Embed.Spec

/-!
# Texts of options in generated files

Models how the generator writes the strings of options into Go files: as raw strings, as quoted
strings, and in comments (`generator/templates/*.tmpl`, `resolver/format.go`).

The templates are those of `text/template`, which writes values without escaping
(`generator/code_generator.go` lines 3628-3641). Cache indexes (C32), types and the bodies of
setters are left out of the modelled templates.
-/

namespace Verif.Embed

open Lean in
/-- The characters of a literal. -/
macro:max "t!" s:str : term => do
  let cs := s.getString.toList.map fun c => (Syntax.mkCharLit c : TSyntax `term)
  `([$(cs.toArray),*])

/-! ## `%q` -/

/-- A hexadecimal digit, `strconv` of Go. -/
def hexDigit (d : Nat) : Char := if d < 10 then Char.ofNat (48 + d) else Char.ofNat (87 + d)

/-- `n` digits of a number. -/
def hex : Nat → Nat → Text
  | 0, _ => []
  | n + 1, v => hexDigit (v / 16 ^ n % 16) :: hex n v

/-- One character in `strconv.Quote` of Go; `isPrint` is `strconv.IsPrint`. -/
def quoteChar (isPrint : Char → Bool) (c : Char) : Text :=
  if c = '"' ∨ c = '\\' then ['\\', c]
  else if isPrint c then [c]
  else if c.toNat = 7 then t!"\\a"
  else if c.toNat = 8 then t!"\\b"
  else if c.toNat = 12 then t!"\\f"
  else if c.toNat = 10 then t!"\\n"
  else if c.toNat = 13 then t!"\\r"
  else if c.toNat = 9 then t!"\\t"
  else if c.toNat = 11 then t!"\\v"
  else if c.toNat < 32 ∨ c.toNat = 127 then '\\' :: 'x' :: hex 2 c.toNat
  else if c.toNat < 0x10000 then '\\' :: 'u' :: hex 4 c.toNat
  else '\\' :: 'U' :: hex 8 c.toNat

/-- `%q` of a string: `strconv.Quote` of Go. -/
def quote (isPrint : Char → Bool) (s : Text) : Text :=
  '"' :: (s.flatMap (quoteChar isPrint) ++ ['"'])

/-- `strings.Join`. -/
def join (sep : Text) : List Text → Text
  | [] => []
  | [a] => a
  | a :: b :: l => a ++ sep ++ join sep (b :: l)

/-! ## Definitions as text -/

/-- `indentFormat`, `resolver/format.go` lines 17-23, with two spaces for each level (line 9 and
`generator/code_generator.go` lines 3181-3184). -/
def indent (prefix_ : Text) (level : Nat) : Text := prefix_ ++ List.replicate (2 * level) ' '

/-- The parts of an argument that are shown, `resolver/format.go` lines 408-427: the value with
whether it is inlined. -/
structure Arg where
  name : Text
  value : Option (Bool × Text)
  cond : Option Text
deriving DecidableEq, Repr

/-- `(*Value).ProtoFormat`, `resolver/format.go` lines 429-440. -/
def valueFormat (ip : Char → Bool) : Bool × Text → Text
  | (true, e) => t!"inline: " ++ quote ip e
  | (false, e) => t!"by: " ++ quote ip e

/-- The elements of `(*Argument).ProtoFormat`, `resolver/format.go` lines 409-422. -/
def argElems (ip : Char → Bool) (request : Bool) (a : Arg) : List Text :=
  (if a.name ≠ [] then
    [(if request then t!"field: " else t!"name: ") ++ quote ip a.name] else []) ++
  (match a.value with
    | some v => [valueFormat ip v]
    | none => []) ++
  (match a.cond with
    | some e => [t!"if: " ++ quote ip e]
    | none => [])

/-- `(*Argument).ProtoFormat`, `resolver/format.go` lines 408-427. -/
def argFormat (ip : Char → Bool) (request : Bool) (a : Arg) : Text :=
  match argElems ip request a with
  | [] => []
  | l => t!"{ " ++ join t!", " l ++ t!" }"

/-- A block of lines, as all the functions of `resolver/format.go` write them: `head {`, the
elements, `}`. -/
def block (ind head : Text) (elems : List Text) : Text :=
  ind ++ head ++ t!" {\n" ++ join t!"\n" elems ++ t!"\n" ++ ind ++ t!"}"

/-- The list of requests or arguments, `resolver/format.go` lines 237-261 (`key` is `args`) and
289-315 (`key` is `request`). -/
def argsFormat (ip : Char → Bool) (request : Bool) (key : Text) (level : Nat) (args : List Arg) : Text :=
  match (args.map (argFormat ip request)).filter (fun t => t ≠ []) with
  | [] => []
  | [a] => indent [] level ++ key ++ t!" " ++ a
  | l => indent [] level ++ key ++ t!": [\n" ++
      join t!",\n" (l.map (indent [] (level + 1) ++ ·)) ++ t!"\n" ++ indent [] level ++ t!"]"

/-- The parts of a message definition that are shown, `resolver/format.go` lines 217-235: the name
and the arguments. -/
structure MsgFmt where
  name : Option Text
  args : List Arg
deriving DecidableEq, Repr

/-- A text as the only element, or none if it is empty. -/
def elemIf (t : Text) : List Text := if t = [] then [] else [t]

/-- `name: %q`, on a line of its own. -/
def line (ip : Char → Bool) (level : Nat) (key : Text) (s : Text) : Text :=
  indent [] level ++ key ++ t!": " ++ quote ip s

/-- Such a line for a value that may be absent. -/
def lineIf (ip : Char → Bool) (level : Nat) (key : Text) : Option Text → List Text
  | none => []
  | some s => [line ip level key s]

/-- `(*MessageExpr).ProtoFormat`, `resolver/format.go` lines 217-235. -/
def msgFormat (ip : Char → Bool) (level : Nat) (m : MsgFmt) : Text :=
  match lineIf ip (level + 1) t!"name" m.name ++
      elemIf (argsFormat ip false t!"args" (level + 1) m.args) with
  | [] => []
  | l => block (indent [] level) t!"message" l

/-- The names of the codes of `google.rpc.Code`. -/
def codeName : Fin 17 → Text
  | 0 => t!"OK"
  | 1 => t!"CANCELLED"
  | 2 => t!"UNKNOWN"
  | 3 => t!"INVALID_ARGUMENT"
  | 4 => t!"DEADLINE_EXCEEDED"
  | 5 => t!"NOT_FOUND"
  | 6 => t!"ALREADY_EXISTS"
  | 7 => t!"PERMISSION_DENIED"
  | 8 => t!"RESOURCE_EXHAUSTED"
  | 9 => t!"FAILED_PRECONDITION"
  | 10 => t!"ABORTED"
  | 11 => t!"OUT_OF_RANGE"
  | 12 => t!"UNIMPLEMENTED"
  | 13 => t!"INTERNAL"
  | 14 => t!"UNAVAILABLE"
  | 15 => t!"DATA_LOSS"
  | _ => t!"UNAUTHENTICATED"

/-- `%s` of a pointer to a code, `resolver/format.go` line 347. -/
def codeFormat : Option (Fin 17) → Text
  | some c => codeName c
  | none => t!"%!s(*code.Code=<nil>)"

/-- The parts of a detail that are shown, `resolver/format.go` lines 374-393: the condition and how
many entries of each sort there are. -/
structure DetailFmt where
  cond : Text
  messages : Nat
  preconditions : Nat
  badRequests : Nat
  localized : Nat
deriving DecidableEq, Repr

/-- `protoFormatDetails`, `resolver/format.go` lines 395-406; nothing if there are no entries. -/
def countFormat (level : Nat) (name : Text) : Nat → List Text
  | 0 => []
  | 1 => [indent [] level ++ name ++ t!" {...}"]
  | n => [indent [] level ++ name ++ t!": [\n" ++
      join t!",\n" (List.replicate n (indent [] (level + 1) ++ t!"{...}")) ++ t!"\n" ++
      indent [] level ++ t!"]"]

/-- `(*GRPCErrorDetail).ProtoFormat`, `resolver/format.go` lines 374-393. -/
def detailFormat (ip : Char → Bool) (level : Nat) (d : DetailFmt) : Text :=
  join t!"\n" (line ip (level + 1) t!"if" d.cond ::
    (countFormat (level + 1) t!"message" d.messages ++
     countFormat (level + 1) t!"precondition_failure" d.preconditions ++
     countFormat (level + 1) t!"bad_request" d.badRequests ++
     countFormat (level + 1) t!"localized_message" d.localized))

/-- `GRPCErrorDetails.ProtoFormat`, `resolver/format.go` lines 361-372, for a non-empty list. -/
def detailsFormat (ip : Char → Bool) (level : Nat) : List DetailFmt → Text
  | [d] => indent [] level ++ t!"details {\n" ++ detailFormat ip level d ++ t!"\n" ++
      indent [] level ++ t!"}"
  | l => indent [] level ++ t!"details: [\n" ++
      join t!",\n" (l.map fun d => indent [] (level + 1) ++ t!"{\n" ++
        detailFormat ip (level + 1) d ++ t!"\n" ++ indent [] (level + 1) ++ t!"}") ++ t!"\n" ++
      indent [] level ++ t!"]"

/-- The parts of an error that are shown, `resolver/format.go` lines 343-359. -/
structure ErrFmt where
  code : Option (Fin 17)
  cond : Option Text
  message : Option Text
  details : List DetailFmt
deriving DecidableEq, Repr

/-- `(*GRPCError).ProtoFormat`, `resolver/format.go` lines 343-359. -/
def errFormat (ip : Char → Bool) (level : Nat) (e : ErrFmt) : Text :=
  block (indent [] level) t!"error"
    ((indent [] (level + 1) ++ t!"code: " ++ codeFormat e.code) ::
     (lineIf ip (level + 1) t!"if" e.cond ++ lineIf ip (level + 1) t!"message" e.message ++
      (if e.details = [] then [] else [detailsFormat ip (level + 1) e.details])))

/-- The parts of the expression of a definition that are shown, `resolver/format.go` lines 122-141:
the name of the called method and the arguments; the message; the enum and its expression; the
iterator with its source, and `by` and `message` of a map; the name and error of a validation. -/
inductive Expr where
  | by_ (e : Text)
  | call (method : Option Text) (request : Option (List Arg))
  | message (m : MsgFmt)
  | enum (name by_ : Option Text)
  | map (iter : Option (Text × Option Text)) (by_ : Option Text) (msg : Option MsgFmt)
  | validation (name : Text) (err : Option ErrFmt)
  | none
deriving DecidableEq, Repr

/-- A block, or nothing if it has no elements. -/
def blockIf (ind head : Text) (l : List Text) : Text := if l = [] then [] else block ind head l

/-- `(*Iterator).ProtoFormat`, `resolver/format.go` lines 184-201. -/
def iterFormat (ip : Char → Bool) (level : Nat) (i : Text × Option Text) : Text :=
  blockIf (indent [] level) t!"iterator"
    ((if i.1 = [] then [] else [line ip (level + 1) t!"name" i.1]) ++
     lineIf ip (level + 1) t!"src" i.2)

/-- `(*VariableExpr).ProtoFormat` and the functions it calls, `resolver/format.go` lines 122-141,
143-163 (calls), 165-182 and 203-215 (maps), 263-280 (enums), 282-287 (methods), 324-341
(validations). -/
def exprFormat (ip : Char → Bool) (level : Nat) : Expr → Text
  | .by_ e => line ip level t!"by" e
  | .call m r => blockIf (indent [] level) t!"call"
      (lineIf ip (level + 1) t!"method" m ++
       (match r with
        | some args => elemIf (argsFormat ip true t!"request" (level + 1) args)
        | Option.none => []))
  | .message m => msgFormat ip level m
  | .enum n b => blockIf (indent [] level) t!"enum"
      (lineIf ip (level + 1) t!"name" n ++ lineIf ip (level + 1) t!"by" b)
  | .map i b m => blockIf (indent [] level) t!"map"
      ((match i with
        | some i => [iterFormat ip (level + 1) i]
        | Option.none => []) ++
       lineIf ip (level + 1) t!"by" b ++
       (match m with
        | some m => [msgFormat ip (level + 1) m]
        | Option.none => []))
  | .validation n e => block (indent [] level) t!"validation"
      ((if n = [] then [] else [line ip (level + 1) t!"name" n]) ++
       (match e with
        | some e => [errFormat ip (level + 1) e]
        | Option.none => []))
  | .none => []

/-- The parts of a definition that are shown, `resolver/format.go` lines 102-120. -/
structure DefFmt where
  name : Text
  cond : Option Text
  autobind : Bool
  expr : Expr
deriving DecidableEq, Repr

/-- `(*VariableDefinition).ProtoFormat`, `resolver/format.go` lines 102-120, as
`generator/code_generator.go` lines 3180-3186 call it. -/
def defFormat (ip : Char → Bool) (d : DefFmt) : Text :=
  block [] t!"def"
    ((if d.name = [] then [] else [line ip 1 t!"name" d.name]) ++
     lineIf ip 1 t!"if" d.cond ++
     (if d.autobind then [indent [] 1 ++ t!"autobind: true"] else []) ++
     [exprFormat ip 1 d.expr])

/-- The parts of the rule of a field that are shown, `resolver/format.go` lines 37-55. -/
inductive FieldFmt where
  | custom
  | value (v : Bool × Text)
  | alias_ (name : Text)
  | none
deriving DecidableEq, Repr

/-- `strings.Replace(value, ":", " =", 1)`, `resolver/format.go` line 47. -/
def replaceColon : Text → Text
  | [] => []
  | c :: cs => if c = ':' then ' ' :: '=' :: cs else c :: replaceColon cs

/-- `(*FieldRule).ProtoFormat`, `resolver/format.go` lines 37-55, with the prefix of
`generator/code_generator.go` lines 2531-2534. -/
def fieldFormat (ip : Char → Bool) : FieldFmt → Text
  | .custom => indent t!"// " 0 ++ t!"(grpc.federation.field).custom_resolver = true"
  | .value v => indent t!"// " 0 ++ t!"(grpc.federation.field)." ++ replaceColon (valueFormat ip v)
  | .alias_ n => indent t!"// " 0 ++ t!"(grpc.federation.field).alias = " ++ quote ip n
  | .none => []

/-- The comment at an argument, `generator/code_generator.go` lines 3454-3457. -/
def argComment (ip : Char → Bool) (request : Bool) (a : Arg) : Text :=
  match argFormat ip request a with
  | [] => []
  | t => t!"// " ++ t

/-- The comment at an autobound field, `generator/code_generator.go` line 2478. -/
def autobindComment (ip : Char → Bool) (name : Text) : Text :=
  t!"// { name: " ++ quote ip name ++ t!", autobind: true }"

/-! ## Files -/

/-- Parts of a generated file: text of a template, a string between backquotes, a string between
quotes, a comment up to the end of the line (with its `//`, or empty) and a comment between `/*` and `*/`. -/
inductive Piece where
  | code (t : Text)
  | raw (t : Text)
  | quoted (t : Text)
  | comment (t : Text)
  | block (t : Text)
deriving DecidableEq, Repr

/-- What is written for a part. `comment` is followed by a line break, as in
`generator/templates/eval.go.tmpl` lines 254-255 and 273-274. -/
def Piece.text : Piece → Text
  | .code t => t
  | .raw t => '`' :: (t ++ ['`'])
  | .quoted t => '"' :: (t ++ ['"'])
  | .comment t => t ++ ['\n']
  | .block t => '/' :: '*' :: (t ++ ['*', '/'])

/-- The file: `text/template` writes one after the other. -/
def render (ps : List Piece) : Text := ps.flatMap Piece.text

/-- The start of a definition, `generator/templates/eval.go.tmpl` lines 3-6, 74-86: the comment, the
condition, the name (`key`) and the expression of a definition with `by`; what other definitions have
instead is left out. -/
def declDef (ip : Char → Bool) (d : DefFmt) (key : Text) : List Piece :=
  [.block (t!"\n" ++ defFormat ip d ++ t!"\n"),
   .code (t!"\ndef_" ++ key ++ t!" := func(ctx context.Context) error {\n\treturn grpcfed.EvalDef(ctx, value, grpcfed.Def[any, *localValueType]{")] ++
  (match d.cond with
   | some e => [.code t!"\n\t\tIf: ", .raw e, .code t!","]
   | none => []) ++
  [.code t!"\n\t\tName:   ", .raw key, .code t!","] ++
  (match d.expr with
   | .by_ e => [.code t!"\n\t\tBy:     ", .raw e, .code t!","]
   | _ => []) ++
  [.code t!"\n\t})\n}"]

/-- An argument of a request, `generator/templates/eval.go.tmpl` lines 247-286. -/
def setArgument (ip : Char → Bool) (request : Bool) (a : Arg) : List Piece :=
  match a.value with
  | none => []
  | some (_, e) => match a.cond with
    | some c =>
      [.code t!"\n", .comment (argComment ip request a),
       .code t!"if err := grpcfed.If(ctx, &grpcfed.IfParam[*localValueType]{\n\tValue: value,\n\tExpr: ", .raw c,
       .code t!",\n\tBody: func(value *localValueType) error {\n\t\treturn grpcfed.SetCELValue(ctx, &grpcfed.SetCELValueParam[any]{\n\t\t\tValue: value,\n\t\t\tExpr: ", .raw e,
       .code t!",\n\t\t})\n\t},\n}); err != nil {\n\treturn nil, err\n}"]
    | none =>
      [.code t!"\n", .comment (argComment ip request a),
       .code t!"if err := grpcfed.SetCELValue(ctx, &grpcfed.SetCELValueParam[any]{\n\tValue: value,\n\tExpr: ", .raw e,
       .code t!",\n}); err != nil {\n\treturn nil, err\n}"]

/-! ## Details of errors -/

/-- A violation as written in `precondition_failure`, `google/rpc/error_details.proto`. -/
structure PreOpt where
  type : Text
  subject : Text
  description : Text
deriving DecidableEq, Repr

/-- A violation as written in `bad_request`. -/
structure BadOpt where
  field : Text
  description : Text
deriving DecidableEq, Repr

/-- A message as written in `localized_message`. -/
structure LocOpt where
  locale : Text
  message : Text
deriving DecidableEq, Repr

/-- An entry of `details` as written: the condition, the expressions of `by` and the three sorts of
standard details. Definitions and messages are modelled in `Defn` and `Exec`. -/
structure DetailOpt where
  cond : Text
  bys : List Text
  preconditions : List (List PreOpt)
  badRequests : List (List BadOpt)
  localized : List LocOpt
deriving DecidableEq, Repr

/-- The entry after resolving: expressions are kept as text. -/
structure PreRes where
  typ : Text
  subj : Text
  desc : Text

/-- See `PreRes`. -/
structure BadRes where
  fld : Text
  desc : Text

/-- See `PreRes`. -/
structure LocRes where
  loc : Text
  msg : Text

/-- See `PreRes`. -/
structure DetailRes where
  cond : Text
  bys : List Text
  preconditions : List (List PreRes)
  badRequests : List (List BadRes)
  localized : List LocRes

/-- `resolvePreconditionFailureViolations`, `resolver/resolver.go` lines 2848-2867. -/
def resolvePreViolations : List PreOpt → List PreRes
  | [] => []
  | v :: vs => { typ := v.type, subj := v.subject, desc := v.description } :: resolvePreViolations vs

/-- `resolveBadRequestFieldViolations`, `resolver/resolver.go` lines 2882-2898. -/
def resolveBadViolations : List BadOpt → List BadRes
  | [] => []
  | v :: vs => { fld := v.field, desc := v.description } :: resolveBadViolations vs

/-- `resolveLocalizedMessages`, `resolver/resolver.go` lines 2900-2914. -/
def resolveLocalized : List LocOpt → List LocRes
  | [] => []
  | v :: vs => { loc := v.locale, msg := v.message } :: resolveLocalized vs

/-- `resolveGRPCErrorIf`, `resolver/resolver.go` lines 2757-2762. -/
def resolveIf (e : Text) : Text := if e = [] then t!"true" else e

/-- `resolvePreconditionFailures` and `resolveBadRequests`, `resolver/resolver.go` lines 2835-2846,
2869-2880, for one entry. -/
def resolveDetail (d : DetailOpt) : DetailRes :=
  { cond := resolveIf d.cond, bys := d.bys, preconditions := d.preconditions.map resolvePreViolations,
    badRequests := d.badRequests.map resolveBadViolations, localized := resolveLocalized d.localized }

/-- `preconditionFailure`, `generator/templates/error_handler.go.tmpl` lines 261-276, with
`generator/code_generator.go` lines 3026-3035. -/
def preText (vs : List PreRes) : List Piece :=
  [.code t!"\nif detail := grpcfed.PreconditionFailure(ctx, value, []*grpcfed.PreconditionFailureViolation{"] ++
  vs.flatMap (fun v =>
    [.code t!"\n\t{\n\t\tType:    ", .raw v.typ, .code t!",\n\t\tSubject: ", .raw v.subj,
     .code t!",\n\t\tDesc:    ", .raw v.desc, .code t!",\n\t},"]) ++
  [.code t!"\n}); detail != nil {\n\tdetails = append(details, detail)\n}"]

/-- `badRequest`, `generator/templates/error_handler.go.tmpl` lines 278-291, with
`generator/code_generator.go` lines 3051-3060. -/
def badText (vs : List BadRes) : List Piece :=
  [.code t!"\nif detail := grpcfed.BadRequest(ctx, value, []*grpcfed.BadRequestFieldViolation{"] ++
  vs.flatMap (fun v =>
    [.code t!"\n\t{\n\t\tField: ", .raw v.fld, .code t!",\n\t\tDesc:  ", .raw v.desc, .code t!",\n\t},"]) ++
  [.code t!"\n}); detail != nil {\n\tdetails = append(details, detail)\n}"]

/-- `localizedMessage`, `generator/templates/error_handler.go.tmpl` lines 293-302. -/
def locText (m : LocRes) : List Piece :=
  [.code t!"\nif detail := grpcfed.LocalizedMessage(ctx, &grpcfed.LocalizedMessageParam{\n\tValue: value,\n\tLocale: ", .quoted m.loc,
   .code t!",\n\tMessage: ", .raw m.msg, .code t!",\n}); detail != nil {\n\tdetails = append(details, detail)\n}"]

/-- One expression of `by` in a detail, `generator/templates/error_handler.go.tmpl` lines 121-136.
The text of the log line is left out. -/
def byText (e : Text) : List Piece :=
  [.code t!"\n{\n\tdetail, err := grpcfed.EvalCEL(ctx, &grpcfed.EvalCELRequest{\n\t\tValue: value,\n\t\tExpr: ", .raw e,
   .code t!",\n\t})\n\tif detail != nil {\n\t\tdetails = append(details, detail.(grpcfed.ProtoMessage))\n\t}\n}"]

/-- The code of one detail, `generator/templates/error_handler.go.tmpl` lines 97-152, the same in
`generator/templates/validation.go.tmpl` lines 44-99, with `generator/code_generator.go` lines
2972-3014. -/
def detailText (d : DetailRes) : List Piece :=
  [.code t!"\nif err := grpcfed.If(ctx, &grpcfed.IfParam[*localValueType]{\n\tValue: value,\n\tExpr: ", .raw d.cond,
   .code t!",\n\tBody: func(value *localValueType) error {"] ++
  d.bys.flatMap byText ++ d.preconditions.flatMap preText ++ d.badRequests.flatMap badText ++
  d.localized.flatMap locText ++
  [.code t!"\n\t\treturn nil\n\t},\n}); err != nil {\n\treturn err\n}"]

end Verif.Embed
