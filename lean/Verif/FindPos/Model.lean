import Verif.SrcLoc.Props2

/-!
# From a position in the source to a location

Models `FindLocationByPos`, `source/file.go` lines 114-927: how the language server finds what is written at a position, for
completion (`lsp/server/completion.go` line 93) and for the search of definitions (`lsp/server/definition.go` line 47).

Syntax trees and locations are those of `SrcLoc`. `findContext` (`source/file.go` lines 114-199) is a record that is passed down, in
parts copied (`child`), in parts changed; here the parts that can be set are arguments: the path of messages, the name of the
field, enum value or method that was visited before, and what was found. `maps` says which fields are written as maps, they are not
searched (`source/file.go` line 271).
-/

namespace Verif.FindPos

open SrcLoc

/-- Line and column. -/
structure Pos where
  line : Nat
  col : Nat
deriving DecidableEq, Repr

/-- Where a node starts and ends. -/
structure Span where
  start : Pos
  «end» : Pos

/-- `containsPos`, `source/file.go` lines 906-927. -/
def contains (s : Span) (pos : Pos) : Bool :=
  if s.start.line > pos.line then false
  else if s.start.line = pos.line ∧ s.start.col > pos.col then false
  else if s.end.line < pos.line then false
  else if s.end.line = pos.line ∧ s.end.col < pos.col then false
  else true

/-! Loops over fields are written with steps: nothing to go on, `some none` to give up, `some (some x)` for what is found. The
first argument says which nodes contain the position. -/

/-- A value that has to be a string, for example `source/file.go` lines 521-531. -/
def str {α : Type} (at_ : Id → Bool) (v : Val) (x : α) : Option (Option α) :=
  match v with
  | .str i _ => if at_ i then some (some x) else none
  | _ => some none

/-- What is found in a value goes out of the loop; else it goes on. -/
def found {α : Type} : Option α → Option (Option α)
  | some x => some (some x)
  | none => none

/-- A value that has to be a message literal, for example `source/file.go` lines 556-563. -/
def lit {α : Type} (v : Val) (k : Lit → Option α) : Option (Option α) :=
  match v.lit? with
  | some m => found (k m)
  | none => some none

/-! ## Definitions -/

/-- A field of an argument, `source/file.go` lines 614-668. -/
def argStep (at_ : Id → Bool) (i : Nat) (e : String × Val) : Option (Option (Nat × ArgPart)) :=
  if e.1 = "name" then str at_ e.2 (i, .name)
  else if e.1 = "by" then str at_ e.2 (i, .by)
  else if e.1 = "inline" then str at_ e.2 (i, .inline)
  else none

/-- `findMessageArgumentByPos`, `source/file.go` lines 612-672. -/
def findArgs (at_ : Id → Bool) (list : List Lit) : Option (Nat × ArgPart) :=
  (list.zipIdx.findSome? fun x => x.1.fields.findSome? (argStep at_ x.2)).join

/-- A field of a message expression, `source/file.go` lines 585-605. -/
def messageStep (at_ : Id → Bool) (d : Nat) (e : String × Val) : Option (Option MsgOptPart) :=
  if e.1 = "name" then str at_ e.2 (.def d (.message .name))
  else if e.1 = "args" then found ((findArgs at_ (messages e.2)).map fun x => .def d (.message (.args x.1 x.2)))
  else none

/-- `findMessageExprByPos`, `source/file.go` lines 584-610; without a definition if only the literal contains the position. -/
def findMessageExpr (at_ : Id → Bool) (d : Nat) (m : Lit) : Option MsgOptPart :=
  match m.fields.findSome? (messageStep at_ d) with
  | some r => r
  | none => if at_ m.id then some .none else none

/-- A field of a field of a request, `source/file.go` lines 708-763. -/
def requestStep (at_ : Id → Bool) (i : Nat) (e : String × Val) : Option (Option (Nat × RequestPart)) :=
  if e.1 = "field" then str at_ e.2 (i, .field)
  else if e.1 = "by" then str at_ e.2 (i, .by)
  else if e.1 = "if" then str at_ e.2 (i, .if)
  else none

/-- A field of a request, `source/file.go` lines 707-775. -/
def requestLit (at_ : Id → Bool) (x : Lit × Nat) : Option (Option (Nat × RequestPart)) :=
  match x.1.fields.findSome? (requestStep at_ x.2) with
  | some r => some r
  | none => if at_ x.1.id then some (some (x.2, .none)) else none

/-- `findMethodRequestByPos`, `source/file.go` lines 706-777. -/
def findRequest (at_ : Id → Bool) (list : List Lit) : Option (Nat × RequestPart) := (list.zipIdx.findSome? (requestLit at_)).join

/-- A field of a call, `source/file.go` lines 675-695. -/
def callStep (at_ : Id → Bool) (d : Nat) (e : String × Val) : Option (Option MsgOptPart) :=
  if e.1 = "method" then str at_ e.2 (.def d (.call .method))
  else if e.1 = "request" then found ((findRequest at_ (messages e.2)).map fun x => .def d (.call (.request x.1 x.2)))
  else none

/-- `findCallExprByPos`, `source/file.go` lines 674-704. -/
def findCall (at_ : Id → Bool) (d : Nat) (m : Lit) : Option MsgOptPart :=
  match m.fields.findSome? (callStep at_ d) with
  | some r => r
  | none => if at_ m.id then some (.def d (.call .none)) else none

/-- A field of a definition, `source/file.go` lines 517-573. -/
def defStep (at_ : Id → Bool) (d : Nat) (e : String × Val) : Option (Option MsgOptPart) :=
  if e.1 = "name" then str at_ e.2 (.def d .name)
  else if e.1 = "if" then str at_ e.2 (.def d .if)
  else if e.1 = "by" then str at_ e.2 (.def d .by)
  else if e.1 = "call" then lit e.2 (findCall at_ d)
  else if e.1 = "message" then lit e.2 (findMessageExpr at_ d)
  else none

/-- `findDefByPos`, `source/file.go` lines 515-582: if nothing is found, only the first literal is asked. -/
def findDef (at_ : Id → Bool) (list : List Lit) : Option MsgOptPart :=
  match list.zipIdx.findSome? fun x => x.1.fields.findSome? (defStep at_ x.2) with
  | some r => r
  | none =>
    match list with
    | [] => none
    | m :: _ => if at_ m.id then some .none else none

/-! ## Messages -/

/-- A field of the option of a message, `source/file.go` lines 469-482: each field `def` is searched on its own. -/
def optionStep (at_ : Id → Bool) (e : String × Val) : Option MsgOptPart :=
  if e.1 = "alias" then (if at_ e.2.id then some .alias else none)
  else if e.1 = "def" then findDef at_ (messages e.2)
  else none

/-- `findMessageOptionByPos`, `source/file.go` lines 465-495: the part of the option, or none for the message. -/
def findMessageOption (at_ : Id → Bool) (o : Opt) : Option (Option MsgOptPart) :=
  match o.val with
  | .msg i fs =>
    match fs.findSome? (optionStep at_) with
    | some p => some (some p)
    | none => if at_ i then some (some .none) else none
  | .str i _ =>
    if o.ends "alias" && at_ i then some (some .alias)
    else if at_ i then some none else none
  | v => if at_ v.id then some none else none

/-- `findFieldOptionByPos`, `source/file.go` lines 437-463. -/
def findFieldOption (at_ : Id → Bool) (o : Opt) : Option FieldOptPart :=
  match o.val with
  | .str i _ => if o.ends "by" && at_ i then some .by else none
  | .msg _ fs => (fs.findSome? fun e => if e.1 = "by" then str at_ e.2 FieldOptPart.by else none).join
  | _ => none

/-- `findFieldByPos`, `source/file.go` lines 416-435. -/
def findField (at_ : Id → Bool) (f : Field) : Option FieldLoc :=
  match (f.opts.filter (·.named "grpc.federation.field")).findSome? (findFieldOption at_) with
  | some p => some { name := f.name, option := some p }
  | none => if at_ f.typeId then some { name := f.name, type := true } else none

/-- `findOneofByPos`, `source/file.go` lines 401-414. -/
def findOneof (at_ : Id → Bool) (ds : List OneofDecl) : Option FieldLoc :=
  ds.findSome? fun | .field f => findField at_ f | .opt _ => none

/-- The field that is set after a oneof. -/
def lastOf (k : Option String) (ds : List OneofDecl) : Option String :=
  ds.foldl (fun k d => match d with | .field f => some f.name | .opt _ => k) k

/-! ## Enums -/

/-- `findEnumOptionByPos`, `source/file.go` lines 297-325. -/
def findEnumOption (at_ : Id → Bool) (o : Opt) : Bool :=
  match o.val with
  | .msg _ fs => (fs.findSome? fun e => if e.1 = "alias" then str at_ e.2 () else none).join.isSome
  | .str i _ => o.ends "alias" && at_ i
  | _ => false

/-- A field of the option of an enum value, `source/file.go` lines 345-383. -/
def valueStep (at_ : Id → Bool) (e : String × Val) : Option (Option ValueOptPart) :=
  if e.1 = "alias" then
    match e.2 with
    | .str i _ => if at_ i then some (some .alias) else none
    | .arr _ vs => if vs.any (fun | .str i _ => at_ i | _ => false) then some (some .alias) else none
    | _ => none
  else if e.1 = "default" then str at_ e.2 .default
  else none

/-- `findEnumValueOptionByPos`, `source/file.go` lines 342-399. -/
def findValueOption (at_ : Id → Bool) (o : Opt) : Option ValueOptPart :=
  match o.val with
  | .msg _ fs => (fs.findSome? (valueStep at_)).join
  | .str i _ =>
    if o.ends "alias" && at_ i then some .alias
    else if o.ends "default" && at_ i then some .default
    else none
  | _ => none

/-- `findEnumByPos` and `findEnumValueByPos`, `source/file.go` lines 277-295 and 327-340; `k` is the value before. -/
def findEnum (at_ : Id → Bool) (name : String) : Option String → List EnumDecl → Option EnumLoc
  | _, [] => none
  | k, .opt o :: ds =>
    if o.named "grpc.federation.enum" && findEnumOption at_ o then
      some { name := name, alias := some true, value := k.map fun n => { name := n } }
    else findEnum at_ name k ds
  | _, .value v :: ds =>
    match (v.opts.filter (·.named "grpc.federation.enum_value")).findSome? (findValueOption at_) with
    | some p => some { name := name, value := some { name := v.name, option := some p } }
    | none => findEnum at_ name (some v.name) ds

/-- What is set in the message of a path, `buildLocation`, `source/file.go` lines 153-199. -/
def inMsg (path : String × List String) (parts : MsgParts) : Loc := { message := some ⟨path.1, path.2, parts⟩ }

/-- The body of `findMessageByPos`, `source/file.go` lines 234-275; `k` is the field before, also of an outer message. -/
def findBody (at_ : Id → Bool) (maps : Id → Bool) : (path : String × List String) → (k : Option String) → List Decl → Option Loc
  | _, _, [] => none
  | path, k, .opt o :: ds =>
    match if o.named "grpc.federation.message" then findMessageOption at_ o else none with
    | some p => some (inMsg path { option := p, field := k.map fun n => { name := n } })
    | none => findBody at_ maps path k ds
  | path, k, .field f :: ds =>
    if maps f.id then findBody at_ maps path k ds
    else
      match findField at_ f with
      | some l => some (inMsg path { field := some l })
      | none => findBody at_ maps path (some f.name) ds
  | path, k, .msg _ n body :: ds =>
    match findBody at_ maps (path.1, path.2 ++ [n]) k body with
    | some l => some l
    | none => findBody at_ maps path k ds
  | path, k, .enum e :: ds =>
    match findEnum at_ e.name none e.decls with
    | some l => some (inMsg path { enum := some l, field := k.map fun n => { name := n } })
    | none => findBody at_ maps path k ds
  | path, k, .oneof _ fs :: ds =>
    match findOneof at_ fs with
    | some l => some (inMsg path { field := some l })
    | none => findBody at_ maps path (lastOf k fs) ds
  | path, k, .other :: ds => findBody at_ maps path k ds

/-! ## Services -/

/-- `findEnvVarByPos`, `source/file.go` lines 846-860. -/
def findEnvVar (at_ : Id → Bool) (m : Lit) : Bool := m.fields.any (fun e => e.1 = "name" && at_ e.2.id) || at_ m.id

/-- A field of the environment, `source/file.go` lines 823-839. -/
def envStep (at_ : Id → Bool) (e : String × Val) : Option Bool :=
  if e.1 = "message" then (if at_ e.2.id then some true else none)
  else if e.1 = "var" then
    match e.2.lit? with
    | some m => if findEnvVar at_ m then some true else none
    | none => some false
  else none

/-- `findEnvByPos`, `source/file.go` lines 822-844. -/
def findEnv (at_ : Id → Bool) (m : Lit) : Bool :=
  match m.fields.findSome? (envStep at_) with
  | some r => r
  | none => at_ m.id

/-- A field of the option of a service, `source/file.go` lines 802-814. -/
def svcOptStep (at_ : Id → Bool) (e : String × Val) : Option Bool :=
  if e.1 = "env" then
    match e.2.lit? with
    | some m => if findEnv at_ m then some true else none
    | none => some false
  else none

/-- `findServiceOptionByPos`, `source/file.go` lines 799-820: the location has no part for the option. -/
def findSvcOption (at_ : Id → Bool) (o : Opt) : Bool :=
  match o.val with
  | .msg i fs =>
    match fs.findSome? (svcOptStep at_) with
    | some r => r
    | none => at_ i
  | v => at_ v.id

/-- `findMethodOptionByPos`, `source/file.go` lines 878-904: whether the position is in the timeout. -/
def findMethodOption (at_ : Id → Bool) (o : Opt) : Bool :=
  match o.val with
  | .str i _ => o.ends "timeout" && at_ i
  | .msg _ fs => (fs.findSome? fun e => if e.1 = "timeout" then str at_ e.2 () else none).join.isSome
  | _ => false

/-- `findServiceByPos` and `findMethodByPos`, `source/file.go` lines 779-797 and 862-876; `k` is the method before. -/
def findSvc (at_ : Id → Bool) (name : String) : Option String → List SvcDecl → Option SvcLoc
  | _, [] => none
  | k, .opt o :: ds =>
    if o.named "grpc.federation.service" && findSvcOption at_ o then some { name := name, method := k.map fun n => { name := n } }
    else findSvc at_ name k ds
  | _, .rpc r :: ds =>
    if (r.opts.filter (·.named "grpc.federation.method")).any (findMethodOption at_) then
      some { name := name, method := some { name := r.name, option := some .timeout } }
    else findSvc at_ name (some r.name) ds

/-! ## Files -/

/-- A declaration of a file, `source/file.go` lines 204-220 and 224-232; enums are not searched. -/
def findTop (at_ : Id → Bool) (maps : Id → Bool) : Top → Option Loc
  | .import i n => if at_ i then some { importName := n } else none
  | .msg _ n body => findBody at_ maps (n, []) none body
  | .svc s => (findSvc at_ s.name none s.decls).map fun l => { service := some l }
  | _ => none

/-- `FindLocationByPos`, `source/file.go` lines 201-222. -/
def find (span : Id → Span) (maps : Id → Bool) (f : List Top) (pos : Pos) : Option Loc :=
  f.findSome? (findTop (fun i => contains (span i) pos) maps)

end Verif.FindPos
