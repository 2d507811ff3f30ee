/-!
# URLs in expressions

Models `grpc/federation/cel/url.go` lines 20-44, 70-106 and the functions in lines 108-528: how a URL of Go's package
`net/url` becomes a value of an expression and back at each call.  The functions of `net/url` are a parameter.
-/

namespace Verif.CelUrl

/-- `url.Userinfo`: made by `url.User` or by `url.UserPassword`. -/
inductive Userinfo where
  | user (name : String)
  | userPassword (name password : String)
deriving DecidableEq

def Userinfo.name : Userinfo → String
  | .user n => n
  | .userPassword n _ => n

/-- `Userinfo.Password`. -/
def Userinfo.password : Userinfo → String × Bool
  | .user _ => ("", false)
  | .userPassword _ p => (p, true)

/-- `url.URL`. -/
structure Url where
  scheme : String := ""
  opaq : String := ""
  user : Option Userinfo := none
  host : String := ""
  path : String := ""
  rawPath : String := ""
  omitHost : Bool := false
  forceQuery : Bool := false
  rawQuery : String := ""
  fragment : String := ""
  rawFragment : String := ""
deriving DecidableEq

/-- The message `Userinfo`. -/
structure UserMsg where
  username : String := ""
  password : String := ""
  passwordSet : Bool := false
deriving DecidableEq

/-- The message `URL`. -/
structure Msg where
  scheme : String := ""
  opaq : String := ""
  user : Option UserMsg := none
  host : String := ""
  path : String := ""
  rawPath : String := ""
  omitHost : Bool := false
  forceQuery : Bool := false
  rawQuery : String := ""
  fragment : String := ""
  rawFragment : String := ""
deriving DecidableEq

/-- `GoUserinfo`, `grpc/federation/cel/url.go` lines 36-44. -/
def UserMsg.goUserinfo (m : UserMsg) : Userinfo :=
  if m.passwordSet then .userPassword m.username m.password else .user m.username

/-- `GoURL`, `grpc/federation/cel/url.go` lines 20-34. -/
def Msg.goURL (m : Msg) : Url :=
  { scheme := m.scheme, opaq := m.opaq, user := m.user.map UserMsg.goUserinfo, host := m.host, path := m.path,
    rawPath := m.rawPath, omitHost := m.omitHost, forceQuery := m.forceQuery, rawQuery := m.rawQuery,
    fragment := m.fragment, rawFragment := m.rawFragment }

/-- `toUserinfoValue`, `grpc/federation/cel/url.go` lines 104-106. -/
def toUserinfoValue (name password : String) (set : Bool) : UserMsg := ⟨name, password, set⟩

/-- `toURLValue`, `grpc/federation/cel/url.go` lines 78-102. -/
def toURLValue (v : Url) : Msg :=
  { scheme := v.scheme, opaq := v.opaq, user := v.user.map (fun u => ⟨u.name, u.password.1, u.password.2⟩), host := v.host,
    path := v.path, rawPath := v.rawPath, omitHost := v.omitHost, forceQuery := v.forceQuery, rawQuery := v.rawQuery,
    fragment := v.fragment, rawFragment := v.rawFragment }

/-- The functions of `net/url` that give a URL.  `none` is an error. -/
structure Net where
  parse : String → Option Url
  parseRequestURI : String → Option Url
  unmarshal : String → Option Url
  /-- the method `Parse` -/
  parseIn : Url → String → Option Url
  resolveReference : Url → Url → Url
  /-- the method `JoinPath` -/
  joinPath : Url → List String → Url
  /-- the method `String` -/
  string : Url → String

/-- `url.JoinPath`: the base is parsed, and the joined URL written again. -/
def Net.joinPathOfString (N : Net) (base : String) (elems : List String) : Option String :=
  (N.parse base).map fun u => N.string (N.joinPath u elems)

/-- Expressions that give a URL; `lit` is a message of a variable or a literal. -/
inductive Expr where
  | lit (m : Msg)
  | parse (s : String)
  | parseRequestURI (s : String)
  | unmarshalBinary (e : Expr) (s : String)
  | parseIn (e : Expr) (s : String)
  | resolveReference (e r : Expr)
  | joinPath (e : Expr) (elems : List String)

/-- The functions, `grpc/federation/cel/url.go` lines 174-197 (parse, parseRequestURI), 334-356 (joinPath), 372-386 (parse),
432-444 (resolveReference) and 454-466 (unmarshalBinary). -/
def cel (N : Net) : Expr → Option Msg
  | .lit m => some m
  | .parse s => (N.parse s).map toURLValue
  | .parseRequestURI s => (N.parseRequestURI s).map toURLValue
  | .unmarshalBinary e s =>
    match cel N e with
    | none => none
    | some _ => (N.unmarshal s).map toURLValue
  | .parseIn e s =>
    match cel N e with
    | none => none
    | some m => (N.parseIn m.goURL s).map toURLValue
  | .resolveReference e r =>
    match cel N e, cel N r with
    | some m, some n => some (toURLValue (N.resolveReference m.goURL n.goURL))
    | _, _ => none
  | .joinPath e elems =>
    match cel N e with
    | none => none
    | some m =>
      match N.joinPathOfString m.goURL.path elems with
      | none => none
      | some p => some (toURLValue { m.goURL with path := p })

/-- Expressions that give the user of a URL. -/
inductive UExpr where
  | lit (m : UserMsg)
  | user (name : String)
  | userPassword (name password : String)
  | userinfo (e : Expr)

/-- `grpc/federation/cel/url.go` lines 469-484 (user, userPassword) and 216-225 (userinfo): the methods of `url.Userinfo` give
empty texts for a URL without user. -/
def celUser (N : Net) : UExpr → Option UserMsg
  | .lit m => some m
  | .user name => some (toUserinfoValue name "" false)
  | .userPassword name password => some (toUserinfoValue name password true)
  | .userinfo e =>
    match cel N e with
    | none => none
    | some m =>
      match m.goURL.user with
      | none => some (toUserinfoValue "" "" false)
      | some u => some (toUserinfoValue u.name u.password.1 u.password.2)

/-- `host`, `string`, `query` and all other functions that tell something about a URL, for example
`grpc/federation/cel/url.go` lines 198-206 and 445-453. -/
def reading {α : Type} (f : Url → α) (m : Msg) : α := f m.goURL

/-- `username`, `password`, `passwordSet` and `string`, `grpc/federation/cel/url.go` lines 485-522. -/
def userReading {α : Type} (f : Userinfo → α) (m : UserMsg) : α := f m.goUserinfo

end Verif.CelUrl
