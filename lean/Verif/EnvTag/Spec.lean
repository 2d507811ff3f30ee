import Verif.Embed.Spec

/-!
# What an environment variable should be

The comments of `EnvVarOption` in `grpc/federation/federation.pb.go` lines 988-1005 as a definition.
-/

namespace Verif.EnvTag

open Verif.Embed (Text)

/-- The option of a variable. Strings that are not given are empty. -/
structure VarOpt where
  alternate : Text
  fallback : Text
  required : Bool
  ignored : Bool
deriving DecidableEq, Repr

/-- No option. -/
def VarOpt.none : VarOpt := ⟨[], [], false, false⟩

/-- Capital letters. (Only those of ASCII: names of variables have no others.) -/
def upper (t : Text) : Text := t.map Char.toUpper

/-- What happens to a variable when the server starts: it keeps its zero value, the server does not start, or it gets the
value of a text. -/
inductive Outcome where
  | keep
  | missing
  | set (t : Text)
deriving DecidableEq, Repr

/-- The name in the environment: the alternate name, or the name in capital letters. -/
def keyName (name : Text) (o : VarOpt) : Text := if o.alternate = [] then upper name else o.alternate

/-- What should happen: nothing if the variable is ignored; the value in the environment if there is one; otherwise an error if
it is required; otherwise the default if there is one. -/
def want (name : Text) (o : VarOpt) (env : Text → Option Text) : Outcome :=
  if o.ignored then .keep
  else match env (keyName name o) with
    | some v => .set v
    | none => if o.required then .missing else if o.fallback = [] then .keep else .set o.fallback

/-- A variable for the server: its name and option, its Go name, and how a text is turned into a value of its type (`none` is
an error). -/
structure Decl (V : Type) where
  name : Text
  goName : Text
  option : Option VarOpt
  parse : Text → Option V

/-- The values that the variables should have, `none` being the zero value: those of the texts, in order. -/
inductive Values {V : Type} (env : Text → Option Text) : List (Decl V) → List (Option V) → Prop
  | nil : Values env [] []
  | keep {d : Decl V} {ds : List (Decl V)} {vs : List (Option V)} :
      want d.name (d.option.getD .none) env = .keep → Values env ds vs → Values env (d :: ds) (none :: vs)
  | set {d : Decl V} {ds : List (Decl V)} {vs : List (Option V)} {t : Text} {v : V} :
      want d.name (d.option.getD .none) env = .set t → d.parse t = some v → Values env ds vs →
      Values env (d :: ds) (some v :: vs)

end Verif.EnvTag
