import Verif.GenRefs.Model
import Verif.AllGraph.Spec

/-!
# What the generated code of a service refers to

A generated message resolver function contains the code of all definitions of the message, of the
definitions inside their error entries, and so on (`eval.go.tmpl` lines 1-176 and 214-246,
`error_handler.go.tmpl` lines 34-152, `validation.go.tmpl` lines 5-100, `server.go.tmpl` lines 563
and 741).
-/

namespace Verif.GenRefs

/-- `d` is one of the definitions, or one inside the error entries of one of them, at any depth. -/
inductive Inside : Def → List Def → Prop where
  | here {d ds} : d ∈ ds → Inside d ds
  | call {d ds s k h} : Def.call s k h ∈ ds → Inside d h → Inside d ds
  | validation {d ds h} : Def.validation h ∈ ds → Inside d h → Inside d ds

/-- The definition `d` is part of the code of message `m`. -/
def CodeOf (msgs : List Msg) (m : Nat) (d : Def) : Prop :=
  Inside d ((getMsg msgs m).defs ++ (getMsg msgs m).oneof)

/-- The definition resolves message `m`. -/
def Resolves (d : Def) (m : Nat) : Prop := d = .message m ∨ d = .map m

/-- The resolver function of a message is called by a method (`server.go.tmpl` lines 486-530 with
`ResolverName`, `generator/code_generator.go` lines 1675-1682), by a service variable (`server.go.tmpl` lines 446-451)
or by the code of a generated resolver function (`Caller`, `generator/code_generator.go` lines
2839-2844, for a message that has rules). -/
inductive CallsResolver (msgs : List Msg) (s : Service) : Nat → Prop where
  | method {mtd} : mtd ∈ s.methods → CallsResolver msgs s mtd.federationResponse
  | var {m} : m ∈ s.vars → CallsResolver msgs s m
  | inside {m d t} : m ∈ resolvers msgs s → CodeOf msgs m d → Resolves d t → CallsResolver msgs s t

/-- The client of a service is used: `Caller`, `generator/code_generator.go` lines 2834-2838. -/
def UsesClient (msgs : List Msg) (s : Service) (c : Nat) : Prop :=
  ∃ m ∈ resolvers msgs s, ∃ k h, CodeOf msgs m (.call c k h)

/-- The constant of a method is used: `error_handler.go.tmpl` lines 195-208 with
`DependentMethodName`, `generator/code_generator.go` lines 3079-3082. -/
def UsesConstant (msgs : List Msg) (s : Service) (c : Nat) (name : Name) : Prop :=
  ∃ m ∈ resolvers msgs s, ∃ k h, CodeOf msgs m (.call c k h) ∧ name = GoNames.toPublicGoVariable k

/-- A custom resolver is called: `server.go.tmpl` lines 575-583 and 685-703. -/
def UsesCustom (msgs : List Msg) (s : Service) (c : Custom) : Prop :=
  ∃ m ∈ resolvers msgs s,
    (c = (m, none) ∧ (getMsg msgs m).custom = true) ∨ ∃ f ∈ (getMsg msgs m).customFields, c = (m, some f)

/-- The messages the service starts from. -/
def Entry (s : Service) (m : Nat) : Prop :=
  (∃ mtd ∈ s.methods, mtd.federationResponse = m) ∨ m ∈ s.vars

/-- The code of `a`, or of a message it resolves, and so on, resolves `b`; or `b` is `a`. -/
inductive Reaches (msgs : List Msg) (a : Nat) : Nat → Prop where
  | refl : Reaches msgs a a
  | step {m d t} : Reaches msgs a m → CodeOf msgs m d → Resolves d t → Reaches msgs a t

/-- The service uses the message: a message it starts from reaches it. -/
def Used (msgs : List Msg) (s : Service) (m : Nat) : Prop := ∃ e, Entry s e ∧ Reaches msgs e m

/-- The message has the message option, and something says how to resolve it: a definition, one of a oneof field,
a custom resolver, or a rule for every field. -/
def Msg.Ruled (m : Msg) : Prop :=
  m.option = true ∧ (m.defs ≠ [] ∨ m.oneof ≠ [] ∨ m.custom = true ∨ m.everyField = true)

/-- Every message the service uses has the message option and can be resolved. -/
def Resolvable (msgs : List Msg) (s : Service) : Prop :=
  ∀ m, Used msgs s m → (getMsg msgs m).Ruled

/-- No message resolves `m`. -/
def Unused (msgs : List Msg) (m : Nat) : Prop :=
  ∀ a d, (getMsg msgs a).option = true → CodeOf msgs a d → ¬ Resolves d m

/-- No request message of the service has the message option. -/
def PlainRequests (msgs : List Msg) (s : Service) : Prop :=
  ∀ mtd ∈ s.methods, (getMsg msgs mtd.request).option = false

/-- What the service variables use is also used by the methods. -/
def VarsCovered (msgs : List Msg) (s : Service) : Prop :=
  ∀ v ∈ s.vars, ∃ mtd ∈ s.methods, Reaches msgs mtd.federationResponse v

/-- No call at all. -/
def NoCall (ds : List Def) : Prop := ∀ s k h, ¬ Inside (.call s k h) ds

/-- The error entries of the definition, if it is a call, have no definitions; if it is a validation,
they have no calls. -/
def Plain : Def → Prop
  | .call _ _ h => h = []
  | .validation h => NoCall h
  | _ => True

end Verif.GenRefs
