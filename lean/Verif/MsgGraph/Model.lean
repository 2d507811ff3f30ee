/-!
# The graph of messages

Models `resolver/resolver.go` lines 1129-1189, 3272-3321 and 3323-3345: how the messages of the descriptors become
objects that point to each other, with the cache of resolved messages, and lines 1303-1321 of `resolver/resolver.go`:
which of these objects get the options of their message.

Objects are numbered in the order they are made.  Names are those the compiler has resolved (`resolver/resolver.go`
lines 5181-5300 are modelled in `Verif.Names`); enums are left out except for the locations they ask for; the services
and files are the sequence of messages they ask for.
-/

namespace Verif.MsgGraph

/-- The name of a message: its package and the names of the messages it is declared in, ending with its own. -/
structure Name where
  pkg : String
  path : List String
deriving DecidableEq

def Name.child (n : Name) (c : String) : Name := ⟨n.pkg, n.path ++ [c]⟩

/-- A descriptor: the names of the messages and enums in it, and its fields with the messages that are their types.
Entries of map fields are messages in it, as in descriptors. -/
structure Msg where
  nested : List String := []
  enums : List String := []
  fields : List (String × Option Name) := []

/-- The messages of all files. -/
abbrev Schema := List (Name × Msg)

def Schema.get (S : Schema) (n : Name) : Option Msg := (S.find? fun e => e.1 = n).map (·.2)

/-- `Message`, `resolver/types.go` lines 126-137: the name is that of its descriptor. -/
structure Obj where
  name : Name
  parent : Option Nat := none
  nested : List Nat := []
  fields : List (String × Option Nat) := []

/-- The objects made so far, and `cachedMessageMap`. -/
structure State where
  next : Nat := 0
  heap : Nat → Obj := fun _ => { name := ⟨"", []⟩ }
  cache : Name → Option Nat := fun _ => none

def State.modify (st : State) (i : Nat) (f : Obj → Obj) : State :=
  { st with heap := fun j => if j = i then f (st.heap j) else st.heap j }

/-- A new object, `resolver/resolver.go` lines 1145-1149. -/
def State.alloc (st : State) (n : Name) : State :=
  { st with next := st.next + 1, heap := fun j => if j = st.next then { name := n } else st.heap j }

/-- `resolver/resolver.go` lines 1155-1156. -/
def State.adopt (st : State) (i j : Nat) : State :=
  (st.modify j fun o => { o with parent := some i }).modify i fun o => { o with nested := o.nested ++ [j] }

/-- `resolver/resolver.go` line 1177. -/
def State.store (st : State) (n : Name) (i : Nat) : State :=
  { st with cache := fun m => if m = n then some i else st.cache m }

/-- `resolver/resolver.go` line 1186. -/
def State.setFields (st : State) (i : Nat) (fs : List (String × Option Nat)) : State :=
  st.modify i fun o => { o with fields := fs }

/-- How a location for a message is built: by `NewMessageBuilder` or a step from such a one, by `ToLazyMessageBuilder`,
or by the step `WithMessage` from the latter.  The function of the last one first puts a new message into the location
and then takes the nested message of it, which is nil (`source/location_builder.go` lines 762-772 and 826-837). -/
inductive Builder where
  | eager | lazy | lost
deriving DecidableEq

/-- `WithMessage`, `source/location_builder.go` lines 762-772. -/
def Builder.child : Builder → Builder
  | .eager => .eager
  | .lazy => .lost
  | .lost => .lost

inductive Err where
  | fuel | panic
deriving DecidableEq

abbrev Resolve := Builder → State → Name → Except Err (State × Option Nat)

/-- The loop over the messages in a message, `resolver/resolver.go` lines 1150-1157. -/
def nestedLoop (k : Resolve) (b : Builder) (n : Name) (i : Nat) : List String → State → Except Err State
  | [], st => .ok st
  | c :: cs, st =>
    if b = .lost then .error .panic
    else
      match k b.child st (n.child c) with
      | .error e => .error e
      | .ok (st, none) => nestedLoop k b n i cs st
      | .ok (st, some j) => nestedLoop k b n i cs (st.adopt i j)

/-- `resolveFields` with the part of `resolveField` and `resolveType` that resolves the message of the type,
`resolver/resolver.go` lines 3272-3285, 3287-3321 and 3323-3345. -/
def fieldLoop (k : Resolve) (b : Builder) :
    List (String × Option Name) → State → Except Err (State × List (String × Option Nat))
  | [], st => .ok (st, [])
  | (f, none) :: fs, st =>
    if b = .lost then .error .panic
    else
      match fieldLoop k b fs st with
      | .error e => .error e
      | .ok (st, l) => .ok (st, (f, none) :: l)
  | (f, some t) :: fs, st =>
    if b = .lost then .error .panic
    else
      match k .eager st t with
      | .error e => .error e
      | .ok (st, r) =>
        match fieldLoop k b fs st with
        | .error e => .error e
        | .ok (st, l) => .ok (st, (f, r) :: l)

/-- `resolveMessage`, `resolver/resolver.go` lines 1129-1189.  `fuel` bounds the depth of the calls; there always is
enough (`C92_ends`). -/
def resolve (S : Schema) : Nat → Resolve
  | 0, _, _, _ => .error .fuel
  | fuel + 1, b, st, n =>
    match st.cache n with
    | some i => .ok (st, some i)
    | none =>
      match S.get n with
      | none => .ok (st, none)
      | some m =>
        match nestedLoop (resolve S fuel) b n st.next m.nested (st.alloc n) with
        | .error e => .error e
        | .ok st1 =>
          if b = .lost ∧ m.enums ≠ [] then .error .panic
          else
            match fieldLoop (resolve S fuel) b m.fields (st1.store n st.next) with
            | .error e => .error e
            | .ok (st2, fs) => .ok (st2.setFields st.next fs, some st.next)

/-- A message asked for by a file, in the order of `resolveFile`, `resolver/resolver.go` lines 782-835: types of
plugins, requests and responses of methods, and the messages it declares, which become its messages. -/
structure Req where
  builder : Builder := .eager
  name : Name
  declared : Bool := false

/-- All files: the state at the end, and the messages of the files. -/
def resolveAll (S : Schema) (fuel : Nat) : List Req → State → Except Err (State × List Nat)
  | [], st => .ok (st, [])
  | q :: qs, st =>
    match resolve S fuel q.builder st q.name with
    | .error e => .error e
    | .ok (st, r) =>
      match resolveAll S fuel qs st with
      | .error e => .error e
      | .ok (st, l) => .ok (st, (if q.declared then r.toList else []) ++ l)

/-- The objects that get the option of their message: the messages of the files and the messages in them,
`resolver/resolver.go` lines 1276-1285 and 1303-1321. -/
inductive HasOption (st : State) (files : List Nat) : Nat → Prop where
  | top {i : Nat} : i ∈ files → HasOption st files i
  | nested {i j : Nat} : HasOption st files i → j ∈ (st.heap i).nested → HasOption st files j

/-- `ParentMessageNames` and the name, `resolver/message.go` lines 75-83; `k` bounds the number of parents. -/
def names (st : State) : Nat → Nat → List String
  | 0, i => [(st.heap i).name.path.getLast?.getD ""]
  | k + 1, i =>
    match (st.heap i).parent with
    | none => [(st.heap i).name.path.getLast?.getD ""]
    | some p => names st k p ++ [(st.heap i).name.path.getLast?.getD ""]

/-- `Message.FQDN`, `resolver/fqdn.go` lines 22-30. -/
def fqdn (st : State) (i : Nat) : Name := ⟨(st.heap i).name.pkg, names st (st.heap i).name.path.length i⟩

end Verif.MsgGraph
