/-!
# How messages and the references between them are resolved

Models `resolveMessage`, `resolver/resolver.go` lines 1129-1189, with `resolveFields` (3272-3285), `resolveField` (3287-3321) and
`resolveType` (3323-3374), and the order in which `resolveFile` (lines 782-835) calls it.  A message of the resolver is an object with an
identity: the same message of a proto file may become two of them.

Simplified: names are full names, so that packages need no lookup (`lookupPackage` and `trimPackage`, lines 5277-5299, and
`lookupMessage`, lines 5181-5200 and 5248-5260, are the function `ds`); only fields whose type is a message are listed; enums and
oneofs, which have no references to messages of their own, are left out; the pointer `ParentMessage` is left out.
-/

namespace Verif.MsgOnce

/-- The full name of a message. -/
abbrev Name := List String

/-- A message of a proto file: the messages in it and the types of its fields that are messages. -/
structure Decl where
  nested : List Name
  fields : List Name
deriving DecidableEq, Repr

/-- `lookupMessage`, `resolver/resolver.go` lines 5181-5200. -/
abbrev Decls := Name → Option Decl

/-- A `Message` of the resolver: its nested messages and the messages its fields refer to are pointers. -/
structure Obj where
  name : Name
  nested : List Nat
  fields : List Nat
deriving DecidableEq, Repr

/-- All objects, and `cachedMessageMap`. -/
structure St where
  heap : List Obj
  cache : Name → Option Nat

/-- The loops over nested messages and over fields, `resolver/resolver.go` lines 1150-1157 and 3277-3283: what is nil is skipped. -/
def each (f : Name → St → Option (Option Nat × St)) : List Name → St → Option (List Nat × St)
  | [], st => some ([], st)
  | n :: ns, st =>
    match f n st with
    | none => none
    | some (r, st1) =>
      match each f ns st1 with
      | none => none
      | some (rs, st2) => some (r.toList ++ rs, st2)

/-- `resolveMessage`, `resolver/resolver.go` lines 1129-1189: a message is put in the cache (line 1177) after its nested messages
are resolved (lines 1150-1157) and before its fields are (line 1186).  The object is made at line 1145; its number is its place in the
order of line 1177.  The first argument bounds the depth of calls; without a result if it is too small. -/
def resolve (ds : Decls) : Nat → Name → St → Option (Option Nat × St)
  | 0, _, _ => none
  | fuel + 1, n, st =>
    match st.cache n with
    | some i => some (some i, st)
    | none =>
      match ds n with
      | none => some (none, st)
      | some d =>
        match each (resolve ds fuel) d.nested st with
        | none => none
        | some (ns, st1) =>
          let id := st1.heap.length
          match each (resolve ds fuel) d.fields ⟨st1.heap ++ [⟨n, ns, []⟩], fun x => if x = n then some id else st1.cache x⟩ with
          | none => none
          | some (fs, st2) => some (some id, ⟨st2.heap.set id ⟨n, ns, fs⟩, st2.cache⟩)

/-- The calls of `resolveMessage` by `resolveFile` in the order of the files, `resolver/resolver.go` lines 782-835: types of plugins
(lines 799-803) and of methods (lines 813-820), which are not kept (`false`), and the messages of the file, lines 821-828 (`true`). -/
def run (ds : Decls) (fuel : Nat) : List (Bool × Name) → St → Option (List Nat × St)
  | [], st => some ([], st)
  | (b, n) :: cs, st =>
    match resolve ds fuel n st with
    | none => none
    | some (r, st1) =>
      match run ds fuel cs st1 with
      | none => none
      | some (rs, st2) => some ((if b then r.toList else []) ++ rs, st2)

/-- Nothing is resolved yet. -/
def St.empty : St := ⟨[], fun _ => none⟩

/-- The messages whose options are resolved, `resolveMessageRules`, `resolver/resolver.go` lines 1303-1320: those of the files and
what is nested in them. -/
inductive Ruled (heap : List Obj) (tops : List Nat) : Nat → Prop
  | top {i : Nat} : i ∈ tops → Ruled heap tops i
  | nested {i j : Nat} {o : Obj} : Ruled heap tops i → heap[i]? = some o → j ∈ o.nested → Ruled heap tops j

/-- `findMessageAliasName`, `resolver/resolver.go` lines 1675-1697, by which a field may get a value of another message: an object has
a rule if its options are resolved. -/
def FindAlias (heap : List Obj) (tops : List Nat) (aliases : Name → List Name) (src dst : Nat) : Prop :=
  ∃ f t, heap[src]? = some f ∧ heap[dst]? = some t ∧
    ((Ruled heap tops src ∧ t.name ∈ aliases f.name) ∨ (Ruled heap tops dst ∧ f.name ∈ aliases t.name))

end Verif.MsgOnce
