import Verif.MsgOnce.Model

/-! # Specification: references between messages -/

namespace Verif.MsgOnce

/-- A message is nested in another one, or the type of one of its fields. -/
inductive Step (ds : Decls) : Name → Name → Prop
  | nested {n m : Name} {d : Decl} : ds n = some d → m ∈ d.nested → Step ds n m
  | field {n m : Name} {d : Decl} : ds n = some d → m ∈ d.fields → Step ds n m

/-- A message leads to another one by nesting and fields. -/
inductive Leads (ds : Decls) : Name → Name → Prop
  | refl {n : Name} : Leads ds n n
  | step {n m k : Name} : Step ds n m → Leads ds m k → Leads ds n k

/-- No nested message leads back to the message it is nested in. -/
def NoWayBack (ds : Decls) : Prop := ∀ n d m, ds n = some d → m ∈ d.nested → ¬ Leads ds m n

/-- The messages of files: those at the top and what is nested in them. -/
inductive Declared (ds : Decls) (tops : List Name) : Name → Prop
  | top {n : Name} : n ∈ tops → Declared ds tops n
  | nested {n m : Name} {d : Decl} : Declared ds tops n → ds n = some d → m ∈ d.nested → Declared ds tops m

/-- The objects are those of the names, in this order. -/
def Named (heap : List Obj) (is : List Nat) (ns : List Name) : Prop := is.map (fun i => heap[i]?.map Obj.name) = ns.map some

end Verif.MsgOnce
