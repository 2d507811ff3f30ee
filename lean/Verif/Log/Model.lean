/-!
# Log attributes of contexts

Models `grpc/federation/log/context.go` and how the generated code uses it
(`generator/templates/server.go.tmpl` lines 470, 543, 578, 690).

A context has a reference to a slice of attributes. The resolver of a message passes the slice of its parent
on (`WithLogger(ctx, Logger(ctx), LogAttrs(ctx)...)`), which does not copy the elements, and `AddAttrs`
appends to the slice of the context. So the model has arrays, and slices that point to them.

Simplified: contexts are numbered in the order of their creation. `grow` is the capacity the runtime chooses.
Each operation is atomic (there is one mutex for each context, none for the array).
-/

namespace Verif.Log

/-- An array: the elements written so far and its capacity. -/
structure Arr (A : Type) where
  cells : List A
  cap : Nat

/-- A slice starting at the beginning of an array. -/
structure Slice where
  arr : Nat
  len : Nat

/-- The arrays and the slice of each context (`loggerRef.attrs`). -/
structure St (A : Type) where
  arrays : List (Arr A)
  refs : List Slice

/-- Operations: `WithLogger` without attributes, `WithLogger` with those of context `p`, and `AddAttrs`. -/
inductive Op (A : Type) where
  | fresh
  | child (p : Nat)
  | add (r : Nat) (attrs : List A)

/-- The effect of Go's `append(s, vs...)` on slice `s` in array `a`: in place if there is room. -/
def appendTo {A} (grow : Nat → Nat → Nat) (st : St A) (s : Slice) (a : Arr A) (vs : List A) : List (Arr A) × Slice :=
  if s.len + vs.length ≤ a.cap then
    (st.arrays.set s.arr { a with cells := a.cells.take s.len ++ vs ++ a.cells.drop (s.len + vs.length) },
      { s with len := s.len + vs.length })
  else
    (st.arrays ++ [⟨a.cells.take s.len ++ vs, grow a.cap (s.len + vs.length)⟩], ⟨st.arrays.length, s.len + vs.length⟩)

/-- One operation (`WithLogger`, `grpc/federation/log/context.go` lines 19-21; `AddAttrs`, lines 61-71). -/
def step {A} (grow : Nat → Nat → Nat) (st : St A) : Op A → St A
  | .fresh => { arrays := st.arrays ++ [⟨[], 0⟩], refs := st.refs ++ [⟨st.arrays.length, 0⟩] }
  | .child p => match st.refs[p]? with
    | some s => { st with refs := st.refs ++ [s] }
    | none => st
  | .add r vs => match st.refs[r]? with
    | none => st
    | some s => match st.arrays[s.arr]? with
      | none => st
      | some a =>
        let (arrays, s') := appendTo grow st s a vs
        { arrays := arrays, refs := st.refs.set r s' }

/-- A history. -/
def run {A} (grow : Nat → Nat → Nat) (st : St A) (ops : List (Op A)) : St A := ops.foldl (step grow) st

/-- `Attrs`, `grpc/federation/log/context.go` lines 35-45. -/
def read {A} (st : St A) (r : Nat) : Option (List A) :=
  match st.refs[r]? with
  | none => none
  | some s => (st.arrays[s.arr]?).map (fun a => a.cells.take s.len)

/-- The capacity Go's runtime chooses for small slices of attributes. -/
def goGrow (cap need : Nat) : Nat := if need > 2 * cap then need else 2 * cap

/-! ## Output -/

/-- A context as `Logger` sees it: attributes of its logger, and its own. -/
structure Ctx (A : Type) where
  logger : List A
  attrs : List A

/-- `Logger`, `grpc/federation/log/context.go` lines 23-33: the attributes of everything logged with it. -/
def logged {A} (c : Ctx A) : List A := c.logger ++ c.attrs

/-- The context of a message within context `c` (`server.go.tmpl` line 543). -/
def nested {A} (c : Ctx A) : Ctx A := ⟨logged c, c.attrs⟩

/-- The context of a custom resolver within context `c` (lines 578, 690). -/
def custom {A} (c : Ctx A) : Ctx A := ⟨logged c, []⟩

/-- The context `n` messages deep. -/
def deep {A} (c : Ctx A) : Nat → Ctx A
  | 0 => c
  | n + 1 => nested (deep c n)

end Verif.Log
