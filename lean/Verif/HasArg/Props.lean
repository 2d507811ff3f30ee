import Verif.HasArg.Model

/-! # C123: reading arguments and `has` -/

namespace Verif.HasArg

variable {T : Type}

/-! ## Specification -/

/-- A value is there, as `has` of CEL is defined for fields of messages: numbers, texts and truth values that are not the default,
lists, maps and bytes that are not empty, messages and optional fields that are set. -/
def There : GV → Prop
  | .bool b => b = true
  | .num n => n ≠ 0
  | .float bits => bits ≠ 0
  | .str s => s ≠ []
  | .bytes b => ∃ x, b = some x ∧ x ≠ []
  | .list l => ∃ x, l = some x ∧ x ≠ []
  | .map m => ∃ x, m = some x ∧ x ≠ []
  | .ptr p => ∃ x, p = some x

/-- Lists, maps and bytes that are empty but not nil. -/
def EmptyNotNil : GV → Prop
  | .bytes b => b = some []
  | .list l => l = some []
  | .map m => m = some []
  | _ => False

/-- An argument of a message: its name, its type, its Go field and its value. -/
structure Arg (T : Type) where
  name : Name
  type : T
  goName : Name
  value : GV

/-- The generated code for the arguments of the message called `struct`: they are registered under their names, the names of the arguments and
of the fields are different (C64, C65), and no proto message has the name. -/
structure Registered (h : Helper T) (struct : Name) (args : List (Arg T)) : Prop where
  entry : (struct, args.map (fun a => (a.name, (⟨a.type, a.goName⟩ : FieldType T)))) ∈ h.structs
  once : (h.structs.map (·.1)).Nodup
  names : (args.map (·.name)).Nodup
  goNames : (args.map (·.goName)).Nodup
  noMessage : h.registry struct = none

/-- The Go value of the arguments. -/
def Holds (o : Obj) (args : List (Arg T)) : Prop :=
  o = .struct (args.map (fun a => (a.goName, a.value))) ∨ o = .pointer (args.map (fun a => (a.goName, a.value)))

/-! ## Lemmas -/

theorem get_mem {α : Type} (m : List (Name × α)) (hm : (m.map (·.1)).Nodup) (k : Name) (v : α) : get m k = some v ↔ (k, v) ∈ m := by
  induction m with
  | nil => simp [get]
  | cons p m ih =>
    obtain ⟨k', v'⟩ := p
    simp only [List.map_cons, List.nodup_cons] at hm
    have ih := ih hm.2
    by_cases hk : k' = k
    · subst hk
      simp only [get, List.find?_cons, decide_true, Option.map_some, Option.some.injEq, List.mem_cons, Prod.mk.injEq, true_and]
      constructor
      · exact fun e => .inl e.symm
      · rintro (e | e)
        · exact e.symm
        · exact absurd (List.mem_map.2 ⟨_, e, rfl⟩) hm.1
    · have : get ((k', v') :: m) k = get m k := by simp [get, List.find?_cons, hk]
      rw [this, ih]
      simp [Ne.symm hk]

theorem find_args (h : Helper T) (struct : Name) (args : List (Arg T)) (hr : Registered h struct args) (n : Name) (f : FieldType T) :
    findField h struct n = some f ↔ ∃ a ∈ args, a.name = n ∧ f = ⟨a.type, a.goName⟩ := by
  rw [findField, hr.noMessage]
  simp only [Option.bind_none]
  rw [(get_mem _ hr.once _ _).2 hr.entry]
  simp only
  rw [get_mem _ (by simpa [Function.comp_def] using hr.names)]
  simp only [List.mem_map, Prod.mk.injEq]
  constructor
  · rintro ⟨a, ha, h1, h2⟩; exact ⟨a, ha, h1, h2.symm⟩
  · rintro ⟨a, ha, h1, h2⟩; exact ⟨a, ha, h1, h2.symm⟩

theorem field_value (args : List (Arg T)) (hg : (args.map (·.goName)).Nodup) (a : Arg T) (ha : a ∈ args) :
    fieldByName (args.map (fun a => (a.goName, a.value))) a.goName = some a.value :=
  (get_mem _ (by simpa [Function.comp_def] using hg) _ _).2 (List.mem_map.2 ⟨a, ha, rfl⟩)

theorem fields_of (o : Obj) (args : List (Arg T)) (ho : Holds o args) : fieldsOf o = some (args.map (fun a => (a.goName, a.value))) := by
  rcases ho with rfl | rfl <;> rfl

theorem unique_arg (args : List (Arg T)) (hn : (args.map (·.name)).Nodup) (a b : Arg T) (ha : a ∈ args) (hb : b ∈ args) (h : a.name = b.name) : a = b := by
  induction args with
  | nil => cases ha
  | cons c cs ih =>
    simp only [List.map_cons, List.nodup_cons, List.mem_map, not_exists, not_and] at hn
    rcases List.mem_cons.1 ha with rfl | ha' <;> rcases List.mem_cons.1 hb with rfl | hb'
    · rfl
    · exact absurd h.symm (hn.1 b hb')
    · exact absurd h (hn.1 a ha')
    · exact ih hn.2 ha' hb'

/-! ## Reading -/

/-- C123: `$.x` is accepted exactly for the arguments, and then it is the value of the argument. It never panics. -/
theorem C123_read (h : Helper T) (struct : Name) (args : List (Arg T)) (hr : Registered h struct args) (o : Obj) (ho : Holds o args) (n : Name) :
    ((evalRead h struct o n).isSome ↔ ∃ a ∈ args, a.name = n) ∧ ∀ a ∈ args, a.name = n → evalRead h struct o n = some (.ok a.value) := by
  have key : ∀ a ∈ args, a.name = n → evalRead h struct o n = some (.ok a.value) := by
    intro a ha hn
    rw [evalRead, (find_args h struct args hr n _).2 ⟨a, ha, hn, rfl⟩]
    simp [getFrom, fields_of o args ho, field_value args hr.goNames a ha]
  refine ⟨⟨?_, ?_⟩, key⟩
  · intro hs
    simp only [evalRead, Option.isSome_map] at hs
    obtain ⟨f, hf⟩ := Option.isSome_iff_exists.1 hs
    obtain ⟨a, ha, hn, -⟩ := (find_args h struct args hr n f).1 hf
    exact ⟨a, ha, hn⟩
  · rintro ⟨a, ha, hn⟩
    rw [key a ha hn]; rfl

/-! ## `has` -/

theorem zero_there (v : GV) : isZero v = false ↔ There v ∨ EmptyNotNil v := by
  cases v with
  | bool b => cases b <;> simp [isZero, There, EmptyNotNil]
  | num n => simp [isZero, There, EmptyNotNil]
  | float b => simp [isZero, There, EmptyNotNil]
  | str s => simp [isZero, There, EmptyNotNil]
  | bytes b => cases b <;> simp [isZero, There, EmptyNotNil]; exact (Decidable.em _).symm
  | list l => rcases l with _ | _ | _ <;> simp [isZero, There, EmptyNotNil]
  | map l => rcases l with _ | _ | _ <;> simp [isZero, There, EmptyNotNil]
  | ptr p => cases p <;> simp [isZero, There, EmptyNotNil]

/-- C123: what `has($.x)` is, exactly: the argument has a value, or it is an empty list, map or bytes that is not nil. -/
theorem C123_has_iff (h : Helper T) (struct : Name) (args : List (Arg T)) (hr : Registered h struct args) (o : Obj) (ho : Holds o args)
    (a : Arg T) (ha : a ∈ args) : ∃ b, evalHas h struct o a.name = some (.ok b) ∧ (b = true ↔ There a.value ∨ EmptyNotNil a.value) := by
  refine ⟨!(isZero a.value), ?_, by simp [zero_there]⟩
  rw [evalHas, (find_args h struct args hr a.name _).2 ⟨a, ha, rfl, rfl⟩]
  simp [isSet, fields_of o args ho, field_value args hr.goNames a ha]

/-- C123 (partial: not for lists, maps and bytes that are empty but not nil): `has($.x)` says whether the argument has a value. -/
theorem C123_has_partial (h : Helper T) (struct : Name) (args : List (Arg T)) (hr : Registered h struct args) (o : Obj) (ho : Holds o args)
    (a : Arg T) (ha : a ∈ args) (he : ¬ EmptyNotNil a.value) : ∃ b, evalHas h struct o a.name = some (.ok b) ∧ (b = true ↔ There a.value) := by
  obtain ⟨b, h1, h2⟩ := C123_has_iff h struct args hr o ho a ha
  exact ⟨b, h1, by rw [h2]; simp [he]⟩

/-- C123 is false of the code for an empty list that is not nil, like the value of `[]`: `has($.x)` is true. -/
theorem C123_has_false (h : Helper T) (struct : Name) (args : List (Arg T)) (hr : Registered h struct args) (o : Obj) (ho : Holds o args)
    (a : Arg T) (ha : a ∈ args) (he : a.value = .list (some [])) : evalHas h struct o a.name = some (.ok true) ∧ ¬ There a.value := by
  obtain ⟨b, h1, h2⟩ := C123_has_iff h struct args hr o ho a ha
  have : b = true := h2.2 (.inr (by rw [he]; rfl))
  subst this
  exact ⟨h1, by simp [he, There]⟩

/-- C123: without arguments (nil), `has` is false and reading is an error; neither panics. -/
theorem C123_nil (h : Helper T) (struct : Name) (args : List (Arg T)) (hr : Registered h struct args) (a : Arg T) (ha : a ∈ args) :
    evalHas h struct .nilPointer a.name = some (.ok false) ∧ evalRead h struct .nilPointer a.name = some .error := by
  rw [evalHas, evalRead, (find_args h struct args hr a.name _).2 ⟨a, ha, rfl, rfl⟩]
  exact ⟨rfl, rfl⟩

/-! ## Names -/

theorem insert_perm (n : Name) (l : List Name) : (insertName n l).Perm (n :: l) := by
  induction l with
  | nil => exact .refl _
  | cons m ms ih =>
    rw [insertName]
    split
    · exact .refl _
    · exact (List.Perm.cons m ih).trans (.swap n m ms)

theorem sort_perm (l : List Name) : (sortNames l).Perm l := by
  induction l with
  | nil => exact .refl _
  | cons n ns ih => exact (insert_perm n _).trans (ih.cons n)

theorem insert_sorted (n : Name) (l : List Name) (h : l.Pairwise (· ≤ ·)) : (insertName n l).Pairwise (· ≤ ·) := by
  induction l with
  | nil => simp [insertName]
  | cons m ms ih =>
    rw [insertName]
    rw [List.pairwise_cons] at h
    split
    · next hle =>
      rw [List.pairwise_cons]
      refine ⟨?_, List.pairwise_cons.2 h⟩
      intro x hx
      rcases List.mem_cons.1 hx with rfl | hx
      · exact hle
      · exact List.le_trans hle (h.1 x hx)
    · next hle =>
      rw [List.pairwise_cons]
      refine ⟨?_, ih h.2⟩
      intro x hx
      rcases List.mem_cons.1 ((insert_perm n ms).mem_iff.1 hx) with rfl | hx
      · exact (List.le_total m x).resolve_right hle
      · exact h.1 x hx

theorem sort_sorted (l : List Name) : (sortNames l).Pairwise (· ≤ ·) := by
  induction l with
  | nil => simp [sortNames]
  | cons n ns ih => exact insert_sorted n _ ih

/-- C123: the names that are known for the arguments are exactly those of the arguments, each once, in alphabetical order, whatever order the Go map
gives. -/
theorem C123_names (h : Helper T) (struct : Name) (args : List (Arg T)) (hr : Registered h struct args) :
    findStruct h struct = true ∧ ∃ ns, fieldNames h struct = some ns ∧ ns.Perm (args.map (·.name)) ∧ ns.Pairwise (· ≤ ·) := by
  have hg := (get_mem _ hr.once _ _).2 hr.entry
  refine ⟨by simp [findStruct, hr.noMessage, hg], sortNames (args.map (·.name)), ?_, sort_perm _, sort_sorted _⟩
  simp [fieldNames, hr.noMessage, hg, Function.comp_def]

/-- A proto message of the same name comes first: its fields are those that are known. -/
theorem C123_message_first (h : Helper T) (struct field : Name) (fs : List (Name × FieldType T)) (f : FieldType T) (hm : h.registry struct = some fs)
    (hf : get fs field = some f) : findField h struct field = some f := by
  simp [findField, hm, hf]

/-! ## An example -/

def exArgs : List (Arg Nat) :=
  [⟨"id".toList, 0, "Id".toList, .str "x".toList⟩, ⟨"limit".toList, 1, "Limit".toList, .num 0⟩, ⟨"ids".toList, 2, "Ids".toList, .list (some [])⟩]

def exHelper : Helper Nat :=
  ⟨fun _ => none, [("p.A".toList, exArgs.map (fun a => (a.name, ⟨a.type, a.goName⟩))), ("p.B".toList, [])]⟩

theorem exReg : Registered exHelper "p.A".toList exArgs := by
  refine ⟨List.mem_cons_self, by decide, by decide, by decide, rfl⟩

/-- Arguments with a text, a number 0 and an empty list: `has` is true, false and true. -/
example : ∃ o, Holds o exArgs ∧ evalHas exHelper "p.A".toList o "id".toList = some (.ok true) ∧
    evalHas exHelper "p.A".toList o "limit".toList = some (.ok false) ∧ evalHas exHelper "p.A".toList o "ids".toList = some (.ok true) ∧
    (evalHas exHelper "p.A".toList o "other".toList).isNone :=
  ⟨.pointer _, .inr rfl, rfl, rfl, rfl, rfl⟩

example : fieldNames exHelper "p.A".toList = some ["id".toList, "ids".toList, "limit".toList] := by decide

end Verif.HasArg
