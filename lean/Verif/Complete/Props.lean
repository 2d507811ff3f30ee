import Verif.Complete.Model

/-! # C50: completion -/

namespace Verif.Complete

/-- Specification: a name users give, not a generated one. -/
def Visible (n : Name) : Prop := ∃ c cs, n = c :: cs ∧ c ≠ '_'

theorem hidden_iff (n : Name) : hidden n = false ↔ Visible n := by
  cases n with
  | nil => simp [hidden, Visible]
  | cons c cs =>
    simp only [hidden, Visible, List.isEmpty_cons, List.isPrefixOf, Bool.false_or, Bool.and_true, beq_eq_false_iff_ne]
    constructor
    · intro h; exact ⟨c, cs, rfl, Ne.symm h⟩
    · rintro ⟨d, ds, h, hd⟩
      simp only [List.cons.injEq] at h
      rw [h.1]; exact Ne.symm hd

/-- Specification: the names that may be used after the first `i` definitions. -/
def Usable (defs : List Def) (args : List Name) (i : Nat) (n : Name) : Prop :=
  (∃ j d, j < i ∧ defs[j]? = some d ∧ d.name = n ∧ Visible n ∧ d.hasExpr = true) ∨ ∃ a ∈ args, n = '$' :: '.' :: a

theorem mem_unique (seen ns : List Name) (n : Name) : n ∈ unique seen ns ↔ n ∈ ns ∧ n ∉ seen := by
  induction ns generalizing seen with
  | nil => simp [unique]
  | cons x ns ih =>
    simp only [unique]
    by_cases hx : x ∈ seen
    · rw [if_pos hx, ih]
      constructor
      · rintro ⟨h1, h2⟩; exact ⟨by simp [h1], h2⟩
      · rintro ⟨h1, h2⟩
        rcases List.mem_cons.mp h1 with rfl | h1
        · exact absurd hx h2
        · exact ⟨h1, h2⟩
    · rw [if_neg hx, List.mem_cons, ih]
      simp only [List.mem_cons, not_or]
      constructor
      · rintro (rfl | ⟨h1, h2, h3⟩)
        · exact ⟨Or.inl rfl, hx⟩
        · exact ⟨Or.inr h1, h3⟩
      · rintro ⟨rfl | h1, h2⟩
        · exact Or.inl rfl
        · by_cases hnx : n = x
          · exact Or.inl hnx
          · exact Or.inr ⟨h1, hnx, h2⟩

theorem unique_nodup (seen ns : List Name) : (unique seen ns).Nodup := by
  induction ns generalizing seen with
  | nil => simp [unique]
  | cons x ns ih =>
    simp only [unique]
    split
    · exact ih seen
    · rw [List.nodup_cons]
      exact ⟨fun h => ((mem_unique _ _ _).mp h).2 (by simp), ih _⟩

theorem mem_variableNames (defs : List Def) (i : Nat) (n : Name) :
    n ∈ variableNames defs i ↔ ∃ j d, i = j + 1 ∧ defs[j]? = some d ∧ d.name = n ∧ Visible n ∧ d.hasExpr = true := by
  cases i with
  | zero => simp [variableNames]
  | succ j =>
    simp only [variableNames]
    constructor
    · intro h
      split at h
      · cases h
      · obtain ⟨_, _, h⟩ := List.mem_flatMap.mp h
        unfold offer at h
        cases hd : defs[j]? with
        | none => rw [hd] at h; cases h
        | some d =>
          rw [hd] at h
          simp only at h
          split at h
          · cases h
          · rename_i hh
            simp only [List.mem_singleton] at h
            simp only [Bool.or_eq_true, Bool.not_eq_true', not_or, Bool.not_eq_true, Bool.not_eq_false] at hh
            exact ⟨j, d, rfl, hd, h.symm, (hidden_iff n).mp (by rw [h]; exact hh.1), hh.2⟩
    · rintro ⟨j', d, he, hd, rfl, hh, hx⟩
      cases he
      have hlt : j < defs.length := (List.getElem?_eq_some_iff.mp hd).1
      rw [if_neg (by omega)]
      refine List.mem_flatMap.mpr ⟨0, by simp, ?_⟩
      simp [offer, hd, (hidden_iff _).mpr hh, hx]

/-- C50: the names offered in `by` of a definition may be used there (partial: not all such names are
offered), and none is offered twice. -/
theorem C50_sound_partial (defs : List Def) (args : List Name) (i : Nat) :
    (∀ n ∈ inBy defs args i, Usable defs args i n) ∧ (inBy defs args i).Nodup := by
  refine ⟨?_, unique_nodup _ _⟩
  intro n h
  rw [inBy, candidates, mem_unique, List.mem_append, mem_variableNames] at h
  rcases h.1 with ⟨j, d, rfl, hd, h1, h2, h3⟩ | h
  · exact Or.inl ⟨j, d, by omega, hd, h1, h2, h3⟩
  · obtain ⟨a, ha, rfl⟩ := List.mem_map.mp h
    exact Or.inr ⟨a, ha, rfl⟩

/-- C50 (partial): all arguments and the definition just before are offered; so the second definition
gets all names it may use. -/
theorem C50_complete_partial (defs : List Def) (args : List Name) (i : Nat) (hi : i ≤ 1) (n : Name)
    (h : Usable defs args i n) : n ∈ inBy defs args i := by
  rw [inBy, candidates, mem_unique, List.mem_append, mem_variableNames]
  refine ⟨?_, by simp⟩
  rcases h with ⟨j, d, hj, hd, h1, h2, h3⟩ | ⟨a, ha, rfl⟩
  · exact Or.inl ⟨j, d, by omega, hd, h1, h2, h3⟩
  · exact Or.inr (List.mem_map.mpr ⟨a, ha, rfl⟩)

/-- C50: what is offered in `by`: the arguments and the definition just before. -/
theorem C50_exactly (defs : List Def) (args : List Name) (i : Nat) (n : Name) :
    n ∈ inBy defs args i ↔
      (∃ j d, i = j + 1 ∧ defs[j]? = some d ∧ d.name = n ∧ Visible n ∧ d.hasExpr = true) ∨
      ∃ a ∈ args, n = '$' :: '.' :: a := by
  rw [inBy, candidates, mem_unique, List.mem_append, mem_variableNames]
  simp only [List.not_mem_nil, not_false_eq_true, and_true, argumentNames, List.mem_map]
  constructor
  · rintro (h | ⟨a, ha, rfl⟩)
    · exact Or.inl h
    · exact Or.inr ⟨a, ha, rfl⟩
  · rintro (h | ⟨a, ha, rfl⟩)
    · exact Or.inl h
    · exact Or.inr ⟨a, ha, rfl⟩

/-- C50 is false of the code: with definitions `a`, `b`, `c` completion in `c` does not offer `a`, nor does
the completion of a field. -/
theorem C50_missing_false :
    let defs : List Def := [⟨['a'], true⟩, ⟨['b'], true⟩, ⟨['c'], true⟩]
    Usable defs [] 2 ['a'] ∧ ['a'] ∉ inBy defs [] 2 ∧ inBy defs [] 2 = [['b']] ∧
    Usable defs [] 3 ['a'] ∧ inField defs [] = [['c']] := by
  refine ⟨Or.inl ⟨0, ⟨['a'], true⟩, by decide, by decide, rfl, ⟨'a', [], rfl, by decide⟩, rfl⟩, by decide, by decide,
    Or.inl ⟨0, ⟨['a'], true⟩, by decide, by decide, rfl, ⟨'a', [], rfl, by decide⟩, rfl⟩, by decide⟩

/-- C50 is false of the code in arguments: the definition itself is offered, which would make it depend on
itself. -/
theorem C50_itself_false (defs : List Def) (args : List Name) (i : Nat) (d : Def) (h : defs[i]? = some d)
    (hn : Visible d.name) (hx : d.hasExpr = true) : d.name ∈ inArgument defs args i := by
  rw [inArgument, candidates, mem_unique, List.mem_append, mem_variableNames]
  exact ⟨Or.inl ⟨i, d, rfl, h, rfl, hn, hx⟩, by simp⟩

/-- C50 is false of the code for request fields: candidates are filtered by the type of the field at the
entry's position, not of the field the entry sets. -/
theorem C50_request_type_false : ∃ (fields : List (Name × Nat)) (entries : List Name) (i : Nat) (n : Name) (t : Nat),
    entries[i]? = some n ∧ (n, t) ∈ fields ∧ (fields.map (·.1)).Nodup ∧ requestFieldType fields i ≠ some t :=
  ⟨[(['a'], 0), (['b'], 1)], [['b'], ['a']], 0, ['b'], 1, by decide⟩

example : inBy [⟨['a'], true⟩, ⟨['b'], true⟩] [['x']] 1 = [['a'], ['$', '.', 'x']] := by decide

end Verif.Complete
