import Verif.Names.Model

namespace Verif.Names

theorem split_ne_nil (sep : Char) (s : Str) : split sep s ≠ [] := by
  cases s with
  | nil => simp [split]
  | cons c cs => simp only [split]; split
                 · simp
                 · split <;> simp

theorem split_cons (sep : Char) (s : Str) : ∃ h t, split sep s = h :: t := by
  cases hs : split sep s with
  | nil => exact absurd hs (split_ne_nil sep s)
  | cons h t => exact ⟨h, t, rfl⟩

theorem split_append (sep : Char) (a b : Str) : split sep (a ++ sep :: b) = split sep a ++ split sep b := by
  induction a with
  | nil => simp [split]
  | cons c a ih =>
    simp only [List.cons_append, split]
    split
    · rw [ih]; simp
    · obtain ⟨h, t, ha⟩ := split_cons sep a
      rw [ih, ha]; simp

theorem split_of_not_mem (sep : Char) (a : Str) (h : sep ∉ a) : split sep a = [a] := by
  induction a with
  | nil => rfl
  | cons c a ih =>
    simp only [List.mem_cons, not_or] at h
    simp only [split, if_neg (Ne.symm h.1), ih h.2]

theorem length_split (sep : Char) (s : Str) : (split sep s).length = s.count sep + 1 := by
  induction s with
  | nil => simp [split]
  | cons c s ih =>
    simp only [split]
    by_cases h : c = sep
    · subst h; simp [ih]
    · obtain ⟨a, t, ha⟩ := split_cons sep s
      simp only [h, if_false]
      rw [ha] at ih ⊢
      simp only [List.length_cons] at ih ⊢
      rw [List.count_cons_of_ne h]
      exact ih

theorem not_mem_split (sep : Char) (s : Str) : ∀ p ∈ split sep s, sep ∉ p := by
  induction s with
  | nil => simp [split]
  | cons c s ih =>
    intro p hp
    simp only [split] at hp
    by_cases h : c = sep
    · rw [if_pos h] at hp
      rcases List.mem_cons.mp hp with rfl | hp
      · simp
      · exact ih p hp
    · rw [if_neg h] at hp
      obtain ⟨a, t, ha⟩ := split_cons sep s
      rw [ha] at hp ih
      rcases List.mem_cons.mp hp with rfl | hp
      · simp only [List.mem_cons, not_or]
        exact ⟨Ne.symm h, ih a (by simp)⟩
      · exact ih p (by simp [hp])

theorem join_cons (sep : Str) (a : Str) (l : List Str) (h : l ≠ []) : join sep (a :: l) = a ++ sep ++ join sep l := by
  cases l with
  | nil => exact absurd rfl h
  | cons b r => rfl

theorem join_split (sep : Char) (s : Str) : join [sep] (split sep s) = s := by
  induction s with
  | nil => rfl
  | cons c s ih =>
    simp only [split]
    by_cases h : c = sep
    · subst h
      rw [if_pos rfl, join_cons _ _ _ (split_ne_nil _ _), ih]; rfl
    · rw [if_neg h]
      obtain ⟨a, t, ha⟩ := split_cons sep s
      rw [ha] at ih ⊢
      simp only
      cases t with
      | nil => simp only [join] at ih ⊢; rw [ih]
      | cons b r =>
        rw [join_cons _ _ _ (by simp)] at ih ⊢
        rw [← ih]; rfl

theorem split_join (sep : Char) (l : List Str) (hne : l ≠ []) (h : ∀ p ∈ l, sep ∉ p) : split sep (join [sep] l) = l := by
  induction l with
  | nil => exact absurd rfl hne
  | cons a l ih =>
    cases l with
    | nil => exact split_of_not_mem sep a (h a (by simp))
    | cons b r =>
      rw [join_cons _ _ _ (by simp), List.append_assoc, List.singleton_append, split_append,
        split_of_not_mem sep a (h a (by simp)), ih (by simp) (fun p hp => h p (by simp [hp]))]
      rfl

theorem join_append (sep : Char) (l m : List Str) (hl : l ≠ []) (hm : m ≠ []) :
    join [sep] (l ++ m) = join [sep] l ++ sep :: join [sep] m := by
  induction l with
  | nil => exact absurd rfl hl
  | cons a l ih =>
    cases l with
    | nil => simp only [List.singleton_append]; rw [join_cons _ _ _ hm]; simp [join]
    | cons b r =>
      rw [List.cons_append, join_cons _ _ _ (by simp), join_cons _ _ _ (by simp), ih (by simp)]
      simp

theorem mem_iff_count (c : Char) (s : Str) : c ∈ s ↔ s.count c ≠ 0 := by
  rw [← List.count_pos_iff]; omega

/-- Every occurrence of a separator splits the string. -/
theorem exists_split (c : Char) (s : Str) (h : c ∈ s) : ∃ a b, s = a ++ c :: b ∧ c ∉ b := by
  induction s with
  | nil => cases h
  | cons d s ih =>
    by_cases hs : c ∈ s
    · obtain ⟨a, b, rfl, hb⟩ := ih hs
      exact ⟨d :: a, b, rfl, hb⟩
    · rcases List.mem_cons.mp h with rfl | h
      · exact ⟨[], s, rfl, hs⟩
      · exact absurd h hs

end Verif.Names
