import Verif.GoNames.Model

/-! # C64: different names become different Go names -/

namespace Verif.GoNames

/-- Specification: names written as style guides want them: lower case letters, digits and single underscores, starting
with a letter, not ending with an underscore, with no letter directly after a digit. -/
def snakeTail : Char → Name → Bool
  | prev, [] => prev != '_'
  | prev, c :: cs =>
    (if c = '_' then prev != '_'
     else if isDigit c then true
     else isLower c && !isDigit prev) && snakeTail c cs

def snake : Name → Bool
  | [] => false
  | c :: cs => isLower c && snakeTail c cs

/-- The way back. -/
def back : Name → Name
  | [] => []
  | c :: cs => (if isUpper c then ['_', lower c] else [c]) ++ back cs

theorem char_of_toNat (c : Char) (n : Nat) (h : c.toNat = n) : c = Char.ofNat n := by
  rw [← h]; exact (Char.ofNat_toNat c).symm

theorem lower_cases (P : Char → Prop) (h : ∀ n : Fin 26, P (Char.ofNat (97 + n.val))) (c : Char) (hc : isLower c = true) : P c := by
  simp only [isLower, Bool.and_eq_true, decide_eq_true_eq] at hc
  have hn : c.toNat = 97 + (c.toNat - 97) := by omega
  rw [char_of_toNat c _ hn]
  exact h ⟨c.toNat - 97, by omega⟩

theorem digit_cases (P : Char → Prop) (h : ∀ n : Fin 10, P (Char.ofNat (48 + n.val))) (c : Char) (hc : isDigit c = true) : P c := by
  simp only [isDigit, Bool.and_eq_true, decide_eq_true_eq] at hc
  have hn : c.toNat = 48 + (c.toNat - 48) := by omega
  rw [char_of_toNat c _ hn]
  exact h ⟨c.toNat - 48, by omega⟩

theorem lower_facts (c : Char) (hc : isLower c = true) :
    isUpper (upper c) = true ∧ lower (upper c) = c ∧ isUpper c = false ∧ isDigit c = false ∧ c ≠ '.' ∧ c ≠ '_' ∧ upper (upper c) = upper c :=
  lower_cases (fun c => isUpper (upper c) = true ∧ lower (upper c) = c ∧ isUpper c = false ∧ isDigit c = false ∧ c ≠ '.' ∧ c ≠ '_' ∧ upper (upper c) = upper c)
    (by decide) c hc

theorem digit_facts (c : Char) (hc : isDigit c = true) : isUpper c = false ∧ isLower c = false ∧ c ≠ '.' ∧ c ≠ '_' :=
  digit_cases (fun c => isUpper c = false ∧ isLower c = false ∧ c ≠ '.' ∧ c ≠ '_') (by decide) c hc

theorem go_copy (b : Bool) (cs : Name) (h : nextLower cs = false) : go b true cs = go b false cs := by
  cases cs with
  | nil => rfl
  | cons c cs => simp only [nextLower] at h; simp [go, h]

/-- The rest of a name is recovered; `copy` is set exactly after a letter, and an underscore before a letter has been
dropped. -/
theorem back_go (cs : Name) : ∀ (prev : Char) (copy : Bool), snakeTail prev cs = true → (copy = true ↔ isLower prev = true) →
    (isLower prev = true ∨ isDigit prev = true ∨ prev = '_') →
    back (go false copy cs) = if prev = '_' ∧ nextLower cs = true then '_' :: cs else cs := by
  induction cs with
  | nil => intro prev copy _ _ _; simp [go, back, nextLower]
  | cons c cs ih =>
    intro prev copy h hcopy hprev
    simp only [snakeTail, Bool.and_eq_true] at h
    obtain ⟨hc, ht⟩ := h
    by_cases hl : isLower c = true
    · obtain ⟨h1, h2, hu, hd, hdot, hus, _⟩ := lower_facts c hl
      simp only [hus, if_false, hd, Bool.false_eq_true, hl, Bool.true_and, Bool.not_eq_true'] at hc
      have hrest := ih c true ht (by simp [hl]) (.inl hl)
      simp only [hus, false_and, if_false] at hrest
      by_cases hp : isLower prev = true
      · have hpu : prev ≠ '_' := (lower_facts prev hp).2.2.2.2.2.1
        simp [go, hcopy.mpr hp, hl, back, hu, hrest, hpu]
      · have hpu : prev = '_' := by
          rcases hprev with h | h | h
          · exact absurd h hp
          · rw [h] at hc; cases hc
          · exact h
        have hcf : copy = false := by
          cases copy with
          | false => rfl
          | true => exact absurd (hcopy.mp rfl) hp
        simp [go, hcf, hdot, hus, hd, back, h1, h2, hrest, hpu, nextLower, hl]
    · have hl' : isLower c = false := by simpa using hl
      simp only [nextLower, hl', Bool.false_eq_true, and_false, if_false]
      by_cases hus : c = '_'
      · subst hus
        have hrest := ih '_' false ht (by simp [hl']) (.inr (.inr rfl))
        simp only [true_and] at hrest
        by_cases hn : nextLower cs = true
        · simp only [hn, if_true] at hrest
          simp [go, hl', hn, hrest]
        · have hn' : nextLower cs = false := by simpa using hn
          simp only [hn] at hrest
          rw [← go_copy _ _ hn'] at hrest
          simp [go, hl', hn', isDigit, upper, back, isUpper, hrest]
      · by_cases hd : isDigit c = true
        · obtain ⟨hu, _, hdot, _⟩ := digit_facts c hd
          have hrest := ih c false ht (by simp [hl']) (.inr (.inl hd))
          simp only [hus, false_and, if_false] at hrest
          simp [go, hl', hdot, hus, hd, back, hu, hrest]
        · simp [hus, hd, hl'] at hc

/-- The Go name determines the name. -/
theorem back_goCamelCase (s : Name) (h : snake s = true) : back (toPublicGoVariable s) = '_' :: s := by
  cases s with
  | nil => cases h
  | cons c cs =>
    simp only [snake, Bool.and_eq_true] at h
    obtain ⟨hl, ht⟩ := h
    obtain ⟨h1, h2, hu, hd, hdot, hus, h3⟩ := lower_facts c hl
    have hrest := back_go cs c true ht (by simp [hl]) (.inl hl)
    simp only [hus, false_and, if_false] at hrest
    simp [toPublicGoVariable, goCamelCase, go, hdot, hus, hd, toPublicVariable, back, h1, h2, h3, hrest]

/-- C64 (partial: names in snake case with no letter after a digit): names of variables, fields, services' and
environment variables that differ become different Go names. -/
theorem C64_distinct_partial (a b : Name) (ha : snake a = true) (hb : snake b = true) (h : toPublicGoVariable a = toPublicGoVariable b) : a = b := by
  have := congrArg back h
  rw [back_goCamelCase a ha, back_goCamelCase b hb] at this
  simpa using this

/-- All variables of a message keep their own Go field. -/
theorem C64_fields_partial (names : List Name) (h : ∀ n ∈ names, snake n = true) (hd : names.Nodup) : (names.map toPublicGoVariable).Nodup := by
  induction names with
  | nil => simp
  | cons n ns ih =>
    rw [List.nodup_cons] at hd
    rw [List.map_cons, List.nodup_cons]
    refine ⟨?_, ih (fun m hm => h m (List.mem_cons_of_mem _ hm)) hd.2⟩
    intro hm
    obtain ⟨m, hm, e⟩ := List.mem_map.mp hm
    exact hd.1 (C64_distinct_partial m n (h m (List.mem_cons_of_mem _ hm)) (h n (List.mem_cons_self ..)) e ▸ hm)

/-- Public names start with an upper case letter, so that they are exported. -/
theorem C64_exported (s : Name) (h : snake s = true) : ∃ c cs, toPublicGoVariable s = c :: cs ∧ isUpper c = true := by
  cases s with
  | nil => cases h
  | cons c cs =>
    simp only [snake, Bool.and_eq_true] at h
    obtain ⟨h1, _, _, hd, hdot, hus, h3⟩ := lower_facts c h.1
    refine ⟨upper c, go false true cs, ?_, h1⟩
    simp [toPublicGoVariable, goCamelCase, go, hdot, hus, hd, toPublicVariable, h3]

/-- The private Go name determines the name. -/
theorem back_private (c : Char) (cs : Name) (h : snake (c :: cs) = true) :
    toPrivateGoVariable (c :: cs) = c :: go false true cs ∧ back (toPrivateGoVariable (c :: cs)) = c :: cs := by
  simp only [snake, Bool.and_eq_true] at h
  obtain ⟨hl, ht⟩ := h
  obtain ⟨h1, h2, hu, hd, hdot, hus, h3⟩ := lower_facts c hl
  have hrest := back_go cs c true ht (by simp [hl]) (.inl hl)
  simp only [hus, false_and, if_false] at hrest
  have he : toPrivateGoVariable (c :: cs) = c :: go false true cs := by
    simp [toPrivateGoVariable, goCamelCase, go, hdot, hus, hd, toPrivateVariable, h2]
  refine ⟨he, ?_⟩
  rw [he]
  simp [back, hu, hrest]

/-- C64 (partial: names in snake case with no letter after a digit): the names of local variables and of the fields that hold clients start
with a lower case letter, and are different for different names. -/
theorem C64_private_partial (a b : Name) (ha : snake a = true) (hb : snake b = true) :
    (∃ c cs, toPrivateGoVariable a = c :: cs ∧ isLower c = true) ∧ (toPrivateGoVariable a = toPrivateGoVariable b → a = b) := by
  cases a with
  | nil => cases ha
  | cons c cs =>
    cases b with
    | nil => cases hb
    | cons d ds =>
      obtain ⟨h1, h2⟩ := back_private c cs ha
      obtain ⟨_, h4⟩ := back_private d ds hb
      refine ⟨⟨c, _, h1, ?_⟩, fun h => by rw [← h2, ← h4, h]⟩
      simp only [snake, Bool.and_eq_true] at ha
      exact ha.1

/-- C64 is false of the code in general: names in different styles become the same Go name. -/
theorem C64_styles_false :
    toPublicGoVariable "user_id".toList = toPublicGoVariable "userId".toList ∧ toPublicGoVariable "user".toList = toPublicGoVariable "User".toList := by
  decide

/-- Also for names in snake case, if a letter follows a digit. -/
theorem C64_digit_false : toPublicGoVariable "line1b".toList = toPublicGoVariable "line1_b".toList := by decide

/-- Full names of different messages become the same Go name, so that their resolver functions or conversion
functions are the same. -/
theorem C64_full_names_false :
    fqdnToGoName "foo.bar.X".toList = fqdnToGoName "foo.Bar.X".toList ∧ fqdnToGoName "foo.A_B".toList = fqdnToGoName "foo.A.B".toList := by
  decide

example : snake "user_id".toList = true ∧ snake "address_line_2".toList = true ∧ snake "v1_name".toList = true ∧
    toPublicGoVariable "address_line_2".toList = "AddressLine_2".toList ∧ toPublicGoVariable "v1_name".toList = "V1Name".toList ∧
    toPrivateGoVariable "user_id".toList = "userId".toList := by decide

end Verif.GoNames
