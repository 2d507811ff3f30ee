import Verif.Sig.Model

/-! # C61: overloads of plugin functions -/

namespace Verif.Sig

/-- A place of declared type `t` can be used with type `t'`: the same, or an integer for an enum. -/
def Usable (t t' : Ty) : Prop := t' = t ∨ (isEnum t = true ∧ t' = .int32)

/-- Every argument position is usable. -/
inductive UsableArgs : List Ty → List Ty → Prop
  | nil : UsableArgs [] []
  | cons {t t' as as'} : Usable t t' → UsableArgs as as' → UsableArgs (t :: as) (t' :: as')

theorem usable_refl (l : List Ty) : UsableArgs l l := by
  induction l with
  | nil => exact .nil
  | cons a l ih => exact .cons (Or.inl rfl) ih

theorem usable_int {t : Ty} (h : Usable .int32 t) : t = .int32 := by
  rcases h with h | ⟨h, _⟩
  · exact h
  · cases h

theorem usable_append {a b a' b'} (h1 : UsableArgs a a') (h2 : UsableArgs b b') : UsableArgs (a ++ b) (a' ++ b') := by
  induction h1 with
  | nil => exact h2
  | cons h _ ih => exact .cons h ih

theorem usable_set {pre a as l} (he : isEnum a = true) (h : UsableArgs (pre ++ .int32 :: as) l) :
    UsableArgs (pre ++ a :: as) l := by
  induction pre generalizing l with
  | nil =>
    cases h with
    | cons h1 h2 => exact .cons (Or.inr ⟨he, usable_int h1⟩) h2
  | cons p pre ih =>
    cases h with
    | cons h1 h2 => exact .cons h1 (ih h2)

theorem overArgs_mem (rec : List Ty → List Sig) (pre args : List Ty) (s : Sig) :
    s ∈ overArgs rec pre args ↔ ∃ l a r, args = l ++ a :: r ∧ isEnum a = true ∧ s ∈ rec (pre ++ l ++ .int32 :: r) := by
  induction args generalizing pre with
  | nil => simp [overArgs]
  | cons a as ih =>
    simp only [overArgs, List.mem_append, ih]
    constructor
    · rintro (h | ⟨l, b, r, rfl, hb, hs⟩)
      · split at h
        · rename_i he; exact ⟨[], a, as, rfl, he, by simpa using h⟩
        · cases h
      · exact ⟨a :: l, b, r, rfl, hb, by simpa using hs⟩
    · rintro ⟨l, b, r, h, hb, hs⟩
      cases l with
      | nil =>
        simp only [List.nil_append, List.cons.injEq] at h
        obtain ⟨rfl, rfl⟩ := h
        left; rw [if_pos hb]; simpa using hs
      | cons c l =>
        simp only [List.cons_append, List.cons.injEq] at h
        obtain ⟨rfl, rfl⟩ := h
        right; exact ⟨l, b, r, rfl, hb, by simpa using hs⟩

theorem enums_set (l : List Ty) (a : Ty) (r : List Ty) (h : isEnum a = true) :
    enums (l ++ a :: r) = enums (l ++ .int32 :: r) + 1 := by
  simp only [enums, List.countP_append, List.countP_cons, h]
  simp [isEnum]; omega

theorem usable_diff {args as : List Ty} (h : UsableArgs args as) (hne : as ≠ args) :
    ∃ l a r, args = l ++ a :: r ∧ isEnum a = true ∧ UsableArgs (l ++ .int32 :: r) as := by
  induction h with
  | nil => exact absurd rfl hne
  | @cons t t' l l' h1 h2 ih =>
    by_cases ht : t' = t
    · subst ht
      have : l' ≠ l := fun h => hne (by rw [h])
      obtain ⟨p, a, r, rfl, he, hu⟩ := ih this
      exact ⟨t' :: p, a, r, rfl, he, .cons (Or.inl rfl) hu⟩
    · rcases h1 with h1 | ⟨he, rfl⟩
      · exact absurd h1 ht
      · exact ⟨[], t, l, rfl, he, .cons (Or.inl rfl) h2⟩

theorem sigs_sound (fuel : Nat) (args : List Ty) (ret : Ty) (s : Sig) (h : s ∈ sigs fuel args ret) :
    UsableArgs args s.args ∧ Usable ret s.ret := by
  induction fuel generalizing args ret with
  | zero => cases h
  | succ fuel ih =>
    simp only [sigs, List.mem_append, List.mem_singleton, overArgs_mem] at h
    rcases h with (⟨l, a, r, rfl, he, h⟩ | h) | rfl
    · obtain ⟨h1, h2⟩ := ih _ _ h
      exact ⟨usable_set he (by simpa using h1), h2⟩
    · split at h
      · rename_i he
        obtain ⟨h1, h2⟩ := ih _ _ h
        exact ⟨h1, Or.inr ⟨he, usable_int h2⟩⟩
      · cases h
    · exact ⟨usable_refl _, Or.inl rfl⟩

theorem sigs_complete (fuel : Nat) (args : List Ty) (ret : Ty) (s : Sig)
    (hf : enums args + (if isEnum ret then 1 else 0) < fuel)
    (h1 : UsableArgs args s.args) (h2 : Usable ret s.ret) : s ∈ sigs fuel args ret := by
  induction fuel generalizing args ret with
  | zero => omega
  | succ fuel ih =>
    simp only [sigs, List.mem_append, List.mem_singleton, overArgs_mem]
    by_cases hargs : s.args = args
    · by_cases hret : s.ret = ret
      · right; cases s; simp only at hargs hret; rw [hargs, hret]
      · rcases h2 with h2 | ⟨he, hr⟩
        · exact absurd h2 hret
        · left; right
          rw [if_pos he]
          rw [if_pos he] at hf
          refine ih args .int32 ?_ h1 (Or.inl hr)
          simp only [isEnum, Bool.false_eq_true, if_false]; omega
    · obtain ⟨l, a, r, rfl, he, hu⟩ := usable_diff h1 hargs
      left; left
      refine ⟨l, a, r, rfl, he, ?_⟩
      refine ih _ ret ?_ (by simpa using hu) h2
      rw [enums_set l a r he] at hf
      simp only [List.nil_append]
      omega

/-- The bound of the model is never reached: a larger one gives the same signatures. -/
theorem C61_fuel (n : Nat) (args : List Ty) (ret : Ty) (s : Sig) :
    s ∈ signatures args ret ↔ s ∈ sigs (enums args + 2 + n) args ret := by
  constructor
  · intro h
    obtain ⟨h1, h2⟩ := sigs_sound _ _ _ _ h
    exact sigs_complete _ _ _ _ (by split <;> omega) h1 h2
  · intro h
    obtain ⟨h1, h2⟩ := sigs_sound _ _ _ _ h
    exact sigs_complete _ _ _ _ (by split <;> omega) h1 h2

theorem dedup_mem {I} [DecidableEq I] (id : Sig → I) (hid : ∀ a b, id a = id b → a = b) (seen : List I) (ss : List Sig) (s : Sig) :
    s ∈ dedup id seen ss ↔ s ∈ ss ∧ id s ∉ seen := by
  induction ss generalizing seen with
  | nil => simp [dedup]
  | cons x ss ih =>
    simp only [dedup]
    by_cases hx : id x ∈ seen
    · rw [if_pos hx, ih]
      constructor
      · rintro ⟨h1, h2⟩; exact ⟨by simp [h1], h2⟩
      · rintro ⟨h1, h2⟩
        rcases List.mem_cons.mp h1 with rfl | h1
        · exact absurd hx h2
        · exact ⟨h1, h2⟩
    · rw [if_neg hx, List.mem_cons, ih]
      constructor
      · rintro (rfl | ⟨h1, h2⟩)
        · exact ⟨by simp, hx⟩
        · simp only [List.mem_cons, not_or] at h2
          exact ⟨by simp [h1], h2.2⟩
      · rintro ⟨h1, h2⟩
        by_cases hsx : s = x
        · exact Or.inl hsx
        · right
          rcases List.mem_cons.mp h1 with rfl | h1
          · exact absurd rfl hsx
          · refine ⟨h1, ?_⟩
            simp only [List.mem_cons, not_or]
            exact ⟨fun h => hsx (hid _ _ h), h2⟩

theorem dedup_nodup {I} [DecidableEq I] (id : Sig → I) (seen : List I) (ss : List Sig) :
    ((dedup id seen ss).map id).Nodup ∧ ∀ s ∈ dedup id seen ss, id s ∉ seen := by
  induction ss generalizing seen with
  | nil => simp [dedup]
  | cons x ss ih =>
    simp only [dedup]
    by_cases hx : id x ∈ seen
    · rw [if_pos hx]; exact ih seen
    · rw [if_neg hx]
      obtain ⟨h1, h2⟩ := ih (id x :: seen)
      refine ⟨?_, ?_⟩
      · rw [List.map_cons, List.nodup_cons]
        refine ⟨?_, h1⟩
        intro hm
        obtain ⟨s, hs, he⟩ := List.mem_map.mp hm
        exact h2 s hs (by simp [he])
      · intro s hs
        rcases List.mem_cons.mp hs with rfl | hs
        · exact hx
        · exact fun h => h2 s hs (by simp [h])

/-- C61 (partial: identifiers of signatures are different, see C48): the overloads of a function are all
combinations of using an enum or an integer at every place of enum type, and no others. -/
theorem C61_overloads_partial {I} [DecidableEq I] (id : Sig → I) (hid : ∀ a b, id a = id b → a = b) (args : List Ty) (ret : Ty)
    (s : Sig) : s ∈ overloads id args ret ↔ UsableArgs args s.args ∧ Usable ret s.ret := by
  unfold overloads
  rw [dedup_mem id hid]
  simp only [List.not_mem_nil, not_false_eq_true, and_true]
  constructor
  · exact sigs_sound _ _ _ _
  · rintro ⟨h1, h2⟩
    exact sigs_complete _ _ _ _ (by split <;> omega) h1 h2

/-- C61: no overload is registered twice. -/
theorem C61_distinct {I} [DecidableEq I] (id : Sig → I) (args : List Ty) (ret : Ty) :
    ((overloads id args ret).map id).Nodup := (dedup_nodup id [] _).1

/-- Whether the type is a list. -/
def isList : Ty → Bool
  | .enum _ r => r
  | _ => false

/-- C61 is false of the code for lists of enums: a single integer is accepted instead of a list. -/
theorem C61_list_of_enums_false {I} [DecidableEq I] (id : Sig → I) (hid : ∀ a b, id a = id b → a = b) :
    isList (.enum 0 true) = true ∧ isList .int32 = false ∧ ⟨[.int32], .other 1⟩ ∈ overloads id [.enum 0 true] (.other 1) := by
  refine ⟨rfl, rfl, ?_⟩
  rw [C61_overloads_partial id hid]
  exact ⟨.cons (Or.inr ⟨rfl, rfl⟩) .nil, Or.inl rfl⟩

example : (overloads (fun s => s) [.enum 0 false, .other 7, .enum 1 false] (.other 2)).length = 4 := by decide
example : overloads (fun s => s) [.enum 0 false] (.enum 1 false) =
    [⟨[.int32], .int32⟩, ⟨[.int32], .enum 1 false⟩, ⟨[.enum 0 false], .int32⟩, ⟨[.enum 0 false], .enum 1 false⟩] := by decide

end Verif.Sig
