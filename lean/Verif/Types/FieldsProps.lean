import Verif.Types.Fields
import Verif.Types.Props

/-! # C124: which values are accepted for the fields of a message -/

namespace Verif.Types

/-! ## Specification -/

/-- The types an expression can choose from: itself, or those of both cases of `enum.select`, at any nesting. -/
inductive Choice : Ty → Ty → Prop
  | self {t} (h : ∀ a b, t ≠ .selector a b) : Choice t t
  | left {t f x} : Choice t x → Choice (.selector t f) x
  | right {t f x} : Choice f x → Choice (.selector t f) x

/-- A value of the type is a value of the enum, or of one that is declared to be its alias (on either side); null is the empty list. -/
inductive FitsEnum (S : Schema) (e : Name) (list : Bool) : Ty → Prop
  | same {r} : FitsEnum S e list (.enum e r)
  | alias {e' r} (h : e ∈ S.enumAliases e' ∨ e' ∈ S.enumAliases e) : FitsEnum S e list (.enum e' r)
  | null (h : list = true) : FitsEnum S e list .null

/-! ## Theorems -/

theorem bind_leaf (S : Schema) (e : Name) (r : Bool) (t : Ty) (h : ∀ a b, t ≠ .selector a b) :
    bindErrs S t (.enum e r) = [] ↔ FitsEnum S e r t := by
  cases t with
  | selector a b => exact absurd rfl (h a b)
  | scalar k r' =>
    constructor
    · intro h; simp [bindErrs, diffErr, isDifferent, isNumber, kindOf] at h
    · intro h; cases h
  | msg m r' =>
    constructor
    · intro h; simp [bindErrs] at h
    · intro h; cases h
  | null =>
    constructor
    · intro h
      cases r
      · simp [bindErrs, diffErr, isDifferent, isNumber, kindOf, repeated] at h
      · exact .null rfl
    · intro h
      cases h with
      | null h => subst h; simp [bindErrs, diffErr, isDifferent, isNumber, kindOf, repeated]
  | enum a r' =>
    simp only [bindErrs, enumErrs]
    constructor
    · intro h
      split at h
      · rename_i hab; subst hab; exact .same
      · split at h
        · rename_i ha
          simp [aliased] at ha
          exact .alias ha
        · simp at h
    · intro h
      split
      · rfl
      · rename_i hab
        cases h with
        | same => exact absurd rfl hab
        | alias h =>
          rw [if_pos (by simpa [aliased] using h)]
          simp [diffErr, isDifferent, isNumber, kindOf]

/-- C124: a value is accepted for a field of an enum by autobind or from a field of an aliased message exactly if all it can be is of
that enum or an alias of it. -/
theorem C124_bound_iff (S : Schema) (e : Name) (r : Bool) (t : Ty) :
    bindErrs S t (.enum e r) = [] ↔ ∀ x, Choice t x → FitsEnum S e r x := by
  induction t with
  | selector a b iha ihb =>
    have : bindErrs S (.selector a b) (.enum e r) = bindErrs S a (.enum e r) ++ bindErrs S b (.enum e r) := by
      simp [bindErrs]
    rw [this, List.append_eq_nil_iff, iha, ihb]
    constructor
    · rintro ⟨h1, h2⟩ x hx
      cases hx with
      | self h => exact absurd rfl (h a b)
      | left h => exact h1 x h
      | right h => exact h2 x h
    · exact fun h => ⟨fun x hx => h x (.left hx), fun x hx => h x (.right hx)⟩
  | scalar _ _ => rw [bind_leaf _ _ _ _ (by simp)]; exact ⟨fun h x hx => by cases hx; exact h, fun h => h _ (.self (by simp))⟩
  | msg _ _ => rw [bind_leaf _ _ _ _ (by simp)]; exact ⟨fun h x hx => by cases hx; exact h, fun h => h _ (.self (by simp))⟩
  | enum _ _ => rw [bind_leaf _ _ _ _ (by simp)]; exact ⟨fun h x hx => by cases hx; exact h, fun h => h _ (.self (by simp))⟩
  | null => rw [bind_leaf _ _ _ _ (by simp)]; exact ⟨fun h x hx => by cases hx; exact h, fun h => h _ (.self (by simp))⟩

/-- C124: the value of an expression is accepted for a field of an enum exactly if all it can be is of that enum or an alias of it and,
when the enum has several aliases, it is of the enum itself or chosen by `enum.select`. -/
theorem C124_by_iff (S : Schema) (e : Name) (r : Bool) (t : Ty) :
    byErrs S (some t) (.enum e r) = [] ↔
      (∀ x, Choice t x → FitsEnum S e r x) ∧
      (2 ≤ (S.enumAliases e).length → (∃ r', t = .enum e r') ∨ ∃ a b, t = .selector a b) := by
  have hs : needsSelect S (some t) (.enum e r) = false ↔
      (2 ≤ (S.enumAliases e).length → (∃ r', t = .enum e r') ∨ ∃ a b, t = .selector a b) := by
    simp only [needsSelect]
    split
    · exact ⟨fun _ h => by omega, fun _ => rfl⟩
    · have h2 : 2 ≤ (S.enumAliases e).length := by omega
      cases t <;> simp [h2]
  rw [← C124_bound_iff, ← hs]
  simp only [byErrs]
  cases hn : needsSelect S (some t) (.enum e r) <;> simp

/-- C124: for fields of other types the expression only has to be of a fitting type (C39). -/
theorem C124_by_other (S : Schema) (to t : Ty) (h : ∀ e r, to ≠ .enum e r) : byErrs S (some t) to = (bindErrs S t to).map .bind := by
  cases to <;> first | exact absurd rfl (h _ _) | rfl

/-- C124: writing `enum.select(c, v, v)` instead of `v` makes every value acceptable that could be bound automatically. -/
theorem C124_select (S : Schema) (e : Name) (r : Bool) (t : Ty) :
    byErrs S (some (.selector t t)) (.enum e r) = [] ↔ bindErrs S t (.enum e r) = [] := by
  rw [C124_by_iff, C124_bound_iff]
  constructor
  · exact fun h x hx => h.1 x (.left hx)
  · refine fun h => ⟨fun x hx => ?_, fun _ => .inr ⟨_, _, rfl⟩⟩
    cases hx with
    | self h => exact absurd rfl (h t t)
    | left h' => exact h x h'
    | right h' => exact h x h'

/-- C124: every field is looked at by itself: the errors at a position are those of the field there, and a message without an option has
none. -/
theorem C124_each_field (S : Schema) (hasRule : Bool) (fs : List Fld) (i : Nat) (x : FErr) :
    (i, x) ∈ messageErrs S hasRule fs ↔ hasRule = true ∧ ∃ f, fs[i]? = some f ∧ x ∈ fieldErrs S f := by
  cases hasRule
  · simp [messageErrs]
  · simp only [messageErrs, if_true, List.mem_flatMap, List.mem_map, Prod.mk.injEq, true_and]
    constructor
    · rintro ⟨⟨f, j⟩, hm, y, hy, rfl, rfl⟩
      exact ⟨f, by simpa [List.mem_zipIdx_iff_getElem?] using hm, hy⟩
    · rintro ⟨f, hf, hx⟩
      exact ⟨(f, i), by simpa [List.mem_zipIdx_iff_getElem?] using hf, x, hx, rfl, rfl⟩

/-- C124: a message with an option is accepted exactly if every field has an option and, unless that is a custom resolver, the expression,
the fields of all aliased messages and the field bound automatically are each accepted for it. -/
theorem C124_accepted_iff (S : Schema) (fs : List Fld) (hty : ∀ f ∈ fs, f.ty ≠ none) :
    messageErrs S true fs = [] ↔ ∀ f ∈ fs, ∃ to r, f.ty = some to ∧ f.rule = some r ∧ (r.custom = false →
      (∀ t, r.value = some (some t) → byErrs S (some t) to = []) ∧ (∀ t ∈ r.aliases, bindErrs S t to = []) ∧
      ∀ t, r.autoBind = some t → bindErrs S t to = []) := by
  have hm : messageErrs S true fs = [] ↔ ∀ f ∈ fs, fieldErrs S f = [] := by
    constructor
    · intro h f hf
      obtain ⟨i, hi, rfl⟩ := List.getElem_of_mem hf
      rw [List.eq_nil_iff_forall_not_mem]
      intro x hx
      have := (C124_each_field S true fs i x).2 ⟨rfl, _, List.getElem?_eq_getElem hi, hx⟩
      rw [h] at this
      cases this
    · intro h
      rw [List.eq_nil_iff_forall_not_mem]
      rintro ⟨i, x⟩ hx
      obtain ⟨_, f, hf, hx⟩ := (C124_each_field S true fs i x).1 hx
      rw [h f (List.mem_of_getElem? hf)] at hx
      cases hx
  rw [hm]
  refine forall_congr' fun f => forall_congr' fun hf => ?_
  obtain ⟨ty, rule⟩ := f
  cases ty with
  | none => exact absurd rfl (hty _ hf)
  | some to =>
    cases rule with
    | none => simp [fieldErrs]
    | some r =>
      obtain ⟨c, v, as, ab, ob⟩ := r
      cases c
      · simp only [fieldErrs, Bool.false_eq_true, if_false, List.append_eq_nil_iff, List.flatMap_eq_nil_iff, List.map_eq_nil_iff]
        constructor
        · rintro ⟨⟨h1, h2⟩, h3⟩
          refine ⟨to, _, rfl, rfl, fun _ => ⟨?_, h2, ?_⟩⟩
          · rintro t rfl; exact h1
          · rintro t rfl; simpa using h3
        · rintro ⟨to', r', hto, hr, h⟩
          cases hto
          cases hr
          obtain ⟨h1, h2, h3⟩ := h rfl
          refine ⟨⟨?_, h2⟩, ?_⟩
          · rcases v with _ | _ | t
            · rfl
            · cases to <;> simp [byErrs, needsSelect]
            · exact h1 t rfl
          · cases ab with
            | none => rfl
            | some t => simpa using h3 t rfl
      · simp [fieldErrs]

/-! ## Concrete cases -/

/-- The enum `e` is an alias of `v1` and of `v2`, the enum `d` only of `v1`. -/
def twoAliases : Schema where
  mapEntry _ := none
  msgAliases _ := []
  enumAliases n := if n = "e" then ["v1", "v2"] else if n = "d" then ["v1"] else []
  wrapper _ := false

/-- The same enum can be bound automatically, not by an expression, and by an expression that selects it. -/
example : fieldErrs twoAliases ⟨some (.enum "e" false), some { autoBind := some (.enum "v1" false) }⟩ = [] ∧
    fieldErrs twoAliases ⟨some (.enum "e" false), some { value := some (some (.enum "v1" false)) }⟩ = [.select] ∧
    fieldErrs twoAliases ⟨some (.enum "e" false),
      some { value := some (some (.selector (.enum "v1" false) (.enum "v2" false))) }⟩ = [] ∧
    fieldErrs twoAliases ⟨some (.enum "d" false), some { value := some (some (.enum "v1" false)) }⟩ = [] := by decide

example : messageErrs twoAliases true [⟨some (.enum "d" false), none⟩, ⟨some (.enum "d" false), some { custom := true }⟩,
    ⟨some (.enum "e" true), some { value := some (some (.selector (.enum "v1" false) (.scalar .int64 false))) }⟩] =
    [(0, .noRule), (2, .bind .differs)] := by decide

/-- C124 fails for members of oneofs: whatever the type of the expression in the option of the member is, it is accepted. -/
theorem C124_oneof_false : (∀ (S : Schema) (to t : Ty), fieldErrs S ⟨some to, some { oneofBy := some t }⟩ = []) ∧
    ∃ (S : Schema) (t : Ty), byErrs S (some t) (.enum "e" false) ≠ [] := by
  exact ⟨fun _ _ _ => rfl, twoAliases, .scalar .string false, by decide⟩

end Verif.Types
