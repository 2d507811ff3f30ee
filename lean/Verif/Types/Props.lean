import Verif.Types.Spec

/-! # C39: assignable types -/

namespace Verif.Types

theorem numeric_iff (k : Kind) : k ∈ numeric ↔ isNumberKind k = true := by
  cases k <;> decide

theorem scalar_iff (S : Schema) (k k' : Kind) (r r' : Bool) :
    isDifferent (.scalar k r) (.scalar k' r') = false ↔ Compat S (.scalar k r) (.scalar k' r') := by
  constructor
  · intro h
    by_cases hn : isNumberKind k = true ∧ isNumberKind k' = true
    · exact .number ((numeric_iff k).mpr hn.1) ((numeric_iff k').mpr hn.2)
    · have : k = k' := by
        have hn' : (isNumber (.scalar k r) && isNumber (.scalar k' r')) = false := by
          cases h1 : isNumberKind k <;> cases h2 : isNumberKind k' <;> simp_all [isNumber]
        simp only [isDifferent, hn', kindOf] at h
        simpa using h
      subst this
      exact .same
  · intro h
    cases h with
    | number h1 h2 =>
      have h1 := (numeric_iff k).mp h1
      have h2 := (numeric_iff k').mp h2
      simp [isDifferent, isNumber, h1, h2]
    | same => simp [isDifferent, kindOf]

theorem diffErr_nil (e : Err) (a b : Ty) : diffErr e a b = [] ↔ isDifferent a b = false := by
  unfold diffErr
  cases isDifferent a b <;> simp

/-- Maps whose keys and values are scalars. -/
def ScalarMaps (S : Schema) : Prop :=
  ∀ m k v, S.mapEntry m = some (k, v) → (∃ x r, k = .scalar x r) ∧ ∃ x r, v = .scalar x r

theorem msg_iff (S : Schema) (hS : S.Wf) (hmap : ScalarMaps S) (a b : Name) (r r' : Bool) :
    msgErrs S (.msg a r) (.msg b r') a b = [] ↔ Compat S (.msg a r) (.msg b r') := by
  unfold msgErrs
  cases hw : (S.wrapper a && S.wrapper b) with
  | true =>
    simp only [if_true, true_iff]
    simp only [Bool.and_eq_true] at hw
    exact .wrapper hw.1 hw.2
  | false =>
    simp only [Bool.false_eq_true, if_false]
    cases ha : S.mapEntry a with
    | none =>
      simp only
      by_cases hab : a = b
      · subst hab; simp only [if_true, true_iff]; exact .msgSame
      · simp only [hab, if_false]
        cases hal : aliased S.msgAliases a b with
        | true =>
          simp only [if_true, diffErr_nil]
          constructor
          · intro _
            apply Compat.msgAlias
            simpa [aliased] using hal
          · intro _; simp [isDifferent, kindOf, isNumber]
        | false =>
          simp only [Bool.false_eq_true, if_false, reduceCtorEq, false_iff]
          intro h
          cases h with
          | msgSame => exact hab rfl
          | msgAlias h => simp [aliased] at hal; rcases h with h | h <;> simp_all
          | wrapper h1 h2 => simp [h1, h2] at hw
          | map h1 _ _ _ => rw [ha] at h1; cases h1
    | some p =>
      obtain ⟨k, v⟩ := p
      cases hb : S.mapEntry b with
      | some q =>
        obtain ⟨k', v'⟩ := q
        simp only [List.append_eq_nil_iff, diffErr_nil]
        obtain ⟨⟨kx, kr, rfl⟩, vx, vr, rfl⟩ := hmap a _ _ ha
        obtain ⟨⟨kx', kr', rfl⟩, vx', vr', rfl⟩ := hmap b _ _ hb
        constructor
        · rintro ⟨h1, h2⟩
          exact .map ha hb ((scalar_iff S _ _ _ _).mp h1) ((scalar_iff S _ _ _ _).mp h2)
        · intro h
          cases h with
          | msgSame => rw [ha] at hb; cases hb; simp [isDifferent, kindOf]
          | msgAlias h => have := hS.map a b (by simp [ha]); rcases h with h | h <;> simp_all
          | wrapper h1 h2 => simp [h1, h2] at hw
          | map h1 h2 h3 h4 =>
            rw [ha] at h1; rw [hb] at h2
            cases h1; cases h2
            exact ⟨(scalar_iff S _ _ _ _).mpr h3, (scalar_iff S _ _ _ _).mpr h4⟩
      | none =>
        simp only
        by_cases hab : a = b
        · subst hab; rw [ha] at hb; cases hb
        · simp only [hab, if_false]
          have hn := hS.map a b (by simp [ha])
          have hal : aliased S.msgAliases a b = false := by simp [aliased, hn]
          simp only [hal, Bool.false_eq_true, if_false, reduceCtorEq, false_iff]
          intro h
          cases h with
          | msgSame => exact hab rfl
          | msgAlias h => rcases h with h | h <;> simp_all
          | wrapper h1 h2 => simp [h1, h2] at hw
          | map _ h2 _ _ => rw [hb] at h2; cases h2

theorem enum_iff (S : Schema) (a b : Name) (r r' : Bool) :
    enumErrs S (.enum a r) (.enum b r') a b = [] ↔ Compat S (.enum a r) (.enum b r') := by
  unfold enumErrs
  by_cases hab : a = b
  · subst hab; simp only [if_true, true_iff]; exact .enumSame
  · simp only [hab, if_false]
    cases hal : aliased S.enumAliases a b with
    | true =>
      simp only [if_true, diffErr_nil]
      constructor
      · intro _
        apply Compat.enumAlias
        simpa [aliased] using hal
      · intro _; simp [isDifferent, kindOf, isNumber]
    | false =>
      simp only [Bool.false_eq_true, if_false, reduceCtorEq, false_iff]
      intro h
      cases h with
      | enumSame => exact hab rfl
      | enumAlias h => simp [aliased] at hal; rcases h with h | h <;> simp_all

theorem null_iff (S : Schema) (to : Ty) (hto : Declared to) : isDifferent .null to = false ↔ Compat S .null to := by
  constructor
  · intro h
    cases to with
    | scalar k r =>
      by_cases hr : r = true
      · subst hr
        exact .nullList (by constructor)
      · simp [isDifferent, isNumber, kindOf, repeated, hr] at h
        subst h; exact .nullBytes
    | msg m r => exact .nullMsg
    | enum e r =>
      by_cases hr : r = true
      · subst hr
        exact .nullList (by constructor)
      · simp [isDifferent, isNumber, kindOf, repeated, hr] at h
    | selector _ _ => cases hto
    | null => cases hto
  · intro h
    cases h with
    | nullMsg => simp [isDifferent, isNumber, kindOf]
    | nullBytes => simp [isDifferent, isNumber, kindOf]
    | nullList h => cases h <;> simp [isDifferent, isNumber, repeated]

theorem scalar_to (S : Schema) (k : Kind) (r : Bool) (to : Ty) (hto : Declared to) :
    isDifferent (.scalar k r) to = false ↔ Compat S (.scalar k r) to := by
  cases to with
  | scalar k' r' => exact scalar_iff S k k' r r'
  | msg m r' =>
    constructor
    · intro h; simp [isDifferent, isNumber, kindOf] at h
    · intro h; cases h
  | enum e r' =>
    constructor
    · intro h; simp [isDifferent, isNumber, kindOf] at h
    · intro h; cases h
  | selector _ _ => cases hto
  | null => cases hto

/-- Binding a value of any type to a response field: accepted exactly if the values are compatible,
for targets other than the ones an enum is wrongly accepted for. -/
theorem bind_iff (S : Schema) (hS : S.Wf) (hmap : ScalarMaps S) (frm to : Ty) (hto : Declared to)
    (henum : ∀ e r, frm = .enum e r → isNumber to = true ∨ kindOf to = .enum) :
    bindErrs S frm to = [] ↔ Compat S frm to := by
  induction frm with
  | scalar k r => rw [bindErrs, diffErr_nil]; exact scalar_to S k r to hto
  | null => rw [bindErrs, diffErr_nil]; exact null_iff S to hto
  | msg a r =>
    cases to with
    | scalar k r' => simp only [bindErrs, reduceCtorEq, false_iff]; intro h; cases h
    | enum k r' => simp only [bindErrs, reduceCtorEq, false_iff]; intro h; cases h
    | msg b r' => simp only [bindErrs]; exact msg_iff S hS hmap a b r r'
    | selector _ _ => cases hto
    | null => cases hto
  | enum a r =>
    cases to with
    | scalar k r' =>
      simp only [bindErrs, true_iff]
      rcases henum a r rfl with h | h
      · exact .enumNumber ((numeric_iff k).mpr h)
      · cases h
    | msg b r' => rcases henum a r rfl with h | h <;> cases h
    | enum b r' => simp only [bindErrs]; exact enum_iff S a b r r'
    | selector _ _ => cases hto
    | null => cases hto
  | selector t f iht ihf =>
    cases to with
    | scalar k r' => simp only [bindErrs, reduceCtorEq, false_iff]; intro h; cases h
    | enum e r' =>
      have h1 := iht (fun _ _ _ => Or.inr rfl)
      have h2 := ihf (fun _ _ _ => Or.inr rfl)
      simp only [bindErrs, List.append_eq_nil_iff, h1, h2]
      constructor
      · rintro ⟨h1, h2⟩; exact .selector h1 h2
      · intro h; cases h with | selector h1 h2 => exact ⟨h1, h2⟩
    | msg b r' =>
      constructor
      · intro h
        exfalso
        simp only [bindErrs, msgErrs, hS.selectorMap.1, hS.selectorMap.2, Bool.false_and, Bool.false_eq_true, if_false] at h
        split at h
        · rename_i h'; exact absurd h'.symm hto
        · have : aliased S.msgAliases selectorName b = false := by
            simp [aliased, hS.selector b]
          simp [this] at h
      · intro h; cases h
    | selector _ _ => cases hto
    | null => cases hto

/-- C39 (partial: lists with lists, maps of scalars, enums not to other kinds). A value is accepted
for a response field exactly if the types are compatible. -/
theorem C39_bind_partial (S : Schema) (hS : S.Wf) (hmap : ScalarMaps S) (frm to : Ty) (hto : Declared to)
    (henum : ∀ e r, frm = .enum e r → (∃ k r', to = .scalar k r' ∧ k ∈ numeric) ∨ ∃ f r', to = .enum f r')
    (hrep : frm = .null ∨ (IsList frm ↔ IsList to)) :
    bindErrs S frm to = [] ↔ Compatible S frm to := by
  have henum' : ∀ e r, frm = .enum e r → isNumber to = true ∨ kindOf to = .enum := by
    intro e r h
    rcases henum e r h with ⟨k, r', rfl, hk⟩ | ⟨f, r', rfl⟩
    · exact .inl ((numeric_iff _).mp hk)
    · exact .inr rfl
  rw [bind_iff S hS hmap frm to hto henum', Compatible]
  simp [hrep]

/-- C39: a compatible value is never rejected for a response field. -/
theorem C39_bind_complete (S : Schema) (hS : S.Wf) (hmap : ScalarMaps S) (frm to : Ty) (hto : Declared to)
    (h : Compatible S frm to) : bindErrs S frm to = [] := by
  refine (bind_iff S hS hmap frm to hto ?_).mpr h.1
  rintro e r rfl
  cases h.1 with
  | enumNumber hk => left; exact (numeric_iff _).mp hk
  | enumSame => right; rfl
  | enumAlias _ => right; rfl

/-- C39 (partial: scalar targets, messages to messages, enums to enums): the same for request fields. -/
theorem C39_request_partial (S : Schema) (hS : S.Wf) (hmap : ScalarMaps S) (frm to : Ty) (hto : Declared to)
    (hkind : (∃ k r, to = .scalar k r) ∨ (∃ m n r r', frm = .msg m r ∧ to = .msg n r') ∨
      ∃ m n r r', frm = .enum m r ∧ to = .enum n r')
    (hrep : frm = .null ∨ (IsList frm ↔ IsList to)) :
    requestErrs S frm to = [] ↔ Compatible S frm to := by
  have : requestErrs S frm to = [] ↔ Compat S frm to := by
    rcases hkind with ⟨k, r, rfl⟩ | ⟨m, n, r, r', rfl, rfl⟩ | ⟨m, n, r, r', rfl, rfl⟩
    · simp only [requestErrs, diffErr_nil]
      cases frm with
      | scalar k' r' => exact scalar_iff S k' k r' r
      | null => exact null_iff S _ hto
      | msg m r' =>
        constructor
        · intro h; simp [isDifferent, isNumber, kindOf] at h
        · intro h; cases h
      | selector t f =>
        constructor
        · intro h; simp [isDifferent, isNumber, kindOf] at h
        · intro h; cases h
      | enum e r' =>
        constructor
        · intro h
          apply Compat.enumNumber
          rw [numeric_iff]
          cases hn : isNumberKind k with
          | true => rfl
          | false => simp [isDifferent, isNumber, kindOf, hn] at h
        · intro h
          cases h with
          | enumNumber hk => simp [isDifferent, isNumber, kindOf, (numeric_iff k).mp hk]
    · exact msg_iff S hS hmap m n r r'
    · exact enum_iff S m n r r'
  rw [this, Compatible]
  simp [hrep]

/-- C39: a compatible value is never rejected for a request field. -/
theorem C39_request_complete (S : Schema) (hS : S.Wf) (hmap : ScalarMaps S) (frm to : Ty) (hto : Declared to)
    (h : Compatible S frm to) : requestErrs S frm to = [] := by
  cases to with
  | scalar k r => exact (C39_request_partial S hS hmap frm _ hto (Or.inl ⟨k, r, rfl⟩) h.2).mpr h
  | msg n r' =>
    cases frm with
    | msg m r => exact (C39_request_partial S hS hmap _ _ hto (Or.inr (Or.inl ⟨m, n, r, r', rfl, rfl⟩)) h.2).mpr h
    | selector _ _ => cases h.1
    | scalar _ _ => rfl
    | enum _ _ => rfl
    | null => rfl
  | enum n r' =>
    cases frm with
    | enum m r => exact (C39_request_partial S hS hmap _ _ hto (Or.inr (Or.inr ⟨m, n, r, r', rfl, rfl⟩)) h.2).mpr h
    | msg _ _ => rfl
    | selector _ _ => rfl
    | scalar _ _ => rfl
    | null => rfl
  | selector _ _ => cases hto
  | null => cases hto

/-- A schema with an alias from `A` to `B` and a map entry. -/
def exS : Schema where
  mapEntry n := if n = "M" then some (.scalar .string false, .scalar .int32 false)
    else if n = "N" then some (.scalar .string false, .scalar .uint64 false) else none
  msgAliases n := if n = "A" then ["B"] else []
  enumAliases n := if n = "E" then ["F"] else []
  wrapper n := n == "google.protobuf.Int64Value" || n == "google.protobuf.DoubleValue"

example : exS.Wf ∧ ScalarMaps exS ∧ bindErrs exS (.msg "B" true) (.msg "A" true) = [] ∧
    bindErrs exS (.msg "M" true) (.msg "N" true) = [] ∧ bindErrs exS (.msg "B" false) (.msg "C" false) = [.needsAlias] ∧
    bindErrs exS (.selector (.enum "F" false) (.selector (.enum "E" false) (.enum "G" false))) (.enum "E" false) = [.needsAlias] := by
  refine ⟨⟨?_, ?_, ?_⟩, ?_, by decide, by decide, by decide, by decide⟩
  · intro m n h
    by_cases h1 : m = "M"
    · subst h1; refine ⟨by simp [exS], ?_⟩
      by_cases h2 : n = "A" <;> simp [exS, h2]
    · by_cases h1' : m = "N"
      · subst h1'; refine ⟨by simp [exS], ?_⟩
        by_cases h2 : n = "A" <;> simp [exS, h2]
      · simp [exS, h1, h1'] at h
  · intro n
    refine ⟨by simp [exS, selectorName], ?_⟩
    by_cases h2 : n = "A" <;> simp [exS, h2, selectorName]
  · decide
  · intro m k v h
    simp only [exS] at h
    split at h
    · cases h; exact ⟨⟨_, _, rfl⟩, _, _, rfl⟩
    · split at h
      · cases h; exact ⟨⟨_, _, rfl⟩, _, _, rfl⟩
      · cases h

/-- C39 is false of the code: an enum is accepted for a string and for a message field, in any
schema. -/
theorem C39_enum_to_other_false (S : Schema) : bindErrs S (.enum "E" false) (.scalar .string false) = [] ∧
    ¬ Compatible S (.enum "E" false) (.scalar .string false) ∧
    bindErrs S (.enum "E" false) (.msg "M" false) = [] ∧ ¬ Compatible S (.enum "E" false) (.msg "M" false) := by
  refine ⟨rfl, ?_, rfl, ?_⟩
  · rintro ⟨h, _⟩
    cases h with
    | enumNumber h => simp [numeric] at h
  · rintro ⟨h, _⟩
    cases h

/-- C39 is false of the code: lists are accepted for single values and the other way round. -/
theorem C39_repeated_false (S : Schema) (k : Kind) (m : Name) (b : Bool) :
    bindErrs S (.scalar k b) (.scalar k !b) = [] ∧ ¬ Compatible S (.scalar k b) (.scalar k !b) ∧
    (S.mapEntry m = none → bindErrs S (.msg m b) (.msg m !b) = []) ∧ ¬ Compatible S (.msg m b) (.msg m !b) := by
  refine ⟨?_, ?_, ?_, ?_⟩
  · simp [bindErrs, diffErr, isDifferent, kindOf]
  · rintro ⟨_, h | h⟩
    · cases h
    · cases b
      · cases h.2 .scalar
      · cases h.1 .scalar
  · intro h; simp [bindErrs, msgErrs, h]
  · rintro ⟨_, h | h⟩
    · cases h
    · cases b
      · cases h.2 .msg
      · cases h.1 .msg

/-- C39 is false of the code: a request field of message type accepts a string, and one of enum type
a string. -/
theorem C39_request_false (S : Schema) : requestErrs S (.scalar .string false) (.msg "M" false) = [] ∧
    ¬ Compatible S (.scalar .string false) (.msg "M" false) ∧
    requestErrs S (.scalar .string false) (.enum "E" false) = [] ∧
    ¬ Compatible S (.scalar .string false) (.enum "E" false) := by
  refine ⟨rfl, ?_, rfl, ?_⟩
  · rintro ⟨h, _⟩; cases h
  · rintro ⟨h, _⟩; cases h

theorem msg_inv (S : Schema) (a b : Name) (r r' : Bool) (h : Compat S (.msg a r) (.msg b r')) :
    a = b ∨ (b ∈ S.msgAliases a ∨ a ∈ S.msgAliases b) ∨ (S.wrapper a = true ∧ S.wrapper b = true) ∨
    ∃ k v k' v', S.mapEntry a = some (k, v) ∧ S.mapEntry b = some (k', v') ∧ Compat S k k' ∧ Compat S v v' := by
  cases h with
  | msgSame => exact Or.inl rfl
  | msgAlias h => exact Or.inr (Or.inl h)
  | wrapper h1 h2 => exact Or.inr (Or.inr (Or.inl ⟨h1, h2⟩))
  | map h1 h2 h3 h4 => exact Or.inr (Or.inr (Or.inr ⟨_, _, _, _, h1, h2, h3, h4⟩))

/-- C39 is false of the code: maps are compared by the kinds of keys and values only, unrelated
message types are accepted. -/
theorem C39_map_false : ∃ S : Schema, S.Wf ∧ bindErrs S (.msg "M" true) (.msg "N" true) = [] ∧
    ¬ Compatible S (.msg "M" true) (.msg "N" true) := by
  refine ⟨⟨fun n => if n = "M" then some (.scalar .string false, .msg "A" false)
    else if n = "N" then some (.scalar .string false, .msg "B" false) else none, fun _ => [], fun _ => [], fun _ => false⟩,
    ⟨by simp, by simp, by decide⟩, by decide, ?_⟩
  rintro ⟨h, _⟩
  rcases msg_inv _ _ _ _ _ h with h | h | h | ⟨k, v, k', v', h1, h2, h3, h4⟩
  · simp at h
  · simp at h
  · simp at h
  · have e1 := Option.some.inj h1
    have e2 := Option.some.inj h2
    simp only [Prod.mk.injEq] at e1 e2
    rw [← e1.2, ← e2.2] at h4
    rcases msg_inv _ _ _ _ _ h4 with h | h | h | ⟨k, v, k', v', h1, _⟩
    · simp at h
    · simp at h
    · simp at h
    · simp at h1

end Verif.Types
