import Verif.Cast.Num

/-! # C23, C24 and C55: numeric conversions -/

namespace Verif.Cast

theorem conv_inRange (t : GoInt) (v : Int) : InRange t (conv t v) := by
  cases t <;> simp only [InRange, conv, GoInt.lo, GoInt.hi, Int.reduceNeg, Int.reduceSub, Int.reduceAdd] <;>
    omega

theorem conv_eq (t : GoInt) (v : Int) (h : InRange t v) : conv t v = v := by
  cases t <;> simp only [InRange, conv, GoInt.lo, GoInt.hi, Int.reduceNeg, Int.reduceSub, Int.reduceAdd]
    at * <;> omega

/-- C23. Every checked conversion succeeds exactly when the value is representable in the target
type, and then preserves it. -/
theorem C23_checked_cast (a b : GoInt) (f : Int → Except Unit Int) (hf : checkedFn a b = some f)
    (v : Int) (hv : InRange a v) :
    (InRange b v → f v = .ok v) ∧ (¬ InRange b v → f v = .error ()) := by
  have key : ∀ (P : Prop) [Decidable P], (P ↔ ¬ InRange b v) →
      (InRange b v → (if P then (.error () : Except Unit Int) else .ok (conv b v)) = .ok v) ∧
      (¬ InRange b v → (if P then (.error () : Except Unit Int) else .ok (conv b v)) = .error ()) := by
    intro P _ hP
    constructor
    · intro h
      have : ¬ P := fun hp => (hP.mp hp) h
      rw [if_neg this, conv_eq b v h]
    · intro h
      rw [if_pos (hP.mpr h)]
  cases a <;> cases b <;> simp only [checkedFn, Option.some.injEq, reduceCtorEq] at hf <;> subst hf <;>
    (apply key; simp only [InRange, GoInt.lo, GoInt.hi] at *; omega)

example : checkedFn .int64 .int32 = some int64ToInt32 ∧ InRange .int64 2147483648 := by
  refine ⟨rfl, ?_⟩
  simp [InRange, GoInt.lo, GoInt.hi]

/-- The nine conversions exist. -/
theorem C23_all_exist : ∀ p ∈ [(GoInt.int64, GoInt.int32), (.int64, .uint32), (.int64, .uint64),
    (.int32, .uint32), (.int32, .uint64), (.uint64, .int32), (.uint64, .int64), (.uint64, .uint32),
    (.uint32, .int32)], (checkedFn p.1 p.2).isSome = true := by decide

/-- A conversion never changes a value silently. -/
def Preserves (f : Int → Except Unit Int) (a : Kind) : Prop :=
  ∀ v, InRange a.go v → f v = .ok v ∨ ∃ e, f v = .error e

/-- The nine pairs of kinds with checked conversions. -/
def checkedPairs : List (Kind × Kind) :=
  [(.int64, .int32), (.int64, .uint32), (.int64, .uint64), (.int32, .uint32), (.int32, .uint64),
   (.uint64, .int32), (.uint64, .int64), (.uint64, .uint32), (.uint32, .int32)]

theorem isValidated_iff (a b : Kind) : isValidated a b = true ↔ (a, b) ∈ checkedPairs := by
  cases a <;> cases b <;> decide

/-- C24, exact. The conversion generated for two integer kinds preserves every value or reports an
error exactly when all values of the source type fit into the target type or the pair is one of the
nine checked ones. -/
theorem C24_preserves_iff (a b : Kind) (hab : ¬ (a = .enum ∧ b = .enum)) :
    Preserves (generatedCast a b) a ↔
      (b.go.lo ≤ a.go.lo ∧ a.go.hi ≤ b.go.hi) ∨ (a, b) ∈ checkedPairs := by
  have hconv : ∀ f : Int → Except Unit Int, (∀ v, f v = .ok (conv b.go v)) →
      (Preserves f a ↔ b.go.lo ≤ a.go.lo ∧ a.go.hi ≤ b.go.hi) := by
    intro f hf
    constructor
    · intro h
      have hlo := h a.go.lo ⟨Int.le_refl _, by cases a <;> simp [Kind.go, GoInt.lo, GoInt.hi]⟩
      have hhi := h a.go.hi ⟨by cases a <;> simp [Kind.go, GoInt.lo, GoInt.hi], Int.le_refl _⟩
      rw [hf] at hlo hhi
      have h1 : conv b.go a.go.lo = a.go.lo := by
        rcases hlo with h | ⟨e, h⟩
        · injection h
        · cases h
      have h2 : conv b.go a.go.hi = a.go.hi := by
        rcases hhi with h | ⟨e, h⟩
        · injection h
        · cases h
      have r1 := conv_inRange b.go a.go.lo
      have r2 := conv_inRange b.go a.go.hi
      rw [h1] at r1
      rw [h2] at r2
      exact ⟨r1.1, r2.2⟩
    · rintro ⟨h1, h2⟩ v hv
      rw [hf, conv_eq b.go v ⟨Int.le_trans h1 hv.1, Int.le_trans hv.2 h2⟩]
      exact Or.inl rfl
  by_cases hv : isValidated a b = true
  · have hm := (isValidated_iff a b).mp hv
    refine ⟨fun _ => Or.inr hm, fun _ => ?_⟩
    intro v hr
    have hne : a ≠ .enum ∧ b ≠ .enum := by
      revert hm
      cases a <;> cases b <;> decide
    have hf : ∃ f, checkedFn a.go b.go = some f := by
      revert hm
      cases a <;> cases b <;> simp [checkedPairs, Kind.go, checkedFn]
    obtain ⟨f, hf⟩ := hf
    have he : generatedCast a b v = f v := by
      simp only [generatedCast, hne.1, hne.2, ne_eq, not_false_eq_true, and_true,
        and_false, if_false, hv, if_true, hf]
    rw [he]
    obtain ⟨h1, h2⟩ := C23_checked_cast _ _ f hf v hr
    by_cases hb : InRange b.go v
    · exact Or.inl (h1 hb)
    · exact Or.inr ⟨(), h2 hb⟩
  · have hm : (a, b) ∉ checkedPairs := fun h => hv ((isValidated_iff a b).mpr h)
    have he : ∀ v, generatedCast a b v = .ok (conv b.go v) := by
      intro v
      unfold generatedCast
      split
      · rfl
      · split
        · rfl
        · first | rfl | rw [if_neg hv]
    rw [hconv _ he]
    simp [hm]

/-- C24 (partial: 32 and 64 bit `int` and `uint` kinds only). Conversions between int32, int64,
uint32 and uint64 fields preserve the value or report an error. -/
theorem C24_plain_kinds_partial (a b : Kind)
    (ha : a = .int32 ∨ a = .int64 ∨ a = .uint32 ∨ a = .uint64)
    (hb : b = .int32 ∨ b = .int64 ∨ b = .uint32 ∨ b = .uint64) : Preserves (generatedCast a b) a := by
  rw [C24_preserves_iff]
  · rcases ha with h | h | h | h <;> rcases hb with h' | h' | h' | h' <;> subst h <;> subst h' <;> decide
  · rintro ⟨rfl, _⟩; simp at ha

/-- C24 is false of the code for the other kinds: an sint64 value is silently truncated to int32. -/
theorem C24_sint64_false : ∃ v, InRange (Kind.go .sint64) v ∧
    generatedCast .sint64 .int32 v = .ok (-2147483648) ∧ v = 2147483648 :=
  ⟨2147483648, by simp [InRange, Kind.go, GoInt.lo, GoInt.hi], rfl, rfl⟩

/-- … an int64 value to an enum, … -/
theorem C24_number_to_enum_false : ∃ v, InRange (Kind.go .int64) v ∧
    generatedCast .int64 .enum v = .ok 1 ∧ v = 4294967297 :=
  ⟨4294967297, by simp [InRange, Kind.go, GoInt.lo, GoInt.hi], rfl, rfl⟩

/-- … a negative enum value to uint64, … -/
theorem C24_enum_to_unsigned_false : ∃ v, InRange (Kind.go .enum) v ∧
    generatedCast .enum .uint64 v = .ok 18446744073709551615 ∧ v = -1 :=
  ⟨-1, by simp [InRange, Kind.go, GoInt.lo, GoInt.hi], rfl, rfl⟩

/-- … and a fraction is dropped when a double is converted to an integer kind. -/
theorem C24_fraction_false : ∃ q : Rat, q.num = 3 ∧ q.den = 2 ∧ floatToInt .int64 q = .ok 1 := by
  refine ⟨⟨3, 2, by decide, by decide⟩, rfl, rfl, ?_⟩
  unfold floatToInt
  have h : (3 : Int).tdiv ((2 : Nat) : Int) = 1 := by decide
  simp only [h]
  rw [conv_eq]
  simp [InRange, GoInt.lo, GoInt.hi]

/-- C55: the conversion of two kinds does not depend on what else the service converts — false: as
soon as the service also converts some sint64 to int32, its int64 to int32 conversions lose their
check, because both functions get the same name. -/
theorem C55_conversion_independent_false :
    callCast [(.int64, .int32)] .int64 .int32 2147483648 = some (.error ()) ∧
    callCast [(.int64, .int32), (.sint64, .int32)] .int64 .int32 2147483648 = some (.ok (-2147483648)) := by
  have h1 : lookupLast (castFields [(.int64, .int32)]) (castFuncName .int64 .int32) =
      some (.int64, .int32) := by decide
  have h2 : lookupLast (castFields [(.int64, .int32), (.sint64, .int32)]) (castFuncName .int64 .int32) =
      some (.sint64, .int32) := by decide
  constructor
  · unfold callCast
    rw [h1]
    rfl
  · unfold callCast
    rw [h2]
    rfl

theorem castFuncName_inj (a b a' b' : Kind) (h : castFuncName a b = castFuncName a' b') :
    a.go = a'.go ∧ b.go = b'.go := by
  unfold castFuncName castName at h
  generalize a.go = x at *
  generalize b.go = y at *
  generalize a'.go = z at *
  generalize b'.go = w at *
  revert h
  cases x <;> cases y <;> cases z <;> cases w <;> decide

/-- C55 (partial: services in which no other pair of kinds with the same Go types is converted).
Then the conversion used is the one generated for the two kinds. -/
theorem C55_conversion_independent_partial (decls : List (Kind × Kind)) (a b : Kind)
    (hm : (a, b) ∈ decls)
    (huniq : ∀ d ∈ decls, d.1.go = a.go → d.2.go = b.go → d = (a, b)) (v : Int) :
    callCast decls a b v = some (generatedCast a b v) := by
  unfold callCast lookupLast
  cases hfd : (castFields decls).reverse.find? (fun p => p.1 == castFuncName a b) with
  | none =>
    rw [List.find?_eq_none] at hfd
    have := hfd (castFuncName a b, (a, b)) (by
      rw [List.mem_reverse]
      exact List.mem_map.mpr ⟨(a, b), hm, rfl⟩)
    simp at this
  | some p =>
    have h1 := List.find?_some hfd
    have h2 := List.mem_of_find?_eq_some hfd
    rw [List.mem_reverse] at h2
    obtain ⟨d, hd, rfl⟩ := List.mem_map.mp h2
    have h3 : castFuncName d.1 d.2 = castFuncName a b := by simpa using h1
    obtain ⟨g1, g2⟩ := castFuncName_inj _ _ _ _ h3
    have := huniq d hd g1 g2
    subst this
    rfl

example : ∀ d ∈ [(Kind.int64, Kind.int32), (.int64, .uint32)], d.1.go = GoInt.int64 → d.2.go = GoInt.int32 →
    d = (Kind.int64, Kind.int32) := by decide

end Verif.Cast
