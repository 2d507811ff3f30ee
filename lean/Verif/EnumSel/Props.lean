import Verif.EnumSel.Spec

/-! # C84: `grpc.federation.enum.select` is the chosen enum -/

namespace Verif.EnumSel

open Verif.CelTy

/-! ## What is accepted -/

theorem validArm_iff {Env : Type} (x : Expr Env) :
    validArm (typeOf x) = true ↔ (∃ e v, x = .leaf .accessor e v) ∨ ∃ c t f, x = .select c t f := by
  cases x with
  | leaf l e v => cases l <;> simp [typeOf, validArm, intKind]
  | select c t f => simp [typeOf, validArm]

theorem validate_typed {Env : Type} (x : Expr Env) (h : validate x = true) (ha : validArm (typeOf x) = true) : Typed x := by
  induction x with
  | leaf l e v =>
    cases l with
    | accessor => exact .leaf
    | field => simp [typeOf, validArm] at ha
    | const => simp [typeOf, validArm] at ha
  | select c t f iht ihf =>
    simp only [validate, Bool.and_eq_true] at h
    exact .select (iht h.1.2 h.1.1.1) (ihf h.2 h.1.1.2)

theorem typed_validate {Env : Type} (x : Expr Env) (h : Typed x) : validate x = true ∧ validArm (typeOf x) = true := by
  induction h with
  | leaf => exact ⟨rfl, rfl⟩
  | select _ _ iht ihf => exact ⟨by simp [validate, iht, ihf], rfl⟩

/-- A call is accepted exactly when every enum in it is of an expression that has the type of its enum. -/
theorem C84_accepted_iff {Env : Type} (c : Env → Bool) (t f : Expr Env) :
    validate (.select c t f) = true ↔ Typed (.select c t f) :=
  ⟨fun h => validate_typed _ h rfl, fun h => (typed_validate _ h).1⟩

/-- `select(c, pkg.A.value('X'), select(d, pkg.B.value('Y'), pkg.A.value('Z')))`, with two conditions. -/
def nestedRight : Expr (Bool × Bool) :=
  .select (·.1) (.leaf .accessor ["pkg", "A"] (fun _ => 1))
    (.select (·.2) (.leaf .accessor ["pkg", "B"] (fun _ => 2)) (.leaf .accessor ["pkg", "A"] (fun _ => 3)))

/-- `select(c, select(d, pkg.A.value('X'), pkg.B.value('Y')), pkg.A.value('Z'))` -/
def nestedLeft : Expr (Bool × Bool) :=
  .select (·.1) (.select (·.2) (.leaf .accessor ["pkg", "A"] (fun _ => 1)) (.leaf .accessor ["pkg", "B"] (fun _ => 2)))
    (.leaf .accessor ["pkg", "A"] (fun _ => 3))

example : Typed nestedRight ∧ Typed nestedLeft :=
  ⟨.select .leaf (.select .leaf .leaf), .select (.select .leaf .leaf) .leaf⟩

/-- The example of the documentation (`docs/cel/enum.md` line 38) is rejected: `select(true, pkg.A.X, pkg.B.Y)`. So are fields
of messages, although they have the type of an enum everywhere else. -/
theorem C84_constants_false :
    validate (Env := Unit) (.select (fun _ => true) (.leaf .const ["pkg", "A"] (fun _ => 1))
      (.leaf .const ["pkg", "B"] (fun _ => 2))) = false ∧
    validate (Env := Unit) (.select (fun _ => true) (.leaf .field ["pkg", "A"] (fun _ => 1))
      (.leaf .accessor ["pkg", "B"] (fun _ => 2))) = false ∧
    (∀ K : Known, fromCEL K (typeOf (Env := Unit) (.leaf .field ["pkg", "A"] (fun _ => 1))) =
      some (.enum ["pkg", "A"] false)) := by
  refine ⟨by decide, by decide, fun K => rfl⟩

/-! ## What is generated -/

/-- The type of an expression with known enums. -/
theorem fromCEL_typed {Env : Type} (K : Known) (x : Expr Env) (h : Typed x) (hk : ∀ e, Mentions x e → K.enums e = true) :
    ∃ ty, fromCEL K (typeOf x) = some ty ∧ isArm ty = true ∧
      ((∃ e v, x = .leaf .accessor e v ∧ ty = .enum e false) ∨
       (∃ c t f a b, x = .select c t f ∧ ty = .selector a b false ∧ fromCEL K (typeOf t) = some a ∧
          fromCEL K (typeOf f) = some b)) := by
  induction h with
  | @leaf e v =>
    refine ⟨.enum e false, ?_, rfl, Or.inl ⟨e, v, rfl, rfl⟩⟩
    simp [typeOf, fromCEL, hk e (.leaf _ _ _)]
  | @select c t f _ _ iht ihf =>
    obtain ⟨a, ha, haa, _⟩ := iht (fun e he => hk e (.yes he))
    obtain ⟨b, hb, hba, _⟩ := ihf (fun e he => hk e (.no he))
    refine ⟨.selector a b false, ?_, rfl, Or.inr ⟨c, t, f, a, b, rfl, rfl, ha, hb⟩⟩
    simp only [typeOf, fromCEL, ha, hb, haa, hba, Bool.and_self, if_true]

/-- The parameters of the template follow the expression. -/
theorem param_typed {Env : Type} (K : Known) (to : Name) (x : Expr Env) (h : Typed x)
    (hk : ∀ e, Mentions x e → K.enums e = true) (ty : Ty) (hty : fromCEL K (typeOf x) = some ty) :
    ∃ p, param to ty = some p ∧
      ((∃ e v, x = .leaf .accessor e v ∧ p = .enum (decide (e ≠ to)) e) ∨
       (∃ c t f a b q r, x = .select c t f ∧ ty = .selector a b false ∧ p = .selector q r ∧
          fromCEL K (typeOf t) = some a ∧ fromCEL K (typeOf f) = some b ∧ param to a = some q ∧ param to b = some r)) := by
  induction h generalizing ty with
  | @leaf e v =>
    have : ty = .enum e false := by
      simp [typeOf, fromCEL, hk e (.leaf _ _ _)] at hty
      exact hty.symm
    subst this
    exact ⟨_, rfl, Or.inl ⟨e, v, rfl, rfl⟩⟩
  | @select c t f ht hf iht ihf =>
    obtain ⟨ty', hty', _, hcase⟩ := fromCEL_typed K (.select c t f) (.select ht hf) hk
    rw [hty] at hty'
    simp only [Option.some.injEq] at hty'
    subst hty'
    rcases hcase with ⟨e, v, hx, _⟩ | ⟨c', t', f', a, b, hx, hs, ha, hb⟩
    · cases hx
    · cases hx
      subst hs
      obtain ⟨q, hq, _⟩ := iht (fun e he => hk e (.yes he)) a ha
      obtain ⟨r, hr, _⟩ := ihf (fun e he => hk e (.no he)) b hb
      refine ⟨.selector q r, by simp only [param, hq, hr], Or.inr ⟨c, t, f, a, b, q, r, rfl, rfl, rfl, ha, hb, hq, hr⟩⟩

/-- The generated code compiles exactly when calls are only nested in the value for true. -/
theorem C84_compiles_iff {Env : Type} (K : Known) (to : Name) (x : Expr Env) (h : Typed x)
    (hk : ∀ e, Mentions x e → K.enums e = true) (ty : Ty) (hty : fromCEL K (typeOf x) = some ty) :
    (∃ p, param to ty = some p ∧ compiles p = true) ↔ TrueNested x := by
  induction h generalizing ty with
  | @leaf e v =>
    obtain ⟨p, hp, hcase⟩ := param_typed K to _ .leaf hk ty hty
    refine ⟨fun _ => .leaf _ _ _, fun _ => ⟨p, hp, ?_⟩⟩
    rcases hcase with ⟨e', v', _, rfl⟩ | ⟨c, t, f, a, b, q, r, hx, _⟩
    · rfl
    · cases hx
  | @select c t f ht hf iht ihf =>
    obtain ⟨p, hp, hcase⟩ := param_typed K to _ (.select ht hf) hk ty hty
    rcases hcase with ⟨e', v', hx, _⟩ | ⟨c', t', f', a, b, q, r, hx, hs, rfl, ha, hb, hq, hr⟩
    · cases hx
    · cases hx
      have ht' := iht (fun e he => hk e (.yes he)) a ha
      have hfp := param_typed K to f hf (fun e he => hk e (.no he)) b hb
      obtain ⟨r', hr', hfcase⟩ := hfp
      rw [hr] at hr'
      simp only [Option.some.injEq] at hr'
      subst hr'
      constructor
      · intro ⟨p', hp', hc⟩
        rw [hp] at hp'
        simp only [Option.some.injEq] at hp'
        subst hp'
        simp only [compiles, Bool.and_eq_true] at hc
        have htn := ht'.1 ⟨q, hq, hc.1⟩
        rcases hfcase with ⟨e, v, rfl, rfl⟩ | ⟨_, _, _, _, _, _, _, _, _, rfl, _⟩
        · exact .select htn
        · simp at hc
      · intro hn
        refine ⟨_, hp, ?_⟩
        cases hn with
        | @select _ _ l e v htn =>
          obtain ⟨q', hq', hqc⟩ := ht'.2 htn
          rw [hq] at hq'
          simp only [Option.some.injEq] at hq'
          subst hq'
          rcases hfcase with ⟨e, v, _, rfl⟩ | ⟨_, _, _, _, _, _, _, hx, _⟩
          · simp [compiles, hqc]
          · cases hx

/-- A call nested in the value for false is accepted, and the file written for it does not compile. -/
theorem C84_nested_false_arm_false (to : Name) : ∃ (K : Known) (ty : Ty) (p : Param),
    validate nestedRight = true ∧ fromCEL K (typeOf nestedRight) = some ty ∧ defAccepted (fun _ _ => true) to ty = true ∧
    param to ty = some p ∧ compiles p = false :=
  ⟨⟨fun _ => true, fun _ => true⟩, .selector (.enum ["pkg", "A"] false)
    (.selector (.enum ["pkg", "B"] false) (.enum ["pkg", "A"] false) false) false, _, rfl, rfl, rfl, rfl, rfl⟩

example : TrueNested nestedLeft ∧ ¬ TrueNested nestedRight := by
  refine ⟨.select (.select (.leaf _ _ _)), ?_⟩
  intro h
  cases h

/-! ## Values -/

theorem wrap32_id (n : Int) (h1 : -2147483648 ≤ n) (h2 : n ≤ 2147483647) : wrap32 n = n := by
  unfold wrap32
  omega

theorem enums_typed {Env : Type} {env : Env} {x : Expr Env} (h : Enums env x) : Typed x := by
  induction h with
  | leaf => exact .leaf
  | select _ _ iht ihf => exact .select iht ihf

/-- What an arm assigns. -/
theorem arm_eq {Env : Type} (conv : Name → Name → Int → Int) (K : Known) (to : Name) (env : Env) (x : Expr Env)
    (h : Enums env x) (hk : ∀ e, Mentions x e → K.enums e = true) (ty : Ty) (hty : fromCEL K (typeOf x) = some ty)
    (p : Param) (hp : param to ty = some p) (e : Name) (n : Int) (hc : Chosen env x e n) :
    assign.arm conv to p (some (armOf (eval env x))) = if e = to then n else conv e to n := by
  induction h generalizing ty p with
  | @leaf e' v h1 h2 =>
    cases hc
    obtain ⟨p', hp', hcase⟩ := param_typed K to _ .leaf hk ty hty
    rw [hp] at hp'
    simp only [Option.some.injEq] at hp'
    subst hp'
    rcases hcase with ⟨e'', v'', hx, rfl⟩ | ⟨_, _, _, _, _, _, _, hx, _⟩
    · cases hx
      simp only [eval, armOf, assign.arm, Option.map_some, getInt, Option.getD_some, wrap32_id _ h1 h2]
      by_cases heq : e = to <;> simp [heq]
    · cases hx
  | @select c t f ht hf iht ihf =>
    obtain ⟨p', hp', hcase⟩ := param_typed K to _ (.select (enums_typed ht) (enums_typed hf)) hk ty hty
    rw [hp] at hp'
    simp only [Option.some.injEq] at hp'
    subst hp'
    rcases hcase with ⟨e'', v'', hx, _⟩ | ⟨c', t', f', a, b, q, r, hx, hs, rfl, ha, hb, hq, hr⟩
    · cases hx
    · cases hx
      simp only [eval, armOf, assign.arm, Option.bind_some, getSel]
      cases hc with
      | yes hcond hch =>
        rw [hcond]
        simp only [if_true]
        exact iht (fun e he => hk e (.yes he)) a ha q hq hch
      | no hcond hch =>
        rw [hcond]
        simp only [Bool.false_eq_true, if_false]
        exact ihf (fun e he => hk e (.no he)) b hb r hr hch

/-- The value of `select` is the value of the chosen enum, converted to the enum it is assigned to if that is another one,
for all conditions and any nesting. Missing: the generated code must compile, see `C84_compiles_iff`. -/
theorem C84_value_partial {Env : Type} (conv : Name → Name → Int → Int) (K : Known) (to : Name) (env : Env)
    (c : Env → Bool) (t f : Expr Env) (h : Enums env (.select c t f))
    (hk : ∀ e, Mentions (.select c t f) e → K.enums e = true) (e : Name) (n : Int) (hc : Chosen env (.select c t f) e n) :
    ∃ ty, fromCEL K (typeOf (.select c t f)) = some ty ∧ (∀ aliased, defAccepted aliased to ty = true) ∧
      defValue conv to ty (eval env (.select c t f)) = some (if e = to then n else conv e to n) := by
  obtain ⟨ty, hty, _, hcase⟩ := fromCEL_typed K (.select c t f) (enums_typed h) hk
  refine ⟨ty, hty, ?_⟩
  obtain ⟨p, hp, hpc⟩ := param_typed K to _ (enums_typed h) hk ty hty
  have harm := arm_eq conv K to env _ h hk ty hty p hp e n hc
  rcases hpc with ⟨e'', v'', hx, _⟩ | ⟨c', t', f', a, b, q, r, hx, rfl, rfl, ha, hb, hq, hr⟩
  · cases hx
  · cases hx
    refine ⟨fun _ => rfl, ?_⟩
    simp only [defValue, hq, hr, Option.some.injEq]
    rw [← harm]
    simp only [eval, armOf, assign, assign.arm, Option.bind_some, getSel]

/-- All four ways through `nestedLeft`, with a conversion of `pkg.B` to `pkg.A` that adds 10. -/
example :
    let K : Known := ⟨fun _ => true, fun _ => true⟩
    let conv : Name → Name → Int → Int := fun _ _ n => n + 10
    (∀ env, Enums env nestedLeft) ∧
    Chosen (true, false) nestedLeft ["pkg", "B"] 2 ∧
    (fromCEL K (typeOf nestedLeft)).bind (fun ty => defValue conv ["pkg", "A"] ty (eval (true, true) nestedLeft)) = some 1 ∧
    (fromCEL K (typeOf nestedLeft)).bind (fun ty => defValue conv ["pkg", "A"] ty (eval (true, false) nestedLeft)) = some 12 ∧
    (fromCEL K (typeOf nestedLeft)).bind (fun ty => defValue conv ["pkg", "A"] ty (eval (false, true) nestedLeft)) = some 3 ∧
    (fromCEL K (typeOf nestedLeft)).bind (fun ty => defValue conv ["pkg", "A"] ty (eval (false, false) nestedLeft)) = some 3 := by
  refine ⟨fun env => .select (.select (.leaf (by simp) (by simp)) (.leaf (by simp) (by simp))) (.leaf (by simp) (by simp)),
    .yes rfl (.no rfl (.leaf _ _ _)), by decide, by decide, by decide, by decide⟩

/-- `pkg.A.from(4294967297)` is 1 in `select`: numbers that are no values of an enum are cut to 32 bits. -/
theorem C84_wrap_false :
    eval () (.select (fun _ => true) (.leaf .accessor ["pkg", "A"] (fun _ => 4294967297))
      (.leaf .accessor ["pkg", "A"] (fun _ => 2))) = .sel true (.int 1) (.int 2) := by decide

/-- Two selectors are equal (`==`) whatever they choose. -/
theorem C84_equal_false : ∃ x y : Expr Unit, Typed x ∧ Typed y ∧ Chosen () x ["pkg", "A"] 1 ∧ Chosen () y ["pkg", "A"] 2 ∧
    equal (eval () x) (eval () y) = true := by
  refine ⟨.select (fun _ => true) (.leaf .accessor ["pkg", "A"] (fun _ => 1)) (.leaf .accessor ["pkg", "B"] (fun _ => 7)),
    .select (fun _ => false) (.leaf .accessor ["pkg", "B"] (fun _ => 7)) (.leaf .accessor ["pkg", "A"] (fun _ => 2)),
    .select .leaf .leaf, .select .leaf .leaf, .yes rfl (.leaf _ _ _), .no rfl (.leaf _ _ _), by decide⟩

/-! ## Enum definitions -/

/-- `enum { name: to by: x }` for an expression of another enum: accepted exactly with an alias between the two; then it
compiles if the expression is no list, and is the converted value. -/
theorem C84_definition_partial (conv : Name → Name → Int → Int) (aliased : Name → Name → Bool) (to e : Name) (hne : e ≠ to)
    (r : Bool) :
    (defAccepted aliased to (.enum e r) = true ↔ aliased e to = true) ∧
    (defCompiles to (.enum e r) = true ↔ r = false) ∧
    ∀ n, defValue conv to (.enum e r) (.int n) = some (conv e to n) := by
  refine ⟨by simp [defAccepted, hne], by simp [defCompiles, hne], fun n => rfl⟩

example : (["pkg", "A"] : Name) ≠ ["pkg", "B"] ∧ defAccepted (fun a b => a == ["pkg", "A"] && b == ["pkg", "B"])
    ["pkg", "B"] (.enum ["pkg", "A"] false) = true := by decide

/-- A definition is accepted for enums and selectors only. -/
theorem C84_definition_rejected (aliased : Name → Name → Bool) (to : Name) (t : Ty) (h : defAccepted aliased to t = true) :
    (∃ e r, t = .enum e r ∧ (e = to ∨ aliased e to = true)) ∨ ∃ a b r, t = .selector a b r := by
  cases t with
  | enum e r => exact Or.inl ⟨e, r, rfl, by simpa [defAccepted] using h⟩
  | selector a b r => exact Or.inr ⟨a, b, r, rfl⟩
  | _ => simp [defAccepted] at h

example : defAccepted (fun _ _ => false) ["pkg", "A"] (.scalar .int64 false) = false := rfl

/-- A definition whose expression already has the type of the enum is accepted, and never compiles. -/
theorem C84_same_enum_definition_false (aliased : Name → Name → Bool) (to : Name) :
    defAccepted aliased to (.enum to false) = true ∧ defCompiles to (.enum to false) = false := by
  simp [defAccepted, defCompiles]

/-- An arm of `select` needs no alias in an enum definition: `enum { name: "pkg.To" by: "select(c, pkg.A.value('X'),
pkg.B.value('Y'))" }` is accepted where neither is an alias, although each of them alone is rejected. -/
theorem C84_unaliased_arm_false : ∃ (K : Known) (ty : Ty) (x : Expr Unit), Typed x ∧ fromCEL K (typeOf x) = some ty ∧
    defAccepted (fun _ _ => false) ["pkg", "To"] ty = true ∧ defCompiles ["pkg", "To"] ty = true ∧
    (∀ e, Mentions x e → defAccepted (fun _ _ => false) ["pkg", "To"] (.enum e false) = false) := by
  refine ⟨⟨fun _ => true, fun _ => true⟩, .selector (.enum ["pkg", "A"] false) (.enum ["pkg", "B"] false) false,
    .select (fun _ => true) (.leaf .accessor ["pkg", "A"] (fun _ => 1)) (.leaf .accessor ["pkg", "B"] (fun _ => 2)),
    .select .leaf .leaf, by decide, by decide, by decide, ?_⟩
  intro e he
  cases he with
  | yes h => cases h; decide
  | no h => cases h; decide

end Verif.EnumSel
