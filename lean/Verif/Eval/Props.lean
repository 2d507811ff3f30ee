import Verif.Eval.Model

/-! # C13 (conditional definitions) and C14 (map definitions) -/

namespace Verif.Eval

variable {Ty V E : Type}

/-- The error contains `e`. -/
def Err.Has : Err E → E → Prop
  | .one x, e => x = e
  | .join xs, e => e ∈ xs

/-! ## C13 -/

/-- C13. The defining expression is evaluated exactly once if there is no condition or the condition
is true, and not at all otherwise. -/
theorem C13_evaluated_iff [DecidableEq V] (zero : V) (d : Def Ty V E) (lv : LV Ty V) :
    (evalDef zero d lv).log.count .run =
      match d.cond with
      | none => 1
      | some c => match c lv with
        | .ok true => 1
        | _ => 0 := by
  unfold evalDef runBody finish
  split
  · rename_i h; simp [h]
  · split <;> simp_all

/-- C13. Condition false: no error other than the setter's, the variable is declared with its type
and holds the zero value, every other variable is as before. -/
theorem C13_condition_false (zero : V) (d : Def Ty V E) (lv : LV Ty V) (c : LV Ty V → Except E Bool)
    (hc : d.cond = some c) (hf : c lv = .ok false) :
    (evalDef zero d lv).err = (d.setter zero).map .one ∧
    (evalDef zero d lv).lv.vals d.name = some zero ∧
    (d.name, d.ty) ∈ (evalDef zero d lv).lv.env ∧
    Event.set zero ∈ (evalDef zero d lv).log ∧
    (∀ n, n ≠ d.name → (evalDef zero d lv).lv.vals n = lv.vals n) := by
  unfold evalDef
  rw [hc]
  simp only [hf]
  refine ⟨?_, by simp [finish, LV.set], by simp [finish, LV.set], by simp [finish], ?_⟩
  · unfold finish
    cases d.setter zero <;> simp [combine]
  · intro n hn
    simp [finish, LV.set, hn]

/-- C13. Evaluating the condition fails: that error is returned and nothing changes. -/
theorem C13_condition_error (zero : V) (d : Def Ty V E) (lv : LV Ty V) (c : LV Ty V → Except E Bool)
    (e : E) (hc : d.cond = some c) (hf : c lv = .error e) :
    (evalDef zero d lv).err = some (.one e) ∧ (evalDef zero d lv).lv = lv := by
  unfold evalDef
  rw [hc]
  simp [hf]

/-- The condition is absent or true. -/
def Enabled (d : Def Ty V E) (lv : LV Ty V) : Prop :=
  d.cond = none ∨ ∃ c, d.cond = some c ∧ c lv = .ok true

theorem evalDef_enabled (zero : V) (d : Def Ty V E) (lv : LV Ty V) (h : Enabled d lv) :
    ∃ log, evalDef zero d lv = finish d lv ((d.run lv).1.getD zero) (d.run lv).2 log := by
  rcases h with h | ⟨c, h1, h2⟩
  · exact ⟨_, by simp [evalDef, h, runBody]; rfl⟩
  · exact ⟨_, by simp [evalDef, h1, h2, runBody]; rfl⟩

/-- C13. Condition absent or true: the variable holds the result of the expression (the zero value
if it produced none), other variables are unchanged. -/
theorem C13_value (zero : V) (d : Def Ty V E) (lv : LV Ty V) (h : Enabled d lv) :
    (evalDef zero d lv).lv.vals d.name = some ((d.run lv).1.getD zero) ∧
    (d.name, d.ty) ∈ (evalDef zero d lv).lv.env ∧
    (∀ n, n ≠ d.name → (evalDef zero d lv).lv.vals n = lv.vals n) := by
  obtain ⟨log, h⟩ := evalDef_enabled zero d lv h
  rw [h]
  refine ⟨by simp [finish, LV.set], by simp [finish, LV.set], ?_⟩
  intro n hn
  simp [finish, LV.set, hn]

theorem combine_has {es : List E} {e : E} (h : e ∈ es) : ∃ x, combine es = some x ∧ x.Has e := by
  match es, h with
  | [a], h => exact ⟨_, rfl, (List.mem_singleton.mp h).symm⟩
  | a :: b :: es, h => exact ⟨_, rfl, h⟩

theorem combine_none {es : List E} : combine es = none ↔ es = [] := by
  match es with
  | [] => simp [combine]
  | [a] => simp [combine]
  | a :: b :: es => simp [combine]

/-- C13. If evaluating the expression fails, the returned error contains that error; it is exactly
that error unless the setter fails too. -/
theorem C13_expression_error (zero : V) (d : Def Ty V E) (lv : LV Ty V) (h : Enabled d lv) (e : E)
    (he : (d.run lv).2 = some e) :
    (∃ x, (evalDef zero d lv).err = some x ∧ x.Has e) ∧
    (d.setter ((d.run lv).1.getD zero) = none → (evalDef zero d lv).err = some (.one e)) := by
  obtain ⟨log, h⟩ := evalDef_enabled zero d lv h
  rw [h]
  unfold finish
  rw [he]
  refine ⟨combine_has (by simp), fun hs => by simp [hs, combine]⟩

/-- C13. A definition succeeds exactly when its condition could be evaluated, its expression (if
evaluated) succeeded, and the setter accepted the value. -/
theorem C13_success_iff (zero : V) (d : Def Ty V E) (lv : LV Ty V) :
    (evalDef zero d lv).err = none ↔
      (Enabled d lv ∧ (d.run lv).2 = none ∧ d.setter ((d.run lv).1.getD zero) = none) ∨
      (∃ c, d.cond = some c ∧ c lv = .ok false ∧ d.setter zero = none) := by
  cases hcond : d.cond with
  | none =>
    have : Enabled d lv := Or.inl hcond
    obtain ⟨log, h⟩ := evalDef_enabled zero d lv this
    rw [h]
    simp [finish, combine_none, this, Option.toList_eq_nil_iff]
  | some c =>
    cases hc : c lv with
    | error e =>
      rw [(C13_condition_error zero d lv c e hcond hc).1]
      simp [Enabled, hcond, hc]
    | ok b =>
      cases b with
      | true =>
        have : Enabled d lv := Or.inr ⟨c, hcond, hc⟩
        obtain ⟨log, h⟩ := evalDef_enabled zero d lv this
        rw [h]
        simp [finish, combine_none, this, hc, Option.toList_eq_nil_iff]
      | false =>
        rw [(C13_condition_false zero d lv c hcond hc).1]
        simp [Enabled, hcond, hc]

/-- C13, "usable by later expressions": after a successful sequence of definitions, every one of
their names is declared and bound, whatever the conditions were. -/
theorem C13_names_usable (zero : V) (ds : List (Def Ty V E)) (lv : LV Ty V)
    (h : (evalAll zero ds lv).2 = none) (d : Def Ty V E) (hd : d ∈ ds) :
    (∃ v, (evalAll zero ds lv).1.vals d.name = some v) ∧
    (d.name, d.ty) ∈ (evalAll zero ds lv).1.env := by
  have keepV : ∀ (d : Def Ty V E) (lv : LV Ty V) n v, lv.vals n = some v →
      ∃ v', (evalDef zero d lv).lv.vals n = some v' := by
    intro d lv n v hv
    unfold evalDef runBody finish LV.set
    split
    · simp only; split <;> exact ⟨_, by first | rfl | exact hv⟩
    · split
      · exact ⟨v, hv⟩
      · simp only; split <;> exact ⟨_, by first | rfl | exact hv⟩
      · simp only; split <;> exact ⟨_, by first | rfl | exact hv⟩
  have keepE : ∀ (d : Def Ty V E) (lv : LV Ty V) x, x ∈ lv.env → x ∈ (evalDef zero d lv).lv.env := by
    intro d lv x hx
    unfold evalDef runBody finish LV.set
    split
    · simp [hx]
    · split <;> simp [hx]
  have keep : ∀ (ds : List (Def Ty V E)) (lv : LV Ty V) n v ty, lv.vals n = some v → (n, ty) ∈ lv.env →
      (∃ v', (evalAll zero ds lv).1.vals n = some v') ∧ (n, ty) ∈ (evalAll zero ds lv).1.env := by
    intro ds
    induction ds with
    | nil => intro lv n v ty h1 h2; exact ⟨⟨v, h1⟩, h2⟩
    | cons d ds ih =>
      intro lv n v ty h1 h2
      obtain ⟨v', h3⟩ := keepV d lv n v h1
      have h4 := keepE d lv _ h2
      unfold evalAll
      split
      · exact ih _ n v' ty h3 h4
      · exact ⟨⟨v', h3⟩, h4⟩
  induction ds generalizing lv with
  | nil => cases hd
  | cons d' ds ih =>
    unfold evalAll at h ⊢
    split
    · rename_i herr
      rw [herr] at h
      simp only at h
      rcases List.mem_cons.mp hd with rfl | hd
      · rcases (C13_success_iff zero d lv).mp herr with ⟨hen, _, _⟩ | ⟨c, h1, h2, _⟩
        · obtain ⟨a, b, _⟩ := C13_value zero d lv hen
          exact keep ds _ _ _ _ a b
        · obtain ⟨_, a, b, _, _⟩ := C13_condition_false zero d lv c h1 h2
          exact keep ds _ _ _ _ a b
      · exact ih _ h hd
    · rename_i e herr
      rw [herr] at h
      cases h

/-- A sample: an `if` that looks at `a`, an expression that copies `a`. -/
def sampleDef (name : String) (thr : Nat) : Def Unit Nat String where
  name := name
  ty := ()
  cond := some fun lv => match lv.vals "a" with
    | some n => .ok (decide (thr ≤ n))
    | none => .error "no such attribute: a"
  run lv := (lv.vals "a", none)
  setter _ := none

def sampleLV : LV Unit Nat := ⟨[("a", ())], fun n => if n = "a" then some 5 else none⟩

example : (sampleDef "b" 7).cond ≠ none ∧ (sampleDef "b" 7).cond.map (· sampleLV) = some (.ok false) ∧
    Enabled (sampleDef "b" 3) sampleLV ∧
    (evalAll 0 [sampleDef "b" 7, sampleDef "c" 3] sampleLV).2 = none ∧
    (evalAll 0 [sampleDef "b" 7, sampleDef "c" 3] sampleLV).1.vals "b" = some 0 ∧
    (evalAll 0 [sampleDef "b" 7, sampleDef "c" 3] sampleLV).1.vals "c" = some 5 := by
  refine ⟨by simp [sampleDef], rfl, Or.inr ⟨_, rfl, rfl⟩, rfl, rfl, rfl⟩

example : (sampleDef "b" 7).cond.map (· (⟨[], fun _ => none⟩ : LV Unit Nat)) =
    some (.error "no such attribute: a") := rfl

/-! ## C14 -/

/-- What the iterator expression sees for element `u`: the outer variables, with the iterator name
declared and bound to `u`. -/
def iterEnv (name : String) (ty : Ty) (lv : LV Ty V) (u : V) : LV Ty V :=
  ⟨lv.env ++ [(name, ty)], fun n => if n = name then some u else lv.vals n⟩

theorem mapLoop_spec (name : String) (ty : Ty) (cb : LV Ty V → Except E V) (lv : LV Ty V)
    (us : List V) : ∀ (vals : String → Option V) (acc : List V),
    (∀ n, n ≠ name → vals n = lv.vals n) →
    (∀ rs : List V, rs.length = us.length →
      (∀ (i : Nat) u r, us[i]? = some u → rs[i]? = some r → cb (iterEnv name ty lv u) = .ok r) →
      mapLoop name ty lv.env cb vals us acc = (.ok (acc ++ rs), us.map (iterEnv name ty lv))) ∧
    (∀ (k : Nat) (u : V) (e : E), us[k]? = some u → cb (iterEnv name ty lv u) = .error e →
      (∀ (i : Nat) u', i < k → us[i]? = some u' → ∃ r, cb (iterEnv name ty lv u') = .ok r) →
      mapLoop name ty lv.env cb vals us acc = (.error e, (us.take (k + 1)).map (iterEnv name ty lv))) := by
  induction us with
  | nil =>
    intro vals acc _
    refine ⟨fun rs h _ => ?_, fun k u e h => by simp at h⟩
    cases rs with
    | nil => simp [mapLoop]
    | cons => simp at h
  | cons u us ih =>
    intro vals acc hv
    have henv : (⟨lv.env ++ [(name, ty)], fun n => if n = name then some u else vals n⟩ : LV Ty V)
        = iterEnv name ty lv u := by
      unfold iterEnv
      congr 1
      funext n
      split
      · rfl
      · rename_i h; exact hv n h
    have hv' : ∀ n, n ≠ name → (fun n => if n = name then some u else vals n) n = lv.vals n := by
      intro n hn; simp [hn, hv n hn]
    constructor
    · intro rs hlen hok
      cases rs with
      | nil => simp at hlen
      | cons r rs =>
        have h0 := hok 0 u r rfl rfl
        unfold mapLoop
        simp only [henv, h0]
        have := (ih (fun n => if n = name then some u else vals n) (acc ++ [r]) hv').1 rs (by simpa using hlen)
          (fun i u' r' h1 h2 => hok (i + 1) u' r' (by simpa using h1) (by simpa using h2))
        simp [this]
    · intro k u' e hk he hlt
      cases k with
      | zero =>
        simp only [List.getElem?_cons_zero, Option.some.injEq] at hk
        subst hk
        unfold mapLoop
        simp [henv, he]
      | succ k =>
        obtain ⟨r, hr⟩ := hlt 0 u (by omega) rfl
        unfold mapLoop
        simp only [henv, hr]
        have := (ih (fun n => if n = name then some u else vals n) (acc ++ [r]) hv').2 k u' e (by simpa using hk) he
          (fun i u'' h1 h2 => hlt (i + 1) u'' (by omega) (by simpa using h2))
        simp [this]

/-- C14, success: if the iterator expression succeeds for every element, the result has the result
for element `i` at position `i` (and no others), and the expression was evaluated once per element,
in order, each time with the iterator bound to that element. -/
theorem C14_success (name : String) (ty : Ty) (src : LV Ty V → List V) (cb : LV Ty V → Except E V)
    (lv : LV Ty V) (rs : List V) (hlen : rs.length = (src lv).length)
    (hok : ∀ (i : Nat) u r, (src lv)[i]? = some u → rs[i]? = some r → cb (iterEnv name ty lv u) = .ok r) :
    evalMap name ty src cb lv = (.ok rs, (src lv).map (iterEnv name ty lv)) := by
  have := (mapLoop_spec name ty cb lv (src lv) lv.vals [] (fun _ _ => rfl)).1 rs hlen hok
  simpa [evalMap] using this

/-- C14, failure: the error of the first failing element is returned and no later element is
evaluated. -/
theorem C14_failure (name : String) (ty : Ty) (src : LV Ty V → List V) (cb : LV Ty V → Except E V)
    (lv : LV Ty V) (k : Nat) (u : V) (e : E) (hk : (src lv)[k]? = some u)
    (he : cb (iterEnv name ty lv u) = .error e)
    (hlt : ∀ (i : Nat) u', i < k → (src lv)[i]? = some u' → ∃ r, cb (iterEnv name ty lv u') = .ok r) :
    evalMap name ty src cb lv = (.error e, ((src lv).take (k + 1)).map (iterEnv name ty lv)) :=
  (mapLoop_spec name ty cb lv (src lv) lv.vals [] (fun _ _ => rfl)).2 k u e hk he hlt

/-- C14: one of the two cases applies, for every source and every expression. -/
theorem C14_cases (name : String) (ty : Ty) (src : LV Ty V → List V) (cb : LV Ty V → Except E V)
    (lv : LV Ty V) :
    (∃ rs : List V, rs.length = (src lv).length ∧
      (∀ (i : Nat) u r, (src lv)[i]? = some u → rs[i]? = some r → cb (iterEnv name ty lv u) = .ok r) ∧
      (evalMap name ty src cb lv).1 = .ok rs) ∨
    (∃ (k : Nat) (u : V) (e : E), (src lv)[k]? = some u ∧ cb (iterEnv name ty lv u) = .error e ∧
      (∀ (i : Nat) u', i < k → (src lv)[i]? = some u' → ∃ r, cb (iterEnv name ty lv u') = .ok r) ∧
      (evalMap name ty src cb lv).1 = .error e) := by
  have key : ∀ us : List V,
      (∃ rs : List V, rs.length = us.length ∧
        ∀ (i : Nat) u r, us[i]? = some u → rs[i]? = some r → cb (iterEnv name ty lv u) = .ok r) ∨
      (∃ (k : Nat) (u : V) (e : E), us[k]? = some u ∧ cb (iterEnv name ty lv u) = .error e ∧
        ∀ (i : Nat) u', i < k → us[i]? = some u' → ∃ r, cb (iterEnv name ty lv u') = .ok r) := by
    intro us
    induction us with
    | nil => exact Or.inl ⟨[], rfl, by simp⟩
    | cons u us ih =>
      cases hu : cb (iterEnv name ty lv u) with
      | error e => exact Or.inr ⟨0, u, e, rfl, hu, by omega⟩
      | ok r =>
        rcases ih with ⟨rs, h1, h2⟩ | ⟨k, u', e, h1, h2, h3⟩
        · refine Or.inl ⟨r :: rs, by simp [h1], ?_⟩
          intro i u' r' h3 h4
          cases i with
          | zero =>
            simp only [List.getElem?_cons_zero, Option.some.injEq] at h3 h4
            subst h3; subst h4; exact hu
          | succ i => exact h2 i u' r' (by simpa using h3) (by simpa using h4)
        · refine Or.inr ⟨k + 1, u', e, by simpa using h1, h2, ?_⟩
          intro i u'' h4 h5
          cases i with
          | zero =>
            simp only [List.getElem?_cons_zero, Option.some.injEq] at h5
            subst h5; exact ⟨r, hu⟩
          | succ i => exact h3 i u'' (by omega) (by simpa using h5)
  rcases key (src lv) with ⟨rs, h1, h2⟩ | ⟨k, u, e, h1, h2, h3⟩
  · exact Or.inl ⟨rs, h1, h2, by rw [C14_success name ty src cb lv rs h1 h2]⟩
  · exact Or.inr ⟨k, u, e, h1, h2, h3, by rw [C14_failure name ty src cb lv k u e h1 h2 h3]⟩

/-- C14: a map definition changes no variable other than the one it defines — in particular neither
the iterator name, nor a variable of that name declared outside. -/
theorem C14_outside_unchanged (zero : V) (name : String) (ty : Ty)
    (cond : Option (LV Ty V → Except E Bool)) (iterName : String) (iterTy : Ty)
    (src : LV Ty V → List V) (cb : LV Ty V → Except E V) (ofList : List V → V)
    (setter : V → Option E) (lv : LV Ty V) (n : String) (hn : n ≠ name) :
    (evalDef zero (mapDef name ty cond iterName iterTy src cb ofList setter) lv).lv.vals n = lv.vals n := by
  unfold evalDef runBody finish LV.set
  split
  · simp [mapDef, hn]
  · split
    · rfl
    · simp [mapDef, hn]
    · simp [mapDef, hn]

/-- Three elements, doubled; and a failing second element. -/
example : evalMap (E := String) "i" () (fun _ => [1, 2, 3])
      (fun lv => match lv.vals "i" with | some n => .ok (2 * n) | none => .error "unbound") sampleLV
    = (.ok [2, 4, 6], [1, 2, 3].map (iterEnv "i" () sampleLV)) :=
  C14_success _ _ _ _ _ [2, 4, 6] rfl (by
    intro i u r h1 h2
    match i with
    | 0 | 1 | 2 => simp at h1 h2; subst h1; subst h2; rfl
    | i + 3 => simp at h1)

example : (evalMap (E := String) "i" () (fun _ => [1, 2, 3])
      (fun lv => if lv.vals "i" = some 2 then .error "two" else .ok 0) sampleLV).1 = .error "two" := by
  rw [C14_failure "i" () (fun _ => [1, 2, 3]) _ sampleLV 1 2 "two" rfl rfl ?_]
  intro i u h1 h2
  match i with
  | 0 => simp at h2; subst h2; exact ⟨0, rfl⟩
  | i + 1 => omega

/-! ## `If` (used by request arguments, error handlers and validations) -/

/-- The body runs exactly when the condition is true; an error of either is returned; a false
condition is not an error. -/
theorem C13_if_body (cond : LV Ty V → Except E Bool) (body : LV Ty V → Option E) (lv : LV Ty V) :
    ((evalIf cond body lv).2 = true ↔ cond lv = .ok true) ∧
    (∀ e, cond lv = .error e → (evalIf cond body lv).1 = some e) ∧
    (cond lv = .ok true → (evalIf cond body lv).1 = body lv) ∧
    (cond lv = .ok false → (evalIf cond body lv).1 = none) := by
  unfold evalIf
  cases h : cond lv with
  | error e => simp
  | ok b => cases b <;> simp

example : evalIf (Ty := Unit) (V := Nat) (E := String) (fun _ => .ok true) (fun _ => some "x") sampleLV
    = (some "x", true) := rfl

end Verif.Eval
