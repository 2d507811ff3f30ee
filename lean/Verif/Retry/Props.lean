import Verif.Retry.Model

/-! # C18: retried calls -/

namespace Verif.Retry

variable {T E X : Type}

/-- The `error` variable the condition of attempt `i` sees: the latest status error so far. -/
def seen (env : Env T E X) : Nat → Option E
  | 0 => match env.attempt 0 with
    | .error e => if env.isStatus e then some e else none
    | .ok _ => none
  | i + 1 => match env.attempt (i + 1) with
    | .error e => if env.isStatus e then some e else seen env i
    | .ok _ => seen env i

/-- Attempt `i` failed and the retry condition is true for it. -/
def Retryable (env : Env T E X) (i : Nat) : Prop :=
  (∃ e, env.attempt i = .error e) ∧ env.cond i (seen env i) = .ok true

/-- Nothing outside the limit stops the retries after attempt `i`. -/
def Free (env : Env T E X) (i : Nat) : Prop := env.ctxDone i = false ∧ env.baseStop i = false

/-- The variable before attempt `i`. -/
def before (env : Env T E X) : Nat → Option E
  | 0 => none
  | i + 1 => seen env i

theorem seen_eq (env : Env T E X) (i : Nat) :
    seen env i = match env.attempt i with
      | .error e => setErr env (before env i) e
      | .ok _ => before env i := by
  cases i with
  | zero => simp only [seen, before, setErr]
  | succ i => simp only [seen, before, setErr]

theorem op_cases (env : Env T E X) (i : Nat) :
    (∃ v, env.attempt i = .ok v ∧ op env i (before env i) = (.ok v, before env i)) ∨
    (∃ e x, env.attempt i = .error e ∧ env.cond i (seen env i) = .error x ∧
      op env i (before env i) = (.error (.permanentEval x), seen env i)) ∨
    (∃ e, env.attempt i = .error e ∧ env.cond i (seen env i) = .ok false ∧
      op env i (before env i) = (.error (.permanent e), seen env i)) ∨
    (∃ e, env.attempt i = .error e ∧ env.cond i (seen env i) = .ok true ∧
      op env i (before env i) = (.error (.plain e), seen env i)) := by
  cases ha : env.attempt i with
  | ok v => exact Or.inl ⟨v, rfl, by simp [op, ha]⟩
  | error e =>
    have hs : setErr env (before env i) e = seen env i := by rw [seen_eq, ha]
    refine Or.inr ?_
    cases hc : env.cond i (seen env i) with
    | error x => exact Or.inl ⟨e, x, rfl, rfl, by simp [op, ha, hs, hc]⟩
    | ok b =>
      cases b with
      | false => exact Or.inr (Or.inl ⟨e, rfl, rfl, by simp [op, ha, hs, hc]⟩)
      | true => exact Or.inr (Or.inr ⟨e, rfl, rfl, by simp [op, ha, hs, hc]⟩)

/-- The number of tries counted by the limit before attempt `i`. -/
def triesAt (lim : Option Nat) (i : Nat) : Nat := if lim = none then 0 else i

/-- What a finished run looks like. -/
structure Finished (env : Env T E X) (lim : Option Nat) (start k : Nat) (r : Except (Err E X) T) : Prop where
  pos : start < k
  retried : ∀ i : Nat, start ≤ i → i + 1 < k → Retryable env i ∧ Free env i ∧ (∀ m, lim = some m → i < m)
  last : (∃ v, env.attempt (k - 1) = .ok v ∧ r = .ok v) ∨
    (∃ e x, env.attempt (k - 1) = .error e ∧ env.cond (k - 1) (seen env (k - 1)) = .error x ∧ r = .error (.eval x)) ∨
    (∃ e, env.attempt (k - 1) = .error e ∧ r = .error (.body e) ∧
      (env.cond (k - 1) (seen env (k - 1)) = .ok false ∨
        (env.cond (k - 1) (seen env (k - 1)) = .ok true ∧
          (¬ Free env (k - 1) ∨ ∃ m, lim = some m ∧ m ≤ k - 1))))

theorem next_none (env : Env T E X) (lim : Option Nat) (i : Nat)
    (h : nextBackOff env lim i (triesAt lim i) = none) :
    ¬ Free env i ∨ ∃ m, lim = some m ∧ m ≤ i := by
  unfold nextBackOff at h
  cases hc : env.ctxDone i with
  | true => exact Or.inl (fun hf => by rw [hf.1] at hc; cases hc)
  | false =>
    rw [hc] at h
    cases lim with
    | none =>
      cases hb : env.baseStop i with
      | true => exact Or.inl (fun hf => by rw [hf.2] at hb; cases hb)
      | false => rw [hb] at h; simp at h
    | some m =>
      simp only [triesAt] at h
      by_cases hm : m ≤ i
      · exact Or.inr ⟨m, rfl, hm⟩
      · cases hb : env.baseStop i with
        | true => exact Or.inl (fun hf => by rw [hf.2] at hb; cases hb)
        | false => rw [hb] at h; simp [hm] at h

theorem next_some (env : Env T E X) (lim : Option Nat) (i t : Nat)
    (h : nextBackOff env lim i (triesAt lim i) = some t) :
    Free env i ∧ (∀ m, lim = some m → i < m) ∧ t = triesAt lim (i + 1) := by
  unfold nextBackOff at h
  cases hc : env.ctxDone i with
  | true => rw [hc] at h; simp at h
  | false =>
    rw [hc] at h
    cases lim with
    | none =>
      cases hb : env.baseStop i with
      | true => rw [hb] at h; simp at h
      | false =>
        rw [hb] at h
        exact ⟨⟨hc, hb⟩, fun m hm => (by cases hm), by simpa [triesAt] using h.symm⟩
    | some m =>
      simp only [triesAt] at h
      by_cases hm : m ≤ i
      · simp [hm] at h
      · cases hb : env.baseStop i with
        | true => rw [hb] at h; simp [hm] at h
        | false =>
          rw [hb] at h
          simp [hm] at h
          exact ⟨⟨hc, hb⟩, fun m' hm' => by injection hm' with h'; omega, by simp [triesAt, h]⟩

theorem loop_finished (env : Env T E X) (lim : Option Nat) (k : Nat) (r : Except (Err E X) T) :
    ∀ fuel i, loop env lim fuel i (triesAt lim i) (before env i) = some (k, r) →
      Finished env lim i k r := by
  intro fuel
  induction fuel with
  | zero => intro i h; simp [loop] at h
  | succ fuel ih =>
    intro i h
    unfold loop at h
    rcases op_cases env i with ⟨v, ha, hop⟩ | ⟨e, x, ha, hc, hop⟩ | ⟨e, ha, hc, hop⟩ | ⟨e, ha, hc, hop⟩
    · rw [hop] at h
      simp only [Option.some.injEq, Prod.mk.injEq] at h
      obtain ⟨h1, h2⟩ := h
      subst h1; subst h2
      exact ⟨by omega, fun j _ _ => by omega, Or.inl ⟨v, by simpa using ha, rfl⟩⟩
    · rw [hop] at h
      simp only [Option.some.injEq, Prod.mk.injEq] at h
      obtain ⟨h1, h2⟩ := h
      subst h1; subst h2
      exact ⟨by omega, fun j _ _ => by omega, Or.inr (Or.inl ⟨e, x, by simpa using ha, by simpa using hc, rfl⟩)⟩
    · rw [hop] at h
      simp only [Option.some.injEq, Prod.mk.injEq] at h
      obtain ⟨h1, h2⟩ := h
      subst h1; subst h2
      exact ⟨by omega, fun j _ _ => by omega,
        Or.inr (Or.inr ⟨e, by simpa using ha, rfl, Or.inl (by simpa using hc)⟩)⟩
    · rw [hop] at h
      cases hn : nextBackOff env lim i (triesAt lim i) with
      | none =>
        simp only [hn, Option.some.injEq, Prod.mk.injEq] at h
        obtain ⟨h1, h2⟩ := h
        subst h1; subst h2
        refine ⟨by omega, fun j _ _ => by omega, Or.inr (Or.inr ⟨e, by simpa using ha, rfl, Or.inr ⟨by simpa using hc, ?_⟩⟩)⟩
        simpa using next_none env lim i hn
      | some t =>
        simp only [hn] at h
        obtain ⟨hf, hm, ht⟩ := next_some env lim i t hn
        subst ht
        have := ih (i + 1) h
        refine ⟨by have := this.pos; omega, ?_, this.last⟩
        intro j hj1 hj2
        by_cases hji : j = i
        · subst hji; exact ⟨⟨⟨e, ha⟩, hc⟩, hf, hm⟩
        · exact this.retried j (by omega) hj2

theorem loop_some (env : Env T E X) (lim : Nat) :
    ∀ fuel i, i ≤ lim → lim < fuel + i →
      ∃ p, loop env (some lim) fuel i (triesAt (some lim) i) (before env i) = some p := by
  intro fuel
  induction fuel with
  | zero => intro i h1 h2; omega
  | succ fuel ih =>
    intro i h1 h2
    unfold loop
    rcases op_cases env i with ⟨v, ha, hop⟩ | ⟨e, x, ha, hc, hop⟩ | ⟨e, ha, hc, hop⟩ | ⟨e, ha, hc, hop⟩
    · rw [hop]; exact ⟨_, rfl⟩
    · rw [hop]; exact ⟨_, rfl⟩
    · rw [hop]; exact ⟨_, rfl⟩
    · rw [hop]
      cases hn : nextBackOff env (some lim) i (triesAt (some lim) i) with
      | none => exact ⟨_, rfl⟩
      | some t =>
        obtain ⟨_, hm, ht⟩ := next_some env _ i t hn
        subst ht
        have := hm lim rfl
        exact ih (i + 1) (by omega) (by omega)

/-- The number of retries a declaration allows: the declared number, 5 if none is declared. -/
def allowed (declared : Option Nat) : Nat := declared.getD 5

theorem lim_pos (declared : Option Nat) (h : declared ≠ some 0) :
    limiter (declaredMax declared) = some (allowed declared) := by
  cases declared with
  | none => rfl
  | some n =>
    have : n ≠ 0 := fun h' => h (by rw [h'])
    simp [limiter, declaredMax, allowed, this]

theorem withRetry_finished (env : Env T E X) (declared : Option Nat) (fuel k : Nat)
    (r : Except (Err E X) T) (h : withRetry env declared fuel = some (k, r)) :
    Finished env (limiter (declaredMax declared)) 0 k r := by
  refine loop_finished env _ k r fuel 0 ?_
  have : triesAt (limiter (declaredMax declared)) 0 = 0 := by simp [triesAt]
  rw [this]; exact h

/-- C18, bound. Unless zero is declared, the call always comes to an end, after at least one and at
most `allowed + 1` attempts (six if nothing is declared), whatever the attempts and the condition
give. -/
theorem C18_bound (env : Env T E X) (declared : Option Nat) (hz : declared ≠ some 0) (fuel : Nat)
    (hf : allowed declared < fuel) :
    ∃ k r, withRetry env declared fuel = some (k, r) ∧ 1 ≤ k ∧ k ≤ allowed declared + 1 := by
  have hl := lim_pos declared hz
  obtain ⟨⟨k, r⟩, hp⟩ := loop_some env (allowed declared) fuel 0 (Nat.zero_le _) (by omega)
  have heq : withRetry env declared fuel = some (k, r) := by
    simp only [withRetry, hl]
    simpa [triesAt, before] using hp
  have hfin := withRetry_finished env declared fuel k r heq
  refine ⟨k, r, heq, hfin.pos, ?_⟩
  by_cases hk : k ≤ 1
  · omega
  · have h2 := (hfin.retried (k - 2) (Nat.zero_le _) (by omega)).2.2 (allowed declared) hl
    omega

/-- C18, the number of attempts and the result do not depend on how long one looks. -/
theorem C18_deterministic (env : Env T E X) (declared : Option Nat) (f₁ f₂ : Nat)
    (p q : Nat × Except (Err E X) T) (h₁ : withRetry env declared f₁ = some p)
    (h₂ : withRetry env declared f₂ = some q) : p = q := by
  have mono : ∀ (lim : Option Nat) (f g i t : Nat) (v : Option E) (p : Nat × Except (Err E X) T),
      f ≤ g → loop env lim f i t v = some p → loop env lim g i t v = some p := by
    intro lim f
    induction f with
    | zero => intro g i t v p _ h; simp [loop] at h
    | succ f ih =>
      intro g i t v p hg h
      obtain ⟨g, rfl⟩ : ∃ g', g = g' + 1 := ⟨g - 1, by omega⟩
      unfold loop at h ⊢
      rcases hop : op env i v with ⟨res, v'⟩
      rw [hop] at h
      cases res with
      | ok x => exact h
      | error e =>
        cases e with
        | permanentEval x => exact h
        | permanent e => exact h
        | plain e =>
          cases hn : nextBackOff env lim i t with
          | none => simp only [hn] at h ⊢; exact h
          | some t' => simp only [hn] at h ⊢; exact ih g _ _ _ _ (by omega) h
  rcases Nat.le_total f₁ f₂ with h | h
  · have := mono _ f₁ f₂ 0 0 none p h h₁
    rw [withRetry, this] at h₂
    exact Option.some.inj h₂
  · have := mono _ f₂ f₁ 0 0 none q h h₂
    rw [withRetry, this] at h₁
    exact (Option.some.inj h₁).symm

/-- C18, an attempt is followed by another one only if it failed, the retry condition is true for
it, and the context was not done. In particular nothing follows the first success. -/
theorem C18_retry_only_if (env : Env T E X) (declared : Option Nat) (fuel k : Nat)
    (r : Except (Err E X) T) (h : withRetry env declared fuel = some (k, r)) (i : Nat) (hi : i + 1 < k) :
    (∃ e, env.attempt i = .error e) ∧ env.cond i (seen env i) = .ok true ∧ env.ctxDone i = false :=
  have hfin := (withRetry_finished env declared fuel k r h).retried i (Nat.zero_le _) hi
  ⟨hfin.1.1, hfin.1.2, hfin.2.1.1⟩

/-- C18, result. The call returns what its last attempt returned; if the condition could not be
evaluated for it, it returns the evaluation error. -/
theorem C18_result (env : Env T E X) (declared : Option Nat) (fuel k : Nat)
    (r : Except (Err E X) T) (h : withRetry env declared fuel = some (k, r)) :
    match env.attempt (k - 1) with
    | .ok v => r = .ok v
    | .error e => match env.cond (k - 1) (seen env (k - 1)) with
      | .error x => r = .error (.eval x)
      | .ok _ => r = .error (.body e) := by
  rcases (withRetry_finished env declared fuel k r h).last with
    ⟨v, ha, hr⟩ | ⟨e, x, ha, hc, hr⟩ | ⟨e, ha, hr, hc | ⟨hc, _⟩⟩
  · simp only [ha]; exact hr
  · simp only [ha, hc]; exact hr
  · simp only [ha, hc]; exact hr
  · simp only [ha, hc]; exact hr

/-- C18, no early stop. If the last attempt failed although the condition is true for it, then the
allowed retries are used up, or the context is done, or the base policy (elapsed time) stopped. -/
theorem C18_stops_only_if (env : Env T E X) (declared : Option Nat) (fuel k : Nat)
    (r : Except (Err E X) T) (h : withRetry env declared fuel = some (k, r))
    (hl : Retryable env (k - 1)) (hc : env.ctxDone (k - 1) = false)
    (hb : env.baseStop (k - 1) = false) : declared ≠ some 0 ∧ k = allowed declared + 1 := by
  obtain ⟨⟨e, ha⟩, hcond⟩ := hl
  have hfin := withRetry_finished env declared fuel k r h
  rcases hfin.last with ⟨v, ha', _⟩ | ⟨e', x, _, hc', _⟩ | ⟨e', _, _, hc' | ⟨_, hn | ⟨m, hm, hk⟩⟩⟩
  · rw [ha] at ha'; cases ha'
  · rw [hcond] at hc'; cases hc'
  · rw [hcond] at hc'; cases hc'
  · exact absurd ⟨hc, hb⟩ hn
  · have hz : declared ≠ some 0 := by
      intro hz; subst hz; simp [limiter, declaredMax] at hm
    rw [lim_pos declared hz] at hm
    injection hm with hm
    refine ⟨hz, ?_⟩
    have hpos := hfin.pos
    by_cases hk1 : k ≤ 1
    · omega
    · have := (hfin.retried (k - 2) (Nat.zero_le _) (by omega)).2.2 (allowed declared) (lim_pos declared hz)
      omega

/-- C18, zero means no limit: as long as the attempts fail, the condition holds and nothing else
stops, the call goes on. -/
theorem C18_zero_unlimited (env : Env T E X) (fuel : Nat)
    (h : ∀ i, i < fuel → Retryable env i ∧ Free env i) : withRetry env (some 0) fuel = none := by
  have : ∀ fuel i, (∀ j, j < fuel → Retryable env (i + j) ∧ Free env (i + j)) →
      loop env none fuel i 0 (before env i) = none := by
    intro fuel
    induction fuel with
    | zero => intro i _; rfl
    | succ fuel ih =>
      intro i h
      obtain ⟨⟨⟨e, ha⟩, hc⟩, hf⟩ := h 0 (Nat.succ_pos _)
      rw [Nat.add_zero] at ha hc hf
      unfold loop
      rcases op_cases env i with ⟨v, ha', _⟩ | ⟨e', x, _, hc', _⟩ | ⟨e', _, hc', _⟩ | ⟨e', ha', hc', hop⟩
      · rw [ha] at ha'; cases ha'
      · rw [hc] at hc'; cases hc'
      · rw [hc] at hc'; cases hc'
      · rw [hop]
        have hn : nextBackOff env none i 0 = some 0 := by simp [nextBackOff, hf.1, hf.2]
        simp only [hn]
        refine ih (i + 1) (fun j hj => ?_)
        have := h (j + 1) (by omega)
        have he : i + 1 + j = i + (j + 1) := by omega
        rw [he]; exact this
  refine this fuel 0 (fun j hj => ?_)
  simpa using h j hj

/-- The retry condition reads the error of the attempt it decides about, when that error is a gRPC
status. -/
theorem C18_condition_sees_error (env : Env T E X) (i : Nat) (e : E) (ha : env.attempt i = .error e)
    (hs : env.isStatus e = true) : seen env i = some e := by
  cases i <;> simp [seen, ha, hs]

/-- An environment for the examples: fails with `i` at attempt `i`, every error is a status, the
condition is true below 3. -/
def exEnv : Env Nat Nat Nat where
  attempt i := .error i
  cond _ v := match v with
    | some e => .ok (decide (e < 3))
    | none => .error 0
  isStatus _ := true
  baseStop _ := false
  ctxDone _ := false

/-- Non-vacuity: the limit is reached after 3 attempts, or the condition turns false after 4. -/
example : withRetry exEnv (some 2) 10 = some (3, .error (.body 2)) := rfl
example : withRetry exEnv none 10 = some (4, .error (.body 3)) := rfl
example : Retryable exEnv 2 := ⟨⟨2, rfl⟩, rfl⟩
example : ∀ i, i < 3 → Retryable exEnv i ∧ Free exEnv i := by
  intro i hi
  refine ⟨⟨⟨i, rfl⟩, ?_⟩, rfl, rfl⟩
  rw [C18_condition_sees_error exEnv i i rfl rfl]
  simp [exEnv, hi]

/-- Errors that are not statuses: the condition is decided on the previous attempt's error. -/
def staleEnv : Env Nat Nat Nat where
  attempt i := .error i
  cond _ v := .ok (v == some 0)
  isStatus e := e == 0
  baseStop _ := false
  ctxDone _ := false

/-- C52: the condition does not always see the error it decides about: an attempt that fails with an
error that is no gRPC status is judged by the status of an earlier attempt. -/
theorem C52_condition_sees_own_error_false :
    ∃ (env : Env Nat Nat Nat) (i : Nat) (e : Nat), env.attempt i = .error e ∧ seen env i = some 0 ∧
      e ≠ 0 ∧ withRetry env (some 3) 10 = some (4, .error (.body 3)) ∧ i < 3 :=
  ⟨staleEnv, 2, 2, rfl, rfl, by decide, rfl, by decide⟩

/-- C52 (partial: only for errors that are gRPC statuses). A call retried at attempt `i` was retried
because the condition is true of that very error. -/
theorem C52_condition_sees_own_error_partial (env : Env T E X) (declared : Option Nat) (fuel k : Nat)
    (r : Except (Err E X) T) (h : withRetry env declared fuel = some (k, r)) (i : Nat) (hi : i + 1 < k)
    (hs : ∀ e, env.attempt i = .error e → env.isStatus e = true) :
    ∃ e, env.attempt i = .error e ∧ env.cond i (some e) = .ok true := by
  obtain ⟨⟨e, ha⟩, hc, _⟩ := C18_retry_only_if env declared fuel k r h i hi
  rw [C18_condition_sees_error env i e ha (hs e ha)] at hc
  exact ⟨e, ha, hc⟩

end Verif.Retry
