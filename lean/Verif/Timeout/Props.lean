import Verif.Timeout.Model

/-! # C17: calls with a timeout -/

namespace Verif.Timeout

variable {T E : Type}

/-- The body has ended this way. -/
def Ended (s : St T E) (b : BodyEnd T E) : Prop := s.worker = .sending b ∨ s.worker = .exited b

/-- What the caller should get when the body ended this way. -/
def own : BodyEnd T E → Option T × Option (Err E)
  | .ret res err => (res, err.map .body)
  | .panic p => (none, some (.recovered p))

/-- Invariant. -/
structure Inv (d : Option Cause) (s : St T E) : Prop where
  retRunning : s.worker = .running → s.ret = none ∧ s.buf = []
  retEnded : ∀ b, Ended s b → s.ret = (own b).1
  sending : ∀ b, s.worker = .sending b → s.buf = []
  buf : ∀ b, s.worker = .exited b → s.buf = [sendVal b] ∨
    (s.buf = [] ∧ s.caller = .returned (own b).1 (own b).2)
  out : ∀ r e, s.caller = .returned r e →
    (∃ b, Ended s b ∧ (r, e) = own b) ∨ (r = none ∧ ∃ c, e = some (.deadlineExceeded c) ∧ s.done = some c)
  cause : ∀ c, d = some c → s.done = some c

theorem own_eq (b : BodyEnd T E) : (own b).2 = sendVal b := by cases b <;> rfl

theorem inv_reach {d : Option Cause} {s : St T E} (h : Reach d s) : Inv d s := by
  induction h with
  | init =>
    refine ⟨fun _ => ⟨rfl, rfl⟩, ?_, ?_, ?_, ?_, fun c h => h⟩
    · intro b hb; rcases hb with h | h <;> cases h
    · intro b h; cases h
    · intro b h; cases h
    · intro r e h; cases h
  | @step s s' _ hs ih =>
    obtain ⟨i1, i2, i3, i4, i5, i6⟩ := ih
    cases hs with
    | @bodyRet res err hw =>
      refine ⟨fun h => (by cases h), ?_, ?_, ?_, ?_, i6⟩
      · intro b hb
        rcases hb with h | h
        · injection h with h; subst h; rfl
        · cases h
      · intro b _; exact (i1 hw).2
      · intro b h; cases h
      · intro r e h
        rcases i5 r e h with ⟨b, hb, _⟩ | h'
        · rcases hb with h | h <;> rw [hw] at h <;> cases h
        · exact Or.inr h'
    | @bodyPanic p hw =>
      refine ⟨fun h => (by cases h), ?_, ?_, ?_, ?_, i6⟩
      · intro b hb
        rcases hb with h | h
        · injection h with h; subst h; exact (i1 hw).1
        · cases h
      · intro b _; exact (i1 hw).2
      · intro b h; cases h
      · intro r e h
        rcases i5 r e h with ⟨b, hb, _⟩ | h'
        · rcases hb with h | h <;> rw [hw] at h <;> cases h
        · exact Or.inr h'
    | @send b hw hlt =>
      refine ⟨fun h => (by cases h), ?_, fun b h => (by cases h), ?_, ?_, i6⟩
      · intro b' hb
        rcases hb with h | h
        · cases h
        · injection h with h; subst h; exact i2 _ (Or.inl hw)
      · intro b' h
        injection h with h; subst h
        exact Or.inl (by simp [i3 _ hw])
      · intro r e h
        rcases i5 r e h with ⟨b', hb, h'⟩ | h'
        · refine Or.inl ⟨b', ?_, h'⟩
          rcases hb with h | h
          · rw [hw] at h; injection h with h; subst h; exact Or.inr rfl
          · rw [hw] at h; cases h
        · exact Or.inr h'
    | @handOver b hw hc hb =>
      have hret : s.ret = (own b).1 := i2 b (Or.inl hw)
      refine ⟨fun h => (by cases h), ?_, fun b h => (by cases h), ?_, ?_, i6⟩
      · intro b' hb'
        rcases hb' with h | h
        · cases h
        · injection h with h; subst h; exact hret
      · intro b' h
        injection h with h; subst h
        exact Or.inr ⟨hb, by simp [hret, own_eq]⟩
      · intro r e h
        injection h with h1 h2
        subst h1; subst h2
        exact Or.inl ⟨b, Or.inr rfl, by rw [hret, ← own_eq]⟩
    | @ctxDone c hd =>
      refine ⟨i1, i2, i3, i4, ?_, ?_⟩
      · intro r e h
        rcases i5 r e h with h' | ⟨h1, c', h2, h3⟩
        · exact Or.inl h'
        · rw [hd] at h3; cases h3
      · intro c' h; have := i6 c' h; rw [hd] at this; cases this
    | @timeout c hc hd =>
      refine ⟨i1, i2, i3, ?_, ?_, i6⟩
      · intro b hb
        rcases i4 b hb with h | ⟨_, h⟩
        · exact Or.inl h
        · rw [hc] at h; cases h
      · intro r e h
        injection h with h1 h2
        subst h1; subst h2
        exact Or.inr ⟨rfl, c, rfl, hd⟩
    | @recv x rest hc hb =>
      have hex : ∃ b, s.worker = .exited b := by
        cases hw : s.worker with
        | running => rw [(i1 hw).2] at hb; cases hb
        | sending b => rw [i3 b hw] at hb; cases hb
        | exited b => exact ⟨b, rfl⟩
      obtain ⟨b, hw⟩ := hex
      have hx : x = sendVal b ∧ rest = [] := by
        rcases i4 b hw with h | ⟨h, _⟩
        · rw [hb] at h; simpa using h
        · rw [hb] at h; cases h
      have hret : s.ret = (own b).1 := i2 b (Or.inr hw)
      refine ⟨?_, i2, ?_, ?_, ?_, i6⟩
      · intro h; rw [hw] at h; cases h
      · intro b' h; rw [hw] at h; cases h
      · intro b' h
        rw [hw] at h; injection h with h; subst h
        exact Or.inr ⟨hx.2, by rw [hret, own_eq, hx.1]⟩
      · intro r e h
        injection h with h1 h2
        subst h1; subst h2
        exact Or.inl ⟨b, Or.inr hw, by rw [hret, hx.1, ← own_eq]⟩
    | @cancelOnReturn r e hc hd =>
      refine ⟨i1, i2, i3, i4, ?_, ?_⟩
      · intro r' e' h
        rcases i5 r' e' h with h' | ⟨h1, c', h2, h3⟩
        · exact Or.inl h'
        · rw [hd] at h3; cases h3
      · intro c' h; have := i6 c' h; rw [hd] at this; cases this

/-- C17, outcome. Whenever the call has returned, it returned the body's own value and error, or the
body's panic as an error, or a DeadlineExceeded error without a value, and then the context is done. -/
theorem C17_outcome (d : Option Cause) (s : St T E) (h : Reach d s) (r : Option T) (e : Option (Err E))
    (hr : s.caller = .returned r e) :
    (∃ res err, Ended s (.ret res err) ∧ r = res ∧ e = err.map .body) ∨
    (∃ p, Ended s (.panic p) ∧ r = none ∧ e = some (.recovered p)) ∨
    (r = none ∧ ∃ c, e = some (.deadlineExceeded c) ∧ s.done = some c) := by
  rcases (inv_reach h).out r e hr with ⟨b, hb, heq⟩ | h'
  · cases b with
    | ret res err => exact Or.inl ⟨res, err, hb, (Prod.mk.inj heq).1, (Prod.mk.inj heq).2⟩
    | panic p => exact Or.inr (Or.inl ⟨p, hb, (Prod.mk.inj heq).1, (Prod.mk.inj heq).2⟩)
  · exact Or.inr (Or.inr h')

/-- C17, exactly once: the outcome never changes afterwards. -/
theorem C17_once (s s' : St T E) (h : Step s s') (r : Option T) (e : Option (Err E))
    (hr : s.caller = .returned r e) : s'.caller = .returned r e := by
  cases h with
  | bodyRet _ => exact hr
  | bodyPanic _ => exact hr
  | send _ _ => exact hr
  | handOver _ h _ => rw [hr] at h; cases h
  | ctxDone _ => exact hr
  | timeout h _ => rw [hr] at h; cases h
  | recv h _ => rw [hr] at h; cases h
  | cancelOnReturn _ _ => exact hr

/-- C17, the call returns: as soon as the body has ended or the context is done, a waiting caller can
return — at once, or after the worker's send. -/
theorem C17_returns (d : Option Cause) (s : St T E) (h : Reach d s) (hw : s.caller = .waiting)
    (hev : s.worker ≠ .running ∨ s.done ≠ none) :
    ∃ s' r e, Step s s' ∧ s'.caller = .returned r e := by
  have inv := inv_reach h
  rcases hev with hev | hev
  · cases hwk : s.worker with
    | running => exact absurd hwk hev
    | sending b => exact ⟨_, _, _, .handOver hwk hw (inv.sending b hwk), rfl⟩
    | exited b =>
      rcases inv.buf b hwk with hb | ⟨_, hb⟩
      · exact ⟨_, _, _, .recv hw hb, rfl⟩
      · rw [hw] at hb; cases hb
  · cases hd : s.done with
    | none => exact absurd hd hev
    | some c => exact ⟨_, _, _, .timeout hw hd, rfl⟩

/-- C17, no leak: once the body has ended, the worker can always finish, whether or not somebody
waits for its result. -/
theorem C17_worker_terminates (d : Option Cause) (s : St T E) (h : Reach d s) (b : BodyEnd T E)
    (hb : s.worker = .sending b) : ∃ s', Step s s' ∧ s'.worker = .exited b ∧ s'.caller = s.caller :=
  ⟨_, .send hb (by rw [(inv_reach h).sending b hb]; exact Nat.zero_lt_one), rfl, rfl⟩

/-- … and it never gets stuck before: a state in which no step is possible has a returned caller and,
if the body has ended, a finished worker. -/
theorem C17_no_stuck_worker (d : Option Cause) (s : St T E) (h : Reach d s)
    (hstuck : ∀ s', ¬ Step s s') (hend : s.worker ≠ .running) :
    (∃ b, s.worker = .exited b) ∧ ∃ r e, s.caller = .returned r e := by
  constructor
  · cases hw : s.worker with
    | running => exact absurd hw hend
    | sending b =>
      obtain ⟨s', h1, _⟩ := C17_worker_terminates d s h b hw
      exact absurd h1 (hstuck s')
    | exited b => exact ⟨b, rfl⟩
  · cases hc : s.caller with
    | waiting =>
      obtain ⟨s', _, _, h1, _⟩ := C17_returns d s h hc (Or.inl hend)
      exact absurd h1 (hstuck s')
    | returned r e => exact ⟨r, e, rfl⟩

/-- Non-vacuity: a timeout first, then the body ends and the worker still finishes. -/
example : ∃ s : St Nat Nat, Reach none s ∧ s.worker = .exited (.ret (some 1) none) ∧
    s.caller = .returned none (some (.deadlineExceeded .deadline)) :=
  ⟨_, .step (.step (.step (.step .init (.ctxDone (c := .deadline) rfl)) (.timeout rfl rfl))
    (.bodyRet (res := some 1) (err := none) rfl)) (.send rfl (by decide)), rfl, rfl⟩

/-- Non-vacuity: the body panics before the deadline. -/
example : ∃ s : St Nat Nat, Reach none s ∧ s.caller = .returned none (some (.recovered 3)) :=
  ⟨_, .step (.step (.step .init (.bodyPanic (p := 3) rfl)) (.send rfl (by decide))) (.recv rfl rfl), rfl⟩

/-- A DeadlineExceeded error does not mean that the deadline passed: cancelling the parent context
is reported with the same code. -/
theorem C51_cancel_reported_as_deadline_false :
    ∃ s : St T E, Reach none s ∧ s.caller = .returned none (some (.deadlineExceeded .canceled)) ∧
      s.done = some .canceled :=
  ⟨_, .step (.step .init (.ctxDone (c := .canceled) rfl)) (.timeout rfl rfl), rfl, rfl⟩

/-- C51 (partial: the code is DeadlineExceeded in both cases, only the message tells them apart).
The message of the timeout error names the cause: it says that the deadline was exceeded only if the
context ended by its deadline. -/
theorem C51_message_names_cause_partial (d : Option Cause) (s : St T E) (h : Reach d s) (c : Cause)
    (r : Option T) (hr : s.caller = .returned r (some (.deadlineExceeded c))) : s.done = some c := by
  rcases C17_outcome d s h _ _ hr with ⟨res, err, _, _, h2⟩ | ⟨p, _, _, h2⟩ | ⟨_, c', h1, h2⟩
  · cases err <;> simp at h2
  · simp at h2
  · injection h1 with h1; injection h1 with h1; subst h1; exact h2

end Verif.Timeout
