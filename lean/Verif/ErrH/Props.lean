import Verif.ErrH.Lemmas

/-! # C19, C20, C22 and C53: error entries and validations -/

namespace Verif.ErrH

variable {V X D R E : Type}

/-- What becomes of error `err` with severity `lvl`: the service's error handler is asked; if it
returns an error the definition fails with it, otherwise the definition has value `ret`. -/
def Delivered (handler : Option (Err D E) → Option (Err D E)) (err : Option (Err D E)) (lvl : Level)
    (ret : Option R) (out : Except (Err D E × Level) (Option R)) : Prop :=
  (∀ e, handler err = some e → out = .error (e, lvl)) ∧ (handler err = none → out = .ok ret)

theorem finish_delivered (handler : Option (Err D E) → Option (Err D E)) (err : Option (Err D E))
    (lvl : Level) (ret : Option R) : Delivered handler err lvl ret (finish handler err lvl ret) := by
  unfold Delivered finish
  cases handler err <;> simp

section
variable (ty : Types D) (handler : Option (Err D E) → Option (Err D E)) (setError : Status D → V → V)
  (statusOf : E → Option (Status D)) (es : List (Entry V X D R)) (err : E) (ret : Option R) (v : V)

theorem handle_eq (h : es ≠ []) :
    handleCallError ty handler setError statusOf es err ret v =
      match entriesLoop ty (defaults ty (statusOf err)) ret es (errorEnv setError (statusOf err) v) with
      | .error _ => finish handler (some (.orig err)) .error ret
      | .ok (some (s, lvl), r) => finish handler (statusErr s) lvl r
      | .ok (none, r) => finish handler (some (.orig err)) .error r := by
  cases es with
  | nil => exact absurd rfl h
  | cons e es => simp only [handleCallError, errorEnv]; rfl

theorem firstMatch_ne {es : List (Entry V X D R)} {v v' : V} {e : Entry V X D R}
    (h : FirstMatch es v e v') : es ≠ [] := by
  obtain ⟨pre, post, v₁, rfl, _⟩ := h
  simp

/-- C19, `ignore`: if the first matching entry says ignore, the error is dropped (the error handler
is asked about no error) and the definition has the value the call returned. -/
theorem C19_ignore (e : Entry V X D R) (v' : V)
    (h : FirstMatch es (errorEnv setError (statusOf err) v) e v') (hi : e.ignore = true) :
    Delivered handler none e.level ret (handleCallError ty handler setError statusOf es err ret v) := by
  rw [handle_eq _ _ _ _ _ _ _ _ (firstMatch_ne h), entriesLoop_first _ _ _ _ _ _ _ h]
  simp only [entryBody, hi, if_true, statusErr]
  exact finish_delivered _ _ _ _

/-- C19, `ignore_and_response`: the definition has the value of the response expression, or no value
if that expression fails. -/
theorem C19_ignore_and_response (e : Entry V X D R) (v' : V) (f : V → Except X R)
    (h : FirstMatch es (errorEnv setError (statusOf err) v) e v') (hi : e.ignore = false)
    (hf : e.ignoreAndResponse = some f) :
    (∀ r, f v' = .ok r → Delivered handler none e.level (some r)
      (handleCallError ty handler setError statusOf es err ret v)) ∧
    (∀ x, f v' = .error x → Delivered handler none e.level none
      (handleCallError ty handler setError statusOf es err ret v)) := by
  rw [handle_eq _ _ _ _ _ _ _ _ (firstMatch_ne h), entriesLoop_first _ _ _ _ _ _ _ h]
  constructor
  · intro r hr
    simp only [entryBody, hi, hf, hr, Bool.false_eq_true, if_false, statusErr, if_true]
    exact finish_delivered _ _ _ _
  · intro x hx
    simp only [entryBody, hi, hf, hx, Bool.false_eq_true, if_false, statusErr, if_true]
    exact finish_delivered _ _ _ _

/-- C19, otherwise the first matching entry decides: the definition fails with the status the entry
builds (code, message and details declared or taken from the original error), with its log level.
A status with code OK is no error. -/
theorem C19_status (e : Entry V X D R) (v' : V) (s : Status D)
    (h : FirstMatch es (errorEnv setError (statusOf err) v) e v') (hi : ¬ Ignoring e)
    (hs : EntryStatus ty (statusOf err) e v' s) :
    Delivered handler (if s.code = 0 then none else some (.status s)) e.level ret
      (handleCallError ty handler setError statusOf es err ret v) := by
  rw [handle_eq _ _ _ _ _ _ _ _ (firstMatch_ne h), entriesLoop_first _ _ _ _ _ _ _ h]
  have := (entryBody_status ty (statusOf err) e ret ret v' s hi).mpr ⟨hs, rfl⟩
  simp only [this, statusErr]
  exact finish_delivered _ _ _ _

/-- C19, if the matching entry cannot be evaluated the original error is returned. -/
theorem C19_entry_body_fails (e : Entry V X D R) (v' : V)
    (h : FirstMatch es (errorEnv setError (statusOf err) v) e v') (hi : ¬ Ignoring e)
    (hs : ∀ s, ¬ EntryStatus ty (statusOf err) e v' s) :
    Delivered handler (some (.orig err)) .error ret
      (handleCallError ty handler setError statusOf es err ret v) := by
  rw [handle_eq _ _ _ _ _ _ _ _ (firstMatch_ne h), entriesLoop_first _ _ _ _ _ _ _ h]
  cases hb : entryBody ty (defaults ty (statusOf err)) e ret v' with
  | error x => exact finish_delivered _ _ _ _
  | ok p =>
    obtain ⟨s, r⟩ := p
    exact absurd ((entryBody_status ty (statusOf err) e ret r v' s hi).mp hb).1 (hs s)

/-- C19, if no entry matches the original error is returned. -/
theorem C19_no_match (v' : V) (h : NoMatch es (errorEnv setError (statusOf err) v) v') :
    Delivered handler (some (.orig err)) .error ret
      (handleCallError ty handler setError statusOf es err ret v) := by
  by_cases he : es = []
  · subst he; exact finish_delivered _ _ _ _
  · rw [handle_eq _ _ _ _ _ _ _ _ he, entriesLoop_none _ _ _ _ _ _ h]
    exact finish_delivered _ _ _ _

/-- C19, if an entry before the first match cannot be evaluated (its definitions or its condition
fail) the original error is returned. -/
theorem C19_entry_fails (h : EntryFails es (errorEnv setError (statusOf err) v)) :
    Delivered handler (some (.orig err)) .error ret
      (handleCallError ty handler setError statusOf es err ret v) := by
  have he : es ≠ [] := by
    obtain ⟨pre, e, post, v₁, rfl, _⟩ := h
    simp
  obtain ⟨x, hx⟩ := entriesLoop_fails ty (defaults ty (statusOf err)) ret es _ h
  rw [handle_eq _ _ _ _ _ _ _ _ he, hx]
  exact finish_delivered _ _ _ _

/-- C19, these are all cases. -/
theorem C19_cases :
    (∃ v', NoMatch es (errorEnv setError (statusOf err) v) v') ∨
    (∃ e v', FirstMatch es (errorEnv setError (statusOf err) v) e v') ∨
    EntryFails es (errorEnv setError (statusOf err) v) := trichotomy es _

/-- C19, entries after the first match do not matter. -/
theorem C19_later_entries_irrelevant (pre post post' : List (Entry V X D R)) (e : Entry V X D R)
    (v₁ v' : V) (h1 : NoMatch pre (errorEnv setError (statusOf err) v) v₁) (h2 : DefsGive e.defs v₁ v')
    (h3 : e.cond v' = .ok true) :
    handleCallError ty handler setError statusOf (pre ++ e :: post) err ret v =
      handleCallError ty handler setError statusOf (pre ++ e :: post') err ret v := by
  rw [handle_eq _ _ _ _ _ _ _ _ (by simp), handle_eq _ _ _ _ _ _ _ _ (by simp)]
  rw [entriesLoop_first _ _ _ _ _ _ e ⟨pre, post, v₁, rfl, h1, h2, h3⟩,
    entriesLoop_first _ _ _ _ _ _ e ⟨pre, post', v₁, rfl, h1, h2, h3⟩]

theorem noMatch_det {es : List (Entry V X D R)} {v v₁ v₂ : V} (h₁ : NoMatch es v v₁)
    (h₂ : NoMatch es v v₂) : v₁ = v₂ := by
  induction h₁ with
  | nil v => cases h₂; rfl
  | cons a1 _ _ ih =>
    cases h₂ with
    | cons b1 _ b3 =>
      have := (runDefs_ok _ _ _).mpr a1
      rw [(runDefs_ok _ _ _).mpr b1] at this
      injection this with this
      subst this
      exact ih b3

/-- C20, exact: with the default error handler a failed call counts as success exactly when the
first matching entry ignores the error or builds a status with code OK. -/
theorem C20_success_iff (r : Option R) :
    handleCallError ty id setError statusOf es err ret v = .ok r ↔
    ∃ e v', FirstMatch es (errorEnv setError (statusOf err) v) e v' ∧
      ((e.ignore = true ∧ r = ret) ∨
       (e.ignore = false ∧ ∃ f, e.ignoreAndResponse = some f ∧
          ((∃ x, f v' = .ok x ∧ r = some x) ∨ (∃ x, f v' = .error x ∧ r = none))) ∨
       (¬ Ignoring e ∧ r = ret ∧ ∃ s, EntryStatus ty (statusOf err) e v' s ∧ s.code = 0)) := by
  constructor
  · intro h
    rcases C19_cases setError statusOf es err v with ⟨v', h1⟩ | ⟨e, v', h1⟩ | h1
    · have := (C19_no_match ty id setError statusOf es err ret v v' h1).1 _ rfl
      rw [this] at h; cases h
    · refine ⟨e, v', h1, ?_⟩
      cases hi : e.ignore with
      | true =>
        have := (C19_ignore ty id setError statusOf es err ret v e v' h1 hi).2 rfl
        rw [this] at h; injection h with h
        exact Or.inl ⟨rfl, h.symm⟩
      | false =>
        cases hf : e.ignoreAndResponse with
        | some f =>
          obtain ⟨g1, g2⟩ := C19_ignore_and_response ty id setError statusOf es err ret v e v' f h1 hi hf
          refine Or.inr (Or.inl ⟨rfl, f, rfl, ?_⟩)
          cases hv : f v' with
          | ok x =>
            have := (g1 x hv).2 rfl
            rw [this] at h; injection h with h
            exact Or.inl ⟨x, rfl, h.symm⟩
          | error x =>
            have := (g2 x hv).2 rfl
            rw [this] at h; injection h with h
            exact Or.inr ⟨x, rfl, h.symm⟩
        | none =>
          have hn : ¬ Ignoring e := by
            intro hn
            rcases hn with hn | hn
            · rw [hi] at hn; cases hn
            · exact hn hf
          refine Or.inr (Or.inr ⟨hn, ?_⟩)
          by_cases hs : ∃ s, EntryStatus ty (statusOf err) e v' s
          · obtain ⟨s, hs⟩ := hs
            have hd := C19_status ty id setError statusOf es err ret v e v' s h1 hn hs
            by_cases hc : s.code = 0
            · simp only [hc, if_true] at hd
              have := hd.2 rfl
              rw [this] at h; injection h with h
              exact ⟨h.symm, s, hs, hc⟩
            · simp only [hc, if_false] at hd
              have := hd.1 _ rfl
              rw [this] at h; cases h
          · have hd := C19_entry_body_fails ty id setError statusOf es err ret v e v' h1 hn
              (fun s hs' => hs ⟨s, hs'⟩)
            have := hd.1 _ rfl
            rw [this] at h; cases h
    · have := (C19_entry_fails ty id setError statusOf es err ret v h1).1 _ rfl
      rw [this] at h; cases h
  · rintro ⟨e, v', h1, ⟨hi, rfl⟩ | ⟨hi, f, hf, ⟨x, hx, rfl⟩ | ⟨x, hx, rfl⟩⟩ | ⟨hn, rfl, s, hs, hc⟩⟩
    · exact (C19_ignore ty id setError statusOf es err _ v e v' h1 hi).2 rfl
    · exact ((C19_ignore_and_response ty id setError statusOf es err ret v e v' f h1 hi hf).1 x hx).2 rfl
    · exact ((C19_ignore_and_response ty id setError statusOf es err ret v e v' f h1 hi hf).2 x hx).2 rfl
    · have hd := C19_status ty id setError statusOf es err r v e v' s h1 hn hs
      simp only [hc, if_true] at hd
      exact hd.2 rfl

/-- C20 (partial: for calls that fail with a gRPC status). If the call failed with a gRPC status and
no entry is ignoring or declares code OK, the definition fails. -/
theorem C20_failure_stays_failure_partial (st : Status D) (hst : statusOf err = some st)
    (hcode : st.code ≠ 0) (hes : ∀ e ∈ es, ¬ Ignoring e ∧ e.code ≠ some 0) :
    ∃ x, handleCallError ty id setError statusOf es err ret v = .error x := by
  cases hr : handleCallError ty id setError statusOf es err ret v with
  | error x => exact ⟨x, rfl⟩
  | ok r =>
    obtain ⟨e, v', h1, h2⟩ := (C20_success_iff ty setError statusOf es err ret v r).mp hr
    have hmem : e ∈ es := by
      obtain ⟨pre, post, _, rfl, _⟩ := h1
      simp
    obtain ⟨hn, hc⟩ := hes e hmem
    rcases h2 with ⟨hi, _⟩ | ⟨_, f, hf, _⟩ | ⟨_, _, s, ⟨_, code, ds, hcode', _, _, hat⟩, hs⟩
    · exact absurd (Or.inl hi) hn
    · exact absurd (Or.inr (by rw [hf]; simp)) hn
    · unfold CodeIs at hcode'
      rw [hst] at hcode'
      have hsc : code = 0 := hat.1.symm.trans hs
      cases hce : e.code with
      | some c => rw [hce] at hcode'; subst hcode'; exact absurd (by rw [hce, hsc]) hc
      | none => rw [hce] at hcode'; subst hcode'; exact absurd hsc hcode

end

/-- C20 is false of the code for errors that are no gRPC status — a panic recovered by a timeout, or
a retry condition that cannot be evaluated: an entry that only declares a message turns the failure
into a success without a value. -/
theorem C20_failure_stays_failure_false :
    ∃ (es : List (Entry Unit Unit Unit Nat)), (∀ e ∈ es, ¬ Ignoring e ∧ e.code = none) ∧
      ∀ (ty : Types Unit) (err : Nat),
        handleCallError ty id (fun _ v => v) (fun _ => none) es err none () = .ok none := by
  refine ⟨[⟨none, fun _ => .ok true, false, none, none, some (fun _ => .ok "failed"), [], .error⟩], ?_, ?_⟩
  · intro e he
    rw [List.mem_singleton] at he
    subst he
    exact ⟨fun h => by rcases h with h | h <;> simp at h, rfl⟩
  · intro ty err
    rfl

/-- C53: the service's error handler is also called when there is no error: when an entry ignores
the error, it is called without one. A handler that always returns an error (for example one that
wraps what it is given) then fails definitions whose error was ignored. -/
theorem C53_handler_called_without_error_false :
    ∃ (es : List (Entry Unit Unit Unit Nat)) (handler : Option (Err Unit Nat) → Option (Err Unit Nat)),
      (∀ e ∈ es, e.ignore = true) ∧ (∀ e, handler (some e) = some e) ∧
      ∀ (ty : Types Unit) (err : Nat),
        handleCallError ty handler (fun _ v => v) (fun _ => none) es err none () =
          .error (.orig 99, .error) := by
  refine ⟨[⟨none, fun _ => .ok true, true, none, none, none, [], .error⟩],
    fun o => match o with
      | some e => some e
      | none => some (.orig 99), by simp, fun _ => rfl, fun _ _ => rfl⟩

/-- C53 (partial: handlers that return no error when given none). Then an ignored error is no
failure. -/
theorem C53_ignored_is_success_partial (ty : Types D) (handler : Option (Err D E) → Option (Err D E))
    (setError : Status D → V → V) (statusOf : E → Option (Status D)) (es : List (Entry V X D R)) (err : E)
    (ret : Option R) (v : V) (e : Entry V X D R) (v' : V)
    (h : FirstMatch es (errorEnv setError (statusOf err) v) e v') (hi : Ignoring e)
    (hh : handler none = none) :
    ∃ r, handleCallError ty handler setError statusOf es err ret v = .ok r := by
  cases hig : e.ignore with
  | true => exact ⟨_, (C19_ignore ty handler setError statusOf es err ret v e v' h hig).2 hh⟩
  | false =>
    cases hf : e.ignoreAndResponse with
    | none =>
      rcases hi with hi | hi
      · rw [hig] at hi; cases hi
      · exact absurd hf hi
    | some f =>
      obtain ⟨g1, g2⟩ := C19_ignore_and_response ty handler setError statusOf es err ret v e v' f h hig hf
      cases hv : f v' with
      | ok x => exact ⟨_, (g1 x hv).2 hh⟩
      | error x => exact ⟨_, (g2 x hv).2 hh⟩

/-! ## Non-vacuity -/

/-- Example: the environment is the code in the `error` variable; two entries, the second matches
code 5 and declares its own code, message and a detail. -/
def exEntries : List (Entry Nat String Nat Nat) :=
  [⟨none, fun v => .ok (v == 1), true, none, none, none, [], .info⟩,
   ⟨some (fun v => .ok (v + 100)), fun v => .ok (v == 105), false, none, some 9, some (fun v => .ok s!"code {v}"),
     [⟨none, fun _ => .ok true, some (fun v => .ok v), [fun v => .ok v, fun _ => .error "x"], [], [], [], [("en", fun _ => .ok "hi")]⟩],
     .warn⟩]

/-- All types are known. -/
def exTypes : Types Nat := ⟨fun _ => true, fun _ => true⟩

example : FirstMatch exEntries 5 (exEntries[1]) 105 :=
  ⟨[exEntries[0]], [], 5, rfl, .cons (.none 5) rfl (.nil 5), .some rfl, rfl⟩

example : handleCallError exTypes id (fun s _ => s.code) (fun e => some ⟨e, "m", []⟩) exEntries 5 none 0 =
    .error (.status ⟨9, "code 105", [.custom 105, .localized "en" "hi"]⟩, .warn) := rfl

example : handleCallError exTypes id (fun s _ => s.code) (fun e => some ⟨e, "m", []⟩) exEntries 1 none 0 =
    .ok none := rfl

example : ∃ v', NoMatch exEntries 7 v' := ⟨107, .cons (.none 7) rfl (.cons (.some rfl) rfl (.nil 107))⟩

example : ∃ st : Status Nat, (some st = (fun e => some (⟨e, "m", []⟩ : Status Nat)) 7) ∧ st.code ≠ 0 ∧
    (∀ e ∈ exEntries.tail, ¬ Ignoring e ∧ e.code ≠ some 0) :=
  ⟨⟨7, "m", []⟩, rfl, by decide, by
    intro e he
    simp only [exEntries, List.tail_cons, List.mem_singleton] at he
    subst he
    exact ⟨fun h => by rcases h with h | h <;> simp at h, by simp⟩⟩

example : EntryFails [⟨none, fun _ => .error "x", false, none, none, none, [], .error⟩] (5 : Nat)
    (X := String) (D := Nat) (R := Nat) :=
  ⟨[], _, [], 5, rfl, .nil 5, Or.inr ⟨5, "x", .none 5, rfl⟩⟩

/-! ## C22: validations -/

/-- The message of a validation. -/
def ValidationMessage (e : Entry V X D R) (v : V) (m : String) : Prop :=
  match e.message with
  | some f => f v = .ok m
  | none => m = "error"

/-- The configured status of a validation whose condition holds in `v`. -/
def ValidationStatus (ty : Types D) (code : Nat) (e : Entry V X D R) (v : V) (s : Status D) : Prop :=
  ValidationMessage e v s.msg ∧ ∃ ds, DetailsGive e.details v ds ∧ Attached ty code ds s

theorem attached_nil (ty : Types D) (code : Nat) (s : Status D) :
    Attached ty code [] s ↔ s.code = code ∧ s.details = [] := by
  unfold Attached
  constructor
  · rintro ⟨h1, h2, h3⟩
    refine ⟨h1, ?_⟩
    by_cases hc : code = okCode
    · exact h3 (fun h => h.1 hc)
    · exact h2 ⟨hc, by simp⟩
  · rintro ⟨h1, h2⟩
    exact ⟨h1, fun _ => h2, fun _ => h2⟩

theorem detailsGive_nil {v : V} {ds : List (Detail D)} :
    DetailsGive ([] : List (DetailRule V X D)) v ds ↔ ds = [] :=
  ⟨fun h => by cases h; rfl, fun h => by subst h; exact .nil v⟩

section
variable (ty : Types D) (code : Nat) (hcode : code ≠ 0) (e : Entry V X D R) (v : V)
include hcode

/-- C22, a validation passes exactly when its condition is false. -/
theorem C22_passes_iff : runValidation ty code e v = none ↔
    ∃ v', DefsGive e.defs v v' ∧ e.cond v' = .ok false := by
  unfold runValidation
  cases h1 : runDefs e.defs v with
  | error x =>
    simp only [reduceCtorEq, false_iff]
    rintro ⟨v', h, _⟩
    rw [(runDefs_ok _ _ _).mpr h] at h1; cases h1
  | ok v1 =>
    have h1' := (runDefs_ok _ _ _).mp h1
    have huniq : ∀ v', DefsGive e.defs v v' → v' = v1 := by
      intro v' h
      rw [(runDefs_ok _ _ _).mpr h] at h1; injection h1
    simp only
    cases h2 : e.cond v1 with
    | error x =>
      simp only [reduceCtorEq, false_iff]
      rintro ⟨v', h, h'⟩
      rw [huniq v' h, h2] at h'; cases h'
    | ok b =>
      cases b with
      | false => simp only [true_iff]; exact ⟨v1, h1', h2⟩
      | true =>
        have hno : ¬ ∃ v', DefsGive e.defs v v' ∧ e.cond v' = .ok false := by
          rintro ⟨v', h, h'⟩
          rw [huniq v' h, h2] at h'; cases h'
        simp only [hno, iff_false]
        have hverr : ∀ s : Status D, s.code = code → runValidation.verr (X := X) s ≠ none := by
          intro s hs
          unfold runValidation.verr okCode
          simp [hs, hcode]
        have hsw : ∀ m l, (statusWithDetails ty code m l).code = code := by
          intro m l
          unfold statusWithDetails
          split
          · rfl
          · split <;> rfl
        cases validationMessage e v1 with
        | error x => simp
        | ok m =>
          simp only
          cases e.details with
          | nil => exact hverr _ rfl
          | cons d ds =>
            simp only
            cases runDetails (d :: ds) v1 [] with
            | error x => simp
            | ok p => exact hverr _ (hsw _ _)

/-- C22, a validation whose condition holds fails with the configured status: the declared code, the
evaluated message, and the details whose conditions hold, in declaration order. -/
theorem C22_status (v' : V) (s : Status D) (h1 : DefsGive e.defs v v') (h2 : e.cond v' = .ok true)
    (hs : ValidationStatus ty code e v' s) : runValidation ty code e v = some (.status s) := by
  obtain ⟨hm, ds, hds, hat⟩ := hs
  have hsc : s.code ≠ okCode := by rw [hat.1]; exact hcode
  unfold runValidation
  simp only [(runDefs_ok _ _ _).mpr h1, h2]
  have hmsg : validationMessage e v' = .ok s.msg := by
    unfold ValidationMessage at hm
    unfold validationMessage
    cases hme : e.message with
    | none => rw [hme] at hm; rw [hm]
    | some f => rw [hme] at hm; exact hm
  rw [hmsg]
  simp only
  cases hd : e.details with
  | nil =>
    rw [hd, detailsGive_nil] at hds
    subst hds
    obtain ⟨hc, hl⟩ := (attached_nil ty code s).mp hat
    have : (⟨code, s.msg, []⟩ : Status D) = s := by
      obtain ⟨c, m, l⟩ := s
      simp only at hc hl
      rw [hc, hl]
    simp only [this, runValidation.verr]
    rw [if_neg (show code ≠ okCode from hcode)]
  | cons d ds' =>
    rw [hd] at hds
    obtain ⟨v'', hr⟩ := (runDetails_ok (d :: ds') v' [] ds).mpr ⟨ds, hds, rfl⟩
    simp only [hr, (attached_iff ty code s.msg ds s).mpr ⟨hat, rfl⟩, runValidation.verr, if_neg hsc]

/-- C22, otherwise evaluating it failed, and it fails with that evaluation error. -/
theorem C22_cases :
    (∃ v', DefsGive e.defs v v' ∧ e.cond v' = .ok false) ∨
    (∃ v' s, DefsGive e.defs v v' ∧ e.cond v' = .ok true ∧ ValidationStatus ty code e v' s) ∨
    (∃ x, runValidation ty code e v = some (.eval x)) := by
  cases h : runValidation ty code e v with
  | none => exact Or.inl ((C22_passes_iff ty code hcode e v).mp h)
  | some er =>
    cases er with
    | eval x => exact Or.inr (Or.inr ⟨x, rfl⟩)
    | status s =>
      refine Or.inr (Or.inl ?_)
      unfold runValidation at h
      cases h1 : runDefs e.defs v with
      | error x => rw [h1] at h; simp at h
      | ok v1 =>
        rw [h1] at h
        simp only at h
        cases h2 : e.cond v1 with
        | error x => rw [h2] at h; simp at h
        | ok b =>
          cases b with
          | false => rw [h2] at h; simp at h
          | true =>
            rw [h2] at h
            simp only at h
            refine ⟨v1, s, (runDefs_ok _ _ _).mp h1, h2, ?_⟩
            have hverr : ∀ t : Status D, runValidation.verr (X := X) t = some (.status s) → t = s := by
              intro t ht
              unfold runValidation.verr at ht
              split at ht
              · cases ht
              · injection ht with ht; injection ht
            have key : ∀ m : String, (match e.details with
                | [] => runValidation.verr (X := X) (⟨code, m, []⟩ : Status D)
                | ds => match runDetails ds v1 [] with
                  | .error x => some (.eval x)
                  | .ok (_, l) => runValidation.verr (statusWithDetails ty code m l)) = some (.status s) →
                s.msg = m ∧ ∃ ds, DetailsGive e.details v1 ds ∧ Attached ty code ds s := by
              intro m hk
              cases hd : e.details with
              | nil =>
                rw [hd] at hk
                have := hverr _ hk
                subst this
                exact ⟨rfl, [], .nil v1, (attached_nil ty code _).mpr ⟨rfl, rfl⟩⟩
              | cons d ds =>
                rw [hd] at hk
                simp only at hk
                cases hr : runDetails (d :: ds) v1 [] with
                | error x => rw [hr] at hk; simp at hk
                | ok p =>
                  obtain ⟨v2, l⟩ := p
                  rw [hr] at hk
                  have hs := (attached_iff ty code m l s).mp (hverr _ hk)
                  obtain ⟨o, ho, he⟩ := (runDetails_ok (d :: ds) v1 [] l).mp ⟨v2, hr⟩
                  rw [List.nil_append] at he
                  subst he
                  exact ⟨hs.2, l, ho, hs.1⟩
            cases hvm : validationMessage e v1 with
            | error x => rw [hvm] at h; simp at h
            | ok m =>
              rw [hvm] at h
              obtain ⟨hk1, hk2⟩ := key m h
              refine ⟨?_, hk2⟩
              unfold validationMessage at hvm
              unfold ValidationMessage
              cases hm : e.message with
              | none => rw [hm] at hvm; injection hvm with hvm; rw [hk1, hvm]
              | some f => rw [hm] at hvm; rw [hk1]; exact hvm

end

/-- C22, as a definition: a failing validation always fails the definition with a gRPC status, the
configured one, or for an evaluation error its own status or Internal. -/
theorem C22_always_status (ty : Types D) (code : Nat) (e : Entry V X D R)
    (statusOf : X → Option (Status D)) (text : X → String) (v : V) :
    (evalValidation ty code e statusOf text v = none ↔ runValidation ty code e v = none) ∧
    (∀ s, runValidation ty code e v = some (.status s) → evalValidation ty code e statusOf text v = some s) ∧
    (∀ x, runValidation ty code e v = some (.eval x) → ∃ s, evalValidation ty code e statusOf text v = some s ∧
      (statusOf x = some s ∨ (statusOf x = none ∧ s.code = 13))) := by
  unfold evalValidation
  refine ⟨?_, ?_, ?_⟩
  · cases runValidation ty code e v with
    | none => simp
    | some er =>
      cases er with
      | status s => simp
      | eval x => cases hs : statusOf x <;> simp [hs]
  · intro s h; rw [h]
  · intro x h
    rw [h]
    simp only
    cases hs : statusOf x with
    | none => exact ⟨_, rfl, Or.inr ⟨rfl, rfl⟩⟩
    | some s => exact ⟨s, rfl, Or.inl rfl⟩

/-- C22 is false for the code OK: such a validation never fails, even when its condition holds. -/
theorem C22_ok_code_false :
    ∃ (e : Entry Unit Unit Unit Unit), e.cond () = .ok true ∧
      ∀ ty, runValidation ty 0 e () = none :=
  ⟨⟨none, fun _ => .ok true, false, none, none, none, [], .error⟩, rfl, fun _ => rfl⟩

example : runValidation exTypes 9 (exEntries[1]) 5 =
    some (.status ⟨9, "code 105", [.custom 105, .localized "en" "hi"]⟩) := rfl
example : runValidation exTypes 9 (exEntries[1]) 6 = none := rfl

end Verif.ErrH
