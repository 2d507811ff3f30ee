import Verif.ErrVar.Model

/-! # C21: handlers see their own error -/

namespace Verif.ErrVar

variable {E : Type}

/-- `e` is the error of the latest failed attempt of call `c` in the history `t`. -/
def OwnError (t : List (Access E)) (c : Nat) (e : E) : Prop :=
  ∃ pre mid, t = pre ++ .set c e :: mid ∧ ∀ e', Access.set c e' ∉ mid

/-- No other call of the message failed between the latest failed attempt of `c` and the end. -/
def Undisturbed (t : List (Access E)) (c : Nat) : Prop :=
  ∀ pre e mid, t = pre ++ .set c e :: mid → (∀ e', Access.set c e' ∉ mid) →
    ∀ c' e', Access.set c' e' ∈ mid → c' = c

theorem varAfter_no_set (isStatus : E → Bool) (t : List (Access E)) (h : ∀ c e, Access.set c e ∉ t) :
    ∀ v, varAfter isStatus v t = v := by
  induction t with
  | nil => intro v; rfl
  | cons a t ih =>
    intro v
    unfold varAfter
    rw [List.foldl_cons]
    have h' : ∀ c e, Access.set c e ∉ t := fun c e hm => h c e (List.mem_cons_of_mem _ hm)
    cases a with
    | set c e => exact absurd (List.mem_cons_self ..) (h c e)
    | read c => exact ih h' v

theorem seen_after_set (isStatus : E → Bool) (pre mid : List (Access E)) (c c₀ : Nat) (e : E)
    (hno : ∀ c' e', Access.set c' e' ∉ mid) (hs : isStatus e = true) :
    seenAt isStatus (pre ++ .set c e :: mid) (.read c₀) = some (some e) := by
  have h1 : seenAt isStatus (pre ++ .set c e :: mid) (.read c₀) =
      some (varAfter isStatus none (pre ++ .set c e :: mid)) := rfl
  have h2 : varAfter isStatus none (pre ++ .set c e :: mid) =
      varAfter isStatus (store isStatus (varAfter isStatus none pre) e) mid := by
    unfold varAfter
    rw [List.foldl_append, List.foldl_cons]
    rfl
  rw [h1, h2, varAfter_no_set isStatus mid hno]
  simp [store, hs]

/-- C21 (partial: only while no other call of the same message fails in between, and for errors that
are gRPC statuses). Then every expression of a call's handler sees the call's own error. -/
theorem C21_own_error_partial (isStatus : E → Bool) (t : List (Access E)) (c : Nat) (e : E)
    (hown : OwnError t c e) (hu : Undisturbed t c) (hs : isStatus e = true) :
    seenAt isStatus t (.read c) = some (some e) := by
  obtain ⟨pre, mid, rfl, hmid⟩ := hown
  have hno : ∀ c' e', Access.set c' e' ∉ mid := by
    intro c' e' hm
    have := hu pre e mid rfl hmid c' e' hm
    subst this
    exact hmid e' hm
  exact seen_after_set isStatus pre mid c c e hno hs

/-- … in particular when the calls of the message do not overlap: every other call made all its
accesses before `c` failed. -/
theorem C21_sequential_partial (isStatus : E → Bool) (pre mid : List (Access E)) (c : Nat) (e : E)
    (hmid : ∀ a ∈ mid, a = .read c) (hs : isStatus e = true) :
    seenAt isStatus (pre ++ .set c e :: mid) (.read c) = some (some e) := by
  have hno : ∀ c' e', Access.set c' e' ∉ mid := fun c' e' hm => by cases hmid _ hm
  exact seen_after_set isStatus pre mid c c e hno hs

/-- C21, what is seen is always the error of some failed attempt of some call of the message. -/
theorem C21_some_error (isStatus : E → Bool) (t : List (Access E)) (c : Nat) (e : E)
    (h : seenAt isStatus t (.read c) = some (some e)) : ∃ c', Access.set c' e ∈ t := by
  have key : ∀ (t : List (Access E)) (v : Option E) (e : E), varAfter isStatus v t = some e →
      v = some e ∨ ∃ c', Access.set c' e ∈ t := by
    intro t
    induction t with
    | nil => intro v e h; exact Or.inl h
    | cons a t ih =>
      intro v e h
      unfold varAfter at h
      rw [List.foldl_cons] at h
      rcases ih _ e h with h' | ⟨c', h'⟩
      · cases a with
        | read c => exact Or.inl h'
        | set c e₀ =>
          simp only [access, store] at h'
          by_cases hs : isStatus e₀ = true
          · rw [if_pos hs] at h'; injection h' with h'; subst h'
            exact Or.inr ⟨c, List.mem_cons_self ..⟩
          · rw [if_neg hs] at h'; exact Or.inl h'
      · exact Or.inr ⟨c', List.mem_cons_of_mem _ h'⟩
  unfold seenAt access at h
  injection h with h
  rcases key t none e h with h' | h'
  · cases h'
  · exact h'

/-- C21 is false of the code: two calls of one message fail at the same time, and the handler of the
first reads the error of the second. -/
theorem C21_own_error_false : ∃ (t : List (Access Nat)) (c e e' : Nat), OwnError t c e ∧
    e ≠ e' ∧ seenAt (fun _ => true) t (.read c) = some (some e') ∧
    -- each call's own accesses are in program order: it sets its error, then reads
    t.filter (fun a => a.call == c) = [.set c e] :=
  ⟨[.set 0 10, .set 1 20], 0, 10, 20, ⟨[], [.set 1 20], rfl, by simp⟩, by decide, rfl, rfl⟩

/-- Non-vacuity of the partial theorem: call 1 failed and was handled before call 0 failed. -/
example : OwnError [.set 1 20, .read 1, .set 0 10, .read 0] 0 (10 : Nat) :=
  ⟨[.set 1 20, .read 1], [.read 0], rfl, by simp⟩

example : Undisturbed [.read 1, .set 0 (10 : Nat), .read 0] 0 := by
  intro pre e mid h _ c' e' hm
  have : Access.set c' e' ∈ [.read 1, .set 0 (10 : Nat), .read 0] := by
    rw [h]; simp [hm]
  simp at this
  exact this.1

end Verif.ErrVar
