import Verif.Plugin.Instance

/-! # C30: calls on a plugin instance, C62: validation of a plugin -/

namespace Verif.Plugin

/-- Specification: a plugin that writes exactly one line for each request. -/
def WellBehaved {Q R} (serve : Q → Beh R) (resp : Q → R) : Prop := ∀ q, serve q = .answer [resp q]

/-- Specification: the history closes the instance. -/
def Closes {Q} (h : List (Op Q)) : Prop := Op.close ∈ h

/-- Specification: the history has the plugin end by itself. -/
def Crashes {Q} (h : List (Op Q)) : Prop := Op.crash ∈ h

/-- Invariant of histories with a well-behaved plugin. `c`: closed by the user, `d`: ended by itself. -/
def Inv {R} (c d : Prop) (s : St R) : Prop :=
  s.out = [] ∧ s.stuck = false ∧ (s.closed = true → c ∨ d) ∧ (c → s.closed = true) ∧ (d → s.closed = true ∨ s.proc = .exited true) ∧
  (s.gcClosed = true → c) ∧ (s.closed = false → s.proc = .running ∨ s.proc = .exited true) ∧
  (s.proc ≠ .running → c ∨ d)

theorem step_inv {Q R} (x : Bool) (serve : Q → Beh R) (resp : Q → R) (hw : WellBehaved serve resp) (c d : Prop) (s : St R)
    (o : Op Q) (h : Inv c d s) : Inv (c ∨ o = .close) (d ∨ o = .crash) (step x serve s o).1 := by
  obtain ⟨h1, h2, h3, h4, h5, h6, h7, h8⟩ := h
  obtain ⟨closed, gcClosed, queue, proc, out, stuck⟩ := s
  simp only at h1 h2 h3 h4 h5 h6 h7 h8
  subst h1 h2
  cases o with
  | call q =>
    cases closed <;> rcases proc with _ | ⟨_ | _⟩ <;> cases x <;>
      simp_all [step, write, recv, Inv, hw q] <;> grind
  | close =>
    cases closed <;> rcases proc with _ | ⟨_ | _⟩ <;> cases x <;> cases gcClosed <;>
      simp_all [step, write, Inv] <;> grind
  | gc =>
    cases gcClosed <;> simp_all [step, Inv]
  | gcTurn =>
    cases queue <;> cases closed <;> rcases proc with _ | ⟨_ | _⟩ <;> cases x <;>
      simp_all [step, write, Inv] <;> grind
  | crash =>
    rcases proc with _ | ⟨_ | _⟩ <;> cases closed <;> simp_all [step, Inv] <;> grind

theorem exec_inv {Q R} (x : Bool) (serve : Q → Beh R) (resp : Q → R) (hw : WellBehaved serve resp) (h : List (Op Q)) :
    ∀ (c d : Prop) (s : St R), Inv c d s → Inv (c ∨ Closes h) (d ∨ Crashes h) (exec x serve s h) := by
  induction h with
  | nil => intro c d s hi; simpa [exec, Closes, Crashes] using hi
  | cons o os ih =>
    intro c d s hi
    have := ih _ _ _ (step_inv x serve resp hw c d s o hi)
    simp only [exec]
    have e1 : ((c ∨ o = Op.close) ∨ Closes os) ↔ (c ∨ Closes (o :: os)) := by
      simp only [Closes, List.mem_cons, or_assoc, eq_comm]
    have e2 : ((d ∨ o = Op.crash) ∨ Crashes os) ↔ (d ∨ Crashes (o :: os)) := by
      simp only [Crashes, List.mem_cons, or_assoc, eq_comm]
    rwa [propext e1, propext e2] at this

theorem init_inv {R} : Inv False False (init : St R) := by simp [Inv, init]

theorem reach_inv {Q R} (x : Bool) (serve : Q → Beh R) (resp : Q → R) (hw : WellBehaved serve resp) (h : List (Op Q)) :
    Inv (Closes h) (Crashes h) (exec x serve init h) := by
  have := exec_inv x serve resp hw h _ _ _ init_inv
  simpa only [false_or] using this

/-- C30 (partial: for plugins that write exactly one line for each request): after any history that does
not close the instance, with any calls and GC requests, a call gets the response to its own request. -/
theorem C30_own_response_partial {Q R} (x : Bool) (serve : Q → Beh R) (resp : Q → R) (hw : WellBehaved serve resp)
    (h : List (Op Q)) (hc : ¬Closes h) (hd : ¬Crashes h) (q : Q) :
    (step x serve (exec x serve init h) (.call q)).2 = .value (resp q) := by
  obtain ⟨h1, h2, h3, h4, h5, h6, h7, h8⟩ := reach_inv x serve resp hw h
  generalize exec x serve init h = s at *
  obtain ⟨closed, gcClosed, queue, proc, out, stuck⟩ := s
  simp only at h1 h2 h3 h4 h5 h6 h7 h8
  subst h1 h2
  cases closed <;> rcases proc with _ | ⟨_ | _⟩ <;> simp_all [step, write, recv, hw q]

/-- C30: after a history that closed the instance, or in which the plugin ended between calls, a call fails
with an error. It neither blocks nor gets a response. -/
theorem C30_after_close_partial {Q R} (x : Bool) (serve : Q → Beh R) (resp : Q → R) (hw : WellBehaved serve resp)
    (h : List (Op Q)) (hc : Closes h ∨ Crashes h) (q : Q) :
    (step x serve (exec x serve init h) (.call q)).2 = .error := by
  obtain ⟨h1, h2, h3, h4, h5, h6, h7, h8⟩ := reach_inv x serve resp hw h
  generalize exec x serve init h = s at *
  obtain ⟨closed, gcClosed, queue, proc, out, stuck⟩ := s
  simp only at h1 h2 h3 h4 h5 h6 h7 h8
  subst h1 h2
  cases closed <;> rcases proc with _ | ⟨_ | _⟩ <;> cases x <;> simp_all [step, write, recv, hw q]

/-- C30 (partial: the first `Close` only): closing neither blocks nor panics, after any history. -/
theorem C30_close_partial {Q R} (x : Bool) (serve : Q → Beh R) (resp : Q → R) (hw : WellBehaved serve resp)
    (h : List (Op Q)) (hc : ¬Closes h) :
    (step x serve (exec x serve init h) .close).2 = .done ∨ (step x serve (exec x serve init h) .close).2 = .error := by
  obtain ⟨h1, h2, h3, h4, h5, h6, h7, h8⟩ := reach_inv x serve resp hw h
  generalize exec x serve init h = s at *
  obtain ⟨closed, gcClosed, queue, proc, out, stuck⟩ := s
  simp only at h1 h2 h3 h4 h5 h6 h7 h8
  subst h1 h2
  cases closed <;> rcases proc with _ | ⟨_ | _⟩ <;> cases x <;> cases gcClosed <;> simp_all [step, write]

/-- C30 (partial: before `Close` only): requesting GC neither blocks nor panics; the GC goroutine never
blocks. -/
theorem C30_gc_partial {Q R} (x : Bool) (serve : Q → Beh R) (resp : Q → R) (hw : WellBehaved serve resp)
    (h : List (Op Q)) :
    (¬Closes h → (step x serve (exec x serve init h) .gc).2 = .done) ∧
    (step x serve (exec x serve init h) .gcTurn).2 = .done := by
  obtain ⟨h1, h2, h3, h4, h5, h6, h7, h8⟩ := reach_inv x serve resp hw h
  generalize exec x serve init h = s at *
  obtain ⟨closed, gcClosed, queue, proc, out, stuck⟩ := s
  simp only at h1 h2 h3 h4 h5 h6 h7 h8
  subst h1 h2
  constructor
  · intro hc
    cases gcClosed <;> simp_all [step]
  · cases queue <;> cases closed <;> rcases proc with _ | ⟨_ | _⟩ <;> cases x <;> simp_all [step, write]

/-- C30 is false of the code for a second `Close`: it panics, for every plugin. -/
theorem C30_double_close_false {Q R} (x : Bool) (serve : Q → Beh R) :
    (step x serve (exec x serve init [.close]) .close).2 = .panic := by
  cases x <;> rfl

/-- C30 is false of the code for GC requests after `Close`, which the generated code issues at the end of
each method: they panic, for every plugin. -/
theorem C30_gc_after_close_false {Q R} (x : Bool) (serve : Q → Beh R) :
    (step x serve (exec x serve init [.close]) .gc).2 = .panic := by
  cases x <;> rfl

/-- A state in which the host waits for an ended plugin. -/
def Dead {R} (s : St R) : Prop := s.stuck = true ∨ (s.closed = false ∧ s.proc = .exited false)

theorem dead_step {Q R} (x : Bool) (serve : Q → Beh R) (s : St R) (o : Op Q) (h : Dead s) : Dead (step x serve s o).1 := by
  obtain ⟨closed, gcClosed, queue, proc, out, stuck⟩ := s
  rcases h with h | ⟨h, h'⟩
  · simp only at h; subst h
    cases o <;> simp only [step, Dead]
    all_goals first
      | (left; rfl)
      | (left; split <;> rfl)
      | (left; split <;> (try rfl) <;> split <;> rfl)
  · simp only at h h'; subst h h'
    cases stuck <;> cases o <;> simp [step, write, Dead] <;> split <;> simp

theorem dead_exec {Q R} (x : Bool) (serve : Q → Beh R) (h : List (Op Q)) : ∀ s : St R, Dead s → Dead (exec x serve s h) := by
  induction h with
  | nil => intro s hs; exact hs
  | cons o os ih => intro s hs; exact ih _ (dead_step x serve s o hs)

/-- C30 is false of the code for a plugin that ends while it handles a request (a panic in a plugin
function): that call fails with an error, and from then on every call and every `Close`, after any history,
blocks forever. -/
theorem C30_plugin_exit_false {Q R} (x : Bool) (serve : Q → Beh R) (q : Q) (hq : serve q = .exit) :
    (step x serve init (.call q)).2 = .error ∧
    ∀ h : List (Op Q), (∀ q', (step x serve (exec x serve init (.call q :: h)) (.call q')).2 = .hang) ∧
      (step x serve (exec x serve init (.call q :: h)) .close).2 = .hang := by
  have e1 : step x serve (init : St R) (.call q) = (⟨false, false, false, .exited false, [], false⟩, .error) := by
    simp [step, write, recv, init, hq]
  refine ⟨by rw [e1], ?_⟩
  intro h
  have hd : Dead (exec x serve (init : St R) (.call q :: h)) := by
    simp only [exec]
    apply dead_exec
    rw [e1]
    exact .inr ⟨rfl, rfl⟩
  generalize exec x serve init (.call q :: h) = s at hd
  obtain ⟨closed, gcClosed, queue, proc, out, stuck⟩ := s
  rcases hd with hd | ⟨hd, hd'⟩
  · simp only at hd; subst hd; exact ⟨fun _ => rfl, rfl⟩
  · simp only at hd hd'; subst hd hd'
    cases stuck <;> exact ⟨fun _ => rfl, rfl⟩

/-- C30 is false of the code for a plugin that writes a further line to its standard output: the call gets
that line as response, the next call blocks forever. -/
theorem C30_extra_output_false {Q R} (x : Bool) (serve : Q → Beh R) (q q' : Q) (debug r : R) (hq : serve q = .answer [debug, r]) :
    (step x serve init (.call q)).2 = .value debug ∧
    (step x serve (exec x serve init [.call q]) (.call q')).2 = .hang := by
  have e1 : step x serve (init : St R) (.call q) = (⟨false, false, false, .running, [r], false⟩, .value debug) := by
    simp [step, write, recv, init, hq]
  refine ⟨by rw [e1], ?_⟩
  simp only [exec, e1]
  simp [step, write]

/-- C62: a plugin is accepted exactly when it reports the host's protocol version and every function of its
configuration. -/
theorem C62_validate (protocol : Nat) (functions : List String) (version : Nat) (implemented : List String) :
    validate protocol functions version implemented = true ↔ version = protocol ∧ ∀ f ∈ functions, f ∈ implemented := by
  unfold validate
  by_cases h : version = protocol
  · simp [h, List.filter_eq_nil_iff]
  · simp [h]

/-- The histories: two calls with GC in between are answered, then the instance is closed. -/
example : WellBehaved (fun n : Nat => Beh.answer [n + 1]) (· + 1) ∧
    ¬Closes [Op.call 1, .gc, .gcTurn, .call 2] ∧
    (step true (fun n : Nat => Beh.answer [n + 1]) (exec true (fun n : Nat => Beh.answer [n + 1]) init [.call 1, .gc, .gcTurn, .call 2]) (.call 5)).2 = .value 6 :=
  ⟨fun _ => rfl, by simp [Closes], rfl⟩

example : (fun n : Nat => if n = 0 then Beh.exit else Beh.answer [n]) 0 = .exit := rfl

example : validate 1 ["f", "g"] 1 ["g", "f", "h"] = true ∧ validate 1 ["f", "g"] 1 ["g"] = false ∧ validate 1 [] 2 [] = false := by
  refine ⟨by decide, by decide, by decide⟩

end Verif.Plugin
