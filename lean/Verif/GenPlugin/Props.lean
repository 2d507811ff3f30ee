import Verif.GenPlugin.Model

/-! # C72: runs of plugins -/

namespace Verif.GenPlugin

/-- The run of a configured plugin for a request. -/
def callOf (w : World) (req : Bytes) (p : Plugin) : Call := ⟨(w.readFile p.path).getD [], req⟩

theorem evalPlugins_hash {w : World} {ps : List Plugin} {buf : Bytes} {c : Call}
    (h : c ∈ (evalPlugins w ps buf).1) : ∃ p ∈ ps, w.readFile p.path = some c.wasm ∧ w.hash c.wasm = p.sha256 := by
  induction ps generalizing buf with
  | nil => cases h
  | cons p ps ih =>
    unfold evalPlugins at h
    cases hr : w.readFile p.path with
    | none => simp [hr] at h
    | some f =>
      simp only [hr] at h
      by_cases hs : p.sha256 = w.hash f
      · simp only [hs, ne_eq, not_true, if_false] at h
        by_cases hrun : w.run f buf = true
        · simp only [hrun, if_true, List.mem_cons] at h
          rcases h with rfl | h
          · exact ⟨p, List.mem_cons_self .., hr, hs.symm⟩
          · obtain ⟨q, hq, h⟩ := ih h
            exact ⟨q, List.mem_cons_of_mem _ hq, h⟩
        · simp only [hrun] at h
          simp at h
          subst h
          exact ⟨p, List.mem_cons_self .., hr, hs.symm⟩
      · simp [hs] at h

/-- C72, integrity: whatever is run is the content of a configured plugin file and has the configured
hash. -/
theorem C72_hash (w : World) (plugins : List Plugin) (reqs : List Bytes) (c : Call)
    (h : c ∈ (evalAll w plugins reqs).1) :
    ∃ p ∈ plugins, w.readFile p.path = some c.wasm ∧ w.hash c.wasm = p.sha256 := by
  induction reqs with
  | nil => cases h
  | cons req reqs ih =>
    unfold evalAll at h
    by_cases hok : (evalPlugins w plugins req).2 = true
    · simp only [hok, if_true, List.mem_append] at h
      rcases h with h | h
      · exact evalPlugins_hash h
      · exact ih h
    · simp only [hok] at h
      exact evalPlugins_hash h

theorem evalPlugins_ok {w : World} {ps : List Plugin} {buf : Bytes} (h : (evalPlugins w ps buf).2 = true) :
    (evalPlugins w ps buf).1 =
      match ps with
      | [] => []
      | p :: ps => callOf w buf p :: ps.map (callOf w []) := by
  induction ps generalizing buf with
  | nil => rfl
  | cons p ps ih =>
    unfold evalPlugins at h ⊢
    cases hr : w.readFile p.path with
    | none => simp [hr] at h
    | some f =>
      simp only [hr] at h ⊢
      by_cases hs : p.sha256 = w.hash f
      · simp only [hs, ne_eq, not_true, if_false] at h ⊢
        by_cases hrun : w.run f buf = true
        · simp only [hrun, if_true] at h ⊢
          rw [ih h]
          cases ps <;> simp [callOf, hr]
        · simp only [hrun] at h; simp at h
      · simp [hs] at h

/-- C72, exactly which runs there are when there is no error: for every request the first plugin gets the
request, and all others get nothing. -/
theorem C72_runs (w : World) (p : Plugin) (ps : List Plugin) (reqs : List Bytes)
    (h : (evalAll w (p :: ps) reqs).2 = true) :
    (evalAll w (p :: ps) reqs).1 = reqs.flatMap fun req => callOf w req p :: ps.map (callOf w []) := by
  induction reqs with
  | nil => rfl
  | cons req reqs ih =>
    unfold evalAll at h ⊢
    by_cases hok : (evalPlugins w (p :: ps) req).2 = true
    · simp only [hok, if_true] at h ⊢
      rw [ih h, evalPlugins_ok hok, List.flatMap_cons]
    · simp [hok] at h

/-- C72 (partial: for at most one configured plugin): without an error every plugin is run for every
request, in order, and can read the whole request. -/
theorem C72_requests_partial (w : World) (plugins : List Plugin) (hp : plugins.length ≤ 1) (reqs : List Bytes)
    (h : (evalAll w plugins reqs).2 = true) :
    (evalAll w plugins reqs).1 = reqs.flatMap fun req => plugins.map (callOf w req) := by
  match plugins, hp with
  | [], _ =>
    clear h
    induction reqs with
    | nil => rfl
    | cons req reqs ih => unfold evalAll; simp [evalPlugins]; simpa using ih
  | [p], _ => rw [C72_runs w p [] reqs h]; rfl

def twice : World := ⟨fun p => some [p], fun f => 0 :: f, fun _ _ => true⟩

example : evalAll twice [⟨1, [0, 1]⟩] [[7, 8], [9]] = ([⟨[1], [7, 8]⟩, ⟨[1], [9]⟩], true) := by decide

/-- C72 fails for two plugins: the second one gets an empty request. -/
theorem C72_requests_false : ¬ ∀ (w : World) (plugins : List Plugin) (reqs : List Bytes),
    (evalAll w plugins reqs).2 = true →
    (evalAll w plugins reqs).1 = reqs.flatMap fun req => plugins.map (callOf w req) := by
  intro h
  have := h twice [⟨1, [0, 1]⟩, ⟨2, [0, 2]⟩] [[7, 8]] (by decide)
  revert this
  decide

/-- C72, failures: if a plugin file is missing, has another hash or fails, the generator reports an error
(so without an error, there is none of these). -/
theorem C72_errors (w : World) (plugins : List Plugin) (reqs : List Bytes)
    (h : (evalAll w plugins reqs).2 = true) (hr : reqs ≠ []) :
    ∀ p ∈ plugins, ∃ f, w.readFile p.path = some f ∧ w.hash f = p.sha256 ∧
      ∃ c ∈ (evalAll w plugins reqs).1, c.wasm = f ∧ w.run f c.stdin = true := by
  match reqs, hr with
  | req :: reqs, _ =>
    unfold evalAll at h ⊢
    by_cases hok : (evalPlugins w plugins req).2 = true
    · simp only [hok, if_true] at h ⊢
      intro p hp
      have : ∃ f, w.readFile p.path = some f ∧ w.hash f = p.sha256 ∧
          ∃ c ∈ (evalPlugins w plugins req).1, c.wasm = f ∧ w.run f c.stdin = true := by
        clear h
        induction plugins generalizing req with
        | nil => cases hp
        | cons q qs ih =>
          unfold evalPlugins at hok ⊢
          cases hr : w.readFile q.path with
          | none => simp [hr] at hok
          | some f =>
            simp only [hr] at hok ⊢
            by_cases hs : q.sha256 = w.hash f
            · simp only [hs, ne_eq, not_true, if_false] at hok ⊢
              by_cases hrun : w.run f req = true
              · simp only [hrun, if_true] at hok ⊢
                rcases List.mem_cons.mp hp with rfl | hp
                · exact ⟨f, hr, hs.symm, _, List.mem_cons_self .., rfl, hrun⟩
                · obtain ⟨f', h1, h2, c, hc, h3⟩ := ih [] (by simp) hok hp
                  exact ⟨f', h1, h2, c, List.mem_cons_of_mem _ hc, h3⟩
              · simp only [hrun] at hok; simp at hok
            · simp [hs] at hok
      obtain ⟨f, h1, h2, c, hc, h3⟩ := this
      exact ⟨f, h1, h2, c, List.mem_append_left _ hc, h3⟩
    · simp [hok] at h

/-- C72 (partial: an error that the plugin reports in its response is not covered): if the process of a
protoc plugin fails or its output cannot be decoded, generating fails; otherwise the files of the response
are taken over. -/
theorem C72_protoc_failure_partial (p : Process) :
    (p.exitOk = false ∨ p.stdout = none → takeOver p = none) ∧
    ∀ r, p.exitOk = true → p.stdout = some r → takeOver p = some r.files := by
  refine ⟨?_, ?_⟩
  · rintro (h | h) <;> simp [takeOver, generateByPlugin, h]
  · intro r h1 h2; simp [takeOver, generateByPlugin, h1, h2]

/-- C72 fails for an error in the response, which is how protoc plugins report errors. -/
theorem C72_protoc_error_false : ¬ ∀ (p : Process) (r : Response), p.stdout = some r → r.error ≠ none →
    takeOver p = none := by
  intro h
  have := h ⟨true, some ⟨some 1, []⟩⟩ ⟨some 1, []⟩ rfl (by decide)
  revert this
  decide

end Verif.GenPlugin
