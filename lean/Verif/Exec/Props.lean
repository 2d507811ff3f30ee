import Verif.Exec.Lemmas
import Verif.Graph.Props

/-!
# Properties of the execution of a message's definitions (C01-C05, C11, C12)

`setup defs = .groups gs` is the plan the resolver builds from the definitions `defs`;
`Reach gs ext s` says that some schedule, with some pattern of failures and cancellation, leads to
the state `s`.
-/

namespace Verif.Exec

open Verif.Graph

theorem plan_follows {defs : List Def} (hs : NoSelfRef defs) {gs : List Grp}
    (hgs : setup defs = .groups gs) :
    (∀ i, i < defs.length ↔ ∃ G ∈ gs, i ∈ G.defs) ∧ (∀ G ∈ gs, G.Follows (DependsOn defs)) := by
  have hne : defs ≠ [] := by
    rintro rfl
    rw [plan_empty] at hgs; cases hgs
  obtain ⟨gs', h1, h2, h3⟩ := C03_plan_complete defs hs hne
  rw [hgs] at h1
  injection h1 with h1; subst h1
  exact ⟨h2, h3⟩

theorem starts_after {defs : List Def} (hs : NoSelfRef defs) {gs : List Grp}
    (hgs : setup defs = .groups gs) {ext s} (h : Reach gs ext s) :
    StartsAfter (DependsOn defs) s.g.log :=
  (reach_sinv (plan_follows hs hgs).2 h).starts

/-! ## C01 -/

/-- C01. In every reachable state: whenever an evaluation of `b` has started, every definition `b`
references had been evaluated successfully before. -/
theorem C01_references_first (defs : List Def) (hs : NoSelfRef defs) (gs : List Grp)
    (hgs : setup defs = .groups gs) (ext : Bool) (s : Sys) (h : Reach gs ext s)
    (post pre : List Event) (b f : Nat) (hlog : s.g.log = post ++ Event.start b f :: pre)
    (a : Nat) (ha : RefersTo defs b a) : ∃ f', Event.fin a f' none ∈ pre :=
  starts_after hs hgs h post b f pre hlog a (Or.inl ha)

/-! ## C02 -/

/-- C02. Whenever an evaluation of a definition declared after a validation has started, the
validation had succeeded before. -/
theorem C02_validation_barrier (defs : List Def) (hs : NoSelfRef defs) (gs : List Grp)
    (hgs : setup defs = .groups gs) (ext : Bool) (s : Sys) (h : Reach gs ext s)
    (post pre : List Event) (b f : Nat) (hlog : s.g.log = post ++ Event.start b f :: pre)
    (v : Nat) (hv : ValidationBefore defs v b) : ∃ f', Event.fin v f' none ∈ pre :=
  starts_after hs hgs h post b f pre hlog v (Or.inr hv)

/-- C02. As long as no evaluation of a validation has succeeded (it failed, or has not finished),
nothing declared after it is evaluated. -/
theorem C02_failed_validation_stops (defs : List Def) (hs : NoSelfRef defs) (gs : List Grp)
    (hgs : setup defs = .groups gs) (ext : Bool) (s : Sys) (h : Reach gs ext s)
    (v : Nat) (dv : Def) (hdv : defs[v]? = some dv) (hval : dv.isValidation = true)
    (hno : ∀ f, Event.fin v f none ∉ s.g.log) (b : Nat) (hb : v < b) (hlt : b < defs.length) (f : Nat) :
    Event.start b f ∉ s.g.log := by
  intro hmem
  obtain ⟨post, pre, hlog⟩ := List.append_of_mem hmem
  obtain ⟨f', hf'⟩ := C02_validation_barrier defs hs gs hgs ext s h post pre b f hlog v
    ⟨hb, hlt, dv, hdv, hval⟩
  exact hno f' (by rw [hlog]; simp [hf'])

/-! ## C03 -/

/-- C03. When the evaluation of the message's definitions has finished without error, every
definition has been evaluated successfully. -/
theorem C03_all_evaluated (defs : List Def) (hs : NoSelfRef defs) (gs : List Grp)
    (hgs : setup defs = .groups gs) (ext : Bool) (s : Sys) (h : Reach gs ext s)
    (hdone : s.p = .done none) (i : Nat) (hi : i < defs.length) :
    ∃ f, Event.fin i f none ∈ s.g.log := by
  obtain ⟨h1, h2⟩ := plan_follows hs hgs
  have := (reach_sinv h2 h).good i ((h1 i).mp hi)
  rw [hdone] at this
  exact good_done this

/-! ## C04 -/

/-- C04. No deadlock: in every reachable state the evaluation is finished or some goroutine can
make a step. -/
theorem C04_no_deadlock (defs : List Def) (hs : NoSelfRef defs) (gs : List Grp)
    (hgs : setup defs = .groups gs) (ext : Bool) (s : Sys) (h : Reach gs ext s) :
    (∃ r, s.p = .done r) ∨ ∃ g' p', PStep s.ext s.g s.p g' p' := by
  have hfi := reach_finv (plan_follows hs hgs).2 h
  by_cases hl : leads s.p = []
  · have : ∀ d f, (d, f) ∈ waits s.p → s.g.res d f ≠ none := by
      intro d f hd
      rcases hfi.waits d f hd with h | h
      · exact h
      · have := (hfi.cur d f).mp h
        rw [hl] at this; cases this
    exact progress_free s.p s.ext s.g this
  · exact Or.inr (progress_lead s.p s.ext s.g hl)

theorem steps_weight {n s s'} (h : Steps n s s') :
    n + weight s'.p ≤ weight s.p + (if s.ext = s'.ext then 0 else 1) ∧ (s.ext = true → s'.ext = true) := by
  induction h with
  | refl => simp
  | @step n s s' s'' _ hs ih =>
    cases hs with
    | proc h =>
      have := pstep_weight h
      dsimp only at ih ⊢
      refine ⟨?_, ih.2⟩
      omega
    | cancel =>
      dsimp only at ih ⊢
      refine ⟨?_, by simp⟩
      cases he : s.ext with
      | true => simp [he] at ih
      | false => simp [he] at ih ⊢; omega

/-- C04. Every schedule ends: there is a bound on the number of steps that holds for all
schedules, failure patterns and cancellations. -/
theorem C04_terminates (gs : List Grp) (ext : Bool) :
    ∃ N, ∀ n s, Steps n (Sys.init gs ext) s → n ≤ N := by
  refine ⟨weight (startAll gs) + 1, fun n s h => ?_⟩
  have := (steps_weight h).1
  simp only [Sys.init] at this
  by_cases he : ext = s.ext
  · simp [he] at this; omega
  · simp [he] at this; omega

/-! ## C05 -/

/-- `b` has to wait for `a`, directly or through other definitions. -/
inductive WaitsTrans (defs : List Def) : Nat → Nat → Prop where
  | direct {b a} : DependsOn defs b a → WaitsTrans defs b a
  | trans {c b a} : WaitsTrans defs c b → DependsOn defs b a → WaitsTrans defs c a

/-- Every successful evaluation in the log had started before. -/
theorem fin_started {dep : Nat → Nat → Prop} {gs : List Grp} {ext s}
    (hf : ∀ G ∈ gs, G.Follows dep) (h : Reach gs ext s) :
    (∀ d f, (d, f) ∈ leads s.p → Event.start d f ∈ s.g.log) ∧
    ∀ d f r, Event.fin d f r ∈ s.g.log → Event.start d f ∈ s.g.log := by
  induction h with
  | init =>
    obtain ⟨h1, _⟩ := leads_init gs
    simp [Sys.init, Glob.init, h1]
  | @step s s' hr hs ih =>
    cases hs with
    | cancel => exact ih
    | @proc g p ext g' p' h =>
      obtain ⟨i1, i2⟩ := ih
      dsimp only at i1 i2 ⊢
      have hmono : ∀ e, e ∈ g.log → e ∈ g'.log := by
        obtain ⟨new, hn⟩ := pstep_log h
        intro e he; rw [hn]; simp [he]
      have hl : ∀ d f, (d, f) ∈ leads p' → Event.start d f ∈ g'.log := by
        intro d f hd
        cases pstep_leads h (reach_sinv hf hr).inv with
        | same h1 _ _ _ _ => exact hmono _ (i1 d f (h1.mem_iff.mp hd))
        | lead h1 _ _ _ _ h6 =>
          rcases List.mem_cons.mp (h1.mem_iff.mp hd) with h' | h'
          · injection h' with h7 h8; subst h7 h8; rw [h6]; simp
          · exact hmono _ (i1 d f h')
        | leave h1 _ _ _ _ _ =>
          exact hmono _ (i1 d f (h1.mem_iff.mpr (List.mem_cons_of_mem _ hd)))
      refine ⟨hl, ?_⟩
      have key : ∀ {cx g p g' p'}, PStep cx g p g' p' → ∀ d f r, Event.fin d f r ∈ g'.log →
          Event.fin d f r ∈ g.log ∨ (d, f) ∈ leads p' := by
        intro cx g p g' p' h
        induction h with
        | leaf h =>
          intro d f r hx
          cases h
          case lead => simp at hx; exact Or.inl hx
          case finish =>
            simp at hx
            rcases hx with ⟨rfl, rfl, rfl⟩ | hx
            · right; simp [leads]
            · exact Or.inl hx
          all_goals exact Or.inl hx
        | seqRun _ ih =>
          intro d f r hx
          exact (ih d f r hx).imp id fun h => by simpa [leads] using h
        | parRun _ ih =>
          intro d f r hx
          exact (ih d f r hx).imp id fun h => by simp [leads, leadsL_append, leads.leadsL, h]
        | _ => intro d f r hx; exact Or.inl hx
      intro d f r hx
      rcases key h d f r hx with h' | h'
      · exact hmono _ (i2 d f r h')
      · exact hl d f h'

/-- C05. A definition is evaluated only after everything it waits for, directly or transitively,
has been evaluated successfully. So if every evaluation of `a` failed so far, none of the
definitions that depend on `a` has been started. -/
theorem C05_dependants_not_started (defs : List Def) (hs : NoSelfRef defs) (gs : List Grp)
    (hgs : setup defs = .groups gs) (ext : Bool) (s : Sys) (h : Reach gs ext s)
    (b a : Nat) (hw : WaitsTrans defs b a) (hno : ∀ f, Event.fin a f none ∉ s.g.log) (f : Nat) :
    Event.start b f ∉ s.g.log := by
  have hsa := starts_after hs hgs h
  have hfs := (fin_started (plan_follows hs hgs).2 h).2
  have key : ∀ b a, DependsOn defs b a → (∀ f, Event.fin a f none ∉ s.g.log) →
      ∀ f, Event.start b f ∉ s.g.log := by
    intro b a hd hno f hmem
    obtain ⟨post, pre, hlog⟩ := List.append_of_mem hmem
    obtain ⟨f', hf'⟩ := hsa post b f pre hlog a hd
    exact hno f' (by rw [hlog]; simp [hf'])
  induction hw generalizing f with
  | direct hd => exact key _ _ hd hno f
  | trans _ hd ih =>
    refine ih (fun f' hf' => ?_) f
    exact key _ _ hd hno f' (hfs _ f' none hf')

/-- C05. The evaluation succeeds only if no evaluation failed, and if it fails then the reported
error is the error some evaluation ended with. -/
theorem C05_failure_reported (defs : List Def) (hs : NoSelfRef defs) (gs : List Grp)
    (hgs : setup defs = .groups gs) (ext : Bool) (s : Sys) (h : Reach gs ext s)
    (r : Res) (hdone : s.p = .done r) :
    (r = none ↔ ∀ d f x, Event.fin d f (some x) ∉ s.g.log) ∧
    (∀ x, r = some x → ∃ d f, Event.fin d f (some x) ∈ s.g.log) := by
  have si := reach_sinv (plan_follows hs hgs).2 h
  have hinv := si.inv
  rw [hdone] at hinv
  refine ⟨⟨?_, ?_⟩, hinv⟩
  · rintro rfl d f x hx
    have := si.fails d f x hx
    rw [hdone] at this
    cases this
  · intro hno
    cases r with
    | none => rfl
    | some x =>
      obtain ⟨d, f, hf⟩ := hinv x rfl
      exact absurd hf (hno d f x)

/-! ## C12 -/

/-- C12. Two evaluations of the same definition never overlap: when one starts, all earlier ones
have ended. -/
theorem C12_no_overlap (defs : List Def) (hs : NoSelfRef defs) (gs : List Grp)
    (hgs : setup defs = .groups gs) (ext : Bool) (s : Sys) (h : Reach gs ext s)
    (post pre : List Event) (d f : Nat) (hlog : s.g.log = post ++ Event.start d f :: pre)
    (f' : Nat) (hf' : Event.start d f' ∈ pre) : ∃ r, Event.fin d f' r ∈ pre :=
  (reach_finv (plan_follows hs hgs).2 h).overlap post d f pre hlog f' hf'

/-- C12. A caller that arrives after a result has been stored takes that result and starts no
evaluation. -/
theorem C12_cached_not_reevaluated (cx : Bool) (g g' : Glob) (p' : Proc) (d : Nat) (r : Res)
    (hc : g.cache d = some r) (h : PStep cx g (.leaf d .called) g' p') : g' = g ∧ p' = .done r := by
  cases h with
  | leaf h =>
    cases h with
    | hit hr => rw [hc] at hr; injection hr with hr; subst hr; exact ⟨rfl, rfl⟩
    | miss hr => rw [hc] at hr; cases hr

/-- C12. Stored results stay stored. -/
theorem C12_cache_kept (cx : Bool) (g g' : Glob) (p p' : Proc) (h : PStep cx g p g' p') (d : Nat)
    (hc : g.cache d ≠ none) : g'.cache d ≠ none := by
  induction h with
  | leaf h =>
    cases h
    case store =>
      simp only [upd]
      split
      · simp
      · exact hc
    all_goals exact hc
  | seqRun _ ih => exact ih hc
  | parRun _ ih => exact ih hc
  | _ => exact hc

/-- C12. Every result a caller of a definition gets is the result of some evaluation of it. -/
theorem C12_result_is_evaluation (defs : List Def) (hs : NoSelfRef defs) (gs : List Grp)
    (hgs : setup defs = .groups gs) (ext : Bool) (s : Sys) (h : Reach gs ext s) (d : Nat) (r : Res) :
    (s.g.cache d = some r → ∃ f, Event.fin d f r ∈ s.g.log) ∧
    (∀ f, s.g.res d f = some r → Event.fin d f r ∈ s.g.log) := by
  have si := reach_sinv (plan_follows hs hgs).2 h
  exact ⟨si.ginv.cache d r, fun f => si.ginv.res d f r⟩

/-- Two definitions that use the same third one. -/
def forkDefs : List Def := [⟨"s", [], "", false⟩, ⟨"b", ["s"], "", false⟩, ⟨"c", ["s"], "", false⟩]
def forkPlan : List Grp := [.seq (.seq0 0) 1, .seq (.seq0 0) 2]

/-- Goroutine 2 misses the cache, goroutine 1 runs the whole evaluation of `s`, then goroutine 2
finds no flight and evaluates `s` again. -/
def twiceSchedule : List (List Nat × Choice) :=
  [([0, 0], .go), ([1, 0], .go), ([0, 0], .go), ([0, 0], .finish none), ([0, 0], .go), ([0, 0], .go),
   ([1, 0], .go)]

theorem fork_plan : setup forkDefs = .groups forkPlan := by rfl

/-- "Evaluated at most once" is false: a schedule evaluates the same definition twice. -/
theorem C12_at_most_once_false :
    ∃ defs gs s, NoSelfRef defs ∧ setup defs = .groups gs ∧ Reach gs false s ∧
      ∃ f f', f ≠ f' ∧ Event.start 0 f ∈ s.g.log ∧ Event.start 0 f' ∈ s.g.log := by
  obtain ⟨g', p', h, hlog⟩ : ∃ g' p', run false twiceSchedule .init (startAll forkPlan) = some (g', p') ∧
      g'.log = [.start 0 1, .fin 0 0 none, .start 0 0] := ⟨_, _, rfl, rfl⟩
  refine ⟨forkDefs, forkPlan, ⟨g', p', false⟩, by decide, fork_plan, run_sound .init h, 0, 1, by decide, ?_⟩
  rw [hlog]
  simp

/-- Goroutine 1 evaluates `s` and fails, goroutine 2 had missed the cache before and evaluates `s`
again, successfully, and goes on. -/
def retrySchedule : List (List Nat × Choice) :=
  [([0, 0], .go), ([1, 0], .go), ([0, 0], .go), ([0, 0], .finish (some (.own 0 7))), ([0, 0], .go),
   ([0, 0], .go), ([1, 0], .go), ([1, 0], .finish none), ([1, 0], .go), ([1, 0], .go), ([1], .go),
   ([1], .go), ([1], .go)]

/-- The stronger reading of C05, "once an evaluation of a definition has failed nothing that depends
on it is evaluated", is false, again because of the second evaluation. -/
theorem C05_strict_false :
    ∃ defs gs s, NoSelfRef defs ∧ setup defs = .groups gs ∧ Reach gs false s ∧ DependsOn defs 2 0 ∧
      ∃ post pre f f' x, s.g.log = post ++ Event.start 2 f :: pre ∧ Event.fin 0 f' (some x) ∈ pre := by
  obtain ⟨g', p', h, hlog⟩ : ∃ g' p', run false retrySchedule .init (startAll forkPlan) = some (g', p') ∧
      g'.log = [.start 2 2, .fin 0 1 none, .start 0 1, .fin 0 0 (some (.own 0 7)), .start 0 0] :=
    ⟨_, _, rfl, rfl⟩
  refine ⟨forkDefs, forkPlan, ⟨g', p', false⟩, by decide, fork_plan, run_sound .init h, ?_,
    [], _, 2, 0, .own 0 7, hlog, by simp⟩
  exact (mem_build forkDefs 0 2).mp (by decide)

/-! ## C11 -/

/-- A cancellation error. -/
def IsCanceled : Err → Prop
  | .canceled _ => True
  | _ => False

/-- `ea` uses `x` and `s`, `eb` uses `s`. -/
def shareDefs : List Def :=
  [⟨"x", [], "", false⟩, ⟨"s", [], "", false⟩, ⟨"ea", ["x", "s"], "", false⟩, ⟨"eb", ["s"], "", false⟩]
def sharePlan : List Grp := [.conc [.seq0 1, .seq0 0] 2, .seq (.seq0 1) 3]

theorem share_plan : setup shareDefs = .groups sharePlan := by rfl

/-- `s` is evaluated inside the inner errgroup; `x` fails, which cancels `s`; the second group was
waiting for `s` and reports the cancellation first. -/
def cancelSchedule : List (List Nat × Choice) :=
  [([0, 0], .go), ([0, 0], .go), ([1, 0], .go), ([1, 0], .go),
   ([0, 1], .go), ([0, 1], .go), ([0, 1], .finish (some (.own 0 7))), ([0, 1], .go), ([0, 1], .go),
   ([0], .collect 1),
   ([0, 0], .finish (some (.canceled 1))), ([0, 0], .go), ([0, 0], .go),
   ([1, 0], .go), ([1], .go), ([], .collect 1),
   ([0], .collect 0), ([0], .go), ([], .collect 0), ([], .go)]

/-- C11 is false: although the request was never cancelled, the reported error is the cancellation
of a sibling, not the failure that caused it. -/
theorem C11_cancellation_reported :
    ∃ defs gs s, NoSelfRef defs ∧ setup defs = .groups gs ∧ Reach gs false s ∧ s.ext = false ∧
      s.p = .done (some (.canceled 1)) ∧ Event.fin 0 1 (some (.own 0 7)) ∈ s.g.log := by
  obtain ⟨g', p', h, hp, hlog⟩ : ∃ g' p', run false cancelSchedule .init (startAll sharePlan) = some (g', p') ∧
      p' = .done (some (.canceled 1)) ∧
      g'.log = [.fin 1 0 (some (.canceled 1)), .fin 0 1 (some (.own 0 7)), .start 0 1, .start 1 0] :=
    ⟨_, _, rfl, rfl, rfl⟩
  refine ⟨shareDefs, sharePlan, ⟨g', p', false⟩, by decide, share_plan, run_sound .init h, rfl, hp, ?_⟩
  rw [hlog]
  simp

/-- A failure that is not a cancellation is in the log. -/
def RealFailure (log : List Event) : Prop := ∃ d f x, Event.fin d f (some x) ∈ log ∧ ¬ IsCanceled x

theorem RealFailure.mono {log : List Event} (h : RealFailure log) (new : List Event) :
    RealFailure (new ++ log) := by
  obtain ⟨d, f, x, h1, h2⟩ := h
  exact ⟨d, f, x, by simp [h1], h2⟩

theorem pstep_real {dep cx g p g' p'} (h : PStep cx g p g' p') (hi : Inv dep g p)
    (hcx : cx = true → RealFailure g.log)
    (hr : ∀ d f x, Event.fin d f (some x) ∈ g.log → RealFailure g.log) :
    ∀ d f x, Event.fin d f (some x) ∈ g'.log → RealFailure g'.log := by
  induction h with
  | @leaf cx d0 g ph g' p' h =>
    cases h
    case lead =>
      intro d f x hx
      simp at hx
      exact (hr d f x hx).mono [_]
    case finish f0 r ha =>
      intro d f x hx
      simp only [List.mem_cons, Event.fin.injEq] at hx
      rcases hx with ⟨rfl, rfl, rfl⟩ | hx
      · cases x with
        | canceled d' => exact (hcx ha.2).mono [_]
        | own d' k => exact ⟨d, f, .own d' k, by simp, fun h => h⟩
        | panicked d' => exact ⟨d, f, .panicked d', by simp, fun h => h⟩
      · exact (hr d f x hx).mono [_]
    all_goals exact hr
  | seqRun _ ih => exact ih hi.1 hcx hr
  | @parRun cx g p g' p' l r first e h ih =>
    refine ih ((invL_append l (p :: r)).mp hi.1).2.1 ?_ hr
    intro hc
    cases first with
    | none => exact hcx (by simpa using hc)
    | some x =>
      obtain ⟨d, f, hf⟩ := hi.2.2 x rfl
      exact hr d f x hf
  | _ => exact hr

theorem reach_ext {gs s} {ext : Bool} (h : Reach gs ext s) (he : s.ext = false) :
    ext = false ∧ ∀ {dep : Nat → Nat → Prop}, (∀ G ∈ gs, G.Follows dep) →
      ∀ d f x, Event.fin d f (some x) ∈ s.g.log → RealFailure s.g.log := by
  induction h with
  | init => exact ⟨he, fun _ d f x hx => by simp [Sys.init, Glob.init] at hx⟩
  | step hr hs ih =>
    cases hs with
    | cancel => cases he
    | proc h =>
      dsimp only at he; subst he
      obtain ⟨h1, h2⟩ := ih rfl
      exact ⟨h1, fun hf => pstep_real h (reach_sinv hf hr).inv (by simp) (h2 hf)⟩

/-- C11, first part that holds: if the request itself was not cancelled and the evaluation fails,
then some evaluation really failed (the reported error may still be a consequence of it).
Missing: that the reported error is that failure, see `C11_cancellation_reported`. -/
theorem C11_some_real_failure_partial (defs : List Def) (hs : NoSelfRef defs) (gs : List Grp)
    (hgs : setup defs = .groups gs) (s : Sys) (h : Reach gs false s) (hext : s.ext = false)
    (x : Err) (hdone : s.p = .done (some x)) :
    ∃ d f y, Event.fin d f (some y) ∈ s.g.log ∧ ¬ IsCanceled y := by
  obtain ⟨h1, h2⟩ := plan_follows hs hgs
  have hi := (reach_sinv h2 h).inv
  rw [hdone] at hi
  obtain ⟨d, f, hf⟩ := hi x rfl
  exact (reach_ext h hext).2 h2 d f x hf

/-- Groups without nested concurrency. -/
def Flat : Grp → Prop
  | .seq0 _ => True
  | .seq s _ => Flat s
  | .conc _ _ => False

/-- No errgroup inside. -/
def FlatP : Proc → Prop
  | .leaf _ _ => True
  | .seq p _ => FlatP p
  | .par _ _ _ => False
  | .done _ => True

/-- No evaluation was cancelled. -/
def NoCancel (log : List Event) : Prop := ∀ d f x, Event.fin d f (some x) ∈ log → ¬ IsCanceled x

/-- Invariant for plans with one errgroup. -/
def OneInv (log : List Event) : Proc → Prop
  | .leaf _ _ => NoCancel log
  | .seq p _ => OneInv log p
  | .par ps first _ => (∀ p ∈ ps, FlatP p) ∧ (first = none → NoCancel log) ∧
      ∀ x, first = some x → ¬ IsCanceled x
  | .done r => (r = none → NoCancel log) ∧ ∀ x, r = some x → ¬ IsCanceled x

theorem flat_start (G : Grp) (h : Flat G) : FlatP (start G) := by
  induction G using Grp.rec (motive_2 := fun _ => True) with
  | seq0 e => trivial
  | seq s e ih => exact ih h
  | conc ss e _ => cases h
  | nil => trivial
  | cons _ _ _ _ => trivial

theorem pstep_flat {cx g p g' p'} (h : PStep cx g p g' p') (hf : FlatP p) : FlatP p' := by
  induction h with
  | leaf h => cases h <;> trivial
  | seqRun _ ih => exact ih hf
  | seqOk => trivial
  | seqErr => trivial
  | _ => cases hf

theorem flat_nocancel {cx g p g' p'} (h : PStep cx g p g' p') (hf : FlatP p) (hcx : cx = false)
    (hn : NoCancel g.log) : NoCancel g'.log := by
  induction h with
  | leaf h =>
    cases h
    case lead => intro d f x hx; simp at hx; exact hn d f x hx
    case finish f r ha =>
      intro d f x hx
      simp only [List.mem_cons, Event.fin.injEq] at hx
      rcases hx with ⟨rfl, rfl, rfl⟩ | hx
      · cases x with
        | canceled d' => have := ha.2; rw [hcx] at this; cases this
        | own d' k => intro h; exact h
        | panicked d' => intro h; exact h
      · exact hn d f x hx
    all_goals exact hn
  | seqRun _ ih => exact ih hf hcx hn
  | seqOk => exact hn
  | seqErr => exact hn
  | _ => cases hf

theorem pstep_one {dep cx g p g' p'} (h : PStep cx g p g' p') (hcx : cx = false) (hg : GInv g)
    (hi : Inv dep g p) (ho : OneInv g.log p) : OneInv g'.log p' := by
  induction h with
  | @leaf cx d g ph g' p' h =>
    have hn := flat_nocancel (.leaf h) trivial hcx ho
    cases h
    case hit r hr =>
      refine ⟨fun _ => hn, fun x hx => ?_⟩
      subst hx
      obtain ⟨f, hf⟩ := hg.cache _ _ hr
      exact hn d f x hf
    case receive f r hr =>
      refine ⟨fun _ => hn, fun x hx => ?_⟩
      subst hx
      exact hn d f x (hg.res _ _ _ hr)
    case leave f r =>
      refine ⟨fun _ => hn, fun x hx => ?_⟩
      subst hx
      exact hn d f x hi.2
    all_goals exact hn
  | seqRun _ ih => exact ih hcx hg hi.1 ho
  | seqOk => exact ho.1 rfl
  | seqErr => exact ho
  | @parRun cx g p g' p' l r first e h _ =>
    obtain ⟨h1, h2, h3⟩ := ho
    have hfp := h1 p (by simp)
    refine ⟨?_, ?_, h3⟩
    · intro q hq
      simp only [List.mem_append, List.mem_cons] at hq
      rcases hq with hq | rfl | hq
      · exact h1 q (by simp [hq])
      · exact pstep_flat h hfp
      · exact h1 q (by simp [hq])
    · intro hf
      exact flat_nocancel h hfp (by simp [hcx, hf]) (h2 hf)
  | @parCollect cx g y l r first e =>
    obtain ⟨h1, h2, h3⟩ := ho
    refine ⟨fun q hq => h1 q ?_, ?_, ?_⟩
    · simp only [List.mem_append, List.mem_cons] at hq ⊢
      rcases hq with hq | hq <;> simp [hq]
    · intro hf
      cases first with
      | none => exact h2 rfl
      | some _ => simp at hf
    · intro x hx
      cases first with
      | some z => exact h3 x (by simpa using hx)
      | none =>
        have hy : y = some x := by simpa using hx
        have := ((invL_append l (.done y :: r)).mp hi.1).2.1
        obtain ⟨d, f, hf⟩ := this x hy
        exact h2 rfl d f x hf
  | parEnd => exact ho.2.1 rfl
  | parOk => exact ⟨fun _ => ho.2.1 rfl, by simp⟩
  | parErr => exact ⟨by simp, fun x hx => ho.2.2 x (by simpa using hx)⟩

theorem startAll_one {gs : List Grp} (hflat : ∀ G ∈ gs, Flat G) : OneInv [] (startAll gs) := by
  have hn : NoCancel [] := by intro d f x hx; cases hx
  unfold startAll
  split
  · exact ⟨fun _ => hn, by simp⟩
  · rename_i G
    have := hflat G (by simp)
    clear hflat
    induction G using Grp.rec (motive_2 := fun _ => True) with
    | seq0 e => exact hn
    | seq s e ih => exact ih this
    | conc ss e _ => cases this
    | nil => trivial
    | cons _ _ _ _ => trivial
  · refine ⟨?_, fun _ => hn, by simp⟩
    intro p hp
    obtain ⟨G, hG, rfl⟩ := List.mem_map.mp hp
    exact flat_start G (hflat G hG)

/-- C11, second part that holds: when no group needs an inner errgroup (no definition depends on
two others) and the request itself was not cancelled, the reported error is the error of an
evaluation that failed by itself.
Missing: plans with nested errgroups, where it is false. -/
theorem C11_flat_plan_partial (defs : List Def) (hs : NoSelfRef defs) (gs : List Grp)
    (hgs : setup defs = .groups gs) (hflat : ∀ G ∈ gs, Flat G) (s : Sys) (h : Reach gs false s)
    (hext : s.ext = false) (x : Err) (hdone : s.p = .done (some x)) :
    ¬ IsCanceled x ∧ ∃ d f, Event.fin d f (some x) ∈ s.g.log := by
  obtain ⟨_, h2⟩ := plan_follows hs hgs
  have hone : s.ext = false → OneInv s.g.log s.p := by
    clear hdone hext
    induction h with
    | init => intro _; exact startAll_one hflat
    | step hr hs ih =>
      cases hs with
      | cancel => intro he; cases he
      | proc h =>
        intro he
        have si := reach_sinv h2 hr
        exact pstep_one h he si.ginv si.inv (ih he)
  have ho := hone hext
  have hi := (reach_sinv h2 h).inv
  rw [hdone] at ho hi
  exact ⟨ho.2 x rfl, hi x rfl⟩

/-! ## The hypotheses are met -/

/-- A non-trivial message: `s`, two users of it and a validation in front of a fourth. -/
example : NoSelfRef sampleDefs ∧ ∃ gs, setup sampleDefs = .groups gs := ⟨by decide, _, rfl⟩
example : NoSelfRef forkDefs ∧ setup forkDefs = .groups forkPlan ∧ ∀ G ∈ forkPlan, Flat G :=
  ⟨by decide, rfl, by simp [forkPlan, Flat]⟩

/-- A complete successful run of `forkPlan` reaches `done none`. -/
def okSchedule : List (List Nat × Choice) :=
  [([0, 0], .go), ([0, 0], .go), ([0, 0], .finish none), ([0, 0], .go), ([0, 0], .go), ([0], .go),
   ([0], .go), ([0], .go), ([0], .finish none), ([0], .go), ([0], .go), ([], .collect 0),
   ([0, 0], .go), ([0], .go), ([0], .go), ([0], .go), ([0], .finish none), ([0], .go), ([0], .go),
   ([], .collect 0), ([], .go)]

example : ∃ s, Reach forkPlan false s ∧ s.p = .done none ∧ Started s.g.log 2 := by
  obtain ⟨g', p', h, hp, hl⟩ : ∃ g' p', run false okSchedule .init (startAll forkPlan) = some (g', p') ∧
      p' = .done none ∧ g'.log = [.fin 2 2 none, .start 2 2, .fin 1 1 none, .start 1 1, .fin 0 0 none, .start 0 0] :=
    ⟨_, _, rfl, rfl, rfl⟩
  exact ⟨_, run_sound .init h, hp, 2, by simp [hl]⟩

end Verif.Exec
