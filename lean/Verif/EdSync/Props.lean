import Verif.EdSync.Model

/-! # C89: the editor shows the problems of the current text -/

namespace Verif.EdSync

/-! ## Specification -/

/-- The text of a document after the events, from the changes alone. -/
def lastText (d : Doc) : List Event → Option Text
  | [] => none
  | .changed d' ts :: evs =>
    match lastText d evs with
    | some t => some t
    | none => if d' = d then ts.getLast? else none
  | _ :: evs => lastText d evs

/-- The text the user sees in the document: the one of the editor, or the one of the file. -/
def textOf (e : Env) (d : Doc) (evs : List Event) : Option Text := (lastText d evs).or (e.disk d)

/-! ## Texts -/

theorem foldl_set (d' : Doc) (ts : List Text) : ∀ (c : Doc → Option Text) (d : Doc),
    ts.foldl (fun c t => set c d' t) c d = if d' = d then (ts.getLast?).or (c d) else c d := by
  induction ts with
  | nil => intro c d; simp
  | cons t ts ih =>
    intro c d
    rw [List.foldl_cons, ih]
    by_cases h : d' = d
    · subst h
      simp only [if_true]
      cases ts with
      | nil => simp [set]
      | cons u us =>
        rw [List.getLast?_cons_cons]
        cases hu : (u :: us).getLast? with
        | none => simp at hu
        | some x => rfl
    · have : set c d' t d = c d := if_neg fun h' => h h'.symm
      simp [h, this]

theorem apply_content (e : Env) (s : State) (ev : Event) (d : Doc) :
    (apply e s ev).content d = (lastText d [ev]).or (s.content d) := by
  cases ev with
  | changed d' ts =>
    show (ts.foldl (fun c t => set c d' t) s.content) d = _
    rw [foldl_set]
    simp only [lastText]
    split <;> simp
  | step i =>
    show (apply e s (.step i)).content d = _
    simp only [apply, lastText, Option.none_or]
    cases h : s.threads[i]? with
    | none => rfl
    | some th =>
      simp only
      cases hp : th.pc with
      | start =>
        simp only [stepThread, hp]
        cases getFile e s th.doc with
        | none => rfl
        | some t =>
          simp only
          split <;> rfl
      | _ => simp [stepThread, hp]
  | _ => simp [apply, lastText]

theorem lastText_cons (d : Doc) (ev : Event) (evs : List Event) :
    lastText d (ev :: evs) = (lastText d evs).or (lastText d [ev]) := by
  cases ev with
  | changed d' ts =>
    simp only [lastText]
    cases lastText d evs <;> simp
  | _ => simp [lastText]

theorem run_content (e : Env) (d : Doc) : ∀ (evs : List Event) (s : State),
    (run e s evs).content d = (lastText d evs).or (s.content d)
  | [], s => by simp [run, lastText]
  | ev :: evs, s => by
    show (run e (apply e s ev) evs).content d = _
    rw [run_content e d evs, apply_content, lastText_cons d ev evs]
    cases lastText d evs <;> simp

/-- C89: at any time, requests work with the text of the last change, and with the file if there was none. -/
theorem C89_text (e : Env) (evs : List Event) (d : Doc) : getFile e (run e init evs) d = textOf e d evs := by
  unfold getFile textOf
  rw [run_content]
  cases lastText d evs <;> rfl

/-! ## Everything that is published -/

/-- What is true of a goroutine in every trace: its text was the text of the document at some time, and its problems
are those of such a text with some number of copies of the import paths. -/
def ThreadOk (e : Env) (evs : List Event) (th : Thread) : Prop :=
  match th.pc with
  | .start => True
  | .read t | .reset t | .added t => ∃ before, before <+: evs ∧ textOf e th.doc before = some t
  | .checked o => ∃ before t, before <+: evs ∧ textOf e th.doc before = some t ∧
      ∃ k : Nat, o = e.check th.doc t (List.replicate k e.paths).flatten
  | .done => True

structure Inv (e : Env) (evs : List Event) (s : State) : Prop where
  content : ∀ d, s.content d = lastText d evs
  paths : ∃ k : Nat, s.importPaths = (List.replicate k e.paths).flatten
  threads : ∀ th ∈ s.threads, ThreadOk e evs th
  shown : ∀ d o, s.shown d = some o → ∃ before t, before <+: evs ∧ textOf e d before = some t ∧
    ∃ k : Nat, o = e.check d t (List.replicate k e.paths).flatten

theorem ThreadOk.mono {e : Env} {evs : List Event} {th : Thread} (ev : Event) (h : ThreadOk e evs th) :
    ThreadOk e (evs ++ [ev]) th := by
  have hp : ∀ b : List Event, b <+: evs → b <+: evs ++ [ev] := fun b hb => hb.trans (List.prefix_append _ _)
  unfold ThreadOk at *
  cases hpc : th.pc <;> simp only [hpc] at h ⊢
  · obtain ⟨b, hb, r⟩ := h; exact ⟨b, hp b hb, r⟩
  · obtain ⟨b, hb, r⟩ := h; exact ⟨b, hp b hb, r⟩
  · obtain ⟨b, hb, r⟩ := h; exact ⟨b, hp b hb, r⟩
  · obtain ⟨b, t, hb, r⟩ := h; exact ⟨b, t, hp b hb, r⟩

theorem lastText_snoc (d : Doc) (ev : Event) : ∀ evs : List Event,
    lastText d (evs ++ [ev]) = (lastText d [ev]).or (lastText d evs)
  | [] => by simp [lastText]
  | x :: evs => by
    rw [List.cons_append, lastText_cons, lastText_snoc d ev evs, lastText_cons d x evs, Option.or_assoc]

theorem inv_step (e : Env) (evs : List Event) (s : State) (ev : Event) (h : Inv e evs s) :
    Inv e (evs ++ [ev]) (apply e s ev) := by
  have hp : ∀ b : List Event, b <+: evs → b <+: evs ++ [ev] := fun b hb => hb.trans (List.prefix_append _ _)
  have hcont : ∀ d, (apply e s ev).content d = lastText d (evs ++ [ev]) := by
    intro d
    rw [apply_content, lastText_snoc, h.content]
  have hshown : ∀ d o, s.shown d = some o → ∃ before t, before <+: evs ++ [ev] ∧ textOf e d before = some t ∧
      ∃ k : Nat, o = e.check d t (List.replicate k e.paths).flatten := by
    intro d o ho
    obtain ⟨b, t, hb, r⟩ := h.shown d o ho
    exact ⟨b, t, hp b hb, r⟩
  have hths : ∀ th ∈ s.threads, ThreadOk e (evs ++ [ev]) th := fun th ht => (h.threads th ht).mono ev
  cases ev with
  | opened d => exact ⟨hcont, h.paths, hths, hshown⟩
  | saved d => exact ⟨hcont, h.paths, hths, hshown⟩
  | closed d => exact ⟨hcont, h.paths, hths, hshown⟩
  | changed d ts =>
    refine ⟨hcont, h.paths, ?_, hshown⟩
    intro th ht
    rcases List.mem_append.1 ht with ht | ht
    · exact hths th ht
    · simp at ht; subst ht; exact trivial
  | step i =>
    simp only [apply] at hcont ⊢
    cases hi : s.threads[i]? with
    | none =>
      rw [hi] at hcont
      exact ⟨hcont, h.paths, hths, hshown⟩
    | some th =>
      rw [hi] at hcont
      simp only at hcont ⊢
      have hmem : th ∈ s.threads := List.mem_of_getElem? hi
      have hok := h.threads th hmem
      have hset : ∀ pc, ThreadOk e (evs ++ [.step i]) ⟨th.doc, pc⟩ →
          ∀ x ∈ s.threads.set i ⟨th.doc, pc⟩, ThreadOk e (evs ++ [.step i]) x := by
        intro pc hpc x hx
        rcases List.mem_or_eq_of_mem_set hx with hx | rfl
        · exact hths x hx
        · exact hpc
      unfold ThreadOk at hok
      cases hpc : th.pc with
      | start =>
        simp only [stepThread, hpc] at hcont ⊢
        cases hg : getFile e s th.doc with
        | none => simp only [hg] at hcont ⊢; exact ⟨hcont, h.paths, hset _ trivial, hshown⟩
        | some t =>
          simp only [hg] at hcont ⊢
          split
          · rename_i hpars
            rw [if_pos hpars] at hcont
            refine ⟨hcont, h.paths, hset _ ⟨evs, List.prefix_append _ _, ?_⟩, hshown⟩
            unfold getFile at hg
            unfold textOf
            rw [h.content] at hg
            cases hl : lastText th.doc evs with
            | none => rw [hl] at hg; simpa using hg
            | some x => rw [hl] at hg; simpa using hg
          · rename_i hpars
            rw [if_neg hpars] at hcont
            exact ⟨hcont, h.paths, hset _ trivial, hshown⟩
      | read t =>
        simp only [stepThread, hpc] at hcont hok ⊢
        obtain ⟨b, hb, r⟩ := hok
        exact ⟨hcont, ⟨0, rfl⟩, hset _ ⟨b, hp b hb, r⟩, hshown⟩
      | reset t =>
        simp only [stepThread, hpc] at hcont hok ⊢
        obtain ⟨b, hb, r⟩ := hok
        obtain ⟨k, hk⟩ := h.paths
        refine ⟨hcont, ⟨k + 1, ?_⟩, hset _ ⟨b, hp b hb, r⟩, hshown⟩
        simp [hk, List.replicate_succ']
      | added t =>
        simp only [stepThread, hpc] at hcont hok ⊢
        obtain ⟨b, hb, r⟩ := hok
        obtain ⟨k, hk⟩ := h.paths
        exact ⟨hcont, ⟨k, hk⟩, hset _ ⟨b, t, hp b hb, r, k, by rw [hk]⟩, hshown⟩
      | checked o =>
        simp only [stepThread, hpc] at hcont hok ⊢
        refine ⟨hcont, h.paths, hset _ trivial, ?_⟩
        intro d o' ho
        simp only [set] at ho
        split at ho
        · rename_i hd
          cases ho
          subst hd
          obtain ⟨b, t, hb, r⟩ := hok
          exact ⟨b, t, hp b hb, r⟩
        · exact hshown d o' ho
      | done =>
        simp only [stepThread, hpc] at hcont ⊢
        exact ⟨hcont, h.paths, hset _ trivial, hshown⟩

theorem inv_run (e : Env) (evs : List Event) : Inv e evs (run e init evs) := by
  suffices h : ∀ (todo done : List Event) (s : State), Inv e done s → Inv e (done ++ todo) (run e s todo) from by
    simpa using h evs [] init ⟨fun _ => rfl, ⟨0, rfl⟩, by simp [init], by simp [init]⟩
  intro todo
  induction todo with
  | nil => intro done s h; simpa [run] using h
  | cons ev todo ih =>
    intro done s h
    have := ih (done ++ [ev]) (apply e s ev) (inv_step e done s ev h)
    simpa [run] using this

/-- C89: in every trace, the problems that are shown for a document are those of a text it had at some time, with
the import paths of the server repeated any number of times.  Missing for the full property: the text is the current
one and the import paths are used once, see `C89_stale_false` and `C89_paths_false`. -/
theorem C89_published_partial (e : Env) (evs : List Event) (d : Doc) (o : Problems)
    (h : (run e init evs).shown d = some o) :
    ∃ before t, before <+: evs ∧ textOf e d before = some t ∧
      ∃ k : Nat, o = e.check d t (List.replicate k e.paths).flatten :=
  (inv_run e evs).shown d o h

/-! ## The current text -/

theorem leaves_shown (e : Env) (d : Doc) (o : Option Problems) : ∀ (evs : List Event) (s : State),
    (∀ th ∈ s.threads, th.doc = d → th.pc = .done) → s.shown d = o → (∀ ts, Event.changed d ts ∉ evs) →
    (run e s evs).shown d = o
  | [], s, _, h, _ => h
  | ev :: evs, s, hth, h, hev => by
    show (run e (apply e s ev) evs).shown d = o
    have hrest : ∀ ts, Event.changed d ts ∉ evs := fun ts hm => hev ts (List.mem_cons_of_mem _ hm)
    cases ev with
    | opened _ => exact leaves_shown e d o evs s hth h hrest
    | saved _ => exact leaves_shown e d o evs s hth h hrest
    | closed _ => exact leaves_shown e d o evs s hth h hrest
    | changed d' ts =>
      refine leaves_shown e d o evs _ ?_ h hrest
      intro th ht hd
      rcases List.mem_append.1 ht with ht | ht
      · exact hth th ht hd
      · simp at ht; subst ht
        simp only at hd
        subst hd
        exact absurd (List.mem_cons_self ..) (hev ts)
    | step i =>
      simp only [apply]
      cases hi : s.threads[i]? with
      | none => exact leaves_shown e d o evs s hth h hrest
      | some th =>
        simp only
        have hmem : th ∈ s.threads := List.mem_of_getElem? hi
        refine leaves_shown e d o evs _ ?_ ?_ hrest
        · intro x hx hd
          simp only at hx
          rcases List.mem_or_eq_of_mem_set hx with hx | rfl
          · exact hth x hx hd
          · have := hth th hmem hd
            simp [stepThread, this]
        · by_cases hd : th.doc = d
          · have := hth th hmem hd
            simp [stepThread, this, h]
          · cases hpc : th.pc with
            | start =>
              simp only [stepThread, hpc]
              cases getFile e s th.doc with
              | none => exact h
              | some t => simp only; split <;> exact h
            | checked o' =>
              simp only [stepThread, hpc, set]
              rw [if_neg fun h' => hd h'.symm]; exact h
            | _ => simpa [stepThread, hpc] using h

/-- C89: if the goroutines of all earlier changes have ended, and the one of a change runs without others, the
editor shows the problems of the new text, and goes on to do so whatever happens until the document is changed again.
Missing: changes while goroutines run. -/
theorem C89_shown_partial (e : Env) (evs after : List Event) (d : Doc) (ts : List Text) (t : Text)
    (hdone : ∀ th ∈ (run e init evs).threads, th.pc = .done) (hts : ts.getLast? = some t) (hp : e.parses t = true)
    (hafter : ∀ us, Event.changed d us ∉ after) :
    let i := (run e init evs).threads.length
    (run e init (evs ++ .changed d ts :: (List.replicate 5 (.step i) ++ after))).shown d =
      some (e.check d t e.paths) := by
  have hrun : ∀ (a b : List Event) (s : State), run e s (a ++ b) = run e (run e s a) b := by
    intro a b s; simp [run, List.foldl_append]
  show (run e init (evs ++ .changed d ts :: (List.replicate 5 (.step (run e init evs).threads.length) ++ after))).shown d =
    some (e.check d t e.paths)
  rw [hrun]
  generalize run e init evs = s at hdone ⊢
  generalize hi : s.threads.length = i
  have hget : ∀ pc, (s.threads ++ [⟨d, pc⟩])[i]? = some ⟨d, pc⟩ := by
    intro pc; simp [← hi]
  have hset : ∀ pc pc' : Pc, (s.threads ++ [Thread.mk d pc]).set i (Thread.mk d pc') = s.threads ++ [Thread.mk d pc'] := by
    intro pc pc'; simp [← hi]
  have hc : (ts.foldl (fun c t => set c d t) s.content) d = some t := by
    rw [foldl_set]; simp [hts]
  have hg : ∀ ips ths sh, getFile e ⟨ts.foldl (fun c t => set c d t) s.content, ips, ths, sh⟩ d = some t := by
    intro ips ths sh
    simp only [getFile, hc]
  have h1 : apply e s (.changed d ts) =
      ⟨ts.foldl (fun c t => set c d t) s.content, s.importPaths, s.threads ++ [⟨d, .start⟩], s.shown⟩ := rfl
  have key : run e s (.changed d ts :: List.replicate 5 (.step i)) =
      ⟨ts.foldl (fun c t => set c d t) s.content, e.paths, s.threads ++ [⟨d, .done⟩],
        set s.shown d (e.check d t e.paths)⟩ := by
    show apply e (apply e (apply e (apply e (apply e (apply e s (.changed d ts)) (.step i)) (.step i)) (.step i))
      (.step i)) (.step i) = _
    rw [h1]
    simp only [apply, hget, hset, stepThread, hg, hp, if_true, List.nil_append]
  rw [show (.changed d ts :: (List.replicate 5 (.step i) ++ after) : List Event) =
    (.changed d ts :: List.replicate 5 (.step i)) ++ after from rfl, hrun, key]
  refine leaves_shown e d _ after _ ?_ ?_ hafter
  · intro th ht _
    rcases List.mem_append.1 ht with ht | ht
    · exact hdone th ht
    · simp at ht; subst ht; rfl
  · simp [set]

/-! ## Where the code is wrong -/

/-- A server with the import path `p`: the problem of a text is the text with the number of import paths. -/
def exEnv : Env where
  disk := fun d => if d = "a" then some "old" else none
  paths := ["p"]
  parses := fun t => t ≠ "{"
  check := fun _ t ps => t :: ps

/-- C89 is false of the code: if the goroutine of the first change is slower than that of the second one, its
problems stay although all goroutines have ended. -/
theorem C89_stale_false :
    ∃ evs : List Event, (∀ th ∈ (run exEnv init evs).threads, th.pc = .done) ∧ textOf exEnv "a" evs = some "2" ∧
      (run exEnv init evs).shown "a" = some (exEnv.check "a" "1" exEnv.paths) :=
  ⟨[.changed "a" ["1"], .step 0, .step 0, .step 0, .step 0, .changed "a" ["2"], .step 1, .step 1, .step 1, .step 1,
    .step 1, .step 0], by decide⟩

/-- C89 is false of the code: two goroutines can work with the import paths of each other, so that the problems are
those of a server without import paths, although all goroutines have ended. -/
theorem C89_paths_false :
    ∃ evs : List Event, (∀ th ∈ (run exEnv init evs).threads, th.pc = .done) ∧ textOf exEnv "a" evs = some "1" ∧
      (run exEnv init evs).shown "a" = some (exEnv.check "a" "1" []) :=
  ⟨[.changed "a" ["1"], .changed "b" ["2"], .step 0, .step 1, .step 0, .step 0, .step 1, .step 0, .step 0, .step 1,
    .step 1, .step 1], by decide⟩

/-- C89 is false of the code: problems of the last text that could be parsed stay if the new one can not be. -/
theorem C89_unparsable_false :
    ∃ evs : List Event, (∀ th ∈ (run exEnv init evs).threads, th.pc = .done) ∧ textOf exEnv "a" evs = some "{" ∧
      (run exEnv init evs).shown "a" = some (exEnv.check "a" "1" exEnv.paths) :=
  ⟨.changed "a" ["1"] :: List.replicate 5 (.step 0) ++ .changed "a" ["{"] :: List.replicate 5 (.step 1), by decide⟩

/-- C89 is false of the code: nothing is shown for documents that are opened, saved and closed, but not changed. -/
theorem C89_opened_false (e : Env) (evs : List Event) (d : Doc) (h : ∀ ts, Event.changed d ts ∉ evs) :
    (run e init evs).shown d = none :=
  leaves_shown e d none evs init (by simp [init]) rfl h

/-- C89 is false of the code: after a document was changed and closed without saving, requests go on to work with the
changed text instead of the file. -/
theorem C89_closed_false (e : Env) (evs : List Event) (d : Doc) (ts : List Text) (t : Text)
    (h : ts.getLast? = some t) : getFile e (run e init (evs ++ [.changed d ts, .closed d])) d = some t := by
  rw [C89_text]
  unfold textOf
  have : lastText d (evs ++ [.changed d ts, .closed d]) = some t := by
    rw [show evs ++ [Event.changed d ts, .closed d] = (evs ++ [.changed d ts]) ++ [.closed d] by simp, lastText_snoc,
      lastText_snoc]
    simp [lastText, h]
  rw [this]; rfl

/-! ## Examples -/

/-- A trace with two changes, one after the other, and a third one of another document while the second is checked. -/
example : (run exEnv init (.changed "a" ["1"] :: List.replicate 5 (.step 0) ++
    .changed "a" ["2", "3"] :: List.replicate 5 (.step 1) ++ [.changed "b" ["4"], .step 2, .closed "a"])).shown "a" =
      some ["3", "p"] := by decide

example : getFile exEnv (run exEnv init [.opened "a"]) "a" = some "old" ∧
    getFile exEnv (run exEnv init [.changed "a" ["1", "2"]]) "a" = some "2" := by decide

end Verif.EdSync
