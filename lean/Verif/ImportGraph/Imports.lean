import Verif.ImportGraph.Model

/-! # C77: all imports are found -/

namespace Verif.ImportGraph

/-! ## Specification -/

/-- The files that belong to a list of files: these, their dependencies and their imports, and so on. -/
inductive Reach (sys : Sys) (deps0 : Name → List Name) (files : List Name) : Name → Prop
  | base {f} : f ∈ files → Reach sys deps0 files f
  | dep {f d} : Reach sys deps0 files f → d ∈ deps0 f → Reach sys deps0 files d
  | import {f p} : Reach sys deps0 files f → p ∈ sys.imports f → Reach sys deps0 files p

/-- A file and all it depends on. -/
inductive DepReach (deps0 : Name → List Name) (p : Name) : Name → Prop
  | base : DepReach deps0 p p
  | dep {f d} : DepReach deps0 p f → d ∈ deps0 f → DepReach deps0 p d

/-- The given files contain their dependencies, and compiling a file gives it and all it depends on. -/
structure Wf (sys : Sys) (deps0 : Name → List Name) (files : List Name) : Prop where
  closed : ∀ f ∈ files, ∀ d ∈ deps0 f, d ∈ files
  compile : ∀ p l, sys.compile p = some l → ∀ x, x ∈ l ↔ DepReach deps0 p x

/-! ## One level -/

theorem step_mono (sys : Sys) (st : St) (f g p : Name) (h : p ∈ st.deps g) : p ∈ (step sys st f).deps g := by
  unfold step
  by_cases hg : g = f
  · subst hg; simp [h]
  · simp [hg, h]

theorem level_mono (sys : Sys) (fs : List Name) : ∀ (st : St) (g p : Name), p ∈ st.deps g →
    p ∈ (level sys st fs).1.deps g := by
  induction fs with
  | nil => exact fun _ _ _ h => h
  | cons f fs ih => exact fun st g p h => ih _ g p (step_mono sys st f g p h)

theorem level_errors_mono (sys : Sys) (fs : List Name) : ∀ (st : St), ∀ p ∈ st.errors,
    p ∈ (level sys st fs).1.errors := by
  induction fs with
  | nil => exact fun _ _ h => h
  | cons f fs ih => exact fun st p h => ih _ p (by simp [step, h])

theorem step_imports (sys : Sys) (st : St) (f p : Name) (h : p ∈ sys.imports f) : p ∈ (step sys st f).deps f := by
  by_cases hd : p ∈ st.deps f
  · exact step_mono sys st f f p hd
  · simp [step, fresh, h, hd]

theorem level_imports (sys : Sys) (fs : List Name) : ∀ (st : St), ∀ f ∈ fs, ∀ p ∈ sys.imports f,
    p ∈ (level sys st fs).1.deps f := by
  induction fs with
  | nil => simp
  | cons g fs ih =>
    intro st f hf p hp
    rcases List.mem_cons.mp hf with rfl | hf
    · exact level_mono sys fs _ f p (step_imports sys st f p hp)
    · exact ih _ f hf p hp

theorem level_sound (sys : Sys) (fs : List Name) : ∀ (st : St), ∀ x ∈ (level sys st fs).2,
    ∃ f ∈ fs, ∃ p ∈ sys.imports f, ∃ l, sys.compile p = some l ∧ x ∈ l ∧ ∀ y ∈ l, y ∈ (level sys st fs).2 := by
  induction fs with
  | nil => simp [level]
  | cons g fs ih =>
    intro st x hx
    rw [level] at hx ⊢
    rcases List.mem_append.mp hx with hx | hx
    · obtain ⟨p, hp, hx⟩ := List.mem_flatMap.mp hx
      unfold added at hx
      cases hc : sys.compile p with
      | none => simp [hc] at hx
      | some l =>
        refine ⟨g, List.mem_cons_self .., p, (List.mem_filter.mp hp).1, l, hc, by simpa [hc] using hx, ?_⟩
        intro y hy
        exact List.mem_append_left _ (List.mem_flatMap.mpr ⟨p, hp, by simp [added, hc, hy]⟩)
    · obtain ⟨f, hf, p, hp, l, hc, hxl, hall⟩ := ih _ x hx
      exact ⟨f, List.mem_cons_of_mem _ hf, p, hp, l, hc, hxl, fun y hy => List.mem_append_right _ (hall y hy)⟩

/-- A new dependency is an import that was reported or whose files were added. -/
theorem level_new (sys : Sys) (fs : List Name) : ∀ (st : St) (f p : Name), p ∈ (level sys st fs).1.deps f →
    p ∈ st.deps f ∨ (f ∈ fs ∧ p ∈ sys.imports f ∧
      ((sys.compile p = none ∧ p ∈ (level sys st fs).1.errors) ∨
        ∃ l, sys.compile p = some l ∧ ∀ y ∈ l, y ∈ (level sys st fs).2)) := by
  induction fs with
  | nil => exact fun _ _ _ h => Or.inl h
  | cons g fs ih =>
    intro st f p h
    rw [level] at h ⊢
    rcases ih _ f p h with h | ⟨hf, hp, h⟩
    · by_cases hd : p ∈ st.deps f
      · exact Or.inl hd
      · have hfg : f = g := by
          by_cases hfg : f = g
          · exact hfg
          · simp only [step, if_neg hfg] at h
            exact absurd h hd
        subst hfg
        have hfr : p ∈ fresh sys st f := by
          simp only [step, if_true, List.mem_append] at h
          exact h.resolve_left hd
        refine Or.inr ⟨List.mem_cons_self .., (List.mem_filter.mp hfr).1, ?_⟩
        cases hc : sys.compile p with
        | none =>
          refine Or.inl ⟨rfl, level_errors_mono sys fs _ p ?_⟩
          simp [step, hfr, hc]
        | some l =>
          exact Or.inr ⟨l, rfl, fun y hy => List.mem_append_left _ (List.mem_flatMap.mpr ⟨p, hfr, by simp [added, hc, hy]⟩)⟩
    · refine Or.inr ⟨List.mem_cons_of_mem _ hf, hp, ?_⟩
      rcases h with h | ⟨l, hl, hy⟩
      · exact Or.inl h
      · exact Or.inr ⟨l, hl, fun y h => List.mem_append_right _ (hy y h)⟩

/-- Errors are reported for imports of the files only. -/
theorem level_errors (sys : Sys) (fs : List Name) : ∀ (st : St), ∀ p ∈ (level sys st fs).1.errors,
    p ∈ st.errors ∨ ∃ f ∈ fs, p ∈ sys.imports f ∧ p ∉ st.deps f ∧ sys.compile p = none := by
  induction fs with
  | nil => exact fun _ _ h => Or.inl h
  | cons g fs ih =>
    intro st p h
    rcases ih _ p h with h | ⟨f, hf, hp, hd, hc⟩
    · unfold step at h
      rcases List.mem_append.mp h with h | h
      · exact Or.inl h
      · obtain ⟨h1, h2⟩ := List.mem_filter.mp h
        unfold fresh at h1
        obtain ⟨h1, h3⟩ := List.mem_filter.mp h1
        exact Or.inr ⟨g, List.mem_cons_self .., h1, by simpa using h3, by simpa using h2⟩
    · exact Or.inr ⟨f, List.mem_cons_of_mem _ hf, hp, fun h => hd (step_mono sys st g f p h), hc⟩

/-! ## All levels -/

theorem importRec_mono (sys : Sys) : ∀ (n : Nat) (st : St) (files : List Name) (r : St × List Name),
    importRec sys n st files = some r → (∀ g p, p ∈ st.deps g → p ∈ r.1.deps g) ∧ ∀ p ∈ st.errors, p ∈ r.1.errors := by
  intro n
  induction n with
  | zero => intro st files r h; simp [importRec] at h
  | succ n ih =>
    intro st files r h
    rw [importRec] at h
    by_cases he : (level sys st files).2 = []
    · rw [if_pos he, Option.some.injEq] at h
      subst h
      exact ⟨level_mono sys files st, level_errors_mono sys files st⟩
    · rw [if_neg he, Option.map_eq_some_iff] at h
      obtain ⟨r', h', rfl⟩ := h
      obtain ⟨h1, h2⟩ := ih _ _ _ h'
      exact ⟨fun g p hp => h1 g p (level_mono sys files st g p hp),
        fun p hp => h2 p (level_errors_mono sys files st p hp)⟩

theorem importRec_imports (sys : Sys) : ∀ (n : Nat) (st : St) (files : List Name) (r : St × List Name),
    importRec sys n st files = some r → ∀ f, f ∈ files ∨ f ∈ r.2 → ∀ p ∈ sys.imports f, p ∈ r.1.deps f := by
  intro n
  induction n with
  | zero => intro st files r h; simp [importRec] at h
  | succ n ih =>
    intro st files r h f hf p hp
    rw [importRec] at h
    by_cases he : (level sys st files).2 = []
    · rw [if_pos he, Option.some.injEq] at h
      subst h
      exact level_imports sys files st f (by simpa using hf) p hp
    · rw [if_neg he, Option.map_eq_some_iff] at h
      obtain ⟨r', h', rfl⟩ := h
      rcases hf with hf | hf
      · exact (importRec_mono sys _ _ _ _ h').1 f p (level_imports sys files st f hf p hp)
      · exact ih _ _ _ h' f (List.mem_append.mp hf) p hp

theorem importRec_new (sys : Sys) : ∀ (n : Nat) (st : St) (files : List Name) (r : St × List Name),
    importRec sys n st files = some r → ∀ f p, p ∈ r.1.deps f → p ∈ st.deps f ∨
      (p ∈ sys.imports f ∧ ((sys.compile p = none ∧ p ∈ r.1.errors) ∨
        ∃ l, sys.compile p = some l ∧ ∀ y ∈ l, y ∈ r.2)) := by
  intro n
  induction n with
  | zero => intro st files r h; simp [importRec] at h
  | succ n ih =>
    intro st files r h f p hp
    rw [importRec] at h
    by_cases he : (level sys st files).2 = []
    · rw [if_pos he, Option.some.injEq] at h
      subst h
      rcases level_new sys files st f p hp with h | ⟨-, h1, h | ⟨l, hl, hy⟩⟩
      · exact Or.inl h
      · exact Or.inr ⟨h1, Or.inl h⟩
      · exact Or.inr ⟨h1, Or.inr ⟨l, hl, fun y h => he ▸ hy y h⟩⟩
    · rw [if_neg he, Option.map_eq_some_iff] at h
      obtain ⟨r', h', rfl⟩ := h
      rcases ih _ _ _ h' f p hp with h | ⟨h1, h | ⟨l, hl, hy⟩⟩
      · rcases level_new sys files st f p h with h | ⟨-, h1, ⟨h, h2⟩ | ⟨l, hl, hy⟩⟩
        · exact Or.inl h
        · exact Or.inr ⟨h1, Or.inl ⟨h, (importRec_mono sys _ _ _ _ h').2 p h2⟩⟩
        · exact Or.inr ⟨h1, Or.inr ⟨l, hl, fun y h => List.mem_append_left _ (hy y h)⟩⟩
      · exact Or.inr ⟨h1, Or.inl h⟩
      · exact Or.inr ⟨h1, Or.inr ⟨l, hl, fun y h => List.mem_append_right _ (hy y h)⟩⟩

/-- What is added comes from compiling an import of a given or added file, with all files of it. -/
theorem importRec_sound (sys : Sys) : ∀ (n : Nat) (st : St) (files : List Name) (r : St × List Name)
    (P : Name → Prop), importRec sys n st files = some r → (∀ f ∈ files, P f) →
    (∀ f, P f → ∀ p ∈ sys.imports f, ∀ l, sys.compile p = some l → ∀ x ∈ l, P x) → ∀ x ∈ r.2, P x := by
  intro n
  induction n with
  | zero => intro st files r P h; simp [importRec] at h
  | succ n ih =>
    intro st files r P h hP hstep x hx
    rw [importRec] at h
    have hlev : ∀ x ∈ (level sys st files).2, P x := by
      intro x hx
      obtain ⟨f, hf, p, hp, l, hc, hxl, -⟩ := level_sound sys files st x hx
      exact hstep f (hP f hf) p hp l hc x hxl
    by_cases he : (level sys st files).2 = []
    · rw [if_pos he, Option.some.injEq] at h
      subst h
      simp at hx
    · rw [if_neg he, Option.map_eq_some_iff] at h
      obtain ⟨r', h', rfl⟩ := h
      rcases List.mem_append.mp hx with hx | hx
      · exact hlev x hx
      · exact ih _ _ _ P h' hlev hstep x hx

theorem importRec_closed (sys : Sys) (deps0 : Name → List Name)
    (hc : ∀ p l, sys.compile p = some l → ∀ x, x ∈ l ↔ DepReach deps0 p x) :
    ∀ (n : Nat) (st : St) (files : List Name) (r : St × List Name),
    importRec sys n st files = some r → ∀ x ∈ r.2, ∀ d ∈ deps0 x, d ∈ r.2 := by
  intro n
  induction n with
  | zero => intro st files r h; simp [importRec] at h
  | succ n ih =>
    intro st files r h x hx d hd
    rw [importRec] at h
    by_cases he : (level sys st files).2 = []
    · rw [if_pos he, Option.some.injEq] at h
      subst h
      simp at hx
    · rw [if_neg he, Option.map_eq_some_iff] at h
      obtain ⟨r', h', rfl⟩ := h
      rcases List.mem_append.mp hx with hx | hx
      · obtain ⟨f, hf, p, hp, l, hl, hxl, hall⟩ := level_sound sys files st x hx
        exact List.mem_append_left _ (hall d ((hc p l hl d).mpr (.dep ((hc p l hl x).mp hxl) hd)))
      · exact List.mem_append_right _ (ih _ _ _ h' x hx d hd)

theorem importRec_errors (sys : Sys) : ∀ (n : Nat) (st : St) (files : List Name) (r : St × List Name),
    importRec sys n st files = some r → ∀ p ∈ r.1.errors, p ∈ st.errors ∨
      ∃ f, (f ∈ files ∨ f ∈ r.2) ∧ p ∈ sys.imports f ∧ p ∉ st.deps f ∧ sys.compile p = none := by
  intro n
  induction n with
  | zero => intro st files r h; simp [importRec] at h
  | succ n ih =>
    intro st files r h p hp
    rw [importRec] at h
    by_cases he : (level sys st files).2 = []
    · rw [if_pos he, Option.some.injEq] at h
      subst h
      rcases level_errors sys files st p hp with h | ⟨f, hf, h⟩
      · exact Or.inl h
      · exact Or.inr ⟨f, Or.inl hf, h⟩
    · rw [if_neg he, Option.map_eq_some_iff] at h
      obtain ⟨r', h', rfl⟩ := h
      rcases ih _ _ _ h' p hp with h | ⟨f, hf, h1, h2, h3⟩
      · rcases level_errors sys files st p h with h | ⟨f, hf, h⟩
        · exact Or.inl h
        · exact Or.inr ⟨f, Or.inl hf, h⟩
      · exact Or.inr ⟨f, Or.inr (List.mem_append.mpr hf), h1, fun h => h2 (level_mono sys files st f p h), h3⟩

/-! ## The list of files -/

theorem mem_dedup (fs : List Name) : ∀ (seen : List Name) (x : Name), x ∈ dedup seen fs ↔ x ∈ fs ∧ x ∉ seen := by
  induction fs with
  | nil => simp [dedup]
  | cons f fs ih =>
    intro seen x
    rw [dedup]
    by_cases h : f ∈ seen
    · rw [if_pos h, ih, List.mem_cons]
      constructor
      · exact fun ⟨h1, h2⟩ => ⟨Or.inr h1, h2⟩
      · rintro ⟨rfl | h1, h2⟩
        · exact absurd h h2
        · exact ⟨h1, h2⟩
    · rw [if_neg h, List.mem_cons, ih, List.mem_cons, List.mem_cons]
      by_cases hx : x = f
      · subst hx; simp [h]
      · simp [hx]

theorem foldl_prepend (gs : List Name) : ∀ (fs : List Name),
    (∀ x, x ∈ gs.foldl (fun fs f => if f ∈ fs then fs else f :: fs) fs ↔ x ∈ gs ∨ x ∈ fs) ∧
    (fs.Nodup → (gs.foldl (fun fs f => if f ∈ fs then fs else f :: fs) fs).Nodup) := by
  induction gs with
  | nil => simp
  | cons g gs ih =>
    intro fs
    rw [List.foldl_cons]
    obtain ⟨h1, h2⟩ := ih (if g ∈ fs then fs else g :: fs)
    refine ⟨fun x => ?_, fun hn => h2 ?_⟩
    · rw [h1, List.mem_cons]
      by_cases hg : g ∈ fs
      · rw [if_pos hg]
        constructor
        · rintro (h | h)
          · exact Or.inl (Or.inr h)
          · exact Or.inr h
        · rintro ((rfl | h) | h)
          · exact Or.inr hg
          · exact Or.inl h
          · exact Or.inr h
      · rw [if_neg hg, List.mem_cons]
        constructor
        · rintro (h | h | h)
          · exact Or.inl (Or.inr h)
          · exact Or.inl (Or.inl h)
          · exact Or.inr h
        · rintro ((h | h) | h)
          · exact Or.inr (Or.inl h)
          · exact Or.inl h
          · exact Or.inr (Or.inr h)
    · by_cases hg : g ∈ fs
      · rw [if_pos hg]; exact hn
      · rw [if_neg hg]; exact List.nodup_cons.mpr ⟨hg, hn⟩

theorem mem_allFiles (files imp : List Name) (x : Name) : x ∈ allFiles files imp ↔ x ∈ imp ∨ x ∈ files := by
  unfold allFiles
  rw [(foldl_prepend _ files).1, List.mem_reverse, mem_dedup]
  simp

/-! ## Termination -/

/-- The imports that are not yet dependencies. -/
def open_ (sys : Sys) (st : St) : List Name → Nat
  | [] => 0
  | f :: fs => (fresh sys st f).length + open_ sys st fs

theorem filter_length_le (p q : Name → Bool) (l : List Name) (h : ∀ x, p x = true → q x = true) :
    (l.filter p).length ≤ (l.filter q).length := by
  induction l with
  | nil => simp
  | cons x l ih =>
    by_cases hp : p x = true
    · simp [hp, h x hp, ih]
    · by_cases hq : q x = true
      · simp [hp, hq]; omega
      · simp [hp, hq, ih]

theorem fresh_step (sys : Sys) (st : St) (f g : Name) :
    (fresh sys (step sys st f) g).length ≤ (fresh sys st g).length := by
  unfold fresh
  apply filter_length_le
  intro p hp
  simp only [decide_eq_true_eq] at hp ⊢
  exact fun h => hp (step_mono sys st f g p h)

theorem fresh_self (sys : Sys) (st : St) (f : Name) : fresh sys (step sys st f) f = [] := by
  rw [fresh, List.filter_eq_nil_iff]
  intro p hp
  simp [step_imports sys st f p hp]

theorem open_step_le (sys : Sys) (st : St) (f : Name) (us : List Name) :
    open_ sys (step sys st f) us ≤ open_ sys st us := by
  induction us with
  | nil => simp [open_]
  | cons u us ih =>
    rw [open_, open_]
    have := fresh_step sys st f u
    omega

theorem open_step_lt (sys : Sys) (st : St) (f : Name) (us : List Name) (hf : f ∈ us) (hne : fresh sys st f ≠ []) :
    open_ sys (step sys st f) us < open_ sys st us := by
  induction us with
  | nil => simp at hf
  | cons u us ih =>
    rw [open_, open_]
    rcases List.mem_cons.mp hf with rfl | hf
    · have h1 := open_step_le sys st f us
      have h2 : 0 < (fresh sys st f).length := List.length_pos_iff.mpr hne
      rw [fresh_self]
      simp only [List.length_nil]
      omega
    · have h1 := ih hf
      have h2 := fresh_step sys st f u
      omega

theorem open_level (sys : Sys) (us fs : List Name) : ∀ (st : St), (∀ f ∈ fs, f ∈ us) →
    open_ sys (level sys st fs).1 us ≤ open_ sys st us ∧
    ((level sys st fs).2 ≠ [] → open_ sys (level sys st fs).1 us < open_ sys st us) := by
  induction fs with
  | nil => simp [level]
  | cons f fs ih =>
    intro st hus
    rw [level]
    obtain ⟨h1, h2⟩ := ih (step sys st f) fun g hg => hus g (List.mem_cons_of_mem _ hg)
    have h3 := open_step_le sys st f us
    simp only []
    refine ⟨by omega, fun hne => ?_⟩
    by_cases hfr : fresh sys st f = []
    · have := h2 (by simpa [hfr] using hne)
      omega
    · have := open_step_lt sys st f us (hus f (List.mem_cons_self ..)) hfr
      omega

theorem importRec_terminates (sys : Sys) (us : List Name)
    (hus : ∀ f ∈ us, ∀ p ∈ sys.imports f, ∀ l, sys.compile p = some l → ∀ x ∈ l, x ∈ us) :
    ∀ (n : Nat) (st : St) (files : List Name), (∀ f ∈ files, f ∈ us) → open_ sys st us < n →
    ∃ r, importRec sys n st files = some r := by
  intro n
  induction n with
  | zero => intro st files _ h; omega
  | succ n ih =>
    intro st files hf h
    rw [importRec]
    by_cases he : (level sys st files).2 = []
    · exact ⟨_, if_pos he⟩
    · rw [if_neg he]
      have hlt := (open_level sys us files st hf).2 he
      obtain ⟨r, hr⟩ := ih (level sys st files).1 (level sys st files).2 (fun x hx => by
        obtain ⟨f, hf', p, hp, l, hc, hxl, -⟩ := level_sound sys files st x hx
        exact hus f (hf f hf') p hp l hc x hxl) (by omega)
      exact ⟨_, by rw [hr]; rfl⟩

/-- C77, imports: the search for imports ends, also if files import each other, if finitely many files can
be found. -/
theorem C77_imports_end (sys : Sys) (deps0 : Name → List Name) (files us : List Name) (hf : ∀ f ∈ files, f ∈ us)
    (hus : ∀ f ∈ us, ∀ p ∈ sys.imports f, ∀ l, sys.compile p = some l → ∀ x ∈ l, x ∈ us) :
    ∃ n r, importRec sys n ⟨deps0, []⟩ files = some r :=
  ⟨open_ sys ⟨deps0, []⟩ us + 1, importRec_terminates sys us hus _ _ files hf (Nat.lt_succ_self _)⟩

/-- C77, imports: unless an error is reported, the files are exactly the given ones with all they depend on
and import, at any depth, each once; and each import has become a dependency. -/
theorem C77_imports (sys : Sys) (deps0 : Name → List Name) (files : List Name) (hwf : Wf sys deps0 files) (n : Nat)
    (st : St) (imp : List Name) (h : importRec sys n ⟨deps0, []⟩ files = some (st, imp)) (he : st.errors = []) :
    (∀ x, x ∈ allFiles files imp ↔ Reach sys deps0 files x) ∧
    (files.Nodup → (allFiles files imp).Nodup) ∧
    ∀ f ∈ allFiles files imp, ∀ p, p ∈ st.deps f ↔ p ∈ deps0 f ∨ p ∈ sys.imports f := by
  have hclosed : ∀ x ∈ allFiles files imp, ∀ p ∈ st.deps x, p ∈ allFiles files imp := by
    intro x hx p hp
    rw [mem_allFiles] at hx ⊢
    rcases importRec_new sys n _ _ _ h x p hp with hp | ⟨-, ⟨-, hp⟩ | ⟨l, hl, hall⟩⟩
    · rcases hx with hx | hx
      · exact Or.inl (importRec_closed sys deps0 hwf.compile n _ _ _ h x hx p hp)
      · exact Or.inr (hwf.closed x hx p hp)
    · simp [he] at hp
    · exact Or.inl (hall p ((hwf.compile p l hl p).mpr .base))
  have himp : ∀ x ∈ allFiles files imp, ∀ p ∈ sys.imports x, p ∈ st.deps x := by
    intro x hx p hp
    rw [mem_allFiles] at hx
    exact importRec_imports sys n _ _ _ h x hx.symm p hp
  have hdeps : ∀ x, ∀ p ∈ deps0 x, p ∈ st.deps x := fun x p hp => (importRec_mono sys n _ _ _ h).1 x p hp
  refine ⟨fun x => ⟨fun hx => ?_, fun hx => ?_⟩, fun hn => (foldl_prepend _ files).2 hn, fun f hf p => ⟨fun hp => ?_, ?_⟩⟩
  · rw [mem_allFiles] at hx
    rcases hx with hx | hx
    · refine importRec_sound sys n _ _ _ (Reach sys deps0 files) h (fun f hf => .base hf) ?_ x hx
      intro f hf p hp l hl x hx
      have hpx := (hwf.compile p l hl x).mp hx
      have hpr : Reach sys deps0 files p := .import hf hp
      clear hx
      induction hpx with
      | base => exact hpr
      | dep _ hd ih => exact .dep ih hd
    · exact .base hx
  · induction hx with
    | base hx => exact (mem_allFiles ..).mpr (Or.inr hx)
    | dep _ hd ih => exact hclosed _ ih _ (hdeps _ _ hd)
    | «import» _ hp ih => exact hclosed _ ih _ (himp _ ih _ hp)
  · rcases importRec_new sys n _ _ _ h f p hp with hp | ⟨hp, -⟩
    · exact Or.inl hp
    · exact Or.inr hp
  · rintro (hp | hp)
    · exact hdeps f p hp
    · exact himp f hf p hp

/-- C77, imports: an error is reported exactly if an import of one of the files is neither among its
dependencies nor can be compiled. -/
theorem C77_imports_error (sys : Sys) (deps0 : Name → List Name) (files : List Name) (n : Nat)
    (st : St) (imp : List Name) (h : importRec sys n ⟨deps0, []⟩ files = some (st, imp)) (p : Name) :
    p ∈ st.errors ↔ ∃ f ∈ allFiles files imp, p ∈ sys.imports f ∧ p ∉ deps0 f ∧ sys.compile p = none := by
  constructor
  · intro hp
    rcases importRec_errors sys n _ _ _ h p hp with hp | ⟨f, hf, hp⟩
    · simp at hp
    · exact ⟨f, (mem_allFiles ..).mpr hf.symm, hp⟩
  · rintro ⟨f, hf, hp, hd, hc⟩
    rw [mem_allFiles] at hf
    have := importRec_imports sys n _ _ _ h f hf.symm p hp
    rcases importRec_new sys n _ _ _ h f p this with h | ⟨-, ⟨-, h⟩ | ⟨l, hl, -⟩⟩
    · exact absurd h hd
    · exact h
    · rw [hc] at hl
      exact absurd hl (by simp)

/-- Two files that import each other, and a third one that the second depends on. -/
def sampleSys : Sys where
  imports f := if f = 0 then [1] else if f = 1 then [0] else []
  compile p := if p = 0 then some [0] else if p = 1 then some [2, 1] else if p = 2 then some [2] else none

def sampleDeps (f : Name) : List Name := if f = 1 then [2] else []

example : (importRec sampleSys 3 ⟨sampleDeps, []⟩ [0]).map (fun r => (r.2, allFiles [0] r.2, r.1.deps 0, r.1.deps 1)) =
    some ([2, 1, 0], [2, 1, 0], [1], [2, 0]) := by decide

example : Wf sampleSys sampleDeps [0] where
  closed := by simp [sampleDeps]
  compile := by
    have h0 : ∀ x, DepReach sampleDeps 0 x → x = 0 := by
      intro x h
      induction h with
      | base => rfl
      | dep _ hd ih => subst ih; simp [sampleDeps] at hd
    have h2 : ∀ x, DepReach sampleDeps 2 x → x = 2 := by
      intro x h
      induction h with
      | base => rfl
      | dep _ hd ih => subst ih; simp [sampleDeps] at hd
    have h1 : ∀ x, DepReach sampleDeps 1 x → x = 2 ∨ x = 1 := by
      intro x h
      induction h with
      | base => exact Or.inr rfl
      | dep _ hd ih => rcases ih with rfl | rfl <;> simp [sampleDeps] at hd; exact Or.inl hd
    intro p l hl x
    by_cases hp0 : p = 0
    · subst hp0
      obtain rfl : [0] = l := by simpa [sampleSys] using hl
      rw [List.mem_singleton]
      exact ⟨fun h => h ▸ .base, h0 x⟩
    · by_cases hp1 : p = 1
      · subst hp1
        obtain rfl : [2, 1] = l := by simpa [sampleSys] using hl
        rw [List.mem_cons, List.mem_singleton]
        refine ⟨?_, h1 x⟩
        rintro (rfl | rfl)
        · exact .dep .base (by simp [sampleDeps])
        · exact .base
      · by_cases hp2 : p = 2
        · subst hp2
          obtain rfl : [2] = l := by simpa [sampleSys] using hl
          rw [List.mem_singleton]
          exact ⟨fun h => h ▸ .base, h2 x⟩
        · simp [sampleSys, hp0, hp1, hp2] at hl

end Verif.ImportGraph
