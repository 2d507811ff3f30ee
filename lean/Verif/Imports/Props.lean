import Verif.Imports.Model
import Std.Data.String.ToNat

/-! # C33: imports declare distinct names, and types refer to their own package -/

namespace Verif.Imports

/-- Specification: packages that are imported: not the file's own, not one of the runtime's. -/
def Foreign (cur : Name) (ds : List Default) (p : Pkg) : Prop :=
  ¬ "google.".toList <+: p.name ∧ p.path ≠ cur ∧ p.path ∉ ds.map (·.path)

theorem isGoogle_false (n : Name) : isGoogle n = false ↔ ¬ "google.".toList <+: n := by
  rw [← List.isPrefixOf_iff_prefix]
  show isGoogle n = false ↔ ¬ isGoogle n = true
  simp

/-- Specification: the name clashes none of the runtime's and does not end with the first suffix. -/
def Plain (ds : List Default) (std : List Name) (n : Name) : Prop :=
  n.getLast? ≠ some '1' ∧ n ∉ std ∧ n ∉ ds.map Default.ident ∧ n ∉ ds.map (·.alias) ∧
  n ++ ['1'] ∉ std ∧ n ++ ['1'] ∉ ds.map Default.ident ∧ n ++ ['1'] ∉ ds.map (·.alias)

structure Inv (cur : Name) (ds : List Default) (std : List Name) (pkgs : List Pkg) (st : St) : Prop where
  paths : ∀ x, x ∈ st.paths ↔ x ∈ ds.map (·.path) ∨ x ∈ st.imports.map (·.1)
  names : ∀ x, x ∈ st.names → x ∈ ds.map (·.alias) ∨ ∃ p ∈ pkgs, p.name = x ∧ p.path ∈ st.imports.map (·.1)
  named : ∀ p ∈ pkgs, ∀ a, (p.path, a) ∈ st.imports → ∃ q ∈ pkgs, q.path = p.path ∧ q.name ∈ st.names ∧
    (a = q.name ∨ (a = q.name ++ ['1'] ∧ ∃ r ∈ pkgs, r.name = q.name ∧ r.path ≠ q.path ∧ r.path ∈ st.imports.map (·.1)))
  origin : ∀ e ∈ st.imports, ∃ p ∈ pkgs, p.path = e.1
  nodup : (st.imports.map (·.2)).Nodup
  pathsNodup : (st.imports.map (·.1)).Nodup

theorem digits_one : digits 1 = ['1'] := by decide

theorem suffixed_one (names : List Name) (n : Name) (fuel : Nat) (h : n ++ ['1'] ∉ names) : suffixed names n (fuel + 1) 1 = n ++ ['1'] := by
  simp only [suffixed, digits_one, h, if_false]

theorem getLast_one (n : Name) : (n ++ ['1']).getLast? = some '1' := by simp

theorem step_inv (cur : Name) (ds : List Default) (std : List Name) (pkgs : List Pkg) (hplain : ∀ p ∈ pkgs, Plain ds std p.name)
    (htwo : ∀ p ∈ pkgs, ∀ q ∈ pkgs, ∀ r ∈ pkgs, p.name = q.name → q.name = r.name → p.path = q.path ∨ q.path = r.path ∨ p.path = r.path)
    (st : St) (h : Inv cur ds std pkgs st) (p : Pkg) (hp : p ∈ pkgs) : Inv cur ds std pkgs (addImport cur st p) := by
  unfold addImport
  split
  · exact h
  split
  · exact h
  split
  · exact h
  rename_i hpath
  have hnew : p.path ∉ st.imports.map (·.1) := fun hx => hpath ((h.paths _).mpr (.inr hx))
  have hpl := hplain p hp
  -- the alias
  have halias : ∃ a, (if p.name ∈ st.names then suffixed st.names p.name (st.names.length + 1) 1 else p.name) = a ∧
      ((a = p.name ∧ p.name ∉ st.names) ∨ (a = p.name ++ ['1'] ∧ ∃ r ∈ pkgs, r.name = p.name ∧ r.path ∈ st.imports.map (·.1))) := by
    by_cases hn : p.name ∈ st.names
    · rw [if_pos hn]
      have h1 : p.name ++ ['1'] ∉ st.names := by
        intro hx
        rcases h.names _ hx with hd | ⟨q, hq, hqn, _⟩
        · exact hpl.2.2.2.2.2.2 hd
        · exact (hplain q hq).1 (by rw [hqn]; exact getLast_one _)
      refine ⟨_, suffixed_one _ _ _ h1, .inr ⟨rfl, ?_⟩⟩
      rcases h.names _ hn with hd | ⟨q, hq, hqn, hqi⟩
      · exact absurd hd hpl.2.2.2.1
      · exact ⟨q, hq, hqn, hqi⟩
    · rw [if_neg hn]; exact ⟨_, rfl, .inl ⟨rfl, hn⟩⟩
  obtain ⟨a, ha, hcase⟩ := halias
  rw [ha]
  have hfresh : a ∉ st.imports.map (·.2) := by
    intro hx
    obtain ⟨⟨pa, aa⟩, he, rfl⟩ := List.mem_map.mp hx
    obtain ⟨q0, hq0, hq0p⟩ := h.origin _ he
    simp only at hq0p
    subst hq0p
    obtain ⟨q, hq, hqp, hqn, hqa⟩ := h.named q0 hq0 _ he
    have hqi : q.path ∈ st.imports.map (·.1) := by rw [hqp]; exact List.mem_map.mpr ⟨_, he, rfl⟩
    simp only at hcase
    rcases hcase with ⟨rfl, hn⟩ | ⟨rfl, r, hr, hrn, hri⟩
    · rcases hqa with e | ⟨e, _⟩
      · exact hn (e ▸ hqn)
      · exact hpl.1 (by rw [e]; exact getLast_one _)
    · rcases hqa with e | ⟨e, r', hr', hrn', hrp', hri'⟩
      · exact (hplain q hq).1 (by rw [← e]; exact getLast_one _)
      · have eqn : p.name = q.name := List.append_cancel_right e
        rcases htwo p hp q hq r' hr' eqn hrn'.symm with e1 | e1 | e1
        · exact hnew (e1 ▸ hqi)
        · exact hrp' e1.symm
        · exact hnew (e1 ▸ hri')
  constructor
  · intro x
    simp only [List.mem_cons, List.map_append, List.map_cons, List.map_nil, List.mem_append, List.not_mem_nil, or_false]
    rw [h.paths]
    constructor
    · rintro (rfl | hx | hx)
      · exact .inr (.inr rfl)
      · exact .inl hx
      · exact .inr (.inl hx)
    · rintro (hx | hx | rfl)
      · exact .inr (.inl hx)
      · exact .inr (.inr hx)
      · exact .inl rfl
  · intro x hx
    simp only [List.map_append, List.mem_append, List.map_cons, List.map_nil, List.mem_singleton]
    rcases List.mem_cons.mp hx with rfl | hx
    · exact .inr ⟨p, hp, rfl, .inr rfl⟩
    · rcases h.names x hx with hd | ⟨q, hq, h1, h2⟩
      · exact .inl hd
      · exact .inr ⟨q, hq, h1, .inl h2⟩
  · intro q hq b hb
    simp only [List.map_append, List.mem_append, List.map_cons, List.map_nil, List.mem_cons, List.not_mem_nil, or_false] at hb ⊢
    rcases hb with hb | hb
    · obtain ⟨q1, h1, h2, h3, h4⟩ := h.named q hq b hb
      refine ⟨q1, h1, h2, .inr h3, ?_⟩
      rcases h4 with h4 | ⟨h4, r, hr, hrn, hrp, hri⟩
      · exact .inl h4
      · exact .inr ⟨h4, r, hr, hrn, hrp, .inl hri⟩
    · simp only [Prod.mk.injEq] at hb
      obtain ⟨e1, rfl⟩ := hb
      refine ⟨p, hp, e1.symm, .inl rfl, ?_⟩
      rcases hcase with ⟨h1, _⟩ | ⟨h1, r, hr, hrn, hri⟩
      · exact .inl h1
      · exact .inr ⟨h1, r, hr, hrn, fun e => hnew (e ▸ hri), .inl hri⟩
  · intro e he
    rcases List.mem_append.mp he with he | he
    · exact h.origin e he
    · simp only [List.mem_singleton] at he
      subst he
      exact ⟨p, hp, rfl⟩
  · rw [List.map_append, List.nodup_append]
    refine ⟨h.nodup, by simp, ?_⟩
    intro x hx y hy
    simp only [List.map_cons, List.map_nil, List.mem_singleton] at hy
    subst hy
    intro e; subst e; exact hfresh hx
  · rw [List.map_append, List.nodup_append]
    refine ⟨h.pathsNodup, by simp, ?_⟩
    intro x hx y hy
    simp only [List.map_cons, List.map_nil, List.mem_singleton] at hy
    subst hy
    intro e; subst e; exact hnew hx

theorem fold_inv (cur : Name) (ds : List Default) (std : List Name) (pkgs : List Pkg) (hplain : ∀ p ∈ pkgs, Plain ds std p.name)
    (htwo : ∀ p ∈ pkgs, ∀ q ∈ pkgs, ∀ r ∈ pkgs, p.name = q.name → q.name = r.name → p.path = q.path ∨ q.path = r.path ∨ p.path = r.path)
    (l : List Pkg) (hl : ∀ p ∈ l, p ∈ pkgs) (st : St) (h : Inv cur ds std pkgs st) : Inv cur ds std pkgs (l.foldl (addImport cur) st) := by
  induction l generalizing st with
  | nil => exact h
  | cons p ps ih =>
    exact ih (fun q hq => hl q (by simp [hq])) _ (step_inv cur ds std pkgs hplain htwo st h p (hl p (by simp)))

theorem imports_inv (cur : Name) (ds : List Default) (std : List Name) (pkgs : List Pkg) (hplain : ∀ p ∈ pkgs, Plain ds std p.name)
    (htwo : ∀ p ∈ pkgs, ∀ q ∈ pkgs, ∀ r ∈ pkgs, p.name = q.name → q.name = r.name → p.path = q.path ∨ q.path = r.path ∨ p.path = r.path) :
    Inv cur ds std pkgs (imports cur ds pkgs) := by
  refine fold_inv cur ds std pkgs hplain htwo pkgs (fun _ h => h) _ ?_
  constructor
  · intro x; simp
  · intro x hx; exact .inl hx
  · intro p _ a ha; simp at ha
  · intro e he; simp at he
  · simp
  · simp

/-- C33 (partial: at most two packages with the same name, names that clash none of the runtime's imports
and do not end with 1): all identifiers the import block declares are distinct. -/
theorem C33_distinct_partial (cur : Name) (ds : List Default) (std : List Name) (pkgs : List Pkg)
    (hstd : (std ++ ds.map Default.ident).Nodup) (hplain : ∀ p ∈ pkgs, Plain ds std p.name)
    (htwo : ∀ p ∈ pkgs, ∀ q ∈ pkgs, ∀ r ∈ pkgs, p.name = q.name → q.name = r.name → p.path = q.path ∨ q.path = r.path ∨ p.path = r.path) :
    (std ++ ds.map Default.ident ++ (imports cur ds pkgs).imports.map (·.2)).Nodup := by
  have h := imports_inv cur ds std pkgs hplain htwo
  rw [List.nodup_append]
  refine ⟨hstd, h.nodup, ?_⟩
  intro x hx y hy e
  subst e
  obtain ⟨⟨pa, aa⟩, he, rfl⟩ := List.mem_map.mp hy
  obtain ⟨q0, hq0, hq0p⟩ := h.origin _ he
  simp only at hq0p
  subst hq0p
  obtain ⟨q, hq, _, _, hqa⟩ := h.named q0 hq0 _ he
  obtain ⟨_, p2, p3, p4, p5, p6, p7⟩ := hplain q hq
  rcases List.mem_append.mp hx with hx | hx
  · rcases hqa with e | ⟨e, _⟩
    · exact p2 (e ▸ hx)
    · exact p5 (e ▸ hx)
  · rcases hqa with e | ⟨e, _⟩
    · exact p3 (e ▸ hx)
    · exact p6 (e ▸ hx)

theorem addImport_mono (cur : Name) (st : St) (p : Pkg) (e : Name × Name) (h : e ∈ st.imports) : e ∈ (addImport cur st p).imports := by
  unfold addImport
  split
  · exact h
  split
  · exact h
  split
  · exact h
  · exact List.mem_append_left _ h

theorem fold_mono (cur : Name) (l : List Pkg) (st : St) (e : Name × Name) (h : e ∈ st.imports) : e ∈ (l.foldl (addImport cur) st).imports := by
  induction l generalizing st with
  | nil => exact h
  | cons p ps ih => exact ih _ (addImport_mono cur st p e h)

/-- Paths recorded are those of the defaults and of the imports. -/
theorem fold_paths (cur : Name) (ds : List Default) (l : List Pkg) (st : St)
    (h : ∀ x ∈ st.paths, x ∈ ds.map (·.path) ∨ ∃ a, (x, a) ∈ st.imports) :
    ∀ x ∈ (l.foldl (addImport cur) st).paths, x ∈ ds.map (·.path) ∨ ∃ a, (x, a) ∈ (l.foldl (addImport cur) st).imports := by
  induction l generalizing st with
  | nil => exact h
  | cons p ps ih =>
    refine ih _ ?_
    unfold addImport
    split
    · exact h
    split
    · exact h
    split
    · exact h
    · intro x hx
      rcases List.mem_cons.mp hx with rfl | hx
      · exact .inr ⟨_, List.mem_append_right _ (List.mem_singleton.mpr rfl)⟩
      · rcases h x hx with h1 | ⟨a, h1⟩
        · exact .inl h1
        · exact .inr ⟨a, List.mem_append_left _ h1⟩

/-- C33: every package a type belongs to is imported, and no package twice. -/
theorem C33_complete (cur : Name) (ds : List Default) (pkgs : List Pkg) (p : Pkg) (hp : p ∈ pkgs) (hf : Foreign cur ds p) :
    ∃ a, (p.path, a) ∈ (imports cur ds pkgs).imports := by
  unfold Foreign at hf
  rw [← isGoogle_false] at hf
  obtain ⟨pre, post, rfl⟩ := List.append_of_mem hp
  unfold imports
  rw [List.foldl_append, List.foldl_cons]
  have hpaths := fold_paths cur ds pre ⟨ds.map (·.path), ds.map (·.alias), [], []⟩ (fun x hx => .inl hx)
  generalize pre.foldl (addImport cur) ⟨ds.map (·.path), ds.map (·.alias), [], []⟩ = st at hpaths
  have : ∃ a, (p.path, a) ∈ (addImport cur st p).imports := by
    unfold addImport
    simp only [hf.1, hf.2.1, if_false, Bool.false_eq_true]
    split
    · rename_i hx
      rcases hpaths _ hx with h1 | h1
      · exact absurd h1 hf.2.2
      · exact h1
    · exact ⟨_, List.mem_append_right _ (List.mem_singleton.mpr rfl)⟩
  obtain ⟨a, ha⟩ := this
  exact ⟨a, fold_mono cur post _ _ ha⟩

theorem fold_nodup (cur : Name) (l : List Pkg) (st : St) (h : (st.imports.map (·.1)).Nodup)
    (hs : ∀ e ∈ st.imports, e.1 ∈ st.paths) :
    ((l.foldl (addImport cur) st).imports.map (·.1)).Nodup ∧ ∀ e ∈ (l.foldl (addImport cur) st).imports, e.1 ∈ (l.foldl (addImport cur) st).paths := by
  induction l generalizing st with
  | nil => exact ⟨h, hs⟩
  | cons p ps ih =>
    refine ih _ ?_ ?_
    all_goals
      unfold addImport
      split
      · assumption
      split
      · assumption
      split
      · assumption
    · rename_i hx
      rw [List.map_append, List.nodup_append]
      refine ⟨h, by simp, ?_⟩
      intro x hx' y hy e
      simp only [List.map_cons, List.map_nil, List.mem_singleton] at hy
      subst hy; subst e
      obtain ⟨e', he', hee⟩ := List.mem_map.mp hx'
      exact hx (hee ▸ hs e' he')
    · intro e he
      rcases List.mem_append.mp he with he | he
      · exact List.mem_cons_of_mem _ (hs e he)
      · rw [List.mem_singleton.mp he]; exact List.mem_cons_self ..

theorem C33_once (cur : Name) (ds : List Default) (pkgs : List Pkg) : ((imports cur ds pkgs).imports.map (·.1)).Nodup :=
  (fold_nodup cur pkgs _ (by simp) (by simp)).1

/-- What is known about the alias of an object. -/
theorem fold_aliases (cur : Name) (p : Pkg) (l : List Pkg) (hl : ∀ q ∈ l, q.id = p.id → q = p) (st : St)
    (h : ∀ a, st.aliases.lookup p.id = some a → (p.path, a) ∈ st.imports) :
    ∀ a, (l.foldl (addImport cur) st).aliases.lookup p.id = some a → (p.path, a) ∈ (l.foldl (addImport cur) st).imports := by
  induction l generalizing st with
  | nil => exact h
  | cons q qs ih =>
    refine ih (fun q' h' => hl q' (by simp [h'])) _ ?_
    unfold addImport
    split
    · exact h
    split
    · exact h
    split
    · exact h
    · intro a ha
      simp only [List.lookup_cons] at ha
      by_cases e : p.id == q.id
      · rw [e] at ha
        simp only [Option.some.injEq] at ha
        have : q = p := hl q (by simp) (by simpa using (beq_iff_eq.mp e).symm)
        subst this
        rw [ha]
        exact List.mem_append_right _ (List.mem_singleton.mpr rfl)
      · simp only [e] at ha
        exact List.mem_append_left _ (h a ha)

/-- An alias is recorded for an object whose path has not been imported before. -/
theorem lookup_mono (cur : Name) (k : Nat) (l : List Pkg) (st : St) (h : (st.aliases.lookup k).isSome = true) :
    ((l.foldl (addImport cur) st).aliases.lookup k).isSome = true := by
  induction l generalizing st with
  | nil => exact h
  | cons q qs ih =>
    refine ih _ ?_
    unfold addImport
    split
    · exact h
    split
    · exact h
    split
    · exact h
    · simp only [List.lookup_cons]
      by_cases e : k == q.id
      · rw [e]; rfl
      · simp only [e]; exact h

/-- The paths imported stem from packages of the list. -/
theorem fold_origin (cur : Name) (l : List Pkg) (st : St) (x : Name)
    (h : x ∈ (l.foldl (addImport cur) st).paths) : x ∈ st.paths ∨ ∃ q ∈ l, q.path = x := by
  induction l generalizing st with
  | nil => exact .inl h
  | cons q qs ih =>
    rcases ih _ h with h1 | ⟨q', h1, h2⟩
    · unfold addImport at h1
      split at h1
      · exact .inl h1
      split at h1
      · exact .inl h1
      split at h1
      · exact .inl h1
      · rcases List.mem_cons.mp h1 with rfl | h1
        · exact .inr ⟨q, by simp, rfl⟩
        · exact .inl h1
    · exact .inr ⟨q', by simp [h1], h2⟩

theorem first_split (p : Pkg) (l : List Pkg) (hp : p ∈ l) : ∃ pre post, l = pre ++ p :: post ∧ p ∉ pre := by
  induction l with
  | nil => cases hp
  | cons x xs ih =>
    by_cases e : x = p
    · exact ⟨[], xs, by rw [e]; rfl, by simp⟩
    · have hp' : p ∈ xs := by
        rcases List.mem_cons.mp hp with h' | h'
        · exact absurd h'.symm e
        · exact h'
      obtain ⟨pre, post, h1, h2⟩ := ih hp'
      exact ⟨x :: pre, post, by rw [h1]; rfl, by simp [h2, Ne.symm e]⟩

/-- C33 (partial: one proto file for each Go package): types refer to their package by the alias it is
imported with. -/
theorem C33_reference_partial (cur : Name) (ds : List Default) (pkgs : List Pkg) (p : Pkg) (hp : p ∈ pkgs) (hf : Foreign cur ds p)
    (hid : ∀ q ∈ pkgs, q.id = p.id → q = p) (hone : ∀ q ∈ pkgs, q.path = p.path → q = p) :
    (p.path, getAlias (imports cur ds pkgs) p) ∈ (imports cur ds pkgs).imports := by
  unfold Foreign at hf
  rw [← isGoogle_false] at hf
  have hsome : ((imports cur ds pkgs).aliases.lookup p.id).isSome = true := by
    obtain ⟨pre, post, rfl, hpre⟩ := first_split p pkgs hp
    unfold imports
    rw [List.foldl_append, List.foldl_cons]
    apply lookup_mono
    have horig := fold_origin cur pre ⟨ds.map (·.path), ds.map (·.alias), [], []⟩ p.path
    generalize pre.foldl (addImport cur) ⟨ds.map (·.path), ds.map (·.alias), [], []⟩ = st at horig
    unfold addImport
    simp only [hf.1, hf.2.1, if_false, Bool.false_eq_true]
    split
    · rename_i hx
      rcases horig hx with h1 | ⟨q, h1, h2⟩
      · exact absurd h1 hf.2.2
      · exact absurd (hone q (by simp [h1]) h2 ▸ h1) hpre
    · simp
  unfold getAlias
  cases hl : (imports cur ds pkgs).aliases.lookup p.id with
  | none => rw [hl] at hsome; cases hsome
  | some a => exact fold_aliases cur p pkgs hid _ (by simp) a hl

/-- The search for a suffix ends: there are more candidates than names. -/
theorem suffixed_free (names : List Name) (n : Name) (fuel k : Nat) (h : ∃ j, k ≤ j ∧ j < k + fuel ∧ n ++ digits j ∉ names) :
    suffixed names n fuel k ∉ names := by
  induction fuel generalizing k with
  | zero => obtain ⟨j, h1, h2, _⟩ := h; omega
  | succ fuel ih =>
    simp only [suffixed]
    split
    · rename_i hk
      refine ih (k + 1) ?_
      obtain ⟨j, h1, h2, h3⟩ := h
      refine ⟨j, ?_, by omega, h3⟩
      by_cases e : j = k
      · subst e; exact absurd hk h3
      · omega
    · assumption

theorem digits_inj {i j : Nat} (h : digits i = digits j) : i = j := by
  unfold digits at h
  have h1 : toString i = toString j := String.toList_injective h
  exact Nat.repr_injective h1

theorem suffix_found (names : List Name) (n : Name) : suffixed names n (names.length + 1) 1 ∉ names := by
  apply suffixed_free
  apply Classical.byContradiction
  intro hn
  have hall : ∀ j, 1 ≤ j → j < 1 + (names.length + 1) → n ++ digits j ∈ names := by
    intro j h1 h2
    apply Classical.byContradiction
    intro h3
    exact hn ⟨j, h1, h2, h3⟩
  have hnd : ((List.range' 1 (names.length + 1)).map (fun j => n ++ digits j)).Nodup := by
    rw [List.Nodup, List.pairwise_map]
    exact (List.nodup_range' (s := 1) (n := names.length + 1)).imp (fun hne e => hne (digits_inj (List.append_cancel_left e)))
  have hsub : (List.range' 1 (names.length + 1)).map (fun j => n ++ digits j) ⊆ names := by
    intro x hx
    obtain ⟨j, hj, rfl⟩ := List.mem_map.mp hx
    rw [List.mem_range'_1] at hj
    exact hall j hj.1 hj.2
  have := List.Nodup.length_le_of_subset hnd hsub
  simp at this
  omega

/-! ## Failures -/

theorem fold_only (cur : Name) (ds : List Default) (all l : List Pkg) (hl : ∀ p ∈ l, p ∈ all) (st : St) (hds : ∀ x ∈ ds.map (·.path), x ∈ st.paths)
    (h : ∀ i ∈ st.imports, ∃ p ∈ all, p.path = i.1 ∧ Foreign cur ds p) :
    ∀ i ∈ (l.foldl (addImport cur) st).imports, ∃ p ∈ all, p.path = i.1 ∧ Foreign cur ds p := by
  induction l generalizing st with
  | nil => exact h
  | cons q qs ih =>
    rw [List.foldl_cons]
    apply ih (fun x hx => hl x (List.mem_cons_of_mem _ hx))
    · intro x hx
      unfold addImport
      split
      · exact hds x hx
      split
      · exact hds x hx
      split
      · exact hds x hx
      · exact List.mem_cons_of_mem _ (hds x hx)
    · unfold addImport
      split
      · exact h
      split
      · exact h
      split
      · exact h
      · rename_i hg hc hp
        intro i hi
        rcases List.mem_append.mp hi with hi | hi
        · exact h i hi
        · rw [List.mem_singleton.mp hi]
          exact ⟨q, hl q (List.mem_cons_self ..), rfl, (isGoogle_false _).mp (by simpa using hg), hc, fun hm => hp (hds _ hm)⟩

/-- C33: nothing else is imported: neither the file's own package nor one of the runtime's again. -/
theorem C33_only (cur : Name) (ds : List Default) (pkgs : List Pkg) :
    ∀ i ∈ (imports cur ds pkgs).imports, ∃ p ∈ pkgs, p.path = i.1 ∧ Foreign cur ds p :=
  fold_only cur ds pkgs pkgs (fun _ h => h) _ (fun _ h => h) (by simp)

/-- C33 is false of the code for three packages with the same name: two get the same alias. -/
theorem C33_three_false :
    (imports "me".toList [] [⟨0, "a/foo".toList, "foo".toList⟩, ⟨1, "b/foo".toList, "foo".toList⟩, ⟨2, "c/foo".toList, "foo".toList⟩]).imports.map (·.2)
      = ["foo".toList, "foo1".toList, "foo1".toList] := by decide

/-- C33 is false of the code for names ending with a digit. -/
theorem C33_digit_false :
    (imports "me".toList [] [⟨0, "a/foo".toList, "foo".toList⟩, ⟨1, "b/foo".toList, "foo".toList⟩, ⟨2, "c/foo1".toList, "foo1".toList⟩]).imports.map (·.2)
      = ["foo".toList, "foo1".toList, "foo1".toList] := by decide

/-- C33 is false of the code for packages named like an import of the runtime without alias. -/
theorem C33_runtime_false :
    let ds := [⟨"go.opentelemetry.io/otel/trace".toList, [], "trace".toList⟩]
    ds.map Default.ident ++ (imports "me".toList ds [⟨0, "a/trace".toList, "trace".toList⟩]).imports.map (·.2) = ["trace".toList, "trace".toList] := by decide

/-- C33 is false of the code for Go packages with two proto files: the types of the second refer to another
package. -/
theorem C33_reference_false :
    let st := imports "me".toList [] [⟨0, "a/foo".toList, "foo".toList⟩, ⟨1, "b/foo".toList, "foo".toList⟩, ⟨2, "b/foo".toList, "foo".toList⟩]
    getAlias st ⟨2, "b/foo".toList, "foo".toList⟩ = "foo".toList ∧ st.imports = [("a/foo".toList, "foo".toList), ("b/foo".toList, "foo1".toList)] := by
  decide

/-- Which of both files' types do depends on the order of a Go map: the same input gives different code. -/
theorem C33_order_false :
    let p0 : Pkg := ⟨0, "a/foo".toList, "foo".toList⟩
    let p1 : Pkg := ⟨1, "b/foo".toList, "foo".toList⟩
    let p2 : Pkg := ⟨2, "b/foo".toList, "foo".toList⟩
    getAlias (imports "me".toList [] [p0, p1, p2]) p1 = "foo1".toList ∧ getAlias (imports "me".toList [] [p0, p2, p1]) p1 = "foo".toList := by
  decide

/-- Two packages of the same name and others meet the hypotheses. -/
example :
    let ds : List Default := [⟨"fed".toList, "grpcfed".toList, "federation".toList⟩]
    let pkgs : List Pkg := [⟨0, "a/post".toList, "post".toList⟩, ⟨1, "b/post".toList, "post".toList⟩, ⟨2, "c/user".toList, "user".toList⟩]
    (imports "me".toList ds pkgs).imports = [("a/post".toList, "post".toList), ("b/post".toList, "post1".toList), ("c/user".toList, "user".toList)] ∧
    (∀ p ∈ pkgs, Plain ds ["context".toList] p.name) ∧ (∀ p ∈ pkgs, Foreign "me".toList ds p) := by
  refine ⟨by decide, ?_, ?_⟩
  · simp only [Plain]; decide
  · simp only [Foreign]; decide

end Verif.Imports
