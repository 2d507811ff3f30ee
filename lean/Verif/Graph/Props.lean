import Verif.Graph.GroupLemmas

/-!
# Properties of the dependency graph and of the evaluation plan (C03 static part, C06, C07, C08)
-/

namespace Verif.Graph

/-! ## C06 -/

/-- C06. The `Children` slice of definition `a` contains definition `b` exactly when `b` has to wait
for `a` in the declarative sense of `DependsOn` (reference by name or earlier validation). -/
theorem C06_edges_exact (defs : List Def) (a b : Nat) :
    b ∈ (build defs).ch a ↔ DependsOn defs b a := mem_build defs a b

/-- C06. The same for the `Parent` slices, which the groups are built from. -/
theorem C06_parents_exact (defs : List Def) (a b : Nat) :
    a ∈ (build defs).pa b ↔ DependsOn defs b a := mem_build_pa defs a b

/-- C06. No edge is recorded twice. -/
theorem C06_no_duplicate_edges (defs : List Def) (a : Nat) :
    ((build defs).ch a).Nodup ∧ ((build defs).pa a).Nodup :=
  ⟨(ok_build defs).ndch a, (ok_build defs).ndpa a⟩

/-- Sample: `a`, a validation, `b` referring to `a` and to its own iterator `x`, then `a` again. -/
def sampleDefs : List Def :=
  [⟨"a", [], "", false⟩, ⟨"v", ["a"], "", true⟩, ⟨"b", ["a", "x"], "x", false⟩, ⟨"c", ["b"], "", false⟩]

example : (build sampleDefs).ch 0 = [1, 2] ∧ (build sampleDefs).ch 1 = [2, 3] ∧
    (build sampleDefs).pa 3 = [2, 1] := by decide

/-! ## C03 (static part) and structure of the plan -/

/-- The plan exists, every definition occurs in it, nothing else occurs in it, and in every group
each definition comes directly after exactly the definitions it depends on. -/
theorem C03_plan_complete (defs : List Def) (hs : NoSelfRef defs) (hne : defs ≠ []) :
    ∃ gs, setup defs = .groups gs ∧
      (∀ i, i < defs.length ↔ ∃ G ∈ gs, i ∈ G.defs) ∧
      (∀ G ∈ gs, G.Follows (DependsOn defs)) := by
  obtain ⟨gs, h1, h2, h3, h4⟩ := setup_spec hs hne id (by simp)
  exact ⟨gs, h1, fun i => ⟨h3 i, fun ⟨G, hG, hi⟩ => h4 G hG i hi⟩, h2⟩

/-- A list without definitions gives no plan and no error. -/
theorem plan_empty : setup [] = .nothing := rfl

example : NoSelfRef sampleDefs ∧ sampleDefs ≠ [] := by decide

/-! ## C07 -/

theorem string_lt_trichotomy (a b : String) (h : a ≠ b) : a < b ∨ b < a := by
  by_cases h1 : a < b
  · exact Or.inl h1
  · right
    by_cases h2 : b < a
    · exact h2
    · exact absurd (String.le_antisymm (String.not_lt.mp h2) (String.not_lt.mp h1)) h

theorem insertBy_sorted {key : Nat → String} {x : Nat} {l : List Nat}
    (h : l.Pairwise (fun a b => key a < key b)) (hx : ∀ y ∈ l, key x ≠ key y) :
    (insertBy key x l).Pairwise (fun a b => key a < key b) := by
  induction l with
  | nil => simp [insertBy]
  | cons y ys ih =>
    rw [List.pairwise_cons] at h
    unfold insertBy
    split
    · rename_i hlt
      rw [List.pairwise_cons, List.pairwise_cons]
      refine ⟨?_, h⟩
      intro z hz
      rcases List.mem_cons.mp hz with rfl | hz
      · exact hlt
      · exact String.lt_trans hlt (h.1 z hz)
    · rename_i hlt
      have hyx : key y < key x := by
        rcases string_lt_trichotomy (key x) (key y) (hx y (by simp)) with h' | h'
        · exact absurd h' hlt
        · exact h'
      rw [List.pairwise_cons]
      refine ⟨?_, ih h.2 fun z hz => hx z (by simp [hz])⟩
      intro z hz
      rcases mem_insertBy.mp hz with rfl | hz
      · exact hyx
      · exact h.1 z hz

theorem insertBy_perm {key : Nat → String} {x : Nat} {l : List Nat} :
    (insertBy key x l).Perm (x :: l) := by
  induction l with
  | nil => simp [insertBy]
  | cons y ys ih =>
    unfold insertBy
    split
    · exact List.Perm.refl _
    · exact (ih.cons y).trans (List.Perm.swap x y ys)

theorem sortBy_perm {key : Nat → String} {l : List Nat} : (sortBy key l).Perm l := by
  induction l with
  | nil => simp [sortBy]
  | cons y ys ih => exact insertBy_perm.trans (ih.cons y)

theorem sortBy_sorted {key : Nat → String} {l : List Nat}
    (h : l.Pairwise (fun a b => key a ≠ key b)) :
    (sortBy key l).Pairwise (fun a b => key a < key b) := by
  induction l with
  | nil => simp [sortBy]
  | cons y ys ih =>
    rw [List.pairwise_cons] at h
    exact insertBy_sorted (ih h.2) fun z hz => h.1 z (mem_sortBy.mp hz)

theorem sorted_eq {key : Nat → String} {l₁ l₂ : List Nat} (hp : l₁.Perm l₂)
    (h₁ : l₁.Pairwise (fun a b => key a < key b)) (h₂ : l₂.Pairwise (fun a b => key a < key b)) :
    l₁ = l₂ := by
  induction l₁ generalizing l₂ with
  | nil => exact hp.nil_eq
  | cons x xs ih =>
    cases l₂ with
    | nil => exact hp.eq_nil
    | cons y ys =>
      rw [List.pairwise_cons] at h₁ h₂
      have hxy : x = y := by
        have hx : x ∈ y :: ys := hp.subset (by simp)
        have hy : y ∈ x :: xs := hp.symm.subset (by simp)
        rcases List.mem_cons.mp hx with h | hx
        · exact h
        · rcases List.mem_cons.mp hy with h | hy
          · exact h.symm
          · exact absurd (String.lt_trans (h₂.1 x hx) (h₁.1 y hy)) (String.lt_irrefl _)
      subst hxy
      rw [ih (List.Perm.cons_inv hp) h₁.2 h₂.2]

/-- `sort.Slice` may return any ordered rearrangement of its argument. With pairwise distinct keys
there is only one, the one `sortBy` computes. -/
theorem sorted_unique {key : Nat → String} {l r : List Nat}
    (hd : l.Pairwise (fun a b => key a ≠ key b)) (hp : r.Perm l)
    (hr : r.Pairwise (fun a b => ¬ key b < key a)) : r = sortBy key l := by
  have hr' : r.Pairwise (fun a b => key a < key b) := by
    have hd' : r.Pairwise (fun a b => key a ≠ key b) :=
      (hp.pairwise_iff (fun h => Ne.symm h)).mpr hd
    exact (hr.and hd').imp fun {a b} ⟨h1, h2⟩ => by
      rcases string_lt_trichotomy _ _ h2 with h | h
      · exact h
      · exact absurd h h1
  exact sorted_eq (hp.trans sortBy_perm.symm) hr' (sortBy_sorted hd)

theorem keys_distinct {defs : List Def} (hd : DistinctNames defs) {l : List Nat} (hn : l.Nodup)
    (hl : ∀ x ∈ l, x < defs.length) : l.Pairwise (fun a b => keyOf defs a ≠ keyOf defs b) := by
  refine List.Pairwise.imp_of_mem ?_ hn
  intro a b ha hb hab
  have h1 := hl a ha
  have h2 := hl b hb
  simp only [keyOf, List.getElem?_eq_getElem h1, List.getElem?_eq_getElem h2]
  intro he
  apply hab
  have hp := List.pairwise_iff_getElem.mp hd
  rcases Nat.lt_trichotomy a b with h | h | h
  · have := hp a b (by simpa using h1) (by simpa using h2) h
    rw [List.getElem_map, List.getElem_map] at this
    exact absurd he this
  · exact h
  · have := hp b a (by simpa using h2) (by simpa using h1) h
    rw [List.getElem_map, List.getElem_map] at this
    exact absurd he.symm this

theorem leaves_lt {ch : Nat → List Nat} {N fuel ns ls} (hN : ∀ a b, b ∈ ch a → b < N)
    (hns : ∀ n ∈ ns, n < N) (h : leaves ch fuel ns = some ls) : ∀ x ∈ ls, x < N := by
  intro x hx
  obtain ⟨_, n, hn, (rfl | hw)⟩ := leaves_sound h hx
  · exact hns _ hn
  · have : ∀ a b, Walk ch a b → b < N := by
      intro a b h
      induction h with
      | edge h => exact hN _ _ h
      | cons _ _ ih => exact ih
    exact this _ _ hw

/-- C07. Whatever order the Go map of leaves is iterated in (`perm` rearranges the list of leaves
arbitrarily), the outcome is the same. Together with `sorted_unique` this also covers the
unstable `sort.Slice`. -/
theorem C07_grouping_deterministic (defs : List Def) (hd : DistinctNames defs) (fuel : Nat)
    (perm : List Nat → List Nat) (hperm : ∀ l, (perm l).Perm l) :
    setupWith perm fuel defs = setupWith id fuel defs := by
  unfold setupWith
  dsimp only
  cases h : leaves (build defs).ch fuel (roots defs (build defs)) with
  | none => rfl
  | some ls =>
    have hlt : ∀ x ∈ dedup ls, x < defs.length := by
      intro x hx
      rw [mem_dedup] at hx
      exact leaves_lt (fun a b h => dependsOn_lt ((mem_build defs a b).mp h))
        (fun n hn => (mem_roots.mp hn).1) h x hx
    have hk := keys_distinct hd (nodup_dedup ls) hlt
    have : sortBy (keyOf defs) (perm (dedup ls)) = sortBy (keyOf defs) (dedup ls) := by
      refine sorted_eq ((sortBy_perm.trans (hperm _)).trans sortBy_perm.symm) ?_ (sortBy_sorted hk)
      exact sortBy_sorted (((hperm _).pairwise_iff (fun h => Ne.symm h)).mpr hk)
    simp only [this, id]

/-- With equal names the plan does depend on the map order, so the hypothesis is needed. -/
theorem C07_needs_distinct_names :
    ∃ defs perm, (∀ l : List Nat, (perm l).Perm l) ∧ ¬ DistinctNames defs ∧
      setupWith perm 3 defs ≠ setupWith id 3 defs := by
  refine ⟨[⟨"a", [], "", false⟩, ⟨"a", [], "", false⟩], List.reverse, List.reverse_perm, by decide, ?_⟩
  intro h
  have : setupWith List.reverse 3 [⟨"a", [], "", false⟩, ⟨"a", [], "", false⟩] =
    .groups [.seq0 0, .seq0 1] := by rfl
  rw [this] at h
  have : setupWith id 3 [⟨"a", [], "", false⟩, ⟨"a", [], "", false⟩] =
    .groups [.seq0 1, .seq0 0] := by rfl
  rw [this] at h
  simp at h

example : DistinctNames sampleDefs := by decide

/-! ## C08 -/

/-- Definition `b` references its own name. -/
def SelfReferencing (defs : List Def) (b : Nat) : Prop := RefersTo defs b b

/-- C08 is false: a definition referencing its own name can be silently dropped. -/
theorem C08_self_reference_dropped :
    ∃ defs, SelfReferencing defs 0 ∧ setup defs = .nothing := by
  refine ⟨[⟨"x", ["x"], "", false⟩], ?_, rfl⟩
  refine ⟨_, _, rfl, rfl, by omega, by decide, by decide, by decide, ?_⟩
  intro c dc h1 h2; omega

/-- Witness for the endless recursion: `a` references itself, `c` is a root, `d` uses both. -/
def overflowDefs : List Def :=
  [⟨"a", ["a"], "", false⟩, ⟨"c", [], "", false⟩, ⟨"d", ["a", "c"], "", false⟩]

theorem overflow_mkGroup (fuel : Nat) :
    mkGroup (keyOf overflowDefs) (build overflowDefs).pa fuel 0 = none := by
  induction fuel with
  | zero => rfl
  | succ fuel ih =>
    have : (build overflowDefs).pa 0 = [0] := by decide
    simp [mkGroup, this, ih]

theorem overflow_mkGroup' (fuel : Nat) :
    mkGroup (keyOf overflowDefs) (build overflowDefs).pa fuel 2 = none := by
  cases fuel with
  | zero => rfl
  | succ fuel =>
    have h : (build overflowDefs).pa 2 = [0, 1] := by decide
    have hs : sortBy (keyOf overflowDefs) [0, 1] = [0, 1] := by decide
    simp [mkGroup, h, hs, collect, overflow_mkGroup]

/-- C08 is false in a second way: the graph check passes and building the plan then recurses
without bound, whatever recursion depth is available. -/
theorem C08_self_reference_overflow :
    ∃ defs, SelfReferencing defs 0 ∧ ∀ fuel, setupWith id fuel defs = .overflow := by
  refine ⟨overflowDefs, ?_, ?_⟩
  · refine ⟨_, _, rfl, rfl, by omega, by decide, by decide, by decide, ?_⟩
    intro c dc h1 h2; omega
  · intro fuel
    have hr : roots overflowDefs (build overflowDefs) = [1] := by decide
    have hc1 : (build overflowDefs).ch 1 = [2] := by decide
    have hc2 : (build overflowDefs).ch 2 = [] := by decide
    have hso : sortBy (keyOf overflowDefs) (dedup [2]) = [2] := by decide
    match fuel with
    | 0 => rfl
    | 1 => rfl
    | fuel + 2 =>
      simp [setupWith, hr, cyclicRoots, cyclic, firstTrue, hc1, hc2, leaves, concatSome, hso, mkGroups, collect,
        overflow_mkGroup']

theorem walk_le {defs : List Def} {a b} (h : Walk (build defs).ch a b) : a ≤ b := by
  induction h with
  | edge h => exact dependsOn_le ((mem_build defs _ _).mp h)
  | cons h _ ih =>
    have := dependsOn_le ((mem_build defs _ _).mp h)
    omega

theorem walk_loop {defs : List Def} {x} (h : Walk (build defs).ch x x) : x ∈ (build defs).ch x := by
  cases h with
  | edge h => exact h
  | @cons _ b _ h hw =>
    have h1 := dependsOn_le ((mem_build defs _ _).mp h)
    have h2 := walk_le hw
    have : b = x := by omega
    subst this
    exact h

/-- `b` can be reached from `a` by following "has to wait for" backwards (zero or more steps). -/
inductive WaitsFor (defs : List Def) : Nat → Nat → Prop where
  | refl (a) : WaitsFor defs a a
  | step {a b c} : WaitsFor defs b a → DependsOn defs c b → WaitsFor defs c a

theorem waitsFor_iff {defs : List Def} {a b : Nat} :
    WaitsFor defs b a ↔ (b = a ∨ Walk (build defs).ch a b) := by
  constructor
  · intro h
    induction h with
    | refl => exact Or.inl rfl
    | step _ h ih =>
      right
      have := (mem_build defs _ _).mpr h
      rcases ih with rfl | hw
      · exact .edge this
      · exact hw.snoc this
  · rintro (rfl | hw)
    · exact .refl _
    · have : ∀ a b, Walk (build defs).ch a b → ∀ c, WaitsFor defs a c → WaitsFor defs b c := by
        intro a b h
        induction h with
        | edge h => intro c hc; exact hc.step ((mem_build defs _ _).mp h)
        | cons h _ ih => intro c hc; exact ih c (hc.step ((mem_build defs _ _).mp h))
      exact this a b hw a (.refl _)

/-- C08, the part that holds. An error is reported exactly when some self-referencing definition
waits (transitively) for some definition that itself waits for nothing.
Missing: the self-referencing definitions that wait for no such definition, see
`C08_self_reference_dropped` and `C08_self_reference_overflow`. -/
theorem C08_self_reference_reported_partial (defs : List Def) :
    setup defs = .error ↔
      ∃ x r, SelfReferencing defs x ∧ WaitsFor defs x r ∧ r < defs.length ∧ ∀ a, ¬ DependsOn defs r a := by
  have hN : ∀ a b, b ∈ (build defs).ch a → b < defs.length := fun a b h =>
    dependsOn_lt ((mem_build defs a b).mp h)
  have hroot : ∀ r, r ∈ roots defs (build defs) ↔ r < defs.length ∧ ∀ a, ¬ DependsOn defs r a := by
    intro r
    rw [mem_roots]
    refine and_congr_right fun _ => ?_
    rw [List.eq_nil_iff_forall_not_mem]
    exact forall_congr' fun a => not_congr (mem_build_pa defs a r)
  have hself : ∀ x, Walk (build defs).ch x x ↔ SelfReferencing defs x := by
    intro x
    constructor
    · intro h
      rcases (mem_build defs x x).mp (walk_loop h) with h | h
      · exact h
      · exact absurd h.1 (by omega)
    · intro h
      exact .edge ((mem_build defs x x).mpr (Or.inl h))
  have hcyc : (∃ r ∈ roots defs (build defs), CycleFrom (build defs).ch r) ↔
      ∃ x r, SelfReferencing defs x ∧ WaitsFor defs x r ∧ r < defs.length ∧
        ∀ a, ¬ DependsOn defs r a := by
    constructor
    · rintro ⟨r, hr, x, hx, hw⟩
      exact ⟨x, r, (hself x).mp hw, waitsFor_iff.mpr hx, (hroot r).mp hr⟩
    · rintro ⟨x, r, h1, h2, h3⟩
      exact ⟨r, (hroot r).mpr h3, x, waitsFor_iff.mp h2, (hself x).mpr h1⟩
  rw [← hcyc]
  have htot := cyclicRoots_total (ch := (build defs).ch) hN
    (rs := roots defs (build defs)) (fun r hr => (mem_roots.mp hr).1)
  unfold setup setupWith
  dsimp only
  split
  · rename_i he
    have : roots defs (build defs) = [] := by simpa using he
    simp [this]
  · split
    · rename_i h; exact absurd h htot
    · rename_i h
      simp only [true_iff]
      exact cyclicRoots_true h
    · rename_i h
      have := cyclicRoots_false h
      constructor
      · intro h'
        exfalso
        split at h'
        · cases h'
        · split at h' <;> cases h'
      · rintro ⟨r, hr, hc⟩
        exact absurd hc (this r hr)

/-- The right-hand side is met by a root followed by a self-referencing definition that uses it. -/
example : setup [⟨"c", [], "", false⟩, ⟨"a", ["a", "c"], "", false⟩] = .error := rfl

/-- No plan and no error is possible only without any definition that waits for nothing. -/
theorem C08_nothing_iff (defs : List Def) :
    setup defs = .nothing ↔ ∀ i, i < defs.length → ∃ a, DependsOn defs i a := by
  have hroot : roots defs (build defs) = [] ↔ ∀ i, i < defs.length → ∃ a, DependsOn defs i a := by
    rw [List.eq_nil_iff_forall_not_mem]
    refine forall_congr' fun i => ?_
    rw [mem_roots, not_and]
    refine forall_congr' fun _ => ?_
    constructor
    · intro h
      cases hp : (build defs).pa i with
      | nil => exact absurd hp h
      | cons a as => exact ⟨a, (mem_build_pa defs a i).mp (by simp [hp])⟩
    · rintro ⟨a, ha⟩ h
      have := (mem_build_pa defs a i).mpr ha
      rw [h] at this; cases this
  rw [← hroot]
  unfold setup setupWith
  dsimp only
  split
  · rename_i he
    have : roots defs (build defs) = [] := by simpa using he
    simp [this]
  · rename_i he
    have hne : roots defs (build defs) ≠ [] := by simpa using he
    constructor
    · intro h
      exfalso
      split at h
      · cases h
      · cases h
      · split at h
        · cases h
        · split at h <;> cases h
    · intro h; exact absurd h hne

end Verif.Graph
