import Verif.AllGraph.Spec
import Verif.Graph.CycleLemmas

/-! # C10: cyclic message dependencies -/

namespace Verif.AllGraph

open Verif.Graph (Walk CycleFrom)

theorem hasNode_iff {msgs : List Msg} {m : Nat} :
    hasNode msgs m = true ↔ ∃ defs, msgs[m]? = some (some defs) := by
  unfold hasNode
  split
  · rename_i defs h; simp [h]
  · rename_i h
    refine ⟨fun h => (by cases h), fun ⟨d, hd⟩ => absurd hd (h d)⟩

mutual
theorem mem_addDef {msgs : List Msg} {b : Nat} : ∀ (d : MDef) (acc : List Nat),
    b ∈ addDef msgs d acc ↔ b ∈ acc ∨ (Mentions d b ∧ hasNode msgs b = true)
  | .message m, acc => by
    have : Mentions (.message m) b ↔ b = m := ⟨fun h => (by cases h; rfl), fun h => h ▸ .message _⟩
    rw [this]; unfold addDef
    split
    · constructor
      · exact Or.inl
      · rintro (h | ⟨rfl, _⟩) <;> assumption
    · split
      · rename_i h; simp only [List.mem_append, List.mem_singleton]
        exact or_congr Iff.rfl ⟨fun e => ⟨e, e ▸ h⟩, fun e => e.1⟩
      · rename_i h
        exact ⟨Or.inl, fun h' => h'.elim id fun ⟨e, h2⟩ => absurd (e ▸ h2) h⟩
  | .map m, acc => by
    have : Mentions (.map m) b ↔ b = m := ⟨fun h => (by cases h; rfl), fun h => h ▸ .map _⟩
    rw [this]; unfold addDef
    split
    · constructor
      · exact Or.inl
      · rintro (h | ⟨rfl, _⟩) <;> assumption
    · split
      · rename_i h; simp only [List.mem_append, List.mem_singleton]
        exact or_congr Iff.rfl ⟨fun e => ⟨e, e ▸ h⟩, fun e => e.1⟩
      · rename_i h
        exact ⟨Or.inl, fun h' => h'.elim id fun ⟨e, h2⟩ => absurd (e ▸ h2) h⟩
  | .nested ds, acc => by
    unfold addDef
    rw [mem_addDefs ds acc]
    refine or_congr Iff.rfl ⟨fun ⟨⟨d, h1, h2⟩, h3⟩ => ⟨.nested h1 h2, h3⟩, fun ⟨h1, h2⟩ => ?_⟩
    cases h1 with
    | nested h3 h4 => exact ⟨⟨_, h3, h4⟩, h2⟩
  | .other, acc => by
    unfold addDef
    exact ⟨Or.inl, fun h => h.elim id fun h => (by cases h.1)⟩
theorem mem_addDefs {msgs : List Msg} {b : Nat} : ∀ (ds : List MDef) (acc : List Nat),
    b ∈ addDefs msgs ds acc ↔ b ∈ acc ∨ ((∃ d ∈ ds, Mentions d b) ∧ hasNode msgs b = true)
  | [], acc => by simp [addDefs]
  | d :: ds, acc => by
    unfold addDefs
    rw [mem_addDefs ds, mem_addDef d acc]
    simp only [List.mem_cons, exists_eq_or_imp]
    constructor
    · rintro ((h | h) | h)
      · exact Or.inl h
      · exact Or.inr ⟨Or.inl h.1, h.2⟩
      · exact Or.inr ⟨Or.inr h.1, h.2⟩
    · rintro (h | ⟨h | h, h'⟩)
      · exact Or.inl (Or.inl h)
      · exact Or.inl (Or.inr ⟨h, h'⟩)
      · exact Or.inr ⟨h, h'⟩
end

/-- C10, edges: the graph has an edge from `a` to `b` exactly when `a` depends on `b`. -/
theorem C10_edges_exact (msgs : List Msg) (a b : Nat) :
    b ∈ children msgs a ↔ Depends msgs a b := by
  unfold children Depends
  split
  · rename_i defs h
    rw [mem_addDefs, hasNode_iff]
    simp [h]
  · rename_i h
    constructor
    · intro h'; cases h'
    · rintro ⟨⟨defs, h1, _⟩, _⟩; exact absurd h1 (h defs)

theorem depends_lt {msgs : List Msg} {a b : Nat} (h : Depends msgs a b) :
    a < msgs.length ∧ b < msgs.length := by
  obtain ⟨⟨_, h1, _⟩, _, h2⟩ := h
  exact ⟨(List.getElem?_eq_some_iff.mp h1).1, (List.getElem?_eq_some_iff.mp h2).1⟩

theorem mem_roots {msgs : List Msg} {r : Nat} : r ∈ roots msgs ↔ IsRoot msgs r := by
  unfold roots IsRoot parents
  simp only [List.mem_filter, List.mem_range, Bool.and_eq_true, hasNode_iff, List.isEmpty_iff,
    List.filter_eq_nil_iff, decide_eq_true_eq, C10_edges_exact]
  constructor
  · rintro ⟨_, h1, h2⟩
    exact ⟨h1, fun a h => h2 a (depends_lt h).1 h⟩
  · rintro ⟨⟨d, h1⟩, h2⟩
    exact ⟨(List.getElem?_eq_some_iff.mp h1).1, ⟨d, h1⟩, fun a _ => h2 a⟩

theorem walk_iff {msgs : List Msg} {a b : Nat} : Walk (children msgs) a b ↔ DependsT msgs a b := by
  constructor
  · intro h
    induction h with
    | edge h => exact .one ((C10_edges_exact msgs _ _).mp h)
    | cons h _ ih => exact .more ((C10_edges_exact msgs _ _).mp h) ih
  · intro h
    induction h with
    | one h => exact .edge ((C10_edges_exact msgs _ _).mpr h)
    | more h _ ih => exact .cons ((C10_edges_exact msgs _ _).mpr h) ih

/-- The check always terminates with a verdict. -/
theorem C10_terminates (msgs : List Msg) : create msgs ≠ none := by
  unfold create
  split
  · simp
  · have := Graph.cyclicRoots_total (ch := children msgs) (N := msgs.length)
      (fun a b h => (depends_lt ((C10_edges_exact msgs a b).mp h)).2) (rs := roots msgs)
      (fun r hr => by
        obtain ⟨⟨d, h1⟩, _⟩ := mem_roots.mp hr
        exact (List.getElem?_eq_some_iff.mp h1).1)
    split <;> simp_all

/-- C10, the exact condition: a cyclic dependency error is reported if and only if some message that
no message depends on reaches, by dependencies, a message that depends on itself. -/
theorem C10_rejected_iff (msgs : List Msg) :
    create msgs = some .cyclic ↔
      ∃ r, IsRoot msgs r ∧ ∃ x, (x = r ∨ DependsT msgs r x) ∧ DependsT msgs x x := by
  have hcyc : ∀ r, CycleFrom (children msgs) r ↔ ∃ x, (x = r ∨ DependsT msgs r x) ∧ DependsT msgs x x := by
    intro r; unfold CycleFrom; simp only [walk_iff]
  constructor
  · intro h
    unfold create at h
    split at h
    · cases h
    · split at h
      · cases h
      · rename_i hc
        obtain ⟨r, h1, h2⟩ := Graph.cyclicRoots_true hc
        exact ⟨r, mem_roots.mp h1, (hcyc r).mp h2⟩
      · cases h
  · rintro ⟨r, hr, hx⟩
    have hr' := mem_roots.mpr hr
    have hne : (roots msgs).isEmpty = false := by
      cases hl : roots msgs with
      | nil => rw [hl] at hr'; cases hr'
      | cons a as => rfl
    have ht := C10_terminates msgs
    unfold create at ht ⊢
    simp only [hne, Bool.false_eq_true, if_false] at ht ⊢
    split
    · rename_i h; simp [h] at ht
    · rfl
    · rename_i h
      exact absurd ((hcyc r).mpr hx) (Graph.cyclicRoots_false h r hr')

/-- C10, first half: messages without a cyclic dependency are never rejected as cyclic. -/
theorem C10_acyclic_accepted (msgs : List Msg) (h : ∀ x, ¬ DependsT msgs x x) :
    create msgs ≠ some .cyclic := by
  intro hc
  obtain ⟨_, _, x, _, hx⟩ := (C10_rejected_iff msgs).mp hc
  exact h x hx

/-- C10, second half (partial: only cycles that a root message reaches; the full claim drops the
root). -/
theorem C10_cycle_rejected_partial (msgs : List Msg) (r x : Nat) (hr : IsRoot msgs r)
    (hrx : DependsT msgs r x) (hx : DependsT msgs x x) : create msgs = some .cyclic :=
  (C10_rejected_iff msgs).mpr ⟨r, hr, x, Or.inr hrx, hx⟩

/-- An accepted graph in which every message is below some root has no cycle at all. -/
theorem C10_accepted_acyclic_partial (msgs : List Msg) (rs : List Nat)
    (h : create msgs = some (.graph rs))
    (hall : ∀ x, x < msgs.length → ∃ r, IsRoot msgs r ∧ (x = r ∨ DependsT msgs r x)) (x : Nat) :
    ¬ DependsT msgs x x := by
  intro hx
  have hlt : x < msgs.length := by
    cases hx with
    | one h => exact (depends_lt h).1
    | more h _ => exact (depends_lt h).1
  obtain ⟨r, hr, hrx⟩ := hall x hlt
  have := (C10_rejected_iff msgs).mpr ⟨r, hr, x, hrx, hx⟩
  rw [h] at this
  cases this

/-- A root, a chain below it and a cycle at the end, one edge of it inside a nested error entry:
rejected. -/
example : create [some [.message 1], some [.other, .map 2], some [.nested [.other, .nested [.message 1]]]]
    = some .cyclic := by rfl

/-- A diamond: accepted, and it meets the hypothesis of `C10_acyclic_accepted`. -/
example : create [some [.message 1, .message 2], some [.message 3], some [.map 3], some []]
    = some (.graph [0]) := by rfl

/-- C10 is false: two messages that depend on each other and on which nothing else depends are not
rejected, with or without unrelated messages beside them. -/
theorem C10_rootless_cycle_false :
    (∃ msgs, DependsT msgs 0 0 ∧ create msgs = some .noGraph) ∧
    (∃ msgs, DependsT msgs 0 0 ∧ create msgs = some (.graph [2])) := by
  refine ⟨⟨[some [.message 1], some [.message 0]], ?_, rfl⟩,
    ⟨[some [.message 1], some [.message 0], some []], ?_, rfl⟩⟩
  all_goals
    exact .more (b := 1) ((C10_edges_exact _ _ _).mp (by decide)) (.one ((C10_edges_exact _ _ _).mp (by decide)))

/-- C10 is false already for one message that uses itself. -/
theorem C10_self_dependency_false :
    ∃ msgs, Depends msgs 0 0 ∧ create msgs = some .noGraph :=
  ⟨[some [.message 0]], (C10_edges_exact _ _ _).mp (by decide), rfl⟩

end Verif.AllGraph
