import Verif.Args.Model

/-! # C40: message argument consistency -/

namespace Verif.Args

/-- The site supplies the argument `n` with type `t`. -/
def Supplies {Ty} (s : Site Ty) (n : Name) (t : Ty) : Prop :=
  .named n t ∈ s ∨ ∃ fs, .inline (some fs) ∈ s ∧ (n, t) ∈ fs

theorem siteNames_iff {Ty} (s : Site Ty) (n : Name) : n ∈ siteNames s ↔ ∃ t, Supplies s n t := by
  simp only [siteNames, List.mem_flatMap, Supplies]
  constructor
  · rintro ⟨a, ha, h⟩
    cases a with
    | named m t => simp at h; subst h; exact ⟨t, Or.inl ha⟩
    | inline o =>
      cases o with
      | none => simp at h
      | some fs =>
        simp only [List.mem_map] at h
        obtain ⟨f, hf, rfl⟩ := h
        exact ⟨f.2, Or.inr ⟨fs, ha, hf⟩⟩
  · rintro ⟨t, h | ⟨fs, h, hf⟩⟩
    · exact ⟨_, h, by simp⟩
    · exact ⟨_, h, by simp only [List.mem_map]; exact ⟨_, hf, rfl⟩⟩

theorem lookup_append {Ty} (fs gs : Fields Ty) (n : Name) (t : Ty) (h : lookup fs n = some t) :
    lookup (fs ++ gs) n = some t := by
  unfold lookup at *
  rw [List.find?_append]
  cases hf : fs.find? (fun f => f.1 == n) with
  | none => rw [hf] at h; cases h
  | some _ => rw [hf] at h; simpa using h

theorem lookup_new {Ty} (fs : Fields Ty) (n : Name) (t : Ty) (h : lookup fs n = none) :
    lookup (fs ++ [(n, t)]) n = some t := by
  unfold lookup at *
  rw [List.find?_append]
  cases hf : fs.find? (fun f => f.1 == n) with
  | none => simp
  | some _ => rw [hf] at h; cases h

/-- The first registered type agrees with `t`. -/
def Agrees {Ty} (diff : Ty → Ty → Bool) (fs : Fields Ty) (n : Name) (t : Ty) : Prop :=
  ∃ t0, lookup fs n = some t0 ∧ (t0 = t ∨ diff t0 t = false)

theorem agrees_append {Ty} (diff : Ty → Ty → Bool) (fs gs : Fields Ty) (n : Name) (t : Ty) (h : Agrees diff fs n t) :
    Agrees diff (fs ++ gs) n t := by
  obtain ⟨t0, h1, h2⟩ := h
  exact ⟨t0, lookup_append fs gs n t0 h1, h2⟩

theorem addField_spec {Ty} (diff : Ty → Ty → Bool) (fs : Fields Ty) (n : Name) (t : Ty) :
    (∃ gs, (addField diff fs n t).1 = fs ++ gs ∧ ∀ g ∈ gs, g = (n, t)) ∧
    ((addField diff fs n t).2 = [] → Agrees diff (addField diff fs n t).1 n t) := by
  unfold addField
  cases h : lookup fs n with
  | some t0 =>
    refine ⟨⟨[], by simp⟩, ?_⟩
    intro he
    refine ⟨t0, h, ?_⟩
    cases hd : diff t0 t with
    | false => exact Or.inr rfl
    | true => simp [hd] at he
  | none => exact ⟨⟨_, rfl, by simp⟩, fun _ => ⟨t, lookup_new fs n t h, Or.inl rfl⟩⟩

theorem addFields_spec {Ty} (diff : Ty → Ty → Bool) (l : List (Name × Ty)) (fs : Fields Ty) :
    (∃ gs, (addFields diff fs l).1 = fs ++ gs ∧ ∀ g ∈ gs, g ∈ l) ∧
    ((addFields diff fs l).2 = [] → ∀ f ∈ l, Agrees diff (addFields diff fs l).1 f.1 f.2) := by
  induction l generalizing fs with
  | nil => exact ⟨⟨[], by simp [addFields]⟩, fun _ f hf => by cases hf⟩
  | cons f l ih =>
    obtain ⟨⟨gs, hgs, hg⟩, h1⟩ := addField_spec diff fs f.1 f.2
    obtain ⟨⟨gs', hgs', hg'⟩, h2⟩ := ih (addField diff fs f.1 f.2).1
    simp only [addFields]
    refine ⟨⟨gs ++ gs', by rw [hgs', hgs, List.append_assoc], ?_⟩, ?_⟩
    · intro g hg''
      rcases List.mem_append.mp hg'' with h | h
      · rw [hg g h]; simp
      · simp [hg' g h]
    · intro he x hx
      rw [List.append_eq_nil_iff] at he
      rcases List.mem_cons.mp hx with rfl | hx
      · rw [hgs']; exact agrees_append _ _ _ _ _ (h1 he.1)
      · exact h2 he.2 x hx

theorem addArg_spec {Ty} (diff : Ty → Ty → Bool) (a : Arg Ty) (fs : Fields Ty) :
    (∃ gs, (addArg diff fs a).1 = fs ++ gs ∧ ∀ g ∈ gs, Supplies [a] g.1 g.2) ∧
    ((addArg diff fs a).2 = [] → ∀ n t, Supplies [a] n t → Agrees diff (addArg diff fs a).1 n t) := by
  cases a with
  | named m t =>
    obtain ⟨⟨gs, hgs, hg⟩, h⟩ := addField_spec diff fs m t
    refine ⟨⟨gs, hgs, fun g h' => by rw [hg g h']; simp [Supplies]⟩, ?_⟩
    intro he n t' hs
    simp [Supplies] at hs
    obtain ⟨rfl, rfl⟩ := hs
    exact h he
  | inline o =>
    cases o with
    | none => exact ⟨⟨[], by simp [addArg]⟩, fun he => by simp [addArg] at he⟩
    | some l =>
      obtain ⟨⟨gs, hgs, hg⟩, h⟩ := addFields_spec diff l fs
      refine ⟨⟨gs, hgs, fun g h' => Or.inr ⟨l, by simp, hg g h'⟩⟩, ?_⟩
      intro he n t' hs
      simp [Supplies] at hs
      exact h he _ hs

theorem supplies_append {Ty} (s s' : Site Ty) (n : Name) (t : Ty) :
    Supplies (s ++ s') n t ↔ Supplies s n t ∨ Supplies s' n t := by
  simp only [Supplies, List.mem_append]
  constructor
  · rintro ((h | h) | ⟨fs, h | h, hf⟩)
    · exact Or.inl (Or.inl h)
    · exact Or.inr (Or.inl h)
    · exact Or.inl (Or.inr ⟨fs, h, hf⟩)
    · exact Or.inr (Or.inr ⟨fs, h, hf⟩)
  · rintro ((h | ⟨fs, h, hf⟩) | (h | ⟨fs, h, hf⟩))
    · exact Or.inl (Or.inl h)
    · exact Or.inr ⟨fs, Or.inl h, hf⟩
    · exact Or.inl (Or.inr h)
    · exact Or.inr ⟨fs, Or.inr h, hf⟩

theorem addArgs_spec {Ty} (diff : Ty → Ty → Bool) (l : List (Arg Ty)) (fs : Fields Ty) :
    (∃ gs, (addArgs diff fs l).1 = fs ++ gs ∧ ∀ g ∈ gs, Supplies l g.1 g.2) ∧
    ((addArgs diff fs l).2 = [] → ∀ n t, Supplies l n t → Agrees diff (addArgs diff fs l).1 n t) := by
  induction l generalizing fs with
  | nil => exact ⟨⟨[], by simp [addArgs]⟩, fun _ n t h => by simp [Supplies] at h⟩
  | cons a l ih =>
    obtain ⟨⟨gs, hgs, hg⟩, h1⟩ := addArg_spec diff a fs
    obtain ⟨⟨gs', hgs', hg'⟩, h2⟩ := ih (addArg diff fs a).1
    simp only [addArgs]
    refine ⟨⟨gs ++ gs', by rw [hgs', hgs, List.append_assoc], ?_⟩, ?_⟩
    · intro g hg''
      rw [← List.singleton_append, supplies_append]
      rcases List.mem_append.mp hg'' with h | h
      · exact Or.inl (hg g h)
      · exact Or.inr (hg' g h)
    · intro he n t hs
      rw [List.append_eq_nil_iff] at he
      rw [← List.singleton_append, supplies_append] at hs
      rcases hs with hs | hs
      · rw [hgs']; exact agrees_append _ _ _ _ _ (h1 he.1 n t hs)
      · exact h2 he.2 n t hs

theorem supplies_mem {Ty} (s l : Site Ty) (n : Name) (t : Ty) (hs : ∀ a ∈ s, a ∈ l) (h : Supplies s n t) :
    Supplies l n t := by
  rcases h with h | ⟨fs, h, hf⟩
  · exact Or.inl (hs _ h)
  · exact Or.inr ⟨fs, hs _ h, hf⟩

/-- One parent: what acceptance means. -/
theorem visit_spec {Ty} (diff : Ty → Ty → Bool) (fs : Fields Ty) (v : Visit Ty) :
    (∃ gs, (visit diff fs v).1 = fs ++ gs ∧ ∀ g ∈ gs, ∃ d ∈ v, ∃ s ∈ d, Supplies s g.1 g.2) ∧
    ((visit diff fs v).2 = [] → ∀ d ∈ v, ∀ s ∈ d,
      (∀ n ∈ argNames fs v, ∃ t, Supplies s n t) ∧ ∀ n t, Supplies s n t → Agrees diff (visit diff fs v).1 n t) := by
  obtain ⟨⟨gs, hgs, hg⟩, h⟩ := addArgs_spec diff (v.flatMap (fun d => d.flatMap id)) fs
  simp only [visit]
  refine ⟨⟨gs, hgs, ?_⟩, ?_⟩
  · intro g hg'
    have hin : ∀ a, a ∈ v.flatMap (fun d => d.flatMap id) → ∃ d ∈ v, ∃ s ∈ d, a ∈ s := by
      intro a ha
      simpa only [List.mem_flatMap, id] using ha
    rcases hg g hg' with h | ⟨fs', h, hf⟩
    · obtain ⟨d, hd, s, hs, ha⟩ := hin _ h
      exact ⟨d, hd, s, hs, Or.inl ha⟩
    · obtain ⟨d, hd, s, hs, ha⟩ := hin _ h
      exact ⟨d, hd, s, hs, Or.inr ⟨fs', ha, hf⟩⟩
  · intro he d hd s hs
    rw [List.append_eq_nil_iff] at he
    refine ⟨?_, ?_⟩
    · intro n hn
      have h1 := List.flatMap_eq_nil_iff.mp he.1 d hd
      have h2 := List.flatMap_eq_nil_iff.mp h1 s hs
      have h3 := List.flatMap_eq_nil_iff.mp h2 s hs
      rw [List.map_eq_nil_iff, List.filter_eq_nil_iff] at h3
      have h4 := h3 n hn
      simp only [Bool.not_eq_true', Bool.not_eq_false, List.contains_iff_mem] at h4
      exact (siteNames_iff s n).mp h4
    · intro n t hst
      apply h he.2 n t
      apply supplies_mem s _ n t _ hst
      intro a ha
      simp only [List.mem_flatMap, id]
      exact ⟨d, hd, s, hs, ha⟩

theorem run_append {Ty} (diff : Ty → Ty → Bool) (vs ws : List (Visit Ty)) (fs : Fields Ty) :
    run diff fs (vs ++ ws) = ((run diff (run diff fs vs).1 ws).1, (run diff fs vs).2 ++ (run diff (run diff fs vs).1 ws).2) := by
  induction vs generalizing fs with
  | nil => simp [run]
  | cons v vs ih => simp [run, ih, List.append_assoc]

theorem run_extends {Ty} (diff : Ty → Ty → Bool) (vs : List (Visit Ty)) (fs : Fields Ty) :
    ∃ gs, (run diff fs vs).1 = fs ++ gs ∧ ∀ g ∈ gs, ∃ v ∈ vs, ∃ d ∈ v, ∃ s ∈ d, Supplies s g.1 g.2 := by
  induction vs generalizing fs with
  | nil => exact ⟨[], by simp [run]⟩
  | cons v vs ih =>
    obtain ⟨gs, hgs, hg⟩ := (visit_spec diff fs v).1
    obtain ⟨gs', hgs', hg'⟩ := ih (visit diff fs v).1
    refine ⟨gs ++ gs', by simp only [run]; rw [hgs', hgs, List.append_assoc], ?_⟩
    intro g h
    rcases List.mem_append.mp h with h | h
    · exact ⟨v, by simp, hg g h⟩
    · obtain ⟨w, hw, hx⟩ := hg' g h
      exact ⟨w, by simp [hw], hx⟩

/-- C40 (partial: names given by parents visited later, and names given only by inline values of the
same parent, are not covered). In an accepted schema every place that builds the message supplies every
argument registered by the parents before its own, every field of the request, and every argument that
its own parent names anywhere. -/
theorem C40_names_partial {Ty} (diff : Ty → Ty → Bool) (req : Fields Ty) (pre post : List (Visit Ty)) (v : Visit Ty)
    (hok : (run diff req (pre ++ v :: post)).2 = []) (d : List (Site Ty)) (hd : d ∈ v) (s : Site Ty) (hs : s ∈ d) :
    (∀ n t, (n, t) ∈ req → ∃ t', Supplies s n t') ∧
    (∀ p ∈ pre, ∀ d' ∈ p, ∀ s' ∈ d', ∀ n t, Supplies s' n t → ∃ t', Supplies s n t') ∧
    (∀ d' ∈ v, ∀ s' ∈ d', ∀ n t, .named n t ∈ s' → ∃ t', Supplies s n t') := by
  rw [run_append] at hok
  simp only [List.append_eq_nil_iff, run] at hok
  have hv := ((visit_spec diff (run diff req pre).1 v).2 hok.2.1 d hd s hs).1
  obtain ⟨gs, hgs, _⟩ := run_extends diff pre req
  refine ⟨?_, ?_, ?_⟩
  · intro n t h
    apply hv
    simp only [argNames, List.mem_append, List.mem_map]
    right
    rw [hgs]
    exact ⟨(n, t), by simp [h], rfl⟩
  · intro p hp d' hd' s' hs' n t hst
    obtain ⟨a, b, rfl⟩ := List.append_of_mem hp
    have hok1 := hok.1
    rw [run_append] at hok1
    simp only [List.append_eq_nil_iff, run] at hok1
    obtain ⟨t0, hl, _⟩ := ((visit_spec diff (run diff req a).1 p).2 hok1.2.1 d' hd' s' hs').2 n t hst
    apply hv
    simp only [argNames, List.mem_append, List.mem_map]
    right
    rw [run_append]
    simp only [run]
    obtain ⟨gs', hgs', _⟩ := run_extends diff b (visit diff (run diff req a).1 p).1
    rw [hgs']
    have := lookup_append _ gs' n t0 hl
    unfold lookup at this
    cases hf : ((visit diff (run diff req a).1 p).1 ++ gs').find? (fun f => f.1 == n) with
    | none => rw [hf] at this; cases this
    | some x => exact ⟨x, List.mem_of_find?_eq_some hf, by simpa using List.find?_some hf⟩
  · intro d' hd' s' hs' n t h
    apply hv
    simp only [argNames, List.mem_append, List.mem_flatMap]
    left
    exact ⟨d', hd', s', hs', by simp only [namedArgs, List.mem_filterMap]; exact ⟨_, h, rfl⟩⟩

/-- C40: in an accepted schema every argument supplied anywhere is a field of the message's argument,
and its type is that field's type or compatible with it. -/
theorem C40_types {Ty} (diff : Ty → Ty → Bool) (req : Fields Ty) (vs : List (Visit Ty)) (fields : Fields Ty)
    (hok : run diff req vs = (fields, [])) (v : Visit Ty) (hv : v ∈ vs) (d : List (Site Ty)) (hd : d ∈ v)
    (s : Site Ty) (hs : s ∈ d) (n : Name) (t : Ty) (hst : Supplies s n t) :
    ∃ t0, fields.find? (fun f => f.1 == n) = some (n, t0) ∧ (t0 = t ∨ diff t0 t = false) := by
  obtain ⟨pre, post, rfl⟩ := List.append_of_mem hv
  have h2 : (run diff req (pre ++ v :: post)).2 = [] := by rw [hok]
  have h1 : (run diff req (pre ++ v :: post)).1 = fields := by rw [hok]
  rw [run_append] at h1 h2
  simp only [List.append_eq_nil_iff, run] at h1 h2
  have ha := ((visit_spec diff (run diff req pre).1 v).2 h2.2.1 d hd s hs).2 n t hst
  obtain ⟨gs, hgs, _⟩ := run_extends diff post (visit diff (run diff req pre).1 v).1
  rw [hgs] at h1
  obtain ⟨t0, hl, ht⟩ := agrees_append _ _ gs _ _ ha
  rw [h1] at hl
  refine ⟨t0, ?_, ht⟩
  unfold lookup at hl
  cases hf : fields.find? (fun f => f.1 == n) with
  | none => rw [hf] at hl; cases hl
  | some x =>
    rw [hf] at hl
    have hx := List.find?_some hf
    simp only [beq_iff_eq] at hx
    simp only [Option.map_some, Option.some.injEq] at hl
    rw [← hx, ← hl]

/-- C40: the argument has no other fields than those of the request and the supplied ones. -/
theorem C40_no_other_fields {Ty} (diff : Ty → Ty → Bool) (req : Fields Ty) (vs : List (Visit Ty)) (f : Name × Ty)
    (hf : f ∈ (run diff req vs).1) : f ∈ req ∨ ∃ v ∈ vs, ∃ d ∈ v, ∃ s ∈ d, Supplies s f.1 f.2 := by
  obtain ⟨gs, hgs, hg⟩ := run_extends diff vs req
  rw [hgs] at hf
  rcases List.mem_append.mp hf with h | h
  · exact Or.inl h
  · exact Or.inr (hg f h)

/-- C40 (partial: one parent, no inline values): all places supply the same names, exactly the fields
of the argument. -/
theorem C40_one_parent_partial {Ty} (diff : Ty → Ty → Bool) (v : Visit Ty) (fields : Fields Ty)
    (hok : run diff [] [v] = (fields, [])) (hinl : ∀ d ∈ v, ∀ s ∈ d, ∀ o, .inline o ∉ s)
    (d : List (Site Ty)) (hd : d ∈ v) (s : Site Ty) (hs : s ∈ d) (n : Name) :
    (∃ t, Supplies s n t) ↔ ∃ t, (n, t) ∈ fields := by
  constructor
  · rintro ⟨t, h⟩
    obtain ⟨t0, h0, _⟩ := C40_types diff [] [v] fields hok v (by simp) d hd s hs n t h
    exact ⟨t0, List.mem_of_find?_eq_some h0⟩
  · rintro ⟨t, h⟩
    have : (n, t) ∈ (run diff [] [v]).1 := by rw [hok]; exact h
    rcases C40_no_other_fields diff [] [v] (n, t) this with h | ⟨w, hw, d', hd', s', hs', hst⟩
    · cases h
    · simp only [List.mem_singleton] at hw; subst hw
      rcases hst with h | ⟨fs, h, _⟩
      · exact (C40_names_partial diff [] [] [] w (by rw [List.nil_append, hok]) d hd s hs).2.2 d' hd' s' hs' n t h
      · exact absurd h (hinl d' hd' s' hs' _)

example : run (fun (a b : Nat) => a != b) [] [[[[.named "a" 0, .named "b" 1]], [[.named "b" 1, .named "a" 0]]]] =
    ([("a", 0), ("b", 1)], []) := by decide
example : (run (fun (a b : Nat) => a != b) [] [[[[.named "a" 0]], [[.named "b" 1, .named "a" 2]]]]).2 =
    [.missing "b", .typeDiffers "a"] := by decide
example : run (fun (a b : Nat) => a != b) [("a", 0)] [[[[.inline (some [("a", 0), ("b", 1)])]]], [[[.named "b" 1, .named "a" 0]]]] =
    ([("a", 0), ("b", 1)], []) := by decide

/-- C40 is false of the code for several parents: a schema is accepted although one of the parents does
not supply an argument the other one supplies. Walking the parents in the other order rejects it. -/
theorem C40_two_parents_false :
    ∃ v w : Visit Nat, run (fun a b => a != b) [] [v, w] = ([("a", 0), ("b", 0)], []) ∧
      (run (fun a b => a != b) [] [w, v]).2 = [.missing "b"] ∧
      ∃ d ∈ v, ∃ s ∈ d, ¬ ∃ t, Supplies s "b" t := by
  refine ⟨[[[.named "a" 0]]], [[[.named "a" 0, .named "b" 0]]], by decide, by decide, _, List.mem_singleton.mpr rfl, _,
    List.mem_singleton.mpr rfl, ?_⟩
  rintro ⟨t, h⟩
  simp [Supplies] at h

/-- C40 is false of the code for inline values: within one parent, a place without arguments is
accepted beside one with an inline value. -/
theorem C40_inline_false :
    ∃ v : Visit Nat, run (fun a b => a != b) [] [v] = ([("a", 0)], []) ∧ ∃ d ∈ v, ∃ s ∈ d, s = [] := by
  exact ⟨[[[.inline (some [("a", 0)])]], [[]]], by decide, [[]], by simp, [], by simp, rfl⟩

end Verif.Args
