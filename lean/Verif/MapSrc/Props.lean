import Verif.MapSrc.Model

/-! # C73: sources of maps -/

namespace Verif.MapSrc

/-! ## Specification -/

/-- The source if it is not in the scope. -/
def unknown (scope : List Nat) (src : Option Nat) : List Nat := src.toList.filter fun s => decide (s ∉ scope)

theorem lookup_eq (vars : List Nat) (src : Option Nat) : lookup vars src = unknown vars src := by
  cases src with
  | none => rfl
  | some s => by_cases h : s ∈ vars <;> simp [lookup, unknown, h]

mutual

/-- The sources that are not in scope.  The scope of a definition are the definitions before it in its list
and those that can be used where the list is: `resolver/resolver.go` lines 3845-3848, 3890-3892, 4137-4139,
4201-4203, with lines 4102 and 4196 for the nesting. -/
def outOfScope (scope : List Nat) : List Def → List Nat
  | [] => []
  | .mk n src errors :: ds =>
    unknown scope src ++ (outOfScopeEntries scope errors ++ outOfScope (n :: scope) ds)

/-- Details can also use the definitions of their entry. -/
def outOfScopeEntries (scope : List Nat) : List Entry → List Nat
  | [] => []
  | .mk defs details :: es =>
    outOfScope scope defs ++
      (outOfScopeDetails (defs.map (fun | .mk n _ _ => n) ++ scope) details ++ outOfScopeEntries scope es)

def outOfScopeDetails (scope : List Nat) : List (List Def) → List Nat
  | [] => []
  | ds :: rest => outOfScope scope ds ++ outOfScopeDetails scope rest

end

/-- Sources of a message that are not in scope; oneof fields can use the definitions of the message. -/
def wrong (m : Msg) : List Nat :=
  outOfScope [] m.defs ++ outOfScopeDetails (m.defs.map fun | .mk n _ _ => n) m.oneofs

/-! ## Every wrong source is reported -/

mutual

theorem missing_mono : ∀ (ds : List Def) (vars scope : List Nat), (∀ v ∈ vars, v ∈ scope) →
    ∀ s ∈ outOfScope scope ds, s ∈ missing vars ds
  | [], _, _, _, s, hs => by simp [outOfScope] at hs
  | .mk n src errors :: ds, vars, scope, h, s, hs => by
    rw [outOfScope] at hs
    rw [missing]
    rcases List.mem_append.mp hs with hs | hs
    · refine List.mem_append_left _ ?_
      rw [lookup_eq]
      unfold unknown at hs ⊢
      rw [List.mem_filter] at hs ⊢
      refine ⟨hs.1, ?_⟩
      have := hs.2
      simp only [decide_eq_true_eq] at this ⊢
      exact fun hv => this (h s hv)
    · rcases List.mem_append.mp hs with hs | hs
      · exact List.mem_append_right _ (List.mem_append_left _ (missingEntries_mono errors scope s hs))
      · refine List.mem_append_right _ (List.mem_append_right _ (missing_mono ds _ (n :: scope) ?_ s hs))
        intro v hv
        cases errors with
        | nil =>
          simp only [List.isEmpty_nil, if_true] at hv
          rcases List.mem_cons.mp hv with rfl | hv
          · exact List.mem_cons_self ..
          · exact List.mem_cons_of_mem _ (h v hv)
        | cons _ _ =>
          simp only [List.isEmpty_cons] at hv
          exact List.mem_cons_of_mem _ (h v hv)

theorem missingEntries_mono : ∀ (es : List Entry) (scope : List Nat),
    ∀ s ∈ outOfScopeEntries scope es, s ∈ missingEntries es
  | [], _, s, hs => by simp [outOfScopeEntries] at hs
  | .mk defs details :: es, scope, s, hs => by
    rw [outOfScopeEntries] at hs
    rw [missingEntries]
    rcases List.mem_append.mp hs with hs | hs
    · exact List.mem_append_left _ (missing_mono defs [] scope (by simp) s hs)
    · rcases List.mem_append.mp hs with hs | hs
      · exact List.mem_append_right _ (List.mem_append_left _ (missingDetails_mono details _ s hs))
      · exact List.mem_append_right _ (List.mem_append_right _ (missingEntries_mono es scope s hs))

theorem missingDetails_mono : ∀ (dss : List (List Def)) (scope : List Nat),
    ∀ s ∈ outOfScopeDetails scope dss, s ∈ missingDetails dss
  | [], _, s, hs => by simp [outOfScopeDetails] at hs
  | ds :: rest, scope, s, hs => by
    rw [outOfScopeDetails] at hs
    rw [missingDetails]
    rcases List.mem_append.mp hs with hs | hs
    · exact List.mem_append_left _ (missing_mono ds [] scope (by simp) s hs)
    · exact List.mem_append_right _ (missingDetails_mono rest scope s hs)

end

/-- C73: every source that is not in scope is reported, at any nesting. -/
theorem C73_reported (m : Msg) : ∀ s ∈ wrong m, s ∈ reported m := by
  intro s hs
  unfold wrong at hs
  unfold reported
  rcases List.mem_append.mp hs with hs | hs
  · exact List.mem_append_left _ (missing_mono m.defs [] [] (by simp) s hs)
  · exact List.mem_append_right _ (missingDetails_mono m.oneofs _ s hs)

/-! ## Only wrong sources are reported -/

mutual

/-- All sources of maps in a list of definitions, at any nesting. -/
def sources : List Def → List Nat
  | [] => []
  | .mk _ src errors :: ds => src.toList ++ (sourcesEntries errors ++ sources ds)

def sourcesEntries : List Entry → List Nat
  | [] => []
  | .mk defs details :: es => sources defs ++ (sourcesDetails details ++ sourcesEntries es)

def sourcesDetails : List (List Def) → List Nat
  | [] => []
  | ds :: rest => sources ds ++ sourcesDetails rest

end

mutual

theorem missing_sources : ∀ (ds : List Def) (vars : List Nat), ∀ s ∈ missing vars ds, s ∈ sources ds
  | [], _, s, hs => by simp [missing] at hs
  | .mk n src errors :: ds, vars, s, hs => by
    rw [missing] at hs
    rw [sources]
    rcases List.mem_append.mp hs with hs | hs
    · refine List.mem_append_left _ ?_
      rw [lookup_eq] at hs
      exact (List.mem_filter.mp hs).1
    · rcases List.mem_append.mp hs with hs | hs
      · exact List.mem_append_right _ (List.mem_append_left _ (missingEntries_sources errors s hs))
      · exact List.mem_append_right _ (List.mem_append_right _ (missing_sources ds _ s hs))

theorem missingEntries_sources : ∀ (es : List Entry), ∀ s ∈ missingEntries es, s ∈ sourcesEntries es
  | [], s, hs => by simp [missingEntries] at hs
  | .mk defs details :: es, s, hs => by
    rw [missingEntries] at hs
    rw [sourcesEntries]
    rcases List.mem_append.mp hs with hs | hs
    · exact List.mem_append_left _ (missing_sources defs [] s hs)
    · rcases List.mem_append.mp hs with hs | hs
      · exact List.mem_append_right _ (List.mem_append_left _ (missingDetails_sources details s hs))
      · exact List.mem_append_right _ (List.mem_append_right _ (missingEntries_sources es s hs))

theorem missingDetails_sources : ∀ (dss : List (List Def)), ∀ s ∈ missingDetails dss, s ∈ sourcesDetails dss
  | [], s, hs => by simp [missingDetails] at hs
  | ds :: rest, s, hs => by
    rw [missingDetails] at hs
    rw [sourcesDetails]
    rcases List.mem_append.mp hs with hs | hs
    · exact List.mem_append_left _ (missing_sources ds [] s hs)
    · exact List.mem_append_right _ (missingDetails_sources rest s hs)

end

theorem missingEntries_nil {es : List Entry} (h : sourcesEntries es = []) : missingEntries es = [] :=
  List.eq_nil_iff_forall_not_mem.mpr fun s hs => by
    have := missingEntries_sources es s hs
    simp [h] at this

theorem missingDetails_nil {dss : List (List Def)} (h : sourcesDetails dss = []) : missingDetails dss = [] :=
  List.eq_nil_iff_forall_not_mem.mpr fun s hs => by
    have := missingDetails_sources dss s hs
    simp [h] at this

theorem outOfScopeEntries_nil {es : List Entry} (h : sourcesEntries es = []) (scope : List Nat) :
    outOfScopeEntries scope es = [] :=
  List.eq_nil_iff_forall_not_mem.mpr fun s hs => by
    have := missingEntries_mono es scope s hs
    simp [missingEntries_nil h] at this

theorem outOfScopeDetails_nil {dss : List (List Def)} (h : sourcesDetails dss = []) (scope : List Nat) :
    outOfScopeDetails scope dss = [] :=
  List.eq_nil_iff_forall_not_mem.mpr fun s hs => by
    have := missingDetails_mono dss scope s hs
    simp [missingDetails_nil h] at this

/-- No maps in error entries, and no map over a variable whose definition has error entries (the variable of
a call or a validation, which is never a list). -/
def Plain : List Def → Prop
  | [] => True
  | .mk n _ errors :: ds => sourcesEntries errors = [] ∧ (errors ≠ [] → n ∉ sources ds) ∧ Plain ds

/-- A name that is not a source can be left out of the scope. -/
theorem plain_missing : ∀ (ds : List Def) (_ : Plain ds) (vars scope : List Nat)
    (_ : ∀ s ∈ sources ds, s ∈ vars ↔ s ∈ scope), missing vars ds = outOfScope scope ds
  | [], _, _, _, _ => by simp [missing, outOfScope]
  | .mk n src errors :: ds, h, vars, scope, hv => by
    obtain ⟨h0, h1, h2⟩ := h
    have hrest : ∀ s ∈ sources ds, s ∈ vars ↔ s ∈ scope := fun s hs =>
      hv s (by rw [sources]; simp [hs])
    rw [missing, outOfScope, missingEntries_nil h0, outOfScopeEntries_nil h0, lookup_eq,
      plain_missing ds h2 _ (n :: scope) ?_]
    · have : unknown vars src = unknown scope src := by
        cases src with
        | none => rfl
        | some s =>
          have := hv s (by rw [sources]; simp)
          simp [unknown, List.filter_cons, this]
      rw [this]
    · intro s hs
      cases errors with
      | nil => simp [hrest s hs]
      | cons e es =>
        have hne : s ≠ n := fun heq => h1 (by simp) (heq ▸ hs)
        simp [hrest s hs, hne]

/-- C73 (partial: for messages without maps in error entries and oneof fields): exactly the sources that are
not in scope are reported. -/
theorem C73_exact_partial (m : Msg) (h : Plain m.defs) (ho : sourcesDetails m.oneofs = []) :
    reported m = wrong m := by
  unfold reported wrong
  rw [plain_missing m.defs h [] [] (fun _ _ => Iff.rfl), missingDetails_nil ho, outOfScopeDetails_nil ho]

def sample : Msg :=
  ⟨[.mk 1 none [], .mk 4 none [.mk [.mk 5 none []] [[.mk 6 none []]]], .mk 2 (some 1) [], .mk 3 (some 9) []],
   [[.mk 7 none []]]⟩

example : Plain sample.defs ∧ sourcesDetails sample.oneofs = [] ∧ reported sample = [9] := by
  refine ⟨?_, ?_, ?_⟩
  · simp [Plain, sample, sources, sourcesEntries, sourcesDetails]
  · simp [sample, sources, sourcesEntries, sourcesDetails]
  · simp [sample, reported, missing, missingEntries, missingDetails, lookup]

/-- C73 fails in error entries: a map there cannot iterate over a variable of the message, although every
expression there can use it. -/
theorem C73_entry_false : ¬ ∀ m : Msg, m.oneofs = [] → ∀ s ∈ reported m, s ∈ wrong m := by
  intro h
  have := h ⟨[.mk 1 none [], .mk 2 none [.mk [.mk 3 (some 1) []] []]], []⟩ rfl 1
    (by simp [reported, missing, missingEntries, missingDetails, lookup])
  simp [wrong, outOfScope, outOfScopeEntries, outOfScopeDetails, unknown] at this

/-- C73 fails in error details: a map there cannot iterate over a variable of the entry. -/
theorem C73_detail_false : ¬ ∀ m : Msg, m.oneofs = [] → m.defs.length = 1 → ∀ s ∈ reported m, s ∈ wrong m := by
  intro h
  have := h ⟨[.mk 2 none [.mk [.mk 1 none []] [[.mk 3 (some 1) []]]]], []⟩ rfl rfl 1
    (by simp [reported, missing, missingEntries, missingDetails, lookup])
  simp [wrong, outOfScope, outOfScopeEntries, outOfScopeDetails, unknown] at this

/-- C73 fails in oneof fields: a map there cannot iterate over a variable of the message. -/
theorem C73_oneof_false : ¬ ∀ m : Msg, Plain m.defs → (∀ ds ∈ m.oneofs, Plain ds) →
    ∀ s ∈ reported m, s ∈ wrong m := by
  intro h
  have := h ⟨[.mk 1 none []], [[.mk 3 (some 1) []]]⟩ (by simp [Plain, sources, sourcesEntries])
    (by intro ds hds; simp at hds; subst hds; simp [Plain, sources, sourcesEntries]) 1
    (by simp [reported, missing, missingEntries, missingDetails, lookup])
  simp [wrong, outOfScope, outOfScopeEntries, outOfScopeDetails, unknown] at this

end Verif.MapSrc
