import Verif.Given.Model

/-! # C117: a custom resolver is given every variable of its message -/

namespace Verif.Given

open Verif.GoNames (toPublicGoVariable)

variable {T : Type}

/-! ## Specification -/

/-- The variables that the documentation promises to a custom resolver: those that `def` gives a name and a value. -/
def HasValue (d : Def T) : Prop := d.name ≠ [] ∧ d.validation = false

/-- Someone outside the message's own expressions implements a part of it in Go. -/
def NeedsGo (m : Msg T) : Prop := m.custom = true ∨ ∃ f ∈ m.fields, f.custom = true

/-! ## Lemmas -/

/-- What the generator reads of a definition. -/
def var (d : Def T) : Locals.Var T := ⟨d.name, d.type, d.used⟩

theorem toDefs_var : ∀ ds : List (Def T), (toDefs ds).map Locals.Def.var = ds.map var
  | [] => by simp [toDefs]
  | .mk n t v u es :: ds => by simp [toDefs, toDefs_var ds, Locals.Def.var, var, Def.name, Def.type, Def.used]

theorem markDefs_var (names : List Name) : ∀ ds : List (Def T),
    (markDefs names ds).map var = ds.map fun d => ⟨d.name, d.type, d.used || names.contains d.name⟩
  | [] => by simp [markDefs]
  | .mk n t v u es :: ds => by simp [markDefs, markDefs_var names ds, var, Def.name, Def.type, Def.used]

theorem use_name (d : Def T) : d.use.name = d.name := by cases d; rfl

theorem use_type (d : Def T) : d.use.type = d.type := by cases d; rfl

theorem use_used (d : Def T) : d.use.used = true := by cases d; rfl

theorem use_validation (d : Def T) : d.use.validation = d.validation := by cases d; rfl

theorem createDefs_map {A : Type} (f : Def T → A) (hf : ∀ n t v u es es', f (.mk n t v u es) = f (.mk n t v u es')) :
    ∀ ds : List (Def T), (createDefs ds).map f = ds.map f
  | [] => by simp [createDefs]
  | .mk n t v u es :: ds => by simp [createDefs, createDefs_map f hf ds, hf n t v u (createEntries es) es]

/-- The flag of a definition of a message. -/
def flag (m : Msg T) (d : Def T) : Bool :=
  (d.used || (m.hasCustom && (d.name != [] && !d.validation)) || m.bound.contains d.name) || m.reads.contains d.name

theorem flagged_var (m : Msg T) : (flagged m).map var = m.defs.map fun d => ⟨d.name, d.type, flag m d⟩ := by
  unfold flagged
  rw [markDefs_var]
  have key : ∀ ds : List (Def T), (bind m.bound (if m.hasCustom then useAll ds else ds)).map
      (fun d => (⟨d.name, d.type, d.used || m.reads.contains d.name⟩ : Locals.Var T)) =
      ds.map fun d => ⟨d.name, d.type, flag m d⟩ := by
    intro ds
    cases hc : m.hasCustom with
    | false =>
      simp only [Bool.false_eq_true, if_false, bind, List.map_map]
      refine List.map_congr_left fun d _ => ?_
      by_cases hb : d.name ∈ m.bound <;> simp [hb, flag, hc, use_name, use_type, use_used]
    | true =>
      simp only [if_true, bind, useAll, List.map_map]
      refine List.map_congr_left fun d _ => ?_
      by_cases hn : d.name = []
      · by_cases hb : [] ∈ m.bound <;> simp [hb, flag, hc, use_name, use_type, use_used, hn]
      · cases hv : d.validation <;> by_cases hb : d.name ∈ m.bound <;>
          simp [hb, flag, hc, use_name, use_type, use_used, hn, hv]
  show (bind m.bound (if m.hasCustom = true then useAll (createDefs m.defs) else createDefs m.defs)).map _ = _
  rw [key, createDefs_map]
  intro n t v u es es'
  simp [flag, Def.name, Def.type, Def.used, Def.validation]

theorem flagged_groups {m : Msg T} {d : Def T} (hd : d ∈ m.defs) :
    (⟨d.name, d.type, flag m d⟩ : Locals.Var T) ∈ Locals.groups (gen m) := by
  refine List.mem_append_left _ (List.mem_append_left _ ?_)
  show _ ∈ (toDefs (flagged m)).map Locals.Def.var
  rw [toDefs_var, flagged_var]
  exact List.mem_map.2 ⟨d, hd, rfl⟩

theorem flag_custom {m : Msg T} {d : Def T} (h : NeedsGo m) (hv : HasValue d) : flag m d = true := by
  have hc : m.hasCustom = true := by
    rcases h with h | ⟨f, hf, h⟩
    · simp [Msg.hasCustom, h]
    · simp only [Msg.hasCustom, Bool.or_eq_true, List.any_eq_true]; exact .inr ⟨f, hf, h⟩
  simp [flag, hc, hv.1, hv.2]

/-! ## Theorems -/

/-- **C117.** A custom resolver of a message or of any of its fields is passed every variable that a `def` of the message gives a
value: the generated code assigns it to the argument. -/
theorem C117_passed (m : Msg T) (h : NeedsGo m) (d : Def T) (hd : d ∈ m.defs) (hv : HasValue d) :
    toPublicGoVariable d.name ∈ Locals.customArgs (gen m) :=
  List.mem_map.2 ⟨_, List.mem_filter.2 ⟨flagged_groups hd, flag_custom h hv⟩, rfl⟩

/-- **C117** (partial: the names of all variables of the message are different as Go names, which `C108_snake` gives for names in
snake case). The argument has a field for the variable, with its type. -/
theorem C117_field_partial (m : Msg T) (h : NeedsGo m) (d : Def T) (hd : d ∈ m.defs) (hv : HasValue d)
    (hn : ((Locals.assigned (gen m)).map fun v => toPublicGoVariable v.name).Nodup) :
    (toPublicGoVariable d.name, d.type) ∈ Locals.argVars (gen m) :=
  (Locals.C108_arguments_partial (gen m) hn).2 _ (flagged_groups hd) (flag_custom h hv)

/-- The definitions of a message with what they evaluate to, for `Verif.MsgArgs`. -/
def withExprs {V : Type} (m : Msg T) (expr : Name → MsgArgs.Expr V) : List (MsgArgs.Def V) :=
  (flagged m).map fun d => ⟨d.name, d.used, expr d.name⟩

theorem withExprs_eq {V : Type} (m : Msg T) (expr : Name → MsgArgs.Expr V) :
    withExprs m expr = m.defs.map fun d => ⟨d.name, flag m d, expr d.name⟩ := by
  have := congrArg (List.map fun v : Locals.Var T => (⟨v.name, v.used, expr v.name⟩ : MsgArgs.Def V)) (flagged_var m)
  simpa [withExprs, Function.comp_def, var] using this

/-- **C117** (partial: Go names of arguments and of variables are different among themselves). When the custom resolver is called,
the field of the variable has the value to which the definition evaluates, with the arguments as passed and the variables before
it; `specDefs` does not depend on which variables are passed. -/
theorem C117_value_partial {V : Type} (m : Msg T) (h : NeedsGo m) (d : Def T) (hd : d ∈ m.defs) (hv : HasValue d)
    (args : List (Name × V)) (expr : Name → MsgArgs.Expr V) (fields : List (MsgArgs.Expr V))
    (hargs : (args.map fun a => toPublicGoVariable a.1).Nodup) (hdefs : (m.defs.map fun d => toPublicGoVariable d.name).Nodup) :
    (MsgArgs.resolve args (withExprs m expr) fields).1 (toPublicGoVariable d.name) =
      MsgArgs.specDefs args (m.defs.map fun d => ⟨d.name, true, expr d.name⟩) d.name := by
  have hmem : (⟨d.name, flag m d, expr d.name⟩ : MsgArgs.Def V) ∈ withExprs m expr := by
    rw [withExprs_eq]; exact List.mem_map.2 ⟨d, hd, rfl⟩
  rw [MsgArgs.C65_custom_resolver_partial args (withExprs m expr) fields hargs
    (by rw [withExprs_eq, List.map_map]; exact hdefs) _ hmem (flag_custom h hv), withExprs_eq]
  simp only [MsgArgs.specDefs, List.foldl_map]

/-- **C117** (partial: different Go names). Nothing else of the message's own variables is passed but what an expression of the
message reads or a field is bound to. -/
theorem C117_exact_partial (m : Msg T) (d : Def T) (hd : d ∈ m.defs) (hf : d.used = false)
    (hn : ((Locals.assigned (gen m)).map fun v => toPublicGoVariable v.name).Nodup) :
    toPublicGoVariable d.name ∈ Locals.customArgs (gen m) ↔
      (NeedsGo m ∧ HasValue d) ∨ d.name ∈ m.bound ∨ d.name ∈ m.reads := by
  have hg := Locals.nodup_groups (fun v => toPublicGoVariable v.name) (gen m) hn
  have hmem := flagged_groups hd
  have hu : toPublicGoVariable d.name ∈ Locals.customArgs (gen m) ↔ flag m d = true := by
    constructor
    · intro hc
      obtain ⟨v, hv, he⟩ := List.mem_map.1 hc
      obtain ⟨hv, hvu⟩ := List.mem_filter.1 hv
      have : v = ⟨d.name, d.type, flag m d⟩ := by
        refine Classical.byContradiction fun hne => ?_
        obtain ⟨l1, l2, hl⟩ := List.append_of_mem hmem
        rw [hl] at hv hg
        rw [List.map_append, List.nodup_append, List.map_cons, List.nodup_cons] at hg
        rcases List.mem_append.1 hv with hv | hv
        · exact hg.2.2 _ (List.mem_map.2 ⟨v, hv, rfl⟩) _ (List.mem_cons_self ..) he
        · rcases List.mem_cons.1 hv with hv | hv
          · exact hne hv
          · exact hg.2.1.1 (List.mem_map.2 ⟨v, hv, he⟩)
      rw [this] at hvu; exact hvu
    · intro hc; exact List.mem_map.2 ⟨_, List.mem_filter.2 ⟨hmem, hc⟩, rfl⟩
  rw [hu]
  simp only [flag, hf, Bool.false_or, Bool.or_eq_true, Bool.and_eq_true, List.contains_iff_mem, Msg.hasCustom, List.any_eq_true,
    NeedsGo, HasValue, bne_iff_ne, Bool.not_eq_true', ne_eq, or_assoc]

/-- The message's own variables are all that is promised: the definitions of a oneof option are not passed. -/
theorem C117_oneof_not : ∃ m : Msg Nat, NeedsGo m ∧ (∃ f ∈ m.fields, ∃ o, f.oneof = some o ∧ ∃ d ∈ o.defs, HasValue d) ∧
    Locals.customArgs (gen m) = [] :=
  ⟨⟨[], [⟨true, false, false, some ⟨[.mk ['x'] 0 false false []], []⟩⟩], true, [], [], false⟩, .inl rfl,
    ⟨_, List.mem_cons_self .., _, rfl, _, List.mem_cons_self .., by simp [HasValue, Def.name, Def.validation]⟩, by decide +kernel⟩

/-! ## Variables of error handling and of oneof options -/

/-- A definition of an error entry, or of a detail, below some definitions, at any depth. `true`: it is a message of a detail, which
is always packed into the error. Messages of details are message expressions, so they have no error entries of their own. -/
inductive Handler : List (Def T) → Bool → Def T → Prop
  | entry {ds es xs d e} : d ∈ ds → Entry.mk es xs ∈ d.errors → e ∈ es → Handler ds false e
  | inEntry {ds es xs d b e} : d ∈ ds → Entry.mk es xs ∈ d.errors → Handler es b e → Handler ds b e
  | detail {ds es xs ys ms d e} : d ∈ ds → Entry.mk es xs ∈ d.errors → Detail.mk ys ms ∈ xs → e ∈ ys → Handler ds false e
  | inDetail {ds es xs ys ms d b e} : d ∈ ds → Entry.mk es xs ∈ d.errors → Detail.mk ys ms ∈ xs → Handler ys b e → Handler ds b e
  | message {ds es xs ys ms d e} : d ∈ ds → Entry.mk es xs ∈ d.errors → Detail.mk ys ms ∈ xs → e ∈ ms → Handler ds true e

/-- The variable of a definition, with a flag. -/
def var' (d : Def T) (u : Bool) : Locals.Var T := ⟨d.name, d.type, u⟩

theorem deep_entry (names : List Name) {ds : List (Def T)} {xs : List (Detail T)} : ∀ {es : List (Entry T)}, Entry.mk ds xs ∈ es →
    (∀ v ∈ Locals.deepDefs (toDefs (markDefs names (createDefs ds))), v ∈ Locals.deepEntries (toEntries (markEntries names (createEntries es)))) ∧
    (∀ v ∈ Locals.deepDetails (toDetails (markDetails names (createDetails xs))),
      v ∈ Locals.deepEntries (toEntries (markEntries names (createEntries es))))
  | .mk ds' xs' :: es, h => by
    simp only [createEntries, markEntries, toEntries, Locals.deepEntries, List.mem_append]
    rcases List.mem_cons.1 h with h | h
    · cases h
      exact ⟨fun v hv => .inl hv, fun v hv => .inr (.inl hv)⟩
    · have := deep_entry names h
      exact ⟨fun v hv => .inr (.inr (this.1 v hv)), fun v hv => .inr (.inr (this.2 v hv))⟩

theorem deep_detail (names : List Name) {ds ms : List (Def T)} : ∀ {xs : List (Detail T)}, Detail.mk ds ms ∈ xs →
    (∀ v ∈ Locals.deepDefs (toDefs (markDefs names (createDefs ds))), v ∈ Locals.deepDetails (toDetails (markDetails names (createDetails xs)))) ∧
    (∀ v ∈ Locals.deepDefs (toDefs (markDefs names (ms.map Def.use))),
      v ∈ Locals.deepDetails (toDetails (markDetails names (createDetails xs))))
  | .mk ds' ms' :: xs, h => by
    simp only [createDetails, markDetails, toDetails, Locals.deepDetails, List.mem_append]
    rcases List.mem_cons.1 h with h | h
    · cases h
      exact ⟨fun v hv => .inl hv, fun v hv => .inr (.inl hv)⟩
    · have := deep_detail names h
      exact ⟨fun v hv => .inr (.inr (this.1 v hv)), fun v hv => .inr (.inr (this.2 v hv))⟩

theorem deep_def (names : List Name) {d : Def T} : ∀ {ds : List (Def T)}, d ∈ ds →
    var' d (d.used || names.contains d.name) ∈ Locals.deepDefs (toDefs (markDefs names (createDefs ds))) ∧
    (∀ v ∈ Locals.deepEntries (toEntries (markEntries names (createEntries d.errors))),
      v ∈ Locals.deepDefs (toDefs (markDefs names (createDefs ds))))
  | .mk n t w u es :: ds, h => by
    simp only [createDefs, markDefs, toDefs, Locals.deepDefs, List.mem_cons, List.mem_append]
    rcases List.mem_cons.1 h with h | h
    · cases h
      exact ⟨.inl rfl, fun v hv => .inr (.inl hv)⟩
    · have := deep_def names h
      exact ⟨.inr (.inr this.1), fun v hv => .inr (.inr (this.2 v hv))⟩

theorem deep_message (names : List Name) {d : Def T} : ∀ {ds : List (Def T)}, d ∈ ds →
    var' d true ∈ Locals.deepDefs (toDefs (markDefs names (ds.map Def.use)))
  | .mk n t w u es :: ds, h => by
    simp only [List.map_cons, Def.use, markDefs, toDefs, Locals.deepDefs, List.mem_cons, List.mem_append, Bool.true_or]
    rcases List.mem_cons.1 h with h | h
    · cases h; exact .inl rfl
    · exact .inr (.inr (deep_message names h))

theorem deep_handler (names : List Name) {ds : List (Def T)} {b : Bool} {e : Def T} (h : Handler ds b e) :
    ∃ d ∈ ds, var' e (e.used || b || names.contains e.name) ∈
      Locals.deepEntries (toEntries (markEntries names (createEntries d.errors))) := by
  induction h with
  | entry hd hes he => exact ⟨_, hd, (deep_entry names hes).1 _ (by simpa using (deep_def names he).1)⟩
  | inEntry hd hes _ ih =>
    obtain ⟨d', hd', hv⟩ := ih
    exact ⟨_, hd, (deep_entry names hes).1 _ ((deep_def names hd').2 _ hv)⟩
  | detail hd hes hx he =>
    exact ⟨_, hd, (deep_entry names hes).2 _ ((deep_detail names hx).1 _ (by simpa using (deep_def names he).1))⟩
  | inDetail hd hes hx _ ih =>
    obtain ⟨d', hd', hv⟩ := ih
    exact ⟨_, hd, (deep_entry names hes).2 _ ((deep_detail names hx).1 _ ((deep_def names hd').2 _ hv))⟩
  | message hd hes hx he =>
    exact ⟨_, hd, (deep_entry names hes).2 _ ((deep_detail names hx).2 _ (by simpa using deep_message names he))⟩

theorem flagged_errors (m : Msg T) {d : Def T} (hd : d ∈ m.defs) {v : Locals.Var T}
    (hv : v ∈ Locals.deepEntries (toEntries (markEntries m.reads (createEntries d.errors)))) :
    v ∈ Locals.deepDefs (toDefs (flagged m)) := by
  have mark : ∀ {ds : List (Def T)} {d' : Def T}, d' ∈ ds →
      v ∈ Locals.deepEntries (toEntries (markEntries m.reads d'.errors)) → v ∈ Locals.deepDefs (toDefs (markDefs m.reads ds)) := by
    intro ds
    induction ds with
    | nil => intro d' h; cases h
    | cons x ds ih =>
      intro d' h hv
      cases x with
      | mk n t w u es =>
        simp only [markDefs, toDefs, Locals.deepDefs, List.mem_cons, List.mem_append]
        rcases List.mem_cons.1 h with h | h
        · cases h; exact .inr (.inl hv)
        · exact .inr (.inr (ih h hv))
  have use : ∀ x : Def T, x.use.errors = x.errors := fun x => by cases x; rfl
  have create : ∀ {ds : List (Def T)}, d ∈ ds → ∃ d' ∈ createDefs ds, d'.errors = createEntries d.errors := by
    intro ds
    induction ds with
    | nil => intro h; cases h
    | cons x ds ih =>
      intro h
      cases x with
      | mk n t w u es =>
        simp only [createDefs]
        rcases List.mem_cons.1 h with h | h
        · cases h; exact ⟨_, .head _, rfl⟩
        · obtain ⟨d', hd', he⟩ := ih h
          exact ⟨d', .tail _ hd', he⟩
  obtain ⟨d1, h1, e1⟩ := create hd
  have : ∃ d2 ∈ bind m.bound (if m.hasCustom then useAll (createDefs m.defs) else createDefs m.defs), d2.errors = createEntries d.errors := by
    have h2 : ∃ d2 ∈ (if m.hasCustom then useAll (createDefs m.defs) else createDefs m.defs), d2.errors = createEntries d.errors := by
      split
      · refine ⟨_, List.mem_map.2 ⟨d1, h1, rfl⟩, ?_⟩
        split
        · exact e1
        · split
          · exact e1
          · rw [use]; exact e1
      · exact ⟨d1, h1, e1⟩
    obtain ⟨d2, h2, e2⟩ := h2
    refine ⟨_, List.mem_map.2 ⟨d2, h2, rfl⟩, ?_⟩
    split
    · rw [use]; exact e2
    · exact e2
  obtain ⟨d2, h2, e2⟩ := this
  exact mark h2 (by rw [e2]; exact hv)

/-- **C117.** A definition of an error entry or of a detail, at any depth, has a variable of its name and type, which is kept exactly if
an expression of the message reads it; messages of details are always kept. So whether there is a custom resolver makes no difference
for them. -/
theorem C117_handlers (m : Msg T) (b : Bool) (d : Def T) (h : Handler m.defs b d) :
    ∃ v ∈ Locals.assigned (gen m), v.name = d.name ∧ v.type = d.type ∧ (v.used = true ↔ d.used = true ∨ b = true ∨ d.name ∈ m.reads) := by
  obtain ⟨d', hd', hv⟩ := deep_handler m.reads h
  refine ⟨_, List.mem_append_left _ (flagged_errors m hd' hv), rfl, rfl, ?_⟩
  simp [var', or_assoc]

/-- **C117.** A definition of the option of a oneof field has a variable of its name and type, which is kept exactly if the expression of
the field reads it. -/
theorem C117_oneof (m : Msg T) (f : Fld T) (hf : f ∈ m.fields) (o : OneofOpt T) (ho : f.oneof = some o) (d : Def T) (hd : d ∈ o.defs) :
    ∃ v ∈ Locals.assigned (gen m), v.name = d.name ∧ v.type = d.type ∧ (v.used = true ↔ d.used = true ∨ d.name ∈ o.byNames) := by
  refine ⟨var' d (d.used || o.byNames.contains d.name),
    List.mem_append_right _ (List.mem_flatMap.2 ⟨_, List.mem_map.2 ⟨f, hf, rfl⟩, ?_⟩), rfl, rfl, ?_⟩
  · simp only [ho, Option.map_some, Option.getD_some]
    exact (deep_def o.byNames hd).1
  · simp [var']

/-! ## Example -/

/-- An error entry with a definition `e` that is read and a detail with a message. -/
def handlerMsg : Msg Nat :=
  ⟨[.mk "res".toList 1 false false [.mk [.mk "e".toList 2 false false []] [.mk [] [.mk "m".toList 3 false false []]]]],
    [⟨true, false, false, some ⟨[.mk "x".toList 4 false false []], ["x".toList]⟩⟩], false, [], ["e".toList], false⟩

example : Handler handlerMsg.defs false (.mk "e".toList 2 false false []) ∧ Handler handlerMsg.defs true (.mk "m".toList 3 false false []) :=
  ⟨.entry (.head _) (.head _) (.head _), .message (.head _) (.head _) (.head _) (.head _)⟩

example : (Locals.assigned (gen handlerMsg)).map (fun v => (v.type, v.used)) = [(1, false), (2, true), (3, true), (4, true)] := by
  decide +kernel

/-- A call `res` with an error entry, a value `user_name` and a validation, and a field with a custom resolver. -/
def exampleMsg : Msg Nat :=
  ⟨[.mk "res".toList 1 false false [.mk [.mk "e".toList 2 false false []] []], .mk "user_name".toList 3 false false [],
      .mk "check".toList 4 true false []],
    [⟨false, true, false, none⟩], false, [], ["res".toList], false⟩

theorem exampleMsg_names : ((Locals.assigned (gen exampleMsg)).map fun v => toPublicGoVariable v.name).Nodup := by decide +kernel

example : (toPublicGoVariable "user_name".toList, 3) ∈ Locals.argVars (gen exampleMsg) ∧
    "UserName".toList ∈ Locals.customArgs (gen exampleMsg) ∧ "Check".toList ∉ Locals.customArgs (gen exampleMsg) :=
  ⟨C117_field_partial exampleMsg (.inr ⟨_, List.mem_cons_self .., rfl⟩) (.mk "user_name".toList 3 false false []) (by simp [exampleMsg])
    ⟨by decide +kernel, rfl⟩ exampleMsg_names, by decide +kernel, by decide +kernel⟩

end Verif.Given
