import Verif.Emit.Model
import Verif.Graph.Props

/-!
# C34: contexts in the generated group code
-/

namespace Verif.Emit

open Verif.Graph (Grp)

/-- Specification: the definitions of a group in program order, each with the context of the
innermost errgroup around it. `c` is the context of the code the group is part of. -/
def expected : Ctx → Grp → List (Nat × Ctx)
  | c, .seq0 e => [(e, c)]
  | c, .seq s e => expected c s ++ [(e, c)]
  | c, .conc ss e => expectedL (.derived c 0) ss ++ [(e, c)]
where expectedL : Ctx → List Grp → List (Nat × Ctx)
  | _, [] => []
  | c, g :: gs => expected c g ++ expectedL c gs

/-- Specification for a whole plan. -/
def expectedAll : List Grp → List (Nat × Ctx)
  | [] => []
  | [g] => expected .request g
  | gs => expected.expectedL (.derived .request 0) gs

theorem runBlock_calls {env : Env} {c : CtxName} {x : Ctx} (h : lookup env c = some x) :
    ∀ (es : List Nat) (pos : Nat), runBlock pos env (es.map fun e => .call e c) = some (es.map fun e => (e, x)) := by
  intro es
  induction es with
  | nil => intro pos; simp [runBlock]
  | cons e es ih => intro pos; simp [runBlock, h, ih]

theorem parentCtx_ne {lvl : Nat} {c : CtxName} (h : parentCtx lvl = some c) (n : Nat) (hn : lvl ≤ n) :
    c ≠ .ctxN n := by
  match lvl, h with
  | 1, h => simp [parentCtx] at h; subst h; simp
  | k + 2, h => simp [parentCtx] at h; subst h; simp; omega

theorem parentCtx_some (lvl : Nat) : ∃ c, parentCtx (lvl + 1) = some c := by
  cases lvl <;> simp [parentCtx]

/-- Emission succeeds and the emitted block, followed by further calls on the same level, runs every
definition with the expected context. -/
theorem emit_spec (G : Grp) : ∀ (lvl : Nat) (c : CtxName) (env : Env) (x : Ctx),
    parentCtx (lvl + 1) = some c → lookup env c = some x →
    ∃ ss, emit (lvl + 1) G = some ss ∧ ∀ es : List Nat,
      runBlock 0 env (ss ++ es.map fun e => .call e c) =
        some (expected x G ++ es.map fun e => (e, x)) := by
  refine Grp.rec
    (motive_1 := fun G => ∀ (lvl : Nat) (c : CtxName) (env : Env) (x : Ctx),
      parentCtx (lvl + 1) = some c → lookup env c = some x →
      ∃ ss, emit (lvl + 1) G = some ss ∧ ∀ es : List Nat,
        runBlock 0 env (ss ++ es.map fun e => .call e c) =
          some (expected x G ++ es.map fun e => (e, x)))
    (motive_2 := fun gs => ∀ (lvl : Nat) (c : CtxName) (env : Env) (x : Ctx),
      parentCtx (lvl + 1) = some c → lookup env c = some x →
      ∃ bs, emit.emitL (lvl + 1) gs = some bs ∧
        runBlock.runBodies env bs = some (expected.expectedL x gs))
    ?_ ?_ ?_ ?_ ?_ G
  · intro e lvl c env x hc hx
    refine ⟨[.call e c], by simp [emit, hc], fun es => ?_⟩
    have := runBlock_calls hx (e :: es) 0
    simpa [expected] using this
  · intro s e ih lvl c env x hc hx
    obtain ⟨ss, h1, h2⟩ := ih lvl c env x hc hx
    refine ⟨ss ++ [.call e c], by simp [emit, h1, hc], fun es => ?_⟩
    have := h2 (e :: es)
    simpa [expected] using this
  · intro gs e ih lvl c env x hc hx
    have hp : parentCtx (lvl + 1 + 1) = some (.ctxN (lvl + 1)) := by simp [parentCtx]
    obtain ⟨bs, h1, h2⟩ := ih (lvl + 1) (.ctxN (lvl + 1)) ((.ctxN (lvl + 1), .derived x 0) :: env)
      (.derived x 0) hp (by simp [lookup])
    refine ⟨[.group (.ctxN (lvl + 1)) c bs, .call e c], by simp [emit, h1, hc], fun es => ?_⟩
    have hne := parentCtx_ne hc (lvl + 1) (Nat.le_refl _)
    have hx' : lookup ((.ctxN (lvl + 1), .derived x 0) :: env) c = some x := by
      simp [lookup, hne, hx]
    have := runBlock_calls hx' (e :: es) 1
    simp only [List.map_cons] at this
    simp [runBlock, hx, h2, this, expected]
  · intro lvl c env x _ _
    exact ⟨[], rfl, by simp [runBlock.runBodies, expected.expectedL]⟩
  · intro g gs ih1 ih2 lvl c env x hc hx
    obtain ⟨ss, h1, h2⟩ := ih1 lvl c env x hc hx
    obtain ⟨bs, h3, h4⟩ := ih2 lvl c env x hc hx
    refine ⟨ss :: bs, by simp [emit.emitL, h1, h3], ?_⟩
    have := h2 []
    simp only [List.map_nil, List.append_nil] at this
    simp [runBlock.runBodies, this, h4, expected.expectedL]

theorem emitL_spec (gs : List Grp) (lvl : Nat) (c : CtxName) (env : Env) (x : Ctx)
    (hc : parentCtx (lvl + 1) = some c) (hx : lookup env c = some x) :
    ∃ bs, emit.emitL (lvl + 1) gs = some bs ∧
      runBlock.runBodies env bs = some (expected.expectedL x gs) := by
  induction gs with
  | nil => exact ⟨[], rfl, by simp [runBlock.runBodies, expected.expectedL]⟩
  | cons g gs ih =>
    obtain ⟨ss, h1, h2⟩ := emit_spec g lvl c env x hc hx
    obtain ⟨bs, h3, h4⟩ := ih
    refine ⟨ss :: bs, by simp [emit.emitL, h1, h3], ?_⟩
    have := h2 []
    simp only [List.map_nil, List.append_nil] at this
    simp [runBlock.runBodies, this, h4, expected.expectedL]

/-- C34. For every plan the template produces code (no template error), every context variable in it
is declared, and every definition is evaluated with the context of the innermost errgroup around it;
in particular the definition after a `Wait` does not use the context of the group waited for. -/
theorem C34_contexts_scoped (gs : List Grp) :
    ∃ code, emitAll gs = some code ∧
      runBlock 0 [(.ctx, .request)] code = some (expectedAll gs) := by
  match gs with
  | [] => exact ⟨[], rfl, by simp [runBlock, expectedAll]⟩
  | [g] =>
    obtain ⟨ss, h1, h2⟩ := emit_spec g 0 .ctx [(.ctx, .request)] .request rfl (by simp [lookup])
    have := h2 []
    simp only [List.map_nil, List.append_nil] at this
    exact ⟨ss, h1, this⟩
  | g :: g' :: gs =>
    obtain ⟨bs, h1, h2⟩ := emitL_spec (g :: g' :: gs) 1 (.ctxN 1)
      [(.ctxN 1, .derived .request 0), (.ctx, .request)] (.derived .request 0) rfl (by simp [lookup])
    refine ⟨[.group (.ctxN 1) .ctx bs], by simp [emitAll, h1], ?_⟩
    simp [runBlock, lookup, h2, expectedAll]

/-- In the specification every definition of the plan occurs exactly as often as in the plan. -/
theorem expected_defs (G : Grp) : ∀ c, (expected c G).map Prod.fst = G.defs := by
  refine Grp.rec (motive_1 := fun G => ∀ c, (expected c G).map Prod.fst = G.defs)
    (motive_2 := fun gs => ∀ c, (expected.expectedL c gs).map Prod.fst = Grp.defs.go gs) ?_ ?_ ?_ ?_ ?_ G
  · intro e c; rfl
  · intro s e ih c; simp [expected, Grp.defs, ih c]
  · intro ss e ih c; simp [expected, Grp.defs, ih]
  · intro c; rfl
  · intro g gs ih1 ih2 c; simp [expected.expectedL, Grp.defs.go, ih1 c, ih2 c]

/-! ## The generated declarations compile -/

/-- A block uses a context variable at its own level. -/
def usesHere (c : CtxName) : List Stmt → Bool
  | [] => false
  | .call _ c' :: rest => c == c' || usesHere c rest
  | .group _ p _ :: rest => c == p || usesHere c rest

/-- A block creates an errgroup. -/
def hasGroup : List Stmt → Bool
  | [] => false
  | .call _ _ :: rest => hasGroup rest
  | .group _ _ _ :: _ => true

/-- Go accepts the declarations: no block declares `eg` twice with `:=`, and every declared context
is used in all goroutines of its group, of which there is at least one. -/
def compiles : List Stmt → Bool
  | [] => true
  | .call _ _ :: rest => compiles rest
  | .group decl _ bodies :: rest =>
    !hasGroup rest && !bodies.isEmpty && compilesL decl bodies && compiles rest
where compilesL : CtxName → List (List Stmt) → Bool
  | _, [] => true
  | c, b :: bs => usesHere c b && compiles b && compilesL c bs

/-- Concurrent groups have at least one start. -/
def Nonempty : Grp → Prop
  | .seq0 _ => True
  | .seq s _ => Nonempty s
  | .conc ss _ => ss ≠ [] ∧ nonemptyL ss
where nonemptyL : List Grp → Prop
  | [] => True
  | g :: gs => Nonempty g ∧ nonemptyL gs

theorem usesHere_append {c : CtxName} {a b : List Stmt} :
    usesHere c (a ++ b) = (usesHere c a || usesHere c b) := by
  induction a with
  | nil => rfl
  | cons s a ih => cases s <;> simp [usesHere, ih, Bool.or_assoc]

theorem hasGroup_append {a b : List Stmt} : hasGroup (a ++ b) = (hasGroup a || hasGroup b) := by
  induction a with
  | nil => rfl
  | cons s a ih => cases s <;> simp [hasGroup, ih]

theorem compiles_append {a : List Stmt} {e : Nat} {c : CtxName} (h : compiles a = true) :
    compiles (a ++ [.call e c]) = true := by
  induction a with
  | nil => simp [compiles]
  | cons s a ih =>
    cases s with
    | call _ _ => simp only [List.cons_append, compiles] at h ⊢; exact ih h
    | group d p bs =>
      simp only [List.cons_append, compiles, Bool.and_eq_true, Bool.not_eq_true'] at h ⊢
      refine ⟨⟨⟨?_, h.1.1.2⟩, h.1.2⟩, ih h.2⟩
      rw [hasGroup_append, h.1.1.1]; rfl

theorem emit_compiles (G : Grp) : ∀ (lvl : Nat) (ss : List Stmt), Nonempty G → emit lvl G = some ss →
    compiles ss = true ∧ ∀ c, parentCtx lvl = some c → usesHere c ss = true := by
  refine Grp.rec
    (motive_1 := fun G => ∀ (lvl : Nat) (ss : List Stmt), Nonempty G → emit lvl G = some ss →
      compiles ss = true ∧ ∀ c, parentCtx lvl = some c → usesHere c ss = true)
    (motive_2 := fun gs => ∀ (lvl : Nat) (bs : List (List Stmt)), Nonempty.nonemptyL gs →
      emit.emitL lvl gs = some bs → (gs ≠ [] → bs ≠ []) ∧
      ∀ c, parentCtx lvl = some c → compiles.compilesL c bs = true)
    ?_ ?_ ?_ ?_ ?_ G
  · intro e lvl ss _ h
    simp only [emit, Option.map_eq_some_iff] at h
    obtain ⟨c, hc, rfl⟩ := h
    refine ⟨by simp [compiles], fun c' hc' => ?_⟩
    rw [hc] at hc'; injection hc' with hc'; subst hc'
    simp [usesHere]
  · intro s e ih lvl ss hn h
    simp only [emit] at h
    split at h
    · rename_i ss' c hs hc
      injection h with h; subst h
      obtain ⟨h1, h2⟩ := ih lvl ss' hn hs
      refine ⟨compiles_append h1, fun c' hc' => ?_⟩
      rw [usesHere_append, h2 c' hc']; rfl
    · cases h
  · intro gs e ih lvl ss hn h
    simp only [emit] at h
    split at h
    · rename_i bs c hs hc
      injection h with h; subst h
      obtain ⟨h1, h2⟩ := ih (lvl + 1) bs hn.2 hs
      have hl : 1 ≤ lvl := by
        cases lvl with
        | zero => simp [parentCtx] at hc
        | succ n => omega
      have hp : parentCtx (lvl + 1) = some (.ctxN lvl) := by
        cases lvl with
        | zero => omega
        | succ n => rfl
      refine ⟨?_, fun c' hc' => ?_⟩
      · have hbs := h1 hn.1
        simp [compiles, hasGroup, h2 _ hp, hbs]
      · rw [hc] at hc'; injection hc' with hc'; subst hc'
        simp [usesHere]
    · cases h
  · intro lvl bs _ h
    simp [emit.emitL] at h; subst h
    exact ⟨fun h => absurd rfl h, fun _ _ => by simp [compiles.compilesL]⟩
  · intro g gs ih1 ih2 lvl bs hn h
    simp only [emit.emitL] at h
    split at h
    · rename_i a b ha hb
      injection h with h; subst h
      refine ⟨fun _ => by simp, fun c hc => ?_⟩
      obtain ⟨h1, h2⟩ := ih1 lvl a hn.1 ha
      obtain ⟨_, h4⟩ := ih2 lvl b hn.2 hb
      simp [compiles.compilesL, h1, h2 c hc, h4 c hc]
    · cases h

theorem emitL_compiles (gs : List Grp) (lvl : Nat) (bs : List (List Stmt)) (c : CtxName)
    (hn : ∀ G ∈ gs, Nonempty G) (h : emit.emitL lvl gs = some bs) (hc : parentCtx lvl = some c) :
    (gs ≠ [] → bs ≠ []) ∧ compiles.compilesL c bs = true := by
  induction gs generalizing bs with
  | nil => simp [emit.emitL] at h; subst h; exact ⟨fun h => absurd rfl h, by simp [compiles.compilesL]⟩
  | cons g gs ih =>
    simp only [emit.emitL] at h
    split at h
    · rename_i a b ha hb
      injection h with h; subst h
      refine ⟨fun _ => by simp, ?_⟩
      obtain ⟨h1, h2⟩ := emit_compiles g lvl a (hn g (by simp)) ha
      obtain ⟨_, h4⟩ := ih b (fun G hG => hn G (by simp [hG])) hb
      simp [compiles.compilesL, h1, h2 c hc, h4]
    · cases h

/-- C34. The code generated for every plan whose concurrent groups have at least one start satisfies
Go's rules on redeclaration and unused variables for the errgroup contexts. -/
theorem C34_declarations_compile (gs : List Grp) (hn : ∀ G ∈ gs, Nonempty G) (code : List Stmt)
    (h : emitAll gs = some code) : compiles code = true := by
  match gs, hn, h with
  | [], _, h => simp [emitAll] at h; subst h; simp [compiles]
  | [g], hn, h => exact (emit_compiles g 1 code (hn g (by simp)) h).1
  | g :: g' :: gs, hn, h =>
    simp only [emitAll, Option.map_eq_some_iff] at h
    obtain ⟨bs, hb, rfl⟩ := h
    obtain ⟨h1, h2⟩ := emitL_compiles (g :: g' :: gs) 2 bs (.ctxN 1) hn hb rfl
    simp [compiles, hasGroup, h2, h1 (by simp)]

/-- The definitions of an error entry are evaluated without an errgroup at the outer level: there is
at most one group, which is not concurrent at any step up to its first definition. -/
def Sequential : List Grp → Prop
  | [] => True
  | [g] => chain g
  | _ => False
where chain : Grp → Prop
  | .seq0 _ => True
  | .seq s _ => chain s
  | .conc _ _ => False

theorem hasGroup_chain {g : Grp} {lvl : Nat} {ss : List Stmt} (hg : Sequential.chain g)
    (h : emit lvl g = some ss) : hasGroup ss = false := by
  induction g using Grp.rec (motive_2 := fun _ => True) generalizing ss with
  | seq0 e =>
    simp only [emit, Option.map_eq_some_iff] at h
    obtain ⟨c, _, rfl⟩ := h; rfl
  | seq s e ih =>
    simp only [emit] at h
    split at h
    · rename_i hs _
      injection h with h; subst h
      rw [hasGroup_append, ih hg hs]; rfl
    · cases h
  | conc ss e _ => exact absurd hg (by simp [Sequential.chain])
  | nil => trivial
  | cons _ _ _ _ => trivial

theorem hasGroup_sequential {gs : List Grp} {ss : List Stmt} (hg : Sequential gs)
    (h : emitAll gs = some ss) : hasGroup ss = false := by
  match gs, hg, h with
  | [], _, h => simp [emitAll] at h; subst h; rfl
  | [g], hg, h => exact hasGroup_chain hg h

theorem compiles_append_iff {a b : List Stmt} : compiles (a ++ b) = true ↔
    compiles a = true ∧ compiles b = true ∧ (hasGroup a = false ∨ hasGroup b = false) := by
  induction a with
  | nil => simp [compiles, hasGroup]
  | cons s a ih =>
    cases s with
    | call _ _ => simp only [List.cons_append, compiles, hasGroup]; exact ih
    | group d p bs =>
      simp only [List.cons_append, compiles, hasGroup, Bool.and_eq_true, Bool.not_eq_true', ih,
        hasGroup_append, Bool.or_eq_false_iff]
      constructor
      · rintro ⟨⟨⟨⟨h1, h2⟩, h3⟩, h4⟩, h5, h6, _⟩
        exact ⟨⟨⟨⟨h1, h3⟩, h4⟩, h5⟩, h6, Or.inr h2⟩
      · rintro ⟨⟨⟨⟨h1, h3⟩, h4⟩, h5⟩, h6, h7⟩
        rcases h7 with h7 | h7
        · cases h7
        · exact ⟨⟨⟨⟨h1, h7⟩, h3⟩, h4⟩, h5, h6, Or.inr h7⟩

theorem emitEntries_hasGroup {entries : List (List Grp)} {code : List Stmt}
    (h : emitEntries entries = some code) (hs : ∀ gs ∈ entries, Sequential gs) : hasGroup code = false := by
  induction entries generalizing code with
  | nil => simp [emitEntries] at h; subst h; rfl
  | cons gs rest ih =>
    simp only [emitEntries] at h
    split at h
    · rename_i a b ha hb
      injection h with h; subst h
      rw [hasGroup_append, hasGroup_sequential (hs gs (by simp)) ha, ih hb fun g hg => hs g (by simp [hg])]
      rfl
    · cases h

/-- C70 (partial: only if at most one entry evaluates its definitions
with an errgroup): the code of all entries compiles as far as contexts are concerned. -/
theorem C70_entries_partial (before after : List (List Grp)) (gs : List Grp)
    (hn : ∀ e ∈ before ++ gs :: after, ∀ G ∈ e, Nonempty G)
    (hb : ∀ e ∈ before, Sequential e) (ha : ∀ e ∈ after, Sequential e) (code : List Stmt)
    (h : emitEntries (before ++ gs :: after) = some code) : compiles code = true := by
  have all : ∀ (es : List (List Grp)) (c : List Stmt), (∀ e ∈ es, ∀ G ∈ e, Nonempty G) →
      (∀ e ∈ es, Sequential e) → emitEntries es = some c → compiles c = true := by
    intro es
    induction es with
    | nil => intro c _ _ h; simp [emitEntries] at h; subst h; simp [compiles]
    | cons e es ih =>
      intro c hn hs h
      have hg := emitEntries_hasGroup h hs
      simp only [emitEntries] at h
      split at h
      · rename_i a b ha hb
        injection h with h; subst h
        rw [hasGroup_append, Bool.or_eq_false_iff] at hg
        exact compiles_append_iff.mpr ⟨C34_declarations_compile e (hn e (by simp)) a ha,
          ih b (fun e he => hn e (by simp [he])) (fun e he => hs e (by simp [he])) hb, Or.inl hg.1⟩
      · cases h
  induction before generalizing code with
  | nil =>
    simp only [List.nil_append, emitEntries] at h
    split at h
    · rename_i a b h1 h2
      injection h with h; subst h
      exact compiles_append_iff.mpr ⟨C34_declarations_compile gs (hn gs (by simp)) a h1,
        all after b (fun e he => hn e (by simp [he])) ha h2, Or.inr (emitEntries_hasGroup h2 ha)⟩
    · cases h
  | cons e es ih =>
    simp only [List.cons_append, emitEntries] at h
    split at h
    · rename_i a b h1 h2
      injection h with h; subst h
      exact compiles_append_iff.mpr ⟨C34_declarations_compile e (hn e (by simp)) a h1,
        ih (fun e he => hn e (by simp only [List.cons_append, List.mem_cons]; exact Or.inr he))
          (fun e he => hb e (by simp [he])) b h2,
        Or.inl (hasGroup_sequential (hb e (by simp)) h1)⟩
    · cases h

/-- C70 is false: if two entries of a call each need an errgroup, here because each
has two independent definitions, the code declares the same variables twice in one scope. -/
theorem C70_entries_false : ∃ (a b : List Grp) (code : List Stmt),
    (∀ G ∈ a ++ b, Nonempty G) ∧ emitEntries [a, b] = some code ∧ compiles code = false :=
  ⟨[.seq0 0, .seq0 1], [.seq0 2, .seq0 3], _, by simp [Nonempty], rfl, by simp [compiles, hasGroup]⟩

/-- Two entries, one of them with an errgroup: the hypotheses of `C70_entries_partial` hold. -/
example : ∃ code, emitEntries [[.seq (.seq0 0) 1], [.seq0 2, .seq0 3]] = some code ∧ compiles code = true :=
  ⟨_, rfl, C70_entries_partial [[.seq (.seq0 0) 1]] [] [.seq0 2, .seq0 3] (by simp [Nonempty])
    (by simp [Sequential, Sequential.chain]) (by simp) _ rfl⟩

/-- Groups built by the resolver have non-empty concurrent groups. -/
theorem mkGroup_nonempty {key pa fuel n G} (h : Verif.Graph.mkGroup key pa fuel n = some G) :
    Nonempty G := by
  induction fuel generalizing n G with
  | zero => simp [Verif.Graph.mkGroup] at h
  | succ fuel ih =>
    unfold Verif.Graph.mkGroup at h
    split at h
    · injection h with h; subst h; trivial
    · simp only [Option.map_eq_some_iff] at h
      obtain ⟨s, hs, rfl⟩ := h
      have := ih hs
      simpa [Nonempty] using this
    · rename_i h0 h1
      simp only [Option.map_eq_some_iff] at h
      obtain ⟨ss, hs, rfl⟩ := h
      have hlast := Verif.Graph.collect_last hs
      have hmem := (Verif.Graph.collect_spec hs).2
      refine ⟨?_, ?_⟩
      · rintro rfl
        have hl : (Verif.Graph.sortBy key (pa n)).length = 0 := by rw [← hlast]; rfl
        rw [Verif.Graph.length_sortBy] at hl
        exact h0 (List.length_eq_zero_iff.mp hl)
      · clear hs hlast
        induction ss with
        | nil => trivial
        | cons s ss ihs =>
          obtain ⟨p, _, hp⟩ := hmem s (by simp)
          exact ⟨ih hp, ihs fun G hG => hmem G (by simp [hG])⟩

/-- C34 for the plans the resolver builds: the generated code exists, compiles as far as contexts are
concerned, and scopes them as specified. -/
theorem C34_resolver_plans (defs : List Verif.Graph.Def) (gs : List Grp)
    (hgs : Verif.Graph.setup defs = .groups gs) :
    ∃ code, emitAll gs = some code ∧ compiles code = true ∧
      runBlock 0 [(.ctx, .request)] code = some (expectedAll gs) := by
  obtain ⟨code, h1, h2⟩ := C34_contexts_scoped gs
  refine ⟨code, h1, C34_declarations_compile gs ?_ code h1, h2⟩
  intro G hG
  unfold Verif.Graph.setup Verif.Graph.setupWith at hgs
  dsimp only at hgs
  split at hgs
  · cases hgs
  · split at hgs
    · cases hgs
    · cases hgs
    · split at hgs
      · cases hgs
      · split at hgs
        · cases hgs
        · rename_i h
          injection hgs with hgs; subst hgs
          obtain ⟨n, _, hn⟩ := (Verif.Graph.mkGroups_mem h).2 G hG
          exact mkGroup_nonempty hn

/-- A plan with an errgroup inside an errgroup. -/
example : emitAll [.conc [.seq0 1, .conc [.seq0 5, .seq0 6] 0] 2, .seq (.seq0 1) 3] =
    some [.group (.ctxN 1) .ctx
      [[.group (.ctxN 2) (.ctxN 1) [[.call 1 (.ctxN 2)],
          [.group (.ctxN 3) (.ctxN 2) [[.call 5 (.ctxN 3)], [.call 6 (.ctxN 3)]], .call 0 (.ctxN 2)]],
        .call 2 (.ctxN 1)],
       [.call 1 (.ctxN 1), .call 3 (.ctxN 1)]]] := rfl

end Verif.Emit
