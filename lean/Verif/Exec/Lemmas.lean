import Verif.Exec.Spec

namespace Verif.Exec

open Verif.Graph (Grp)

/-! ## Functions on goroutine trees -/

/-- Definitions this tree still has to see evaluated. -/
def covers : Proc → List Nat
  | .leaf d _ => [d]
  | .seq p e => covers p ++ [e]
  | .par ps _ e => coversL ps ++ e.toList
  | .done _ => []
where coversL : List Proc → List Nat
  | [] => []
  | p :: ps => covers p ++ coversL ps

/-- An error that is on its way up. -/
def hasErr : Proc → Bool
  | .leaf _ (.evaluated _ r) => r.isSome
  | .leaf _ (.stored _ r) => r.isSome
  | .leaf _ _ => false
  | .seq p _ => hasErr p
  | .par ps first _ => first.isSome || hasErrL ps
  | .done r => r.isSome
where hasErrL : List Proc → Bool
  | [] => false
  | p :: ps => hasErr p || hasErrL ps

/-- Flights led by goroutines of the tree. -/
def leads : Proc → List (Nat × Nat)
  | .leaf d (.leading f) => [(d, f)]
  | .leaf d (.evaluated f _) => [(d, f)]
  | .leaf d (.stored f _) => [(d, f)]
  | .leaf _ _ => []
  | .seq p _ => leads p
  | .par ps _ _ => leadsL ps
  | .done _ => []
where leadsL : List Proc → List (Nat × Nat)
  | [] => []
  | p :: ps => leads p ++ leadsL ps

/-- Weight of a phase: an upper bound for the steps still to do. -/
def phaseWeight : Phase → Nat
  | .called => 7
  | .missed => 6
  | .leading _ => 5
  | .evaluated _ _ => 4
  | .stored _ _ => 3
  | .waiting _ => 2

/-- Upper bound for the number of steps a tree can still make. -/
def weight : Proc → Nat
  | .leaf _ ph => phaseWeight ph
  | .seq p _ => weight p + 8
  | .par ps _ _ => weightL ps + 9
  | .done _ => 1
where weightL : List Proc → Nat
  | [] => 0
  | p :: ps => weight p + weightL ps

theorem coversL_append (l r : List Proc) :
    covers.coversL (l ++ r) = covers.coversL l ++ covers.coversL r := by
  induction l with
  | nil => rfl
  | cons p l ih => simp [covers.coversL, ih]

theorem hasErrL_append (l r : List Proc) :
    hasErr.hasErrL (l ++ r) = (hasErr.hasErrL l || hasErr.hasErrL r) := by
  induction l with
  | nil => rfl
  | cons p l ih => simp [hasErr.hasErrL, ih, Bool.or_assoc]

theorem leadsL_append (l r : List Proc) :
    leads.leadsL (l ++ r) = leads.leadsL l ++ leads.leadsL r := by
  induction l with
  | nil => rfl
  | cons p l ih => simp [leads.leadsL, ih]

theorem weightL_append (l r : List Proc) :
    weight.weightL (l ++ r) = weight.weightL l + weight.weightL r := by
  induction l with
  | nil => simp [weight.weightL]
  | cons p l ih => simp [weight.weightL, ih]; omega

/-! ## Logs only grow -/

theorem lstep_log {cx d g ph g' p'} (h : LStep cx d g ph g' p') : ∃ new, g'.log = new ++ g.log := by
  cases h
  case lead => exact ⟨[_], rfl⟩
  case finish => exact ⟨[_], rfl⟩
  all_goals exact ⟨[], rfl⟩

theorem pstep_log {cx g p g' p'} (h : PStep cx g p g' p') : ∃ new, g'.log = new ++ g.log := by
  induction h with
  | leaf h => exact lstep_log h
  | seqRun _ ih => exact ih
  | parRun _ ih => exact ih
  | _ => exact ⟨[], rfl⟩

theorem FinOk.mono {log : List Event} {d : Nat} (h : FinOk log d) (new : List Event) :
    FinOk (new ++ log) d := by
  obtain ⟨f, hf⟩ := h
  exact ⟨f, by simp [hf]⟩

theorem pstep_finOk {cx g p g' p' d} (h : PStep cx g p g' p') (hd : FinOk g.log d) :
    FinOk g'.log d := by
  obtain ⟨new, hn⟩ := pstep_log h
  rw [hn]; exact hd.mono new

/-! ## Termination -/

theorem phaseWeight_pos (ph : Phase) : 2 ≤ phaseWeight ph := by cases ph <;> simp [phaseWeight]

theorem pstep_weight {cx g p g' p'} (h : PStep cx g p g' p') : weight p' < weight p := by
  induction h with
  | leaf h => cases h <;> simp [weight, phaseWeight]
  | seqRun _ ih => simp [weight]; omega
  | seqOk => simp [weight, phaseWeight]
  | seqErr => simp [weight]
  | parRun _ ih => simp [weight, weightL_append, weight.weightL]; omega
  | parCollect => simp [weight, weightL_append, weight.weightL]
  | parEnd => simp [weight, weight.weightL, phaseWeight]
  | parOk => simp [weight, weight.weightL]
  | parErr => simp [weight, weight.weightL]

/-! ## Errors on their way up are never lost -/

theorem pstep_hasErr {cx g p g' p'} (h : PStep cx g p g' p') (he : hasErr p = true) :
    hasErr p' = true := by
  induction h with
  | leaf h =>
    cases h <;> simp_all [hasErr]
  | seqRun _ ih => simp only [hasErr] at he ⊢; exact ih he
  | seqOk => simp [hasErr] at he
  | seqErr => simp [hasErr]
  | parRun _ ih =>
    simp only [hasErr, hasErrL_append, hasErr.hasErrL, Bool.or_eq_true] at he ⊢
    rcases he with he | he | he | he
    · simp [he]
    · simp [he]
    · simp [ih he]
    · simp [he]
  | @parCollect _ _ x _ _ first _ =>
    simp only [hasErr, hasErrL_append, hasErr.hasErrL, Bool.or_eq_true] at he ⊢
    rcases he with he | he | he | he
    · left; cases first <;> simp_all
    · simp [he]
    · left; cases first <;> simp_all
    · simp [he]
  | parEnd => simp [hasErr, hasErr.hasErrL] at he
  | parOk => simp [hasErr, hasErr.hasErrL] at he
  | parErr => simp [hasErr]

/-! ## Obligations are kept until fulfilled -/

/-- `x` has been evaluated successfully, or will be, or an error is on its way up. -/
def Good (log : List Event) (p : Proc) (x : Nat) : Prop :=
  FinOk log x ∨ x ∈ covers p ∨ hasErr p = true

/-- What is known about a goroutine inside `do`. -/
def LInv (g : Glob) (d : Nat) : Phase → Prop
  | .evaluated f r => Event.fin d f r ∈ g.log
  | .stored f r => Event.fin d f r ∈ g.log
  | _ => True

/-- Everything a tree relies on: `dep b a` means `b` has to wait for `a`. -/
def Inv (dep : Nat → Nat → Prop) (g : Glob) : Proc → Prop
  | .leaf d ph => (∀ a, dep d a → FinOk g.log a) ∧ LInv g d ph
  | .seq p e => Inv dep g p ∧ ∀ a, dep e a → Good g.log p a
  | .par ps first e => invL ps ∧
      (∀ b, e = some b → ∀ a, dep b a → Good g.log (.par ps first none) a) ∧
      (∀ x, first = some x → ∃ d f, Event.fin d f (some x) ∈ g.log)
  | .done r => ∀ x, r = some x → ∃ d f, Event.fin d f (some x) ∈ g.log
where invL : List Proc → Prop
  | [] => True
  | p :: ps => Inv dep g p ∧ invL ps

/-- Shared state agrees with the log. -/
structure GInv (g : Glob) : Prop where
  cache : ∀ d r, g.cache d = some r → ∃ f, Event.fin d f r ∈ g.log
  res : ∀ d f r, g.res d f = some r → Event.fin d f r ∈ g.log

theorem invL_append {dep g} (l r : List Proc) :
    Inv.invL dep g (l ++ r) ↔ Inv.invL dep g l ∧ Inv.invL dep g r := by
  induction l with
  | nil => simp [Inv.invL]
  | cons p l ih => simp [Inv.invL, ih, and_assoc]

theorem lstep_ginv {cx d g ph g' p'} (h : LStep cx d g ph g' p') (hg : GInv g) (hl : LInv g d ph) :
    GInv g' := by
  obtain ⟨new, hn⟩ := lstep_log h
  have hc : ∀ d r, g.cache d = some r → ∃ f, Event.fin d f r ∈ g'.log := fun d r hr => by
    obtain ⟨f, hf⟩ := hg.cache d r hr
    exact ⟨f, by rw [hn]; simp [hf]⟩
  have hr : ∀ d f r, g.res d f = some r → Event.fin d f r ∈ g'.log := fun d f r hr => by
    have := hg.res d f r hr
    rw [hn]; simp [this]
  cases h
  case store f r hp =>
    refine ⟨?_, hr⟩
    intro d' r' h'
    simp only [upd] at h'
    split at h'
    · rename_i he; injection h' with h'; subst h' he
      exact ⟨f, hl⟩
    · exact hc d' r' h'
  case leave f r =>
    refine ⟨hc, ?_⟩
    intro d' f' r' h'
    simp only [upd] at h'
    split at h'
    · rename_i he; subst he
      simp only [upd] at h'
      split at h'
      · rename_i he; injection h' with h'; subst h' he; exact hl
      · exact hr d' f' r' h'
    · exact hr d' f' r' h'
  all_goals exact ⟨hc, hr⟩

theorem good_mono {log p x} (new : List Event) (h : Good log p x) : Good (new ++ log) p x := by
  rcases h with h | h
  · exact Or.inl (h.mono new)
  · exact Or.inr h

theorem inv_mono {dep g g'} (new : List Event) (hn : g'.log = new ++ g.log) :
    ∀ p, Inv dep g p → Inv dep g' p := by
  intro p
  refine Proc.rec (motive_1 := fun p => Inv dep g p → Inv dep g' p)
    (motive_2 := fun ps => Inv.invL dep g ps → Inv.invL dep g' ps) ?_ ?_ ?_ ?_ ?_ ?_ p
  · intro d ph ⟨h1, h2⟩
    refine ⟨fun a ha => by rw [hn]; exact (h1 a ha).mono new, ?_⟩
    cases ph <;> simp_all [LInv]
  · intro p e ih ⟨h1, h2⟩
    exact ⟨ih h1, fun a ha => by rw [hn]; exact good_mono new (h2 a ha)⟩
  · intro ps first e ih ⟨h1, h2, h3⟩
    refine ⟨ih h1, fun b hb a ha => by rw [hn]; exact good_mono new (h2 b hb a ha), ?_⟩
    intro x hx
    obtain ⟨d, f, hf⟩ := h3 x hx
    exact ⟨d, f, by rw [hn]; simp [hf]⟩
  · intro r h x hx
    obtain ⟨d, f, hf⟩ := h x hx
    exact ⟨d, f, by rw [hn]; simp [hf]⟩
  · intro _; trivial
  · intro p ps ih1 ih2 ⟨h1, h2⟩
    exact ⟨ih1 h1, ih2 h2⟩

theorem invL_mono {dep g g'} (new : List Event) (hn : g'.log = new ++ g.log) :
    ∀ ps, Inv.invL dep g ps → Inv.invL dep g' ps := by
  intro ps
  induction ps with
  | nil => intro _; trivial
  | cons p ps ih => intro ⟨h1, h2⟩; exact ⟨inv_mono new hn p h1, ih h2⟩

/-- `Good` survives every step. -/
theorem pstep_good {dep cx g p g' p'} (h : PStep cx g p g' p') (hg : GInv g) (hi : Inv dep g p) :
    ∀ x, Good g.log p x → Good g'.log p' x := by
  induction h with
  | @leaf cx d g ph g' p' h =>
    intro x hx
    obtain ⟨new, hn⟩ := lstep_log h
    rcases hx with hx | hx | hx
    · left; rw [hn]; exact hx.mono new
    · simp [covers] at hx; subst hx
      cases h
      case hit r hr =>
        cases r with
        | none => exact Or.inl (hg.cache _ _ hr)
        | some e => right; right; rfl
      case receive f r hr =>
        cases r with
        | none => exact Or.inl ⟨f, hg.res _ _ _ hr⟩
        | some e => right; right; rfl
      case leave f r =>
        cases r with
        | none => exact Or.inl ⟨f, hi.2⟩
        | some e => right; right; rfl
      all_goals exact Or.inr (Or.inl (by simp [covers]))
    · right; right; exact pstep_hasErr (.leaf h) hx
  | @seqRun cx g p g' p' e h ih =>
    intro x hx
    rcases hx with hx | hx | hx
    · exact Or.inl (pstep_finOk h hx)
    · simp only [covers, List.mem_append, List.mem_singleton] at hx
      rcases hx with hx | hx
      · rcases ih hg hi.1 x (Or.inr (Or.inl hx)) with h' | h' | h'
        · exact Or.inl h'
        · exact Or.inr (Or.inl (by simp [covers, h']))
        · exact Or.inr (Or.inr (by simpa [hasErr] using h'))
      · exact Or.inr (Or.inl (by simp [covers, hx]))
    · right; right
      exact pstep_hasErr (.seqRun h) hx
  | seqOk =>
    intro x hx
    rcases hx with hx | hx | hx
    · exact Or.inl hx
    · simp only [covers, List.nil_append] at hx
      exact Or.inr (Or.inl hx)
    · simp [hasErr] at hx
  | seqErr => intro x _; right; right; rfl
  | @parRun cx g p g' p' l r first e h ih =>
    intro x hx
    rcases hx with hx | hx | hx
    · exact Or.inl (pstep_finOk h hx)
    · simp only [covers, coversL_append, covers.coversL, List.mem_append] at hx
      have hip : Inv dep g p := by
        have := (invL_append l (p :: r)).mp hi.1
        exact this.2.1
      rcases hx with (hx | hx | hx) | hx
      · exact Or.inr (Or.inl (by simp [covers, coversL_append, hx]))
      · rcases ih hg hip x (Or.inr (Or.inl hx)) with h' | h' | h'
        · exact Or.inl h'
        · exact Or.inr (Or.inl (by simp [covers, coversL_append, covers.coversL, h']))
        · exact Or.inr (Or.inr (by simp [hasErr, hasErrL_append, hasErr.hasErrL, h']))
      · exact Or.inr (Or.inl (by simp [covers, coversL_append, covers.coversL, hx]))
      · exact Or.inr (Or.inl (by simp [covers, hx]))
    · right; right; exact pstep_hasErr (.parRun h) hx
  | @parCollect cx g y l r first e =>
    intro x hx
    rcases hx with hx | hx | hx
    · exact Or.inl hx
    · simp only [covers, coversL_append, covers.coversL, List.nil_append] at hx
      exact Or.inr (Or.inl (by simpa [covers, coversL_append] using hx))
    · right; right; exact pstep_hasErr (cx := cx) (g := g) .parCollect hx
  | @parEnd cx g e =>
    intro x hx
    rcases hx with hx | hx | hx
    · exact Or.inl hx
    · simp [covers, covers.coversL] at hx
      exact Or.inr (Or.inl (by simp [covers, hx]))
    · simp [hasErr, hasErr.hasErrL] at hx
  | parOk =>
    intro x hx
    rcases hx with hx | hx | hx
    · exact Or.inl hx
    · simp [covers, covers.coversL] at hx
    · simp [hasErr, hasErr.hasErrL] at hx
  | parErr => intro x _; right; right; rfl

theorem good_done {log x} (h : Good log (.done none) x) : FinOk log x := by
  rcases h with h | h | h
  · exact h
  · cases h
  · cases h

/-- The tree invariant and the shared-state invariant survive every step. -/
theorem pstep_inv {dep cx g p g' p'} (h : PStep cx g p g' p') (hg : GInv g) (hi : Inv dep g p) :
    GInv g' ∧ Inv dep g' p' := by
  induction h with
  | @leaf cx d g ph g' p' h =>
    refine ⟨lstep_ginv h hg hi.2, ?_⟩
    obtain ⟨new, hn⟩ := lstep_log h
    have hdep : ∀ a, dep d a → FinOk g'.log a := fun a ha => by rw [hn]; exact (hi.1 a ha).mono new
    cases h
    case hit r hr =>
      intro x hx; subst hx
      obtain ⟨f, hf⟩ := hg.cache _ _ hr
      exact ⟨d, f, hf⟩
    case receive f r hr =>
      intro x hx; subst hx
      exact ⟨d, _, hg.res _ _ _ hr⟩
    case leave f r =>
      intro x hx; subst hx
      exact ⟨d, f, hi.2⟩
    case finish f r _ => exact ⟨hdep, by simp [LInv]⟩
    case store f r _ => exact ⟨hdep, hi.2⟩
    case unwind f r _ => exact ⟨hdep, hi.2⟩
    all_goals exact ⟨hdep, trivial⟩
  | @seqRun cx g p g' p' e h ih =>
    obtain ⟨h1, h2⟩ := ih hg hi.1
    exact ⟨h1, h2, fun a ha => pstep_good h hg hi.1 a (hi.2 a ha)⟩
  | @seqOk cx g e =>
    exact ⟨hg, fun a ha => good_done (hi.2 a ha), trivial⟩
  | seqErr => exact ⟨hg, hi.1⟩
  | @parRun cx g p g' p' l r first e h ih =>
    obtain ⟨h1, h2, h3⟩ := hi
    have h1' := (invL_append l (p :: r)).mp h1
    obtain ⟨h4, h5⟩ := ih hg h1'.2.1
    obtain ⟨new, hn⟩ := pstep_log h
    refine ⟨h4, ?_, ?_, ?_⟩
    · rw [invL_append]
      exact ⟨invL_mono new hn l h1'.1, h5, invL_mono new hn r h1'.2.2⟩
    · intro b hb a ha
      exact pstep_good (.parRun (cx := cx) (e := none) h) hg
        (dep := dep) ⟨h1, (by intro b hb; cases hb), h3⟩ a (h2 b hb a ha)
    · intro x hx
      obtain ⟨d, f, hf⟩ := h3 x hx
      exact ⟨d, f, by rw [hn]; simp [hf]⟩
  | @parCollect cx g y l r first e =>
    obtain ⟨h1, h2, h3⟩ := hi
    have h1' := (invL_append l (.done y :: r)).mp h1
    refine ⟨hg, ?_, ?_, ?_⟩
    · rw [invL_append]; exact ⟨h1'.1, h1'.2.2⟩
    · intro b hb a ha
      exact pstep_good (.parCollect (cx := cx) (e := none)) hg
        (dep := dep) ⟨h1, (by intro b hb; cases hb), h3⟩ a (h2 b hb a ha)
    · intro x hx
      cases first with
      | some z => exact h3 x (by simpa using hx)
      | none => exact h1'.2.1 x (by simpa using hx)
  | @parEnd cx g e =>
    obtain ⟨h1, h2, h3⟩ := hi
    refine ⟨hg, fun a ha => ?_, trivial⟩
    rcases h2 e rfl a ha with h | h | h
    · exact h
    · simp [covers, covers.coversL] at h
    · simp [hasErr, hasErr.hasErrL] at h
  | parOk => exact ⟨hg, by intro x hx; cases hx⟩
  | parErr => exact ⟨hg, fun x hx => hi.2.2 x (by simpa using hx)⟩

/-! ## Starting a plan -/

theorem last_mem_covers (G : Grp) : G.last ∈ covers (start G) := by
  cases G <;> simp [start, covers, Grp.last]

theorem lasts_covers {ss : List Grp} {a : Nat} (h : a ∈ ss.map Grp.last) :
    a ∈ covers.coversL (start.go ss) := by
  induction ss with
  | nil => cases h
  | cons s ss ih =>
    simp only [List.map_cons, List.mem_cons] at h
    simp only [start.go, covers.coversL, List.mem_append]
    rcases h with rfl | h
    · exact Or.inl (last_mem_covers s)
    · exact Or.inr (ih h)

theorem start_inv {dep : Nat → Nat → Prop} {g : Glob} (G : Grp) (hf : G.Follows dep) :
    Inv dep g (start G) := by
  revert hf
  refine Grp.rec (motive_1 := fun G => G.Follows dep → Inv dep g (start G))
    (motive_2 := fun ss => Grp.Follows.go dep ss → Inv.invL dep g (start.go ss)) ?_ ?_ ?_ ?_ ?_ G
  · intro e h
    exact ⟨fun a ha => absurd ha (h a), trivial⟩
  · intro s e ih ⟨h1, h2⟩
    refine ⟨ih h2, fun a ha => Or.inr (Or.inl ?_)⟩
    rw [(h1 a).mp ha]; exact last_mem_covers s
  · intro ss e ih ⟨h1, h2⟩
    refine ⟨ih h2, ?_, by intro x hx; cases hx⟩
    intro b hb a ha
    injection hb with hb; subst hb
    exact Or.inr (Or.inl (by simpa [covers] using lasts_covers ((h1 a).mp ha)))
  · intro _; trivial
  · intro s ss ih1 ih2 ⟨h1, h2⟩
    exact ⟨ih1 h1, ih2 h2⟩

theorem startL_inv {dep : Nat → Nat → Prop} {g : Glob} (gs : List Grp)
    (hf : ∀ G ∈ gs, G.Follows dep) : Inv.invL dep g (gs.map start) := by
  induction gs with
  | nil => trivial
  | cons G gs ih => exact ⟨start_inv G (hf G (by simp)), ih fun G hG => hf G (by simp [hG])⟩

theorem startAll_inv {dep : Nat → Nat → Prop} {g : Glob} (gs : List Grp)
    (hf : ∀ G ∈ gs, G.Follows dep) : Inv dep g (startAll gs) := by
  unfold startAll
  split
  · intro x hx; cases hx
  · exact start_inv _ (hf _ (by simp))
  · exact ⟨startL_inv gs hf, (by intro b hb; cases hb), by intro x hx; cases hx⟩

theorem ginv_init : GInv Glob.init :=
  ⟨fun d r h => (by cases h), fun d f r h => (by cases h)⟩

theorem defs_covers (G : Grp) : ∀ x ∈ G.defs, x ∈ covers (start G) := by
  refine Grp.rec (motive_1 := fun G => ∀ x ∈ G.defs, x ∈ covers (start G))
    (motive_2 := fun ss => ∀ x ∈ Grp.defs.go ss, x ∈ covers.coversL (start.go ss)) ?_ ?_ ?_ ?_ ?_ G
  · intro e x hx; simpa [Grp.defs, start, covers] using hx
  · intro s e ih x hx
    simp only [Grp.defs, List.mem_append] at hx
    simp only [start, covers, List.mem_append]
    exact hx.imp (ih x) id
  · intro ss e ih x hx
    simp only [Grp.defs, List.mem_append] at hx
    simp only [start, covers, List.mem_append]
    exact hx.imp (ih x) (by simp)
  · intro x hx; cases hx
  · intro s ss ih1 ih2 x hx
    simp only [Grp.defs.go, List.mem_append] at hx
    simp only [start.go, covers.coversL, List.mem_append]
    exact hx.imp (ih1 x) (ih2 x)

theorem startAll_covers (gs : List Grp) : ∀ G ∈ gs, ∀ x ∈ G.defs, x ∈ covers (startAll gs) := by
  intro G hG x hx
  unfold startAll
  split
  · cases hG
  · simp at hG; subst hG; exact defs_covers _ x hx
  · simp only [covers, Option.toList, List.append_nil]
    rename_i h1 h2
    clear h1 h2
    induction gs with
    | nil => cases hG
    | cons K gs ih =>
      simp only [List.map_cons, covers.coversL, List.mem_append]
      rcases List.mem_cons.mp hG with rfl | hG
      · exact Or.inl (defs_covers _ x hx)
      · exact Or.inr (ih hG)

/-! ## What every reachable state satisfies -/

/-- Starts in the log are only added when the dependencies are there. -/
theorem pstep_startsAfter {dep cx g p g' p'} (h : PStep cx g p g' p') (hi : Inv dep g p)
    (hs : StartsAfter dep g.log) : StartsAfter dep g'.log := by
  induction h with
  | @leaf cx d g ph g' p' h =>
    cases h
    case lead =>
      intro post b f pre he a ha
      cases post with
      | nil =>
        simp only [List.nil_append, List.cons.injEq, Event.start.injEq] at he
        obtain ⟨⟨rfl, rfl⟩, rfl⟩ := he
        exact hi.1 a ha
      | cons q post =>
        simp only [List.cons_append, List.cons.injEq] at he
        exact hs post b f pre he.2 a ha
    case finish =>
      intro post b f pre he a ha
      cases post with
      | nil => simp at he
      | cons q post =>
        simp only [List.cons_append, List.cons.injEq] at he
        exact hs post b f pre he.2 a ha
    all_goals exact hs
  | seqRun _ ih => exact ih hi.1 hs
  | @parRun cx g p g' p' l r first e h ih =>
    exact ih ((invL_append l (p :: r)).mp hi.1).2.1 hs
  | _ => exact hs

/-- Failures in the log are on their way up. -/
theorem pstep_failures {cx g p g' p'} (h : PStep cx g p g' p')
    (hs : ∀ d f x, Event.fin d f (some x) ∈ g.log → hasErr p = true) :
    ∀ d f x, Event.fin d f (some x) ∈ g'.log → hasErr p' = true := by
  have key : ∀ {cx g p g' p'}, PStep cx g p g' p' → ∀ d f x, Event.fin d f (some x) ∈ g'.log →
      Event.fin d f (some x) ∈ g.log ∨ hasErr p' = true := by
    intro cx g p g' p' h
    induction h with
    | leaf h =>
      intro d f x hx
      cases h
      case lead => simp at hx; exact Or.inl hx
      case finish =>
        simp at hx
        rcases hx with ⟨_, _, rfl⟩ | hx
        · right; rfl
        · exact Or.inl hx
      all_goals exact Or.inl hx
    | seqRun _ ih =>
      intro d f x hx
      exact (ih d f x hx).imp id fun h => by simpa [hasErr] using h
    | parRun _ ih =>
      intro d f x hx
      exact (ih d f x hx).imp id fun h => by simp [hasErr, hasErrL_append, hasErr.hasErrL, h]
    | _ => intro d f x hx; exact Or.inl hx
  intro d f x hx
  rcases key h d f x hx with h' | h'
  · exact pstep_hasErr h (hs d f x h')
  · exact h'

structure SInv (dep : Nat → Nat → Prop) (T : Nat → Prop) (s : Sys) : Prop where
  ginv : GInv s.g
  inv : Inv dep s.g s.p
  starts : StartsAfter dep s.g.log
  good : ∀ x, T x → Good s.g.log s.p x
  fails : ∀ d f x, Event.fin d f (some x) ∈ s.g.log → hasErr s.p = true

theorem reach_sinv {dep : Nat → Nat → Prop} {gs : List Grp} {ext : Bool}
    (hf : ∀ G ∈ gs, G.Follows dep) {s : Sys} (h : Reach gs ext s) :
    SInv dep (fun x => ∃ G ∈ gs, x ∈ G.defs) s := by
  induction h with
  | init =>
    refine ⟨ginv_init, startAll_inv gs hf, ?_, ?_, ?_⟩
    · intro post b f pre he
      simp [Sys.init, Glob.init] at he
    · intro x ⟨G, hG, hx⟩
      exact Or.inr (Or.inl (startAll_covers gs G hG x hx))
    · intro d f x hx; simp [Sys.init, Glob.init] at hx
  | step _ hs ih =>
    cases hs with
    | proc h =>
      obtain ⟨h1, h2⟩ := pstep_inv h ih.ginv ih.inv
      exact ⟨h1, h2, pstep_startsAfter h ih.inv ih.starts,
        fun x hx => pstep_good h ih.ginv ih.inv x (ih.good x hx), pstep_failures h ih.fails⟩
    | cancel => exact ⟨ih.ginv, ih.inv, ih.starts, ih.good, ih.fails⟩

/-! ## Flights -/

/-- How a step changes the set of led flights. -/
inductive LeadChange (g g' : Glob) (ls ls' : List (Nat × Nat)) : Prop where
  | same : ls'.Perm ls → g'.cur = g.cur → g'.next = g.next → (∀ d f, g.res d f ≠ none → g'.res d f ≠ none) →
      (∀ d f, Event.start d f ∈ g'.log → Event.start d f ∈ g.log) → LeadChange g g' ls ls'
  | lead {d} : ls'.Perm ((d, g.next) :: ls) → g.cur d = none → g'.cur = upd g.cur d (some g.next) →
      g'.next = g.next + 1 → g'.res = g.res → g'.log = .start d g.next :: g.log → LeadChange g g' ls ls'
  | leave {d f r} : ls.Perm ((d, f) :: ls') → g'.cur = upd g.cur d none → g'.next = g.next →
      g'.res = upd g.res d (upd (g.res d) f (some r)) → g'.log = g.log →
      Event.fin d f r ∈ g.log → LeadChange g g' ls ls'

theorem LeadChange.frame {g g' ls ls'} (l r : List (Nat × Nat)) (h : LeadChange g g' ls ls') :
    LeadChange g g' (l ++ (ls ++ r)) (l ++ (ls' ++ r)) := by
  cases h with
  | same h1 h2 h3 h4 h5 => exact .same ((h1.append_right r).append_left l) h2 h3 h4 h5
  | @lead d h1 h2 h3 h4 h5 h6 =>
    refine .lead (d := d) ?_ h2 h3 h4 h5 h6
    exact ((h1.append_right r).append_left l).trans List.perm_middle
  | @leave d f rr h1 h2 h3 h4 h5 h6 =>
    refine .leave (d := d) (f := f) (r := rr) ?_ h2 h3 h4 h5 h6
    exact ((h1.append_right r).append_left l).trans List.perm_middle

theorem pstep_leads {dep cx g p g' p'} (h : PStep cx g p g' p') (hi : Inv dep g p) :
    LeadChange g g' (leads p) (leads p') := by
  induction h with
  | @leaf cx d g ph g' p' h =>
    cases h
    case lead hc => exact .lead (d := d) (List.Perm.refl _) hc rfl rfl rfl rfl
    case leave f r => exact .leave (d := d) (f := f) (r := r) (List.Perm.refl _) rfl rfl rfl rfl hi.2
    case finish => exact .same (List.Perm.refl _) rfl rfl (fun _ _ h => h) (by simp)
    all_goals exact .same (List.Perm.refl _) rfl rfl (fun _ _ h => h) (fun _ _ h => h)
  | seqRun _ ih => exact ih hi.1
  | @parRun cx g p g' p' l r first e h ih =>
    have := ih ((invL_append l (p :: r)).mp hi.1).2.1
    simp only [leads, leadsL_append, leads.leadsL]
    exact this.frame _ _
  | parCollect =>
    refine .same ?_ rfl rfl (fun _ _ h => h) (fun _ _ h => h)
    simp [leads, leadsL_append, leads.leadsL]
  | _ =>
    exact .same (by simp [leads, leads.leadsL]) rfl rfl (fun _ _ h => h) (fun _ _ h => h)

/-- Flights a tree waits for. -/
def waits : Proc → List (Nat × Nat)
  | .leaf d (.waiting f) => [(d, f)]
  | .leaf _ _ => []
  | .seq p _ => waits p
  | .par ps _ _ => waitsL ps
  | .done _ => []
where waitsL : List Proc → List (Nat × Nat)
  | [] => []
  | p :: ps => waits p ++ waitsL ps

theorem waitsL_append (l r : List Proc) :
    waits.waitsL (l ++ r) = waits.waitsL l ++ waits.waitsL r := by
  induction l with
  | nil => rfl
  | cons p l ih => simp [waits.waitsL, ih]

theorem pstep_waits {cx g p g' p'} (h : PStep cx g p g' p') :
    ∀ d f, (d, f) ∈ waits p' → (d, f) ∈ waits p ∨ g.cur d = some f := by
  induction h with
  | leaf h =>
    intro d f hw
    cases h
    case join hc => simp [waits] at hw; obtain ⟨rfl, rfl⟩ := hw; exact Or.inr hc
    all_goals simp [waits] at hw
  | seqRun _ ih => intro d f hw; exact ih d f (by simpa [waits] using hw)
  | parRun _ ih =>
    intro d f hw
    simp only [waits, waitsL_append, waits.waitsL, List.mem_append] at hw ⊢
    rcases hw with hw | hw | hw
    · simp [hw]
    · rcases ih d f hw with h | h <;> simp [h]
    · simp [hw]
  | parCollect =>
    intro d f hw
    simp only [waits, waitsL_append, waits.waitsL, List.mem_append] at hw ⊢
    rcases hw with hw | hw <;> simp [hw]
  | _ => intro d f hw; simp [waits] at hw

structure FInv (s : Sys) : Prop where
  nodup : (leads s.p).Nodup
  cur : ∀ d f, s.g.cur d = some f ↔ (d, f) ∈ leads s.p
  fresh : ∀ d f, (d, f) ∈ leads s.p → f < s.g.next
  waits : ∀ d f, (d, f) ∈ waits s.p → s.g.res d f ≠ none ∨ s.g.cur d = some f
  starts : ∀ d f, Event.start d f ∈ s.g.log → (∃ r, Event.fin d f r ∈ s.g.log) ∨ s.g.cur d = some f
  overlap : NoOverlap s.g.log

theorem leads_init (gs : List Grp) : leads (startAll gs) = [] ∧ waits (startAll gs) = [] := by
  have h1 : ∀ G : Grp, leads (start G) = [] ∧ waits (start G) = [] := by
    intro G
    refine Grp.rec (motive_1 := fun G => leads (start G) = [] ∧ waits (start G) = [])
      (motive_2 := fun ss => leads.leadsL (start.go ss) = [] ∧ waits.waitsL (start.go ss) = [])
      ?_ ?_ ?_ ?_ ?_ G
    · intro e; simp [start, leads, waits]
    · intro s e ih; simpa [start, leads, waits] using ih
    · intro s e ih; simpa [start, leads, waits] using ih
    · simp [start.go, leads.leadsL, waits.waitsL]
    · intro s ss ih1 ih2; simp [start.go, leads.leadsL, waits.waitsL, ih1, ih2]
  have h2 : ∀ gs : List Grp, leads.leadsL (gs.map start) = [] ∧ waits.waitsL (gs.map start) = [] := by
    intro gs
    induction gs with
    | nil => simp [leads.leadsL, waits.waitsL]
    | cons G gs ih => simp [leads.leadsL, waits.waitsL, h1, ih]
  unfold startAll
  split
  · simp [leads, waits]
  · exact h1 _
  · exact h2 gs

theorem noOverlap_cons {log : List Event} {e : Event} (h : NoOverlap log)
    (he : ∀ d f, e = .start d f → ∀ f', Event.start d f' ∈ log → ∃ r, Event.fin d f' r ∈ log) :
    NoOverlap (e :: log) := by
  intro post d f pre heq f' hf'
  cases post with
  | nil =>
    simp only [List.nil_append, List.cons.injEq] at heq
    obtain ⟨rfl, rfl⟩ := heq
    exact he d f rfl f' hf'
  | cons q post =>
    simp only [List.cons_append, List.cons.injEq] at heq
    exact h post d f pre heq.2 f' hf'

theorem pstep_overlap {cx g p g' p'} (h : PStep cx g p g' p') (ho : NoOverlap g.log)
    (hst : ∀ d f, Event.start d f ∈ g.log → (∃ r, Event.fin d f r ∈ g.log) ∨ g.cur d = some f) :
    NoOverlap g'.log := by
  induction h with
  | leaf h =>
    cases h
    case lead hc =>
      refine noOverlap_cons ho ?_
      intro d f he f' hf'
      injection he with h1 h2; subst h1
      rcases hst _ f' hf' with h | h
      · exact h
      · rw [hc] at h; cases h
    case finish =>
      refine noOverlap_cons ho ?_
      intro d f he; cases he
    all_goals exact ho
  | seqRun _ ih => exact ih ho hst
  | parRun _ ih => exact ih ho hst
  | _ => exact ho

theorem reach_finv {dep : Nat → Nat → Prop} {gs : List Grp} {ext : Bool}
    (hf : ∀ G ∈ gs, G.Follows dep) {s : Sys} (h : Reach gs ext s) : FInv s := by
  induction h with
  | init =>
    obtain ⟨h1, h2⟩ := leads_init gs
    refine ⟨?_, ?_, ?_, ?_, ?_, ?_⟩
    · simp [Sys.init, h1]
    · simp [Sys.init, h1, Glob.init]
    · simp [Sys.init, h1]
    · simp [Sys.init, h2]
    · simp [Sys.init, Glob.init]
    · intro post d f pre he; simp [Sys.init, Glob.init] at he
  | @step s s' hr hs ih =>
    have si := reach_sinv hf hr
    cases hs with
    | cancel => exact ⟨ih.nodup, ih.cur, ih.fresh, ih.waits, ih.starts, ih.overlap⟩
    | @proc g p ext g' p' h =>
      have ho := pstep_overlap h ih.overlap ih.starts
      have hw := pstep_waits h
      obtain ⟨new, hn⟩ := pstep_log h
      have hfin : ∀ d f r, Event.fin d f r ∈ g.log → Event.fin d f r ∈ g'.log := by
        intro d f r h; rw [hn]; simp [h]
      have hlc := pstep_leads h si.inv
      obtain ⟨i1, i2, i3, i4, i5, i6⟩ := ih
      dsimp only at i1 i2 i3 i4 i5 i6 ho hw hlc ⊢
      cases hlc with
      | same h1 h2 h3 h4 h5 =>
        refine ⟨h1.nodup_iff.mpr i1, ?_, ?_, ?_, ?_, ho⟩
        · intro d f; dsimp only; rw [h2, i2, h1.mem_iff]
        · intro d f hd; dsimp only at hd ⊢; rw [h3]; exact i3 d f (h1.mem_iff.mp hd)
        · intro d f hd; dsimp only at hd ⊢; rw [h2]
          rcases hw d f hd with h' | h'
          · exact (i4 d f h').imp (h4 d f) id
          · exact Or.inr h'
        · intro d f hd; dsimp only at hd ⊢; rw [h2]
          exact (i5 d f (h5 d f hd)).imp (fun ⟨r, hr⟩ => ⟨r, hfin d f r hr⟩) id
      | @lead d0 h1 h2 h3 h4 h5 h6 =>
        have hnot : ∀ f, (d0, f) ∉ leads p := by
          intro f hc
          have := (i2 d0 f).mpr hc
          rw [h2] at this; cases this
        have hcur : ∀ d f, g.cur d = some f → g'.cur d = some f := by
          intro d f hd
          rw [h3]; simp only [upd]
          split
          · rename_i he; subst he; rw [h2] at hd; cases hd
          · exact hd
        refine ⟨?_, ?_, ?_, ?_, ?_, ho⟩
        · exact h1.nodup_iff.mpr (List.nodup_cons.mpr ⟨hnot _, i1⟩)
        · intro d f
          dsimp only
          rw [h1.mem_iff, h3]
          simp only [upd, List.mem_cons, Prod.mk.injEq]
          split
          · rename_i he; subst he
            constructor
            · intro h'; injection h' with h'; exact Or.inl ⟨rfl, h'.symm⟩
            · rintro (⟨_, rfl⟩ | h')
              · rfl
              · exact absurd h' (hnot f)
          · rename_i he
            rw [i2]
            constructor
            · exact Or.inr
            · rintro (⟨h', _⟩ | h')
              · exact absurd h' he
              · exact h'
        · intro d f hd
          dsimp only at hd ⊢
          rw [h4]
          rcases List.mem_cons.mp (h1.mem_iff.mp hd) with h' | h'
          · injection h' with _ h'; omega
          · have := i3 d f h'; omega
        · intro d f hd
          dsimp only at hd ⊢
          rw [h5]
          rcases hw d f hd with h' | h'
          · exact (i4 d f h').imp id (hcur d f)
          · exact Or.inr (hcur d f h')
        · intro d f hd
          dsimp only at hd ⊢
          rw [h6] at hd
          rcases List.mem_cons.mp hd with h' | h'
          · injection h' with h7 h8; subst h7 h8
            right; rw [h3]; simp [upd]
          · exact (i5 d f h').imp (fun ⟨r, hr⟩ => ⟨r, hfin d f r hr⟩) (hcur d f)
      | @leave d0 f0 r0 h1 h2 h3 h4 h5 h6 =>
        have hnd := List.nodup_cons.mp (h1.nodup_iff.mp i1)
        have hcur0 : g.cur d0 = some f0 := (i2 d0 f0).mpr (h1.mem_iff.mpr (by simp))
        have hres : ∀ d f, g.res d f ≠ none → g'.res d f ≠ none := by
          intro d f hd
          rw [h4]; simp only [upd]
          split
          · rename_i he; subst he
            simp only [upd]
            split
            · simp
            · exact hd
          · exact hd
        have hcur : ∀ d f, g.cur d = some f → (d = d0 ∧ f = f0) ∨ g'.cur d = some f := by
          intro d f hd
          by_cases he : d = d0
          · subst he; rw [hcur0] at hd; injection hd with hd; exact Or.inl ⟨rfl, hd.symm⟩
          · right; rw [h2]; simp [upd, he, hd]
        have hw' : ∀ d f, g.res d f ≠ none ∨ g.cur d = some f → g'.res d f ≠ none ∨ g'.cur d = some f := by
          rintro d f (h' | h')
          · exact Or.inl (hres d f h')
          · rcases hcur d f h' with ⟨rfl, rfl⟩ | h'
            · left; rw [h4]; simp [upd]
            · exact Or.inr h'
        refine ⟨hnd.2, ?_, ?_, ?_, ?_, ho⟩
        · intro d f
          dsimp only
          constructor
          · intro hd
            rw [h2] at hd
            simp only [upd] at hd
            split at hd
            · cases hd
            · rename_i he
              have := h1.mem_iff.mp ((i2 d f).mp hd)
              rcases List.mem_cons.mp this with h' | h'
              · injection h' with h' _; exact absurd h' he
              · exact h'
          · intro hd
            have hc := (i2 d f).mpr (h1.mem_iff.mpr (List.mem_cons_of_mem _ hd))
            rcases hcur d f hc with ⟨rfl, rfl⟩ | h'
            · exact absurd hd hnd.1
            · exact h'
        · intro d f hd
          dsimp only at hd ⊢
          rw [h3]
          exact i3 d f (h1.mem_iff.mpr (List.mem_cons_of_mem _ hd))
        · intro d f hd
          dsimp only at hd ⊢
          rcases hw d f hd with h' | h'
          · exact hw' d f (i4 d f h')
          · exact hw' d f (Or.inr h')
        · intro d f hd
          dsimp only at hd ⊢
          rw [h5] at hd ⊢
          rcases i5 d f hd with h' | h'
          · exact Or.inl h'
          · rcases hcur d f h' with ⟨rfl, rfl⟩ | h'
            · exact Or.inl ⟨r0, h6⟩
            · exact Or.inr h'

/-! ## Progress -/

theorem allowed_ok (cx : Bool) (d : Nat) : Allowed cx d none := trivial

/-- A goroutine leading a flight can always move, so a tree containing one can. -/
theorem progress_lead (p : Proc) : ∀ (cx : Bool) (g : Glob), leads p ≠ [] → ∃ g' p', PStep cx g p g' p' := by
  refine Proc.rec (motive_1 := fun p => ∀ (cx : Bool) (g : Glob), leads p ≠ [] → ∃ g' p', PStep cx g p g' p')
    (motive_2 := fun ps => ∀ (cx : Bool) (g : Glob), leads.leadsL ps ≠ [] →
      ∃ l p r g' p', ps = l ++ p :: r ∧ PStep cx g p g' p') ?_ ?_ ?_ ?_ ?_ ?_ p
  · intro d ph cx g h
    cases ph with
    | leading f => exact ⟨_, _, .leaf (.finish (r := none) trivial)⟩
    | evaluated f r =>
      by_cases hp : IsPanic r
      · exact ⟨_, _, .leaf (.unwind hp)⟩
      · exact ⟨_, _, .leaf (.store hp)⟩
    | stored f r => exact ⟨_, _, .leaf .leave⟩
    | _ => simp [leads] at h
  · intro p e ih cx g h
    obtain ⟨g', p', h'⟩ := ih cx g (by simpa [leads] using h)
    exact ⟨_, _, .seqRun h'⟩
  · intro ps first e ih cx g h
    obtain ⟨l, p, r, g', p', rfl, h'⟩ := ih (cx || first.isSome) g (by simpa [leads] using h)
    exact ⟨_, _, .parRun h'⟩
  · intro r cx g h; simp [leads] at h
  · intro cx g h; simp [leads.leadsL] at h
  · intro p ps ih1 ih2 cx g h
    by_cases hp : leads p = []
    · have : leads.leadsL ps ≠ [] := by simpa [leads.leadsL, hp] using h
      obtain ⟨l, q, r, g', p', rfl, h'⟩ := ih2 cx g this
      exact ⟨p :: l, q, r, g', p', rfl, h'⟩
    · obtain ⟨g', p', h'⟩ := ih1 cx g hp
      exact ⟨[], p, ps, g', p', rfl, h'⟩

/-- Without unresolved flights everything that is not finished can move. -/
theorem progress_free (p : Proc) : ∀ (cx : Bool) (g : Glob), (∀ d f, (d, f) ∈ waits p → g.res d f ≠ none) →
    (∃ r, p = .done r) ∨ ∃ g' p', PStep cx g p g' p' := by
  refine Proc.rec (motive_1 := fun p => ∀ (cx : Bool) (g : Glob), (∀ d f, (d, f) ∈ waits p → g.res d f ≠ none) →
      (∃ r, p = .done r) ∨ ∃ g' p', PStep cx g p g' p')
    (motive_2 := fun ps => ∀ (cx : Bool) (g : Glob), (∀ d f, (d, f) ∈ waits.waitsL ps → g.res d f ≠ none) →
      ps = [] ∨ ∃ l p r, ps = l ++ p :: r ∧ ((∃ x, p = .done x) ∨ ∃ g' p', PStep cx g p g' p'))
    ?_ ?_ ?_ ?_ ?_ ?_ p
  · intro d ph cx g h
    right
    cases ph with
    | called =>
      cases hc : g.cache d with
      | none => exact ⟨_, _, .leaf (.miss hc)⟩
      | some r => exact ⟨_, _, .leaf (.hit hc)⟩
    | missed =>
      cases hc : g.cur d with
      | none => exact ⟨_, _, .leaf (.lead hc)⟩
      | some r => exact ⟨_, _, .leaf (.join hc)⟩
    | leading f => exact ⟨_, _, .leaf (.finish (r := none) trivial)⟩
    | evaluated f r =>
      by_cases hp : IsPanic r
      · exact ⟨_, _, .leaf (.unwind hp)⟩
      · exact ⟨_, _, .leaf (.store hp)⟩
    | stored f r => exact ⟨_, _, .leaf .leave⟩
    | waiting f =>
      have := h d f (by simp [waits])
      cases hr : g.res d f with
      | none => exact absurd hr this
      | some r => exact ⟨_, _, .leaf (.receive hr)⟩
  · intro p e ih cx g h
    right
    rcases ih cx g (by simpa [waits] using h) with ⟨r, rfl⟩ | ⟨g', p', h'⟩
    · cases r with
      | none => exact ⟨_, _, .seqOk⟩
      | some x => exact ⟨_, _, .seqErr⟩
    · exact ⟨_, _, .seqRun h'⟩
  · intro ps first e ih cx g h
    right
    rcases ih (cx || first.isSome) g (by simpa [waits] using h) with rfl | ⟨l, p, r, rfl, (⟨x, rfl⟩ | ⟨g', p', h'⟩)⟩
    · cases first with
      | some x => exact ⟨_, _, .parErr⟩
      | none =>
        cases e with
        | none => exact ⟨_, _, .parOk⟩
        | some e => exact ⟨_, _, .parEnd⟩
    · exact ⟨_, _, .parCollect⟩
    · exact ⟨_, _, .parRun h'⟩
  · intro r cx g h; exact Or.inl ⟨r, rfl⟩
  · intro cx g h; exact Or.inl rfl
  · intro p ps ih1 ih2 cx g h
    right
    refine ⟨[], p, ps, rfl, ih1 cx g fun d f hd => h d f (by simp [waits.waitsL, hd])⟩

theorem progress {s : Sys} (hfi : FInv s) : (∃ r, s.p = .done r) ∨ ∃ s', SStep s s' := by
  by_cases hl : leads s.p = []
  · have : ∀ d f, (d, f) ∈ waits s.p → s.g.res d f ≠ none := by
      intro d f hd
      rcases hfi.waits d f hd with h | h
      · exact h
      · have := (hfi.cur d f).mp h
        rw [hl] at this; cases this
    rcases progress_free s.p s.ext s.g this with h | ⟨g', p', h⟩
    · exact Or.inl h
    · exact Or.inr ⟨_, .proc h⟩
  · obtain ⟨g', p', h⟩ := progress_lead s.p s.ext s.g hl
    exact Or.inr ⟨_, .proc h⟩

/-! ## Soundness of the executable steps -/

theorem allowedB_iff {cx d r} : allowedB cx d r = true ↔ Allowed cx d r := by
  cases r with
  | none => simp [allowedB, Allowed]
  | some x => cases x <;> simp [allowedB, Allowed]

theorem lstep_sound {cx d c g ph g' p'} (h : lstep cx d c g ph = some (g', p')) :
    LStep cx d g ph g' p' := by
  cases ph with
  | called =>
    simp only [lstep] at h
    split at h <;> (simp only [Option.some.injEq, Prod.mk.injEq] at h; obtain ⟨rfl, rfl⟩ := h)
    · exact .hit (by assumption)
    · exact .miss (by assumption)
  | missed =>
    simp only [lstep] at h
    split at h <;> (simp only [Option.some.injEq, Prod.mk.injEq] at h; obtain ⟨rfl, rfl⟩ := h)
    · exact .join (by assumption)
    · exact .lead (by assumption)
  | leading f =>
    simp only [lstep] at h
    split at h
    · split at h
      · rename_i ha
        simp only [Option.some.injEq, Prod.mk.injEq] at h; obtain ⟨rfl, rfl⟩ := h
        exact .finish (allowedB_iff.mp ha)
      · cases h
    · cases h
  | evaluated f r =>
    simp only [lstep] at h
    split at h
    · simp only [Option.some.injEq, Prod.mk.injEq] at h; obtain ⟨rfl, rfl⟩ := h
      exact .unwind trivial
    · rename_i hne
      simp only [Option.some.injEq, Prod.mk.injEq] at h; obtain ⟨rfl, rfl⟩ := h
      refine .store ?_
      intro hp
      unfold IsPanic at hp
      split at hp
      · exact hne _ rfl
      · exact hp
  | stored f r =>
    simp only [lstep, Option.some.injEq, Prod.mk.injEq] at h
    obtain ⟨rfl, rfl⟩ := h
    exact .leave
  | waiting f =>
    simp only [lstep] at h
    split at h
    · simp only [Option.some.injEq, Prod.mk.injEq] at h; obtain ⟨rfl, rfl⟩ := h
      exact .receive (by assumption)
    · cases h

theorem split_at {α : Type} {ps : List α} {i : Nat} {p : α} (h : ps[i]? = some p) :
    ps = ps.take i ++ p :: ps.drop (i + 1) := by
  obtain ⟨hi, rfl⟩ := List.getElem?_eq_some_iff.mp h
  simp

theorem set_at {α : Type} {ps : List α} {i : Nat} {p q : α} (h : ps[i]? = some p) :
    ps.set i q = ps.take i ++ q :: ps.drop (i + 1) := by
  obtain ⟨hi, rfl⟩ := List.getElem?_eq_some_iff.mp h
  rw [List.set_eq_take_append_cons_drop]; simp [hi]

theorem pstep_sound {cx c path g p g' p'} (h : pstep cx c path g p = some (g', p')) :
    PStep cx g p g' p' := by
  induction path generalizing cx p g' p' with
  | nil =>
    cases p with
    | leaf d ph => exact .leaf (lstep_sound h)
    | done r => simp [pstep] at h
    | seq p e =>
      cases p with
      | done r =>
        cases r with
        | none =>
          simp only [pstep, Option.some.injEq, Prod.mk.injEq] at h; obtain ⟨rfl, rfl⟩ := h
          exact .seqOk
        | some x =>
          simp only [pstep, Option.some.injEq, Prod.mk.injEq] at h; obtain ⟨rfl, rfl⟩ := h
          exact .seqErr
      | _ => simp [pstep] at h
    | par ps first e =>
      simp only [pstep] at h
      split at h
      · split at h
        · rename_i i _ x hx
          simp only [Option.some.injEq, Prod.mk.injEq] at h; obtain ⟨rfl, rfl⟩ := h
          have h1 := split_at hx
          have h2 : ps.eraseIdx i = ps.take i ++ ps.drop (i + 1) := List.eraseIdx_eq_take_drop_succ ps i
          rw [h2]
          have := PStep.parCollect (cx := cx) (g := g) (x := x) (l := ps.take i)
            (r := ps.drop (i + 1)) (first := first) (e := e)
          rw [← h1] at this
          exact this
        · cases h
      · split at h
        · simp only [Option.some.injEq, Prod.mk.injEq] at h; obtain ⟨rfl, rfl⟩ := h
          exact .parEnd
        · simp only [Option.some.injEq, Prod.mk.injEq] at h; obtain ⟨rfl, rfl⟩ := h
          exact .parOk
        · simp only [Option.some.injEq, Prod.mk.injEq] at h; obtain ⟨rfl, rfl⟩ := h
          exact .parErr
        · cases h
  | cons i path ih =>
    cases p with
    | leaf d ph => simp [pstep] at h
    | done r => simp [pstep] at h
    | seq p e =>
      simp only [pstep] at h
      split at h
      · rename_i hs
        simp only [Option.some.injEq, Prod.mk.injEq] at h; obtain ⟨rfl, rfl⟩ := h
        exact .seqRun (ih hs)
      · cases h
    | par ps first e =>
      simp only [pstep] at h
      split at h
      · rename_i q hq
        split at h
        · rename_i hs
          simp only [Option.some.injEq, Prod.mk.injEq] at h; obtain ⟨rfl, rfl⟩ := h
          have h1 := split_at hq
          rw [set_at hq]
          have := PStep.parRun (cx := cx) (l := ps.take i) (r := ps.drop (i + 1)) (e := e) (ih hs)
          rw [← h1] at this
          exact this
        · cases h
      · cases h

theorem run_sound {gs ext cs g p g' p'} (h0 : Reach gs ext ⟨g, p, ext⟩)
    (h : run ext cs g p = some (g', p')) : Reach gs ext ⟨g', p', ext⟩ := by
  induction cs generalizing g p with
  | nil =>
    simp only [run, Option.some.injEq, Prod.mk.injEq] at h; obtain ⟨rfl, rfl⟩ := h
    exact h0
  | cons c cs ih =>
    obtain ⟨path, c⟩ := c
    simp only [run] at h
    split at h
    · rename_i hs
      exact ih (.step h0 (.proc (pstep_sound hs))) h
    · cases h

end Verif.Exec
