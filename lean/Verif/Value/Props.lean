import Verif.Value.Spec
import Verif.Exec.Props

/-! # The result does not depend on the schedule (C100) -/

namespace Verif.Value
open Verif.Graph Verif.Exec

variable {V : Type} {defs : List Def} {eval : Nat → Store V → Outcome V} {st0 : Store V} {gs : List Grp}

/-! ### Lemmas -/

/-- The variables after the first `k` definitions, leaving out those that fail. -/
def best (defs : List Def) (eval : Nat → Store V → Outcome V) (st0 : Store V) : Nat → Store V
  | 0 => st0
  | k + 1 =>
    match defs[k]?, eval k (best defs eval st0 k) with
    | some D, .ok v => set (best defs eval st0 k) D.name v
    | _, _ => best defs eval st0 k

theorem vreach_reach {s : VSys V} (h : VReach defs eval gs st0 s) : Reach gs false s.sys := by
  induction h with
  | init => exact .init
  | step _ hs ih => cases hs <;> exact .step ih (by assumption)

theorem name_unique (hn : DistinctNames defs) {i j : Nat} {D E : Def} (hi : defs[i]? = some D) (hj : defs[j]? = some E)
    (he : D.name = E.name) : i = j := by
  unfold DistinctNames at hn
  have h1 : (defs.map Def.name)[i]? = some D.name := by rw [List.getElem?_map, hi]; rfl
  have h2 : (defs.map Def.name)[j]? = some D.name := by rw [List.getElem?_map, hj, he]; rfl
  obtain ⟨hi', e1⟩ := List.getElem?_eq_some_iff.1 h1
  obtain ⟨hj', e2⟩ := List.getElem?_eq_some_iff.1 h2
  exact (List.getElem_inj hn).1 (e1.trans e2.symm)

theorem best_succ (k : Nat) : (∃ D v, defs[k]? = some D ∧ eval k (best defs eval st0 k) = .ok v ∧
    best defs eval st0 (k + 1) = set (best defs eval st0 k) D.name v) ∨
    best defs eval st0 (k + 1) = best defs eval st0 k := by
  cases hD : defs[k]? with
  | none => right; simp [best, hD]
  | some D =>
    cases hv : eval k (best defs eval st0 k) with
    | ok v => left; exact ⟨D, v, rfl, rfl, by simp [best, hD, hv]⟩
    | fail n => right; simp [best, hD, hv]
    | panic => right; simp [best, hD, hv]

/-- A name that none of the first `k` definitions has keeps its value. -/
theorem best_other {k : Nat} {n : String} (h : ∀ j D, j < k → defs[j]? = some D → D.name ≠ n) :
    best defs eval st0 k n = st0 n := by
  induction k with
  | zero => rfl
  | succ k ih =>
    have := ih fun j D hj => h j D (by omega)
    rcases best_succ (defs := defs) (eval := eval) (st0 := st0) k with ⟨D, v, hD, _, e⟩ | e
    · rw [e, set, if_neg (fun e => h k D (by omega) hD e.symm)]
      exact this
    · rw [e]
      exact this

theorem best_own (hn : DistinctNames defs) {i : Nat} {D : Def} {v : V} (hD : defs[i]? = some D)
    (hv : eval i (best defs eval st0 i) = .ok v) {k : Nat} (hk : i < k) : best defs eval st0 k D.name = some v := by
  induction k with
  | zero => omega
  | succ k ih =>
    by_cases he : i = k
    · subst he
      rw [best, hD, hv]
      simp [set]
    · have := ih (by omega)
      rcases best_succ (defs := defs) (eval := eval) (st0 := st0) k with ⟨E, w, hE, _, e⟩ | e
      · rw [e, set, if_neg (fun e => he (name_unique hn hD hE e))]
        exact this
      · rw [e]
        exact this

theorem inOrder_best : ∀ {k : Nat} {st : Store V}, inOrder defs eval st0 k = some st → k ≤ defs.length →
    st = best defs eval st0 k ∧ ∀ i < k, ∃ v, eval i (best defs eval st0 i) = .ok v
  | 0, st, h, _ => by cases h; exact ⟨rfl, fun i hi => by omega⟩
  | k + 1, st, h, hk => by
    have hlt : k < defs.length := by omega
    have hD : defs[k]? = some defs[k] := List.getElem?_eq_getElem hlt
    simp only [inOrder, hD] at h
    cases h1 : inOrder defs eval st0 k with
    | none => rw [h1] at h; cases h
    | some st1 =>
      obtain ⟨e1, h2⟩ := inOrder_best h1 (by omega)
      rw [h1] at h
      simp only at h
      split at h
      · rename_i v hv
        cases h
        refine ⟨?_, ?_⟩
        · rw [best, hD, ← e1, hv]; rfl
        · intro i hi
          by_cases he : i = k
          · subst he; exact ⟨v, by rw [← e1]; exact hv⟩
          · exact h2 i (by omega)
      · cases h

theorem best_inOrder : ∀ {k : Nat}, k ≤ defs.length → (∀ i < k, ∃ v, eval i (best defs eval st0 i) = .ok v) →
    inOrder defs eval st0 k = some (best defs eval st0 k)
  | 0, _, _ => rfl
  | k + 1, hk, h => by
    have hlt : k < defs.length := by omega
    have hD : defs[k]? = some defs[k] := List.getElem?_eq_getElem hlt
    obtain ⟨v, hv⟩ := h k (by omega)
    simp only [inOrder, best_inOrder (by omega : k ≤ defs.length) (fun i hi => h i (by omega)), hD, hv, best]
    rfl

/-- What holds as long as nothing has failed. -/
structure Fine (defs : List Def) (eval : Nat → Store V → Outcome V) (st0 : Store V) (s : VSys V) : Prop where
  /-- variables of evaluated definitions have the values of the evaluation in order -/
  value : ∀ d D, defs[d]? = some D → FinOk s.sys.g.log d →
    ∃ v, eval d (best defs eval st0 d) = .ok v ∧ s.store D.name = some v
  /-- all others are as they were -/
  rest : ∀ n, (∀ d D, defs[d]? = some D → FinOk s.sys.g.log d → D.name ≠ n) → s.store n = st0 n
  /-- whatever a running evaluation reads is the value of the evaluation in order -/
  seen : ∀ d f D, Event.start d f ∈ s.sys.g.log → defs[d]? = some D → ∀ n ∈ D.refs, n ≠ D.iter →
    (∀ x, s.seen d f n x → x = best defs eval st0 d n) ∧ s.store n = best defs eval st0 d n

/-- No evaluation has failed. -/
def NoFailure (log : List Event) : Prop := ∀ d f x, Event.fin d f (some x) ∉ log

theorem started_lt (hs : NoSelfRef defs) (hgs : setup defs = .groups gs) {s : Sys} (h : Reach gs false s) {d f : Nat}
    {r : Res} (hf : Event.fin d f r ∈ s.g.log) : Event.start d f ∈ s.g.log :=
  (fin_started (plan_follows hs hgs).2 h).2 d f r hf

theorem finok_cons_start {log : List Event} {d f a : Nat} (h : FinOk (.start d f :: log) a) : FinOk log a := by
  obtain ⟨g, hg⟩ := h
  rcases List.mem_cons.1 hg with h | h
  · cases h
  · exact ⟨g, h⟩

theorem finok_cons_fin {log : List Event} {d f a : Nat} {r : Res} (h : FinOk (.fin d f r :: log) a) :
    (a = d ∧ r = none) ∨ FinOk log a := by
  obtain ⟨g, hg⟩ := h
  rcases List.mem_cons.1 hg with h | h
  · cases h; exact .inl ⟨rfl, rfl⟩
  · exact .inr ⟨g, h⟩

/-! Only definitions of the message are evaluated. -/

theorem pstep_covers {cx : Bool} {g g' : Glob} {p p' : Proc} (h : PStep cx g p g' p') :
    (∀ x ∈ covers p', x ∈ covers p) ∧ ∀ d f, Event.start d f ∈ g'.log → Event.start d f ∈ g.log ∨ d ∈ covers p := by
  induction h with
  | @leaf cx d g ph g' p' h =>
    cases h
    case lead =>
      refine ⟨fun x hx => hx, fun d' f' hs => ?_⟩
      simp only [List.mem_cons, Event.start.injEq] at hs
      rcases hs with ⟨rfl, _⟩ | hs
      · right; simp [covers]
      · exact .inl hs
    case finish =>
      refine ⟨fun x hx => hx, fun d' f' hs => ?_⟩
      simp only [List.mem_cons] at hs
      rcases hs with hs | hs
      · cases hs
      · exact .inl hs
    case hit => exact ⟨fun x hx => by simp [covers] at hx, fun d' f' hs => .inl hs⟩
    case leave => exact ⟨fun x hx => by simp [covers] at hx, fun d' f' hs => .inl hs⟩
    case receive => exact ⟨fun x hx => by simp [covers] at hx, fun d' f' hs => .inl hs⟩
    all_goals exact ⟨fun x hx => hx, fun d' f' hs => .inl hs⟩
  | seqRun _ ih =>
    refine ⟨fun x hx => ?_, fun d f hs => ?_⟩
    · simp only [covers, List.mem_append] at hx ⊢
      exact hx.imp (ih.1 x) id
    · rcases ih.2 d f hs with h | h
      · exact .inl h
      · exact .inr (by simp [covers, h])
  | seqOk => exact ⟨fun x hx => by simpa [covers] using hx, fun d f hs => .inl hs⟩
  | seqErr => exact ⟨fun x hx => by simp [covers] at hx, fun d f hs => .inl hs⟩
  | parRun _ ih =>
    refine ⟨fun x hx => ?_, fun d f hs => ?_⟩
    · simp only [covers, coversL_append, covers.coversL, List.mem_append] at hx ⊢
      rcases hx with (h | h | h) | h
      · exact .inl (.inl h)
      · exact .inl (.inr (.inl (ih.1 x h)))
      · exact .inl (.inr (.inr h))
      · exact .inr h
    · rcases ih.2 d f hs with h | h
      · exact .inl h
      · exact .inr (by simp [covers, coversL_append, covers.coversL, h])
  | parCollect =>
    refine ⟨fun x hx => ?_, fun d f hs => .inl hs⟩
    simp only [covers, coversL_append, covers.coversL, List.mem_append] at hx ⊢
    rcases hx with (h | h) | h
    · exact .inl (.inl h)
    · exact .inl (.inr (.inr h))
    · exact .inr h
  | parEnd => exact ⟨fun x hx => by simpa [covers, covers.coversL] using hx, fun d f hs => .inl hs⟩
  | parOk => exact ⟨fun x hx => by simp [covers] at hx, fun d f hs => .inl hs⟩
  | parErr => exact ⟨fun x hx => by simp [covers] at hx, fun d f hs => .inl hs⟩

theorem covers_defs (G : Grp) : ∀ x ∈ covers (start G), x ∈ G.defs := by
  refine Grp.rec (motive_1 := fun G => ∀ x ∈ covers (start G), x ∈ G.defs)
    (motive_2 := fun ss => ∀ x ∈ covers.coversL (start.go ss), x ∈ Grp.defs.go ss) ?_ ?_ ?_ ?_ ?_ G
  · intro e x hx; simpa [Grp.defs, start, covers] using hx
  · intro g e ih x hx
    simp only [start, covers, Grp.defs, List.mem_append] at hx ⊢
    exact hx.imp (ih x) id
  · intro ss e ih x hx
    simp only [start, covers, Grp.defs, List.mem_append, Option.toList] at hx ⊢
    exact hx.imp (ih x) id
  · intro x hx; simp [start.go, covers.coversL] at hx
  · intro g ss ih1 ih2 x hx
    simp only [start.go, covers.coversL, Grp.defs.go, List.mem_append] at hx ⊢
    exact hx.imp (ih1 x) (ih2 x)

theorem startAll_defs (gs : List Grp) : ∀ x ∈ covers (startAll gs), ∃ G ∈ gs, x ∈ G.defs := by
  intro x hx
  match gs, hx with
  | [], hx => simp [startAll, covers] at hx
  | [G], hx => exact ⟨G, by simp, covers_defs G x hx⟩
  | G :: H :: r, hx =>
    simp only [startAll, covers, Option.toList, List.append_nil] at hx
    have : ∀ (l : List Grp), x ∈ covers.coversL (l.map start) → ∃ G ∈ l, x ∈ G.defs := by
      intro l
      induction l with
      | nil => intro h; simp [covers.coversL] at h
      | cons K l ih =>
        intro h
        simp only [List.map_cons, covers.coversL, List.mem_append] at h
        rcases h with h | h
        · exact ⟨K, by simp, covers_defs K x h⟩
        · obtain ⟨G, hG, hx⟩ := ih h
          exact ⟨G, List.mem_cons_of_mem _ hG, hx⟩
    exact this _ hx

theorem start_lt (hs : NoSelfRef defs) (hgs : setup defs = .groups gs) {ext : Bool} {s : Sys} (h : Reach gs ext s) :
    (∀ x ∈ covers s.p, x < defs.length) ∧ ∀ d f, Event.start d f ∈ s.g.log → d < defs.length := by
  induction h with
  | init =>
    refine ⟨fun x hx => ((plan_follows hs hgs).1 x).2 (startAll_defs gs x hx), fun d f hst => ?_⟩
    simp [Sys.init, Glob.init] at hst
  | step _ hstep ih =>
    cases hstep with
    | cancel => exact ih
    | proc hp =>
      have hc := pstep_covers hp
      refine ⟨fun x hx => ih.1 x (hc.1 x hx), fun d f hst => ?_⟩
      rcases hc.2 d f hst with h | h
      · exact ih.2 d f h
      · exact ih.1 d h

/-- What an evaluation may read at its start. -/
theorem read_at_start (ha : Accepted defs eval) (hgs : setup defs = .groups gs) {s s' : Sys} (hr : Reach gs false s')
    {d f : Nat} (hl : s'.g.log = .start d f :: s.g.log) {v : VSys V} (hv : v.sys = s)
    (hF : Fine defs eval st0 v) {D : Def} (hD : defs[d]? = some D) {n : String} (hn : n ∈ D.refs) (hni : n ≠ D.iter) :
    v.store n = best defs eval st0 d n := by
  by_cases hex : ∃ (a : Nat) (A : Def), defs[a]? = some A ∧ A.name = n
  · obtain ⟨a, A, hA, rfl⟩ := hex
    have hle := ha.earlier d a D A hD hA hn hni
    have hne : a ≠ d := by
      intro e
      subst e
      rw [hD] at hA
      cases hA
      exact hni (ha.noSelf D (List.mem_of_getElem? hD) (ha.named D (List.mem_of_getElem? hD)) hn)
    have hrt : RefersTo defs d a := by
      refine ⟨A, D, hA, hD, hle, ha.named A (List.mem_of_getElem? hA), hn, hni, ?_⟩
      intro c C hac _ hC e
      have := name_unique ha.names hA hC e.symm
      omega
    obtain ⟨g, hg⟩ := C01_references_first defs ha.noSelf gs hgs false s' hr [] s.g.log d f hl a hrt
    obtain ⟨w, hw, hs⟩ := hF.value a A hA ⟨g, by rw [hv]; exact hg⟩
    rw [hs, best_own ha.names hA hw (by omega)]
  · rw [best_other (fun j E _ hE e => hex ⟨j, E, hE, e⟩)]
    exact hF.rest n fun a A hA _ e => hex ⟨a, A, hA, e⟩

/-- The evaluation of a running definition gives what it gives in order. -/
theorem eval_same (ha : Accepted defs eval) {s : VSys V} (hF : Fine defs eval st0 s) {d f : Nat} {D : Def}
    (hst : Event.start d f ∈ s.sys.g.log) (hD : defs[d]? = some D) {view : Store V} (hview : ∀ n, s.seen d f n (view n)) :
    eval d view = eval d (best defs eval st0 d) :=
  ha.reads d D view _ hD fun n hn hni => (hF.seen d f D hst hD n hn hni).1 _ (hview n)

theorem fine_step (ha : Accepted defs eval) (hgs : setup defs = .groups gs) {s s' : VSys V}
    (hr : VReach defs eval gs st0 s) (hs : VStep defs eval s s') (hF : Fine defs eval st0 s)
    (hno : NoFailure s'.sys.g.log) : Fine defs eval st0 s' := by
  have hr' := vreach_reach (.step hr hs)
  cases hs with
  | @quiet s s' st seen hstep hl =>
    exact ⟨fun d D hD hf => hF.value d D hD (by rw [hl] at hf; exact hf),
      fun n hn => hF.rest n fun d D hD hf => hn d D hD (by simp only [hl]; exact hf),
      fun d f D hst => hF.seen d f D (by simp only [hl] at hst; exact hst)⟩
  | @start s s' st seen d f hstep hl =>
    refine ⟨?_, ?_, ?_⟩
    · intro a A hA hf
      simp only [hl] at hf
      exact hF.value a A hA (finok_cons_start hf)
    · intro n hn
      refine hF.rest n fun a A hA hf => hn a A hA ?_
      obtain ⟨g, hg⟩ := hf
      exact ⟨g, by simp only [hl]; exact List.mem_cons_of_mem _ hg⟩
    · intro a g A hst hA n hn hni
      by_cases he : a = d ∧ g = f
      · obtain ⟨rfl, rfl⟩ := he
        have := read_at_start (v := ⟨s, st, seen⟩) ha hgs hr' hl rfl hF hA hn hni
        refine ⟨fun x hx => ?_, this⟩
        simp only [and_self, if_true] at hx
        rw [hx]
        exact this
      · simp only [hl, List.mem_cons, Event.start.injEq] at hst
        have hst' : Event.start a g ∈ s.g.log := by
          rcases hst with h | h
          · exact absurd h he
          · exact h
        have := hF.seen a g A hst' hA n hn hni
        refine ⟨fun x hx => ?_, this.2⟩
        simp only [he, if_false] at hx
        exact this.1 x hx
  | @ok s s' st seen d f view v hstep hl hview hv =>
    cases hD : defs[d]? with
    | none =>
      have hw : write defs st d v = st := by simp only [write, hD]
      rw [hw]
      refine ⟨?_, ?_, ?_⟩
      · intro a A hA hf
        simp only [hl] at hf
        rcases finok_cons_fin hf with ⟨rfl, _⟩ | h
        · rw [hD] at hA; cases hA
        · exact hF.value a A hA h
      · intro n hn
        refine hF.rest n fun a A hA hf => hn a A hA ?_
        obtain ⟨g, hg⟩ := hf
        exact ⟨g, by simp only [hl]; exact List.mem_cons_of_mem _ hg⟩
      · intro a g A hsta hA n hn hni
        simp only [hl, List.mem_cons] at hsta
        have hsta' : Event.start a g ∈ s.g.log := by
          rcases hsta with h | h
          · cases h
          · exact h
        have hold := hF.seen a g A hsta' hA n hn hni
        refine ⟨?_, hold.2⟩
        rintro x (hx | rfl)
        · exact hold.1 x hx
        · exact hold.2
    | some D =>
    have hw : write defs st d v = set st D.name v := by simp only [write, hD]
    rw [hw]
    have hst : Event.start d f ∈ s.g.log := by
      have := started_lt ha.noSelf hgs hr' (d := d) (f := f) (r := none) (by simp only [hl]; exact List.mem_cons_self ..)
      simp only [hl, List.mem_cons] at this
      rcases this with h | h
      · cases h
      · exact h
    have hbest : eval d (best defs eval st0 d) = .ok v := by
      rw [← eval_same (s := ⟨s, st, seen⟩) ha hF hst hD hview]; exact hv
    refine ⟨?_, ?_, ?_⟩
    · intro a A hA hf
      simp only [hl] at hf
      by_cases he : a = d
      · subst he
        rw [hD] at hA
        cases hA
        exact ⟨v, hbest, by simp [set]⟩
      · rcases finok_cons_fin hf with h | h
        · exact absurd h.1 he
        · obtain ⟨w, h1, h2⟩ := hF.value a A hA h
          refine ⟨w, h1, ?_⟩
          have : A.name ≠ D.name := fun e => he (name_unique ha.names hA hD e)
          simpa [set, this] using h2
    · intro n hn
      have h1 : n ≠ D.name := fun e => hn d D hD ⟨f, by simp only [hl]; exact List.mem_cons_self ..⟩ e.symm
      have h2 : st n = st0 n := by
        refine hF.rest n fun a A hA hf => hn a A hA ?_
        obtain ⟨g, hg⟩ := hf
        exact ⟨g, by simp only [hl]; exact List.mem_cons_of_mem _ hg⟩
      simp [set, h1, h2]
    · intro a g A hsta hA n hn hni
      simp only [hl, List.mem_cons] at hsta
      have hsta' : Event.start a g ∈ s.g.log := by
        rcases hsta with h | h
        · cases h
        · exact h
      have hold := hF.seen a g A hsta' hA n hn hni
      have hnew : set st D.name v n = best defs eval st0 a n := by
        by_cases he : n = D.name
        · subst he
          have hle := ha.earlier a d A D hA hD hn hni
          have hne : d ≠ a := by
            intro e
            subst e
            rw [hD] at hA
            cases hA
            exact hni (ha.noSelf D (List.mem_of_getElem? hD) (ha.named D (List.mem_of_getElem? hD)) hn)
          rw [best_own ha.names hD hbest (by omega)]
          simp [set]
        · have := hold.2
          simp only at this
          simp [set, he, this]
      refine ⟨?_, hnew⟩
      rintro x (hx | rfl)
      · exact hold.1 x hx
      · exact hnew
  | @fail s s' st seen d f x st' hstep hl hx hst' =>
    exact absurd (by simp only [hl]; exact List.mem_cons_self ..) (hno d f x)

theorem step_log {s s' : VSys V} (hs : VStep defs eval s s') :
    ∃ new, s'.sys.g.log = new ++ s.sys.g.log := by
  cases hs with
  | quiet _ hl => exact ⟨[], hl⟩
  | start _ hl => exact ⟨[_], hl⟩
  | ok _ hl _ _ => exact ⟨[_], hl⟩
  | fail _ _ hl _ _ => exact ⟨[_], hl⟩

theorem fine_reach (ha : Accepted defs eval) (hgs : setup defs = .groups gs) {s : VSys V}
    (hr : VReach defs eval gs st0 s) (hno : NoFailure s.sys.g.log) : Fine defs eval st0 s := by
  induction hr with
  | init =>
    refine ⟨fun d D _ hf => ?_, fun n _ => rfl, fun d f D hst => ?_⟩
    · obtain ⟨f, hf⟩ := hf
      simp [Sys.init, Glob.init] at hf
    · simp [Sys.init, Glob.init] at hst
  | step hr hs ih =>
    obtain ⟨new, hl⟩ := step_log hs
    exact fine_step ha hgs hr hs (ih fun d f x h => hno d f x (by rw [hl]; exact List.mem_append_right _ h)) hno

/-! ### Properties -/

/-- Whatever the schedule: if the evaluation of the definitions ends without error, then evaluating them one after the other
in the order of their declaration succeeds too, and all variables have the same values. -/
theorem C100_values (defs : List Def) (eval : Nat → Store V → Outcome V) (ha : Accepted defs eval) (gs : List Grp)
    (hgs : setup defs = .groups gs) (st0 : Store V) (s : VSys V) (hr : VReach defs eval gs st0 s)
    (hdone : s.sys.p = .done none) : inOrder defs eval st0 defs.length = some s.store := by
  have hreach := vreach_reach hr
  have hno : NoFailure s.sys.g.log :=
    ((C05_failure_reported defs ha.noSelf gs hgs false s.sys hreach none hdone).1.1 rfl)
  have hF := fine_reach ha hgs hr hno
  have hall : ∀ i < defs.length, FinOk s.sys.g.log i := fun i hi =>
    C03_all_evaluated defs ha.noSelf gs hgs false s.sys hreach hdone i hi
  have hok : ∀ i < defs.length, ∃ v, eval i (best defs eval st0 i) = .ok v := by
    intro i hi
    obtain ⟨v, hv, _⟩ := hF.value i _ (List.getElem?_eq_getElem hi) (hall i hi)
    exact ⟨v, hv⟩
  rw [best_inOrder (Nat.le_refl _) hok]
  congr 1
  funext n
  by_cases hex : ∃ (a : Nat) (A : Def), defs[a]? = some A ∧ A.name = n
  · obtain ⟨a, A, hA, rfl⟩ := hex
    have hlt := (List.getElem?_eq_some_iff.1 hA).1
    obtain ⟨v, hv, hs⟩ := hF.value a A hA (hall a hlt)
    rw [hs, best_own ha.names hA hv hlt]
  · rw [best_other fun j E _ hE e => hex ⟨j, E, hE, e⟩]
    exact (hF.rest n fun a A hA _ e => hex ⟨a, A, hA, e⟩).symm

/-- If evaluating the definitions one after the other fails, then the evaluation fails with every schedule. -/
theorem C100_failure (defs : List Def) (eval : Nat → Store V → Outcome V) (ha : Accepted defs eval) (gs : List Grp)
    (hgs : setup defs = .groups gs) (st0 : Store V) (hfail : inOrder defs eval st0 defs.length = none) (s : VSys V)
    (hr : VReach defs eval gs st0 s) (r : Res) (hdone : s.sys.p = .done r) : r ≠ none := by
  rintro rfl
  rw [C100_values defs eval ha gs hgs st0 s hr hdone] at hfail
  cases hfail

/-- If evaluating the definitions one after the other succeeds, then no evaluation fails with any schedule, unless the
request is cancelled. -/
theorem C100_no_failure (defs : List Def) (eval : Nat → Store V → Outcome V) (ha : Accepted defs eval) (gs : List Grp)
    (hgs : setup defs = .groups gs) (st0 st : Store V) (hok : inOrder defs eval st0 defs.length = some st) (s : VSys V)
    (hr : VReach defs eval gs st0 s) (hext : s.sys.ext = false) : ∀ d f x, Event.fin d f (some x) ∉ s.sys.g.log := by
  have hbest := (inOrder_best hok (Nat.le_refl _)).2
  induction hr with
  | init => intro d f x hx; simp [Sys.init, Glob.init] at hx
  | @step v v' hr hs ih =>
    have hr' := vreach_reach (.step hr hs)
    have hext' : v.sys.ext = false := by
      have key : ∀ {a b : Sys}, SStep a b → b.ext = false → a.ext = false := by
        intro a b h hb
        cases h with
        | proc => exact hb
        | cancel => rfl
      cases hs with
      | quiet h _ => exact key h hext
      | start h _ => exact key h hext
      | ok h _ _ _ => exact key h hext
      | fail _ h _ _ _ => exact key h hext
    have hno := ih hext'
    have hF := fine_reach ha hgs hr hno
    cases hs with
    | quiet _ hl => intro d f x hx; simp only [hl] at hx; exact hno d f x hx
    | start _ hl =>
      intro d f x hx
      simp only [hl, List.mem_cons] at hx
      rcases hx with h | h
      · cases h
      · exact hno d f x h
    | ok _ hl _ _ =>
      intro d f x hx
      simp only [hl, List.mem_cons] at hx
      rcases hx with h | h
      · cases h
      · exact hno d f x h
    | @fail s s' st seen d f x st' hstep hl hx hst' =>
      exfalso
      have hreal := (reach_ext hr' hext).2 (plan_follows ha.noSelf hgs).2 d f x
        (by simp only [hl]; exact List.mem_cons_self ..)
      obtain ⟨d2, f2, y, hy, hnc⟩ := hreal
      simp only [hl, List.mem_cons] at hy
      rcases hy with h | h
      · cases h
        rcases hx with hx | ⟨view, hview, he⟩
        · cases x with
          | canceled a => exact hnc trivial
          | own a b => exact hx
          | panicked a => exact hx
        · have hst : Event.start d f ∈ s.g.log := by
            have := started_lt ha.noSelf hgs hr' (d := d) (f := f) (r := some x)
              (by simp only [hl]; exact List.mem_cons_self ..)
            simp only [hl, List.mem_cons] at this
            rcases this with h | h
            · cases h
            · exact h
          have hD := List.getElem?_eq_getElem ((start_lt ha.noSelf hgs (vreach_reach hr)).2 d f hst)
          rw [eval_same (s := ⟨s, st, seen⟩) ha hF hst hD hview] at he
          obtain ⟨v, hv⟩ := hbest d (List.getElem?_eq_some_iff.1 hD).1
          rw [hv] at he
          cases he
      · exact hno d2 f2 y h

/-- Two runs of the same request that are not cancelled both succeed, with the same values of all variables, or both fail,
whatever their schedules. -/
theorem C100_same (defs : List Def) (eval : Nat → Store V → Outcome V) (ha : Accepted defs eval) (gs : List Grp)
    (hgs : setup defs = .groups gs) (st0 : Store V) (s s' : VSys V) (hr : VReach defs eval gs st0 s)
    (hr' : VReach defs eval gs st0 s') (hext : s.sys.ext = false) (hext' : s'.sys.ext = false) (r r' : Res)
    (hdone : s.sys.p = .done r) (hdone' : s'.sys.p = .done r') :
    (r = none ↔ r' = none) ∧ (r = none → s.store = s'.store) := by
  have key : ∀ {s s' : VSys V} {r r' : Res}, VReach defs eval gs st0 s → VReach defs eval gs st0 s' →
      s'.sys.ext = false → s.sys.p = .done r → s'.sys.p = .done r' → r = none → r' = none := by
    intro s s' r r' h h' he hd hd' hr0
    subst hr0
    have hno := C100_no_failure defs eval ha gs hgs st0 _ (C100_values defs eval ha gs hgs st0 s h hd) s' h' he
    exact (C05_failure_reported defs ha.noSelf gs hgs false s'.sys (vreach_reach h') r' hd').1.2 hno
  refine ⟨⟨key hr hr' hext' hdone hdone', key hr' hr hext hdone' hdone⟩, ?_⟩
  intro h0
  have h0' := key hr hr' hext' hdone hdone' h0
  subst h0 h0'
  have h1 := C100_values defs eval ha gs hgs st0 s hr hdone
  have h2 := C100_values defs eval ha gs hgs st0 s' hr' hdone'
  rw [h1] at h2
  exact Option.some.inj h2

/-! ### Every run can be completed -/

theorem pstep_refine {cx : Bool} {g g' : Glob} {p p' : Proc} (h : PStep cx g p g' p') :
    g'.log = g.log ∨ (∃ d f, g'.log = .start d f :: g.log) ∨
      ∃ d f, (d, f) ∈ leads p ∧ ∀ r, (∀ cx, Allowed cx d r) →
        ∃ g'' p'', PStep cx g p g'' p'' ∧ g''.log = .fin d f r :: g.log := by
  induction h with
  | @leaf cx d g ph g' p' h =>
    cases h
    case lead => exact .inr (.inl ⟨_, _, rfl⟩)
    case finish f r ha =>
      exact .inr (.inr ⟨d, f, by simp [leads], fun r hr => ⟨_, _, .leaf (.finish (hr cx)), rfl⟩⟩)
    all_goals exact .inl rfl
  | seqRun _ ih =>
    rcases ih with h | h | ⟨d, f, h1, h2⟩
    · exact .inl h
    · exact .inr (.inl h)
    · refine .inr (.inr ⟨d, f, by simpa [leads] using h1, fun r hr => ?_⟩)
      obtain ⟨g'', p'', h3, h4⟩ := h2 r hr
      exact ⟨g'', _, .seqRun h3, h4⟩
  | @parRun cx g p g' p' l r first e _ ih =>
    rcases ih with h | h | ⟨d, f, h1, h2⟩
    · exact .inl h
    · exact .inr (.inl h)
    · refine .inr (.inr ⟨d, f, ?_, fun r hr => ?_⟩)
      · have : ∀ (l : List Proc), (d, f) ∈ leads.leadsL (l ++ p :: r) := by
          intro l
          induction l with
          | nil => simp [leads.leadsL, h1]
          | cons q l ih => simp [leads.leadsL, ih]
        exact this l
      · obtain ⟨g'', p'', h3, h4⟩ := h2 r hr
        exact ⟨g'', _, .parRun h3, h4⟩
  | _ => exact .inl rfl

/-- A running evaluation has seen the present value of every variable. -/
theorem seen_now {s : VSys V} (h : VReach defs eval gs st0 s) :
    ∀ d f, Event.start d f ∈ s.sys.g.log → ∀ n, s.seen d f n (s.store n) := by
  induction h with
  | init => intro d f hs; simp [Sys.init, Glob.init] at hs
  | step _ hs ih =>
    cases hs with
    | quiet _ hl => intro d f h; simp only [hl] at h; exact ih d f h
    | @start s s' st seen d f _ hl =>
      intro d' f' h n
      by_cases he : d' = d ∧ f' = f
      · simp [he]
      · simp only [he, if_false]
        simp only [hl, List.mem_cons, Event.start.injEq] at h
        rcases h with h | h
        · exact absurd h he
        · exact ih d' f' h n
    | ok _ hl _ _ => intro d f h n; exact .inr rfl
    | fail _ _ hl _ _ => intro d f h n; exact .inr rfl

/-- As long as the definitions are not all evaluated, some step is possible, whatever the evaluations give. -/
theorem C100_progress (defs : List Def) (eval : Nat → Store V → Outcome V) (hs : NoSelfRef defs) (gs : List Grp)
    (hgs : setup defs = .groups gs) (st0 : Store V) (s : VSys V) (hr : VReach defs eval gs st0 s) :
    (∃ r, s.sys.p = .done r) ∨ ∃ s', VStep defs eval s s' ∧ weight s'.sys.p < weight s.sys.p ∧ s'.sys.ext = s.sys.ext := by
  have hreach := vreach_reach hr
  rcases C04_no_deadlock defs hs gs hgs false s.sys hreach with h | ⟨g', p', hp⟩
  · exact .inl h
  · right
    obtain ⟨⟨g, p, ext⟩, st, seen⟩ := s
    rcases pstep_refine hp with hl | ⟨d, f, hl⟩ | ⟨d, f, hlead, hall⟩
    · exact ⟨_, .quiet (.proc hp) hl, pstep_weight hp, rfl⟩
    · exact ⟨_, .start (.proc hp) hl, pstep_weight hp, rfl⟩
    · have hst := (fin_started (plan_follows hs hgs).2 hreach).1 d f hlead
      have hseen := seen_now hr d f hst
      cases he : eval d st with
      | ok v =>
        obtain ⟨g'', p'', h1, h2⟩ := hall none fun _ => trivial
        exact ⟨_, .ok (.proc h1) h2 hseen he, pstep_weight h1, rfl⟩
      | fail k =>
        obtain ⟨g'', p'', h1, h2⟩ := hall (some (.own d k)) fun _ => rfl
        exact ⟨_, .fail st (.proc h1) h2 (.inr ⟨st, hseen, by rw [he]; rfl⟩) (.inl rfl), pstep_weight h1, rfl⟩
      | panic =>
        obtain ⟨g'', p'', h1, h2⟩ := hall (some (.panicked d)) fun _ => rfl
        exact ⟨_, .fail st (.proc h1) h2 (.inr ⟨st, hseen, by rw [he]; rfl⟩) (.inl rfl), pstep_weight h1, rfl⟩

/-- Every message has a run to the end: with the values of the evaluation in order if that succeeds, with an error else. -/
theorem C100_completes (defs : List Def) (eval : Nat → Store V → Outcome V) (ha : Accepted defs eval) (gs : List Grp)
    (hgs : setup defs = .groups gs) (st0 : Store V) :
    ∃ s : VSys V, VReach defs eval gs st0 s ∧ s.sys.ext = false ∧
      match inOrder defs eval st0 defs.length with
      | some st => s.sys.p = .done none ∧ s.store = st
      | none => ∃ x, s.sys.p = .done (some x) := by
  have key : ∀ (n : Nat) (s : VSys V), weight s.sys.p ≤ n → s.sys.ext = false → VReach defs eval gs st0 s →
      ∃ s' : VSys V, VReach defs eval gs st0 s' ∧ s'.sys.ext = false ∧ ∃ r, s'.sys.p = .done r := by
    intro n
    induction n with
    | zero =>
      intro s hw he hr
      rcases C100_progress defs eval ha.noSelf gs hgs st0 s hr with h | ⟨s', _, h2, _⟩
      · exact ⟨s, hr, he, h⟩
      · omega
    | succ n ih =>
      intro s hw he hr
      rcases C100_progress defs eval ha.noSelf gs hgs st0 s hr with h | ⟨s', h1, h2, h3⟩
      · exact ⟨s, hr, he, h⟩
      · exact ih s' (by omega) (h3.trans he) (.step hr h1)
  obtain ⟨s, hr, he, r, hd⟩ := key _ _ (Nat.le_refl _) rfl (VReach.init (defs := defs) (eval := eval) (gs := gs) (st0 := st0))
  refine ⟨s, hr, he, ?_⟩
  cases ho : inOrder defs eval st0 defs.length with
  | none =>
    have := C100_failure defs eval ha gs hgs st0 ho s hr r hd
    cases r with
    | none => exact absurd rfl this
    | some x => exact ⟨x, hd⟩
  | some st =>
    have hno := C100_no_failure defs eval ha gs hgs st0 st ho s hr he
    have : r = none := (C05_failure_reported defs ha.noSelf gs hgs false s.sys (vreach_reach hr) r hd).1.2 hno
    subst this
    refine ⟨hd, ?_⟩
    have := C100_values defs eval ha gs hgs st0 s hr hd
    rw [ho] at this
    exact (Option.some.inj this).symm

/-- The hypotheses are met: two definitions that use a third one, each adding something to its value. -/
def forkEval (d : Nat) (st : Store Nat) : Outcome Nat :=
  match d with
  | 0 => .ok ((st "$").getD 0)
  | 1 => .ok ((st "s").getD 0 + 1)
  | 2 => .ok ((st "s").getD 0 + 2)
  | _ => .panic

def forkDefs : List Def := [⟨"s", ["$"], "", false⟩, ⟨"b", ["s"], "", false⟩, ⟨"c", ["s"], "", false⟩]

theorem fork_accepted : Accepted forkDefs forkEval where
  names := by decide
  named := by decide
  noSelf := by decide
  earlier := by
    intro i j D E hi hj hr hn
    match i, j, hi, hj with
    | 0, 0, hi, hj => omega
    | 0, 1, hi, hj => cases hi; cases hj; simp at hr
    | 0, 2, hi, hj => cases hi; cases hj; simp at hr
    | 1, 0, hi, hj => omega
    | 1, 1, hi, hj => omega
    | 1, 2, hi, hj => cases hi; cases hj; simp at hr
    | 2, 0, hi, hj => omega
    | 2, 1, hi, hj => omega
    | 2, 2, hi, hj => omega
    | 0, j + 3, hi, hj => simp [forkDefs] at hj
    | 1, j + 3, hi, hj => simp [forkDefs] at hj
    | 2, j + 3, hi, hj => simp [forkDefs] at hj
    | i + 3, j, hi, hj => simp [forkDefs] at hi
  reads := by
    intro i D view view' hi h
    match i, hi with
    | 0, hi => cases hi; simp [forkEval, h "$" (by simp) (by decide)]
    | 1, hi => cases hi; simp [forkEval, h "s" (by simp) (by decide)]
    | 2, hi => cases hi; simp [forkEval, h "s" (by simp) (by decide)]
    | i + 3, hi => simp [forkDefs] at hi

example : ∃ gs, setup forkDefs = .groups gs ∧ ∃ s : VSys Nat,
    VReach forkDefs forkEval gs (fun n => if n = "$" then some 7 else none) s ∧ s.sys.p = .done none ∧
      s.store "b" = some 8 ∧ s.store "c" = some 9 := by
  refine ⟨_, rfl, ?_⟩
  obtain ⟨s, h1, _, h2⟩ := C100_completes forkDefs forkEval fork_accepted _ rfl (fun n => if n = "$" then some 7 else none)
  exact ⟨s, h1, h2.1, by rw [h2.2]; rfl, by rw [h2.2]; rfl⟩

end Verif.Value
