import Verif.Calls.Lemmas

/-! # Which services a request calls (C112) -/

namespace Verif.Calls
open Verif.Graph (Def Grp setup NoSelfRef DependsOn mem_build)
open Verif.Exec Verif.Value Verif.Whole
open Verif.AllGraph (Depends DependsT)

variable {V C : Type}

/-! ### How often definitions are evaluated -/

/-- With every schedule, a definition is evaluated at most as often as it occurs in the plan. -/
theorem C112_evaluations (gs : List Grp) (ext : Bool) (s : Sys) (h : Reach gs ext s) (d : Nat) :
    fins d s.g.log ≤ (gs.flatMap Grp.defs).count d := by
  have := fins_le d h
  omega

/-- If no two definitions wait for the same one, none is evaluated twice, with any schedule. -/
theorem C112_evaluated_once_partial (defs : List Def) (hs : NoSelfRef defs) (hu : Unshared defs) (gs : List Grp)
    (hgs : setup defs = .groups gs) (ext : Bool) (s : Sys) (h : Reach gs ext s) (d : Nat) :
    fins d s.g.log ≤ 1 :=
  Nat.le_trans (C112_evaluations gs ext s h d) (List.nodup_iff_count.1 (plan_nodup hs hu hgs) d)

/-! ### What is called -/

/-- A request that is answered has called what its definitions call one after the other, and nothing else, whatever the schedule. -/
theorem C112_calls (P : Prog V) (own : Own V C) (hs : ∀ M ∈ P.msgs, SoundMsg P M) (hac : ∀ x, ¬ DependsT (graph P) x x)
    (hown : SoundCalls P own) (m : Nat) (hm : m < P.msgs.length) (args : Store V) (v : V) (cs : List C)
    (h : AnswersT P own m args (some v) cs) (c : C) : c ∈ cs ↔ c ∈ calls P own (P.msgs.length + 1) m args := by
  obtain ⟨k, hk⟩ := h
  have hr := rank_le P m
  refine request_calls hs hac hown (E := fun a b => ∀ c, c ∈ a ↔ c ∈ b) ⟨fun _ _ => Iff.rfl, ?_⟩ ?_ (rank P m + 1) m (by omega) hm k
    (P.msgs.length + 1) (by omega) args v cs hk c
  · intro a a' b b' h1 h2 c
    simp only [List.mem_append, h1 c, h2 c]
  · intro M _ gs _ l hl _ w cs hc c
    rw [hc c]
    simp only [List.mem_flatMap, hl, List.mem_range]

theorem perm_range {l : List Nat} {n : Nat} (h : ∀ i, i ∈ l ↔ i < n) (hd : l.Nodup) : l.Perm (List.range n) := by
  rw [List.perm_iff_count]
  intro a
  rw [List.count_range]
  have h1 := List.nodup_iff_count.1 hd a
  split
  · rename_i ha
    have := List.count_pos_iff.2 ((h a).2 ha)
    omega
  · rename_i ha
    exact List.count_eq_zero.2 fun hx => ha ((h a).1 hx)

/-- If no two definitions of a message wait for the same one, it has called each of it as often as they do, whatever the schedule. -/
theorem C112_once_partial (P : Prog V) (own : Own V C) (hs : ∀ M ∈ P.msgs, SoundMsg P M) (hac : ∀ x, ¬ DependsT (graph P) x x)
    (hown : SoundCalls P own) (hu : ∀ M ∈ P.msgs, Unshared (M.defs.map (·.defn))) (m : Nat) (hm : m < P.msgs.length) (args : Store V)
    (v : V) (cs : List C) (h : AnswersT P own m args (some v) cs) : cs.Perm (calls P own (P.msgs.length + 1) m args) := by
  obtain ⟨k, hk⟩ := h
  have hr := rank_le P m
  refine request_calls hs hac hown (E := List.Perm) ⟨fun _ => List.Perm.refl _, fun _ _ _ _ h1 h2 => h1.append h2⟩ ?_ (rank P m + 1) m
    (by omega) hm k (P.msgs.length + 1) (by omega) args v cs hk
  intro M hM gs hgs l hl hc w cs hcs
  refine hcs.trans (List.Perm.flatMap_right _ (perm_range hl ?_))
  rw [List.nodup_iff_count]
  intro d
  exact Nat.le_trans (hc d) (List.nodup_iff_count.1 (plan_nodup (hs M hM).noSelf (hu M hM) hgs) d)

/-- The answers are those of C103, each after some calls. -/
theorem C112_answer (P : Prog V) (own : Own V C) (hs : ∀ M ∈ P.msgs, SoundMsg P M) (hac : ∀ x, ¬ DependsT (graph P) x x) (m : Nat)
    (hm : m < P.msgs.length) (args : Store V) (r : Option V) :
    (∃ cs, AnswersT P own m args r cs) ↔ r = answer P (P.msgs.length + 1) m args := by
  rw [← C103_answer P hs hac m hm args r]
  constructor
  · rintro ⟨cs, k, h⟩
    exact ⟨k, answersTN_forget k m args r cs h⟩
  · rintro ⟨k, h⟩
    obtain ⟨cs, hc⟩ := answersTN_some (own := own) k m args r h
    exact ⟨cs, k, hc⟩

/-! ### Cases that meet the hypotheses -/

/-- In the program of C103, message 1 calls a service with its argument. -/
def exOwn : Own Val (String × Nat) := fun m _ st => if m = 1 then [("Get", Val.get (st "id"))] else []

theorem exOwn_sound : SoundCalls exProg exOwn := by
  intro m M hM i d hd
  match m, hM with
  | 0, hM =>
    have hconst : ∀ ns, Reads (exOwn 0 i) ns := fun ns a b _ => rfl
    unfold ownReads
    split <;> exact hconst _
  | 1, hM =>
    simp only [exProg, List.getElem?_cons_succ, List.getElem?_cons_zero, Option.some.injEq] at hM
    subst hM
    match i, hd with
    | 0, hd =>
      simp only [List.getElem?_cons_zero, Option.some.injEq] at hd
      subst hd
      intro a b h
      simp only [exOwn, if_true]
      rw [h "id" (by simp)]
    | i + 1, hd => simp at hd
  | m + 2, hM => simp [exProg] at hM

/-- With the argument 5 the services of users 5, 1 and 5 are called. -/
example (v : Val) (cs : List (String × Nat)) (h : AnswersT exProg exOwn 0 (fun n => if n = "$" then some (.num 5) else none) (some v) cs)
    (c : String × Nat) : c ∈ cs ↔ c ∈ [("Get", 5), ("Get", 1), ("Get", 5)] :=
  C112_calls exProg exOwn exProg_sound exProg_acyclic exOwn_sound 0 (by decide) _ v cs h c

example : ∃ cs, AnswersT exProg exOwn 0 (fun n => if n = "$" then some (.num 5) else none) (some (.list [.num 10, .list [.num 2, .num 10]])) cs :=
  (C112_answer exProg exOwn exProg_sound exProg_acyclic 0 (by decide) _ _).2 rfl

/-- Message 0 has the definitions `ids` (a list) and `posts` (message 1 for each of `ids`).  Message 1 calls a service. -/
def lineProg : Prog Val where
  list := .list
  msgs := [
    ⟨[⟨⟨"ids", ["$"], "", false⟩, none, .num 0, .simple (.pure fun st => some (.list [.num 1, .num (Val.get (st "$"))]))⟩,
      ⟨⟨"posts", ["ids", "x"], "x", false⟩, none, .num 0,
        .map (fun st => match st "ids" with | some (.list l) => some l | _ => none) "x" (.message 1 fun st => some fun n => if n = "id" then st "x" else none)⟩],
      fun st => st "posts"⟩,
    ⟨[⟨⟨"v", ["id"], "", false⟩, none, .num 0, .simple (.pure fun st => some (.num (2 * Val.get (st "id"))))⟩], fun st => st "v"⟩]

theorem lineProg_sound : ∀ M ∈ lineProg.msgs, SoundMsg lineProg M := by
  intro M hM
  simp only [lineProg, List.mem_cons, List.not_mem_nil, or_false] at hM
  rcases hM with rfl | rfl
  · refine ⟨by decide, by simp, by decide, ?_, ?_, by simp [uses, lineProg]⟩
    · intro i j d e hi hj
      match i, j, hi, hj with
      | 0, 0, hi, hj | 1, 0, hi, hj | 1, 1, hi, hj => intro _ _; omega
      | 0, 1, hi, hj => simp at hi hj; subst hi; subst hj; simp
      | i + 2, j, hi, hj => simp at hi
      | i, j + 2, hi, hj => simp at hj
    · simp only [List.mem_cons, List.not_mem_nil, or_false]
      rintro d (rfl | rfl)
      · refine ⟨by simp, fun a b h => ?_⟩
        simp only
        rw [h "$" (by simp)]
      · refine ⟨by simp, rfl, fun a b h => ?_, fun a b h => ?_⟩
        · simp only
          rw [h "ids" (by simp)]
        · simp only
          rw [h "x" (by simp)]
  · exact ⟨by decide, by simp, by decide, (exProg_sound _ (by simp [exProg])).earlier,
      (exProg_sound _ (by simp [exProg])).reads, by simp [uses]⟩

theorem lineProg_acyclic : ∀ x, ¬ DependsT (graph lineProg) x x := by
  have h1 : ∀ a b, Depends (graph lineProg) a b → a = 0 ∧ b = 1 := by
    intro a b h
    rw [← AllGraph.C10_edges_exact, show graph lineProg = [some [.other, .map 1], some [.other]] from rfl] at h
    match a, h with
    | 0, h => exact ⟨rfl, by simpa [AllGraph.children, AllGraph.addDefs, AllGraph.addDef, AllGraph.hasNode] using h⟩
    | 1, h => simp [AllGraph.children, AllGraph.addDefs, AllGraph.addDef] at h
    | a + 2, h => simp [AllGraph.children] at h
  have h2 : ∀ a b, DependsT (graph lineProg) a b → a = 0 ∧ b = 1 := by
    intro a b h
    induction h with
    | one h => exact h1 _ _ h
    | more h _ ih => exact ⟨(h1 _ _ h).1, ih.2⟩
  intro x hx
  have := h2 x x hx
  omega

theorem lineOwn_sound : SoundCalls lineProg exOwn := by
  intro m M hM i d hd
  match m, hM with
  | 0, hM =>
    have hconst : ∀ ns, Reads (exOwn 0 i) ns := fun ns a b _ => rfl
    unfold ownReads
    split <;> exact hconst _
  | 1, hM => exact exOwn_sound 1 M hM i d hd
  | m + 2, hM => simp [lineProg] at hM

theorem lineProg_unshared : ∀ M ∈ lineProg.msgs, Unshared (M.defs.map (·.defn)) := by
  intro M hM
  have key : ∀ defs : List Def, NoSelfRef defs → defs.length ≤ 2 → Unshared defs := by
    intro defs hs hl a b c h1 h2
    have hb := Graph.dependsOn_strict hs h1
    have hc := Graph.dependsOn_strict hs h2
    have := Graph.dependsOn_lt h1
    have := Graph.dependsOn_lt h2
    omega
  refine key _ (lineProg_sound M hM).noSelf ?_
  simp only [lineProg, List.mem_cons, List.not_mem_nil, or_false] at hM
  rcases hM with rfl | rfl <;> simp

/-- With the argument 5: one call with 1 and one with 5, with every schedule. -/
example (v : Val) (cs : List (String × Nat)) (h : AnswersT lineProg exOwn 0 (fun n => if n = "$" then some (.num 5) else none) (some v) cs) :
    cs.Perm [("Get", 1), ("Get", 5)] :=
  C112_once_partial lineProg exOwn lineProg_sound lineProg_acyclic lineOwn_sound lineProg_unshared 0 (by decide) _ v cs h

example : ∃ cs, AnswersT lineProg exOwn 0 (fun n => if n = "$" then some (.num 5) else none) (some (.list [.num 2, .num 10])) cs :=
  (C112_answer lineProg exOwn lineProg_sound lineProg_acyclic 0 (by decide) _ _).2 rfl

/-! ### Where a service is called twice -/

theorem pstep_log {cx : Bool} {g g' : Glob} {p p' : Proc} (h : PStep cx g p g' p') :
    g'.log = g.log ∨ (∃ d f, g'.log = .start d f :: g.log) ∨ ∃ d f r, g'.log = .fin d f r :: g.log := by
  induction h with
  | @leaf cx d g ph g' p' h =>
    cases h
    case lead => exact .inr (.inl ⟨_, _, rfl⟩)
    case finish f r ha => exact .inr (.inr ⟨_, _, _, rfl⟩)
    all_goals exact .inl rfl
  | seqRun _ ih => exact ih
  | parRun _ ih => exact ih
  | _ => exact .inl rfl

section
variable {defs : List Def} {evT : Nat → Store V → Outcome V → List C → Prop} {gs : List Grp} {st0 : Store V}

theorem seenT_now {s : VSys V} {cs : List C} (h : VReachT defs evT gs st0 s cs) :
    ∀ d f, Event.start d f ∈ s.sys.g.log → ∀ n, s.seen d f n (s.store n) := by
  induction h with
  | init => intro d f hs; simp [Sys.init, Glob.init] at hs
  | step _ hs ih =>
    cases hs with
    | quiet _ hl => intro d f h; simp only [hl] at h; exact ih d f h
    | @start s s' st seen d f _ _ hl =>
      intro d' f' h n
      by_cases he : d' = d ∧ f' = f
      · simp [he]
      · simp only [he, if_false]
        simp only [hl, List.mem_cons, Event.start.injEq] at h
        rcases h with h | h
        · exact absurd h he
        · exact ih d' f' h n
    | ok _ hl _ _ => intro d f h n; exact .inr rfl
    | fail _ _ _ hl _ _ => intro d f h n; exact .inr rfl

/-- A schedule without failure, with the calls of its evaluations. -/
theorem schedule_calls (hs : NoSelfRef defs) (hgs : setup defs = .groups gs) {w : Nat → List C}
    (hev : ∀ d < defs.length, ∀ view : Store V, ∃ v, evT d view (.ok v) (w d)) {sys : Sys} (h : Reach gs false sys)
    (hno : NoFailure sys.g.log) : ∃ st seen, VReachT defs evT gs st0 ⟨sys, st, seen⟩ ((ends sys.g.log).flatMap w) := by
  induction h with
  | init => exact ⟨_, _, .init⟩
  | @step s s' hr hst ih =>
    have hr' : Reach gs false s' := .step hr hst
    have hlog : s'.g.log = s.g.log ∨ (∃ d f, s'.g.log = .start d f :: s.g.log) ∨ ∃ d f r, s'.g.log = .fin d f r :: s.g.log := by
      cases hst with
      | proc hp => exact pstep_log hp
      | cancel => exact .inl rfl
    rcases hlog with hl | ⟨d, f, hl⟩ | ⟨d, f, r, hl⟩
    · obtain ⟨st, seen, h⟩ := ih (by rw [hl] at hno; exact hno)
      rw [hl]
      exact ⟨st, seen, .step h (.quiet hst hl)⟩
    · obtain ⟨st, seen, h⟩ := ih fun d f x hx => hno d f x (by rw [hl]; exact List.mem_cons_of_mem _ hx)
      rw [hl]
      exact ⟨st, _, .step h (.start hst hl)⟩
    · obtain ⟨st, seen, h⟩ := ih fun d f x hx => hno d f x (by rw [hl]; exact List.mem_cons_of_mem _ hx)
      cases r with
      | some x => exact absurd (by rw [hl]; exact List.mem_cons_self) (hno d f x)
      | none =>
        have hin : Event.fin d f none ∈ s'.g.log := by rw [hl]; exact List.mem_cons_self
        have hstart := (fin_started (plan_follows hs hgs).2 hr').2 d f none hin
        have hd := (start_lt hs hgs hr').2 d f hstart
        have hstart' : Event.start d f ∈ s.g.log := by
          rw [hl] at hstart
          rcases List.mem_cons.1 hstart with e | e
          · cases e
          · exact e
        obtain ⟨v, hv⟩ := hev d hd st
        refine ⟨write defs st d v, noticed seen (write defs st d v), ?_⟩
        rw [hl]
        simp only [ends, List.flatMap_append, List.flatMap_cons, List.flatMap_nil, List.append_nil]
        exact .step h (.ok hst hl (seenT_now h d f hstart') hv)

end

/-- `s` calls a service, `b` and `c` use `s`. -/
def forkProg : Prog Nat where
  list := List.length
  msgs := [⟨[⟨⟨"s", [], "", false⟩, none, 0, .simple (.pure fun _ => some 1)⟩, ⟨⟨"b", ["s"], "", false⟩, none, 0, .simple (.pure fun _ => some 2)⟩,
    ⟨⟨"c", ["s"], "", false⟩, none, 0, .simple (.pure fun _ => some 3)⟩], fun _ => some 7⟩]

def forkOwn : Own Nat String := fun _ i _ => if i = 0 then ["Get"] else []

/-- After both goroutines have evaluated `s`, they go on. -/
def twiceAll : List (List Nat × Choice) := twiceSchedule ++
  [([1, 0], .finish none), ([1, 0], .go), ([1, 0], .go), ([0], .go), ([0], .go), ([0], .go), ([0], .finish none), ([0], .go), ([0], .go),
   ([1], .go), ([1], .go), ([1], .go), ([1], .finish none), ([1], .go), ([1], .go), ([], .collect 0), ([], .collect 0), ([], .go)]

/-- A call that one definition makes is made twice for a request that succeeds, if two definitions use its result. -/
theorem C112_twice_false : ∃ (P : Prog Nat) (own : Own Nat String), (∀ M ∈ P.msgs, SoundMsg P M) ∧ SoundCalls P own ∧
    (∀ x, ¬ DependsT (graph P) x x) ∧ ∃ m args v, AnswersT P own m args (some v) ["Get", "Get"] ∧ calls P own (P.msgs.length + 1) m args = ["Get"] := by
  refine ⟨forkProg, forkOwn, ?_, ?_, ?_, 0, fun _ => none, 7, ⟨1, ?_⟩, rfl⟩
  · intro M hM
    simp only [forkProg, List.mem_cons, List.not_mem_nil, or_false] at hM
    subst hM
    refine ⟨by decide, by simp, by decide, ?_, ?_, by simp [uses]⟩
    · intro i j d e hi hj
      match i, j, hi, hj with
      | 0, 0, hi, hj | 1, 0, hi, hj | 1, 1, hi, hj | 2, 0, hi, hj | 2, 1, hi, hj | 2, 2, hi, hj => intro _ _; omega
      | 0, 1, hi, hj | 0, 2, hi, hj | 1, 2, hi, hj => simp at hi hj; subst hi; subst hj; simp
      | i + 3, j, hi, hj => simp at hi
      | i, j + 3, hi, hj => simp at hj
    · simp only [List.mem_cons, List.not_mem_nil, or_false]
      rintro d (rfl | rfl | rfl) <;> exact ⟨by simp, fun a b h => rfl⟩
  · intro m M hM i d hd
    unfold ownReads
    split <;> exact fun a b _ => rfl
  · have h1 : ∀ a b, ¬ Depends (graph forkProg) a b := by
      intro a b h
      rw [← AllGraph.C10_edges_exact, show graph forkProg = [some [.other, .other, .other]] from rfl] at h
      match a, h with
      | 0, h => simp [AllGraph.children, AllGraph.addDefs, AllGraph.addDef] at h
      | a + 1, h => simp [AllGraph.children] at h
    intro x hx
    cases hx with
    | one h => exact h1 _ _ h
    | more h _ => exact h1 _ _ h
  · obtain ⟨g', h, hlog⟩ : ∃ g', Exec.run false twiceAll .init (startAll forkPlan) = some (g', .done none) ∧
        g'.log = [.fin 2 3 none, .start 2 3, .fin 1 2 none, .start 1 2, .fin 0 1 none, .start 0 1, .fin 0 0 none, .start 0 0] := ⟨_, rfl, rfl⟩
    refine ⟨_, rfl, .inr ⟨forkPlan, fork_plan, ?_⟩⟩
    have hno : NoFailure g'.log := by intro d f x hx; rw [hlog] at hx; simp at hx
    obtain ⟨st, seen, hr⟩ := schedule_calls (V := Nat) (C := String) (evT := evalT forkProg forkOwn (AnswersTN forkProg forkOwn 0) 0 (forkProg.msgs[0]'(by decide))) (st0 := fun _ => none)
      (w := fun i => if i = 0 then ["Get"] else []) (by decide : NoSelfRef Exec.forkDefs) fork_plan (by
        intro d hd view
        match d, hd with
        | 0, _ => exact ⟨1, _, rfl, _, ⟨rfl, rfl⟩, rfl⟩
        | 1, _ => exact ⟨2, _, rfl, _, ⟨rfl, rfl⟩, rfl⟩
        | 2, _ => exact ⟨3, _, rfl, _, ⟨rfl, rfl⟩, rfl⟩
        | d + 3, hd => simp [Exec.forkDefs] at hd; omega) (run_sound .init h) hno
    rw [show (ends g'.log).flatMap (fun i => if i = 0 then ["Get"] else []) = ["Get", "Get"] by rw [hlog]; rfl] at hr
    exact ⟨_, hr, .inl ⟨rfl, rfl⟩⟩

end Verif.Calls
