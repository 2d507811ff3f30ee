import Verif.Calls.Once
import Verif.Whole.Props

/-! # Lemmas on the calls that a request makes -/

namespace Verif.Calls
open Verif.Graph (Def Grp setup NoSelfRef DependsOn)
open Verif.Exec Verif.Value Verif.Whole
open Verif.AllGraph (Depends DependsT)

variable {V C : Type}

/-! ### Without the calls it is the machine of C103 -/

theorem simple_forget {RT : Nat → Store V → Option V → List C → Prop} {R : Nat → Store V → Option V → Prop}
    (h : ∀ m a r cs, RT m a r cs → R m a r) {own : Store V → List C} {s : Simple V} {view : Store V} {r : Option V} {cs : List C}
    (hr : SimpleT RT own s view r cs) : SimpleR R s view r := by
  cases s with
  | pure f => exact hr.1
  | message m args =>
    simp only [SimpleT] at hr
    simp only [SimpleR]
    cases ha : args view with
    | none => rw [ha] at hr; exact hr.1
    | some a => rw [ha] at hr; exact h _ _ _ _ hr

theorem elems_forget {st : V → Option V → List C → Prop} {s : V → Option V → Prop} (h : ∀ u r cs, st u r cs → s u r) {us : List V}
    {r : Option (List V)} {cs : List C} (hr : ElemsT st us r cs) : ElemsR s us r := by
  induction hr with
  | nil => exact .nil
  | fail h1 => exact .fail (h _ _ _ h1)
  | later h1 _ ih => exact .later (h _ _ _ h1) ih
  | cons h1 _ ih => exact .cons (h _ _ _ h1) ih

theorem body_forget {RT : Nat → Store V → Option V → List C → Prop} {R : Nat → Store V → Option V → Prop}
    (h : ∀ m a r cs, RT m a r cs → R m a r) {own : Store V → List C} {list : List V → V} {b : Body V} {view : Store V} {r : Option V}
    {cs : List C} (hr : BodyT RT own list b view r cs) : BodyR R list b view r := by
  cases b with
  | simple s => exact simple_forget h hr
  | map src iter elem =>
    simp only [BodyT] at hr
    simp only [BodyR]
    cases hs : src view with
    | none => rw [hs] at hr; exact hr.1
    | some us =>
      rw [hs] at hr
      obtain ⟨vs, h1, h2⟩ := hr
      exact ⟨vs, elems_forget (fun u r cs hu => simple_forget h hu) h1, h2⟩

theorem def_forget {RT : Nat → Store V → Option V → List C → Prop} {R : Nat → Store V → Option V → Prop}
    (h : ∀ m a r cs, RT m a r cs → R m a r) {own : Store V → List C} {list : List V → V} {d : WDef V} {view : Store V} {r : Option V}
    {cs : List C} (hr : DefT RT own list d view r cs) : DefR R list d view r := by
  unfold DefT at hr
  unfold DefR
  cases hc : d.cond with
  | none => rw [hc] at hr; exact body_forget h hr
  | some c =>
    rw [hc] at hr
    simp only at hr ⊢
    cases hv : c view with
    | none => rw [hv] at hr; exact hr.1
    | some b => cases b with
      | false => rw [hv] at hr; exact hr.1
      | true => rw [hv] at hr; exact body_forget h hr

theorem eval_forget {P : Prog V} {own : Own V C} {RT : Nat → Store V → Option V → List C → Prop} {R : Nat → Store V → Option V → Prop}
    (h : ∀ m a r cs, RT m a r cs → R m a r) {m : Nat} {M : Msg V} {i : Nat} {view : Store V} {o : Outcome V} {cs : List C}
    (hr : evalT P own RT m M i view o cs) : evalR P R M i view o := by
  obtain ⟨d, hd, r, hr, ho⟩ := hr
  exact ⟨d, hd, r, def_forget h hr, ho⟩

section
variable {defs : List Def} {evT : Nat → Store V → Outcome V → List C → Prop} {ev : Nat → Store V → Outcome V → Prop} {gs : List Grp}
  {st0 : Store V}

theorem step_forget (h : ∀ i view o cs, evT i view o cs → ev i view o) {s s' : VSys V} {cs cs' : List C} (hs : VStepT defs evT s cs s' cs') :
    VStepR defs ev s s' := by
  cases hs with
  | quiet h1 h2 => exact .quiet h1 h2
  | start h1 h2 => exact .start h1 h2
  | ok h1 h2 h3 h4 => exact .ok h1 h2 h3 (h _ _ _ _ h4)
  | fail st' new h1 h2 h3 h4 =>
    refine .fail st' h1 h2 ?_ h4
    rcases h3 with h3 | ⟨view, o, h5, h6, h7⟩
    · exact .inl h3
    · exact .inr ⟨view, o, h5, h _ _ _ _ h6, h7⟩

theorem reach_forget (h : ∀ i view o cs, evT i view o cs → ev i view o) {s : VSys V} {cs : List C} (hs : VReachT defs evT gs st0 s cs) :
    VReachR defs ev gs st0 s := by
  induction hs with
  | init => exact .init
  | step _ hs ih => exact .step ih (step_forget h hs)

/-- Every run of the machine of C103 makes some calls. -/
theorem reach_calls (h : ∀ i view o, ev i view o → ∃ cs, evT i view o cs) {s : VSys V} (hs : VReachR defs ev gs st0 s) :
    ∃ cs, VReachT defs evT gs st0 s cs := by
  induction hs with
  | init => exact ⟨[], .init⟩
  | step _ hs ih =>
    obtain ⟨cs, hc⟩ := ih
    cases hs with
    | quiet h1 h2 => exact ⟨_, .step hc (.quiet h1 h2)⟩
    | start h1 h2 => exact ⟨_, .step hc (.start h1 h2)⟩
    | ok h1 h2 h3 h4 =>
      obtain ⟨new, hn⟩ := h _ _ _ h4
      exact ⟨_, .step hc (.ok h1 h2 h3 hn)⟩
    | fail st' h1 h2 h3 h4 =>
      rcases h3 with h3 | ⟨view, o, h5, h6, h7⟩
      · exact ⟨_, .step hc (.fail st' [] h1 h2 (.inl h3) h4)⟩
      · obtain ⟨new, hn⟩ := h _ _ _ h6
        exact ⟨_, .step hc (.fail st' new h1 h2 (.inr ⟨view, o, h5, hn, h7⟩) h4)⟩
end

theorem answersTN_forget {P : Prog V} {own : Own V C} : ∀ (k m : Nat) (a : Store V) (r : Option V) (cs : List C),
    AnswersTN P own k m a r cs → AnswersN P k m a r := by
  intro k
  induction k with
  | zero => intro m a r cs h; cases h
  | succ k ih =>
    rintro m a r cs ⟨M, hM, h⟩
    refine ⟨M, hM, ?_⟩
    rcases h with ⟨h1, h2, _⟩ | ⟨gs, hgs, s, hs, hr⟩
    · exact .inl ⟨h1, h2⟩
    · exact .inr ⟨gs, hgs, s, reach_forget (ev := evalR P (AnswersN P k) M) (fun i view o cs => eval_forget ih) hs, hr⟩

/-! ### Every answer is given after some calls -/

theorem simple_some {RT : Nat → Store V → Option V → List C → Prop} {R : Nat → Store V → Option V → Prop}
    (h : ∀ m a r, R m a r → ∃ cs, RT m a r cs) (own : Store V → List C) {s : Simple V} {view : Store V} {r : Option V}
    (hr : SimpleR R s view r) : ∃ cs, SimpleT RT own s view r cs := by
  cases s with
  | pure f => exact ⟨_, hr, rfl⟩
  | message m args =>
    simp only [SimpleR] at hr
    simp only [SimpleT]
    cases ha : args view with
    | none => rw [ha] at hr; exact ⟨[], hr, rfl⟩
    | some a => rw [ha] at hr; exact h _ _ _ hr

theorem elems_some {st : V → Option V → List C → Prop} {s : V → Option V → Prop} (h : ∀ u r, s u r → ∃ cs, st u r cs) {us : List V}
    {r : Option (List V)} (hr : ElemsR s us r) : ∃ cs, ElemsT st us r cs := by
  induction hr with
  | nil => exact ⟨_, .nil⟩
  | fail h1 => obtain ⟨cs, h1⟩ := h _ _ h1; exact ⟨_, .fail h1⟩
  | later h1 _ ih => obtain ⟨cs, h1⟩ := h _ _ h1; obtain ⟨cs', h2⟩ := ih; exact ⟨_, .later h1 h2⟩
  | cons h1 _ ih => obtain ⟨cs, h1⟩ := h _ _ h1; obtain ⟨cs', h2⟩ := ih; exact ⟨_, .cons h1 h2⟩

theorem body_some {RT : Nat → Store V → Option V → List C → Prop} {R : Nat → Store V → Option V → Prop}
    (h : ∀ m a r, R m a r → ∃ cs, RT m a r cs) (own : Store V → List C) {list : List V → V} {b : Body V} {view : Store V} {r : Option V}
    (hr : BodyR R list b view r) : ∃ cs, BodyT RT own list b view r cs := by
  cases b with
  | simple s => exact simple_some h own hr
  | map src iter elem =>
    simp only [BodyR] at hr
    simp only [BodyT]
    cases hs : src view with
    | none => rw [hs] at hr; exact ⟨[], hr, rfl⟩
    | some us =>
      rw [hs] at hr
      obtain ⟨vs, h1, h2⟩ := hr
      obtain ⟨cs, h1⟩ := elems_some (fun u r hu => simple_some h own hu) h1
      exact ⟨cs, vs, h1, h2⟩

theorem eval_some {P : Prog V} {own : Own V C} {RT : Nat → Store V → Option V → List C → Prop} {R : Nat → Store V → Option V → Prop}
    (h : ∀ m a r, R m a r → ∃ cs, RT m a r cs) {m : Nat} {M : Msg V} {i : Nat} {view : Store V} {o : Outcome V}
    (hr : evalR P R M i view o) : ∃ cs, evalT P own RT m M i view o cs := by
  obtain ⟨d, hd, r, hr, ho⟩ := hr
  suffices ∃ cs, DefT RT (own m i) P.list d view r cs by
    obtain ⟨cs, hc⟩ := this
    exact ⟨cs, d, hd, r, hc, ho⟩
  unfold DefR at hr
  unfold DefT
  cases hc : d.cond with
  | none => rw [hc] at hr; exact body_some h _ hr
  | some c =>
    rw [hc] at hr
    simp only at hr ⊢
    cases hv : c view with
    | none => rw [hv] at hr; exact ⟨[], hr, rfl⟩
    | some b => cases b with
      | false => rw [hv] at hr; exact ⟨[], hr, rfl⟩
      | true => rw [hv] at hr; exact body_some h _ hr

theorem answersTN_some {P : Prog V} {own : Own V C} : ∀ (k m : Nat) (a : Store V) (r : Option V),
    AnswersN P k m a r → ∃ cs, AnswersTN P own k m a r cs := by
  intro k
  induction k with
  | zero => intro m a r h; cases h
  | succ k ih =>
    rintro m a r ⟨M, hM, h⟩
    rcases h with ⟨h1, h2⟩ | ⟨gs, hgs, s, hs, hr⟩
    · exact ⟨[], M, hM, .inl ⟨h1, h2, rfl⟩⟩
    · obtain ⟨cs, hc⟩ := reach_calls (fun i view o => eval_some (own := own) (m := m) ih) hs
      exact ⟨cs, M, hM, .inr ⟨gs, hgs, s, hc, hr⟩⟩

/-! ### What is called, up to `E` -/

/-- A way to compare lists of calls piece by piece. -/
structure Piece (E : List C → List C → Prop) : Prop where
  refl : ∀ l, E l l
  app : ∀ a a' b b', E a a' → E b b' → E (a ++ b) (a' ++ b')

section
variable {E : List C → List C → Prop} (hE : Piece E)

theorem simple_calls {RT : Nat → Store V → Option V → List C → Prop} {tr : Nat → Store V → List C} {own : Store V → List C} {s : Simple V}
    (h : ∀ m ∈ uses (.simple s), ∀ a v cs, RT m a (some v) cs → E cs (tr m a)) {view : Store V} {v : V} {cs : List C}
    (hE : Piece E) (hr : SimpleT RT own s view (some v) cs) : E cs (simpleCalls tr own s view) := by
  cases s with
  | pure f => rw [hr.2]; exact hE.refl _
  | message m args =>
    simp only [SimpleT] at hr
    simp only [simpleCalls]
    cases ha : args view with
    | none => rw [ha] at hr; cases hr.1
    | some a => rw [ha] at hr; exact h m (by simp [uses]) _ _ _ hr

include hE in
theorem elems_calls {st : V → Option V → List C → Prop} {g : V → List C} (h : ∀ u v cs, st u (some v) cs → E cs (g u)) {us : List V}
    {r : Option (List V)} {cs : List C} (hr : ElemsT st us r cs) (hsome : r ≠ none) : E cs (us.flatMap g) := by
  induction hr with
  | nil => exact hE.refl _
  | fail h1 => exact absurd rfl hsome
  | later h1 _ ih => exact absurd rfl hsome
  | cons h1 _ ih => exact hE.app _ _ _ _ (h _ _ _ h1) (ih (by simp))

theorem body_calls {RT : Nat → Store V → Option V → List C → Prop} {tr : Nat → Store V → List C} {own : Store V → List C} {b : Body V}
    {list : List V → V} (h : ∀ m ∈ uses b, ∀ a v cs, RT m a (some v) cs → E cs (tr m a)) {view : Store V} {v : V} {cs : List C}
    (hE : Piece E) (hr : BodyT RT own list b view (some v) cs) : E cs (bodyCalls tr own b view) := by
  cases b with
  | simple s => exact simple_calls h hE hr
  | map src iter elem =>
    simp only [BodyT] at hr
    simp only [bodyCalls]
    cases hs : src view with
    | none => rw [hs] at hr; cases hr.1
    | some us =>
      rw [hs] at hr
      obtain ⟨vs, h1, h2⟩ := hr
      refine elems_calls hE (fun u v cs hu => ?_) h1 (by rintro rfl; cases h2)
      exact simple_calls (fun m hm => h m (by cases elem <;> simp_all [uses])) hE hu

theorem def_calls {RT : Nat → Store V → Option V → List C → Prop} {tr : Nat → Store V → List C} {own : Store V → List C} {d : WDef V}
    {list : List V → V} (h : ∀ m ∈ uses d.body, ∀ a v cs, RT m a (some v) cs → E cs (tr m a)) {view : Store V} {v : V} {cs : List C}
    (hE : Piece E) (hr : DefT RT own list d view (some v) cs) : E cs (defCalls tr own d view) := by
  unfold DefT at hr
  unfold defCalls
  cases hc : d.cond with
  | none => rw [hc] at hr; exact body_calls h hE hr
  | some c =>
    rw [hc] at hr
    simp only at hr ⊢
    cases hv : c view with
    | none => rw [hv] at hr; cases hr.1
    | some b => cases b with
      | false => rw [hv] at hr; rw [hr.2]; exact hE.refl _
      | true => rw [hv] at hr; simpa using body_calls h hE hr

end

theorem simpleCalls_reads {tr : Nat → Store V → List C} {own : Store V → List C} {s : Simple V} {ns : String → Prop} (h : simpleReads s ns)
    (ho : Reads own ns) : Reads (simpleCalls tr own s) ns := by
  intro a b hab
  cases s with
  | pure f => exact ho a b hab
  | message m args =>
    simp only [simpleCalls]
    rw [show args a = args b from h a b hab]

/-- What a definition calls depends only on what it refers to. -/
theorem defCalls_reads {tr : Nat → Store V → List C} {own : Store V → List C} {d : WDef V} (h : defReads d) (ho : ownReads d own) :
    Reads (defCalls tr own d) fun n => n ∈ d.defn.refs ∧ n ≠ d.defn.iter := by
  intro a b hab
  obtain ⟨hc, hb⟩ := h
  have hbody : bodyCalls tr own d.body a = bodyCalls tr own d.body b := by
    unfold ownReads at ho
    cases hbd : d.body with
    | simple s => rw [hbd] at hb ho; exact simpleCalls_reads hb ho a b hab
    | map src iter elem =>
      rw [hbd] at hb ho
      obtain ⟨rfl, h1, h2⟩ := hb
      simp only [bodyCalls, h1 a b hab]
      cases src b with
      | none => rfl
      | some us =>
        simp only
        congr 1
        funext u
        apply simpleCalls_reads h2 ho
        intro n hn
        by_cases e : n = d.defn.iter
        · simp [e]
        · simp only [e, if_false]; exact hab n ⟨hn, e⟩
  unfold defCalls
  cases hcd : d.cond with
  | none => exact hbody
  | some c => simp only; rw [hc c hcd a b hab, hbody]

/-! ### The calls of a run -/

/-- The definitions whose evaluation has ended with a value, in the order in which they have. -/
def ends : List Event → List Nat
  | [] => []
  | .fin d _ none :: log => ends log ++ [d]
  | _ :: log => ends log

theorem ends_start (d f : Nat) (log : List Event) : ends (.start d f :: log) = ends log := rfl

theorem mem_ends {d : Nat} : ∀ {log : List Event}, d ∈ ends log ↔ FinOk log d
  | [] => by simp [ends, FinOk]
  | .start d' f :: log => by
    rw [ends_start, mem_ends (log := log)]
    simp [FinOk]
  | .fin d' f none :: log => by
    simp only [ends, List.mem_append, List.mem_singleton, mem_ends (log := log)]
    constructor
    · rintro (⟨g, hg⟩ | rfl)
      · exact ⟨g, List.mem_cons_of_mem _ hg⟩
      · exact ⟨f, List.mem_cons_self⟩
    · rintro ⟨g, hg⟩
      rcases List.mem_cons.1 hg with e | hg
      · cases e; exact .inr rfl
      · exact .inl ⟨g, hg⟩
  | .fin d' f (some x) :: log => by
    simp only [ends, mem_ends (log := log)]
    constructor
    · rintro ⟨g, hg⟩; exact ⟨g, List.mem_cons_of_mem _ hg⟩
    · rintro ⟨g, hg⟩
      rcases List.mem_cons.1 hg with e | hg
      · cases e
      · exact ⟨g, hg⟩

theorem ends_fins (d : Nat) : ∀ log : List Event, (ends log).count d ≤ fins d log
  | [] => by simp [ends]
  | .start d' f :: log => by rw [ends_start, fins_start]; exact ends_fins d log
  | .fin d' f none :: log => by
    simp only [ends, List.count_append, fins_fin, List.count_cons, List.count_nil]
    have := ends_fins d log
    by_cases e : d' = d <;> simp [e] <;> omega
  | .fin d' f (some x) :: log => by
    simp only [ends, fins_fin]
    have := ends_fins d log
    omega

section
variable {P : Prog V} {own : Own V C} {M : Msg V} {m : Nat} {RT : Nat → Store V → Option V → List C → Prop}
  {ans : Nat → Store V → Option V} {tr : Nat → Store V → List C} {E : List C → List C → Prop} {gs : List Grp} {args : Store V}

/-- What definition `i` calls if the definitions are evaluated one after the other. -/
def callsAt (P : Prog V) (own : Own V C) (ans : Nat → Store V → Option V) (tr : Nat → Store V → List C) (m : Nat) (M : Msg V)
    (args : Store V) (i : Nat) : List C :=
  match M.defs[i]? with
  | some d => defCalls tr (own m i) d (best (M.defs.map (·.defn)) (evalF P ans M) args i)
  | none => []

/-- As long as nothing has failed: the calls are those of the evaluations that have ended, with the variables of the evaluation
in order. -/
theorem run_calls (hE : Piece E) (hM : SoundMsg P M) (ho : ∀ (i : Nat) (d : WDef V), M.defs[i]? = some d → ownReads d (own m i))
    (hgs : setup (M.defs.map (·.defn)) = .groups gs) (hv : ∀ i view o cs, evalT P own RT m M i view o cs → o = evalF P ans M i view)
    (hc : ∀ d ∈ M.defs, ∀ m ∈ uses d.body, ∀ a v cs, RT m a (some v) cs → E cs (tr m a)) {s : VSys V} {cs : List C}
    (hs : VReachT (M.defs.map (·.defn)) (evalT P own RT m M) gs args s cs) (hno : NoFailure s.sys.g.log) :
    E cs ((ends s.sys.g.log).flatMap (callsAt P own ans tr m M args)) := by
  have hacc := sound_accepted hM ans
  induction hs with
  | init => exact hE.refl _
  | @step s s' cs cs' hr hst ih =>
    have hF' := reach_toF (evR := fun i view o => o = evalF P ans M i view) (fun i view o ho => ho) (reach_forget hv hr)
    have hS := step_toF (evF := evalF P ans M) (fun i view o ho => ho) (step_forget hv hst)
    have hr' := vreach_reach (.step hF' hS)
    have hno0 : NoFailure s.sys.g.log := by
      obtain ⟨new, hl⟩ := step_log hS
      exact fun d f x h => hno d f x (by rw [hl]; exact List.mem_append_right _ h)
    have ih := ih hno0
    have hfine := fine_reach hacc hgs hF' hno0
    cases hst with
    | quiet h1 h2 => simp only [h2]; exact ih
    | start h1 h2 => simp only [h2, ends_start]; exact ih
    | fail st' new h1 h2 h3 h4 =>
      exact absurd (by simp only [h2]; exact List.mem_cons_self) (hno _ _ _)
    | @ok s s' st seen d f view v cs new h1 h2 h3 h4 =>
      simp only [h2, ends, List.flatMap_append, List.flatMap_cons, List.flatMap_nil, List.append_nil]
      refine hE.app _ _ _ _ ih ?_
      obtain ⟨D, hD, r, hr1, hr2⟩ := h4
      have hrv : r = some v := by cases r <;> simp_all [outcome]
      subst hrv
      have hmem := List.mem_of_getElem? hD
      have hE' := def_calls (hc D hmem) hE hr1
      have hstart : Event.start d f ∈ s.g.log := by
        have := (fin_started (plan_follows hM.noSelf hgs).2 hr').2 d f none (by simp only [h2]; exact List.mem_cons_self)
        simp only [h2] at this
        rcases List.mem_cons.1 this with e | e
        · cases e
        · exact e
      unfold callsAt
      rw [hD]
      simp only
      rw [← defCalls_reads (hM.reads D hmem) (ho d D hD) view _ (by
        intro n hn
        exact (hfine.seen d f D.defn hstart (by simp [hD]) n hn.1 hn.2).1 _ (h3 n))]
      exact hE'

/-- The calls of the definitions in order, if they all succeed. -/
theorem runCalls_range (hok : ∀ i < M.defs.length, ∃ v, evalF P ans M i (best (M.defs.map (·.defn)) (evalF P ans M) args i) = .ok v) :
    ∀ k ≤ M.defs.length, runCalls ans tr (own m) P.list 0 M.defs args =
      (List.range k).flatMap (callsAt P own ans tr m M args) ++
        runCalls ans tr (own m) P.list k (M.defs.drop k) (best (M.defs.map (·.defn)) (evalF P ans M) args k) := by
  intro k
  induction k with
  | zero => intro _; rfl
  | succ k ih =>
    intro hk
    have hlt : k < M.defs.length := hk
    rw [ih (Nat.le_of_lt hlt), List.drop_eq_getElem_cons hlt, List.range_succ, List.flatMap_append]
    simp only [List.flatMap_cons, List.flatMap_nil, List.append_nil, List.append_assoc, runCalls]
    obtain ⟨v, hv⟩ := hok k hlt
    have hc : callsAt P own ans tr m M args k = defCalls tr (own m k) M.defs[k] (best (M.defs.map (·.defn)) (evalF P ans M) args k) := by
      unfold callsAt; rw [List.getElem?_eq_getElem hlt]
    have hb : best (M.defs.map (·.defn)) (evalF P ans M) args (k + 1) =
        fun n => if n = M.defs[k].defn.name then some v else best (M.defs.map (·.defn)) (evalF P ans M) args k n := by
      simp only [best, List.getElem?_map, List.getElem?_eq_getElem hlt, Option.map_some, hv]
      rfl
    have hd : defValue ans P.list M.defs[k] (best (M.defs.map (·.defn)) (evalF P ans M) args k) = some v := by
      unfold evalF at hv
      simp only [List.getElem?_eq_getElem hlt] at hv
      unfold evalF
      revert hv
      cases defValue ans P.list M.defs[k] _ with
      | none => simp [outcome]
      | some w => simp [outcome]
    rw [hc, hb, hd]

end

/-! ### The calls of a request -/

theorem answers_iff {P : Prog V} (hs : ∀ M ∈ P.msgs, SoundMsg P M) (hac : ∀ x, ¬ DependsT (graph P) x x) {m : Nat} (hm : m < P.msgs.length)
    {n : Nat} (hn : rank P m < n) (a : Store V) (r : Option V) : Answers P m a r ↔ r = answer P n m a := by
  constructor
  · rintro ⟨k, hk⟩
    exact (answersN_iff hs hac (rank P m + 1) m (by omega) hm a r (max k (rank P m + 1)) n (by omega) hn).1 (answersN_le (by omega) hk)
  · intro h
    exact ⟨n, (answersN_iff hs hac (rank P m + 1) m (by omega) hm a r n n hn hn).2 h⟩

theorem request_calls {P : Prog V} {own : Own V C} (hs : ∀ M ∈ P.msgs, SoundMsg P M) (hac : ∀ x, ¬ DependsT (graph P) x x)
    (hown : SoundCalls P own) {E : List C → List C → Prop} (hE : Piece E)
    (hfin : ∀ M ∈ P.msgs, ∀ gs, setup (M.defs.map (·.defn)) = .groups gs → ∀ l : List Nat, (∀ i, i ∈ l ↔ i < M.defs.length) →
      (∀ d, l.count d ≤ (gs.flatMap Grp.defs).count d) → ∀ (w : Nat → List C) cs, E cs (l.flatMap w) →
        E cs ((List.range M.defs.length).flatMap w)) :
    ∀ (j m : Nat), rank P m < j → m < P.msgs.length → ∀ (k n : Nat), rank P m < n → ∀ (a : Store V) (v : V) (cs : List C),
      AnswersTN P own k m a (some v) cs → E cs (calls P own n m a) := by
  intro j
  induction j with
  | zero => intro m h; omega
  | succ j ih =>
    intro m hj hm k n hn a v cs h
    obtain ⟨k, rfl⟩ : ∃ k', k = k' + 1 := by cases k with
      | zero => cases h
      | succ k => exact ⟨k, rfl⟩
    obtain ⟨n, rfl⟩ : ∃ n', n = n' + 1 := ⟨n - 1, by omega⟩
    obtain ⟨M, hM, h⟩ := h
    have hmem := List.mem_of_getElem? hM
    have hsound := hs M hmem
    have hrank : ∀ d ∈ M.defs, ∀ b ∈ uses d.body, b < P.msgs.length ∧ rank P b < rank P m := by
      intro d hd b hb
      have hlt := hsound.exist d hd b hb
      exact ⟨hlt, rank_lt hac (depends_uses hM hd hb hlt) hlt⟩
    simp only [calls, hM]
    rcases h with ⟨hd, _, rfl⟩ | ⟨gs, hgs, s, hr, hend⟩
    · rw [hd]; exact hE.refl _
    · rcases hend with ⟨hdone, _⟩ | ⟨_, _, h⟩
      · have hev := evalR_iff (P := P) (R := Answers P) (ans := answer P n) (M := M) fun d hd b hb a r =>
          answers_iff hs hac (hrank d hd b hb).1 (by have := (hrank d hd b hb).2; omega) a r
        have hv : ∀ i view o cs, evalT P own (AnswersTN P own k) m M i view o cs → o = evalF P (answer P n) M i view := by
          intro i view o cs h
          exact ((hev i view o).1 (eval_forget (fun m a r cs h => ⟨k, answersTN_forget k m a r cs h⟩) h)).2
        have hF := reach_toF (evR := fun i view o => o = evalF P (answer P n) M i view) (fun i view o ho => ho) (reach_forget hv hr)
        have hreach := vreach_reach hF
        have hacc := sound_accepted hsound (answer P n)
        have hlen : (M.defs.map (·.defn)).length = M.defs.length := List.length_map _
        have hno : NoFailure s.sys.g.log := (C05_failure_reported _ hsound.noSelf gs hgs false s.sys hreach none hdone).1.1 rfl
        have hall : ∀ i < M.defs.length, FinOk s.sys.g.log i := fun i hi =>
          C03_all_evaluated _ hsound.noSelf gs hgs false s.sys hreach hdone i (by rw [hlen]; exact hi)
        have hrun := run_calls hE hsound (hown m M hM) hgs hv (tr := calls P own n) (by
          intro d hd b hb a v cs h
          have := hrank d hd b hb
          exact ih b (by omega) this.1 k n (by omega) a v cs h) hr hno
        have hfine := fine_reach hacc hgs hF hno
        have hok : ∀ i < M.defs.length, ∃ v, evalF P (answer P n) M i (best (M.defs.map (·.defn)) (evalF P (answer P n) M) a i) = .ok v := by
          intro i hi
          obtain ⟨v, hv, _⟩ := hfine.value i _ (List.getElem?_eq_getElem (by rw [hlen]; exact hi)) (hall i hi)
          exact ⟨v, hv⟩
        have hrange := runCalls_range (own := own) (m := m) (tr := calls P own n) hok M.defs.length (Nat.le_refl _)
        rw [List.drop_length] at hrange
        rw [hrange]
        simp only [runCalls, List.append_nil]
        refine hfin M hmem gs hgs _ ?_ ?_ _ _ hrun
        · intro i
          rw [mem_ends]
          refine ⟨?_, hall i⟩
          rintro ⟨f, hf⟩
          rw [← hlen]
          exact (start_lt hsound.noSelf hgs hreach).2 i f ((fin_started (plan_follows hsound.noSelf hgs).2 hreach).2 i f _ hf)
        · intro d
          have h1 := ends_fins d s.sys.g.log
          have h2 := fins_le d hreach
          omega
      · cases h

end Verif.Calls
