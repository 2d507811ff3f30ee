import Verif.Whole.Spec
import Verif.Value.Props
import Verif.AllGraph.Props

/-! # A request is answered as its definitions say, whatever the schedule (C103) -/

namespace Verif.Whole
open Verif.Graph (Def Grp setup C03_plan_complete)
open Verif.Exec Verif.Value
open Verif.AllGraph (Depends DependsT)

variable {V : Type}

/-! ### Evaluating one definition -/

theorem simple_iff {R : Nat → Store V → Option V → Prop} {ans : Nat → Store V → Option V} (s : Simple V)
    (h : ∀ m ∈ uses (.simple s), ∀ a r, R m a r ↔ r = ans m a) (view : Store V) (r : Option V) :
    SimpleR R s view r ↔ r = simpleValue ans s view := by
  cases s with
  | pure f => rfl
  | message m args =>
    simp only [SimpleR, simpleValue]
    cases args view with
    | none => rfl
    | some a => exact h m (by simp [uses]) a r

theorem elems_iff {step : V → Option V → Prop} {f : V → Option V} (h : ∀ u r, step u r ↔ r = f u) :
    ∀ (us : List V) (r : Option (List V)), ElemsR step us r ↔ r = allOf f us := by
  intro us
  induction us with
  | nil =>
    intro r
    simp only [allOf]
    constructor
    · intro h; cases h; rfl
    · rintro rfl; exact .nil
  | cons u us ih =>
    intro r
    simp only [allOf]
    constructor
    · intro hr
      cases hr with
      | fail h1 => rw [← (h _ _).1 h1]; rfl
      | later h1 h2 => rw [← (h _ _).1 h1, ← (ih _).1 h2]; rfl
      | cons h1 h2 => rw [← (h _ _).1 h1, ← (ih _).1 h2]; rfl
    · rintro rfl
      cases hu : f u with
      | none => exact .fail ((h _ _).2 hu.symm)
      | some v =>
        cases hus : allOf f us with
        | none => exact .later ((h _ _).2 hu.symm) ((ih _).2 hus.symm)
        | some vs => exact .cons ((h _ _).2 hu.symm) ((ih _).2 hus.symm)

theorem body_iff {R : Nat → Store V → Option V → Prop} {ans : Nat → Store V → Option V} (list : List V → V) (b : Body V)
    (h : ∀ m ∈ uses b, ∀ a r, R m a r ↔ r = ans m a) (view : Store V) (r : Option V) :
    BodyR R list b view r ↔ r = bodyValue ans list b view := by
  cases b with
  | simple s => exact simple_iff s h view r
  | map src iter elem =>
    simp only [BodyR, bodyValue]
    cases src view with
    | none => rfl
    | some us =>
      have he := elems_iff (step := fun u => SimpleR R elem (set view iter u))
        (f := fun u => simpleValue ans elem fun n => if n = iter then some u else view n)
        (fun u r => simple_iff elem (fun m hm => h m (by cases elem <;> simp_all [uses])) _ r) us
      constructor
      · rintro ⟨vs, h1, rfl⟩
        rw [(he vs).1 h1]; rfl
      · rintro rfl
        exact ⟨_, (he _).2 rfl, rfl⟩

theorem def_iff {R : Nat → Store V → Option V → Prop} {ans : Nat → Store V → Option V} (list : List V → V) (d : WDef V)
    (h : ∀ m ∈ uses d.body, ∀ a r, R m a r ↔ r = ans m a) (view : Store V) (r : Option V) :
    DefR R list d view r ↔ r = defValue ans list d view := by
  unfold DefR defValue
  cases d.cond with
  | none => exact body_iff list d.body h view r
  | some c =>
    simp only
    cases c view with
    | none => rfl
    | some b => cases b with
      | false => simp
      | true => simpa using body_iff list d.body h view r

/-! ### The function that definitions are evaluated by -/

def evalF (P : Prog V) (ans : Nat → Store V → Option V) (M : Msg V) (i : Nat) (view : Store V) : Outcome V :=
  match M.defs[i]? with
  | some d => outcome (defValue ans P.list d view)
  | none => .panic

theorem evalR_iff {P : Prog V} {R : Nat → Store V → Option V → Prop} {ans : Nat → Store V → Option V} {M : Msg V}
    (h : ∀ d ∈ M.defs, ∀ m ∈ uses d.body, ∀ a r, R m a r ↔ r = ans m a) (i : Nat) (view : Store V) (o : Outcome V) :
    evalR P R M i view o ↔ i < M.defs.length ∧ o = evalF P ans M i view := by
  unfold evalR evalF
  constructor
  · rintro ⟨d, hd, r, hr, rfl⟩
    rw [hd]
    have hm := List.mem_of_getElem? hd
    exact ⟨(List.getElem?_eq_some_iff.1 hd).1, by rw [(def_iff P.list d (h d hm) view r).1 hr]⟩
  · rintro ⟨hi, rfl⟩
    have hd := List.getElem?_eq_getElem hi
    rw [hd]
    exact ⟨_, rfl, _, (def_iff P.list _ (h _ (List.getElem_mem hi)) view _).2 rfl, rfl⟩

theorem run_append (ans : Nat → Store V → Option V) (list : List V → V) (ds es : List (WDef V)) : ∀ st,
    run ans list (ds ++ es) st = (run ans list ds st).bind (run ans list es) := by
  induction ds with
  | nil => intro st; rfl
  | cons d ds ih =>
    intro st
    simp only [List.cons_append, run]
    cases defValue ans list d st with
    | none => rfl
    | some v => exact ih _

theorem inOrder_run (P : Prog V) (ans : Nat → Store V → Option V) (M : Msg V) (st : Store V) : ∀ k ≤ M.defs.length,
    inOrder (M.defs.map (·.defn)) (evalF P ans M) st k = run ans P.list (M.defs.take k) st := by
  intro k
  induction k with
  | zero => intro _; rfl
  | succ k ih =>
    intro hk
    have hk' : k < M.defs.length := hk
    have htake : M.defs.take (k + 1) = M.defs.take k ++ [M.defs[k]] := by rw [List.take_append_getElem hk']
    rw [htake, run_append, ← ih (Nat.le_of_lt hk')]
    simp only [inOrder, List.getElem?_map, List.getElem?_eq_getElem hk', Option.map_some]
    cases inOrder (M.defs.map (·.defn)) (evalF P ans M) st k with
    | none => rfl
    | some s =>
      simp only [Option.bind_some, run, evalF, List.getElem?_eq_getElem hk']
      cases defValue ans P.list M.defs[k] s <;> rfl

/-! ### Reading -/

theorem simple_reads {ans : Nat → Store V → Option V} {s : Simple V} {ns : String → Prop} (h : simpleReads s ns) :
    Reads (simpleValue ans s) ns := by
  intro a b hab
  cases s with
  | pure f => exact h a b hab
  | message m args => simp only [simpleValue]; rw [h a b hab]

theorem allOf_congr {f g : V → Option V} (h : ∀ u, f u = g u) (us : List V) : allOf f us = allOf g us := by
  have : f = g := funext h
  rw [this]

theorem def_reads {ans : Nat → Store V → Option V} {list : List V → V} {d : WDef V} (h : defReads d) :
    Reads (defValue ans list d) fun n => n ∈ d.defn.refs ∧ n ≠ d.defn.iter := by
  intro a b hab
  obtain ⟨hc, hb⟩ := h
  have hbody : bodyValue ans list d.body a = bodyValue ans list d.body b := by
    cases hbd : d.body with
    | simple s => rw [hbd] at hb; exact simple_reads hb a b hab
    | map src iter elem =>
      rw [hbd] at hb
      obtain ⟨rfl, h1, h2⟩ := hb
      simp only [bodyValue, h1 a b hab]
      congr 1
      funext us
      congr 1
      apply allOf_congr
      intro u
      apply simple_reads h2
      intro n hn
      by_cases e : n = d.defn.iter
      · simp [e]
      · simp only [e, if_false]; exact hab n ⟨hn, e⟩
  unfold defValue
  cases hcd : d.cond with
  | none => exact hbody
  | some c => simp only; rw [hc c hcd a b hab, hbody]

theorem sound_accepted {P : Prog V} {M : Msg V} (h : SoundMsg P M) (ans : Nat → Store V → Option V) :
    Accepted (M.defs.map (·.defn)) (evalF P ans M) where
  names := h.names
  named := by
    intro D hD
    obtain ⟨d, hd, rfl⟩ := List.mem_map.1 hD
    exact h.named d hd
  noSelf := h.noSelf
  earlier := by
    intro i j D E hi hj hr hn
    rw [List.getElem?_map, Option.map_eq_some_iff] at hi hj
    obtain ⟨d, hd, rfl⟩ := hi
    obtain ⟨e, he, rfl⟩ := hj
    exact h.earlier i j d e hd he hr hn
  reads := by
    intro i D a b hi hab
    rw [List.getElem?_map, Option.map_eq_some_iff] at hi
    obtain ⟨d, hd, rfl⟩ := hi
    unfold evalF
    rw [hd]
    simp only
    rw [def_reads (h.reads d (List.mem_of_getElem? hd)) a b fun n hn => hab n hn.1 hn.2]

/-! ### Runs with a relation and with a function -/

section
variable {defs : List Def} {evR : Nat → Store V → Outcome V → Prop} {evF : Nat → Store V → Outcome V} {gs : List Grp} {st0 : Store V}

theorem step_toF (h : ∀ i view o, evR i view o → o = evF i view) {s s' : VSys V} (hs : VStepR defs evR s s') : VStep defs evF s s' := by
  cases hs with
  | quiet h1 h2 => exact .quiet h1 h2
  | start h1 h2 => exact .start h1 h2
  | ok h1 h2 h3 h4 => exact .ok h1 h2 h3 (h _ _ _ h4).symm
  | fail st' h1 h2 h3 h4 =>
    refine .fail st' h1 h2 ?_ h4
    rcases h3 with h3 | ⟨view, o, h5, h6, h7⟩
    · exact .inl h3
    · exact .inr ⟨view, h5, by rw [← h _ _ _ h6]; exact h7⟩

theorem reach_toF (h : ∀ i view o, evR i view o → o = evF i view) {s : VSys V} (hs : VReachR defs evR gs st0 s) :
    VReach defs evF gs st0 s := by
  induction hs with
  | init => exact .init
  | step _ hs ih => exact .step ih (step_toF h hs)

theorem step_toR (h : ∀ i, i < defs.length → ∀ view, evR i view (evF i view)) (hn : Graph.NoSelfRef defs) (hgs : setup defs = .groups gs)
    {s s' : VSys V} (hr : VReach defs evF gs st0 s) (hs : VStep defs evF s s') : VStepR defs evR s s' := by
  have hr' := vreach_reach (.step hr hs)
  have hlt : ∀ d f r, Event.fin d f r ∈ s'.sys.g.log → d < defs.length := by
    intro d f r hm
    exact (start_lt hn hgs hr').2 d f ((fin_started (plan_follows hn hgs).2 hr').2 d f r hm)
  cases hs with
  | quiet h1 h2 => exact .quiet h1 h2
  | start h1 h2 => exact .start h1 h2
  | ok h1 h2 h3 h4 =>
    refine .ok h1 h2 h3 ?_
    rw [← h4]
    exact h _ (hlt _ _ _ (by simp only [h2]; exact List.mem_cons_self)) _
  | fail st' h1 h2 h3 h4 =>
    refine .fail st' h1 h2 ?_ h4
    rcases h3 with h3 | ⟨view, h5, h6⟩
    · exact .inl h3
    · exact .inr ⟨view, _, h5, h _ (hlt _ _ _ (by simp only [h2]; exact List.mem_cons_self)) _, h6⟩

theorem reach_toR (h : ∀ i, i < defs.length → ∀ view, evR i view (evF i view)) (hn : Graph.NoSelfRef defs) (hgs : setup defs = .groups gs)
    {s : VSys V} (hs : VReach defs evF gs st0 s) : VReachR defs evR gs st0 s := by
  induction hs with
  | init => exact .init
  | step hr hs ih => exact .step ih (step_toR h hn hgs hr hs)

end

/-! ### One message, if those that it uses are known -/

theorem message_answer {P : Prog V} {M : Msg V} (hM : SoundMsg P M) {k m : Nat} (hm : P.msgs[m]? = some M)
    {ans : Nat → Store V → Option V} (h : ∀ d ∈ M.defs, ∀ m ∈ uses d.body, ∀ a r, AnswersN P k m a r ↔ r = ans m a) (args : Store V)
    (r : Option V) : AnswersN P (k + 1) m args r ↔ r = (run ans P.list M.defs args).bind M.build := by
  have hev := evalR_iff (P := P) h
  have hacc := sound_accepted hM ans
  have hio := inOrder_run P ans M args M.defs.length (Nat.le_refl _)
  rw [List.take_length] at hio
  have hlen : (M.defs.map (·.defn)).length = M.defs.length := List.length_map _
  simp only [AnswersN]
  constructor
  · rintro ⟨M', hM', hr⟩
    rw [hm] at hM'
    cases hM'
    rcases hr with ⟨hd, rfl⟩ | ⟨gs, hgs, s, hs, hr⟩
    · rw [hd]; rfl
    · have hs' := reach_toF (fun i view o ho => ((hev i view o).1 ho).2) hs
      rcases hr with ⟨hd, rfl⟩ | ⟨hext, ⟨x, hd⟩, rfl⟩
      · have := C100_values _ _ hacc gs hgs args s hs' hd
        rw [hlen, hio] at this
        rw [this]; rfl
      · cases hrun : run ans P.list M.defs args with
        | none => rfl
        | some st =>
          rw [hrun, ← hlen] at hio
          have := C100_no_failure _ _ hacc gs hgs args st hio s hs' hext
          have := (C05_failure_reported _ hacc.noSelf gs hgs false s.sys (vreach_reach hs') _ hd).1.2 this
          cases this
  · rintro rfl
    refine ⟨M, hm, ?_⟩
    by_cases hd : M.defs = []
    · left
      refine ⟨hd, ?_⟩
      rw [hd]; rfl
    · right
      obtain ⟨gs, hgs, _⟩ := C03_plan_complete (M.defs.map (·.defn)) hM.noSelf (by simpa using hd)
      obtain ⟨s, hs, hext, hout⟩ := C100_completes _ _ hacc gs hgs args
      refine ⟨gs, hgs, s, reach_toR (fun i hi view => (hev i view _).2 ⟨hlen ▸ hi, rfl⟩) hM.noSelf hgs hs, ?_⟩
      rw [hlen, hio] at hout
      cases hrun : run ans P.list M.defs args with
      | none =>
        rw [hrun] at hout
        exact .inr ⟨hext, hout, rfl⟩
      | some st =>
        rw [hrun] at hout
        exact .inl ⟨hout.1, by rw [hout.2]; rfl⟩

/-! ### Deeper nesting allows more -/

theorem simple_mono {R R' : Nat → Store V → Option V → Prop} (h : ∀ m a r, R m a r → R' m a r) {s : Simple V} {view : Store V}
    {r : Option V} (hr : SimpleR R s view r) : SimpleR R' s view r := by
  cases s with
  | pure f => exact hr
  | message m args =>
    simp only [SimpleR] at hr ⊢
    cases ha : args view with
    | none => rw [ha] at hr; exact hr
    | some a => rw [ha] at hr; exact h _ _ _ hr

theorem elems_mono {step step' : V → Option V → Prop} (h : ∀ u r, step u r → step' u r) {us : List V} {r : Option (List V)}
    (hr : ElemsR step us r) : ElemsR step' us r := by
  induction hr with
  | nil => exact .nil
  | fail h1 => exact .fail (h _ _ h1)
  | later h1 _ ih => exact .later (h _ _ h1) ih
  | cons h1 _ ih => exact .cons (h _ _ h1) ih

theorem body_mono {R R' : Nat → Store V → Option V → Prop} (h : ∀ m a r, R m a r → R' m a r) {list : List V → V} {b : Body V}
    {view : Store V} {r : Option V} (hr : BodyR R list b view r) : BodyR R' list b view r := by
  cases b with
  | simple s => exact simple_mono h hr
  | map src iter elem =>
    simp only [BodyR] at hr ⊢
    cases hs : src view with
    | none => rw [hs] at hr; exact hr
    | some us =>
      rw [hs] at hr
      obtain ⟨vs, h1, h2⟩ := hr
      exact ⟨vs, elems_mono (fun u r => simple_mono h) h1, h2⟩

theorem evalR_mono {P : Prog V} {R R' : Nat → Store V → Option V → Prop} (h : ∀ m a r, R m a r → R' m a r) {M : Msg V} {i : Nat}
    {view : Store V} {o : Outcome V} (hr : evalR P R M i view o) : evalR P R' M i view o := by
  obtain ⟨d, hd, r, hr, ho⟩ := hr
  refine ⟨d, hd, r, ?_, ho⟩
  unfold DefR at hr ⊢
  cases hc : d.cond with
  | none => rw [hc] at hr; exact body_mono h hr
  | some c =>
    rw [hc] at hr
    simp only at hr ⊢
    cases hv : c view with
    | none => rw [hv] at hr; exact hr
    | some b => cases b with
      | false => rw [hv] at hr; exact hr
      | true => rw [hv] at hr; exact body_mono h hr

theorem reachR_mono {defs : List Def} {ev ev' : Nat → Store V → Outcome V → Prop} {gs : List Grp} {st0 : Store V}
    (h : ∀ i view o, ev i view o → ev' i view o) {s : VSys V} (hs : VReachR defs ev gs st0 s) : VReachR defs ev' gs st0 s := by
  induction hs with
  | init => exact .init
  | step _ hs ih =>
    refine .step ih ?_
    cases hs with
    | quiet h1 h2 => exact .quiet h1 h2
    | start h1 h2 => exact .start h1 h2
    | ok h1 h2 h3 h4 => exact .ok h1 h2 h3 (h _ _ _ h4)
    | fail st' h1 h2 h3 h4 =>
      refine .fail st' h1 h2 ?_ h4
      rcases h3 with h3 | ⟨view, o, h5, h6, h7⟩
      · exact .inl h3
      · exact .inr ⟨view, o, h5, h _ _ _ h6, h7⟩

theorem answersN_succ {P : Prog V} : ∀ (k m : Nat) (a : Store V) (r : Option V), AnswersN P k m a r → AnswersN P (k + 1) m a r := by
  intro k
  induction k with
  | zero => intro m a r h; cases h
  | succ k ih =>
    rintro m a r ⟨M, hM, h⟩
    refine ⟨M, hM, h.imp id ?_⟩
    rintro ⟨gs, hgs, s, hs, hr⟩
    exact ⟨gs, hgs, s, reachR_mono (fun i view o => evalR_mono ih) hs, hr⟩

theorem answersN_le {P : Prog V} {k n m : Nat} {a : Store V} {r : Option V} (hkn : k ≤ n) (h : AnswersN P k m a r) : AnswersN P n m a r := by
  induction hkn with
  | refl => exact h
  | step _ ih => exact answersN_succ _ _ _ _ ih

/-! ### Messages that do not depend on themselves -/

theorem depends_uses {P : Prog V} {m b : Nat} {M : Msg V} (hM : P.msgs[m]? = some M) {d : WDef V} (hd : d ∈ M.defs) (hb : b ∈ uses d.body)
    (hlt : b < P.msgs.length) : Depends (graph P) m b := by
  refine ⟨⟨M.defs.map mdef, by simp [graph, hM], mdef d, List.mem_map.2 ⟨d, hd, rfl⟩, ?_⟩, ?_⟩
  · unfold uses at hb
    unfold mdef
    split at hb <;> simp at hb
    · subst hb; rename_i e; rw [e]; exact .message _
    · subst hb; rename_i e; rw [e]; exact .map _
  · exact ⟨P.msgs[b].defs.map mdef, by simp [graph, List.getElem?_eq_getElem hlt]⟩

theorem countP_le {α : Type} {p q : α → Bool} (h : ∀ x, p x = true → q x = true) : ∀ l : List α, l.countP p ≤ l.countP q
  | [] => Nat.le_refl _
  | x :: l => by
    have := countP_le h l
    simp only [List.countP_cons]
    have hx := h x
    cases hp : p x <;> cases hq : q x <;> simp_all <;> omega

theorem countP_lt {α : Type} {p q : α → Bool} (h : ∀ x, p x = true → q x = true) {a : α} (hp : p a = false) (hq : q a = true) :
    ∀ l : List α, a ∈ l → l.countP p < l.countP q
  | x :: l, ha => by
    simp only [List.countP_cons]
    rcases List.mem_cons.1 ha with rfl | ha
    · have := countP_le h l
      simp [hp, hq]; omega
    · have := countP_lt h hp hq l ha
      have hx := h x
      cases hp : p x <;> cases hq : q x <;> simp_all <;> omega

open Classical in
/-- The number of messages that a message depends on. -/
noncomputable def rank (P : Prog V) (m : Nat) : Nat := (List.range P.msgs.length).countP fun x => decide (DependsT (graph P) m x)

theorem rank_le (P : Prog V) (m : Nat) : rank P m ≤ P.msgs.length := by
  unfold rank
  have := List.countP_le_length (p := fun x => @decide (DependsT (graph P) m x) (Classical.propDecidable _)) (l := List.range P.msgs.length)
  simpa using this

theorem rank_lt {P : Prog V} (hac : ∀ x, ¬ DependsT (graph P) x x) {a b : Nat} (h : Depends (graph P) a b) (hlt : b < P.msgs.length) :
    rank P b < rank P a := by
  unfold rank
  apply countP_lt (a := b)
  · intro x hx
    simp only [decide_eq_true_eq] at hx ⊢
    exact .more h hx
  · simpa using hac b
  · simpa using DependsT.one h
  · simpa using hlt

theorem answersN_iff {P : Prog V} (hs : ∀ M ∈ P.msgs, SoundMsg P M) (hac : ∀ x, ¬ DependsT (graph P) x x) : ∀ (j m : Nat),
    rank P m < j → m < P.msgs.length → ∀ (a : Store V) (r : Option V), ∀ k n, rank P m < k → rank P m < n →
      (AnswersN P k m a r ↔ r = answer P n m a) := by
  intro j
  induction j with
  | zero => intro m h; omega
  | succ j ih =>
    intro m hj hm a r k n hk hn
    obtain ⟨k, rfl⟩ : ∃ k', k = k' + 1 := ⟨k - 1, by omega⟩
    obtain ⟨n, rfl⟩ : ∃ n', n = n' + 1 := ⟨n - 1, by omega⟩
    have hM := List.getElem?_eq_getElem hm
    have hsound := hs _ (List.getElem_mem hm)
    rw [message_answer hsound hM (k := k) (ans := answer P n) (by
      intro d hd b hb a r
      have hlt := hsound.exist d hd b hb
      have := rank_lt hac (depends_uses hM hd hb hlt) hlt
      exact ih b (by omega) hlt a r k n (by omega) (by omega))]
    simp only [answer, hM]

/-- However the definitions of a message and of all messages that are resolved for it are scheduled, a message can end, and it
ends with what its definitions give one after the other. -/
theorem C103_answer (P : Prog V) (hs : ∀ M ∈ P.msgs, SoundMsg P M) (hac : ∀ x, ¬ DependsT (graph P) x x) (m : Nat) (hm : m < P.msgs.length)
    (args : Store V) (r : Option V) : Answers P m args r ↔ r = answer P (P.msgs.length + 1) m args := by
  have hr := rank_le P m
  constructor
  · rintro ⟨k, hk⟩
    exact (answersN_iff hs hac (rank P m + 1) m (by omega) hm args r (max k (rank P m + 1)) (P.msgs.length + 1) (by omega) (by omega)).1
      (answersN_le (by omega) hk)
  · intro h
    exact ⟨P.msgs.length + 1, (answersN_iff hs hac (rank P m + 1) m (by omega) hm args r _ _ (by omega) (by omega)).2 h⟩

/-- More than as many levels as there are messages are never needed. -/
theorem C103_depth (P : Prog V) (hs : ∀ M ∈ P.msgs, SoundMsg P M) (hac : ∀ x, ¬ DependsT (graph P) x x) (m : Nat) (hm : m < P.msgs.length)
    (args : Store V) (n : Nat) (hn : P.msgs.length < n) : answer P n m args = answer P (P.msgs.length + 1) m args := by
  have hr := rank_le P m
  have := answersN_iff hs hac (rank P m + 1) m (by omega) hm args (answer P n m args) (P.msgs.length + 1)
  exact (this (P.msgs.length + 1) (by omega) (by omega)).1 ((this n (by omega) (by omega)).2 rfl)

/-- No schedule gets stuck: a message that has not ended has a next step that brings it nearer to its end. -/
theorem C103_progress (P : Prog V) (hs : ∀ M ∈ P.msgs, SoundMsg P M) (hac : ∀ x, ¬ DependsT (graph P) x x) (M : Msg V) (hM : M ∈ P.msgs)
    (gs : List Grp) (hgs : setup (M.defs.map (·.defn)) = .groups gs) (args : Store V) (s : VSys V)
    (hr : VReachR (M.defs.map (·.defn)) (evalR P (Answers P) M) gs args s) :
    (∃ r, s.sys.p = .done r) ∨ ∃ s', VStepR (M.defs.map (·.defn)) (evalR P (Answers P) M) s s' ∧ weight s'.sys.p < weight s.sys.p ∧
      s'.sys.ext = s.sys.ext := by
  have hsound := hs M hM
  have hev := evalR_iff (P := P) (R := Answers P) (ans := answer P (P.msgs.length + 1)) (M := M) fun d hd m hm a r =>
    C103_answer P hs hac m (hsound.exist d hd m hm) a r
  have hlen : (M.defs.map (·.defn)).length = M.defs.length := List.length_map _
  have hr' := reach_toF (evF := evalF P (answer P (P.msgs.length + 1)) M) (fun i view o ho => ((hev i view o).1 ho).2) hr
  rcases C100_progress _ _ hsound.noSelf gs hgs args s hr' with h | ⟨s', h1, h2⟩
  · exact .inl h
  · exact .inr ⟨s', step_toR (fun i hi view => (hev i view _).2 ⟨hlen ▸ hi, rfl⟩) hsound.noSelf hgs hr' h1, h2⟩

/-- If the dependencies of all messages are accepted and every message is below one that none depends on, no message depends on
itself, so the above holds. -/
theorem C103_accepted_partial (P : Prog V) (rs : List Nat) (hg : AllGraph.create (graph P) = some (.graph rs))
    (hall : ∀ x, x < P.msgs.length → ∃ r, AllGraph.IsRoot (graph P) r ∧ (x = r ∨ DependsT (graph P) r x)) (hs : ∀ M ∈ P.msgs, SoundMsg P M)
    (m : Nat) (hm : m < P.msgs.length) (args : Store V) (r : Option V) :
    Answers P m args r ↔ r = answer P (P.msgs.length + 1) m args :=
  C103_answer P hs (fun x => AllGraph.C10_accepted_acyclic_partial (graph P) rs hg (fun y hy => hall y (by simpa [graph] using hy)) x)
    m hm args r

/-! ### A case that meets the hypotheses -/

/-- Values: numbers and lists. -/
inductive Val where
  | num (n : Nat)
  | list (l : List Val)

def Val.get : Option Val → Nat
  | some (.num n) => n
  | _ => 0

/-- Message 0 has the definitions `ids` (a list), `user` (message 1 with the argument `id`), a validation that `user` is not 13,
and `posts` (message 1 for each of `ids`, if `user` is not 3). Message 1 doubles its argument. -/
def exProg : Prog Val where
  list := .list
  msgs := [
    ⟨[⟨⟨"ids", ["$"], "", false⟩, none, .num 0, .simple (.pure fun st => some (.list [.num 1, .num (Val.get (st "$"))]))⟩,
      ⟨⟨"user", ["$"], "", false⟩, none, .num 0, .simple (.message 1 fun st => some fun n => if n = "id" then st "$" else none)⟩,
      ⟨⟨"_def2", ["user"], "", true⟩, none, .num 0, .simple (.pure fun st => if Val.get (st "user") = 13 then none else some (.num 0))⟩,
      ⟨⟨"posts", ["ids", "user", "x"], "x", false⟩, some fun st => some (Val.get (st "user") != 3), .num 0,
        .map (fun st => match st "ids" with | some (.list l) => some l | _ => none) "x" (.message 1 fun st => some fun n => if n = "id" then st "x" else none)⟩],
      fun st => match st "user", st "posts" with | some u, some p => some (.list [u, p]) | _, _ => none⟩,
    ⟨[⟨⟨"v", ["id"], "", false⟩, none, .num 0, .simple (.pure fun st => some (.num (2 * Val.get (st "id"))))⟩], fun st => st "v"⟩]

theorem exProg_sound : ∀ M ∈ exProg.msgs, SoundMsg exProg M := by
  intro M hM
  simp only [exProg, List.mem_cons, List.not_mem_nil, or_false] at hM
  rcases hM with rfl | rfl
  · refine ⟨by decide, by simp, by decide, ?_, ?_, by simp [uses, exProg]⟩
    · intro i j d e hi hj
      match i, j, hi, hj with
      | 0, 0, hi, hj | 1, 0, hi, hj | 1, 1, hi, hj | 2, 0, hi, hj | 2, 1, hi, hj | 2, 2, hi, hj | 3, 0, hi, hj | 3, 1, hi, hj
      | 3, 2, hi, hj | 3, 3, hi, hj => intro _ _; omega
      | 0, 1, hi, hj | 0, 2, hi, hj | 0, 3, hi, hj | 1, 2, hi, hj | 1, 3, hi, hj | 2, 3, hi, hj =>
        simp at hi hj; subst hi; subst hj; simp
      | i + 4, j, hi, hj => simp at hi
      | i, j + 4, hi, hj => simp at hj
    · simp only [List.mem_cons, List.not_mem_nil, or_false]
      rintro d (rfl | rfl | rfl | rfl)
      · refine ⟨by simp, fun a b h => ?_⟩
        simp only
        rw [h "$" (by simp)]
      · refine ⟨by simp, fun a b h => ?_⟩
        simp only
        rw [h "$" (by simp)]
      · refine ⟨by simp, fun a b h => ?_⟩
        simp only
        rw [h "user" (by simp)]
      · refine ⟨?_, rfl, fun a b h => ?_, fun a b h => ?_⟩
        · rintro c hc a b h
          simp only [Option.some.injEq] at hc
          subst hc
          simp only
          rw [h "user" (by simp)]
        · simp only
          rw [h "ids" (by simp)]
        · simp only
          rw [h "x" (by simp)]
  · refine ⟨by decide, by simp, by decide, ?_, ?_, by simp [uses]⟩
    · intro i j d e hi hj
      match i, j, hi, hj with
      | 0, 0, hi, hj => intro _ _; omega
      | i + 1, j, hi, hj => simp at hi
      | i, j + 1, hi, hj => simp at hj
    · simp only [List.mem_cons, List.not_mem_nil, or_false]
      rintro d rfl
      refine ⟨by simp, fun a b h => ?_⟩
      simp only
      rw [h "id" (by simp)]

theorem exProg_graph : graph exProg = [some [.other, .message 1, .other, .map 1], some [.other]] := rfl

theorem exProg_acyclic : ∀ x, ¬ DependsT (graph exProg) x x := by
  have h1 : ∀ a b, Depends (graph exProg) a b → a = 0 ∧ b = 1 := by
    intro a b h
    rw [← AllGraph.C10_edges_exact, exProg_graph] at h
    match a, h with
    | 0, h => exact ⟨rfl, by simpa [AllGraph.children, AllGraph.addDefs, AllGraph.addDef, AllGraph.hasNode] using h⟩
    | 1, h => simp [AllGraph.children, AllGraph.addDefs, AllGraph.addDef] at h
    | a + 2, h => simp [AllGraph.children] at h
  have h2 : ∀ a b, DependsT (graph exProg) a b → a = 0 ∧ b = 1 := by
    intro a b h
    induction h with
    | one h => exact h1 _ _ h
    | more h _ ih => exact ⟨(h1 _ _ h).1, ih.2⟩
  intro x hx
  have := h2 x x hx
  omega

/-- With the argument 5: user 10 and posts 2 and 10; an error cannot happen. -/
example (r : Option Val) : Answers exProg 0 (fun n => if n = "$" then some (.num 5) else none) r ↔
    r = some (.list [.num 10, .list [.num 2, .num 10]]) :=
  C103_answer exProg exProg_sound exProg_acyclic 0 (by decide) _ r

/-! ### Where the hypotheses are needed -/

/-- A message that resolves itself. -/
def selfProg : Prog Nat where
  list := List.length
  msgs := [⟨[⟨⟨"a", [], "", false⟩, none, 0, .simple (.message 0 fun _ => some fun _ => none)⟩], fun st => st "a"⟩]

/-- A message that uses itself is accepted (C10) and never ends. -/
theorem C103_self_false : AllGraph.create (graph selfProg) = some .noGraph ∧ (∀ M ∈ selfProg.msgs, SoundMsg selfProg M) ∧
    ∀ args r, ¬ Answers selfProg 0 args r := by
  have hsound : ∀ M ∈ selfProg.msgs, SoundMsg selfProg M := by
    intro M hM
    simp only [selfProg, List.mem_cons, List.not_mem_nil, or_false] at hM
    subst hM
    refine ⟨by decide, by simp, by decide, ?_, ?_, by simp [uses, selfProg]⟩
    · intro i j d e hi hj
      match i, j, hi, hj with
      | 0, 0, hi, hj => intro _ _; omega
      | i + 1, j, hi, hj => simp at hi
      | i, j + 1, hi, hj => simp at hj
    · simp only [List.mem_cons, List.not_mem_nil, or_false]
      rintro d rfl
      exact ⟨by simp, fun _ _ _ => rfl⟩
  refine ⟨rfl, hsound, ?_⟩
  have key : ∀ k args r, ¬ AnswersN selfProg k 0 args r := by
    intro k
    induction k with
    | zero => intro args r h; cases h
    | succ k ih =>
      rintro args r ⟨M, hM, h⟩
      have hM0 := List.mem_of_getElem? hM
      have hsnd := hsound M hM0
      simp only [selfProg, List.getElem?_cons_zero, Option.some.injEq] at hM
      subst hM
      rcases h with ⟨hd, _⟩ | ⟨gs, hgs, s, hs, hr⟩
      · cases hd
      · have hno : ∀ i view o, ¬ evalR selfProg (AnswersN selfProg k) ⟨[⟨⟨"a", [], "", false⟩, none, 0, .simple (.message 0 fun _ => some fun _ => none)⟩],
            fun st => st "a"⟩ i view o := by
          rintro i view o ⟨d, hd, r, hr, _⟩
          match i, hd with
          | 0, hd => cases hd; exact ih _ _ hr
        have hF : ∀ evF : Nat → Store Nat → Outcome Nat, VReach _ evF gs args s := fun evF =>
          reach_toF (evF := evF) (fun i view o ho => absurd ho (hno i view o)) hs
        have hacc : ∀ o : Outcome Nat, Accepted [⟨"a", [], "", false⟩] (fun _ _ => o) := fun o =>
          ⟨hsnd.names, by simp, hsnd.noSelf, (by
            intro i j D E hi hj hm _
            match i, hi with
            | 0, hi => cases hi; cases hm), fun _ _ _ _ _ _ => rfl⟩
        have h1 := C100_failure _ _ (hacc (.fail 0)) gs hgs args rfl s (hF _)
        rcases hr with ⟨hd, _⟩ | ⟨hext, ⟨x, hd⟩, _⟩
        · exact h1 none hd rfl
        · have h2 := C100_no_failure _ _ (hacc (.ok 0)) gs hgs args _ rfl s (hF _) hext
          have := (C05_failure_reported _ hsnd.noSelf gs hgs false s.sys (vreach_reach (hF fun _ _ => .ok 0)) _ hd).1.2 h2
          cases this
  rintro args r ⟨k, hk⟩
  exact key k args r hk

end Verif.Whole
