import Verif.GenRefs.Spec
import Verif.AllGraph.Props

namespace Verif.GenRefs

open Verif.Graph (Walk)

/-! ## Paths without repetition -/

inductive Sp (succ : Nat → List Nat) : Nat → Nat → List Nat → Prop where
  | nil (a) : Sp succ a a [a]
  | cons {a c b l} : c ∈ succ a → Sp succ c b l → a ∉ l → Sp succ a b (a :: l)

theorem sp_from {succ a b l x} (h : Sp succ a b l) (hx : x ∈ l) : ∃ l', Sp succ x b l' := by
  induction h with
  | nil a => simp at hx; subst hx; exact ⟨_, .nil _⟩
  | cons h1 h2 h3 ih =>
    rcases List.mem_cons.mp hx with rfl | hx
    · exact ⟨_, .cons h1 h2 h3⟩
    · exact ih hx

theorem sp_of_walk {succ a b} (h : Walk succ a b) : ∃ l, Sp succ a b l := by
  induction h with
  | @edge a b h =>
    by_cases e : a = b
    · subst e; exact ⟨_, .nil _⟩
    · exact ⟨_, .cons h (.nil _) (by simpa using e)⟩
  | @cons a b c h _ ih =>
    obtain ⟨l, hl⟩ := ih
    by_cases e : a ∈ l
    · exact sp_from hl e
    · exact ⟨_, .cons h hl e⟩

theorem sp_nodup {succ a b l} (h : Sp succ a b l) : l.Nodup := by
  induction h with
  | nil => simp
  | cons _ _ h3 ih => exact List.nodup_cons.mpr ⟨h3, ih⟩

theorem sp_lt {succ a b l N} (h : Sp succ a b l) (ha : a < N) (hN : ∀ a b, b ∈ succ a → b < N) :
    ∀ x ∈ l, x < N := by
  induction h with
  | nil => simpa using ha
  | cons h1 _ _ ih =>
    intro x hx
    rcases List.mem_cons.mp hx with rfl | hx
    · exact ha
    · exact ih (hN _ _ h1) x hx

theorem gather_of_sp {α : Type} {own : Nat → List α} {succ a b l x} (h : Sp succ a b l) (hx : x ∈ own b) :
    ∀ fuel, l.length ≤ fuel → x ∈ gather own succ fuel a := by
  induction h with
  | nil =>
    intro fuel hf
    cases fuel with
    | zero => simp at hf
    | succ f => simp [gather, hx]
  | cons h1 _ _ ih =>
    intro fuel hf
    cases fuel with
    | zero => simp at hf
    | succ f =>
      simp only [gather, List.mem_append, List.mem_flatMap]
      exact Or.inr ⟨_, h1, ih hx f (by simpa using hf)⟩

/-- The bound on the depth suffices: `gather` has the contribution of every message it can reach. -/
theorem gather_complete {α : Type} {own : Nat → List α} {succ : Nat → List Nat} {a b N : Nat} {x : α}
    (hN : ∀ a b, b ∈ succ a → b < N) (h : a = b ∨ Walk succ a b) (hx : x ∈ own b) :
    x ∈ gather own succ (N + 1) a := by
  rcases h with rfl | h
  · simp [gather, hx]
  · cases h with
    | edge h =>
      simp only [gather, List.mem_append, List.mem_flatMap]
      refine Or.inr ⟨_, h, ?_⟩
      have := hN _ _ h
      exact gather_of_sp (.nil _) hx _ (by simp; omega)
    | @cons _ c _ h h' =>
      simp only [gather, List.mem_append, List.mem_flatMap]
      refine Or.inr ⟨_, h, ?_⟩
      obtain ⟨l, hl⟩ := sp_of_walk h'
      exact gather_of_sp hl hx _ (Graph.length_le_of_nodup_lt N l (sp_nodup hl) (sp_lt hl (hN _ _ h) hN))

theorem gather_sound {α : Type} {own : Nat → List α} {succ : Nat → List Nat} {x : α} :
    ∀ {fuel a}, x ∈ gather own succ fuel a → ∃ b, (a = b ∨ Walk succ a b) ∧ x ∈ own b
  | 0, a, h => by simp [gather] at h
  | f + 1, a, h => by
    simp only [gather, List.mem_append, List.mem_flatMap] at h
    rcases h with h | ⟨c, h1, h2⟩
    · exact ⟨a, Or.inl rfl, h⟩
    · obtain ⟨b, h3, h4⟩ := gather_sound h2
      refine ⟨b, Or.inr ?_, h4⟩
      rcases h3 with rfl | h3
      · exact .edge h1
      · exact .cons h1 h3

theorem gather_mono {α : Type} {own : Nat → List α} {succ succ' : Nat → List Nat} {x : α}
    (h : ∀ a b, b ∈ succ a → b ∈ succ' a) : ∀ {fuel a}, x ∈ gather own succ fuel a → x ∈ gather own succ' fuel a
  | 0, a, hx => by simp [gather] at hx
  | f + 1, a, hx => by
    simp only [gather, List.mem_append, List.mem_flatMap] at hx ⊢
    rcases hx with hx | ⟨c, h1, h2⟩
    · exact Or.inl hx
    · exact Or.inr ⟨c, h a c h1, gather_mono h h2⟩

/-! ## Definitions inside definitions -/

theorem mem_toMs {x : AllGraph.MDef} : ∀ {ds : List Def}, x ∈ toMs ds ↔ ∃ d ∈ ds, toM d = x
  | [] => by simp [toMs]
  | d :: ds => by
    simp only [toMs, List.mem_cons, mem_toMs, exists_eq_or_imp]
    constructor
    · rintro (rfl | h)
      · exact Or.inl rfl
      · exact Or.inr h
    · rintro (h | h)
      · exact Or.inl h.symm
      · exact Or.inr h

mutual
theorem mentions_toM {m : Nat} : ∀ (d : Def),
    AllGraph.Mentions (toM d) m ↔ m ∈ messageExprs d
  | .call _ _ h => by
    simp only [toM, messageExprs]
    rw [← mentions_toMs h]
    constructor
    · intro h'; cases h' with | nested h1 h2 => exact ⟨_, h1, h2⟩
    · rintro ⟨d, h1, h2⟩; exact .nested h1 h2
  | .message k => by
    simp only [toM, messageExprs, List.mem_singleton]
    exact ⟨fun h => by cases h; rfl, fun h => h ▸ .message _⟩
  | .map k => by
    simp only [toM, messageExprs, List.mem_singleton]
    exact ⟨fun h => by cases h; rfl, fun h => h ▸ .map _⟩
  | .validation h => by
    simp only [toM, messageExprs]
    rw [← mentions_toMs h]
    constructor
    · intro h'; cases h' with | nested h1 h2 => exact ⟨_, h1, h2⟩
    · rintro ⟨d, h1, h2⟩; exact .nested h1 h2
  | .other => by
    simp only [toM, messageExprs]
    exact ⟨fun h => (by cases h), fun h => by simp at h⟩
theorem mentions_toMs {m : Nat} : ∀ (ds : List Def),
    (∃ d ∈ toMs ds, AllGraph.Mentions d m) ↔ m ∈ messageExprsL ds
  | [] => by simp [toMs, messageExprsL]
  | d :: ds => by
    simp only [toMs, messageExprsL, List.mem_cons, exists_eq_or_imp, List.mem_append,
      mentions_toM d, mentions_toMs ds]
end

theorem mem_messageExprsL {m : Nat} : ∀ {ds : List Def},
    m ∈ messageExprsL ds ↔ ∃ d ∈ ds, m ∈ messageExprs d
  | [] => by simp [messageExprsL]
  | d :: ds => by simp [messageExprsL, mem_messageExprsL]

theorem inside_mono {d : Def} {ds ds' : List Def} (h : Inside d ds) (hs : ∀ x ∈ ds, x ∈ ds') : Inside d ds' := by
  cases h with
  | here h => exact .here (hs _ h)
  | call h h' => exact .call (hs _ h) h'
  | validation h h' => exact .validation (hs _ h) h'

mutual
theorem messageExprs_iff {m : Nat} : ∀ (d : Def),
    m ∈ messageExprs d ↔ ∃ d', Inside d' [d] ∧ Resolves d' m
  | .call s k h => by
    simp only [messageExprs]
    rw [messageExprsL_iff h]
    constructor
    · rintro ⟨d', h1, h2⟩; exact ⟨d', .call (s := s) (k := k) (by simp) h1, h2⟩
    · rintro ⟨d', h1, h2⟩
      cases h1 with
      | here h1 => simp at h1; subst h1; rcases h2 with h2 | h2 <;> cases h2
      | call h1 h3 => simp at h1; obtain ⟨_, _, rfl⟩ := h1; exact ⟨d', h3, h2⟩
      | validation h1 => simp at h1
  | .message k => by
    simp only [messageExprs, List.mem_singleton]
    constructor
    · rintro rfl; exact ⟨_, .here (by simp), Or.inl rfl⟩
    · rintro ⟨d', h1, h2⟩
      cases h1 with
      | here h1 => simp at h1; subst h1; rcases h2 with h2 | h2 <;> cases h2; rfl
      | call h1 h3 => simp at h1
      | validation h1 => simp at h1
  | .map k => by
    simp only [messageExprs, List.mem_singleton]
    constructor
    · rintro rfl; exact ⟨_, .here (by simp), Or.inr rfl⟩
    · rintro ⟨d', h1, h2⟩
      cases h1 with
      | here h1 => simp at h1; subst h1; rcases h2 with h2 | h2 <;> cases h2; rfl
      | call h1 h3 => simp at h1
      | validation h1 => simp at h1
  | .validation h => by
    simp only [messageExprs]
    rw [messageExprsL_iff h]
    constructor
    · rintro ⟨d', h1, h2⟩; exact ⟨d', .validation (by simp) h1, h2⟩
    · rintro ⟨d', h1, h2⟩
      cases h1 with
      | here h1 => simp at h1; subst h1; rcases h2 with h2 | h2 <;> cases h2
      | call h1 h3 => simp at h1
      | validation h1 h3 => simp at h1; subst h1; exact ⟨d', h3, h2⟩
  | .other => by
    simp only [messageExprs]
    constructor
    · intro h; simp at h
    · rintro ⟨d', h1, h2⟩
      cases h1 with
      | here h1 => simp at h1; subst h1; rcases h2 with h2 | h2 <;> cases h2
      | call h1 h3 => simp at h1
      | validation h1 => simp at h1
theorem messageExprsL_iff {m : Nat} : ∀ (ds : List Def),
    m ∈ messageExprsL ds ↔ ∃ d', Inside d' ds ∧ Resolves d' m
  | [] => by
    simp only [messageExprsL]
    constructor
    · intro h; simp at h
    · rintro ⟨d', h1, _⟩
      cases h1 with
      | here h1 => simp at h1
      | call h1 h3 => simp at h1
      | validation h1 => simp at h1
  | d :: ds => by
    simp only [messageExprsL, List.mem_append]
    rw [messageExprs_iff d, messageExprsL_iff ds]
    constructor
    · rintro (⟨d', h1, h2⟩ | ⟨d', h1, h2⟩)
      · exact ⟨d', inside_mono h1 (by simp), h2⟩
      · exact ⟨d', inside_mono h1 (fun x hx => by simp [hx]), h2⟩
    · rintro ⟨d', h1, h2⟩
      cases h1 with
      | here h1 =>
        rcases List.mem_cons.mp h1 with h1 | h1
        · exact Or.inl ⟨d', .here (by simp [h1]), h2⟩
        · exact Or.inr ⟨d', .here h1, h2⟩
      | call h1 h3 =>
        rcases List.mem_cons.mp h1 with h1 | h1
        · exact Or.inl ⟨d', .call (List.mem_singleton.mpr h1) h3, h2⟩
        · exact Or.inr ⟨d', .call h1 h3, h2⟩
      | validation h1 h3 =>
        rcases List.mem_cons.mp h1 with h1 | h1
        · exact Or.inl ⟨d', .validation (by simp [h1]) h3, h2⟩
        · exact Or.inr ⟨d', .validation h1 h3, h2⟩
end

/-! ## The graph of all messages -/

theorem hasRule_iff {m : Msg} : m.hasRule = true ↔ m.Ruled := by
  unfold Msg.hasRule Msg.Ruled
  simp [or_assoc]

theorem option_of_hasRule {m : Msg} (h : m.Ruled) : m.option = true := h.1

theorem getMsg_option {msgs : List Msg} {m : Nat} (h : (getMsg msgs m).option = true) :
    m < msgs.length ∧ (toAll msgs)[m]? = some (some (toMs ((getMsg msgs m).defs ++ (getMsg msgs m).oneof))) := by
  unfold getMsg at h ⊢
  unfold toAll
  cases hm : msgs[m]? with
  | none => rw [hm] at h; simp [noMsg] at h
  | some x =>
    rw [hm] at h
    simp only [Option.getD_some] at h
    simp only [List.getElem?_map, hm, Option.map_some, h, if_true, Option.getD_some]
    exact ⟨(List.getElem?_eq_some_iff.mp hm).1, trivial⟩

theorem toAll_option {msgs : List Msg} {m : Nat} {defs} (h : (toAll msgs)[m]? = some (some defs)) :
    (getMsg msgs m).option = true := by
  unfold toAll at h
  simp only [List.getElem?_map] at h
  unfold getMsg
  cases hm : msgs[m]? with
  | none => simp [hm] at h
  | some x =>
    simp only [hm, Option.map_some] at h
    by_cases ho : x.option = true
    · simpa using ho
    · simp [ho] at h

/-- Dependency in the graph of all messages, read off the code of the messages. -/
theorem depends_iff {msgs : List Msg} {a b : Nat} :
    AllGraph.Depends (toAll msgs) a b ↔
      (getMsg msgs a).option = true ∧ (getMsg msgs b).option = true ∧ ∃ d, CodeOf msgs a d ∧ Resolves d b := by
  constructor
  · rintro ⟨⟨defs, h1, h2⟩, defs', h3⟩
    have ha := toAll_option h1
    refine ⟨ha, toAll_option h3, ?_⟩
    rw [(getMsg_option ha).2] at h1
    simp only [Option.some.injEq] at h1
    subst h1
    rw [mentions_toMs, messageExprsL_iff] at h2
    exact h2
  · rintro ⟨ha, hb, h⟩
    refine ⟨⟨_, (getMsg_option ha).2, ?_⟩, _, (getMsg_option hb).2⟩
    rw [mentions_toMs, messageExprsL_iff]
    exact h

theorem children_iff {msgs : List Msg} {a b : Nat} :
    b ∈ AllGraph.children (toAll msgs) a ↔
      (getMsg msgs a).option = true ∧ (getMsg msgs b).option = true ∧ ∃ d, CodeOf msgs a d ∧ Resolves d b := by
  rw [AllGraph.C10_edges_exact, depends_iff]

theorem children_lt {msgs : List Msg} : ∀ a b, b ∈ AllGraph.children (toAll msgs) a → b < msgs.length := by
  intro a b h
  exact (getMsg_option (children_iff.mp h).2.1).1

/-! ## The visit of all definitions -/

def Closed (msgs : List Msg) (st : St) (n : Node) : Prop :=
  (∀ s ∈ nodeServices msgs n, s ∈ st.out) ∧ ∀ c ∈ nodeSucc msgs n, c ∈ st.vis

structure Grows (msgs : List Msg) (st st' : St) : Prop where
  vis : ∀ n ∈ st.vis, n ∈ st'.vis
  out : ∀ s ∈ st.out, s ∈ st'.out
  closed : ∀ n ∈ st'.vis, n ∈ st.vis ∨ Closed msgs st' n

theorem Grows.refl {msgs : List Msg} (st : St) : Grows msgs st st :=
  ⟨fun _ h => h, fun _ h => h, fun _ h => Or.inl h⟩

theorem Closed.mono {msgs : List Msg} {st st' : St} {n} (h : Closed msgs st n) (g : Grows msgs st st') : Closed msgs st' n :=
  ⟨fun s hs => g.out s (h.1 s hs), fun c hc => g.vis c (h.2 c hc)⟩

theorem Grows.trans {msgs : List Msg} {a b c : St} (h : Grows msgs a b) (h' : Grows msgs b c) : Grows msgs a c :=
  ⟨fun n hn => h'.vis n (h.vis n hn), fun s hs => h'.out s (h.out s hs), fun n hn => by
    rcases h'.closed n hn with h1 | h1
    · rcases h.closed n h1 with h2 | h2
      · exact Or.inl h2
      · exact Or.inr (h2.mono h')
    · exact Or.inr h1⟩

/-- How many nodes are not visited yet. -/
def rest (U : List Node) (st : St) : Nat := (U.filter fun n => decide (n ∉ st.vis)).length

theorem filter_length_mono {α : Type} (p q : α → Bool) (l : List α) (h : ∀ x, q x = true → p x = true) :
    (l.filter q).length ≤ (l.filter p).length := by
  induction l with
  | nil => simp
  | cons a l ih =>
    by_cases hq : q a = true
    · simp [hq, h a hq]; exact ih
    · by_cases hp : p a = true
      · simp [hq, hp]; omega
      · simp [hq, hp]; exact ih

theorem filter_length_lt {α : Type} (p q : α → Bool) (l : List α) (h : ∀ x, q x = true → p x = true)
    {a : α} (ha : a ∈ l) (hp : p a = true) (hq : q a = false) :
    (l.filter q).length < (l.filter p).length := by
  induction l with
  | nil => simp at ha
  | cons b l ih =>
    rcases List.mem_cons.mp ha with rfl | ha'
    · have := filter_length_mono p q l h
      simp [hp, hq]; omega
    · have := ih ha'
      by_cases hqb : q b = true
      · simp [hqb, h b hqb]; omega
      · by_cases hpb : p b = true
        · simp [hqb, hpb]; omega
        · simp [hqb, hpb]; exact this

theorem rest_mono {U : List Node} {st st' : St} (h : ∀ n ∈ st.vis, n ∈ st'.vis) : rest U st' ≤ rest U st := by
  unfold rest
  apply filter_length_mono
  intro x hx
  simp at hx ⊢
  exact fun h' => hx (h x h')

theorem fold_grows {msgs : List Msg} {U : List Node} {k : Nat} {f : Node → St → St}
    (hf : ∀ n st, n ∈ U → rest U st < k → Grows msgs st (f n st) ∧ n ∈ (f n st).vis) :
    ∀ (ns : List Node) (st : St), (∀ n ∈ ns, n ∈ U) → rest U st < k →
      Grows msgs st (ns.foldl (fun st n => f n st) st) ∧ ∀ n ∈ ns, n ∈ (ns.foldl (fun st n => f n st) st).vis
  | [], st, _, _ => ⟨.refl st, by simp⟩
  | n :: ns, st, hU, hk => by
    obtain ⟨h1, h2⟩ := hf n st (hU n (by simp)) hk
    obtain ⟨h3, h4⟩ := fold_grows hf ns (f n st) (fun x hx => hU x (by simp [hx]))
      (Nat.lt_of_le_of_lt (rest_mono h1.vis) hk)
    refine ⟨h1.trans h3, fun x hx => ?_⟩
    rcases List.mem_cons.mp hx with rfl | hx
    · exact h3.vis _ h2
    · exact h4 x hx

theorem visit_grows {msgs : List Msg} {U : List Node} (hU : ∀ n c, c ∈ nodeSucc msgs n → c ∈ U) :
    ∀ (fuel : Nat) (n : Node) (st : St), n ∈ U → rest U st < fuel →
      Grows msgs st (visit msgs fuel n st) ∧ n ∈ (visit msgs fuel n st).vis
  | 0, _, _, _, h => by omega
  | fuel + 1, n, st, hn, hr => by
    unfold visit
    by_cases hv : n ∈ st.vis
    · rw [if_pos hv]; exact ⟨.refl st, hv⟩
    · rw [if_neg hv]
      have hr' : rest U ⟨n :: st.vis, st.out ++ nodeServices msgs n⟩ < fuel := by
        have : rest U ⟨n :: st.vis, st.out ++ nodeServices msgs n⟩ < rest U st := by
          unfold rest
          apply filter_length_lt _ _ _ _ hn
          · simpa using hv
          · simp
          · intro x hx; simp at hx ⊢; exact hx.2
        omega
      obtain ⟨h1, h2⟩ := fold_grows (msgs := msgs) (U := U) (k := fuel) (f := visit msgs fuel)
        (fun n st hn hk => visit_grows hU fuel n st hn hk) (nodeSucc msgs n) _ (fun c hc => hU n c hc) hr'
      refine ⟨⟨fun x hx => h1.vis x (by simp [hx]), fun s hs => h1.out s (by simp [hs]), fun x hx => ?_⟩,
        h1.vis n (by simp)⟩
      rcases h1.closed x hx with h3 | h3
      · rcases List.mem_cons.mp h3 with rfl | h3
        · exact Or.inr ⟨fun s hs => h1.out s (by simp [hs]), h2⟩
        · exact Or.inl h3
      · exact Or.inr h3

theorem nodes_sub {msgs : List Msg} {m : Nat} {n : Node} (h : n ∈ nodes msgs m) : n ∈ allNodes msgs := by
  unfold allNodes
  refine List.mem_flatMap.mpr ⟨m, ?_, h⟩
  unfold nodes at h
  simp only [List.mem_map, List.mem_range] at h ⊢
  obtain ⟨i, hi, _⟩ := h
  by_cases hm : m < msgs.length
  · exact hm
  · have : getMsg msgs m = noMsg := by
      unfold getMsg; rw [List.getElem?_eq_none (by omega)]; rfl
    rw [this] at hi; simp [allDefs, noMsg] at hi

theorem nodeSucc_sub {msgs : List Msg} (n c : Node) (h : c ∈ nodeSucc msgs n) : c ∈ allNodes msgs := by
  unfold nodeSucc at h
  split at h
  · simp at h
  · obtain ⟨m, _, hm⟩ := List.mem_flatMap.mp h
    exact nodes_sub hm

/-- What `DependServices` finds: there is a set of definitions that has all those of the message and
with a definition all those of the messages it resolves, and every service called by one of them is
found. -/
theorem dependServices_spec (msgs : List Msg) (m : Nat) :
    ∃ vis : List Node, (∀ n ∈ nodes msgs m, n ∈ vis) ∧
      ∀ n ∈ vis, (∀ s ∈ nodeServices msgs n, s ∈ dependServices msgs m) ∧ ∀ c ∈ nodeSucc msgs n, c ∈ vis := by
  have := fold_grows (msgs := msgs) (U := allNodes msgs) (k := (allNodes msgs).length + 1)
    (f := visit msgs ((allNodes msgs).length + 1))
    (fun n st hn hk => visit_grows nodeSucc_sub _ n st hn hk) (nodes msgs m) ⟨[], []⟩ (fun n => nodes_sub)
    (by
      have : rest (allNodes msgs) ⟨[], []⟩ ≤ (allNodes msgs).length := List.length_filter_le _ _
      omega)
  refine ⟨_, this.2, fun n hn => ?_⟩
  rcases this.1.closed n hn with h | h
  · simp at h
  · exact h

end Verif.GenRefs
