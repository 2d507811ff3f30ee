import Verif.Calls.Spec
import Verif.Exec.Props

/-! # How often definitions are evaluated -/

namespace Verif.Calls
open Verif.Graph Verif.Exec

/-! ### The evaluations that may still start -/

/-- Definitions whose evaluation may still end, with repetitions. -/
def todo : Proc → List Nat
  | .leaf d .called => [d]
  | .leaf d .missed => [d]
  | .leaf d (.leading _) => [d]
  | .leaf _ _ => []
  | .seq p e => todo p ++ [e]
  | .par ps _ e => todoL ps ++ e.toList
  | .done _ => []
where todoL : List Proc → List Nat
  | [] => []
  | p :: ps => todo p ++ todoL ps

theorem todoL_append (l r : List Proc) : todo.todoL (l ++ r) = todo.todoL l ++ todo.todoL r := by
  induction l with
  | nil => rfl
  | cons p l ih => simp [todo.todoL, ih]

theorem fins_start (d d' f : Nat) (log : List Event) : fins d (.start d' f :: log) = fins d log := by simp [fins]

theorem fins_fin (d d' f : Nat) (r : Res) (log : List Event) :
    fins d (.fin d' f r :: log) = fins d log + if d' = d then 1 else 0 := by
  by_cases h : d' = d <;> simp [fins, h]

theorem pstep_fins (d : Nat) {cx : Bool} {g g' : Glob} {p p' : Proc} (h : PStep cx g p g' p') :
    fins d g'.log + (todo p').count d ≤ fins d g.log + (todo p).count d := by
  induction h with
  | @leaf cx d' g ph g' p' h =>
    cases h
    case hit => simp [todo]
    case miss => simp [todo]
    case join => simp [todo]
    case lead => simp [todo, fins_start]
    case finish =>
      simp only [todo, fins_fin, List.count_cons, List.count_nil]
      by_cases e : d' = d <;> simp [e]
    case store => simp [todo]
    case unwind => simp [todo]
    case leave => simp [todo]
    case receive => simp [todo]
  | seqRun _ ih => simp only [todo, List.count_append]; omega
  | seqOk => simp [todo]
  | seqErr => simp [todo]
  | parRun _ ih => simp only [todo, todoL_append, todo.todoL, List.count_append]; omega
  | parCollect => simp [todo, todoL_append, todo.todoL]
  | parEnd => simp [todo, todo.todoL]
  | parOk => simp [todo, todo.todoL]
  | parErr => simp [todo, todo.todoL]

theorem todo_start (G : Grp) : todo (start G) = G.defs := by
  refine Grp.rec (motive_1 := fun G => todo (start G) = G.defs)
    (motive_2 := fun ss => todo.todoL (start.go ss) = Grp.defs.go ss) ?_ ?_ ?_ ?_ ?_ G
  · intro e; rfl
  · intro g e ih; simp only [start, todo, Grp.defs, ih]
  · intro ss e ih; simp only [start, todo, Grp.defs, ih, Option.toList]
  · rfl
  · intro g gs h1 h2; simp only [start.go, todo.todoL, Grp.defs.go, h1, h2]

theorem todo_startAll (gs : List Grp) : todo (startAll gs) = gs.flatMap Grp.defs := by
  match gs with
  | [] => rfl
  | [G] => simp [startAll, todo_start]
  | G :: H :: r =>
    simp only [startAll, todo, Option.toList, List.append_nil]
    have : ∀ l : List Grp, todo.todoL (l.map start) = l.flatMap Grp.defs := by
      intro l
      induction l with
      | nil => rfl
      | cons a l ih => simp [todo.todoL, todo_start, ih]
    exact this _

/-- A definition is evaluated at most as often as it occurs in the plan. -/
theorem fins_le (d : Nat) {gs : List Grp} {ext : Bool} {s : Sys} (h : Reach gs ext s) :
    fins d s.g.log + (todo s.p).count d ≤ (gs.flatMap Grp.defs).count d := by
  induction h with
  | init => simp [Sys.init, Glob.init, fins, todo_startAll]
  | step _ hs ih =>
    cases hs with
    | proc hp => exact Nat.le_trans (pstep_fins d hp) ih
    | cancel => exact ih

/-! ### The plan, if no two definitions wait for the same one -/

/-- `b` waits for `a`, or for one that does, or is `a`. -/
inductive After (dep : Nat → Nat → Prop) : Nat → Nat → Prop where
  | refl (a) : After dep a a
  | more {a b c} : dep b a → After dep b c → After dep a c

variable {dep : Nat → Nat → Prop}

theorem After.trans {a b c : Nat} (h : After dep a b) (h' : After dep b c) : After dep a c := by
  induction h with
  | refl => exact h'
  | more hd _ ih => exact .more hd (ih h')

theorem After.cases {a b : Nat} (h : After dep a b) : a = b ∨ ∃ c : Nat, dep c a ∧ After dep c b := by
  cases h with
  | refl => exact .inl rfl
  | more hd h => exact .inr ⟨_, hd, h⟩

theorem after_le (hlt : ∀ b a, dep b a → a < b) {a b : Nat} (h : After dep a b) : a ≤ b := by
  induction h with
  | refl => exact Nat.le_refl _
  | more hd _ ih => have := hlt _ _ hd; omega

/-- Everything after `x` is on one line. -/
theorem after_line (hu : ∀ a b c, dep b a → dep c a → b = c) {x a b : Nat} (ha : After dep x a) (hb : After dep x b) :
    After dep a b ∨ After dep b a := by
  induction ha with
  | refl => exact .inl hb
  | more hd ha ih =>
    cases hb with
    | refl => exact .inr (.more hd ha)
    | more hd' hb' =>
      have := hu _ _ _ hd hd'
      subst this
      exact ih hb'

theorem grp_after (G : Grp) : G.Follows dep → ∀ x ∈ G.defs, After dep x G.last := by
  refine Grp.rec (motive_1 := fun G => G.Follows dep → ∀ x ∈ G.defs, After dep x G.last)
    (motive_2 := fun ss => Grp.Follows.go dep ss → ∀ x ∈ Grp.defs.go ss, ∃ l ∈ ss.map Grp.last, After dep x l) ?_ ?_ ?_ ?_ ?_ G
  · intro e _ x hx
    simp only [Grp.defs, List.mem_singleton] at hx
    subst hx; exact .refl _
  · intro s e ih hf x hx
    obtain ⟨h1, h2⟩ := hf
    simp only [Grp.defs, List.mem_append, List.mem_singleton] at hx
    rcases hx with hx | rfl
    · exact (ih h2 x hx).trans (.more ((h1 _).2 rfl) (.refl _))
    · exact .refl _
  · intro ss e ih hf x hx
    obtain ⟨h1, h2⟩ := hf
    simp only [Grp.defs, List.mem_append, List.mem_singleton] at hx
    rcases hx with hx | rfl
    · obtain ⟨l, hl, ha⟩ := ih h2 x hx
      exact ha.trans (.more ((h1 _).2 hl) (.refl _))
    · exact .refl _
  · intro _ x hx; simp [Grp.defs.go] at hx
  · intro g gs ih1 ih2 hf x hx
    obtain ⟨h1, h2⟩ := hf
    simp only [Grp.defs.go, List.mem_append] at hx
    rcases hx with hx | hx
    · exact ⟨_, by simp, ih1 h1 x hx⟩
    · obtain ⟨l, hl, ha⟩ := ih2 h2 x hx
      exact ⟨l, by simp only [List.map_cons, List.mem_cons]; exact .inr hl, ha⟩

/-- Groups that come before one definition are different. -/
def Differ : Grp → Prop
  | .seq0 _ => True
  | .seq s _ => Differ s
  | .conc ss _ => (ss.map Grp.last).Nodup ∧ go ss
where go : List Grp → Prop
  | [] => True
  | g :: gs => Differ g ∧ go gs

theorem differ_go {gs : List Grp} (h : ∀ G ∈ gs, Differ G) : Differ.go gs := by
  induction gs with
  | nil => trivial
  | cons g gs ih => exact ⟨h g (by simp), ih fun G hG => h G (by simp [hG])⟩

theorem mkGroup_differ {key : Nat → String} {pa : Nat → List Nat} (hnd : ∀ n, (pa n).Nodup) {fuel n : Nat} {G : Grp}
    (h : mkGroup key pa fuel n = some G) : Differ G := by
  induction fuel generalizing n G with
  | zero => simp [mkGroup] at h
  | succ fuel ih =>
    unfold mkGroup at h
    split at h
    · injection h with h; subst h; trivial
    · simp only [Option.map_eq_some_iff] at h
      obtain ⟨s, hs, rfl⟩ := h
      show Differ s
      exact ih hs
    · simp only [Option.map_eq_some_iff] at h
      obtain ⟨ss, hs, rfl⟩ := h
      obtain ⟨h1, h2⟩ := mkGroup_go hs
      refine ⟨?_, differ_go fun G hG => ?_⟩
      · rw [h1]
        exact (sortBy_perm).nodup_iff.2 (hnd n)
      · obtain ⟨p, _, hp⟩ := h2 G hG
        exact ih hp

/-- If the lasts of groups are different and none is after another, no definition is in two of them. -/
theorem nodup_groups (hu : ∀ a b c, dep b a → dep c a → b = c) : ∀ (gs : List Grp), (∀ G ∈ gs, G.Follows dep) → (∀ G ∈ gs, G.defs.Nodup) →
    (gs.map Grp.last).Nodup → (∀ G ∈ gs, ∀ H ∈ gs, After dep G.last H.last → G.last = H.last) → (gs.flatMap Grp.defs).Nodup
  | [], _, _, _, _ => by simp
  | G :: gs, hf, hn, hl, hno => by
    simp only [List.map_cons, List.nodup_cons] at hl
    simp only [List.flatMap_cons, List.nodup_append]
    refine ⟨hn G (by simp), nodup_groups hu gs (fun H hH => hf H (by simp [hH])) (fun H hH => hn H (by simp [hH])) hl.2
      (fun A hA B hB => hno A (by simp [hA]) B (by simp [hB])), ?_⟩
    rintro x hx y hy rfl
    obtain ⟨H, hH, hxH⟩ := List.mem_flatMap.1 hy
    have h1 := grp_after G (hf G (by simp)) x hx
    have h2 := grp_after H (hf H (by simp [hH])) x hxH
    have : G.last = H.last := by
      rcases after_line hu h1 h2 with h | h
      · exact hno G (by simp) H (by simp [hH]) h
      · exact (hno H (by simp [hH]) G (by simp) h).symm
    exact hl.1 (by rw [this]; exact List.mem_map.2 ⟨H, hH, rfl⟩)

theorem go_flatMap (ss : List Grp) : Grp.defs.go ss = ss.flatMap Grp.defs := by
  induction ss with
  | nil => rfl
  | cons s ss ih => simp [Grp.defs.go, ih]

theorem go_all {ss : List Grp} (h : Grp.Follows.go dep ss) : ∀ G ∈ ss, G.Follows dep := by
  induction ss with
  | nil => intro G hG; cases hG
  | cons s ss ih =>
    intro G hG
    rcases List.mem_cons.1 hG with rfl | hG
    · exact h.1
    · exact ih h.2 G hG

theorem grp_nodup (hu : ∀ a b c, dep b a → dep c a → b = c) (hlt : ∀ b a, dep b a → a < b) (G : Grp) : G.Follows dep → Differ G →
    G.defs.Nodup := by
  refine Grp.rec (motive_1 := fun G => G.Follows dep → Differ G → G.defs.Nodup)
    (motive_2 := fun ss => Grp.Follows.go dep ss → Differ.go ss → ∀ G ∈ ss, G.defs.Nodup) ?_ ?_ ?_ ?_ ?_ G
  · intro e _ _; simp [Grp.defs]
  · intro s e ih hf hd
    simp only [Grp.defs, List.nodup_append, List.nodup_cons, List.not_mem_nil, not_false_eq_true, List.nodup_nil, and_self, true_and,
      List.mem_singleton]
    refine ⟨ih hf.2 hd, ?_⟩
    rintro x hx y rfl rfl
    have h1 := after_le hlt (grp_after s hf.2 x hx)
    have h2 := hlt _ _ ((hf.1 _).2 rfl)
    omega
  · intro ss e ih hf hd
    have hfs := go_all hf.2
    simp only [Grp.defs, List.nodup_append, List.nodup_cons, List.not_mem_nil, not_false_eq_true, List.nodup_nil, and_self, true_and,
      List.mem_singleton]
    refine ⟨?_, ?_⟩
    · rw [go_flatMap]
      refine nodup_groups hu ss hfs (ih hf.2 hd.2) hd.1 ?_
      intro G hG H hH h
      rcases h.cases with h | ⟨c, hd', h'⟩
      · exact h
      · have h1 := (hf.1 G.last).2 (List.mem_map.2 ⟨G, hG, rfl⟩)
        have h2 := (hf.1 H.last).2 (List.mem_map.2 ⟨H, hH, rfl⟩)
        have := hu _ _ _ h1 hd'
        subst this
        have := after_le hlt h'
        have := hlt _ _ h2
        omega
    · rintro x hx y rfl rfl
      rw [go_flatMap] at hx
      obtain ⟨G, hG, hx⟩ := List.mem_flatMap.1 hx
      have h1 := after_le hlt (grp_after G (hfs G hG) x hx)
      have h2 := hlt _ _ ((hf.1 G.last).2 (List.mem_map.2 ⟨G, hG, rfl⟩))
      omega
  · intro _ _ G hG; cases hG
  · intro g gs h1 h2 hf hd G hG
    rcases List.mem_cons.1 hG with rfl | hG
    · exact h1 hf.1 hd.1
    · exact h2 hf.2 hd.2 G hG

theorem mem_dedup : ∀ (l : List Nat) (y : Nat), y ∈ dedup l → y ∈ l
  | [], _, h => h
  | a :: l, y, hy => by
    unfold dedup at hy
    split at hy
    · exact List.mem_cons_of_mem _ (mem_dedup l y hy)
    · rcases List.mem_cons.1 hy with rfl | hy
      · simp
      · exact List.mem_cons_of_mem _ (mem_dedup l y hy)

theorem dedup_nodup : ∀ l : List Nat, (dedup l).Nodup
  | [] => by simp [dedup]
  | x :: xs => by
    unfold dedup
    split
    · exact dedup_nodup xs
    · rename_i h
      rw [List.nodup_cons]
      refine ⟨fun hx => h ?_, dedup_nodup xs⟩
      exact mem_dedup xs x hx

/-- If no two definitions wait for the same one, every definition is in the plan once. -/
theorem plan_nodup {defs : List Def} (hs : NoSelfRef defs) (hu : Unshared defs) {gs : List Grp} (hgs : setup defs = .groups gs) :
    (gs.flatMap Grp.defs).Nodup := by
  have hf := (plan_follows hs hgs).2
  have hlt : ∀ b a, DependsOn defs b a → a < b := fun b a h => dependsOn_strict hs h
  unfold setup setupWith at hgs
  dsimp only at hgs
  split at hgs
  · cases hgs
  split at hgs
  · cases hgs
  · cases hgs
  split at hgs
  · cases hgs
  · rename_i ls hls
    split at hgs
    · cases hgs
    · rename_i gs' hgs'
      injection hgs with hgs; subst hgs
      obtain ⟨h1, h2⟩ := mkGroup_go hgs'
      refine nodup_groups hu gs' hf ?_ ?_ ?_
      · intro G hG
        obtain ⟨p, _, hp⟩ := h2 G hG
        exact grp_nodup hu hlt G (hf G hG) (mkGroup_differ (ok_build defs).ndpa hp)
      · rw [h1]
        exact sortBy_perm.nodup_iff.2 (dedup_nodup _)
      · intro G hG H hH h
        rcases h.cases with h | ⟨c, hd, _⟩
        · exact h
        · exfalso
          have : G.last ∈ sortBy (keyOf defs) (id (dedup ls)) := by rw [← h1]; exact List.mem_map.2 ⟨G, hG, rfl⟩
          have hm := (sortBy_perm.mem_iff).1 this
          have hm : G.last ∈ ls := mem_dedup ls _ hm
          have hc := (leaves_sound hls hm).1
          have := (mem_build defs G.last _).2 hd
          rw [hc] at this
          cases this

end Verif.Calls
