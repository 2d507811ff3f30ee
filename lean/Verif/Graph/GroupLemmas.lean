import Verif.Graph.Lemmas
import Verif.Graph.CycleLemmas

namespace Verif.Graph

/-! ## Sorting -/

theorem mem_insertBy {key : Nat → String} {x y : Nat} {l : List Nat} :
    y ∈ insertBy key x l ↔ y = x ∨ y ∈ l := by
  induction l with
  | nil => simp [insertBy]
  | cons z zs ih =>
    unfold insertBy
    split
    · simp
    · simp only [List.mem_cons, ih]
      constructor
      · rintro (h | h | h) <;> simp [h]
      · rintro (h | h | h) <;> simp [h]

theorem mem_sortBy {key : Nat → String} {y : Nat} {l : List Nat} :
    y ∈ sortBy key l ↔ y ∈ l := by
  induction l with
  | nil => simp [sortBy]
  | cons z zs ih => simp [sortBy, mem_insertBy, ih]

theorem length_insertBy {key : Nat → String} {x : Nat} {l : List Nat} :
    (insertBy key x l).length = l.length + 1 := by
  induction l with
  | nil => simp [insertBy]
  | cons z zs ih =>
    unfold insertBy
    split
    · simp
    · simp [ih]

theorem length_sortBy {key : Nat → String} {l : List Nat} :
    (sortBy key l).length = l.length := by
  induction l with
  | nil => simp [sortBy]
  | cons z zs ih => simp [sortBy, length_insertBy, ih]

theorem mem_dedup {y : Nat} {l : List Nat} : y ∈ dedup l ↔ y ∈ l := by
  induction l with
  | nil => simp [dedup]
  | cons z zs ih =>
    unfold dedup
    split
    · rename_i h
      rw [ih]
      constructor
      · intro h; simp [h]
      · intro h'
        rcases List.mem_cons.mp h' with rfl | h'
        · exact h
        · exact h'
    · simp [ih]

theorem nodup_dedup (l : List Nat) : (dedup l).Nodup := by
  induction l with
  | nil => simp [dedup]
  | cons z zs ih =>
    unfold dedup
    split
    · exact ih
    · rename_i h
      rw [List.nodup_cons]
      exact ⟨by rw [mem_dedup]; exact h, ih⟩

/-! ## Groups -/

theorem mkGroup_last {key pa fuel n G} (h : mkGroup key pa fuel n = some G) : G.last = n := by
  cases fuel with
  | zero => simp [mkGroup] at h
  | succ fuel =>
    unfold mkGroup at h
    split at h
    · injection h with h; subst h; rfl
    · simp only [Option.map_eq_some_iff] at h
      obtain ⟨s, _, rfl⟩ := h; rfl
    · simp only [Option.map_eq_some_iff] at h
      obtain ⟨s, _, rfl⟩ := h; rfl

theorem collect_spec {f : Nat → Option Grp} {ps gs} (h : collect f ps = some gs) :
    (∀ p ∈ ps, ∃ G ∈ gs, f p = some G) ∧ (∀ G ∈ gs, ∃ p ∈ ps, f p = some G) := by
  induction ps generalizing gs with
  | nil => simp [collect] at h; subst h; simp
  | cons p ps ih =>
    unfold collect at h
    split at h
    · rename_i a b ha hb
      injection h with h; subst h
      obtain ⟨h1, h2⟩ := ih hb
      constructor
      · intro x hx
        rcases List.mem_cons.mp hx with rfl | hx
        · exact ⟨a, by simp, ha⟩
        · obtain ⟨G, h3, h4⟩ := h1 x hx
          exact ⟨G, by simp [h3], h4⟩
      · intro G hG
        rcases List.mem_cons.mp hG with rfl | hG
        · exact ⟨p, by simp, ha⟩
        · obtain ⟨p', h3, h4⟩ := h2 G hG
          exact ⟨p', by simp [h3], h4⟩
    · cases h

theorem collect_none {f : Nat → Option Grp} {ps} (h : collect f ps = none) :
    ∃ p ∈ ps, f p = none := by
  induction ps with
  | nil => simp [collect] at h
  | cons p ps ih =>
    unfold collect at h
    split at h
    · cases h
    · rename_i hh
      cases hp : f p with
      | none => exact ⟨p, by simp, hp⟩
      | some a =>
        cases hg : collect f ps with
        | none =>
          obtain ⟨q, h1, h2⟩ := ih hg
          exact ⟨q, by simp [h1], h2⟩
        | some b => exact absurd hg (hh a b hp)

theorem collect_last {key pa fuel ps gs} (h : collect (mkGroup key pa fuel) ps = some gs) :
    gs.map Grp.last = ps := by
  induction ps generalizing gs with
  | nil => simp [collect] at h; subst h; simp
  | cons p ps ih =>
    unfold collect at h
    split at h
    · rename_i a b ha hb
      injection h with h; subst h
      simp [mkGroup_last ha, ih hb]
    · cases h

theorem mkGroup_go {key pa fuel ps gs} (h : collect (mkGroup key pa fuel) ps = some gs) :
    gs.map Grp.last = ps ∧ ∀ G ∈ gs, ∃ p ∈ ps, mkGroup key pa fuel p = some G :=
  ⟨collect_last h, (collect_spec h).2⟩

theorem follows_go {dep} {gs : List Grp} (h : ∀ G ∈ gs, G.Follows dep) : Grp.Follows.go dep gs := by
  induction gs with
  | nil => trivial
  | cons g gs ih =>
    exact ⟨h g (by simp), ih fun G hG => h G (by simp [hG])⟩

theorem mkGroup_follows {key pa fuel n G} {dep : Nat → Nat → Prop}
    (hd : ∀ b a, dep b a ↔ a ∈ pa b) (h : mkGroup key pa fuel n = some G) : G.Follows dep := by
  induction fuel generalizing n G with
  | zero => simp [mkGroup] at h
  | succ fuel ih =>
    unfold mkGroup at h
    split at h
    · rename_i hp
      injection h with h; subst h
      intro a ha
      rw [hd, hp] at ha
      cases ha
    · rename_i p hp
      simp only [Option.map_eq_some_iff] at h
      obtain ⟨s, hs, rfl⟩ := h
      refine ⟨?_, ih hs⟩
      intro a
      rw [hd, hp, mkGroup_last hs]; simp
    · simp only [Option.map_eq_some_iff] at h
      obtain ⟨ss, hs, rfl⟩ := h
      obtain ⟨h1, h2⟩ := mkGroup_go hs
      refine ⟨?_, follows_go ?_⟩
      · intro a
        rw [hd, h1, mem_sortBy]
      · intro G hG
        obtain ⟨p, _, hp⟩ := h2 G hG
        exact ih hp

theorem grp_last_mem (G : Grp) : G.last ∈ G.defs := by
  cases G <;> simp [Grp.last, Grp.defs]

theorem mem_defs_go {gs : List Grp} {x : Nat} : x ∈ Grp.defs.go gs ↔ ∃ G ∈ gs, x ∈ G.defs := by
  induction gs with
  | nil => simp [Grp.defs.go]
  | cons g gs ih => simp [Grp.defs.go, ih]

/-- The group of `n` contains everything `n` transitively waits for. -/
theorem mkGroup_closed {key pa fuel n G} (h : mkGroup key pa fuel n = some G) :
    ∀ x ∈ G.defs, ∀ p ∈ pa x, p ∈ G.defs := by
  induction fuel generalizing n G with
  | zero => simp [mkGroup] at h
  | succ fuel ih =>
    unfold mkGroup at h
    split at h
    · rename_i hp
      injection h with h; subst h
      intro x hx p hp'
      simp [Grp.defs] at hx; subst hx
      rw [hp] at hp'; cases hp'
    · rename_i q hq
      simp only [Option.map_eq_some_iff] at h
      obtain ⟨s, hs, rfl⟩ := h
      intro x hx p hp
      simp only [Grp.defs, List.mem_append, List.mem_singleton] at hx ⊢
      rcases hx with hx | rfl
      · exact Or.inl (ih hs x hx p hp)
      · rw [hq] at hp
        simp at hp; subst hp
        left
        have := mkGroup_last hs
        rw [← this]; exact grp_last_mem s
    · simp only [Option.map_eq_some_iff] at h
      obtain ⟨ss, hs, rfl⟩ := h
      obtain ⟨h1, h2⟩ := mkGroup_go hs
      intro x hx p hp
      simp only [Grp.defs, List.mem_append, List.mem_singleton, mem_defs_go] at hx ⊢
      rcases hx with ⟨G, hG, hx⟩ | rfl
      · obtain ⟨q, _, hq⟩ := h2 G hG
        exact Or.inl ⟨G, hG, ih hq x hx p hp⟩
      · left
        obtain ⟨G, hG, hG'⟩ := (collect_spec hs).1 p (mem_sortBy.mpr hp)
        refine ⟨G, hG, ?_⟩
        have := mkGroup_last hG'
        rw [← this]; exact grp_last_mem G

theorem mkGroup_defs_lt {key pa fuel n G N} (hpa : ∀ b a, a ∈ pa b → a < N) (hn : n < N)
    (h : mkGroup key pa fuel n = some G) : ∀ x ∈ G.defs, x < N := by
  induction fuel generalizing n G with
  | zero => simp [mkGroup] at h
  | succ fuel ih =>
    unfold mkGroup at h
    split at h
    · injection h with h; subst h
      intro x hx
      simp [Grp.defs] at hx; subst hx
      exact hn
    · rename_i q hq
      simp only [Option.map_eq_some_iff] at h
      obtain ⟨s, hs, rfl⟩ := h
      intro x hx
      simp only [Grp.defs, List.mem_append, List.mem_singleton] at hx
      rcases hx with hx | rfl
      · exact ih (hpa n q (by simp [hq])) hs x hx
      · exact hn
    · simp only [Option.map_eq_some_iff] at h
      obtain ⟨ss, hs, rfl⟩ := h
      obtain ⟨h1, h2⟩ := mkGroup_go hs
      intro x hx
      simp only [Grp.defs, List.mem_append, List.mem_singleton, mem_defs_go] at hx
      rcases hx with ⟨G, hG, hx⟩ | rfl
      · obtain ⟨q, hq1, hq⟩ := h2 G hG
        exact ih (hpa n q (mem_sortBy.mp hq1)) hq x hx
      · exact hn

theorem mkGroup_total {key : Nat → String} {pa : Nat → List Nat}
    (hlt : ∀ b a, a ∈ pa b → a < b) {fuel n : Nat}
    (h : n < fuel) : mkGroup key pa fuel n ≠ none := by
  induction fuel generalizing n with
  | zero => omega
  | succ fuel ih =>
    unfold mkGroup
    split
    · simp
    · rename_i p hp
      have := ih (n := p) (by have := hlt n p (by simp [hp]); omega)
      simpa using this
    · simp only [ne_eq, Option.map_eq_none_iff]
      intro hh
      obtain ⟨p, hp, hn⟩ := collect_none hh
      exact ih (n := p) (by have := hlt n p (mem_sortBy.mp hp); omega) hn

theorem mkGroups_total {key : Nat → String} {pa : Nat → List Nat}
    (hlt : ∀ b a, a ∈ pa b → a < b) {fuel : Nat} {ls : List Nat}
    (h : ∀ n ∈ ls, n < fuel) : mkGroups key pa fuel ls ≠ none := by
  intro hh
  obtain ⟨p, hp, hn⟩ := collect_none hh
  exact mkGroup_total hlt (h p hp) hn

theorem mkGroups_mem {key pa fuel ls gs} (h : mkGroups key pa fuel ls = some gs) :
    (∀ n ∈ ls, ∃ G ∈ gs, mkGroup key pa fuel n = some G) ∧
    (∀ G ∈ gs, ∃ n ∈ ls, mkGroup key pa fuel n = some G) := collect_spec h

/-! ## Leaves -/

theorem concatSome_none {f : Nat → Option (List Nat)} {ns} (h : concatSome f ns = none) :
    ∃ n ∈ ns, f n = none := by
  induction ns with
  | nil => simp [concatSome] at h
  | cons n ns ih =>
    unfold concatSome at h
    split at h
    · cases h
    · rename_i hh
      cases hp : f n with
      | none => exact ⟨n, by simp, hp⟩
      | some a =>
        cases hg : concatSome f ns with
        | none =>
          obtain ⟨q, h1, h2⟩ := ih hg
          exact ⟨q, by simp [h1], h2⟩
        | some b => exact absurd hg (hh a b hp)

theorem concatSome_mem {f : Nat → Option (List Nat)} {ns ls} (h : concatSome f ns = some ls) {x : Nat} :
    x ∈ ls ↔ ∃ n ∈ ns, ∃ l, f n = some l ∧ x ∈ l := by
  induction ns generalizing ls with
  | nil => simp [concatSome] at h; subst h; simp
  | cons n ns ih =>
    unfold concatSome at h
    split at h
    · rename_i a b ha hb
      injection h with h; subst h
      rw [List.mem_append, ih hb]
      simp [ha]
    · cases h

theorem concatSome_some {f : Nat → Option (List Nat)} {ns ls} (h : concatSome f ns = some ls) :
    ∀ n ∈ ns, ∃ l, f n = some l := by
  induction ns generalizing ls with
  | nil => simp
  | cons n ns ih =>
    unfold concatSome at h
    split at h
    · rename_i a b ha hb
      intro m hm
      rcases List.mem_cons.mp hm with rfl | hm
      · exact ⟨a, ha⟩
      · exact ih hb m hm
    · cases h

theorem leaves_go_none {ch fuel ns}
    (h : concatSome (fun n => if (ch n).isEmpty then some [n] else leaves ch fuel (ch n)) ns = none) :
    ∃ n ∈ ns, (ch n) ≠ [] ∧ leaves ch fuel (ch n) = none := by
  obtain ⟨n, h1, h2⟩ := concatSome_none h
  by_cases hc : (ch n).isEmpty
  · simp [hc] at h2
  · simp only [hc] at h2
    exact ⟨n, h1, by simpa using hc, h2⟩

theorem leaves_total {ch : Nat → List Nat} {N : Nat} (hlt : ∀ a b, b ∈ ch a → a < b)
    (hN : ∀ a b, b ∈ ch a → b < N) {fuel : Nat} {ns : List Nat}
    (h : ∀ n ∈ ns, n < N ∧ N ≤ n + fuel) (hne : 1 ≤ fuel) : leaves ch fuel ns ≠ none := by
  induction fuel generalizing ns with
  | zero => omega
  | succ fuel ih =>
    unfold leaves
    intro hh
    obtain ⟨n, h1, h2, h3⟩ := leaves_go_none hh
    have hn := h n h1
    have hf : 1 ≤ fuel := by
      cases hc : ch n with
      | nil => exact absurd hc h2
      | cons c cs =>
        have := hlt n c (by simp [hc])
        have := hN n c (by simp [hc])
        omega
    refine ih ?_ hf h3
    intro c hc
    have := hlt n c hc
    have := hN n c hc
    omega

theorem leaves_go_mem {ch : Nat → List Nat} {fuel ns ls}
    (h : concatSome (fun n => if (ch n).isEmpty then some [n] else leaves ch fuel (ch n)) ns = some ls)
    {x : Nat} :
    x ∈ ls ↔ ∃ n ∈ ns, (ch n = [] ∧ x = n) ∨
      (ch n ≠ [] ∧ ∃ l, leaves ch fuel (ch n) = some l ∧ x ∈ l) := by
  rw [concatSome_mem h]
  refine exists_congr fun n => and_congr_right fun _ => ?_
  by_cases hc : ch n = []
  · simp [hc, eq_comm]
  · have : (ch n).isEmpty = false := by simpa using hc
    simp [hc]

/-- Every leaf below the given nodes is found. -/
theorem leaves_complete {ch fuel ns ls} (h : leaves ch fuel ns = some ls) {n x : Nat}
    (hn : n ∈ ns) (hx : x = n ∨ Walk ch n x) (hleaf : ch x = []) : x ∈ ls := by
  induction fuel generalizing ns ls n with
  | zero => simp [leaves] at h
  | succ fuel ih =>
    unfold leaves at h
    rw [leaves_go_mem h]
    refine ⟨n, hn, ?_⟩
    rcases hx with rfl | hw
    · exact Or.inl ⟨hleaf, rfl⟩
    · have hne : ch n ≠ [] := by
        cases hw with
        | edge hb => intro e; rw [e] at hb; cases hb
        | cons hb _ => intro e; rw [e] at hb; cases hb
      right
      refine ⟨hne, ?_⟩
      obtain ⟨l, hl⟩ := concatSome_some h n hn
      have : (ch n).isEmpty = false := by simpa using hne
      simp only [this] at hl
      refine ⟨l, hl, ?_⟩
      cases hw with
      | edge hb => exact ih hl hb (Or.inl rfl)
      | cons hb hw => exact ih hl hb (Or.inr hw)

theorem leaves_sound {ch fuel ns ls} (h : leaves ch fuel ns = some ls) {x : Nat} (hx : x ∈ ls) :
    ch x = [] ∧ ∃ n ∈ ns, x = n ∨ Walk ch n x := by
  induction fuel generalizing ns ls with
  | zero => simp [leaves] at h
  | succ fuel ih =>
    unfold leaves at h
    rw [leaves_go_mem h] at hx
    obtain ⟨n, hn, (⟨h1, rfl⟩ | ⟨_, l, h2, h3⟩)⟩ := hx
    · exact ⟨h1, x, hn, Or.inl rfl⟩
    · obtain ⟨h4, m, h5, h6⟩ := ih h2 h3
      refine ⟨h4, n, hn, Or.inr ?_⟩
      rcases h6 with rfl | h6
      · exact .edge h5
      · exact .cons h5 h6

/-- In a graph whose edges go upwards every node reaches a leaf. -/
theorem exists_leaf {ch : Nat → List Nat} {N : Nat} (hlt : ∀ a b, b ∈ ch a → a < b)
    (hN : ∀ a b, b ∈ ch a → b < N) (n : Nat) (hn : n < N) :
    ∃ x, x < N ∧ (x = n ∨ Walk ch n x) ∧ ch x = [] := by
  generalize hk : N - n = k
  induction k using Nat.strongRecOn generalizing n with
  | _ k ih =>
    cases hc : ch n with
    | nil => exact ⟨n, hn, Or.inl rfl, hc⟩
    | cons c cs =>
      have hm : c ∈ ch n := by simp [hc]
      have h1 := hlt n c hm
      have h2 := hN n c hm
      obtain ⟨x, h3, h4, h5⟩ := ih (N - c) (by omega) c h2 rfl
      refine ⟨x, h3, Or.inr ?_, h5⟩
      rcases h4 with rfl | h4
      · exact .edge hm
      · exact .cons hm h4

/-- In a graph whose edges go upwards every node is reached from a root. -/
theorem exists_root {g : Adj} (ho : Ok g) (hlt : ∀ a b, b ∈ g.ch a → a < b) (n : Nat) :
    ∃ r, r ≤ n ∧ (n = r ∨ Walk g.ch r n) ∧ g.pa r = [] := by
  induction n using Nat.strongRecOn with
  | _ n ih =>
    cases hc : g.pa n with
    | nil => exact ⟨n, Nat.le_refl _, Or.inl rfl, hc⟩
    | cons p ps =>
      have hm : n ∈ g.ch p := (ho.symm p n).mpr (by simp [hc])
      have h1 := hlt p n hm
      obtain ⟨r, h2, h3, h4⟩ := ih p h1
      refine ⟨r, by omega, Or.inr ?_, h4⟩
      rcases h3 with rfl | h3
      · exact .edge hm
      · exact h3.snoc hm

theorem mem_roots {defs : List Def} {g : Adj} {r : Nat} :
    r ∈ roots defs g ↔ r < defs.length ∧ g.pa r = [] := by
  simp [roots]

theorem walk_upwards {ch : Nat → List Nat} (hlt : ∀ a b, b ∈ ch a → a < b) {a b} (h : Walk ch a b) :
    a < b := by
  induction h with
  | edge h => exact hlt _ _ h
  | cons h _ ih => have := hlt _ _ h; omega

theorem walk_closed {ch : Nat → List Nat} {l : List Nat}
    (hc : ∀ b ∈ l, ∀ a, b ∈ ch a → a ∈ l) {a b} (h : Walk ch a b) (hb : b ∈ l) : a ∈ l := by
  induction h with
  | edge h => exact hc _ hb _ h
  | cons h _ ih => exact hc _ (ih hb) _ h

/-- Everything about `setupWith` on declaration lists without self reference. -/
theorem setup_spec {defs : List Def} (hs : NoSelfRef defs) (hne : defs ≠ [])
    (perm : List Nat → List Nat) (hperm : ∀ l x, x ∈ perm l ↔ x ∈ l) :
    ∃ gs, setupWith perm (defs.length + 1) defs = .groups gs ∧
      (∀ G ∈ gs, G.Follows (DependsOn defs)) ∧
      (∀ i, i < defs.length → ∃ G ∈ gs, i ∈ G.defs) ∧
      (∀ G ∈ gs, ∀ i ∈ G.defs, i < defs.length) := by
  have ho := ok_build defs
  have hup : ∀ a b, b ∈ (build defs).ch a → a < b := fun a b h =>
    dependsOn_strict hs ((mem_build defs a b).mp h)
  have hN : ∀ a b, b ∈ (build defs).ch a → b < defs.length := fun a b h =>
    dependsOn_lt ((mem_build defs a b).mp h)
  have hpa : ∀ b a, a ∈ (build defs).pa b → a < b := fun b a h => hup a b ((ho.symm a b).mpr h)
  have hpos : 0 < defs.length := by
    cases defs with
    | nil => exact absurd rfl hne
    | cons _ _ => simp
  obtain ⟨r, hr1, _, hr2⟩ := exists_root ho hup 0
  have hr : r ∈ roots defs (build defs) := mem_roots.mpr ⟨by omega, hr2⟩
  have hrs : (roots defs (build defs)).isEmpty = false := by
    cases h : roots defs (build defs) with
    | nil => rw [h] at hr; cases hr
    | cons _ _ => rfl
  have hcyc : cyclicRoots (build defs).ch (defs.length + 1) (roots defs (build defs)) = some false := by
    cases h : cyclicRoots (build defs).ch (defs.length + 1) (roots defs (build defs)) with
    | none =>
      exact absurd h (cyclicRoots_total hN fun r hr => (mem_roots.mp hr).1)
    | some b =>
      cases b with
      | false => rfl
      | true =>
        obtain ⟨r, _, x, _, hw⟩ := cyclicRoots_true h
        have := walk_upwards hup hw
        omega
  have hleaf : ∃ ls, leaves (build defs).ch (defs.length + 1) (roots defs (build defs)) = some ls := by
    cases h : leaves (build defs).ch (defs.length + 1) (roots defs (build defs)) with
    | none =>
      refine absurd h (leaves_total hup hN (fun n hn => ?_) (by omega))
      have := (mem_roots.mp hn).1
      omega
    | some ls => exact ⟨ls, rfl⟩
  obtain ⟨ls, hls⟩ := hleaf
  have hlslt : ∀ x ∈ ls, x < defs.length := by
    intro x hx
    obtain ⟨_, n, hn, (rfl | hw)⟩ := leaves_sound hls hx
    · exact (mem_roots.mp hn).1
    · clear hx hls
      have : ∀ a b, Walk (build defs).ch a b → b < defs.length := by
        intro a b h
        induction h with
        | edge h => exact hN _ _ h
        | cons _ _ ih => exact ih
      exact this _ _ hw
  have hgs : ∃ gs, mkGroups (keyOf defs) (build defs).pa (defs.length + 1)
      (sortBy (keyOf defs) (perm (dedup ls))) = some gs := by
    cases h : mkGroups (keyOf defs) (build defs).pa (defs.length + 1)
      (sortBy (keyOf defs) (perm (dedup ls))) with
    | none =>
      refine absurd h (mkGroups_total hpa fun n hn => ?_)
      rw [mem_sortBy, hperm, mem_dedup] at hn
      have := hlslt n hn
      omega
    | some gs => exact ⟨gs, rfl⟩
  obtain ⟨gs, hgs⟩ := hgs
  obtain ⟨hm1, hm2⟩ := mkGroups_mem hgs
  refine ⟨gs, ?_, ?_, ?_, ?_⟩
  · simp [setupWith, hrs, hcyc, hls, hgs]
  · intro G hG
    obtain ⟨n, _, h⟩ := hm2 G hG
    exact mkGroup_follows (fun b a => (mem_build_pa defs a b).symm) h
  · intro i hi
    obtain ⟨x, hx1, hx2, hx3⟩ := exists_leaf hup hN i hi
    obtain ⟨r, hr1, hr2, hr3⟩ := exists_root ho hup i
    have hxl : x ∈ ls := by
      refine leaves_complete hls (n := r) (mem_roots.mpr ⟨by omega, hr3⟩) ?_ hx3
      rcases hr2 with rfl | hr2
      · exact hx2
      · rcases hx2 with rfl | hx2
        · exact Or.inr hr2
        · exact Or.inr (hr2.trans hx2)
    obtain ⟨G, hG, hG'⟩ := hm1 x (by rw [mem_sortBy, hperm, mem_dedup]; exact hxl)
    refine ⟨G, hG, ?_⟩
    have hlast : x ∈ G.defs := by
      have := mkGroup_last hG'
      rw [← this]; exact grp_last_mem G
    have hclosed := mkGroup_closed hG'
    rcases hx2 with rfl | hw
    · exact hlast
    · exact walk_closed (fun b hb a ha => hclosed b hb a ((ho.symm _ _).mp ha)) hw hlast
  · intro G hG i hi
    obtain ⟨n, hn, h⟩ := hm2 G hG
    refine mkGroup_defs_lt (N := defs.length) ?_ ?_ h i hi
    · intro b a hab
      have h1 := hpa b a hab
      have h2 := hN a b ((ho.symm a b).mpr hab)
      omega
    · rw [mem_sortBy, hperm, mem_dedup] at hn
      exact hlslt n hn

end Verif.Graph
