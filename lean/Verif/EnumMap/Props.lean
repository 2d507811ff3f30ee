import Verif.EnumMap.Model

/-! # C26 and C45: enum aliases -/

namespace Verif.EnumMap

/-- Specification: value `v` (of an enum with aliases) declares the value `d` of the enum `t` as an
alias. -/
def Declares (v : Value) (t : Name) (d : Decl) : Prop :=
  ∃ r, v.rule = some r ∧ ∃ a ∈ r.aliases, a.enum = t ∧ d ∈ a.vals

/-- Specification: `v` is marked as default. -/
def IsDefault (v : Value) : Prop := ∃ r, v.rule = some r ∧ r.default = true

/-! ## The switch -/

theorem run_of_mem (s : Switch) (h : compiles s) (a b : Int) (hm : (a, b) ∈ s.cases) : s.run a = b := by
  unfold Switch.run
  cases hf : s.cases.find? (fun c => c.1 == a) with
  | none =>
    rw [List.find?_eq_none] at hf
    simpa using hf _ hm
  | some c =>
    have h1 := List.find?_some hf
    have h2 := List.mem_of_find?_eq_some hf
    simp only [beq_iff_eq] at h1
    have : c = (a, b) := by
      unfold compiles at h
      generalize s.cases = l at *
      clear hf
      induction l with
      | nil => cases hm
      | cons x l ih =>
        rw [List.map_cons, List.nodup_cons] at h
        rcases List.mem_cons.mp hm with rfl | hm'
        · rcases List.mem_cons.mp h2 with h2 | h2
          · exact h2
          · exact absurd (List.mem_map.mpr ⟨c, h2, h1⟩) h.1
        · rcases List.mem_cons.mp h2 with h2 | h2
          · subst h2
            exact absurd (List.mem_map.mpr ⟨(a, b), hm', h1.symm⟩) h.1
          · exact ih h.2 hm' h2
    rw [this]

theorem run_of_not_mem (s : Switch) (a : Int) (hm : ∀ b, (a, b) ∉ s.cases) : s.run a = s.default := by
  unfold Switch.run
  cases hf : s.cases.find? (fun c => c.1 == a) with
  | none => rfl
  | some c =>
    have h1 := List.find?_some hf
    have h2 := List.mem_of_find?_eq_some hf
    simp only [beq_iff_eq] at h1
    exact absurd (h1 ▸ h2) (hm c.2)

theorem depToSvc_mem (to : Enum) (t : Name) (a b : Int) :
    (a, b) ∈ (depToSvc to t).cases ↔
      ∃ v ∈ to.vals, ∃ d, Declares v t d ∧ d.number = a ∧ v.decl.number = b := by
  simp only [depToSvc, List.mem_flatMap]
  constructor
  · rintro ⟨v, hv, h⟩
    cases hr : v.rule with
    | none => rw [hr] at h; cases h
    | some r =>
      rw [hr] at h
      simp only [List.mem_flatMap] at h
      obtain ⟨al, hal, h⟩ := h
      by_cases he : al.enum = t
      · simp only [he, ne_eq, not_true_eq_false, if_false, List.mem_map, Prod.mk.injEq] at h
        obtain ⟨d, hd, h1, h2⟩ := h
        exact ⟨v, hv, d, ⟨r, hr, al, hal, he, hd⟩, h1, h2⟩
      · rw [if_pos he] at h; cases h
  · rintro ⟨v, hv, d, ⟨r, hr, al, hal, he, hd⟩, h1, h2⟩
    refine ⟨v, hv, ?_⟩
    rw [hr]
    simp only [List.mem_flatMap]
    refine ⟨al, hal, ?_⟩
    rw [if_neg (by simp [he])]
    exact List.mem_map.mpr ⟨d, hd, by rw [h1, h2]⟩

theorem default_none (vs : List Value) (d : Int) (h : ∀ v ∈ vs, ¬ IsDefault v) :
    vs.foldl (fun d v => match v.rule with
      | none => d
      | some r => if r.default then v.decl.number else d) d = d := by
  induction vs generalizing d with
  | nil => rfl
  | cons v vs ih =>
    rw [List.foldl_cons]
    have hv := h v (by simp)
    cases hr : v.rule with
    | none => exact ih d (fun w hw => h w (by simp [hw]))
    | some r =>
      have hd : r.default = false := by
        cases hx : r.default with
        | false => rfl
        | true => exact absurd ⟨r, hr, hx⟩ hv
      simp only [hd, Bool.false_eq_true, if_false]
      exact ih d (fun w hw => h w (by simp [hw]))

theorem default_unique (vs : List Value) (d : Int) (v : Value) (hm : v ∈ vs) (hv : IsDefault v)
    (huniq : ∀ w ∈ vs, IsDefault w → w = v) :
    vs.foldl (fun d v => match v.rule with
      | none => d
      | some r => if r.default then v.decl.number else d) d = v.decl.number := by
  induction vs generalizing d with
  | nil => cases hm
  | cons w vs ih =>
    rw [List.foldl_cons]
    by_cases hin : v ∈ vs
    · exact ih _ hin (fun x hx => huniq x (by simp [hx]))
    · have hwv : w = v := by
        rcases List.mem_cons.mp hm with h | h
        · exact h.symm
        · exact absurd h hin
      subst hwv
      obtain ⟨r, hr, hd⟩ := hv
      simp only [hr, hd, if_true]
      apply default_none
      intro x hx hdx
      exact hin (huniq x (by simp [hx]) hdx ▸ hx)

/-- C26, from a dependency's enum to the service's enum that declares it as alias (generated code
that compiles). Every declared alias is mapped to the value that declares it; a number that no value
declares is mapped to the default value, or to zero if there is none. -/
theorem C26_dep_to_service_partial (frm to : Enum) (h : frm.fqdn ∈ to.aliases)
    (s : Switch) (hs : toEnum frm to = some s) (hc : compiles s) :
    (∀ v ∈ to.vals, ∀ d, Declares v frm.fqdn d → s.run d.number = v.decl.number) ∧
    (∀ n, (∀ v ∈ to.vals, ∀ d, Declares v frm.fqdn d → d.number ≠ n) →
      (∀ v ∈ to.vals, IsDefault v → (∀ w ∈ to.vals, IsDefault w → w = v) → s.run n = v.decl.number) ∧
      ((∀ v ∈ to.vals, ¬ IsDefault v) → s.run n = 0)) := by
  have hne : to.aliases ≠ [] := by intro h0; rw [h0] at h; cases h
  have hs' : s = depToSvc to frm.fqdn := by
    rw [toEnum, if_pos hne] at hs
    injection hs with hs; exact hs.symm
  subst hs'
  refine ⟨?_, ?_⟩
  · intro v hv d hd
    exact run_of_mem _ hc _ _ ((depToSvc_mem _ _ _ _).mpr ⟨v, hv, d, hd, rfl, rfl⟩)
  · intro n hn
    have hr : (depToSvc to frm.fqdn).run n = (depToSvc to frm.fqdn).default := by
      apply run_of_not_mem
      intro b hb
      obtain ⟨v, hv, d, hd, h1, _⟩ := (depToSvc_mem _ _ _ _).mp hb
      exact hn v hv d hd h1
    rw [hr]
    exact ⟨fun v hv hdv hu => default_unique _ _ v hv hdv hu, fun hnone => default_none _ _ hnone⟩

theorem svcCases_mem (t : Name) (n : Int) (as : List Alias) (cs : List (Int × Int))
    (h : svcCases t n as = some cs) (a b : Int) :
    (a, b) ∈ cs ↔ a = n ∧ ∃ al ∈ as, al.enum = t ∧ ∃ d ∈ al.vals, d.number = b := by
  induction as generalizing cs with
  | nil => simp only [svcCases, Option.some.injEq] at h; subst h; simp
  | cons x as ih =>
    simp only [svcCases] at h
    by_cases he : x.enum = t
    · rw [if_neg (by simp [he])] at h
      cases hv : x.vals with
      | nil => rw [hv] at h; cases h
      | cons d l =>
        cases l with
        | cons _ _ => rw [hv] at h; cases h
        | nil =>
          rw [hv] at h
          cases hrest : svcCases t n as with
          | none => rw [hrest] at h; cases h
          | some cs' =>
            rw [hrest] at h
            simp only [Option.map_some, Option.some.injEq] at h
            subst h
            rw [List.mem_cons, ih cs' hrest]
            constructor
            · rintro (h1 | ⟨h1, al, hal, h2⟩)
              · simp only [Prod.mk.injEq] at h1
                exact ⟨h1.1, x, by simp, he, d, by simp [hv], h1.2.symm⟩
              · exact ⟨h1, al, by simp [hal], h2⟩
            · rintro ⟨h1, al, hal, he', d', hd', h2⟩
              rcases List.mem_cons.mp hal with rfl | hal
              · rw [hv] at hd'
                simp only [List.mem_singleton] at hd'
                subst hd'
                left; rw [h1, h2]
              · exact Or.inr ⟨h1, al, hal, he', d', hd', h2⟩
    · rw [if_pos he] at h
      rw [ih cs h]
      constructor
      · rintro ⟨h1, al, hal, h2⟩
        exact ⟨h1, al, by simp [hal], h2⟩
      · rintro ⟨h1, al, hal, he', h2⟩
        rcases List.mem_cons.mp hal with rfl | hal
        · exact absurd he' he
        · exact ⟨h1, al, hal, he', h2⟩

theorem svcToDep_mem (t : Name) (vs : List Value) (cs : List (Int × Int))
    (h : svcToDepCases t vs = some cs) :
    (∀ v ∈ vs, ¬ IsDefault v) ∧
    ∀ a b, (a, b) ∈ cs ↔ ∃ v ∈ vs, ∃ d, Declares v t d ∧ v.decl.number = a ∧ d.number = b := by
  induction vs generalizing cs with
  | nil => simp only [svcToDepCases, Option.some.injEq] at h; subst h; simp
  | cons v vs ih =>
    simp only [svcToDepCases] at h
    cases hr : v.rule with
    | none =>
      rw [hr] at h
      obtain ⟨h1, h2⟩ := ih cs h
      refine ⟨?_, ?_⟩
      · intro w hw
        rcases List.mem_cons.mp hw with rfl | hw
        · rintro ⟨r, hr', _⟩; rw [hr] at hr'; cases hr'
        · exact h1 w hw
      · intro a b
        rw [h2]
        constructor
        · rintro ⟨w, hw, x⟩; exact ⟨w, by simp [hw], x⟩
        · rintro ⟨w, hw, d, ⟨r, hr', y⟩, x⟩
          rcases List.mem_cons.mp hw with rfl | hw
          · rw [hr] at hr'; cases hr'
          · exact ⟨w, hw, d, ⟨r, hr', y⟩, x⟩
    | some r =>
      rw [hr] at h
      simp only at h
      cases hsc : svcCases t v.decl.number r.aliases with
      | none => rw [hsc] at h; cases h
      | some c1 =>
        rw [hsc] at h
        simp only at h
        cases hd : r.default with
        | true => rw [hd] at h; simp at h
        | false =>
          rw [hd] at h
          simp only [Bool.false_eq_true, if_false] at h
          cases hrest : svcToDepCases t vs with
          | none => rw [hrest] at h; cases h
          | some c2 =>
            rw [hrest] at h
            simp only [Option.map_some, Option.some.injEq] at h
            subst h
            obtain ⟨h1, h2⟩ := ih c2 hrest
            refine ⟨?_, ?_⟩
            · intro w hw
              rcases List.mem_cons.mp hw with rfl | hw
              · rintro ⟨r', hr', hx⟩
                rw [hr] at hr'; injection hr' with hr'; subst hr'
                rw [hd] at hx; cases hx
              · exact h1 w hw
            · intro a b
              rw [List.mem_append, svcCases_mem t _ _ _ hsc, h2]
              constructor
              · rintro (⟨ha, al, hal, he, d, hdm, hb⟩ | ⟨w, hw, x⟩)
                · exact ⟨v, by simp, d, ⟨r, hr, al, hal, he, hdm⟩, ha.symm, hb⟩
                · exact ⟨w, by simp [hw], x⟩
              · rintro ⟨w, hw, d, ⟨r', hr', al, hal, he, hdm⟩, ha, hb⟩
                rcases List.mem_cons.mp hw with rfl | hw
                · rw [hr] at hr'; injection hr' with hr'; subst hr'
                  exact Or.inl ⟨ha.symm, al, hal, he, d, hdm, hb⟩
                · exact Or.inr ⟨w, hw, d, ⟨r', hr', al, hal, he, hdm⟩, ha, hb⟩

/-- C26, from the service's enum to a dependency's enum without aliases of its own. If a conversion
is generated (and compiles), no value is a default; every value is mapped to its alias, and a number
without alias to zero. -/
theorem C26_service_to_dep_partial (frm to : Enum) (h0 : to.aliases = []) (h : to.fqdn ∈ frm.aliases)
    (s : Switch) (hs : toEnum frm to = some s) (hc : compiles s) :
    (∀ v ∈ frm.vals, ¬ IsDefault v) ∧
    (∀ v ∈ frm.vals, ∀ d, Declares v to.fqdn d → s.run v.decl.number = d.number) ∧
    (∀ n, (∀ v ∈ frm.vals, v.decl.number = n → ∀ d, ¬ Declares v to.fqdn d) → s.run n = 0) := by
  have hne : frm.aliases ≠ [] := by intro h0; rw [h0] at h; cases h
  rw [toEnum, if_neg (by simp [h0]), if_pos hne] at hs
  cases hcs : svcToDepCases to.fqdn frm.vals with
  | none => rw [hcs] at hs; cases hs
  | some cs =>
    rw [hcs] at hs
    simp only [Option.map_some, Option.some.injEq] at hs
    subst hs
    obtain ⟨h1, h2⟩ := svcToDep_mem _ _ _ hcs
    refine ⟨h1, ?_, ?_⟩
    · intro v hv d hd
      exact run_of_mem _ hc _ _ ((h2 _ _).mpr ⟨v, hv, d, hd, rfl, rfl⟩)
    · intro n hn
      rw [run_of_not_mem]
      intro b hb
      obtain ⟨v, hv, d, hd, h3, _⟩ := (h2 _ _).mp hb
      exact hn v hv h3 d hd

/-- C26, there and back: a service value that has an alias in the dependency's enum survives the
conversion to it and back. -/
theorem C26_round_trip (svc dep : Enum) (h0 : dep.aliases = []) (h : dep.fqdn ∈ svc.aliases)
    (s t : Switch) (hs : toEnum svc dep = some s) (ht : toEnum dep svc = some t)
    (hcs : compiles s) (hct : compiles t) (v : Value) (hv : v ∈ svc.vals)
    (hd : ∃ d, Declares v dep.fqdn d) : t.run (s.run v.decl.number) = v.decl.number := by
  obtain ⟨d, hd⟩ := hd
  rw [(C26_service_to_dep_partial svc dep h0 h s hs hcs).2.1 v hv d hd]
  exact (C26_dep_to_service_partial dep svc h t ht hct).1 v hv d hd

/-- An accepted pair of enums: `svc` declares `dep` as alias. -/
def exDep : Enum := ⟨"d.E".toList, [], [⟨⟨"A".toList, 1⟩, none⟩, ⟨⟨"B".toList, 2⟩, none⟩]⟩
def exSvc : Enum := ⟨"s.E".toList, ["d.E".toList],
  [⟨⟨"X".toList, 5⟩, some ⟨false, [⟨"d.E".toList, [⟨"A".toList, 1⟩]⟩]⟩⟩,
   ⟨⟨"B".toList, 6⟩, some ⟨false, [⟨"d.E".toList, [⟨"B".toList, 2⟩]⟩]⟩⟩]⟩

example : accepted exDep exSvc = true ∧ toEnum exDep exSvc = some ⟨[(1, 5), (2, 6)], 0⟩ ∧
    compiles ⟨[(1, 5), (2, 6)], 0⟩ ∧ toEnum exSvc exDep = some ⟨[(5, 1), (6, 2)], 0⟩ ∧
    compiles ⟨[(5, 1), (6, 2)], 0⟩ := by decide

/-- C26 is false of the code when both enums have aliases: the conversion is accepted because the
source declares the target as alias, but it is generated from the aliases of the target, and every
value becomes zero. -/
theorem C26_both_aliased_false : ∃ frm to : Enum, accepted frm to = true ∧
    (∃ v ∈ frm.vals, ∃ d, Declares v to.fqdn d ∧ v.decl.number = 5 ∧ d.number = 1 ∧
      ∃ s, toEnum frm to = some s ∧ compiles s ∧ s.run 5 = 0) := by
  refine ⟨exSvc, ⟨"d.E".toList, ["x.E".toList], [⟨⟨"A".toList, 1⟩, some ⟨false, [⟨"x.E".toList, [⟨"A".toList, 7⟩]⟩]⟩⟩]⟩,
    by decide, _, List.mem_cons_self, ⟨"A".toList, 1⟩, ⟨_, rfl, _, List.mem_cons_self, by decide, List.mem_cons_self⟩,
    by decide, by decide, ⟨[], 0⟩, by decide, by decide, by decide⟩

/-- C26, between enums without aliases, as far as the code follows names: a value of the source whose name is that of a value of the
target with an option becomes that value, and every other number becomes zero.  Names of the values of an enum are different. -/
theorem C26_unaliased_partial (frm to : Enum) (h0 : to.aliases = []) (h1 : frm.aliases = [])
    (hn : (frm.vals.map (·.decl.name)).Nodup) (s : Switch) (hs : toEnum frm to = some s) (hc : compiles s) :
    (∀ v ∈ to.vals, v.rule ≠ none → ∀ w ∈ frm.vals, w.decl.name = v.decl.name → s.run w.decl.number = v.decl.number) ∧
    (∀ n, (∀ v ∈ to.vals, v.rule ≠ none → ∀ w ∈ frm.vals, w.decl.name = v.decl.name → w.decl.number ≠ n) → s.run n = 0) := by
  rw [toEnum, if_neg (by simp [h0]), if_neg (by simp [h1]), Option.some.injEq] at hs
  subst hs
  have huniq : ∀ (l : List Value), (l.map (·.decl.name)).Nodup → ∀ w ∈ l,
      (l.map (·.decl)).find? (fun d => d.name == w.decl.name) = some w.decl := by
    intro l
    induction l with
    | nil => intro _ w hw; cases hw
    | cons x l ih =>
      intro hnd w hw
      simp only [List.map_cons, List.nodup_cons] at hnd
      simp only [List.map_cons, List.find?_cons]
      rcases List.mem_cons.1 hw with rfl | hw
      · simp
      · have hne : x.decl.name ≠ w.decl.name := fun he => hnd.1 (List.mem_map.2 ⟨w, hw, he.symm⟩)
        have : (x.decl.name == w.decl.name) = false := by simpa using hne
        rw [this]
        exact ih hnd.2 w hw
  refine ⟨?_, ?_⟩
  · intro v hv hr w hw hname
    refine run_of_mem _ hc _ _ ?_
    refine List.mem_filterMap.2 ⟨v, hv, ?_⟩
    cases hrv : v.rule with
    | none => exact absurd hrv hr
    | some r =>
      have := huniq frm.vals hn w hw
      rw [hname] at this
      simp [this]
  · intro n hno
    rw [run_of_not_mem]
    intro b hb
    obtain ⟨v, hv, hvb⟩ := List.mem_filterMap.1 hb
    cases hrv : v.rule with
    | none => rw [hrv] at hvb; cases hvb
    | some r =>
      rw [hrv] at hvb
      simp only [Option.map_eq_some_iff, Prod.mk.injEq] at hvb
      obtain ⟨d, hd, hdn, _⟩ := hvb
      have hm := List.mem_of_find?_eq_some hd
      have hname := List.find?_some hd
      obtain ⟨w, hw, rfl⟩ := List.mem_map.1 hm
      exact hno v hv (by rw [hrv]; simp) w hw (by simpa using hname) hdn

example : (exDep.vals.map (·.decl.name)).Nodup ∧ toEnum exDep ⟨"s.E".toList, [], [⟨⟨"B".toList, 9⟩, some ⟨false, []⟩⟩]⟩ = some ⟨[(2, 9)], 0⟩ := by
  decide

/-- C26 is false of the code for enums converted without aliases (values of maps are not checked for
aliases): every value becomes zero, even a value of the same name. -/
theorem C26_unaliased_false : ∃ frm to : Enum, frm.vals.map (·.decl) = to.vals.map (·.decl) ∧
    ∃ s, toEnum frm to = some s ∧ compiles s ∧ ∃ v ∈ frm.vals, s.run v.decl.number ≠ v.decl.number :=
  ⟨exDep, ⟨"s.E".toList, [], exDep.vals⟩, rfl, ⟨[], 0⟩, by decide, by decide, ⟨⟨"A".toList, 1⟩, none⟩, by decide, by decide⟩

/-- C26 is false of the code as to ambiguity: a value with two aliases in the target enum is not
reported; the generated switch has a duplicate case, which Go does not compile. -/
theorem C26_ambiguous_not_reported_false : ∃ (e : EnumDef) (svc : Enum) (s : Switch),
    resolve "s".toList e = some svc ∧ toEnum svc exDep = some s ∧ ¬ compiles s :=
  ⟨⟨"s.E".toList, some [⟨"d.E".toList, [⟨"A".toList, 1⟩, ⟨"B".toList, 2⟩]⟩],
      [⟨⟨"X".toList, 5⟩, some ⟨false, ["A".toList, "B".toList]⟩⟩]⟩,
    ⟨"s.E".toList, ["d.E".toList], [⟨⟨"X".toList, 5⟩, some ⟨false, [⟨"d.E".toList, [⟨"A".toList, 1⟩]⟩, ⟨"d.E".toList, [⟨"B".toList, 2⟩]⟩]⟩⟩]⟩,
    ⟨[(5, 1), (5, 2)], 0⟩, by decide, by decide, by decide⟩

/-! ## Resolution of aliases -/

theorem filterMap_full {α β} (f : α → Option β) (l : List α) (h : (l.filterMap f).length = l.length) :
    ∀ x ∈ l, ∃ y, f x = some y ∧ y ∈ l.filterMap f := by
  have hall : ∀ x ∈ l, (f x).isSome := by
    induction l with
    | nil => simp
    | cons a l ih =>
      cases ha : f a with
      | none =>
        rw [List.filterMap_cons_none ha] at h
        have := List.length_filterMap_le f l
        simp only [List.length_cons] at h
        omega
      | some y =>
        rw [List.filterMap_cons_some ha] at h
        simp only [List.length_cons, Nat.add_right_cancel_iff] at h
        intro x hx
        rcases List.mem_cons.mp hx with rfl | hx
        · simp [ha]
        · exact ih h x hx
  intro x hx
  obtain ⟨y, hy⟩ := Option.isSome_iff_exists.mp (hall x hx)
  exact ⟨y, hy, List.mem_filterMap.mpr ⟨x, hx, hy⟩⟩

theorem value_sound (t : Target) (n : Name) (d : Decl) (h : t.value n = some d) (hn : '.' ∉ n) :
    d ∈ t.vals ∧ d.name = n := by
  rw [Target.value, if_neg hn] at h
  exact ⟨List.mem_of_find?_eq_some h, by simpa using List.find?_some h⟩

/-- Specification: `n` is the plain or the qualified name of the value `d` of `t`. -/
def Denotes (t : Target) (n : Name) (d : Decl) : Prop :=
  d ∈ t.vals ∧ (n = d.name ∨ n = t.fqdn ++ ['.'] ++ d.name)

theorem value_denotes (t : Target) (n : Name) (d : Decl) (h : t.value n = some d) : Denotes t n d := by
  unfold Target.value at h
  by_cases hdot : '.' ∈ n
  · rw [if_pos hdot] at h
    simp only at h
    by_cases hp : (t.fqdn ++ ['.']).isPrefixOf n = true
    · rw [if_pos hp] at h
      obtain ⟨rest, hr⟩ := List.isPrefixOf_iff_prefix.mp hp
      have h1 := List.find?_some h
      refine ⟨List.mem_of_find?_eq_some h, Or.inr ?_⟩
      simp only [beq_iff_eq] at h1
      rw [h1, ← hr, List.drop_left]
    · rw [if_neg hp] at h; cases h
  · rw [if_neg hdot] at h
    have h1 := List.find?_some h
    simp only [beq_iff_eq] at h1
    exact ⟨List.mem_of_find?_eq_some h, Or.inl h1.symm⟩

/-- A value that names no aliases itself and is not the default. -/
def Unannotated (v : ValueDef) : Prop :=
  v.opt = none ∨ ∃ o, v.opt = some o ∧ o.default = false ∧ o.alias = []

theorem resolveValues_mem (pkg : Name) (rule : Option (List Target)) (vs : List ValueDef)
    (rs : List Value) (h : resolveValues pkg rule vs = some rs) (v : ValueDef) (hv : v ∈ vs) :
    ∃ r, valueRule pkg rule v.decl.name v.opt = some r ∧ (⟨v.decl, r⟩ : Value) ∈ rs := by
  induction vs generalizing rs with
  | nil => cases hv
  | cons w vs ih =>
    simp only [resolveValues] at h
    cases hw : valueRule pkg rule w.decl.name w.opt with
    | none => rw [hw] at h; cases h
    | some r =>
      rw [hw] at h
      simp only at h
      cases hrest : resolveValues pkg rule vs with
      | none => rw [hrest] at h; cases h
      | some rs' =>
        rw [hrest] at h
        simp only [Option.some.injEq] at h
        subst h
        rcases List.mem_cons.mp hv with rfl | hv
        · exact ⟨r, hw, by simp⟩
        · obtain ⟨r', h1, h2⟩ := ih rs' hrest hv
          exact ⟨r', h1, by simp [h2]⟩

theorem autoAlias_spec (n : Name) (ts : List Target) (as : List Alias) (h : autoAlias n ts = some as)
    (t : Target) (ht : t ∈ ts) : ∃ d, t.value n = some d ∧ (⟨t.fqdn, [d]⟩ : Alias) ∈ as := by
  simp only [autoAlias] at h
  by_cases hl : (ts.filterMap (fun t => (t.value n).map (fun d => (⟨t.fqdn, [d]⟩ : Alias)))).length = ts.length
  · rw [if_neg (by simp [hl])] at h
    simp only [Option.some.injEq] at h
    subst h
    obtain ⟨y, hy, hm⟩ := filterMap_full _ ts hl t ht
    cases hv : t.value n with
    | none => rw [hv] at hy; cases hy
    | some d =>
      rw [hv] at hy
      simp only [Option.map_some, Option.some.injEq] at hy
      exact ⟨d, rfl, hy ▸ hm⟩
  · rw [if_pos hl] at h; cases h

/-- C45. If an enum with aliases is accepted, every value that is neither the default nor annotated
with aliases exists by name in every alias enum, and is mapped to that value. -/
theorem C45_auto_alias_complete (pkg : Name) (e : EnumDef) (r : Enum) (h : resolve pkg e = some r)
    (ts : List Target) (hr : e.rule = some ts) (v : ValueDef) (hv : v ∈ e.vals) (hu : Unannotated v)
    (hdot : '.' ∉ v.decl.name) (t : Target) (ht : t ∈ ts) :
    ∃ w ∈ r.vals, w.decl = v.decl ∧ ∃ d ∈ t.vals, d.name = v.decl.name ∧ Declares w t.fqdn d := by
  simp only [resolve] at h
  cases hvs : resolveValues pkg e.rule e.vals with
  | none => rw [hvs] at h; cases h
  | some rs =>
    rw [hvs] at h
    simp only [Option.some.injEq] at h
    subst h
    obtain ⟨rl, h1, h2⟩ := resolveValues_mem _ _ _ _ hvs v hv
    rw [hr] at h1
    have key : ∃ as, autoAlias v.decl.name ts = some as ∧ rl = some ⟨false, as⟩ := by
      rcases hu with hu | ⟨o, hu, hd, ha⟩
      · rw [hu] at h1
        simp only [valueRule] at h1
        cases hx : autoAlias v.decl.name ts with
        | none => rw [hx] at h1; cases h1
        | some as =>
          rw [hx] at h1
          simp only [Option.some.injEq] at h1
          exact ⟨as, rfl, h1.symm⟩
      · rw [hu] at h1
        simp only [valueRule, ha, hd, ne_eq, not_true_eq_false, false_and, if_false, Bool.false_eq_true] at h1
        cases hx : autoAlias v.decl.name ts with
        | none => rw [hx] at h1; cases h1
        | some as =>
          rw [hx] at h1
          simp only [Option.some.injEq] at h1
          exact ⟨as, rfl, h1.symm⟩
    obtain ⟨as, ha, hrl⟩ := key
    obtain ⟨d, hd, hm⟩ := autoAlias_spec _ _ _ ha t ht
    obtain ⟨hd1, hd2⟩ := value_sound _ _ _ hd hdot
    exact ⟨_, h2, rfl, d, hd1, hd2, ⟨_, hrl, _, hm, rfl, by simp⟩⟩

theorem explicit_spec (pkg n : Name) (ts : List Target) (names : List Name) (as : List Alias)
    (h : explicitAliases pkg n ts names = some as) (a : Name) (ha : a ∈ names) :
    ∃ l, valueAlias pkg n a ts = some l ∧ ∀ x ∈ l, x ∈ as := by
  induction names generalizing as with
  | nil => cases ha
  | cons b names ih =>
    simp only [explicitAliases] at h
    cases hb : valueAlias pkg n b ts with
    | none => rw [hb] at h; cases h
    | some l =>
      rw [hb] at h
      simp only at h
      cases hrest : explicitAliases pkg n ts names with
      | none => rw [hrest] at h; cases h
      | some l' =>
        rw [hrest] at h
        simp only [Option.some.injEq] at h
        subst h
        rcases List.mem_cons.mp ha with rfl | ha
        · exact ⟨l, hb, fun x hx => by simp [hx]⟩
        · obtain ⟨l2, h1, h2⟩ := ih l' hrest ha
          exact ⟨l2, h1, fun x hx => by simp [h2 x hx]⟩

/-- C45, explicit aliases. Every alias a value of an accepted enum names is the plain or qualified
name (possibly without the package) of a value, in every alias enum if it is a plain name and in at
least one if it is qualified; and the value is mapped to it. -/
theorem C45_explicit_alias_exists (pkg : Name) (e : EnumDef) (r : Enum) (h : resolve pkg e = some r)
    (v : ValueDef) (hv : v ∈ e.vals) (o : ValueOpt) (ho : v.opt = some o) (hd : o.default = false)
    (a : Name) (ha : a ∈ o.alias) (hne : a ≠ []) :
    ∃ ts, e.rule = some ts ∧ ∃ w ∈ r.vals, w.decl = v.decl ∧
      (∃ t ∈ ts, ∃ d, (Denotes t a d ∨ Denotes t (pkg ++ ['.'] ++ a) d) ∧ Declares w t.fqdn d) ∧
      ('.' ∉ a → ∀ t ∈ ts, ∃ d, (Denotes t a d ∨ Denotes t (pkg ++ ['.'] ++ a) d) ∧ Declares w t.fqdn d) := by
  simp only [resolve] at h
  cases hvs : resolveValues pkg e.rule e.vals with
  | none => rw [hvs] at h; cases h
  | some rs =>
    rw [hvs] at h
    simp only [Option.some.injEq] at h
    subst h
    obtain ⟨rl, h1, h2⟩ := resolveValues_mem _ _ _ _ hvs v hv
    have hal : o.alias ≠ [] := by intro h0; rw [h0] at ha; cases ha
    rw [ho] at h1
    simp only [valueRule] at h1
    cases hr : e.rule with
    | none => rw [hr] at h1; simp [hal] at h1
    | some ts =>
      rw [hr] at h1
      by_cases hts : ts = []
      · subst hts; simp [hal] at h1
      · rw [if_neg (by simp [hts])] at h1
        simp only [hd, Bool.false_eq_true, if_false, hal, ne_eq, not_false_eq_true, if_true] at h1
        cases hx : explicitAliases pkg v.decl.name ts o.alias with
        | none => rw [hx] at h1; cases h1
        | some as =>
          rw [hx] at h1
          simp only [Option.some.injEq] at h1
          obtain ⟨l, hl, hsub⟩ := explicit_spec _ _ _ _ _ hx a ha
          simp only [valueAlias, hne, if_false] at hl
          have lk : ∀ t y, lookupAlias pkg a t = some y →
              ∃ d, (Denotes t a d ∨ Denotes t (pkg ++ ['.'] ++ a) d) ∧ y = ⟨t.fqdn, [d]⟩ := by
            intro t y hy
            simp only [lookupAlias] at hy
            cases h3 : t.value a with
            | some d =>
              rw [h3] at hy
              simp only [Option.some.injEq] at hy
              exact ⟨d, Or.inl (value_denotes _ _ _ h3), hy.symm⟩
            | none =>
              rw [h3] at hy
              simp only at hy
              cases h4 : t.value (pkg ++ ['.'] ++ a) with
              | some d =>
                rw [h4] at hy
                simp only [Option.some.injEq] at hy
                exact ⟨d, Or.inr (value_denotes _ _ _ h4), hy.symm⟩
              | none => rw [h4] at hy; cases hy
          by_cases h0 : (ts.filterMap (lookupAlias pkg a)).length = 0
          · rw [if_pos h0] at hl; cases hl
          · rw [if_neg h0] at hl
            refine ⟨ts, rfl, _, h2, rfl, ?_, ?_⟩
            · have hne' : ts.filterMap (lookupAlias pkg a) ≠ [] := by
                intro hh; rw [hh] at h0; exact h0 rfl
              obtain ⟨y, hy⟩ := List.exists_mem_of_ne_nil _ hne'
              obtain ⟨t, ht, hty⟩ := List.mem_filterMap.mp hy
              obtain ⟨d, hd', hyd⟩ := lk t y hty
              refine ⟨t, ht, d, hd', _, h1.symm, y, ?_, by rw [hyd], by rw [hyd]; simp⟩
              by_cases hlen : (!(decide ('.' ∈ a)) && (ts.filterMap (lookupAlias pkg a)).length != ts.length) = true
              · rw [if_pos hlen] at hl; cases hl
              · rw [if_neg hlen] at hl
                simp only [Option.some.injEq] at hl
                exact hsub y (hl ▸ hy)
            · intro hdot t ht
              by_cases hlen : (ts.filterMap (lookupAlias pkg a)).length = ts.length
              · obtain ⟨y, hy, hym⟩ := filterMap_full _ ts hlen t ht
                obtain ⟨d, hd', hyd⟩ := lk t y hy
                rw [if_neg (by simp [hlen])] at hl
                simp only [Option.some.injEq] at hl
                exact ⟨d, hd', _, h1.symm, y, hsub y (hl ▸ hym), by rw [hyd], by rw [hyd]; simp⟩
              · rw [if_pos (by simp [hdot, hlen])] at hl
                cases hl

/-- C26: a value declared as the default of an accepted enum with aliases is its default, and no
other value is. -/
theorem C26_declared_default (pkg : Name) (e : EnumDef) (r : Enum) (h : resolve pkg e = some r)
    (v : ValueDef) (hv : v ∈ e.vals) (ts : List Target) (hr : e.rule = some ts) :
    ∃ w ∈ r.vals, w.decl = v.decl ∧ (IsDefault w ↔ ∃ o, v.opt = some o ∧ o.default = true) := by
  simp only [resolve] at h
  cases hvs : resolveValues pkg e.rule e.vals with
  | none => rw [hvs] at h; cases h
  | some rs =>
    rw [hvs] at h
    simp only [Option.some.injEq] at h
    subst h
    obtain ⟨rl, h1, h2⟩ := resolveValues_mem _ _ _ _ hvs v hv
    refine ⟨_, h2, rfl, ?_⟩
    rw [hr] at h1
    unfold IsDefault
    cases ho : v.opt with
    | none =>
      rw [ho] at h1
      simp only [valueRule] at h1
      cases hx : autoAlias v.decl.name ts with
      | none => rw [hx] at h1; cases h1
      | some as =>
        rw [hx] at h1
        simp only [Option.some.injEq] at h1
        subst h1
        simp
    | some o =>
      rw [ho] at h1
      simp only [valueRule] at h1
      by_cases hc : o.alias ≠ [] ∧ (some ts = none ∨ some ts = some [])
      · rw [if_pos hc] at h1; cases h1
      · rw [if_neg hc] at h1
        cases hd : o.default with
        | true =>
          rw [hd] at h1
          simp only [if_true, Option.some.injEq] at h1
          subst h1
          simp [hd]
        | false =>
          rw [hd] at h1
          simp only [Bool.false_eq_true, if_false] at h1
          have : ∃ as, rl = some ⟨false, as⟩ := by
            by_cases ha : o.alias ≠ []
            · rw [if_pos ha] at h1
              cases hx : explicitAliases pkg v.decl.name ts o.alias with
              | none => rw [hx] at h1; cases h1
              | some as => rw [hx] at h1; simp only [Option.some.injEq] at h1; exact ⟨as, h1.symm⟩
            · rw [if_neg ha] at h1
              cases hx : autoAlias v.decl.name ts with
              | none => rw [hx] at h1; cases h1
              | some as => rw [hx] at h1; simp only [Option.some.injEq] at h1; exact ⟨as, h1.symm⟩
          obtain ⟨as, rfl⟩ := this
          simp [hd]

example : ∃ r, resolve "s".toList ⟨"s.E".toList, some [⟨"d.E".toList, [⟨"A".toList, 1⟩]⟩],
    [⟨⟨"X".toList, 5⟩, some ⟨true, []⟩⟩, ⟨⟨"Y".toList, 6⟩, some ⟨false, ["d.E.A".toList]⟩⟩]⟩ = some r :=
  ⟨_, rfl⟩

example : ∃ r, resolve "s".toList ⟨"s.E".toList, some [⟨"d.E".toList, [⟨"A".toList, 1⟩, ⟨"B".toList, 2⟩]⟩],
    [⟨⟨"X".toList, 5⟩, some ⟨false, ["A".toList]⟩⟩, ⟨⟨"B".toList, 6⟩, none⟩]⟩ = some r :=
  ⟨_, rfl⟩

/-- C45, and rejection is not arbitrary: an enum all of whose values are unannotated is accepted if
every value exists in every alias enum. -/
theorem C45_accepted_if (pkg : Name) (e : EnumDef) (ts : List Target) (hr : e.rule = some ts)
    (hall : ∀ v ∈ e.vals, v.opt = none ∧ ∀ t ∈ ts, ∃ d, t.value v.decl.name = some d) :
    (resolve pkg e).isSome = true := by
  have hauto : ∀ n, (∀ t ∈ ts, ∃ d, t.value n = some d) → (autoAlias n ts).isSome = true := by
    intro n hn
    have : (ts.filterMap (fun t => (t.value n).map (fun d => (⟨t.fqdn, [d]⟩ : Alias)))).length = ts.length := by
      clear hr hall
      induction ts with
      | nil => rfl
      | cons t ts ih =>
        obtain ⟨d, hd⟩ := hn t (by simp)
        rw [List.filterMap_cons_some (b := (⟨t.fqdn, [d]⟩ : Alias)) (by simp [hd])]
        simp only [List.length_cons]
        rw [ih (fun t' h' => hn t' (by simp [h']))]
    simp only [autoAlias]
    rw [if_neg (by simp [this])]
    rfl
  have hvs : (resolveValues pkg e.rule e.vals).isSome = true := by
    rw [hr]
    generalize e.vals = vs at hall
    induction vs with
    | nil => rfl
    | cons v vs ih =>
      obtain ⟨ho, hv⟩ := hall v (by simp)
      obtain ⟨as, has⟩ := Option.isSome_iff_exists.mp (hauto _ hv)
      obtain ⟨rs, hrs⟩ := Option.isSome_iff_exists.mp (ih (fun w hw => hall w (by simp [hw])))
      simp only [resolveValues, ho, valueRule, has, hrs]
      rfl
  obtain ⟨rs, hrs⟩ := Option.isSome_iff_exists.mp hvs
  simp only [resolve, hrs]
  rfl

end Verif.EnumMap
