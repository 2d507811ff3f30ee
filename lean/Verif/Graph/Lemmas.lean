import Verif.Graph.Spec

namespace Verif.Graph

theorem mem_push {f : Nat → List Nat} {i x j y : Nat} :
    y ∈ push f i x j ↔ y ∈ f j ∨ (j = i ∧ y = x) := by
  unfold push
  by_cases h : j = i
  · subst h
    by_cases hx : x ∈ f j
    · simp only [if_true, hx]
      constructor
      · exact Or.inl
      · rintro (h | ⟨_, rfl⟩) <;> assumption
    · simp [hx]
  · simp [h]

theorem nodup_push {f : Nat → List Nat} (hf : ∀ j, (f j).Nodup) (i x : Nat) :
    ∀ j, (push f i x j).Nodup := by
  intro j
  unfold push
  by_cases h : j = i
  · subst h
    by_cases hx : x ∈ f j
    · simp [hx, hf j]
    · simp only [if_true, hx, if_false]
      rw [List.nodup_append]
      refine ⟨hf j, by simp, ?_⟩
      intro a ha b hb
      simp at hb
      rintro rfl
      exact hx (hb ▸ ha)
  · simp [h, hf j]

/-- The two directions of the adjacency agree and have no repetition. -/
structure Ok (g : Adj) : Prop where
  symm : ∀ a b, b ∈ g.ch a ↔ a ∈ g.pa b
  ndch : ∀ a, (g.ch a).Nodup
  ndpa : ∀ a, (g.pa a).Nodup

theorem ok_empty : Ok Adj.empty := ⟨by simp [Adj.empty], by simp [Adj.empty], by simp [Adj.empty]⟩

theorem ok_addEdge {g : Adj} (h : Ok g) (a b : Nat) : Ok (addEdge g a b) := by
  refine ⟨?_, nodup_push h.ndch _ _, nodup_push h.ndpa _ _⟩
  intro x y
  simp only [addEdge, mem_push, h.symm x y]
  constructor <;> rintro (h | ⟨h1, h2⟩) <;> simp [*]

theorem mem_addEdge {g : Adj} {a b x y : Nat} :
    y ∈ (addEdge g a b).ch x ↔ y ∈ g.ch x ∨ (x = a ∧ y = b) := by
  simp [addEdge, mem_push]

theorem ok_addRefs {m iter i rs} {g : Adj} (h : Ok g) : Ok (addRefs m iter i rs g) := by
  induction rs generalizing g with
  | nil => exact h
  | cons r rs ih =>
    unfold addRefs
    split
    · exact ih h
    · split
      · exact ih h
      · exact ih (ok_addEdge h _ _)

theorem mem_addRefs {m iter i rs} {g : Adj} {x y : Nat} :
    y ∈ (addRefs m iter i rs g).ch x ↔
      y ∈ g.ch x ∨ (y = i ∧ ∃ r ∈ rs, r ≠ iter ∧ m r = some x) := by
  induction rs generalizing g with
  | nil => simp [addRefs]
  | cons r rs ih =>
    unfold addRefs
    split
    · rename_i hr
      rw [ih]
      simp [hr]
    · rename_i hr
      split
      · rename_i hm
        rw [ih]
        simp [hm]
      · rename_i a hm
        rw [ih, mem_addEdge]
        simp only [List.mem_cons]
        constructor
        · rintro ((h | ⟨rfl, rfl⟩) | ⟨rfl, r', h1, h2⟩)
          · exact Or.inl h
          · exact Or.inr ⟨rfl, r, Or.inl rfl, hr, hm⟩
          · exact Or.inr ⟨rfl, r', Or.inr h1, h2⟩
        · rintro (h | ⟨rfl, r', (rfl | h1), h2, h3⟩)
          · exact Or.inl (Or.inl h)
          · rw [hm] at h3
            injection h3 with h3
            exact Or.inl (Or.inr ⟨h3.symm, rfl⟩)
          · exact Or.inr ⟨rfl, r', h1, h2, h3⟩

theorem ok_byRef {ds i m} {g : Adj} (h : Ok g) : Ok (byRef ds i m g) := by
  induction ds generalizing i m g with
  | nil => exact h
  | cons d ds ih => exact ih (ok_addRefs h)

/-- Specification of the name table after the prefix `pre`. -/
def Tbl (pre : List Def) (m : String → Option Nat) : Prop :=
  ∀ s a, m s = some a ↔ ∃ da, pre[a]? = some da ∧ da.name = s ∧ s ≠ "" ∧
    ∀ c dc, a < c → pre[c]? = some dc → dc.name ≠ s

theorem tbl_nil : Tbl [] (fun _ => none) := by
  intro s a; simp

theorem tbl_snoc {pre m} (h : Tbl pre m) (d : Def) :
    Tbl (pre ++ [d]) (if d.name = "" then m else setName m d.name pre.length) := by
  intro s a
  have key : ∀ c, (pre ++ [d])[c]? = if c < pre.length then pre[c]? else
      if c = pre.length then some d else none := by
    intro c
    rw [List.getElem?_append]
    split
    · rfl
    · by_cases hc : c = pre.length
      · simp [hc]
      · rw [if_neg hc]
        have : 1 ≤ c - pre.length := by omega
        simp [List.getElem?_eq_none, this]
  by_cases hd : d.name = ""
  · rw [if_pos hd, h s a]
    constructor
    · rintro ⟨da, h1, h2, h3, h4⟩
      have ha : a < pre.length := (List.getElem?_eq_some_iff.mp h1).1
      refine ⟨da, by rw [key, if_pos ha]; exact h1, h2, h3, ?_⟩
      intro c dc hc hdc
      rw [key] at hdc
      split at hdc
      · exact h4 c dc hc hdc
      · split at hdc
        · injection hdc with e; subst e; rw [hd]; exact fun e => h3 e.symm
        · cases hdc
    · rintro ⟨da, h1, h2, h3, h4⟩
      rw [key] at h1
      split at h1
      · refine ⟨da, h1, h2, h3, ?_⟩
        intro c dc hc hdc
        refine h4 c dc hc ?_
        have : c < pre.length := (List.getElem?_eq_some_iff.mp hdc).1
        rw [key, if_pos this]; exact hdc
      · split at h1
        · injection h1 with e; subst e; exact absurd (h2.symm.trans hd) h3
        · cases h1
  · rw [if_neg hd]
    unfold setName
    by_cases hs : s = d.name
    · subst hs
      simp only [if_true]
      constructor
      · intro e
        injection e with e; subst e
        refine ⟨d, by rw [key]; simp, rfl, hd, ?_⟩
        intro c dc hc hdc
        rw [key] at hdc
        rw [if_neg (by omega), if_neg (by omega)] at hdc
        cases hdc
      · rintro ⟨da, h1, h2, h3, h4⟩
        by_cases ha : a < pre.length
        · exact absurd rfl (h4 pre.length d ha (by rw [key]; simp))
        · rw [key, if_neg ha] at h1
          split at h1
          · rename_i e; rw [e]
          · cases h1
    · rw [if_neg hs, h s a]
      constructor
      · rintro ⟨da, h1, h2, h3, h4⟩
        have ha : a < pre.length := (List.getElem?_eq_some_iff.mp h1).1
        refine ⟨da, by rw [key, if_pos ha]; exact h1, h2, h3, ?_⟩
        intro c dc hc hdc
        rw [key] at hdc
        split at hdc
        · exact h4 c dc hc hdc
        · split at hdc
          · injection hdc with e; subst e; exact fun e => hs e.symm
          · cases hdc
      · rintro ⟨da, h1, h2, h3, h4⟩
        rw [key] at h1
        split at h1
        · refine ⟨da, h1, h2, h3, ?_⟩
          intro c dc hc hdc
          refine h4 c dc hc ?_
          have : c < pre.length := (List.getElem?_eq_some_iff.mp hdc).1
          rw [key, if_pos this]; exact hdc
        · split at h1
          · injection h1 with e; subst e; exact absurd h2.symm hs
          · cases h1

theorem mem_byRef {ds pre m} {g : Adj} (hm : Tbl pre m) {x y : Nat} :
    y ∈ (byRef ds pre.length m g).ch x ↔
      y ∈ g.ch x ∨ (pre.length ≤ y ∧ RefersTo (pre ++ ds) y x) := by
  induction ds generalizing pre m g with
  | nil =>
    simp only [byRef, List.append_nil]
    constructor
    · exact Or.inl
    · rintro (h | ⟨h1, da, db, h2, h3, h4⟩)
      · exact h
      · have := (List.getElem?_eq_some_iff.mp h3).1
        omega
  | cons d ds ih =>
    unfold byRef
    have ht := tbl_snoc hm d
    have := ih (g := addRefs (if d.name = "" then m else setName m d.name pre.length) d.iter
      pre.length d.refs g) ht
    simp only [List.length_append, List.length_cons, List.length_nil, Nat.zero_add,
      List.append_assoc, List.singleton_append] at this
    simp only
    rw [this, mem_addRefs]
    have hget : (pre ++ d :: ds)[pre.length]? = some d := by simp
    constructor
    · rintro ((h | ⟨rfl, r, h1, h2, h3⟩) | ⟨h1, h2⟩)
      · exact Or.inl h
      · right
        refine ⟨Nat.le_refl _, ?_⟩
        rw [ht] at h3
        obtain ⟨da, e1, e2, e3, e4⟩ := h3
        have hx : x < pre.length + 1 := by
          have := (List.getElem?_eq_some_iff.mp e1).1
          simpa using this
        have conv : ∀ c, c < pre.length + 1 → (pre ++ [d])[c]? = (pre ++ d :: ds)[c]? := by
          intro c hc
          have : pre ++ d :: ds = (pre ++ [d]) ++ ds := by simp
          rw [this, List.getElem?_append_left (l₁ := pre ++ [d]) (by simpa using hc)]
        refine ⟨da, d, by rw [← conv x hx]; exact e1, hget, by omega, by rw [e2]; exact e3,
          by rw [e2]; exact h1, by rw [e2]; exact h2, ?_⟩
        intro c dc hc1 hc2 hc3
        rw [e2]
        exact e4 c dc hc1 (by rw [conv c (by omega)]; exact hc3)
      · exact Or.inr ⟨by omega, h2⟩
    · rintro (h | ⟨h1, h2⟩)
      · exact Or.inl (Or.inl h)
      · by_cases hy : y = pre.length
        · subst hy
          left; right
          refine ⟨rfl, ?_⟩
          obtain ⟨da, db, e1, e2, e3, e4, e5, e6, e7⟩ := h2
          rw [hget] at e2
          injection e2 with e2; subst e2
          refine ⟨da.name, e5, e6, ?_⟩
          rw [ht]
          have conv : ∀ c, c < pre.length + 1 → (pre ++ [d])[c]? = (pre ++ d :: ds)[c]? := by
            intro c hc
            have : pre ++ d :: ds = (pre ++ [d]) ++ ds := by simp
            rw [this, List.getElem?_append_left (l₁ := pre ++ [d]) (by simpa using hc)]
          refine ⟨da, by rw [conv x (by omega)]; exact e1, rfl, e4, ?_⟩
          intro c dc hc1 hc2
          have hc : c < pre.length + 1 := by
            have := (List.getElem?_eq_some_iff.mp hc2).1
            simpa using this
          exact e7 c dc hc1 (by omega) (by rw [← conv c hc]; exact hc2)
        · right
          exact ⟨by omega, h2⟩

theorem ok_addFrom {v i k} {g : Adj} (h : Ok g) : Ok (addFrom v i k g) := by
  induction k generalizing i g with
  | zero => exact h
  | succ k ih => exact ih (ok_addEdge h _ _)

theorem mem_addFrom {v i k} {g : Adj} {x y : Nat} :
    y ∈ (addFrom v i k g).ch x ↔ y ∈ g.ch x ∨ (x = v ∧ i ≤ y ∧ y < i + k) := by
  induction k generalizing i g with
  | zero => simp [addFrom]; omega
  | succ k ih =>
    unfold addFrom
    rw [ih, mem_addEdge]
    constructor
    · rintro ((h | ⟨h1, h2⟩) | ⟨h1, h2, h3⟩)
      · exact Or.inl h
      · exact Or.inr ⟨h1, by omega, by omega⟩
      · exact Or.inr ⟨h1, by omega, by omega⟩
    · rintro (h | ⟨h1, h2, h3⟩)
      · exact Or.inl (Or.inl h)
      · by_cases hy : y = i
        · exact Or.inl (Or.inr ⟨h1, hy⟩)
        · exact Or.inr ⟨h1, by omega, by omega⟩

theorem ok_firstValidation {ds i} {g : Adj} (h : Ok g) : Ok (firstValidation ds i g) := by
  induction ds generalizing i g with
  | nil => exact h
  | cons d ds ih =>
    unfold firstValidation
    split
    · exact ok_addFrom h
    · exact ih h

theorem ok_byValidation {ds i} {g : Adj} (h : Ok g) : Ok (byValidation ds i g) := by
  induction ds generalizing i g with
  | nil => exact h
  | cons d ds ih => exact ih (ok_firstValidation h)

/-- Edges added by `firstValidation` come from a validation of the suffix to a later node. -/
theorem firstValidation_sound {ds i} {g : Adj} {x y : Nat}
    (h : y ∈ (firstValidation ds i g).ch x) :
    y ∈ g.ch x ∨ (i ≤ x ∧ x < y ∧ y < i + ds.length ∧
      ∃ d, ds[x - i]? = some d ∧ d.isValidation = true) := by
  induction ds generalizing i g with
  | nil => exact Or.inl h
  | cons d ds ih =>
    unfold firstValidation at h
    split at h
    · rename_i hv
      rw [mem_addFrom] at h
      rcases h with h | ⟨rfl, h2, h3⟩
      · exact Or.inl h
      · exact Or.inr ⟨Nat.le_refl _, by omega, by simp; omega, d, by simp, hv⟩
    · rcases ih h with h | ⟨h1, h2, h3, d', h4, h5⟩
      · exact Or.inl h
      · refine Or.inr ⟨by omega, h2, by simp; omega, d', ?_, h5⟩
        have : x - i = (x - (i + 1)) + 1 := by omega
        rw [this]; simpa using h4

theorem firstValidation_mono {ds i} {g : Adj} {x y : Nat} (h : y ∈ g.ch x) :
    y ∈ (firstValidation ds i g).ch x := by
  induction ds generalizing i g with
  | nil => exact h
  | cons d ds ih =>
    unfold firstValidation
    split
    · rw [mem_addFrom]; exact Or.inl h
    · exact ih h

theorem byValidation_mono {ds i} {g : Adj} {x y : Nat} (h : y ∈ g.ch x) :
    y ∈ (byValidation ds i g).ch x := by
  induction ds generalizing i g with
  | nil => exact h
  | cons d ds ih => exact ih (firstValidation_mono h)

theorem mem_byValidation {ds i} {g : Adj} {x y : Nat} :
    y ∈ (byValidation ds i g).ch x ↔ y ∈ g.ch x ∨ (i ≤ x ∧ x < y ∧ y < i + ds.length ∧
      ∃ d, ds[x - i]? = some d ∧ d.isValidation = true) := by
  constructor
  · intro h
    induction ds generalizing i g with
    | nil => exact Or.inl h
    | cons d ds ih =>
      unfold byValidation at h
      rcases ih h with h | ⟨h1, h2, h3, d', h4, h5⟩
      · exact firstValidation_sound h
      · refine Or.inr ⟨by omega, h2, by simp; omega, d', ?_, h5⟩
        have : x - i = (x - (i + 1)) + 1 := by omega
        rw [this]; simpa using h4
  · rintro (h | ⟨h1, h2, h3, d', h4, h5⟩)
    · exact byValidation_mono h
    · induction ds generalizing i g with
      | nil => simp at h4
      | cons d ds ih =>
        unfold byValidation
        by_cases hx : x = i
        · subst hx
          simp at h4; subst h4
          apply byValidation_mono
          unfold firstValidation
          rw [if_pos h5, mem_addFrom]
          right
          simp at h3
          exact ⟨rfl, by omega, by omega⟩
        · apply ih (by omega)
          · simp at h3; omega
          · have : x - i = (x - (i + 1)) + 1 := by omega
            rw [this] at h4; simpa using h4

theorem ok_build (defs : List Def) : Ok (build defs) :=
  ok_byValidation (ok_byRef ok_empty)

theorem mem_build (defs : List Def) (a b : Nat) :
    b ∈ (build defs).ch a ↔ DependsOn defs b a := by
  unfold build
  rw [mem_byValidation]
  have h := mem_byRef (ds := defs) (g := Adj.empty) tbl_nil (x := a) (y := b)
  simp only [List.length_nil, List.nil_append, Nat.zero_le, true_and] at h
  rw [h]
  have e : b ∈ Adj.empty.ch a ↔ False := by simp [Adj.empty]
  rw [e, false_or]
  unfold DependsOn ValidationBefore
  constructor
  · rintro (h | ⟨h1, h2, h3, d, h4, h5⟩)
    · exact Or.inl h
    · exact Or.inr ⟨h2, by omega, d, by simpa using h4, h5⟩
  · rintro (h | ⟨h2, h3, d, h4, h5⟩)
    · exact Or.inl h
    · exact Or.inr ⟨Nat.zero_le _, h2, by omega, d, by simpa using h4, h5⟩

theorem mem_build_pa (defs : List Def) (a b : Nat) :
    a ∈ (build defs).pa b ↔ DependsOn defs b a := by
  rw [← (ok_build defs).symm a b, mem_build]

theorem dependsOn_lt {defs : List Def} {a b : Nat} (h : DependsOn defs b a) : b < defs.length := by
  rcases h with ⟨_, _, _, h, _⟩ | h
  · exact (List.getElem?_eq_some_iff.mp h).1
  · exact h.2.1

theorem dependsOn_le {defs : List Def} {a b : Nat} (h : DependsOn defs b a) : a ≤ b := by
  rcases h with ⟨_, _, _, _, h, _⟩ | h
  · exact h
  · exact Nat.le_of_lt h.1

theorem dependsOn_strict {defs : List Def} (hs : NoSelfRef defs) {a b : Nat}
    (h : DependsOn defs b a) : a < b := by
  rcases h with ⟨da, db, h1, h2, h3, h4, h5, h6, _⟩ | h
  · refine Nat.lt_of_le_of_ne h3 ?_
    rintro rfl
    rw [h1] at h2; injection h2 with h2; subst h2
    exact h6 (hs da (List.mem_of_getElem? h1) h4 h5)
  · exact h.1

end Verif.Graph
