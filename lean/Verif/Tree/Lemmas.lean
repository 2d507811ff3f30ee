import Verif.Tree.Model

/-! Lemmas on the widths, the indents and the lines of the tree of dependencies. -/

namespace Verif.Tree

/-! ### The map of widths -/

theorem get?_cons (k v : Nat) (m : Lens) (d : Nat) :
    Lens.get? ((k, v) :: m) d = if k = d then some v else m.get? d := by
  unfold Lens.get?
  simp only [List.find?_cons]
  by_cases h : k = d
  · subst h; simp
  · have hb : (k == d) = false := by simp [h]
    simp [hb, h]

theorem get_cons (k v : Nat) (m : Lens) (d : Nat) :
    Lens.get ((k, v) :: m) d = if k = d then v else m.get d := by
  unfold Lens.get
  rw [get?_cons]
  by_cases h : k = d <;> simp [h]

/-- A key is in the map. -/
def Has (m : Lens) (d : Nat) : Prop := m.get? d ≠ none

theorem has_cons (k v : Nat) (m : Lens) (d : Nat) : Has ((k, v) :: m) d ↔ k = d ∨ Has m d := by
  unfold Has
  rw [get?_cons]
  by_cases h : k = d <;> simp [h]

theorem has_of_get {m : Lens} {d : Nat} (h : 0 < m.get d) : Has m d := by
  intro hn
  unfold Lens.get at h
  rw [hn] at h
  simp at h

mutual
theorem setMax_mono (g : Group) (d : Nat) (m : Lens) :
    (∀ k, m.get k ≤ (g.setMax d m).get k) ∧ (∀ k, Has m k → Has (g.setMax d m) k) := by
  cases g with
  | mk starts name =>
    have ih := setMaxAll_mono starts (d + 1) m
    simp only [Group.setMax]
    split
    · rename_i hlt
      refine ⟨fun k => ?_, fun k hk => (has_cons _ _ _ _).2 (Or.inr (ih.2 k hk))⟩
      rw [get_cons]
      have := ih.1 k
      by_cases hk : d = k
      · subst hk; simp; omega
      · simp [hk]; exact this
    · exact ih
theorem setMaxAll_mono (gs : List Group) (d : Nat) (m : Lens) :
    (∀ k, m.get k ≤ (setMaxAll d gs m).get k) ∧ (∀ k, Has m k → Has (setMaxAll d gs m) k) := by
  cases gs with
  | nil => simp [setMaxAll]
  | cons g gs =>
    have h1 := setMax_mono g d m
    have h2 := setMaxAll_mono gs d (g.setMax d m)
    simp only [setMaxAll]
    exact ⟨fun k => Nat.le_trans (h1.1 k) (h2.1 k), fun k hk => h2.2 k (h1.2 k hk)⟩
end

mutual
/-- Every name is within the width of its depth, and is not empty. -/
def Group.fits (m : Lens) (d : Nat) : Group → Prop
  | .mk starts name => name ≠ [] ∧ name.length ≤ m.get d ∧ fitsAll m (d + 1) starts
def fitsAll (m : Lens) (d : Nat) : List Group → Prop
  | [] => True
  | g :: gs => g.fits m d ∧ fitsAll m d gs
end

mutual
def Group.named : Group → Prop
  | .mk starts name => name ≠ [] ∧ namedAll starts
def namedAll : List Group → Prop
  | [] => True
  | g :: gs => g.named ∧ namedAll gs
end

mutual
theorem fits_mono (g : Group) (d : Nat) {m m' : Lens} (h : ∀ k, m.get k ≤ m'.get k) (hf : g.fits m d) :
    g.fits m' d := by
  cases g with
  | mk starts name =>
    simp only [Group.fits] at hf ⊢
    exact ⟨hf.1, Nat.le_trans hf.2.1 (h d), fitsAll_mono starts (d + 1) h hf.2.2⟩
theorem fitsAll_mono (gs : List Group) (d : Nat) {m m' : Lens} (h : ∀ k, m.get k ≤ m'.get k)
    (hf : fitsAll m d gs) : fitsAll m' d gs := by
  cases gs with
  | nil => simp [fitsAll]
  | cons g gs =>
    simp only [fitsAll] at hf ⊢
    exact ⟨fits_mono g d h hf.1, fitsAll_mono gs d h hf.2⟩
end

mutual
theorem setMax_fits (g : Group) (d : Nat) (m : Lens) (hn : g.named) : g.fits (g.setMax d m) d := by
  cases g with
  | mk starts name =>
    have hn' := hn
    simp only [Group.named] at hn
    have ih := setMaxAll_fits starts (d + 1) m hn.2
    simp only [Group.setMax, Group.fits]
    split
    · rename_i hlt
      refine ⟨hn.1, by rw [get_cons]; simp, fitsAll_mono _ _ (fun k => ?_) ih⟩
      rw [get_cons]
      by_cases hk : d = k
      · subst hk; simp; omega
      · simp [hk]
    · rename_i hge
      exact ⟨hn.1, by omega, ih⟩
theorem setMaxAll_fits (gs : List Group) (d : Nat) (m : Lens) (hn : namedAll gs) :
    fitsAll (setMaxAll d gs m) d gs := by
  cases gs with
  | nil => simp [fitsAll]
  | cons g gs =>
    simp only [namedAll] at hn
    simp only [setMaxAll, fitsAll]
    exact ⟨fits_mono g d (setMaxAll_mono gs d _).1 (setMax_fits g d m hn.1), setMaxAll_fits gs d _ hn.2⟩
end

mutual
theorem setMax_keys (g : Group) (d : Nat) (m : Lens) (hn : g.named) (k : Nat) (hk : Has (g.setMax d m) k) :
    Has m k ∨ (d ≤ k ∧ ∀ j, d ≤ j → j ≤ k → Has (g.setMax d m) j) := by
  cases g with
  | mk starts name =>
    have hfit := setMax_fits (.mk starts name) d m hn
    have hd : Has ((Group.mk starts name).setMax d m) d := by
      apply has_of_get
      simp only [Group.fits] at hfit
      have := List.length_pos_iff.2 hfit.1
      omega
    simp only [Group.named] at hn
    have hsub : ∀ j, Has (setMaxAll (d + 1) starts m) j → Has ((Group.mk starts name).setMax d m) j := by
      intro j hj
      simp only [Group.setMax]
      split
      · exact (has_cons _ _ _ _).2 (Or.inr hj)
      · exact hj
    have hk' : k = d ∨ Has (setMaxAll (d + 1) starts m) k := by
      simp only [Group.setMax] at hk
      split at hk
      · rcases (has_cons _ _ _ _).1 hk with h | h
        · exact Or.inl h.symm
        · exact Or.inr h
      · exact Or.inr hk
    rcases hk' with rfl | hk'
    · refine Or.inr ⟨Nat.le_refl _, fun j h1 h2 => ?_⟩
      rw [show j = k by omega]; exact hd
    · rcases setMaxAll_keys starts (d + 1) m hn.2 k hk' with h | h
      · exact Or.inl h
      · refine Or.inr ⟨by omega, fun j h1 h2 => ?_⟩
        by_cases hj : j = d
        · rw [hj]; exact hd
        · exact hsub j (h.2 j (by omega) h2)
theorem setMaxAll_keys (gs : List Group) (d : Nat) (m : Lens) (hn : namedAll gs) (k : Nat)
    (hk : Has (setMaxAll d gs m) k) :
    Has m k ∨ (d ≤ k ∧ ∀ j, d ≤ j → j ≤ k → Has (setMaxAll d gs m) j) := by
  cases gs with
  | nil => exact Or.inl (by simpa [setMaxAll] using hk)
  | cons g gs =>
    simp only [namedAll] at hn
    simp only [setMaxAll] at hk ⊢
    rcases setMaxAll_keys gs d _ hn.2 k hk with h | h
    · rcases setMax_keys g d m hn.1 k h with h | h
      · exact Or.inl h
      · exact Or.inr ⟨h.1, fun j h1 h2 => (setMaxAll_mono gs d _).2 j (h.2 j h1 h2)⟩
    · exact Or.inr h
end

theorem foldl_max_ge (m : List (Nat × Nat)) (a : Nat) :
    a ≤ m.foldl (fun a p => if a < p.1 then p.1 else a) a ∧
      ∀ p ∈ m, p.1 ≤ m.foldl (fun a p => if a < p.1 then p.1 else a) a := by
  induction m generalizing a with
  | nil => simp
  | cons q m ih =>
    simp only [List.foldl_cons]
    have h := ih (if a < q.1 then q.1 else a)
    have hq : a ≤ (if a < q.1 then q.1 else a) ∧ q.1 ≤ (if a < q.1 then q.1 else a) := by
      split <;> omega
    refine ⟨Nat.le_trans hq.1 h.1, fun p hp => ?_⟩
    rcases List.mem_cons.1 hp with rfl | hp
    · exact Nat.le_trans hq.2 h.1
    · exact h.2 p hp

theorem foldl_max_mem (m : List (Nat × Nat)) (a : Nat) :
    m.foldl (fun a p => if a < p.1 then p.1 else a) a = a ∨
      ∃ p ∈ m, m.foldl (fun a p => if a < p.1 then p.1 else a) a = p.1 := by
  induction m generalizing a with
  | nil => simp
  | cons q m ih =>
    simp only [List.foldl_cons]
    rcases ih (if a < q.1 then q.1 else a) with h | ⟨p, hp, h⟩
    · rw [h]
      split
      · exact Or.inr ⟨q, by simp, rfl⟩
      · exact Or.inl rfl
    · exact Or.inr ⟨p, by simp [hp], h⟩

theorem has_iff_mem (m : Lens) (d : Nat) : Has m d ↔ ∃ p ∈ m, p.1 = d := by
  induction m with
  | nil => simp [Has, Lens.get?]
  | cons q m ih =>
    rw [show q = (q.1, q.2) from rfl, has_cons, ih]
    simp

theorem has_le_maxDepth {m : Lens} {d : Nat} (h : Has m d) : d ≤ maxDepth m := by
  obtain ⟨p, hp, rfl⟩ := (has_iff_mem m d).1 h
  exact (foldl_max_ge m 0).2 p hp

theorem has_maxDepth {m : Lens} (h : Has m 0) : Has m (maxDepth m) := by
  rcases foldl_max_mem m 0 with h' | ⟨p, hp, h'⟩
  · rw [show maxDepth m = 0 from h']; exact h
  · exact (has_iff_mem m _).2 ⟨p, hp, h'.symm⟩

/-- Every depth up to the greatest has a width. -/
def Full (m : Lens) : Prop := ∀ d, d ≤ maxDepth m → Has m d

theorem full_setMaxAll (gs : List Group) (hn : namedAll gs) : Full (setMaxAll 1 gs [(0, 0)]) := by
  have h0 : Has (setMaxAll 1 gs [(0, 0)]) 0 := (setMaxAll_mono gs 1 _).2 0 (by simp [Has, Lens.get?])
  intro d hd
  by_cases hz : d = 0
  · rw [hz]; exact h0
  rcases setMaxAll_keys gs 1 [(0, 0)] hn _ (has_maxDepth h0) with h | h
  · have : maxDepth (setMaxAll 1 gs [(0, 0)]) = 0 := by
      rcases (has_cons _ _ _ _).1 h with h | h
      · exact h.symm
      · exact absurd rfl h
    omega
  · exact h.2 d (by omega) hd

/-! ### Indents -/

theorem total_past {m : Lens} {d f : Nat} (h : maxDepth m < d) : total m f d = 0 := by
  cases f with
  | zero => rfl
  | succ f =>
    unfold total
    cases hg : m.get? d with
    | none => rfl
    | some l =>
      have := has_le_maxDepth (m := m) (d := d) (by unfold Has; rw [hg]; simp)
      omega

theorem total_fuel {m : Lens} (f : Nat) (d : Nat) (h : maxDepth m + 1 ≤ f + d) :
    total m (f + 1) d = total m f d := by
  induction f generalizing d with
  | zero => rw [total_past (by omega)]; rfl
  | succ f ih =>
    conv => lhs; unfold total
    conv => rhs; unfold total
    cases m.get? d with
    | none => rfl
    | some l => simp only [ih (d + 1) (by omega)]

theorem indent_succ {m : Lens} (hf : Full m) {d : Nat} (h : d < maxDepth m) :
    indent m d = indent m (d + 1) + m.get (d + 1) + 2 := by
  have h1 := hf d (by omega)
  have h2 := hf (d + 1) (by omega)
  unfold Has at h1 h2
  obtain ⟨v1, hv1⟩ := Option.ne_none_iff_exists'.1 h1
  obtain ⟨v2, hv2⟩ := Option.ne_none_iff_exists'.1 h2
  have hget : m.get (d + 1) = v2 := by unfold Lens.get; rw [hv2]; rfl
  unfold indent
  simp only [hv1, hv2]
  have ht : total m (maxDepth m + 1) (d + 1) = v2 + total m (maxDepth m) (d + 1 + 1) := by
    conv => lhs; unfold total
    simp only [hv2]
  rw [ht, hget, total_fuel _ _ (by omega)]
  unfold lineSpace
  omega

theorem indent_lt {m : Lens} (hf : Full m) {d d' : Nat} (h : d < d') (h' : d' ≤ maxDepth m) :
    indent m d' < indent m d := by
  induction d' with
  | zero => omega
  | succ k ih =>
    have hk := indent_succ hf (d := k) (by omega)
    by_cases hd : d = k
    · subst hd; omega
    · have := ih (by omega) (by omega); omega

/-! ### Bars -/

theorem sortInts_asc (l : List Nat) (h : l.Pairwise (· < ·)) : sortInts l = l := by
  induction l with
  | nil => rfl
  | cons x l ih =>
    rw [List.pairwise_cons] at h
    unfold sortInts
    rw [ih h.2]
    cases l with
    | nil => rfl
    | cons y l =>
      unfold insertInt
      rw [if_pos (Nat.le_of_lt (h.1 y (by simp)))]

theorem bars_get (xs : List Nat) (p : Nat) (h : xs.Pairwise (· < ·)) (hp : ∀ x ∈ xs, p < x) (k : Nat) :
    (bars p xs)[k]? = if p + 1 + k ∈ xs then some '│' else if ∃ x ∈ xs, p + 1 + k < x then some ' ' else none := by
  induction xs generalizing p k with
  | nil => simp [bars]
  | cons x xs ih =>
    rw [List.pairwise_cons] at h
    have hx := hp x (by simp)
    unfold bars
    rw [if_neg (by omega)]
    by_cases hk : k < x - p - 1
    · rw [List.getElem?_append_left (by simpa using hk)]
      have hn : p + 1 + k ∉ x :: xs := by
        intro hm
        rcases List.mem_cons.1 hm with hm | hm
        · omega
        · have := h.1 _ hm; omega
      rw [if_neg hn, if_pos ⟨x, by simp, by omega⟩]
      simp [hk]
    · rw [List.getElem?_append_right (by simpa using (by omega : x - p - 1 ≤ k))]
      simp only [List.length_replicate]
      by_cases hk0 : k - (x - p - 1) = 0
      · rw [hk0]
        have : p + 1 + k = x := by omega
        rw [this]; simp
      · obtain ⟨j, hj⟩ : ∃ j, k - (x - p - 1) = j + 1 := ⟨k - (x - p - 1) - 1, by omega⟩
        rw [hj, List.getElem?_cons_succ, ih x h.2 h.1 j, show p + 1 + k = x + 1 + j by omega]
        have e1 : (x + 1 + j ∈ x :: xs) ↔ x + 1 + j ∈ xs := by
          rw [List.mem_cons]
          constructor
          · rintro (h | h)
            · omega
            · exact h
          · exact Or.inr
        have e2 : (∃ y ∈ x :: xs, x + 1 + j < y) ↔ ∃ y ∈ xs, x + 1 + j < y := by
          constructor
          · rintro ⟨y, hy, hlt⟩
            rcases List.mem_cons.1 hy with rfl | hy
            · omega
            · exact ⟨y, hy, hlt⟩
          · rintro ⟨y, hy, hlt⟩; exact ⟨y, by simp [hy], hlt⟩
        simp only [e1, e2]

end Verif.Tree
