import Verif.Graph.Spec

namespace Verif.Graph

theorem Walk.trans {ch a b c} (h : Walk ch a b) (h' : Walk ch b c) : Walk ch a c := by
  induction h with
  | edge h => exact .cons h h'
  | cons h _ ih => exact .cons h (ih h')

theorem Walk.snoc {ch a b c} (h : Walk ch a b) (h' : c ∈ ch b) : Walk ch a c :=
  h.trans (.edge h')

/-- Pigeonhole: a list without repetition of numbers below `n` has at most `n` elements. -/
theorem length_le_of_nodup_lt : ∀ (n : Nat) (l : List Nat), l.Nodup → (∀ x ∈ l, x < n) → l.length ≤ n
  | 0, l, _, h => by
    cases l with
    | nil => simp
    | cons x xs => exact absurd (h x (by simp)) (by omega)
  | n + 1, l, hn, h => by
    have hf : (l.filter (· ≠ n)).length ≤ n := by
      apply length_le_of_nodup_lt n
      · exact hn.filter _
      · intro x hx
        simp at hx
        have := h x hx.1
        omega
    have : l.length ≤ (l.filter (· ≠ n)).length + 1 := by
      clear hf h
      induction l with
      | nil => simp
      | cons y ys ih =>
        rw [List.nodup_cons] at hn
        by_cases hy : y = n
        · subst hy
          have : ys.filter (· ≠ y) = ys := by
            rw [List.filter_eq_self]
            intro a ha
            simp
            rintro rfl
            exact hn.1 ha
          rw [List.filter_cons_of_neg (by simp), this]; simp
        · have := ih hn.2
          simp [hy]
          simpa using this
    omega

theorem firstTrue_true {f : Nat → Option Bool} {cs} (h : firstTrue f cs = some true) :
    ∃ c ∈ cs, f c = some true := by
  induction cs with
  | nil => simp [firstTrue] at h
  | cons c cs ih =>
    unfold firstTrue at h
    split at h
    · cases h
    · rename_i hc; exact ⟨c, by simp, hc⟩
    · obtain ⟨c', h1, h2⟩ := ih h
      exact ⟨c', by simp [h1], h2⟩

theorem firstTrue_false {f : Nat → Option Bool} {cs} (h : firstTrue f cs = some false) :
    ∀ c ∈ cs, f c = some false := by
  induction cs with
  | nil => simp
  | cons c cs ih =>
    unfold firstTrue at h
    split at h
    · cases h
    · cases h
    · rename_i hc
      intro c' hc'
      rcases List.mem_cons.mp hc' with rfl | h'
      · exact hc
      · exact ih h c' h'

theorem firstTrue_none {f : Nat → Option Bool} {cs} (h : firstTrue f cs = none) :
    ∃ c ∈ cs, f c = none := by
  induction cs with
  | nil => simp [firstTrue] at h
  | cons c cs ih =>
    unfold firstTrue at h
    split at h
    · rename_i hc; exact ⟨c, by simp, hc⟩
    · cases h
    · obtain ⟨c', h1, h2⟩ := ih h
      exact ⟨c', by simp [h1], h2⟩

theorem cyclic_sound {ch fuel v n} (hv : ∀ x ∈ v, Walk ch x n)
    (h : cyclic ch fuel v n = some true) : CycleFrom ch n ∨ ∃ x ∈ v, Walk ch x x := by
  induction fuel generalizing v n with
  | zero => simp [cyclic] at h
  | succ fuel ih =>
    unfold cyclic at h
    split at h
    · rename_i hn
      exact Or.inr ⟨n, hn, hv n hn⟩
    · obtain ⟨c, hc, h'⟩ := firstTrue_true h
      have := ih (v := n :: v) (n := c) (by
        intro x hx
        rcases List.mem_cons.mp hx with rfl | hx
        · exact .edge hc
        · exact (hv x hx).snoc hc) h'
      rcases this with ⟨x, hx, hw⟩ | ⟨x, hx, hw⟩
      · refine Or.inl ⟨x, Or.inr ?_, hw⟩
        rcases hx with rfl | hx
        · exact .edge hc
        · exact .cons hc hx
      · rcases List.mem_cons.mp hx with rfl | hx
        · exact Or.inl ⟨x, Or.inl rfl, hw⟩
        · exact Or.inr ⟨x, hx, hw⟩

theorem cyclic_complete {ch fuel v n} (h : cyclic ch fuel v n = some false) :
    ∀ x, (x = n ∨ Walk ch n x) → x ∉ v ∧ ¬ Walk ch x x := by
  induction fuel generalizing v n with
  | zero => simp [cyclic] at h
  | succ fuel ih =>
    unfold cyclic at h
    split at h
    · cases h
    · rename_i hn
      have hc := firstTrue_false h
      intro x hx
      rcases hx with rfl | hx
      · refine ⟨hn, ?_⟩
        intro hw
        cases hw with
        | edge hb => exact (ih (hc _ hb) x (Or.inl rfl)).1 (by simp)
        | cons hb hw => exact (ih (hc _ hb) x (Or.inr hw)).1 (by simp)
      · cases hx with
        | edge hb =>
          have := ih (hc _ hb) x (Or.inl rfl)
          exact ⟨fun h' => this.1 (by simp [h']), this.2⟩
        | cons hb hw =>
          have := ih (hc _ hb) x (Or.inr hw)
          exact ⟨fun h' => this.1 (by simp [h']), this.2⟩

theorem cyclic_total {ch N} (hN : ∀ a b, b ∈ ch a → b < N) {fuel v n}
    (hv : v.Nodup) (hlt : ∀ x ∈ v, x < N) (hn : n < N) (hf : N + 1 ≤ v.length + fuel) :
    cyclic ch fuel v n ≠ none := by
  induction fuel generalizing v n with
  | zero =>
    have := length_le_of_nodup_lt N v hv hlt
    omega
  | succ fuel ih =>
    unfold cyclic
    split
    · simp
    · rename_i hnv
      intro h
      obtain ⟨c, hc, h'⟩ := firstTrue_none h
      refine ih (v := n :: v) (n := c) (List.nodup_cons.mpr ⟨hnv, hv⟩) ?_ (hN _ _ hc) ?_ h'
      · intro x hx
        rcases List.mem_cons.mp hx with rfl | hx
        · exact hn
        · exact hlt x hx
      · simp; omega

theorem cyclicRoots_total {ch N} (hN : ∀ a b, b ∈ ch a → b < N) {rs : List Nat}
    (hr : ∀ r ∈ rs, r < N) : cyclicRoots ch (N + 1) rs ≠ none := by
  intro h
  obtain ⟨r, h1, h2⟩ := firstTrue_none h
  exact cyclic_total hN (fuel := N + 1) (v := []) (n := r) (by simp) (by simp) (hr r h1) (by simp) h2

theorem cyclicRoots_true {ch fuel} {rs : List Nat} (h : cyclicRoots ch fuel rs = some true) :
    ∃ r ∈ rs, CycleFrom ch r := by
  obtain ⟨r, h1, h2⟩ := firstTrue_true h
  rcases cyclic_sound (v := []) (by simp) h2 with h' | ⟨x, hx, _⟩
  · exact ⟨r, h1, h'⟩
  · cases hx

theorem cyclicRoots_false {ch fuel} {rs : List Nat} (h : cyclicRoots ch fuel rs = some false) :
    ∀ r ∈ rs, ¬ CycleFrom ch r := by
  intro r hr ⟨x, hx, hw⟩
  exact (cyclic_complete (firstTrue_false h r hr) x hx).2 hw

end Verif.Graph
