import Verif.Log.Model

/-! # C31: attributes of a context, C63: attributes in the output -/

namespace Verif.Log

/-- Specification: each context has its own list, starting with that of its parent. The number is the root
of the context. -/
def specStep {A} (sp : List (Nat × List A)) : Op A → List (Nat × List A)
  | .fresh => sp ++ [(sp.length, [])]
  | .child p => match sp[p]? with
    | some x => sp ++ [x]
    | none => sp
  | .add r vs => match sp[r]? with
    | some x => sp.set r (x.1, x.2 ++ vs)
    | none => sp

/-- Specification: the lists after a history. -/
def spec {A} (ops : List (Op A)) : List (Nat × List A) := ops.foldl specStep []

/-- Specification: attributes are only added to a context whose list extends that of every other context of
the same request. -/
def Linear {A} (ops : List (Op A)) : Prop :=
  ∀ pre r vs post, ops = pre ++ Op.add r vs :: post → ∀ x, (spec pre)[r]? = some x →
    ∀ (q : Nat) y, (spec pre)[q]? = some y → y.1 = x.1 → y.2 <+: x.2

structure Inv {A} (st : St A) (sp : List (Nat × List A)) : Prop where
  len : st.refs.length = sp.length
  ok : ∀ (i : Nat) s x, st.refs[i]? = some s → sp[i]? = some x →
    ∃ a, st.arrays[s.arr]? = some a ∧ s.len ≤ a.cells.length ∧ a.cells.take s.len = x.2
  fam : ∀ (i j : Nat) s t x y, st.refs[i]? = some s → st.refs[j]? = some t → sp[i]? = some x → sp[j]? = some y → s.arr = t.arr → x.1 = y.1

theorem getElem?_append_one {B} (l : List B) (b : B) (i : Nat) (x : B) :
    (l ++ [b])[i]? = some x ↔ (l[i]? = some x) ∨ (i = l.length ∧ x = b) := by
  by_cases h : i < l.length
  · rw [List.getElem?_append_left h]
    constructor
    · exact .inl
    · rintro (h' | ⟨h', _⟩)
      · exact h'
      · omega
  · have hn : l[i]? = none := List.getElem?_eq_none (by omega)
    rw [List.getElem?_append_right (by omega), hn]
    by_cases e : i = l.length
    · subst e; simp [eq_comm]
    · have : [b][i - l.length]? = none := List.getElem?_eq_none (by simp; omega)
      simp [this, e]

theorem getElem?_set' {B} (l : List B) (i j : Nat) (b x : B) (h : (l.set i b)[j]? = some x) :
    (i = j ∧ x = b) ∨ (i ≠ j ∧ l[j]? = some x) := by
  rw [List.getElem?_set] at h
  split at h
  · split at h
    · exact .inl ⟨by assumption, (Option.some.inj h).symm⟩
    · cases h
  · exact .inr ⟨by assumption, h⟩

theorem inv_init {A} : Inv (⟨[], []⟩ : St A) [] := ⟨rfl, by simp, by simp⟩

theorem lt_of_some {B} {l : List B} {i : Nat} {x : B} (h : l[i]? = some x) : i < l.length :=
  (List.getElem?_eq_some_iff.mp h).1

theorem inv_fresh {A} (grow : Nat → Nat → Nat) (st : St A) (sp : List (Nat × List A)) (h : Inv st sp) : Inv (step grow st .fresh) (specStep sp .fresh) := by
  refine ⟨by simp [step, specStep, h.len], ?_, ?_⟩
  · intro i s x hs hx
    simp only [step, specStep] at hs hx ⊢
    rw [getElem?_append_one] at hs hx
    rcases hs with hs | ⟨hi, rfl⟩
    · rcases hx with hx | ⟨hi, _⟩
      · obtain ⟨a, ha, h1, h2⟩ := h.ok i s x hs hx
        exact ⟨a, by rw [List.getElem?_append_left (lt_of_some ha)]; exact ha, h1, h2⟩
      · have := lt_of_some hs; rw [h.len] at this; omega
    · rcases hx with hx | ⟨_, rfl⟩
      · have := lt_of_some hx; rw [← h.len] at this; omega
      · exact ⟨⟨[], 0⟩, by simp, by simp, rfl⟩
  · intro i j s t x y hs ht hx hy e
    simp only [step, specStep] at hs ht hx hy
    rw [getElem?_append_one] at hs ht hx hy
    have key : ∀ (k : Nat) u z, st.refs[k]? = some u → sp[k]? = some z → u.arr < st.arrays.length := by
      intro k u z hu hz
      obtain ⟨a, ha, _⟩ := h.ok k u z hu hz
      exact lt_of_some ha
    rcases hs with hs | ⟨hi, rfl⟩ <;> rcases ht with ht | ⟨hj, rfl⟩
    · rcases hx with hx | ⟨hi, _⟩
      · rcases hy with hy | ⟨hj, _⟩
        · exact h.fam i j s t x y hs ht hx hy e
        · have := lt_of_some ht; rw [h.len] at this; omega
      · have := lt_of_some hs; rw [h.len] at this; omega
    · rcases hx with hx | ⟨hi, _⟩
      · have := key i s x hs hx; simp only at e; omega
      · have := lt_of_some hs; rw [h.len] at this; omega
    · rcases hy with hy | ⟨hj, _⟩
      · have := key j t y ht hy; simp only at e; omega
      · have := lt_of_some ht; rw [h.len] at this; omega
    · rcases hx with hx | ⟨_, rfl⟩
      · have := lt_of_some hx; rw [← h.len] at this; omega
      · rcases hy with hy | ⟨_, rfl⟩
        · have := lt_of_some hy; rw [← h.len] at this; omega
        · rfl

theorem inv_child {A} (grow : Nat → Nat → Nat) (st : St A) (sp : List (Nat × List A)) (h : Inv st sp) (p : Nat) :
    Inv (step grow st (.child p)) (specStep sp (.child p)) := by
  simp only [step, specStep]
  cases hp : st.refs[p]? with
  | none =>
    have : sp[p]? = none := by
      rw [List.getElem?_eq_none_iff] at hp ⊢; rw [← h.len]; exact hp
    rw [this]; exact h
  | some s0 =>
    have hlt : p < sp.length := by rw [← h.len]; exact lt_of_some hp
    obtain ⟨x0, hx0⟩ : ∃ x0, sp[p]? = some x0 := ⟨_, List.getElem?_eq_getElem hlt⟩
    rw [hx0]
    simp only
    have key : ∀ (i : Nat) s x, (st.refs ++ [s0])[i]? = some s → (sp ++ [x0])[i]? = some x →
        ∃ k : Nat, st.refs[k]? = some s ∧ sp[k]? = some x := by
      intro i s x hs hx
      rw [getElem?_append_one] at hs hx
      rcases hs with hs | ⟨hi, rfl⟩
      · rcases hx with hx | ⟨hi, _⟩
        · exact ⟨i, hs, hx⟩
        · have := lt_of_some hs; rw [h.len] at this; omega
      · rcases hx with hx | ⟨_, rfl⟩
        · have := lt_of_some hx; rw [← h.len] at this; omega
        · exact ⟨p, hp, hx0⟩
    refine ⟨by simp [h.len], ?_, ?_⟩
    · intro i s x hs hx
      obtain ⟨k, h1, h2⟩ := key i s x hs hx
      exact h.ok k s x h1 h2
    · intro i j s t x y hs ht hx hy e
      obtain ⟨k, h1, h2⟩ := key i s x hs hx
      obtain ⟨k', h3, h4⟩ := key j t y ht hy
      exact h.fam k k' s t x y h1 h3 h2 h4 e

theorem inv_add {A} (grow : Nat → Nat → Nat) (st : St A) (sp : List (Nat × List A)) (h : Inv st sp) (r : Nat) (vs : List A)
    (hl : ∀ x, sp[r]? = some x → ∀ (q : Nat) y, sp[q]? = some y → y.1 = x.1 → y.2 <+: x.2) :
    Inv (step grow st (.add r vs)) (specStep sp (.add r vs)) := by
  simp only [step, specStep]
  cases hr : st.refs[r]? with
  | none =>
    have : sp[r]? = none := by
      rw [List.getElem?_eq_none_iff] at hr ⊢; rw [← h.len]; exact hr
    rw [this]; exact h
  | some s0 =>
    have hlt : r < sp.length := by rw [← h.len]; exact lt_of_some hr
    obtain ⟨x0, hx0⟩ : ∃ x0, sp[r]? = some x0 := ⟨_, List.getElem?_eq_getElem hlt⟩
    obtain ⟨a0, ha0, hle0, htk0⟩ := h.ok r s0 x0 hr hx0
    simp only [hx0, ha0, appendTo]
    have hx0len : x0.2.length = s0.len := by rw [← htk0, List.length_take]; omega
    have htake : ∀ rest : List A, ((a0.cells.take s0.len ++ vs) ++ rest).take (s0.len + vs.length) = x0.2 ++ vs := by
      intro rest
      rw [htk0, List.take_left' (by simp [hx0len])]
    by_cases hc : s0.len + vs.length ≤ a0.cap
    · rw [if_pos hc]
      simp only
      refine ⟨by simp [h.len], ?_, ?_⟩
      · intro i s x hs hx
        rcases getElem?_set' _ _ _ _ _ hs with ⟨hi, rfl⟩ | ⟨hi, hs'⟩
        · rcases getElem?_set' _ _ _ _ _ hx with ⟨_, rfl⟩ | ⟨hi', _⟩
          · refine ⟨_, List.getElem?_set_self (lt_of_some ha0), ?_, htake _⟩
            simp only [List.length_append, List.length_take]
            omega
          · exact absurd hi hi'
        · rcases getElem?_set' _ _ _ _ _ hx with ⟨hi', _⟩ | ⟨_, hx'⟩
          · exact absurd hi' hi
          · obtain ⟨a, ha, h1, h2⟩ := h.ok i s x hs' hx'
            by_cases ea : s0.arr = s.arr
            · have eaa : a = a0 := by rw [← ea, ha0] at ha; exact (Option.some.inj ha).symm
              subst eaa
              have hfam := h.fam i r s s0 x x0 hs' hr hx' hx0 ea.symm
              have hpre := hl x0 hx0 i x hx' hfam
              have hxlen : x.2.length = s.len := by rw [← h2, List.length_take]; omega
              have hle : s.len ≤ s0.len := by rw [← hxlen, ← hx0len]; exact hpre.length_le
              refine ⟨_, by rw [← ea]; exact List.getElem?_set_self (lt_of_some ha0), ?_, ?_⟩
              · simp only [List.length_append, List.length_take]
                omega
              · simp only [List.append_assoc]
                rw [List.take_append_of_le_length (by rw [List.length_take]; omega), List.take_take, Nat.min_eq_left hle]
                exact h2
            · exact ⟨a, by rw [List.getElem?_set_ne ea]; exact ha, h1, h2⟩
      · intro i j s t x y hs ht hx hy e
        have key : ∀ (i : Nat) s x, (st.refs.set r { s0 with len := s0.len + vs.length })[i]? = some s → (sp.set r (x0.1, x0.2 ++ vs))[i]? = some x →
            ∃ s1 x1, st.refs[i]? = some s1 ∧ sp[i]? = some x1 ∧ s1.arr = s.arr ∧ x1.1 = x.1 := by
          intro i s x hs hx
          rcases getElem?_set' _ _ _ _ _ hs with ⟨hi, rfl⟩ | ⟨hi, hs'⟩
          · rcases getElem?_set' _ _ _ _ _ hx with ⟨_, rfl⟩ | ⟨hi', _⟩
            · subst hi; exact ⟨s0, x0, hr, hx0, rfl, rfl⟩
            · exact absurd hi hi'
          · rcases getElem?_set' _ _ _ _ _ hx with ⟨hi', _⟩ | ⟨_, hx'⟩
            · exact absurd hi' hi
            · exact ⟨s, x, hs', hx', rfl, rfl⟩
        obtain ⟨s1, x1, a1, a2, a3, a4⟩ := key i s x hs hx
        obtain ⟨t1, y1, b1, b2, b3, b4⟩ := key j t y ht hy
        rw [← a4, ← b4]
        exact h.fam i j s1 t1 x1 y1 a1 b1 a2 b2 (by rw [a3, b3]; exact e)
    · rw [if_neg hc]
      simp only
      refine ⟨by simp [h.len], ?_, ?_⟩
      · intro i s x hs hx
        rcases getElem?_set' _ _ _ _ _ hs with ⟨hi, rfl⟩ | ⟨hi, hs'⟩
        · rcases getElem?_set' _ _ _ _ _ hx with ⟨_, rfl⟩ | ⟨hi', _⟩
          · refine ⟨_, (getElem?_append_one _ _ _ _).mpr (.inr ⟨rfl, rfl⟩), ?_, ?_⟩
            · simp only [List.length_append, List.length_take]
              omega
            · have := htake []
              rwa [List.append_nil] at this
          · exact absurd hi hi'
        · rcases getElem?_set' _ _ _ _ _ hx with ⟨hi', _⟩ | ⟨_, hx'⟩
          · exact absurd hi' hi
          · obtain ⟨a, ha, h1, h2⟩ := h.ok i s x hs' hx'
            exact ⟨a, by rw [List.getElem?_append_left (lt_of_some ha)]; exact ha, h1, h2⟩
      · intro i j s t x y hs ht hx hy e
        have key : ∀ (k : Nat) u z, st.refs[k]? = some u → sp[k]? = some z → u.arr < st.arrays.length := by
          intro k u z hu hz
          obtain ⟨a, ha, _⟩ := h.ok k u z hu hz
          exact lt_of_some ha
        rcases getElem?_set' _ _ _ _ _ hs with ⟨hi, rfl⟩ | ⟨hi, hs'⟩ <;> rcases getElem?_set' _ _ _ _ _ ht with ⟨hj, rfl⟩ | ⟨hj, ht'⟩
        · rcases getElem?_set' _ _ _ _ _ hx with ⟨_, rfl⟩ | ⟨hi', _⟩
          · rcases getElem?_set' _ _ _ _ _ hy with ⟨_, rfl⟩ | ⟨hj', _⟩
            · rfl
            · exact absurd hj hj'
          · exact absurd hi hi'
        · rcases getElem?_set' _ _ _ _ _ hy with ⟨hj', _⟩ | ⟨_, hy'⟩
          · exact absurd hj' hj
          · have := key j t y ht' hy'; simp only at e; omega
        · rcases getElem?_set' _ _ _ _ _ hx with ⟨hi', _⟩ | ⟨_, hx'⟩
          · exact absurd hi' hi
          · have := key i s x hs' hx'; simp only at e; omega
        · rcases getElem?_set' _ _ _ _ _ hx with ⟨hi', _⟩ | ⟨_, hx'⟩
          · exact absurd hi' hi
          · rcases getElem?_set' _ _ _ _ _ hy with ⟨hj', _⟩ | ⟨_, hy'⟩
            · exact absurd hj' hj
            · exact h.fam i j s t x y hs' ht' hx' hy' e

theorem inv_run {A} (grow : Nat → Nat → Nat) (post pre : List (Op A)) (st : St A) (h : Inv st (spec pre))
    (hl : Linear (pre ++ post)) :
    Inv (run grow st post) (spec (pre ++ post)) := by
  induction post generalizing pre st with
  | nil => simpa [run] using h
  | cons o os ih =>
    have e : spec (pre ++ [o]) = specStep (spec pre) o := by simp [spec]
    have e2 : pre ++ o :: os = pre ++ [o] ++ os := by simp
    rw [e2]
    apply ih (pre ++ [o]) (step grow st o)
    · rw [e]
      cases o with
      | fresh => exact inv_fresh grow st _ h
      | child p => exact inv_child grow st _ h p
      | add r vs => exact inv_add grow st _ h r vs (fun x hx q y hy hxy => hl pre r vs os rfl x hx q y hy hxy)
    · rw [← e2]; exact hl

/-- C31 (partial: attributes are only added to the context with the longest list): every context has the
attributes of its parent at its creation followed by all attributes added to it, in order, however the
runtime chooses capacities. -/
theorem C31_linear_partial {A} (grow : Nat → Nat → Nat) (ops : List (Op A)) (hl : Linear ops) (r : Nat) :
    read (run grow ⟨[], []⟩ ops) r = ((spec ops)[r]?).map (·.2) := by
  have h := inv_run grow ops [] ⟨[], []⟩ inv_init (by simpa using hl)
  rw [List.nil_append] at h
  generalize run grow ⟨[], []⟩ ops = st at h
  unfold read
  cases hr : st.refs[r]? with
  | none =>
    have : (spec ops)[r]? = none := by
      rw [List.getElem?_eq_none_iff] at hr ⊢; rw [← h.len]; exact hr
    rw [this]; rfl
  | some s =>
    have hlt : r < (spec ops).length := by rw [← h.len]; exact lt_of_some hr
    obtain ⟨x, hx⟩ : ∃ x, (spec ops)[r]? = some x := ⟨_, List.getElem?_eq_getElem hlt⟩
    obtain ⟨a, ha, _, h2⟩ := h.ok r s x hr hx
    rw [hx]
    simp only [ha, Option.map_some, h2]

/-- The history of two messages of a request that had three attributes when they started; each adds its
own. -/
def siblings : List (Op String) :=
  [.fresh, .add 0 ["a"], .add 0 ["b"], .add 0 ["c"], .child 0, .child 0, .add 1 ["x"], .add 2 ["y"]]

/-- C31 is false of the code: the attribute of the second message replaces that of the first. -/
theorem C31_siblings_false :
    (spec siblings)[1]? = some (0, ["a", "b", "c", "x"]) ∧ read (run goGrow ⟨[], []⟩ siblings) 1 = some ["a", "b", "c", "y"] ∧
    read (run goGrow ⟨[], []⟩ siblings) 2 = some ["a", "b", "c", "y"] := by
  refine ⟨by decide, by decide, by decide⟩

/-- C31 is false of the code: an attribute added to a context after a nested message added its own replaces
it there. -/
theorem C31_parent_false :
    read (run goGrow ⟨[], []⟩ [Op.fresh, .add 0 ["a"], .add 0 ["b"], .add 0 ["c"], .child 0, .add 1 ["x"], .add 0 ["y"]]) 1 =
      some ["a", "b", "c", "y"] := by decide

/-- C63 is false of the code: what is logged `n` messages deep carries each attribute of the request
`n + 1` times. -/
theorem C63_duplicates_false {A} (attrs : List A) (n : Nat) :
    logged (deep ⟨[], attrs⟩ n) = (List.replicate (n + 1) attrs).flatten := by
  have key : ∀ n, (deep (⟨[], attrs⟩ : Ctx A) n).attrs = attrs ∧ (deep (⟨[], attrs⟩ : Ctx A) n).logger = (List.replicate n attrs).flatten := by
    intro n
    induction n with
    | zero => exact ⟨rfl, rfl⟩
    | succ n ih =>
      refine ⟨ih.1, ?_⟩
      simp only [deep, nested, logged, ih.1, ih.2]
      rw [List.replicate_succ', List.flatten_append]; simp
  have := key n
  simp only [logged, this.1, this.2]
  rw [List.replicate_succ', List.flatten_append]; simp

/-- C63 (partial: outside of nested messages): what a method logs, and a custom resolver called with its
context, carries each attribute of the context once, in order. -/
theorem C63_once_partial {A} (attrs added : List A) :
    logged (⟨[], attrs⟩ : Ctx A) = attrs ∧
    logged { custom (⟨[], attrs⟩ : Ctx A) with attrs := (custom (⟨[], attrs⟩ : Ctx A)).attrs ++ added } = attrs ++ added := ⟨rfl, rfl⟩

/-- C63: no attribute is missing, however deep. -/
theorem C63_complete {A} (c : Ctx A) (n : Nat) (a : A) (h : a ∈ c.logger ∨ a ∈ c.attrs) : a ∈ logged (deep c n) := by
  induction n with
  | zero => simpa [logged, deep] using h
  | succ n ih =>
    simp only [deep, nested, logged, List.mem_append] at ih ⊢
    exact .inl ih

/-- Lines of contexts meet the hypothesis: a message adds to its context, the nested one to its own. -/
example : Linear [Op.fresh, .add 0 ["a"], .child 0, .add 1 ["b"], .child 1, .add 2 ["c", "d"]] := by
  intro pre r vs post e x hx q y hy _
  rcases pre with _ | ⟨p0, _ | ⟨p1, _ | ⟨p2, _ | ⟨p3, _ | ⟨p4, _ | ⟨p5, pre⟩⟩⟩⟩⟩⟩ <;> simp at e
  · obtain ⟨rfl, ⟨rfl, rfl⟩, rfl⟩ := e
    rcases q with _ | q
    · simp [spec, specStep] at hx hy; subst hx hy; exact List.prefix_refl _
    · simp [spec, specStep] at hy
  · obtain ⟨rfl, rfl, rfl, ⟨rfl, rfl⟩, rfl⟩ := e
    rcases q with _ | _ | q
    · simp [spec, specStep] at hx hy; subst hx hy; exact List.prefix_refl _
    · simp [spec, specStep] at hx hy; subst hx hy; exact List.prefix_refl _
    · simp [spec, specStep] at hy
  · obtain ⟨rfl, rfl, rfl, rfl, rfl, ⟨rfl, rfl⟩, rfl⟩ := e
    rcases q with _ | _ | _ | q
    · simp [spec, specStep] at hx hy; subst hx hy; exact ⟨["b"], rfl⟩
    · simp [spec, specStep] at hx hy; subst hx hy; exact List.prefix_refl _
    · simp [spec, specStep] at hx hy; subst hx hy; exact List.prefix_refl _
    · simp [spec, specStep] at hy

example : read (run goGrow ⟨[], []⟩ [Op.fresh, .add 0 ["a"], .child 0, .add 1 ["b"], .child 1, .add 2 ["c", "d"]]) 2 = some ["a", "b", "c", "d"] := by
  decide

end Verif.Log
