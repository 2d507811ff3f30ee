import Verif.MsgGraph.Lemmas

/-! # One object for each message -/

namespace Verif.MsgGraph

/-- A message is declared in another one, or the type of one of its fields. -/
def Edge (S : Schema) (a b : Name) : Prop :=
  ∃ m, S.get a = some m ∧ ((∃ c ∈ m.nested, b = a.child c) ∨ ∃ f, (f, some b) ∈ m.fields)

/-- A message is found in another one, directly or in the messages found in it. -/
inductive Reach (S : Schema) : Name → Name → Prop where
  | refl (a : Name) : Reach S a a
  | step {a b c : Name} : Edge S a b → Reach S b c → Reach S a c

/-- No message is found in a message declared in it. -/
def NoBack (S : Schema) : Prop := ∀ n m c, S.get n = some m → c ∈ m.nested → ¬Reach S (n.child c) n

theorem Reach.trans {S : Schema} {a b c : Name} (h : Reach S a b) (h2 : Reach S b c) : Reach S a c := by
  induction h with
  | refl => exact h2
  | step e _ ih => exact .step e (ih h2)

/-- The message `c` in the message of an object is an object that knows the former, and is known to it. -/
def Child (st : State) (a : Nat) (c : String) : Prop :=
  ∃ j, st.cache ((st.heap a).name.child c) = some j ∧ (st.heap j).parent = some a ∧ j ∈ (st.heap a).nested

def Linked (S : Schema) (st : State) (i : Nat) : Prop :=
  ∃ m, S.get (st.heap i).name = some m ∧ ∀ c ∈ m.nested, S.get ((st.heap i).name.child c) ≠ none → Child st i c

/-- Each object is the cached one for its name, except those of the names `P` whose messages are still being resolved. -/
structure Inv (S : Schema) (P : List Name) (st : State) : Prop where
  cacheOk : CacheOk st
  uniq : ∀ a b, a < st.next → b < st.next → (st.heap a).name = (st.heap b).name → a = b
  covered : ∀ i, i < st.next → st.cache (st.heap i).name = some i ∨ (st.heap i).name ∈ P
  linked : ∀ i, i < st.next → (st.heap i).name ∉ P → Linked S st i
  pending : ∀ p ∈ P, st.cache p = none
  parent : ∀ i, i < st.next → ∀ p, (st.heap i).parent = some p →
    p < st.next ∧ ∃ c, (st.heap i).name = (st.heap p).name.child c

def Keep (st st' : State) : Prop :=
  (∀ i, i < st.next → (st'.heap i).name = (st.heap i).name) ∧ ∀ a, a < st.next → ∀ c, Child st a c → Child st' a c

theorem Keep.refl (st : State) : Keep st st := ⟨fun _ _ => rfl, fun _ _ _ h => h⟩

theorem Keep.trans {a b c : State} (hn : a.next ≤ b.next) (h1 : Keep a b) (h2 : Keep b c) : Keep a c :=
  ⟨fun i hi => (h2.1 i (Nat.lt_of_lt_of_le hi hn)).trans (h1.1 i hi),
    fun i hi x hx => h2.2 i (Nat.lt_of_lt_of_le hi hn) x (h1.2 i hi x hx)⟩

theorem child_inj {a b : Name} {c d : String} (h : a.child c = b.child d) : a = b ∧ c = d := by
  simp only [Name.child, Name.mk.injEq] at h
  obtain ⟨h1, h2⟩ := h
  have h3 := List.append_inj_left' h2 rfl
  have h4 := List.append_inj_right' h2 rfl
  simp only [List.cons.injEq, and_true] at h4
  refine ⟨?_, h4⟩
  cases a; cases b
  simp only at h1 h3
  rw [h1, h3]

theorem adopt_parent (st : State) (i j x : Nat) :
    ((st.adopt i j).heap x).parent = if x = j then some i else (st.heap x).parent := by
  simp only [State.adopt, State.modify]
  split <;> split <;> simp_all

theorem adopt_nested (st : State) (i j x : Nat) :
    ((st.adopt i j).heap x).nested = if x = i then (st.heap x).nested ++ [j] else (st.heap x).nested := by
  simp only [State.adopt, State.modify]
  split <;> split <;> simp_all

theorem adopt_inv {S : Schema} {P : List Name} {st : State} {i j : Nat} {n : Name} {c : String} (h : Inv S P st)
    (hi : i < st.next) (hn : (st.heap i).name = n) (hj : st.cache (n.child c) = some j) :
    Inv S P (st.adopt i j) ∧ Keep st (st.adopt i j) ∧ Child (st.adopt i j) i c := by
  have hjo := h.cacheOk _ _ hj
  have keep : ∀ a, a < st.next → ∀ d, Child st a d → Child (st.adopt i j) a d := by
    rintro a ha d ⟨k, h1, h2, h3⟩
    refine ⟨k, by rw [adopt_name]; exact h1, ?_, ?_⟩
    · rw [adopt_parent]
      split
      · next hk =>
        subst hk
        have hko := h.cacheOk _ _ h1
        have he : (st.heap a).name.child d = n.child c := by rw [← hko.2, hjo.2]
        have := (child_inj he).1
        rw [h.uniq a i ha hi (by rw [this, hn])]
      · exact h2
    · rw [adopt_nested]
      split
      · exact List.mem_append_left _ h3
      · exact h3
  refine ⟨⟨(Ext.adopt (S := S) i j h.cacheOk).cacheOk, ?_, ?_, ?_, h.pending, ?_⟩, ⟨fun x _ => adopt_name st i j x, keep⟩, ?_⟩
  · intro a b ha hb hab
    rw [adopt_name, adopt_name] at hab
    exact h.uniq a b ha hb hab
  · intro x hx
    rw [adopt_name]
    exact h.covered x hx
  · intro x hx hxp
    rw [adopt_name] at hxp
    obtain ⟨m, h1, h2⟩ := h.linked x hx hxp
    refine ⟨m, by rw [adopt_name]; exact h1, ?_⟩
    intro d hd hg
    rw [adopt_name] at hg
    exact keep x hx d (h2 d hd hg)
  · intro x hx p hp
    rw [adopt_parent] at hp
    rw [adopt_name]
    split at hp
    · next hxj =>
      cases hp
      refine ⟨hi, c, ?_⟩
      rw [adopt_name, hxj, hjo.2, hn]
    · obtain ⟨h1, d, h2⟩ := h.parent x hx p hp
      exact ⟨h1, d, by rw [adopt_name]; exact h2⟩
  · refine ⟨j, by rw [adopt_name, hn]; exact hj, ?_, ?_⟩
    · rw [adopt_parent, if_pos rfl]
    · rw [adopt_nested, if_pos rfl]
      simp

theorem alloc_inv {S : Schema} {P : List Name} {st : State} {n : Name} (h : Inv S P st) (hc : st.cache n = none)
    (hp : n ∉ P) : Inv S (n :: P) (st.alloc n) ∧ Keep st (st.alloc n) := by
  have hold : ∀ i, i < st.next → (st.alloc n).heap i = st.heap i := fun i hi => alloc_old hi
  have hnew : (st.alloc n).heap st.next = { name := n } := by simp [State.alloc]
  have hsplit : ∀ i, i < (st.alloc n).next → i < st.next ∨ i = st.next := fun i hi => Nat.lt_succ_iff_lt_or_eq.mp hi
  have hfree : ∀ a, a < st.next → (st.heap a).name ≠ n := by
    intro a ha hn
    rcases h.covered a ha with h1 | h1
    · rw [hn, hc] at h1; cases h1
    · rw [hn] at h1; exact hp h1
  have keep : ∀ a, a < st.next → ∀ d, Child st a d → Child (st.alloc n) a d := by
    rintro a ha d ⟨k, h1, h2, h3⟩
    have hk := (h.cacheOk _ _ h1).1
    exact ⟨k, by rw [hold a ha]; exact h1, by rw [hold k hk]; exact h2, by rw [hold a ha]; exact h3⟩
  refine ⟨⟨alloc_cacheOk n h.cacheOk, ?_, ?_, ?_, ?_, ?_⟩, ⟨fun i hi => by rw [hold i hi], keep⟩⟩
  · intro a b ha hb hab
    rcases hsplit a ha with ha | rfl
    · rcases hsplit b hb with hb | rfl
      · rw [hold a ha, hold b hb] at hab
        exact h.uniq a b ha hb hab
      · rw [hold a ha, hnew] at hab
        exact absurd hab (hfree a ha)
    · rcases hsplit b hb with hb | rfl
      · rw [hold b hb, hnew] at hab
        exact absurd hab.symm (hfree b hb)
      · rfl
  · intro i hi
    rcases hsplit i hi with hi | rfl
    · rw [hold i hi]
      rcases h.covered i hi with h1 | h1
      · exact .inl h1
      · exact .inr (by simp [h1])
    · rw [hnew]; exact .inr (by simp)
  · intro i hi hip
    rcases hsplit i hi with hi | rfl
    · rw [hold i hi] at hip
      obtain ⟨m, h1, h2⟩ := h.linked i hi (fun hh => hip (by simp [hh]))
      refine ⟨m, by rw [hold i hi]; exact h1, ?_⟩
      intro d hd hg
      rw [hold i hi] at hg
      exact keep i hi d (h2 d hd hg)
    · rw [hnew] at hip; exact absurd (by simp) hip
  · intro p hp'
    rcases List.mem_cons.mp hp' with rfl | hp'
    · exact hc
    · exact h.pending p hp'
  · intro i hi p hp'
    rcases hsplit i hi with hi | rfl
    · rw [hold i hi] at hp' ⊢
      obtain ⟨h1, d, h2⟩ := h.parent i hi p hp'
      exact ⟨Nat.lt_succ_of_lt h1, d, by rw [hold p h1]; exact h2⟩
    · rw [hnew] at hp'; cases hp'

theorem store_inv {S : Schema} {P : List Name} {st : State} {n : Name} {i : Nat} (h : Inv S (n :: P) st)
    (hi : i < st.next) (hn : (st.heap i).name = n) (hp : n ∉ P) (hl : Linked S st i) :
    Inv S P (st.store n i) ∧ Keep st (st.store n i) := by
  have hnone : st.cache n = none := h.pending n (by simp)
  have keep : ∀ a, Child st a = Child st a → ∀ d, Child st a d → Child (st.store n i) a d := by
    rintro a - d ⟨k, h1, h2, h3⟩
    refine ⟨k, ?_, h2, h3⟩
    have : (st.heap a).name.child d ≠ n := fun he => by rw [he, hnone] at h1; cases h1
    simp only [State.store]
    rw [if_neg this]
    exact h1
  have keep' : ∀ a d, Child st a d → Child (st.store n i) a d := fun a d => keep a rfl d
  refine ⟨⟨store_cacheOk h.cacheOk hi hn, h.uniq, ?_, ?_, ?_, h.parent⟩, ⟨fun _ _ => rfl, fun a _ d => keep' a d⟩⟩
  · intro x hx
    simp only [State.store]
    by_cases hxn : (st.heap x).name = n
    · rw [if_pos hxn, h.uniq x i hx hi (by rw [hxn, hn])]
      exact .inl rfl
    · rw [if_neg hxn]
      rcases h.covered x hx with h1 | h1
      · exact .inl h1
      · rcases List.mem_cons.mp h1 with h1 | h1
        · exact absurd h1 hxn
        · exact .inr h1
  · intro x hx hxp
    have hx' : Linked S st x := by
      by_cases hxn : (st.heap x).name = n
      · rw [h.uniq x i hx hi (by rw [hxn, hn])]; exact hl
      · exact h.linked x hx fun hh => by
          rcases List.mem_cons.mp hh with hh | hh
          · exact hxn hh
          · exact hxp hh
    obtain ⟨m, h1, h2⟩ := hx'
    exact ⟨m, h1, fun d hd hg => keep' x d (h2 d hd hg)⟩
  · intro p hp'
    have : p ≠ n := fun he => hp (by rw [← he]; exact hp')
    simp only [State.store]
    rw [if_neg this]
    exact h.pending p (by simp [hp'])

theorem setFields_obj (st : State) (i : Nat) (fs : List (String × Option Nat)) (x : Nat) :
    ((st.setFields i fs).heap x).name = (st.heap x).name ∧ ((st.setFields i fs).heap x).parent = (st.heap x).parent ∧
    ((st.setFields i fs).heap x).nested = (st.heap x).nested := by
  simp only [State.setFields, State.modify]
  split <;> exact ⟨rfl, rfl, rfl⟩

theorem setFields_inv {S : Schema} {P : List Name} {st : State} (i : Nat) (fs : List (String × Option Nat))
    (h : Inv S P st) : Inv S P (st.setFields i fs) ∧ Keep st (st.setFields i fs) := by
  have hn : ∀ x, ((st.setFields i fs).heap x).name = (st.heap x).name := fun x => (setFields_obj st i fs x).1
  have hp : ∀ x, ((st.setFields i fs).heap x).parent = (st.heap x).parent := fun x => (setFields_obj st i fs x).2.1
  have hne : ∀ x, ((st.setFields i fs).heap x).nested = (st.heap x).nested := fun x => (setFields_obj st i fs x).2.2
  have keep : ∀ a d, Child st a d → Child (st.setFields i fs) a d := by
    rintro a d ⟨k, h1, h2, h3⟩
    exact ⟨k, by rw [hn]; exact h1, by rw [hp]; exact h2, by rw [hne]; exact h3⟩
  refine ⟨⟨?_, ?_, ?_, ?_, h.pending, ?_⟩, ⟨fun x _ => hn x, fun a _ d => keep a d⟩⟩
  · intro m j hj
    have := h.cacheOk m j hj
    exact ⟨this.1, by rw [hn]; exact this.2⟩
  · intro a b ha hb hab
    rw [hn, hn] at hab
    exact h.uniq a b ha hb hab
  · intro x hx
    rw [hn]
    exact h.covered x hx
  · intro x hx hxp
    rw [hn] at hxp
    obtain ⟨m, h1, h2⟩ := h.linked x hx hxp
    refine ⟨m, by rw [hn]; exact h1, ?_⟩
    intro d hd hg
    rw [hn] at hg
    exact keep x d (h2 d hd hg)
  · intro x hx p hxp
    rw [hp] at hxp
    obtain ⟨h1, d, h2⟩ := h.parent x hx p hxp
    exact ⟨h1, d, by rw [hn, hn]; exact h2⟩

/-- A function that keeps the objects unique. -/
def GoodU (S : Schema) (k : Resolve) : Prop :=
  ∀ P b st x st' r, Inv S P st → (∀ p ∈ P, ¬Reach S x p) → k b st x = .ok (st', r) →
    Inv S P st' ∧ Keep st st' ∧ ∀ n, st'.cache n ≠ none → st.cache n ≠ none ∨ Reach S x n

theorem nestedLoop_inv {S : Schema} {k : Resolve} (hS : NoBack S) (hk : GoodCall S k) (hu : GoodU S k) (b : Builder)
    (n : Name) (m : Msg) (hm : S.get n = some m) (i : Nat) (P : List Name) (hP : ∀ p ∈ P, ¬Reach S n p) :
    ∀ (cs : List String) (st st' : State), (∀ c ∈ cs, c ∈ m.nested) → Inv S (n :: P) st → i < st.next →
      (st.heap i).name = n → nestedLoop k b n i cs st = .ok st' →
      Inv S (n :: P) st' ∧ Keep st st' ∧ (∀ c ∈ cs, S.get (n.child c) ≠ none → Child st' i c) ∧
      st.next ≤ st'.next
  | [], st, st', _, hinv, _, _, h => by
    simp only [nestedLoop, Except.ok.injEq] at h
    subst h
    exact ⟨hinv, Keep.refl st, by simp, Nat.le_refl _⟩
  | c :: cs, st, st', hcs, hinv, hi, hn, h => by
    rw [nestedLoop] at h
    split at h
    · cases h
    · cases hcall : k b.child st (n.child c) with
      | error e => rw [hcall] at h; cases h
      | ok p =>
        obtain ⟨st1, r⟩ := p
        rw [hcall] at h
        obtain ⟨e1, hr⟩ := hk _ _ _ _ _ hinv.cacheOk hcall
        have hedge : Edge S n (n.child c) := ⟨m, hm, .inl ⟨c, hcs c (by simp), rfl⟩⟩
        obtain ⟨i1, k1, _⟩ := hu (n :: P) _ _ _ _ _ hinv (by
          intro p hp
          rcases List.mem_cons.mp hp with rfl | hp
          · exact hS p m c hm (hcs c (by simp))
          · exact fun hr => hP p hp (.step hedge hr)) hcall
        have hi1 : i < st1.next := Nat.lt_of_lt_of_le hi e1.next
        have hn1 : (st1.heap i).name = n := by rw [(e1.old i hi).1]; exact hn
        cases r with
        | none =>
          obtain ⟨i2, k2, c2, n2⟩ := nestedLoop_inv hS hk hu b n m hm i P hP cs st1 st'
            (fun x hx => hcs x (by simp [hx])) i1 hi1 hn1 h
          refine ⟨i2, k1.trans e1.next k2, ?_, Nat.le_trans e1.next n2⟩
          intro x hx hg
          rcases List.mem_cons.mp hx with rfl | hx
          · exact absurd hr hg
          · exact c2 x hx hg
        | some j =>
          obtain ⟨i2, k2, c2⟩ := adopt_inv i1 hi1 hn1 (c := c) hr
          have hn2 : ((st1.adopt i j).heap i).name = n := by rw [adopt_name]; exact hn1
          obtain ⟨i3, k3, c3, n3⟩ := nestedLoop_inv hS hk hu b n m hm i P hP cs _ st'
            (fun x hx => hcs x (by simp [hx])) i2 hi1 hn2 h
          refine ⟨i3, Keep.trans (b := st1.adopt i j) e1.next (k1.trans e1.next k2) k3, ?_, Nat.le_trans e1.next n3⟩
          intro x hx hg
          rcases List.mem_cons.mp hx with rfl | hx
          · exact k3.2 i hi1 x c2
          · exact c3 x hx hg

theorem nestedLoop_grow {S : Schema} {k : Resolve} (hS : NoBack S) (hk : GoodCall S k) (hu : GoodU S k) (b : Builder)
    (n : Name) (m : Msg) (hm : S.get n = some m) (i : Nat) (P : List Name) (hP : ∀ p ∈ P, ¬Reach S n p) :
    ∀ (cs : List String) (st st' : State), (∀ c ∈ cs, c ∈ m.nested) → Inv S (n :: P) st → i < st.next →
      (st.heap i).name = n → nestedLoop k b n i cs st = .ok st' →
      ∀ x, st'.cache x ≠ none → st.cache x ≠ none ∨ Reach S n x
  | [], st, st', _, _, _, _, h => by
    simp only [nestedLoop, Except.ok.injEq] at h
    subst h
    exact fun x hx => .inl hx
  | c :: cs, st, st', hcs, hinv, hi, hn, h => by
    rw [nestedLoop] at h
    split at h
    · cases h
    · cases hcall : k b.child st (n.child c) with
      | error e => rw [hcall] at h; cases h
      | ok p =>
        obtain ⟨st1, r⟩ := p
        rw [hcall] at h
        obtain ⟨e1, hr⟩ := hk _ _ _ _ _ hinv.cacheOk hcall
        have hedge : Edge S n (n.child c) := ⟨m, hm, .inl ⟨c, hcs c (by simp), rfl⟩⟩
        obtain ⟨i1, k1, g1⟩ := hu (n :: P) _ _ _ _ _ hinv (by
          intro p hp
          rcases List.mem_cons.mp hp with rfl | hp
          · exact hS p m c hm (hcs c (by simp))
          · exact fun hr => hP p hp (.step hedge hr)) hcall
        have hi1 : i < st1.next := Nat.lt_of_lt_of_le hi e1.next
        have hn1 : (st1.heap i).name = n := by rw [(e1.old i hi).1]; exact hn
        have fin : ∀ x, st1.cache x ≠ none ∨ Reach S n x → st.cache x ≠ none ∨ Reach S n x := by
          rintro x (hx | hx)
          · rcases g1 x hx with hx | hx
            · exact .inl hx
            · exact .inr (.step hedge hx)
          · exact .inr hx
        cases r with
        | none =>
          exact fun x hx => fin x (nestedLoop_grow hS hk hu b n m hm i P hP cs st1 st'
            (fun x hx => hcs x (by simp [hx])) i1 hi1 hn1 h x hx)
        | some j =>
          obtain ⟨i2, _, _⟩ := adopt_inv i1 hi1 hn1 (c := c) hr
          have hn2 : ((st1.adopt i j).heap i).name = n := by rw [adopt_name]; exact hn1
          exact fun x hx => fin x (nestedLoop_grow hS hk hu b n m hm i P hP cs _ st'
            (fun x hx => hcs x (by simp [hx])) i2 hi1 hn2 h x hx)

theorem fieldLoop_inv {S : Schema} {k : Resolve} (hk : GoodCall S k) (hu : GoodU S k) (b : Builder) (P : List Name)
    (Q : Name → Prop) : ∀ (fs : List (String × Option Name)) (st st' : State) (l : List (String × Option Nat)),
      (∀ f t, (f, some t) ∈ fs → (∀ p ∈ P, ¬Reach S t p) ∧ ∀ x, Reach S t x → Q x) → Inv S P st →
      fieldLoop k b fs st = .ok (st', l) →
      Inv S P st' ∧ Keep st st' ∧ (∀ x, st'.cache x ≠ none → st.cache x ≠ none ∨ Q x)
  | [], st, st', l, _, hinv, h => by
    simp only [fieldLoop, Except.ok.injEq, Prod.mk.injEq] at h
    obtain ⟨rfl, rfl⟩ := h
    exact ⟨hinv, Keep.refl st, fun x hx => .inl hx⟩
  | (f, none) :: fs, st, st', l, hfs, hinv, h => by
    rw [fieldLoop] at h
    split at h
    · cases h
    · cases hl : fieldLoop k b fs st with
      | error e => rw [hl] at h; cases h
      | ok p =>
        obtain ⟨st1, l1⟩ := p
        rw [hl] at h
        simp only [Except.ok.injEq, Prod.mk.injEq] at h
        obtain ⟨rfl, rfl⟩ := h
        exact fieldLoop_inv hk hu b P Q fs st _ _ (fun g t hg => hfs g t (by simp [hg])) hinv hl
  | (f, some t) :: fs, st, st', l, hfs, hinv, h => by
    rw [fieldLoop] at h
    split at h
    · cases h
    · cases hcall : k .eager st t with
      | error e => rw [hcall] at h; cases h
      | ok p =>
        obtain ⟨st1, r⟩ := p
        rw [hcall] at h
        obtain ⟨hft, hq⟩ := hfs f t (by simp)
        obtain ⟨i1, k1, g1⟩ := hu P _ _ _ _ _ hinv hft hcall
        obtain ⟨e1, _⟩ := hk _ _ _ _ _ hinv.cacheOk hcall
        simp only at h
        cases hl : fieldLoop k b fs st1 with
        | error e => rw [hl] at h; cases h
        | ok p =>
          obtain ⟨st2, l1⟩ := p
          rw [hl] at h
          simp only [Except.ok.injEq, Prod.mk.injEq] at h
          obtain ⟨rfl, rfl⟩ := h
          obtain ⟨i2, k2, g2⟩ := fieldLoop_inv hk hu b P Q fs st1 _ _ (fun g t hg => hfs g t (by simp [hg])) i1 hl
          refine ⟨i2, k1.trans e1.next k2, ?_⟩
          intro x hx
          rcases g2 x hx with hx | hx
          · rcases g1 x hx with hx | hx
            · exact .inl hx
            · exact .inr (hq x hx)
          · exact .inr hx

theorem resolve_inv {S : Schema} (hS : NoBack S) : ∀ fuel, GoodU S (resolve S fuel)
  | 0 => by intro P b st x st' r _ _ h; simp [resolve] at h
  | fuel + 1 => by
    intro P b st n st' r hinv hP h
    have hk := resolve_good S fuel
    have hu := resolve_inv hS fuel
    rw [resolve] at h
    cases hca : st.cache n with
    | some i =>
      rw [hca] at h
      simp only [Except.ok.injEq, Prod.mk.injEq] at h
      obtain ⟨rfl, rfl⟩ := h
      exact ⟨hinv, Keep.refl st, fun x hx => .inl hx⟩
    | none =>
      rw [hca] at h
      cases hm : S.get n with
      | none =>
        rw [hm] at h
        simp only [Except.ok.injEq, Prod.mk.injEq] at h
        obtain ⟨rfl, rfl⟩ := h
        exact ⟨hinv, Keep.refl st, fun x hx => .inl hx⟩
      | some m =>
        rw [hm] at h
        simp only at h
        have hnP : n ∉ P := fun hn => hP n hn (.refl n)
        obtain ⟨i0, k0⟩ := alloc_inv hinv hca hnP
        have hname0 : ((st.alloc n).heap st.next).name = n := by simp [State.alloc]
        cases hn : nestedLoop (resolve S fuel) b n st.next m.nested (st.alloc n) with
        | error e => rw [hn] at h; cases h
        | ok st1 =>
          rw [hn] at h
          simp only at h
          obtain ⟨i1, k1, c1, n1⟩ := nestedLoop_inv hS hk hu b n m hm st.next P hP m.nested _ _ (fun _ h => h) i0
            (Nat.lt_succ_self _) hname0 hn
          have g1 := nestedLoop_grow hS hk hu b n m hm st.next P hP m.nested _ _ (fun _ h => h) i0
            (Nat.lt_succ_self _) hname0 hn
          split at h
          · cases h
          · cases hf : fieldLoop (resolve S fuel) b m.fields (st1.store n st.next) with
            | error e => rw [hf] at h; cases h
            | ok p =>
              obtain ⟨st2, fs⟩ := p
              rw [hf] at h
              simp only [Except.ok.injEq, Prod.mk.injEq] at h
              obtain ⟨rfl, rfl⟩ := h
              have hlt : st.next < st1.next := Nat.lt_of_lt_of_le (Nat.lt_succ_self _) n1
              have hname1 : (st1.heap st.next).name = n := by
                rw [k1.1 st.next (Nat.lt_succ_self _)]; exact hname0
              have hl1 : Linked S st1 st.next := ⟨m, by rw [hname1]; exact hm, fun c hc hg => by
                rw [hname1] at hg; exact c1 c hc hg⟩
              obtain ⟨i2, k2⟩ := store_inv i1 hlt hname1 hnP hl1
              obtain ⟨i3, k3, g3⟩ := fieldLoop_inv hk hu b P (Reach S n) m.fields _ _ _ (by
                intro f t hft
                have hedge : Edge S n t := ⟨m, hm, .inr ⟨f, hft⟩⟩
                exact ⟨fun p hp hr => hP p hp (.step hedge hr), fun x hx => .step hedge hx⟩) i2 hf
              obtain ⟨e3, _⟩ := fieldLoop_ext hk b m.fields _ _ _ i2.cacheOk hf
              obtain ⟨i4, k4⟩ := setFields_inv st.next fs i3
              have h01 : st.next ≤ st1.next := Nat.le_of_lt hlt
              refine ⟨i4, ?_, ?_⟩
              · refine Keep.trans (b := st2) (Nat.le_trans h01 e3.next) ?_ k4
                refine Keep.trans (b := st1.store n st.next) h01 ?_ k3
                refine Keep.trans (b := st1) h01 ?_ k2
                exact Keep.trans (Nat.le_succ _) k0 k1
              · intro x hx
                rcases g3 x hx with hx | hx
                · simp only [State.store] at hx
                  split at hx
                  · next hxn => subst hxn; exact .inr (.refl _)
                  · exact g1 x hx
                · exact .inr hx

end Verif.MsgGraph
