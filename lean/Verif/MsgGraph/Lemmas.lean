import Verif.MsgGraph.Model

/-! # Objects, names and the cache -/

namespace Verif.MsgGraph

/-! ## Fields lead to the messages of their types -/

/-- The type of a field in the graph is the message of that name. -/
def typeOk (S : Schema) (st : State) : Option Name → Option Nat → Prop
  | none, none => True
  | some t, some j => j < st.next ∧ (st.heap j).name = t
  | some t, none => S.get t = none
  | none, some _ => False

/-- Fields in the graph are those of the descriptor. -/
def fieldsOk (S : Schema) (st : State) : List (String × Option Name) → List (String × Option Nat) → Prop
  | [], [] => True
  | (f, t) :: a, (g, r) :: b => g = f ∧ typeOk S st t r ∧ fieldsOk S st a b
  | _, _ => False

/-- An object has the fields of the message it is for. -/
def Done (S : Schema) (st : State) (i : Nat) : Prop :=
  ∃ m, S.get (st.heap i).name = some m ∧ fieldsOk S st m.fields (st.heap i).fields

def CacheOk (st : State) : Prop := ∀ n i, st.cache n = some i → i < st.next ∧ (st.heap i).name = n

/-- What a call leaves as it was, and what it adds. -/
structure Ext (S : Schema) (st st' : State) : Prop where
  next : st.next ≤ st'.next
  old : ∀ i, i < st.next → (st'.heap i).name = (st.heap i).name ∧ (st'.heap i).fields = (st.heap i).fields
  new : ∀ i, st.next ≤ i → i < st'.next → Done S st' i
  stable : ∀ n i, st.cache n = some i → st'.cache n = some i
  cacheOk : CacheOk st'

theorem typeOk_mono {S : Schema} {st st' : State} (hn : st.next ≤ st'.next)
    (ho : ∀ i, i < st.next → (st'.heap i).name = (st.heap i).name) {t : Option Name} {r : Option Nat}
    (h : typeOk S st t r) : typeOk S st' t r := by
  cases t with
  | none => cases r with
    | none => trivial
    | some j => exact h
  | some t => cases r with
    | none => exact h
    | some j => exact ⟨Nat.lt_of_lt_of_le h.1 hn, by rw [ho j h.1]; exact h.2⟩

theorem fieldsOk_mono {S : Schema} {st st' : State} (hn : st.next ≤ st'.next)
    (ho : ∀ i, i < st.next → (st'.heap i).name = (st.heap i).name) : ∀ (a : List (String × Option Name))
    (b : List (String × Option Nat)), fieldsOk S st a b → fieldsOk S st' a b
  | [], [], h => h
  | (_, _) :: a, (_, _) :: b, h => ⟨h.1, typeOk_mono hn ho h.2.1, fieldsOk_mono hn ho a b h.2.2⟩

theorem Done.mono {S : Schema} {st st' : State} {i : Nat} (hn : st.next ≤ st'.next)
    (ho : ∀ i, i < st.next → (st'.heap i).name = (st.heap i).name) (hi : (st'.heap i).name = (st.heap i).name)
    (hf : (st'.heap i).fields = (st.heap i).fields) (h : Done S st i) : Done S st' i := by
  obtain ⟨m, h1, h2⟩ := h
  refine ⟨m, by rw [hi]; exact h1, ?_⟩
  rw [hf]
  exact fieldsOk_mono hn ho _ _ h2

theorem Ext.refl {S : Schema} {st : State} (h : CacheOk st) : Ext S st st :=
  ⟨Nat.le_refl _, fun _ _ => ⟨rfl, rfl⟩, fun _ h1 h2 => absurd (Nat.lt_of_le_of_lt h1 h2) (Nat.lt_irrefl _),
    fun _ _ h => h, h⟩

theorem Ext.trans {S : Schema} {a b c : State} (h1 : Ext S a b) (h2 : Ext S b c) : Ext S a c := by
  refine ⟨Nat.le_trans h1.next h2.next, ?_, ?_, fun n i h => h2.stable n i (h1.stable n i h), h2.cacheOk⟩
  · intro i hi
    have hb := h2.old i (Nat.lt_of_lt_of_le hi h1.next)
    have ha := h1.old i hi
    exact ⟨hb.1.trans ha.1, hb.2.trans ha.2⟩
  · intro i hi hc
    by_cases hb : i < b.next
    · exact (h1.new i hi hb).mono h2.next (fun j hj => (h2.old j hj).1) (h2.old i hb).1 (h2.old i hb).2
    · exact h2.new i (Nat.le_of_not_lt hb) hc

theorem adopt_name (st : State) (i j x : Nat) : ((st.adopt i j).heap x).name = (st.heap x).name := by
  simp only [State.adopt, State.modify]
  split <;> split <;> simp_all

theorem adopt_fields (st : State) (i j x : Nat) : ((st.adopt i j).heap x).fields = (st.heap x).fields := by
  simp only [State.adopt, State.modify]
  split <;> split <;> simp_all

theorem Ext.adopt {S : Schema} {st : State} (i j : Nat) (h : CacheOk st) : Ext S st (st.adopt i j) := by
  refine ⟨Nat.le_refl _, fun x _ => ⟨adopt_name st i j x, adopt_fields st i j x⟩, ?_, fun _ _ h => h, ?_⟩
  · intro x h1 h2
    exact absurd (Nat.lt_of_le_of_lt h1 h2) (Nat.lt_irrefl _)
  · intro n k hk
    have := h n k hk
    exact ⟨this.1, by rw [adopt_name]; exact this.2⟩

/-- What a call gives. -/
def Result (S : Schema) (n : Name) (st : State) : Option Nat → Prop
  | some j => st.cache n = some j
  | none => S.get n = none

/-- A function that behaves as a call. -/
def GoodCall (S : Schema) (k : Resolve) : Prop :=
  ∀ b st n st' r, CacheOk st → k b st n = .ok (st', r) → Ext S st st' ∧ Result S n st' r

theorem nestedLoop_ext {S : Schema} {k : Resolve} (hk : GoodCall S k) (b : Builder) (n : Name) (i : Nat) :
    ∀ (cs : List String) (st st' : State), CacheOk st → nestedLoop k b n i cs st = .ok st' → Ext S st st'
  | [], st, st', hc, h => by
    simp only [nestedLoop, Except.ok.injEq] at h
    subst h
    exact Ext.refl hc
  | c :: cs, st, st', hc, h => by
    rw [nestedLoop] at h
    split at h
    · cases h
    · cases hcall : k b.child st (n.child c) with
      | error e => rw [hcall] at h; cases h
      | ok p =>
        obtain ⟨st1, r⟩ := p
        rw [hcall] at h
        obtain ⟨h1, _⟩ := hk _ _ _ _ _ hc hcall
        cases r with
        | none => exact h1.trans (nestedLoop_ext hk b n i cs st1 st' h1.cacheOk h)
        | some j =>
          have ha := Ext.adopt (S := S) i j h1.cacheOk
          exact (h1.trans ha).trans (nestedLoop_ext hk b n i cs _ st' ha.cacheOk h)

theorem fieldLoop_ext {S : Schema} {k : Resolve} (hk : GoodCall S k) (b : Builder) :
    ∀ (fs : List (String × Option Name)) (st st' : State) (l : List (String × Option Nat)), CacheOk st →
      fieldLoop k b fs st = .ok (st', l) → Ext S st st' ∧ fieldsOk S st' fs l
  | [], st, st', l, hc, h => by
    simp only [fieldLoop, Except.ok.injEq, Prod.mk.injEq] at h
    obtain ⟨rfl, rfl⟩ := h
    exact ⟨Ext.refl hc, trivial⟩
  | (f, none) :: fs, st, st', l, hc, h => by
    rw [fieldLoop] at h
    split at h
    · cases h
    · cases hl : fieldLoop k b fs st with
      | error e => rw [hl] at h; cases h
      | ok p =>
        obtain ⟨st1, l1⟩ := p
        rw [hl] at h
        simp only [Except.ok.injEq, Prod.mk.injEq] at h
        obtain ⟨rfl, rfl⟩ := h
        obtain ⟨h1, h2⟩ := fieldLoop_ext hk b fs st _ _ hc hl
        exact ⟨h1, rfl, trivial, h2⟩
  | (f, some t) :: fs, st, st', l, hc, h => by
    rw [fieldLoop] at h
    split at h
    · cases h
    · cases hcall : k .eager st t with
      | error e => rw [hcall] at h; cases h
      | ok p =>
        obtain ⟨st1, r⟩ := p
        rw [hcall] at h
        obtain ⟨h1, hr⟩ := hk _ _ _ _ _ hc hcall
        simp only at h
        cases hl : fieldLoop k b fs st1 with
        | error e => rw [hl] at h; cases h
        | ok p =>
          obtain ⟨st2, l1⟩ := p
          rw [hl] at h
          simp only [Except.ok.injEq, Prod.mk.injEq] at h
          obtain ⟨rfl, rfl⟩ := h
          obtain ⟨h2, h3⟩ := fieldLoop_ext hk b fs st1 _ _ h1.cacheOk hl
          refine ⟨h1.trans h2, rfl, ?_, h3⟩
          refine typeOk_mono h2.next (fun i hi => (h2.old i hi).1) ?_
          cases r with
          | none => exact hr
          | some j => exact h1.cacheOk t j hr

theorem alloc_old {st : State} {n : Name} {i : Nat} (h : i < st.next) : (st.alloc n).heap i = st.heap i := by
  simp [State.alloc, Nat.ne_of_lt h]

theorem alloc_cacheOk {st : State} (n : Name) (h : CacheOk st) : CacheOk (st.alloc n) := by
  intro m i hi
  have := h m i hi
  exact ⟨Nat.lt_succ_of_lt this.1, by rw [alloc_old this.1]; exact this.2⟩

theorem store_cacheOk {st : State} {n : Name} {i : Nat} (h : CacheOk st) (hi : i < st.next) (hn : (st.heap i).name = n) :
    CacheOk (st.store n i) := by
  intro m j hj
  simp only [State.store] at hj ⊢
  by_cases hm : m = n
  · rw [if_pos hm] at hj
    cases hj
    exact ⟨hi, by rw [hn, hm]⟩
  · rw [if_neg hm] at hj
    exact h m j hj

theorem resolve_good (S : Schema) : ∀ fuel, GoodCall S (resolve S fuel)
  | 0 => by intro b st n st' r _ h; simp [resolve] at h
  | fuel + 1 => by
    intro b st n st' r hc h
    have hk := resolve_good S fuel
    rw [resolve] at h
    cases hca : st.cache n with
    | some i =>
      rw [hca] at h
      simp only [Except.ok.injEq, Prod.mk.injEq] at h
      obtain ⟨rfl, rfl⟩ := h
      exact ⟨Ext.refl hc, hca⟩
    | none =>
      rw [hca] at h
      cases hm : S.get n with
      | none =>
        rw [hm] at h
        simp only [Except.ok.injEq, Prod.mk.injEq] at h
        obtain ⟨rfl, rfl⟩ := h
        exact ⟨Ext.refl hc, hm⟩
      | some m =>
        rw [hm] at h
        simp only at h
        cases hn : nestedLoop (resolve S fuel) b n st.next m.nested (st.alloc n) with
        | error e => rw [hn] at h; cases h
        | ok st1 =>
          rw [hn] at h
          simp only at h
          split at h
          · cases h
          · cases hf : fieldLoop (resolve S fuel) b m.fields (st1.store n st.next) with
            | error e => rw [hf] at h; cases h
            | ok p =>
              obtain ⟨st2, fs⟩ := p
              rw [hf] at h
              simp only [Except.ok.injEq, Prod.mk.injEq] at h
              obtain ⟨rfl, rfl⟩ := h
              have e1 := nestedLoop_ext hk b n st.next m.nested _ _ (alloc_cacheOk n hc) hn
              have hlt : st.next < st1.next := Nat.lt_of_lt_of_le (Nat.lt_succ_self _) e1.next
              have hname1 : (st1.heap st.next).name = n := by
                rw [(e1.old st.next (Nat.lt_succ_self _)).1]
                simp [State.alloc]
              have hstore := store_cacheOk e1.cacheOk hlt hname1
              obtain ⟨e2, hfs⟩ := fieldLoop_ext hk b m.fields _ _ _ hstore hf
              have hlt2 : st.next < st2.next := Nat.lt_of_lt_of_le hlt e2.next
              have hname2 : (st2.heap st.next).name = n := by
                rw [(e2.old st.next hlt).1]; exact hname1
              have hnm : ∀ x, ((st2.setFields st.next fs).heap x).name = (st2.heap x).name := by
                intro x; simp only [State.setFields, State.modify]; split <;> rfl
              have hfx : ∀ x, x ≠ st.next → ((st2.setFields st.next fs).heap x).fields = (st2.heap x).fields := by
                intro x hx; simp [State.setFields, State.modify, hx]
              refine ⟨⟨?_, ?_, ?_, ?_, ?_⟩, ?_⟩
              · exact Nat.le_of_lt hlt2
              · intro i hi
                have h0 : i ≠ st.next := Nat.ne_of_lt hi
                have h1 := e1.old i (Nat.lt_succ_of_lt hi)
                have h2 := e2.old i (Nat.lt_trans hi hlt)
                rw [hnm, hfx i h0, h2.1, h2.2]
                simp only [State.store]
                rw [h1.1, h1.2, alloc_old hi]
                exact ⟨rfl, rfl⟩
              · intro i hi hi2
                by_cases h0 : i = st.next
                · subst h0
                  refine ⟨m, by rw [hnm, hname2]; exact hm, ?_⟩
                  have : ((st2.setFields st.next fs).heap st.next).fields = fs := by
                    simp [State.setFields, State.modify]
                  rw [this]
                  exact fieldsOk_mono (st := st2) (st' := st2.setFields st.next fs) (Nat.le_refl st2.next) (fun x _ => hnm x) _ _ hfs
                · have hd : Done S st2 i := by
                    by_cases h1 : i < st1.next
                    · have hge : (st.alloc n).next ≤ i := Nat.lt_of_le_of_ne hi (Ne.symm h0)
                      have hs : Done S (st1.store n st.next) i :=
                        (e1.new i hge h1).mono (Nat.le_refl st1.next) (fun _ _ => rfl) rfl rfl
                      exact hs.mono e2.next (fun x hx => (e2.old x hx).1) (e2.old i h1).1 (e2.old i h1).2
                    · exact e2.new i (Nat.le_of_not_lt h1) hi2
                  exact hd.mono (Nat.le_refl st2.next) (fun x _ => hnm x) (hnm i) (hfx i h0)
              · intro x i hx
                have hxn : x ≠ n := fun h => by rw [h, hca] at hx; cases hx
                have : (st1.store n st.next).cache x = some i := by
                  simp only [State.store, if_neg hxn]
                  exact e1.stable x i hx
                exact e2.stable x i this
              · intro x i hx
                have := e2.cacheOk x i hx
                exact ⟨this.1, by rw [hnm]; exact this.2⟩
              · exact e2.stable n st.next (by simp [State.store])

/-! ## There is enough fuel -/

/-- The names that are not resolved yet. -/
def todo (S : Schema) (st : State) : Nat := (S.filter fun e => (st.cache e.1).isNone).length

theorem filter_length_le {α : Type} (p q : α → Bool) (h : ∀ a, p a = true → q a = true) : ∀ l : List α,
    (l.filter p).length ≤ (l.filter q).length
  | [] => Nat.le_refl _
  | a :: l => by
    have ih := filter_length_le p q h l
    rw [List.filter_cons, List.filter_cons]
    by_cases hp : p a = true
    · rw [if_pos hp, if_pos (h a hp)]
      exact Nat.succ_le_succ ih
    · rw [if_neg hp]
      split
      · exact Nat.le_succ_of_le ih
      · exact ih

theorem filter_length_lt {α : Type} (p q : α → Bool) (h : ∀ a, p a = true → q a = true) : ∀ (l : List α) (x : α),
    x ∈ l → q x = true → p x = false → (l.filter p).length < (l.filter q).length
  | [], _, hx, _, _ => absurd hx (by simp)
  | a :: l, x, hx, hq, hp => by
    rw [List.filter_cons, List.filter_cons]
    rcases List.mem_cons.mp hx with rfl | hx
    · rw [hp, hq]
      exact Nat.lt_succ_of_le (filter_length_le p q h l)
    · have ih := filter_length_lt p q h l x hx hq hp
      by_cases hpa : p a = true
      · rw [if_pos hpa, if_pos (h a hpa)]
        exact Nat.succ_lt_succ ih
      · rw [if_neg hpa]
        split
        · exact Nat.lt_succ_of_lt ih
        · exact ih

theorem todo_mono {S : Schema} {st st' : State} (h : ∀ n i, st.cache n = some i → ∃ j, st'.cache n = some j) :
    todo S st' ≤ todo S st := by
  refine filter_length_le _ _ ?_ S
  intro e he
  cases hc : st.cache e.1 with
  | none => rfl
  | some i => obtain ⟨j, hj⟩ := h _ _ hc; rw [hj] at he; cases he

theorem get_mem {S : Schema} {n : Name} {m : Msg} (h : S.get n = some m) : (n, m) ∈ S := by
  unfold Schema.get at h
  cases hf : S.find? fun e => e.1 = n with
  | none => rw [hf] at h; cases h
  | some e =>
    rw [hf] at h
    have h1 := List.find?_some hf
    have h2 := List.mem_of_find?_eq_some hf
    simp only [decide_eq_true_eq] at h1
    simp only [Option.map_some, Option.some.injEq] at h
    obtain ⟨a, b⟩ := e
    simp only at h1 h
    subst h1 h
    exact h2

/-- The length of the longest name. -/
def depth (S : Schema) : Nat := (S.map fun e => e.1.path.length).foldr Nat.max 0

theorem le_depth : ∀ {S : Schema} {n : Name} {m : Msg}, (n, m) ∈ S → n.path.length ≤ depth S
  | e :: S, n, m, h => by
    rcases List.mem_cons.mp h with rfl | h
    · exact Nat.le_max_left _ _
    · exact Nat.le_trans (le_depth h) (Nat.le_max_right _ _)

/-- Calls need that much fuel. -/
def need (S : Schema) (st : State) (n : Name) : Nat := todo S st * (depth S + 2) + (depth S + 1 - n.path.length) + 1

/-- A function that does not run out of fuel, for calls that need at most `f`. -/
def Enough (S : Schema) (f : Nat) (k : Resolve) : Prop :=
  ∀ b st n, CacheOk st → need S st n ≤ f → k b st n ≠ .error .fuel

theorem nestedLoop_enough {S : Schema} {f : Nat} {k : Resolve} (hg : GoodCall S k) (he : Enough S f k) (b : Builder)
    (n : Name) (i : Nat) : ∀ (cs : List String) (st : State), CacheOk st →
      (todo S st * (depth S + 2) + (depth S + 1 - (n.path.length + 1)) + 1 ≤ f) →
      nestedLoop k b n i cs st ≠ .error .fuel
  | [], st, _, _ => by simp [nestedLoop]
  | c :: cs, st, hc, hf => by
    rw [nestedLoop]
    split
    · simp
    · have hcall := he b.child st (n.child c) hc (by simp only [need, Name.child, List.length_append]; exact hf)
      cases hr : k b.child st (n.child c) with
      | error e => rw [hr] at hcall; exact fun h => hcall (by cases h; rfl)
      | ok p =>
        obtain ⟨st1, r⟩ := p
        obtain ⟨e1, _⟩ := hg _ _ _ _ _ hc hr
        have hle : todo S st1 ≤ todo S st := todo_mono fun x j hx => ⟨j, e1.stable x j hx⟩
        have hf' : todo S st1 * (depth S + 2) + (depth S + 1 - (n.path.length + 1)) + 1 ≤ f :=
          Nat.le_trans (Nat.succ_le_succ (Nat.add_le_add_right (Nat.mul_le_mul_right _ hle) _)) hf
        cases r with
        | none => exact nestedLoop_enough hg he b n i cs st1 e1.cacheOk hf'
        | some j => exact nestedLoop_enough hg he b n i cs _ (Ext.adopt (S := S) i j e1.cacheOk).cacheOk hf'

theorem fieldLoop_enough {S : Schema} {f : Nat} {k : Resolve} (hg : GoodCall S k) (he : Enough S f k) (b : Builder) :
    ∀ (fs : List (String × Option Name)) (st : State), CacheOk st →
      (todo S st * (depth S + 2) + (depth S + 1) + 1 ≤ f) → fieldLoop k b fs st ≠ .error .fuel
  | [], st, _, _ => by simp [fieldLoop]
  | (g, none) :: fs, st, hc, hf => by
    rw [fieldLoop]
    split
    · simp
    · have := fieldLoop_enough hg he b fs st hc hf
      cases hr : fieldLoop k b fs st with
      | error e => rw [hr] at this; exact fun h => this (by cases h; rfl)
      | ok p => simp
  | (g, some t) :: fs, st, hc, hf => by
    rw [fieldLoop]
    split
    · simp
    · have hcall := he .eager st t hc (Nat.le_trans (by unfold need; omega) hf)
      cases hr : k .eager st t with
      | error e => rw [hr] at hcall; exact fun h => hcall (by cases h; rfl)
      | ok p =>
        obtain ⟨st1, r⟩ := p
        obtain ⟨e1, _⟩ := hg _ _ _ _ _ hc hr
        have hle : todo S st1 ≤ todo S st := todo_mono fun x j hx => ⟨j, e1.stable x j hx⟩
        have hf' : todo S st1 * (depth S + 2) + (depth S + 1) + 1 ≤ f :=
          Nat.le_trans (Nat.succ_le_succ (Nat.add_le_add_right (Nat.mul_le_mul_right _ hle) _)) hf
        have := fieldLoop_enough hg he b fs st1 e1.cacheOk hf'
        simp only
        cases hr : fieldLoop k b fs st1 with
        | error e => rw [hr] at this; exact fun h => this (by cases h; rfl)
        | ok p => simp

theorem resolve_enough (S : Schema) : ∀ fuel, Enough S fuel (resolve S fuel)
  | 0 => by intro b st n _ h; exact absurd h (by unfold need; omega)
  | fuel + 1 => by
    intro b st n hc hneed
    have hg := resolve_good S fuel
    have he := resolve_enough S fuel
    rw [resolve]
    cases hca : st.cache n with
    | some i => simp
    | none =>
      simp only
      cases hm : S.get n with
      | none => simp
      | some m =>
        simp only
        have hd := le_depth (get_mem hm)
        have hneed' : todo S st * (depth S + 2) + (depth S + 1 - n.path.length) + 1 ≤ fuel + 1 := hneed
        have h1 := nestedLoop_enough hg he b n st.next m.nested (st.alloc n) (alloc_cacheOk n hc) (by
          have : todo S (st.alloc n) = todo S st := rfl
          rw [this]
          omega)
        cases hn : nestedLoop (resolve S fuel) b n st.next m.nested (st.alloc n) with
        | error e => rw [hn] at h1; exact fun h => h1 (by cases h; rfl)
        | ok st1 =>
          simp only
          split
          · simp
          · have e1 := nestedLoop_ext hg b n st.next m.nested _ _ (alloc_cacheOk n hc) hn
            have hlt : st.next < st1.next := Nat.lt_of_lt_of_le (Nat.lt_succ_self _) e1.next
            have hname1 : (st1.heap st.next).name = n := by
              rw [(e1.old st.next (Nat.lt_succ_self _)).1]
              simp [State.alloc]
            have hstore := store_cacheOk e1.cacheOk hlt hname1
            have hless : todo S (st1.store n st.next) < todo S st := by
              refine filter_length_lt _ _ ?_ S (n, m) (get_mem hm) (by simp [hca]) (by simp [State.store])
              intro e he
              cases hce : st.cache e.1 with
              | none => rfl
              | some i =>
                exfalso
                simp only [State.store] at he
                split at he
                · cases he
                · rw [e1.stable e.1 i hce] at he
                  cases he
            have h2 := fieldLoop_enough hg he b m.fields _ hstore (by
              have : todo S (st1.store n st.next) + 1 ≤ todo S st := hless
              have hmul := Nat.mul_le_mul_right (depth S + 2) this
              rw [Nat.add_mul, Nat.one_mul] at hmul
              omega)
            cases hf : fieldLoop (resolve S fuel) b m.fields (st1.store n st.next) with
            | error e => rw [hf] at h2; exact fun h => h2 (by cases h; rfl)
            | ok p => simp

end Verif.MsgGraph
