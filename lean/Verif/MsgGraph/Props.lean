import Verif.MsgGraph.Unique

/-!
# C92: the types of fields lead to the messages that are declared

What a generated server does with a field depends on the object its type leads to: the object's name, the messages it is
declared in, and the option of the message.  Below, `resolveAll S fuel reqs {}` is what becomes of the files `S`, with
the messages asked for in the order `reqs`.
-/

namespace Verif.MsgGraph

/-! ## Specification -/

/-- What the compiler guarantees for descriptors: the types of fields and the messages in messages exist, names are not
empty, and a message with a longer name is declared in the one with the name cut by one. -/
structure WF (S : Schema) : Prop where
  types : ∀ n m f t, S.get n = some m → (f, some t) ∈ m.fields → S.get t ≠ none
  nested : ∀ n m c, S.get n = some m → c ∈ m.nested → S.get (n.child c) ≠ none
  named : ∀ n, S.get n ≠ none → n.path ≠ []
  parents : ∀ n c, n.path ≠ [] → S.get (n.child c) ≠ none → ∃ m, S.get n = some m ∧ c ∈ m.nested

/-- All messages that are not in another one are declared by some file. -/
def AllDeclared (S : Schema) (reqs : List Req) : Prop :=
  ∀ n, S.get n ≠ none → n.path.length = 1 → ∃ q ∈ reqs, q.declared = true ∧ q.name = n

/-- The fields of an object, with the names of the messages that their types lead to. -/
def fieldTypes (st : State) (i : Nat) : List (String × Option Name) :=
  (st.heap i).fields.map fun f => (f.1, f.2.map fun j => (st.heap j).name)

/-! ## Lemmas -/

theorem empty_cacheOk : CacheOk {} := by intro n i h; cases h

theorem resolveAll_ext {S : Schema} {fuel : Nat} : ∀ (reqs : List Req) (st st' : State) (l : List Nat), CacheOk st →
    resolveAll S fuel reqs st = .ok (st', l) → Ext S st st' ∧
      (∀ q ∈ reqs, q.declared = true → S.get q.name ≠ none → ∃ i ∈ l, st'.cache q.name = some i) ∧
      (∀ i ∈ l, ∃ q ∈ reqs, q.declared = true ∧ st'.cache q.name = some i)
  | [], st, st', l, hc, h => by
    simp only [resolveAll, Except.ok.injEq, Prod.mk.injEq] at h
    obtain ⟨rfl, rfl⟩ := h
    exact ⟨Ext.refl hc, by simp, by simp⟩
  | q :: qs, st, st', l, hc, h => by
    rw [resolveAll] at h
    cases hr : resolve S fuel q.builder st q.name with
    | error e => rw [hr] at h; cases h
    | ok p =>
      obtain ⟨st1, r⟩ := p
      rw [hr] at h
      simp only at h
      obtain ⟨e1, r1⟩ := resolve_good S fuel _ _ _ _ _ hc hr
      cases ha : resolveAll S fuel qs st1 with
      | error e => rw [ha] at h; cases h
      | ok p =>
        obtain ⟨st2, l2⟩ := p
        rw [ha] at h
        simp only [Except.ok.injEq, Prod.mk.injEq] at h
        obtain ⟨rfl, rfl⟩ := h
        obtain ⟨e2, f2, g2⟩ := resolveAll_ext qs st1 _ _ e1.cacheOk ha
        refine ⟨e1.trans e2, ?_, ?_⟩
        · intro x hx hd hg
          rcases List.mem_cons.mp hx with rfl | hx
          · cases r with
            | none => exact absurd r1 hg
            | some j => exact ⟨j, by rw [if_pos hd]; simp, e2.stable _ _ r1⟩
          · obtain ⟨i, h1, h2⟩ := f2 x hx hd hg
            exact ⟨i, List.mem_append_right _ h1, h2⟩
        · intro i hi
          rcases List.mem_append.mp hi with hi | hi
          · split at hi
            · next hd =>
              cases r with
              | none => simp at hi
              | some j =>
                simp only [Option.toList, List.mem_singleton] at hi
                subst hi
                exact ⟨q, by simp, hd, e2.stable _ _ r1⟩
            · simp at hi
          · obtain ⟨x, h1, h2, h3⟩ := g2 i hi
            exact ⟨x, by simp [h1], h2, h3⟩

theorem resolveAll_inv {S : Schema} (hS : NoBack S) {fuel : Nat} : ∀ (reqs : List Req) (st st' : State) (l : List Nat),
    Inv S [] st → resolveAll S fuel reqs st = .ok (st', l) → Inv S [] st'
  | [], st, st', l, hi, h => by
    simp only [resolveAll, Except.ok.injEq, Prod.mk.injEq] at h
    obtain ⟨rfl, rfl⟩ := h
    exact hi
  | q :: qs, st, st', l, hi, h => by
    rw [resolveAll] at h
    cases hr : resolve S fuel q.builder st q.name with
    | error e => rw [hr] at h; cases h
    | ok p =>
      obtain ⟨st1, r⟩ := p
      rw [hr] at h
      simp only at h
      obtain ⟨i1, _, _⟩ := resolve_inv hS fuel [] _ _ _ _ _ hi (by simp) hr
      cases ha : resolveAll S fuel qs st1 with
      | error e => rw [ha] at h; cases h
      | ok p =>
        obtain ⟨st2, l2⟩ := p
        rw [ha] at h
        simp only [Except.ok.injEq, Prod.mk.injEq] at h
        obtain ⟨rfl, rfl⟩ := h
        exact resolveAll_inv hS qs st1 _ _ i1 ha

theorem empty_inv (S : Schema) : Inv S [] {} :=
  ⟨empty_cacheOk, fun _ _ h => absurd h (Nat.not_lt_zero _), fun _ h => absurd h (Nat.not_lt_zero _),
    fun _ h => absurd h (Nat.not_lt_zero _), by simp, fun _ h => absurd h (Nat.not_lt_zero _)⟩

theorem fieldsOk_types {S : Schema} {st : State} : ∀ (a : List (String × Option Name)) (b : List (String × Option Nat)),
    (∀ f t, (f, some t) ∈ a → S.get t ≠ none) → fieldsOk S st a b →
    (b.map fun f => (f.1, f.2.map fun j => (st.heap j).name)) = a ∧ ∀ f j, (f, some j) ∈ b → j < st.next
  | [], [], _, _ => ⟨rfl, by simp⟩
  | (f, t) :: a, (g, r) :: b, ht, h => by
    obtain ⟨rfl, h1, h2⟩ := h
    obtain ⟨i1, i2⟩ := fieldsOk_types a b (fun f t h => ht f t (by simp [h])) h2
    rw [List.map_cons, i1]
    cases t with
    | none =>
      cases r with
      | none => exact ⟨rfl, fun f j hj => i2 f j (by simpa using hj)⟩
      | some j => exact absurd h1 id
    | some t =>
      cases r with
      | none => exact absurd h1 (ht g t (by simp))
      | some j =>
        refine ⟨by simp only [Option.map_some]; rw [h1.2], ?_⟩
        intro f k hk
        rcases List.mem_cons.mp hk with hk | hk
        · simp only [Prod.mk.injEq, Option.some.injEq] at hk
          rw [hk.2]; exact h1.1
        · exact i2 f k hk

theorem need_le (S : Schema) (st : State) (n : Name) : need S st n ≤ S.length * (depth S + 2) + depth S + 2 := by
  unfold need
  have h1 : todo S st ≤ S.length := List.length_filter_le _ _
  have h2 := Nat.mul_le_mul_right (depth S + 2) h1
  omega

theorem resolveAll_enough {S : Schema} {fuel : Nat} (hf : S.length * (depth S + 2) + depth S + 2 ≤ fuel) :
    ∀ (reqs : List Req) (st : State), CacheOk st → resolveAll S fuel reqs st ≠ .error .fuel
  | [], st, _ => by simp [resolveAll]
  | q :: qs, st, hc => by
    rw [resolveAll]
    have h1 := resolve_enough S fuel q.builder st q.name hc (Nat.le_trans (need_le S st q.name) hf)
    cases hr : resolve S fuel q.builder st q.name with
    | error e => intro h; apply h1; rw [hr]; simpa using h
    | ok p =>
      obtain ⟨st1, r⟩ := p
      simp only
      have e1 := (resolve_good S fuel _ _ _ _ _ hc hr).1
      have h2 := resolveAll_enough hf qs st1 e1.cacheOk
      cases ha : resolveAll S fuel qs st1 with
      | error e => intro h; apply h2; rw [ha]; simpa using h
      | ok p => simp

/-- A message in which nothing is declared. -/
def bare (S : Schema) (n : Name) : Prop := ∀ m, S.get n = some m → m.nested = [] ∧ m.enums = [] ∧ m.fields = []

def calm (S : Schema) (b : Builder) (n : Name) : Prop :=
  match b with
  | .eager => True
  | .lazy => ∀ m c, S.get n = some m → c ∈ m.nested → bare S (n.child c)
  | .lost => bare S n

theorem nestedLoop_calm {S : Schema} {k : Resolve} (hk : ∀ b st n, calm S b n → k b st n ≠ .error .panic)
    (b : Builder) (n : Name) (i : Nat) : ∀ (cs : List String) (st : State), (b = .lost → cs = []) →
    (∀ c ∈ cs, calm S b.child (n.child c)) → nestedLoop k b n i cs st ≠ .error .panic
  | [], st, _, _ => by simp [nestedLoop]
  | c :: cs, st, hb, hc => by
    rw [nestedLoop]
    have hb' : b ≠ .lost := fun h => by cases hb h
    rw [if_neg hb']
    have h1 := hk b.child st (n.child c) (hc c (by simp))
    have ih := fun st => nestedLoop_calm hk b n i cs st (fun h => absurd h hb') (fun x hx => hc x (by simp [hx]))
    cases hcall : k b.child st (n.child c) with
    | error e => intro h; apply h1; rw [hcall]; simpa using h
    | ok p =>
      obtain ⟨st1, r⟩ := p
      cases r with
      | none => exact ih st1
      | some j => exact ih _

theorem fieldLoop_calm {S : Schema} {k : Resolve} (hk : ∀ b st n, calm S b n → k b st n ≠ .error .panic)
    (b : Builder) : ∀ (fs : List (String × Option Name)) (st : State), (b = .lost → fs = []) →
    fieldLoop k b fs st ≠ .error .panic
  | [], st, _ => by simp [fieldLoop]
  | (f, none) :: fs, st, hb => by
    rw [fieldLoop]
    have hb' : b ≠ .lost := fun h => by cases hb h
    rw [if_neg hb']
    have ih := fieldLoop_calm hk b fs st (fun h => absurd h hb')
    cases hl : fieldLoop k b fs st with
    | error e => intro h; apply ih; rw [hl]; simpa using h
    | ok p => simp
  | (f, some t) :: fs, st, hb => by
    rw [fieldLoop]
    have hb' : b ≠ .lost := fun h => by cases hb h
    rw [if_neg hb']
    have h1 := hk .eager st t trivial
    cases hcall : k .eager st t with
    | error e => intro h; apply h1; rw [hcall]; simpa using h
    | ok p =>
      obtain ⟨st1, r⟩ := p
      simp only
      have ih := fieldLoop_calm hk b fs st1 (fun h => absurd h hb')
      cases hl : fieldLoop k b fs st1 with
      | error e => intro h; apply ih; rw [hl]; simpa using h
      | ok p => simp

theorem resolve_calm (S : Schema) : ∀ fuel b st n, calm S b n → resolve S fuel b st n ≠ .error .panic
  | 0, b, st, n, _ => by simp [resolve]
  | fuel + 1, b, st, n, hc => by
    have hk := resolve_calm S fuel
    rw [resolve]
    cases hca : st.cache n with
    | some i => simp
    | none =>
      cases hm : S.get n with
      | none => simp
      | some m =>
        simp only
        have hn := nestedLoop_calm hk b n st.next m.nested (st.alloc n)
          (by rintro rfl; exact (hc m hm).1)
          (by
            intro c hcm
            cases b with
            | eager => trivial
            | lazy => exact hc m c hm hcm
            | lost => rw [(hc m hm).1] at hcm; cases hcm)
        cases hl : nestedLoop (resolve S fuel) b n st.next m.nested (st.alloc n) with
        | error e => intro h; apply hn; rw [hl]; simpa using h
        | ok st1 =>
          simp only
          have he : ¬(b = .lost ∧ m.enums ≠ []) := by
            rintro ⟨rfl, h⟩
            exact h (hc m hm).2.1
          rw [if_neg he]
          have hf := fieldLoop_calm hk b m.fields (st1.store n st.next) (by rintro rfl; exact (hc m hm).2.2)
          cases hl2 : fieldLoop (resolve S fuel) b m.fields (st1.store n st.next) with
          | error e => intro h; apply hf; rw [hl2]; simpa using h
          | ok p => simp

theorem resolveAll_calm {S : Schema} {fuel : Nat} : ∀ (reqs : List Req) (st : State),
    (∀ q ∈ reqs, calm S q.builder q.name) → resolveAll S fuel reqs st ≠ .error .panic
  | [], st, _ => by simp [resolveAll]
  | q :: qs, st, hq => by
    rw [resolveAll]
    have h1 := resolve_calm S fuel q.builder st q.name (hq q (by simp))
    cases hr : resolve S fuel q.builder st q.name with
    | error e => intro h; apply h1; rw [hr]; simpa using h
    | ok p =>
      obtain ⟨st1, r⟩ := p
      simp only
      have h2 := resolveAll_calm (fuel := fuel) qs st1 (fun x hx => hq x (by simp [hx]))
      cases ha : resolveAll S fuel qs st1 with
      | error e => intro h; apply h2; rw [ha]; simpa using h
      | ok p => simp

theorem path_cases (n : Name) : n.path = [] ∨ n.path.length = 1 ∨ ∃ p c, n = Name.child p c ∧ p.path ≠ [] := by
  obtain ⟨pkg, path⟩ := n
  rcases List.eq_nil_or_concat path with h | ⟨l, c, h⟩
  · exact .inl h
  · rcases l with _ | ⟨a, l⟩
    · exact .inr (.inl (by simp [h]))
    · exact .inr (.inr ⟨⟨pkg, a :: l⟩, c, by simp [Name.child, h], by simp⟩)

/-- What holds at the end, for files in which no message leads back to the one it is declared in. -/
theorem final_state {S : Schema} (hS : NoBack S) (hw : WF S) {fuel : Nat} {reqs : List Req} (hd : AllDeclared S reqs)
    {st : State} {files : List Nat} (h : resolveAll S fuel reqs {} = .ok (st, files)) :
    Inv S [] st ∧ ∀ k n, n.path.length = k → S.get n ≠ none → ∃ i, st.cache n = some i ∧ HasOption st files i ∧
      (∀ p c, n = Name.child p c → p.path ≠ [] → ∃ a, st.cache p = some a ∧ (st.heap i).parent = some a) := by
  have hinv := resolveAll_inv hS reqs _ _ _ (empty_inv S) h
  have ⟨_, hf, _⟩ := resolveAll_ext reqs _ _ _ empty_cacheOk h
  refine ⟨hinv, ?_⟩
  intro k
  induction k using Nat.strongRecOn with
  | ind k ih =>
    intro n hk hg
    rcases path_cases n with h0 | h1 | ⟨p, c, rfl, hp⟩
    · exact absurd h0 (hw.named n hg)
    · obtain ⟨q, hq, hqd, rfl⟩ := hd n hg h1
      obtain ⟨i, hi, hc⟩ := hf q hq hqd hg
      refine ⟨i, hc, .top hi, ?_⟩
      intro p c hpc hp
      exfalso
      rw [hpc] at h1
      simp only [Name.child, List.length_append, List.length_cons, List.length_nil, Nat.zero_add,
        Nat.add_eq_right, List.length_eq_zero_iff] at h1
      exact hp h1
    · obtain ⟨m, hm, hcm⟩ := hw.parents p c hp hg
      obtain ⟨a, ha, hopt, _⟩ := ih p.path.length (by simp [← hk, Name.child]) p rfl (by rw [hm]; simp)
      have hao := hinv.cacheOk _ _ ha
      obtain ⟨m', hm', hl⟩ := hinv.linked a hao.1 (by simp)
      rw [hao.2, hm] at hm'
      cases hm'
      have hch := hl c hcm (by rw [hao.2]; exact hg)
      obtain ⟨j, h1, h2, h3⟩ := hch
      rw [hao.2] at h1
      refine ⟨j, h1, .nested hopt h3, ?_⟩
      intro p' c' hpc _
      obtain ⟨rfl, rfl⟩ := child_inj hpc
      exact ⟨a, ha, h2⟩

theorem names_path {S : Schema} (hw : WF S) {st : State} (hinv : Inv S [] st)
    (hpar : ∀ i, i < st.next → ∀ p c, (st.heap i).name = Name.child p c → p.path ≠ [] → (st.heap i).parent ≠ none)
    (hdone : ∀ i, i < st.next → S.get (st.heap i).name ≠ none) :
    ∀ k i, i < st.next → (st.heap i).name.path.length ≤ k + 1 → names st k i = (st.heap i).name.path := by
  have one : ∀ i, i < st.next → (st.heap i).name.path.length = 1 →
      [(st.heap i).name.path.getLast?.getD ""] = (st.heap i).name.path := by
    intro i _ h
    match hp : (st.heap i).name.path, h with
    | [x], _ => rfl
  intro k
  induction k with
  | zero =>
    intro i hi hk
    have := hw.named _ (hdone i hi)
    have h1 : (st.heap i).name.path.length ≠ 0 := fun h => this (List.length_eq_zero_iff.mp h)
    exact one i hi (by omega)
  | succ k ih =>
    intro i hi hk
    rw [names]
    cases hp : (st.heap i).parent with
    | none =>
      refine one i hi ?_
      rcases path_cases (st.heap i).name with h0 | h1 | ⟨p, c, h1, h2⟩
      · exact absurd h0 (hw.named _ (hdone i hi))
      · exact h1
      · exact absurd hp (hpar i hi p c h1 h2)
    | some p =>
      obtain ⟨hpn, c, hc⟩ := hinv.parent i hi p hp
      simp only
      rw [ih p hpn (by rw [hc] at hk; simp only [Name.child, List.length_append, List.length_cons,
        List.length_nil] at hk; omega)]
      rw [hc]
      simp [Name.child]

/-! ## Properties -/

/-- Resolving the messages of any files ends, whatever refers to whatever. -/
theorem C92_ends (S : Schema) (reqs : List Req) :
    ∃ enough, ∀ fuel, enough ≤ fuel → resolveAll S fuel reqs {} ≠ .error .fuel :=
  ⟨_, fun _ hf => resolveAll_enough hf reqs _ empty_cacheOk⟩

/-- Every object has the fields its message declares, in their order, with the types it declares for them. -/
theorem C92_fields {S : Schema} (hw : WF S) {fuel : Nat} {reqs : List Req} {st : State} {files : List Nat}
    (h : resolveAll S fuel reqs {} = .ok (st, files)) {i : Nat} (hi : i < st.next) :
    ∃ m, S.get (st.heap i).name = some m ∧ fieldTypes st i = m.fields ∧
      ∀ f j, (f, some j) ∈ (st.heap i).fields → j < st.next := by
  obtain ⟨m, hm, hf⟩ := (resolveAll_ext reqs _ _ _ empty_cacheOk h).1.new i (Nat.zero_le _) hi
  obtain ⟨h1, h2⟩ := fieldsOk_types _ _ (fun f t => hw.types _ m f t hm) hf
  exact ⟨m, hm, h1, h2⟩

/-- A declared message of a file is what its name leads to afterwards, in options as in the fields of messages resolved
later. -/
theorem C92_declared {S : Schema} {fuel : Nat} {reqs : List Req} {st : State} {files : List Nat}
    (h : resolveAll S fuel reqs {} = .ok (st, files)) {q : Req} (hq : q ∈ reqs) (hd : q.declared = true)
    (hg : S.get q.name ≠ none) :
    ∃ i ∈ files, (st.heap i).name = q.name ∧ st.cache q.name = some i ∧
      ∀ b, resolve S (fuel + 1) b st q.name = .ok (st, some i) := by
  obtain ⟨e, hf, _⟩ := resolveAll_ext reqs _ _ _ empty_cacheOk h
  obtain ⟨i, hi, hc⟩ := hf q hq hd hg
  exact ⟨i, hi, (e.cacheOk _ _ hc).2, hc, fun b => by rw [resolve, hc]⟩

/-- The messages of the files are those that they declare. -/
theorem C92_only_declared {S : Schema} {fuel : Nat} {reqs : List Req} {st : State} {files : List Nat}
    (h : resolveAll S fuel reqs {} = .ok (st, files)) {i : Nat} (hi : i ∈ files) :
    ∃ q ∈ reqs, q.declared = true ∧ (st.heap i).name = q.name := by
  obtain ⟨e, _, hf⟩ := resolveAll_ext reqs _ _ _ empty_cacheOk h
  obtain ⟨q, hq, hd, hc⟩ := hf i hi
  exact ⟨q, hq, hd, (e.cacheOk _ _ hc).2⟩

/-- There is one object for each message.  Missing for the full property: messages found in a message declared in them,
see `C92_one_object_false`. -/
theorem C92_one_object_partial {S : Schema} (hS : NoBack S) {fuel : Nat} {reqs : List Req} {st : State}
    {files : List Nat} (h : resolveAll S fuel reqs {} = .ok (st, files)) {i j : Nat} (hi : i < st.next)
    (hj : j < st.next) (hn : (st.heap i).name = (st.heap j).name) : i = j :=
  (resolveAll_inv hS reqs _ _ _ (empty_inv S) h).uniq i j hi hj hn

/-- Every object gives the name its message has in the files.  Missing for the full property: messages found in a message
declared in them, see `C92_name_false`. -/
theorem C92_name_partial {S : Schema} (hS : NoBack S) (hw : WF S) {fuel : Nat} {reqs : List Req}
    (hd : AllDeclared S reqs) {st : State} {files : List Nat} (h : resolveAll S fuel reqs {} = .ok (st, files))
    {i : Nat} (hi : i < st.next) : fqdn st i = (st.heap i).name := by
  obtain ⟨hinv, hfin⟩ := final_state hS hw hd h
  have hdone : ∀ i, i < st.next → S.get (st.heap i).name ≠ none := by
    intro i hi
    obtain ⟨m, hm, _⟩ := C92_fields hw h hi
    rw [hm]; simp
  have hpar : ∀ i, i < st.next → ∀ p c, (st.heap i).name = Name.child p c → p.path ≠ [] →
      (st.heap i).parent ≠ none := by
    intro i hi p c hn hp
    obtain ⟨j, hj, _, h3⟩ := hfin _ _ rfl (hdone i hi)
    have hji : j = i := by
      rcases hinv.covered i hi with hc | hc
      · rw [hj] at hc; exact Option.some.inj hc
      · cases hc
    subst hji
    obtain ⟨a, _, ha⟩ := h3 p c hn hp
    rw [ha]; simp
  unfold fqdn
  rw [names_path hw hinv hpar hdone _ i hi (by omega)]

/-- Every object, and so whatever the type of a field leads to, gets the option of its message.  Missing for the full
property: messages found in a message declared in them, see `C92_option_false`. -/
theorem C92_option_partial {S : Schema} (hS : NoBack S) (hw : WF S) {fuel : Nat} {reqs : List Req}
    (hd : AllDeclared S reqs) {st : State} {files : List Nat} (h : resolveAll S fuel reqs {} = .ok (st, files))
    {i : Nat} (hi : i < st.next) : HasOption st files i := by
  obtain ⟨hinv, hfin⟩ := final_state hS hw hd h
  obtain ⟨m, hm, _⟩ := C92_fields hw h hi
  obtain ⟨j, hj, hopt, _⟩ := hfin _ _ rfl (by rw [hm]; simp)
  rcases hinv.covered i hi with hc | hc
  · rw [hj] at hc; cases hc; exact hopt
  · cases hc

/-- Resolving does not crash for files without types of plugins, or whose types of plugins contain only messages in which
nothing is declared.  Missing for the full property: other types of plugins, see `C92_plugin_false`. -/
theorem C92_plugin_partial {S : Schema} {fuel : Nat} {reqs : List Req}
    (hq : ∀ q ∈ reqs, q.builder = .eager ∨ q.builder = .lazy ∧ ∀ m c m', S.get q.name = some m → c ∈ m.nested →
      S.get (q.name.child c) = some m' → m'.nested = [] ∧ m'.enums = [] ∧ m'.fields = []) :
    resolveAll S fuel reqs {} ≠ .error .panic := by
  refine resolveAll_calm reqs _ ?_
  intro q h
  rcases hq q h with h | ⟨h, h2⟩
  · rw [h]; trivial
  · rw [h]; exact fun m c hm hc m' hm' => h2 m c m' hm hc hm'

/-! ## Examples -/

theorem reach_closed {S : Schema} {T : List Name} (hT : ∀ a ∈ T, ∀ m, S.get a = some m →
    (∀ c ∈ m.nested, a.child c ∈ T) ∧ ∀ e ∈ m.fields, ∀ t, e.2 = some t → t ∈ T) {a b : Name} (ha : a ∈ T)
    (h : Reach S a b) : b ∈ T := by
  induction h with
  | refl => exact ha
  | step e _ ih =>
    obtain ⟨m, hm, hc⟩ := e
    refine ih ?_
    rcases hc with ⟨c, hc, rfl⟩ | ⟨f, hf⟩
    · exact (hT _ ha m hm).1 c hc
    · exact (hT _ ha m hm).2 _ hf _ rfl

private def user : Name := ⟨"org", ["User"]⟩
private def address : Name := ⟨"org", ["User", "Address"]⟩
private def post : Name := ⟨"org", ["Post"]⟩

/-- `message User { message Address { string city; } Address home; User friend; }` and
`message Post { User author; User.Address place; }`. -/
private def blog : Schema :=
  [(user, { nested := ["Address"], fields := [("home", some address), ("friend", some user)] }),
   (address, { fields := [("city", none)] }),
   (post, { fields := [("author", some user), ("place", some address)] })]

private theorem blog_get {n : Name} (h : blog.get n ≠ none) : n = user ∨ n = address ∨ n = post := by
  unfold Schema.get at h
  cases hf : blog.find? fun e => e.1 = n with
  | none => rw [hf] at h; exact absurd rfl h
  | some e =>
    have h1 := List.find?_some hf
    have h2 := List.mem_of_find?_eq_some hf
    simp only [decide_eq_true_eq] at h1
    simp only [blog, List.mem_cons, List.not_mem_nil, or_false] at h2
    rcases h2 with rfl | rfl | rfl <;> simp_all

private theorem blog_user : blog.get user =
    some { nested := ["Address"], fields := [("home", some address), ("friend", some user)] } := rfl
private theorem blog_address : blog.get address = some { fields := [("city", none)] } := rfl
private theorem blog_post : blog.get post =
    some { fields := [("author", some user), ("place", some address)] } := rfl

private theorem blog_noBack : NoBack blog := by
  intro n m c hn hc hr
  rcases blog_get (by rw [hn]; simp) with rfl | rfl | rfl
  · rw [blog_user] at hn
    cases hn
    simp only [List.mem_singleton] at hc
    subst hc
    have := reach_closed (T := [address]) (by
      intro a ha m hm
      simp only [List.mem_singleton] at ha
      subst ha
      rw [blog_address] at hm
      cases hm
      simp) (by decide) hr
    revert this
    decide
  · rw [blog_address] at hn; cases hn; cases hc
  · rw [blog_post] at hn; cases hn; cases hc

private theorem blog_wf : WF blog := by
  refine ⟨?_, ?_, ?_, ?_⟩
  · intro n m f t hn hf
    rcases blog_get (by rw [hn]; simp) with rfl | rfl | rfl
    · rw [blog_user] at hn; cases hn
      simp only [List.mem_cons, Prod.mk.injEq, Option.some.injEq, List.not_mem_nil, or_false] at hf
      rcases hf with ⟨_, rfl⟩ | ⟨_, rfl⟩
      · rw [blog_address]; simp
      · rw [blog_user]; simp
    · rw [blog_address] at hn; cases hn; simp at hf
    · rw [blog_post] at hn; cases hn
      simp only [List.mem_cons, Prod.mk.injEq, Option.some.injEq, List.not_mem_nil, or_false] at hf
      rcases hf with ⟨_, rfl⟩ | ⟨_, rfl⟩
      · rw [blog_user]; simp
      · rw [blog_address]; simp
  · intro n m c hn hc
    rcases blog_get (by rw [hn]; simp) with rfl | rfl | rfl
    · rw [blog_user] at hn; cases hn
      simp only [List.mem_singleton] at hc
      subst hc
      exact (by rw [blog_address]; simp : blog.get address ≠ none)
    · rw [blog_address] at hn; cases hn; cases hc
    · rw [blog_post] at hn; cases hn; cases hc
  · intro n h
    rcases blog_get h with rfl | rfl | rfl <;> decide
  · intro n c hn h
    rcases blog_get h with h | h | h
    · have h2 : n.child c = Name.child ⟨"org", []⟩ "User" := h
      rw [(child_inj h2).1] at hn; exact absurd rfl hn
    · have h2 : n.child c = Name.child user "Address" := h
      obtain ⟨rfl, rfl⟩ := child_inj h2
      exact ⟨_, blog_user, by decide⟩
    · have h2 : n.child c = Name.child ⟨"org", []⟩ "Post" := h
      rw [(child_inj h2).1] at hn; exact absurd rfl hn

private def blogReqs : List Req :=
  [{ name := post }, { builder := .lazy, name := post }, { name := user, declared := true },
   { name := post, declared := true }]

private theorem blog_declared : AllDeclared blog blogReqs := by
  intro n h h1
  rcases blog_get h with rfl | rfl | rfl
  · exact ⟨{ name := user, declared := true }, by simp [blogReqs], rfl, rfl⟩
  · revert h1; decide
  · exact ⟨{ name := post, declared := true }, by simp [blogReqs], rfl, rfl⟩

/-- The files above meet the conditions of all the theorems, and resolving them gives three objects: `Post`, `User` and
`User.Address`, the last of which is the type of two fields. -/
example : ∃ st files, resolveAll blog 20 blogReqs {} = .ok (st, files) ∧ st.next = 3 ∧ files = [1, 0] ∧
    (st.heap 2).name = address ∧ fqdn st 2 = address ∧ (st.heap 0).fields = [("author", some 1), ("place", some 2)] ∧
    (st.heap 1).fields = [("home", some 2), ("friend", some 1)] ∧ NoBack blog ∧ WF blog ∧ AllDeclared blog blogReqs :=
  ⟨_, _, rfl, rfl, rfl, rfl, rfl, rfl, rfl, blog_noBack, blog_wf, blog_declared⟩

example : resolveAll blog 20 blogReqs {} ≠ .error .panic := C92_plugin_partial fun q hq => by
  simp only [blogReqs, List.mem_cons, List.not_mem_nil, or_false] at hq
  rcases hq with rfl | rfl | rfl | rfl
  · exact .inl rfl
  · refine .inr ⟨rfl, ?_⟩
    intro m c m' hm hc
    rw [blog_post] at hm; cases hm; cases hc
  · exact .inl rfl
  · exact .inl rfl

/-! ## Where the full property fails -/

private def node : Name := ⟨"org", ["Node"]⟩
private def entry : Name := ⟨"org", ["Node", "ChildrenEntry"]⟩

/-- `message Node { map<string, Node> children = 1; }`. -/
private def tree : Schema :=
  [(node, { nested := ["ChildrenEntry"], fields := [("children", some entry)] }),
   (entry, { fields := [("key", none), ("value", some node)] })]

/-- For a message with a map of messages of its own type there are two objects: the one of its file, and another one
that is the type of the values. -/
theorem C92_one_object_false : ∃ (S : Schema) (reqs : List Req) (st : State) (files : List Nat) (i j : Nat),
    resolveAll S 20 reqs {} = .ok (st, files) ∧ files = [i] ∧ i < st.next ∧ j < st.next ∧
    (st.heap i).name = (st.heap j).name ∧ i ≠ j :=
  ⟨tree, [{ name := node, declared := true }], _, _, 0, 2, rfl, rfl, by decide, by decide, rfl, by decide⟩

/-- The type of the values of such a map does not have the option of the message, although the message has one. -/
theorem C92_option_false : ∃ (S : Schema) (reqs : List Req) (st : State) (files : List Nat) (i j : Nat) (f : String),
    resolveAll S 20 reqs {} = .ok (st, files) ∧ AllDeclared S reqs ∧ HasOption st files i ∧
    (f, some j) ∈ (st.heap i).fields ∧ ¬HasOption st files j ∧
    ∃ k, HasOption st files k ∧ (st.heap k).name = (st.heap j).name := by
  refine ⟨tree, [{ name := node, declared := true }], _, _, 1, 2, "value", rfl, ?_, ?_, ?_, ?_,
    0, .top (by simp), rfl⟩
  · intro n h h1
    refine ⟨{ name := node, declared := true }, by simp, rfl, ?_⟩
    unfold Schema.get at h
    cases hf : tree.find? fun e => e.1 = n with
    | none => rw [hf] at h; exact absurd rfl h
    | some e =>
      have h2 := List.find?_some hf
      have h3 := List.mem_of_find?_eq_some hf
      simp only [decide_eq_true_eq] at h2
      simp only [tree, List.mem_cons, List.not_mem_nil, or_false] at h3
      rcases h3 with rfl | rfl
      · exact h2
      · rw [← h2] at h1; exact absurd h1 (by decide)
  · exact .nested (i := 0) (.top (by simp)) (by decide)
  · decide
  · intro h
    have key : ∀ st files, HasOption st files 2 → (∀ i ∈ files, i = 0 ∨ i = 1) →
        (∀ i, i = 0 ∨ i = 1 → ∀ j ∈ (st.heap i).nested, j = 0 ∨ j = 1) → False := by
      intro st files h h1 h2
      have : ∀ k, HasOption st files k → k = 0 ∨ k = 1 := by
        intro k hk
        induction hk with
        | top h => exact h1 _ h
        | nested _ hj ih => exact h2 _ ih _ hj
      have := this 2 h
      omega
    refine key _ _ h (by decide) ?_
    rintro i (rfl | rfl)
    · decide
    · decide

private def outer : Name := ⟨"org", ["Outer"]⟩
private def mid : Name := ⟨"org", ["Outer", "Mid"]⟩
private def inner : Name := ⟨"org", ["Outer", "Mid", "Inner"]⟩

/-- `message Outer { message Mid { message Inner { Mid m = 1; } } }`. -/
private def boxes : Schema :=
  [(outer, { nested := ["Mid"] }), (mid, { nested := ["Inner"] }), (inner, { fields := [("m", some mid)] })]

/-- A field with the type `org.Outer.Mid` leads to an object that gives the name `org.Mid`. -/
theorem C92_name_false : ∃ (S : Schema) (reqs : List Req) (st : State) (files : List Nat) (i j : Nat) (f : String),
    resolveAll S 20 reqs {} = .ok (st, files) ∧ (f, some j) ∈ (st.heap i).fields ∧ i < st.next ∧ j < st.next ∧
    fieldTypes st i = [(f, some ⟨"org", ["Outer", "Mid"]⟩)] ∧ fqdn st j = ⟨"org", ["Mid"]⟩ :=
  ⟨boxes, [{ name := outer, declared := true }], _, _, 2, 3, "m", rfl, by decide, by decide, by decide, rfl, rfl⟩

/-- A plugin whose type has a map field crashes the generator. -/
theorem C92_plugin_false : ∃ (S : Schema) (reqs : List Req), ∀ fuel, 20 ≤ fuel →
    resolveAll S fuel reqs {} = .error .panic := by
  refine ⟨tree, [{ builder := .lazy, name := node }, { name := node, declared := true }], ?_⟩
  intro fuel hf
  obtain ⟨k, rfl⟩ : ∃ k, fuel = k + 2 := ⟨fuel - 2, by omega⟩
  rfl

end Verif.MsgGraph
