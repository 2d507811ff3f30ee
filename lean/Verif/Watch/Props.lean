import Verif.Watch.Spec

/-! # C71: watch mode keeps the generated files up to date -/

namespace Verif.Watch

@[simp] theorem set_same {α : Type} (f : Nat → α) (p : Nat) (v : α) : set f p v p = v := by simp [set]

theorem set_other {α : Type} (f : Nat → α) {p q : Nat} (v : α) (h : q ≠ p) : set f p v q = f q := by simp [set, h]

/-! ## Texts -/

theorem lastText_from (n : Name) (files : List (Name × Text)) (t : Option Text) :
    files.foldl (fun t f => if f.1 = n then some f.2 else t) t = (lastText n files).or t := by
  induction files generalizing t with
  | nil => simp [lastText]
  | cons f fs ih =>
    have h1 : lastText n (f :: fs) = (lastText n fs).or (if f.1 = n then some f.2 else none) := by
      rw [lastText, List.foldl_cons, ih]
    rw [List.foldl_cons, ih, h1]
    by_cases h : f.1 = n
    · simp only [h, if_true]
      cases lastText n fs <;> simp
    · simp [h]

theorem lastText_append (n : Name) (a b : List (Name × Text)) :
    lastText n (a ++ b) = (lastText n b).or (lastText n a) := by
  unfold lastText; rw [List.foldl_append, lastText_from]; rfl

theorem lastText_none {n : Name} {files : List (Name × Text)} :
    lastText n files = none ↔ ∀ t, (n, t) ∉ files := by
  induction files with
  | nil => simp [lastText]
  | cons f fs ih =>
    rw [show f :: fs = [f] ++ fs from rfl, lastText_append]
    by_cases h : f.1 = n
    · have : lastText n [f] = some f.2 := by simp [lastText, h]
      rw [this]
      constructor
      · intro h'; cases hl : lastText n fs <;> rw [hl] at h' <;> simp at h'
      · intro h'; exact absurd (List.mem_append_left _ (by rw [← h]; simp)) (h' f.2)
    · have : lastText n [f] = none := by simp [lastText, h]
      rw [this, Option.or_none, ih]
      constructor
      · intro h' t ht
        rcases List.mem_append.mp ht with h1 | h1
        · simp at h1; exact h (by rw [← h1])
        · exact h' t h1
      · exact fun h' t ht => h' t (List.mem_append_right _ ht)

theorem lastText_mem {n : Name} {files : List (Name × Text)} {t : Text} (h : lastText n files = some t) :
    ∃ t, (n, t) ∈ files := by
  apply Classical.byContradiction
  intro h'
  rw [lastText_none.mpr fun t ht => h' ⟨t, ht⟩] at h
  cases h

theorem lastText_isSome {n : Name} {files : List (Name × Text)} {t : Text} (h : (n, t) ∈ files) :
    ∃ t, lastText n files = some t := by
  cases hl : lastText n files with
  | none => exact absurd h (lastText_none.mp hl t)
  | some t => exact ⟨t, rfl⟩

/-! ## Writing -/

theorem writeFiles_write {r : Result} (h : r.delete = false) (out : Name → Option Text) (n : Name) :
    r.writeFiles out n = (lastText n r.files).or (out n) := by
  unfold Result.writeFiles
  rw [h]
  generalize r.files = files
  induction files generalizing out with
  | nil => simp [lastText]
  | cons f fs ih =>
    rw [List.foldl_cons, ih, show f :: fs = [f] ++ fs from rfl, lastText_append]
    by_cases hn : f.1 = n
    · subst hn; simp [lastText, set]
    · simp [lastText, hn, set_other _ _ (Ne.symm hn)]

theorem writeFiles_untouched {r : Result} {n : Name} (h : ∀ t, (n, t) ∉ r.files) (out : Name → Option Text) :
    r.writeFiles out n = out n := by
  unfold Result.writeFiles
  generalize r.files = files at h
  generalize r.delete = d
  induction files generalizing out with
  | nil => rfl
  | cons f fs ih =>
    rw [List.foldl_cons, ih _ (fun t ht => h t (List.mem_cons_of_mem _ ht)), set_other]
    intro hn
    exact h f.2 (by rw [hn]; exact List.mem_cons_self ..)

theorem writeFiles_delete {r : Result} (h : r.delete = true) {n : Name} {t : Text} (hm : (n, t) ∈ r.files)
    (out : Name → Option Text) : r.writeFiles out n = none := by
  unfold Result.writeFiles
  rw [h]
  generalize r.files = files at hm
  have keep : ∀ (files : List (Name × Text)) (out : Name → Option Text), out n = none →
      files.foldl (fun out f => set out f.1 (if true = true then none else some f.2)) out n = none := by
    intro files
    induction files with
    | nil => exact fun _ h => h
    | cons f fs ih =>
      intro out ho
      rw [List.foldl_cons]
      apply ih
      by_cases hn : n = f.1
      · subst hn; simp
      · rw [set_other _ _ hn, ho]
  induction files generalizing out with
  | nil => cases hm
  | cons f fs ih =>
    rw [List.foldl_cons]
    rcases List.mem_cons.mp hm with h1 | h1
    · apply keep; subst h1; simp
    · exact ih _ h1

/-- The state of a name after several results depends on the results that mention it. -/
theorem writeAll_untouched {rs : List Result} {n : Name} (h : ∀ r ∈ rs, ∀ t, (n, t) ∉ r.files)
    (out : Name → Option Text) : rs.foldl (fun out r => r.writeFiles out) out n = out n := by
  induction rs generalizing out with
  | nil => rfl
  | cons r rs ih =>
    rw [List.foldl_cons, ih (fun r hr => h r (List.mem_cons_of_mem _ hr)), writeFiles_untouched (h r (List.mem_cons_self ..))]

/-! ## The results of the other files -/

/-- The result of one of the other files. -/
def otherResult (st : St) (p : Path) : Result :=
  ⟨decide (st.fs p = none), filesOf ((st.cache p).getD [])⟩

/-- The cache without the other files that do not exist any more. -/
def prune (path : Path) (order : List Path) (st : St) : Path → Option (List Resp) := fun p =>
  if p ∈ order ∧ p ≠ path ∧ st.fs p = none then none else st.cache p

theorem otherResults_eq (path : Path) (order : List Path) (hn : order.Nodup) (st : St) :
    otherResults path order st =
      ({ st with cache := prune path order st }, (order.filter (· ≠ path)).map (otherResult st)) := by
  induction order generalizing st with
  | nil =>
    have : prune path [] st = st.cache := by funext q; simp [prune]
    simp [otherResults, this]
  | cons p order ih =>
    rw [List.nodup_cons] at hn
    unfold otherResults
    by_cases hp : p = path
    · rw [if_pos hp, ih hn.2]
      subst hp
      refine Prod.ext ?_ (by simp)
      have : prune p order st = prune p (p :: order) st := by
        funext q; unfold prune
        by_cases hq : q = p <;> simp [hq]
      simp [this]
    · rw [if_neg hp]
      by_cases hf : st.fs p = none
      · rw [if_pos hf]
        simp only [deleteProtoFile]
        rw [ih hn.2]
        refine Prod.ext ?_ ?_
        · have : prune path order { st with cache := set st.cache p none } = prune path (p :: order) st := by
            funext q; unfold prune
            by_cases hq : q = p
            · subst hq; simp [hp, hf, set]
            · simp [hq, set_other _ _ hq]
          simp [this]
        · have hmap : (order.filter (· ≠ path)).map (otherResult { st with cache := set st.cache p none }) =
              (order.filter (· ≠ path)).map (otherResult st) := by
            apply List.map_congr_left
            intro q hq
            have : q ≠ p := fun e => hn.1 (e ▸ (List.mem_filter.mp hq).1)
            simp [otherResult, set_other _ _ this]
          simp only [List.filter_cons, ne_eq, hp, not_false_eq_true, decide_true, if_true, List.map_cons]
          rw [show (List.filter (fun x => decide ¬x = path) order) = order.filter (· ≠ path) from rfl, hmap]
          simp [otherResult, hf]
      · rw [if_neg hf, ih hn.2]
        refine Prod.ext ?_ ?_
        · have : prune path order st = prune path (p :: order) st := by
            funext q; unfold prune
            by_cases hq : q = p
            · subst hq; simp [hf]
            · simp [hq]
          simp [this]
        · simp [hp, otherResult, hf]

/-! ## The invariant -/

/-- The files in the cache for a path. -/
def cached (st : St) (p : Path) : List (Name × Text) := filesOf ((st.cache p).getD [])

/-- What holds between events: the cache of an existing file is current, everything in the cache and
every generated file is accounted for. -/
structure Inv (gen : Gen) (st : St) : Prop where
  current : ∀ p, st.fs p ≠ none → ∀ n, lastText n (cached st p) = lastText n (filesOf (gen st.fs p).1)
  names : ∀ p n t, (n, t) ∈ cached st p → Generates gen p n
  out : ∀ n t, st.out n = some t → ∃ p u, (n, u) ∈ cached st p

theorem inv_start {gen : Gen} (hs : Succeeds gen) (fs : Fs) : Inv gen (start gen fs) := by
  have hc : ∀ p, cached (start gen fs) p = if fs p = none then [] else filesOf (gen fs p).1 := by
    intro p
    unfold cached start generateAll
    by_cases hp : fs p = none
    · simp [hp, filesOf]
    · by_cases hg : (gen fs p).1 = []
      · simp [hp, hg, filesOf]
      · simp [hp, hg]
  refine ⟨fun p hp n => ?_, fun p n t h => ?_, fun n t h => by simp [start] at h⟩
  · have hp' : fs p ≠ none := hp
    rw [hc, if_neg hp']; rfl
  · rw [hc] at h
    by_cases hp : fs p = none
    · simp [hp] at h
    · rw [if_neg hp] at h; exact ⟨fs, t, hp, hs fs p hp, h⟩

/-- The state after the handler has generated. -/
structure Reacted (gen : Gen) (p : Path) (c : Option Text) (st st' : St) (r : Result) : Prop where
  fs : st'.fs = set st.fs p c
  out : st'.out = st.out
  others : ∀ q, q ≠ p → st'.cache q = st.cache q
  removed : c = none → st'.cache p = none ∧ r = ⟨true, cached st p⟩
  updated : c ≠ none → r = ⟨false, filesOf (gen st'.fs p).1⟩ ∧
    (cached st' p = filesOf (gen st'.fs p).1 ∨ cached st' p = cached st p ++ filesOf (gen st'.fs p).1)

theorem react_spec {gen : Gen} {p : Path} {c : Option Text} {ev : Event} {st st' : St} {r : Result}
    (he : c = none ↔ ev = .remove)
    (h : react gen ev p { st with fs := set st.fs p c } = (st', some r)) : Reacted gen p c st st' r := by
  have upd : ∀ (cache : Path → Option (List Resp)), (∀ q, q ≠ p → cache q = st.cache q) → c ≠ none →
      (cache p = none ∨ cache p = st.cache p) →
      createGeneratorResult gen { st with fs := set st.fs p c, cache := cache } p = (st', some r) →
      Reacted gen p c st st' r := by
    intro cache hq hc hp h
    unfold createGeneratorResult at h
    simp only [Prod.mk.injEq] at h
    obtain ⟨rfl, h2⟩ := h
    by_cases hg : (gen (set st.fs p c) p).2 = true
    · rw [if_pos hg] at h2
      injection h2 with h2; subst h2
      refine ⟨rfl, rfl, fun q hqp => ?_, fun h => absurd h hc, fun _ => ⟨rfl, ?_⟩⟩
      · show (if _ then _ else _ : Path → Option (List Resp)) q = _
        by_cases h1 : (gen (set st.fs p c) p).1 = []
        · rw [if_pos h1]; exact hq q hqp
        · rw [if_neg h1, set_other _ _ hqp]; exact hq q hqp
      · unfold cached
        by_cases h1 : (gen (set st.fs p c) p).1 = []
        · simp only [h1, if_true]
          rcases hp with hp | hp
          · left; simp [hp, filesOf]
          · right; simp [hp, filesOf]
        · simp only [h1, if_false, set_same, Option.getD_some]
          rcases hp with hp | hp
          · left; simp [hp]
          · right; simp [hp, filesOf]
    · rw [if_neg hg] at h2; cases h2
  cases ev with
  | create =>
    have hc : c ≠ none := fun e => by cases he.mp e
    exact upd st.cache (fun _ _ => rfl) hc (Or.inr rfl) h
  | write =>
    have hc : c ≠ none := fun e => by cases he.mp e
    exact upd (set st.cache p none) (fun q hq => set_other _ _ hq) hc (Or.inl (by simp)) h
  | remove =>
    have hc : c = none := he.mpr rfl
    simp only [react, deleteProtoFile, Prod.mk.injEq, Option.some.injEq] at h
    obtain ⟨rfl, rfl⟩ := h
    exact ⟨rfl, rfl, fun q hq => set_other _ _ hq, fun _ => ⟨by simp, rfl⟩, fun h => absurd hc h⟩

theorem gen_same {gen : Gen} (hi : Independent gen) {fs : Fs} {p q : Path} (c : Option Text) (h : q ≠ p) :
    gen (set fs p c) q = gen fs q := hi _ _ _ (set_other _ _ h)

/-- The cache after the handler has generated. -/
theorem inv_reacted {gen : Gen} (hi : Independent gen) (hs : Succeeds gen) (hf : FixedNames gen)
    {p : Path} {c : Option Text} {st st' : St} {r : Result} (h : Inv gen st) (hr : Reacted gen p c st st' r) :
    (∀ q, st'.fs q ≠ none → ∀ n, lastText n (cached st' q) = lastText n (filesOf (gen st'.fs q).1)) ∧
    (∀ q n t, (n, t) ∈ cached st' q → Generates gen q n) ∧
    ∀ q, q ≠ p → cached st' q = cached st q := by
  have hother : ∀ q, q ≠ p → cached st' q = cached st q := fun q hq => by unfold cached; rw [hr.others q hq]
  refine ⟨fun q hq n => ?_, fun q n t hm => ?_, hother⟩
  · by_cases hqp : q = p
    · subst hqp
      have hc : c ≠ none := by intro e; rw [hr.fs, e] at hq; simp at hq
      have hok : (gen st'.fs q).2 = true := hs _ _ hq
      rcases (hr.updated hc).2 with h1 | h1
      · rw [h1]
      · rw [h1, lastText_append]
        cases hl : lastText n (filesOf (gen st'.fs q).1) with
        | some t => rfl
        | none =>
          simp only [Option.none_or]
          rw [lastText_none] at hl ⊢
          intro t ht
          obtain ⟨u, hu⟩ := hf q n (h.names q n t ht) st'.fs hq hok
          exact hl u hu
    · rw [hother q hqp, hr.fs, gen_same hi c hqp]
      refine h.current q ?_ n
      rwa [hr.fs, set_other _ _ hqp] at hq
  · by_cases hqp : q = p
    · subst hqp
      by_cases hc : c = none
      · unfold cached at hm; rw [(hr.removed hc).1] at hm; simp [filesOf] at hm
      · have hfs : st'.fs q ≠ none := by rw [hr.fs]; simpa using hc
        rcases (hr.updated hc).2 with h1 | h1
        · rw [h1] at hm; exact ⟨st'.fs, t, hfs, hs _ _ hfs, hm⟩
        · rw [h1] at hm
          rcases List.mem_append.mp hm with hm | hm
          · exact h.names q n t hm
          · exact ⟨st'.fs, t, hfs, hs _ _ hfs, hm⟩
    · rw [hother q hqp] at hm; exact h.names q n t hm

theorem cached_prune {p : Path} {order : List Path} {st : St} (hk : Keys order st.cache) {q : Path} :
    filesOf ((prune p order st q).getD []) = if q ≠ p ∧ st.fs q = none then [] else cached st q := by
  unfold prune cached
  by_cases h : q ≠ p ∧ st.fs q = none
  · rw [if_pos h]
    by_cases hq : q ∈ order
    · rw [if_pos ⟨hq, h⟩]; rfl
    · rw [if_neg fun h' => hq h'.1]
      have : (st.cache q).isSome = false := by
        cases hs : (st.cache q).isSome with
        | false => rfl
        | true => exact absurd ((hk.2 q).mpr hs) hq
      rw [Option.isSome_eq_false_iff, Option.isNone_iff_eq_none] at this
      rw [this]; rfl
  · rw [if_neg h, if_neg fun h' => h h'.2]

/-- One handled event: the generated files are current afterwards, and the invariant is kept. -/
theorem finish_spec {gen : Gen} (hi : Independent gen) (hs : Succeeds gen) (hsep : Separate gen)
    (hf : FixedNames gen) {p : Path} {c : Option Text} {st st' : St} {r : Result} {order : List Path}
    (h : Inv gen st) (hr : Reacted gen p c st st' r) (hk : Keys order st'.cache) :
    Inv gen (finish order p st' r) ∧ Current gen (finish order p st' r) := by
  obtain ⟨h1, h2, h3⟩ := inv_reacted hi hs hf h hr
  have hfin : finish order p st' r = ⟨st'.fs, prune p order st',
      (r :: (order.filter (· ≠ p)).map (otherResult st')).foldl (fun out r => r.writeFiles out) st.out⟩ := by
    unfold finish; rw [otherResults_eq p order hk.1, hr.out]
  have hca : ∀ q, cached (finish order p st' r) q = if q ≠ p ∧ st'.fs q = none then [] else cached st' q := by
    intro q; rw [hfin]; exact cached_prune hk
  -- results that mention a name belong to one path
  have hrest : ∀ q n t, (n, t) ∈ (otherResult st' q).files → Generates gen q n := fun q n t hm => h2 q n t hm
  have hr0 : ∀ n t, (n, t) ∈ r.files → Generates gen p n := by
    intro n t hm
    by_cases hc : c = none
    · rw [(hr.removed hc).2] at hm; exact h.names p n t hm
    · rw [(hr.updated hc).1] at hm
      have hfs : st'.fs p ≠ none := by rw [hr.fs]; simpa using hc
      exact ⟨st'.fs, t, hfs, hs _ _ hfs, hm⟩
  have hcur : Current gen (finish order p st' r) := by
    intro n t
    rw [hfin]
    show (_ : Option Text) = _ ↔ ∃ q, st'.fs q ≠ none ∧ _
    dsimp only
    by_cases hown : ∃ q, Generates gen q n
    · obtain ⟨q, hq⟩ := hown
      -- the right-hand side only concerns `q`
      have hright : (∃ q, st'.fs q ≠ none ∧ lastText n (filesOf (gen st'.fs q).1) = some t) ↔
          st'.fs q ≠ none ∧ lastText n (filesOf (gen st'.fs q).1) = some t := by
        constructor
        · rintro ⟨q', h4, h5⟩
          obtain ⟨u, hu⟩ := lastText_mem h5
          rw [hsep q q' n hq ⟨st'.fs, u, h4, hs _ _ h4, hu⟩]
          exact ⟨h4, h5⟩
        · exact fun h => ⟨q, h⟩
      rw [hright, List.foldl_cons]
      have hlast : st'.fs q ≠ none → ∃ u, lastText n (filesOf (gen st'.fs q).1) = some u := by
        intro hfs
        obtain ⟨u, hu⟩ := hf q n hq st'.fs hfs (hs _ _ hfs)
        exact lastText_isSome hu
      by_cases hqp : q = p
      · subst hqp
        rw [writeAll_untouched]
        · by_cases hc : c = none
          · have hfs : st'.fs q = none := by rw [hr.fs, hc]; simp
            rw [(hr.removed hc).2]
            have : (⟨true, cached st q⟩ : Result).writeFiles st.out n = none := by
              cases hl : lastText n (cached st q) with
              | some u =>
                obtain ⟨u, hu⟩ := lastText_mem hl
                exact writeFiles_delete rfl (t := u) hu _
              | none =>
                rw [writeFiles_untouched (lastText_none.mp hl)]
                cases ho : st.out n with
                | none => rfl
                | some u =>
                  obtain ⟨q', u', hm⟩ := h.out n u ho
                  rw [← hsep q q' n hq (h.names q' n u' hm)] at hm
                  exact absurd hm (lastText_none.mp hl u')
            rw [this]; simp [hfs]
          · have hfs : st'.fs q ≠ none := by rw [hr.fs]; simpa using hc
            rw [(hr.updated hc).1, writeFiles_write rfl]
            obtain ⟨u, hu⟩ := hlast hfs
            dsimp only
            rw [hu]; simp [hfs]
        · intro r' hr' u hu
          obtain ⟨q', hq', rfl⟩ := List.mem_map.mp hr'
          have := hsep q q' n hq (hrest q' n u hu)
          simp [this] at hq'
      · have hr0' : r.writeFiles st.out n = st.out n :=
          writeFiles_untouched (fun u hu => hqp (hsep q p n hq (hr0 n u hu))) _
        by_cases hqo : q ∈ order
        · -- split the other results at `q`
          have hqf : q ∈ order.filter (· ≠ p) := by simp [hqo, hqp]
          obtain ⟨a, b, hab⟩ := List.append_of_mem hqf
          have hnd : (order.filter (· ≠ p)).Nodup := hk.1.sublist List.filter_sublist
          rw [hab] at hnd ⊢
          rw [List.map_append, List.map_cons, List.foldl_append, List.foldl_cons]
          have hne : ∀ q', q' ∈ a ∨ q' ∈ b → q' ≠ q := by
            intro q' h' e
            subst e
            rw [List.nodup_append] at hnd
            obtain ⟨_, hb, hd⟩ := hnd
            rcases h' with h' | h'
            · exact hd q' h' q' (List.mem_cons_self ..) rfl
            · exact (List.nodup_cons.mp hb).1 h'
          rw [writeAll_untouched]
          · have ha : (a.map (otherResult st')).foldl (fun out r => r.writeFiles out) (r.writeFiles st.out) n =
                st.out n := by
              rw [writeAll_untouched, hr0']
              intro r' hr' u hu
              obtain ⟨q', hq', rfl⟩ := List.mem_map.mp hr'
              exact hne q' (Or.inl hq') (hsep q' q n (hrest q' n u hu) hq)
            by_cases hfs : st'.fs q = none
            · have : (otherResult st' q).delete = true := by simp [otherResult, hfs]
              have hgoal : (otherResult st' q).writeFiles
                  ((a.map (otherResult st')).foldl (fun out r => r.writeFiles out) (r.writeFiles st.out)) n = none := by
                cases hl : lastText n (cached st' q) with
                | some u =>
                  obtain ⟨u, hu⟩ := lastText_mem hl
                  exact writeFiles_delete this (t := u) hu _
                | none =>
                  rw [writeFiles_untouched (r := otherResult st' q) (lastText_none.mp hl), ha]
                  cases ho : st.out n with
                  | none => rfl
                  | some u =>
                    obtain ⟨q', u', hm⟩ := h.out n u ho
                    rw [← hsep q q' n hq (h.names q' n u' hm), ← h3 q hqp] at hm
                    exact absurd hm (lastText_none.mp hl u')
              rw [hgoal]; simp [hfs]
            · have : (otherResult st' q).delete = false := by simp [otherResult, hfs]
              rw [writeFiles_write this]
              obtain ⟨u, hu⟩ := hlast hfs
              rw [show (otherResult st' q).files = cached st' q from rfl, h1 q hfs n, hu]
              simp [hfs]
          · intro r' hr' u hu
            obtain ⟨q', hq', rfl⟩ := List.mem_map.mp hr'
            exact hne q' (Or.inr hq') (hsep q' q n (hrest q' n u hu) hq)
        · -- not in the cache
          have hcn : cached st' q = [] := by
            have : (st'.cache q).isSome = false := by
              cases hs' : (st'.cache q).isSome with
              | false => rfl
              | true => exact absurd ((hk.2 q).mpr hs') hqo
            rw [Option.isSome_eq_false_iff, Option.isNone_iff_eq_none] at this
            unfold cached; rw [this]; rfl
          rw [writeAll_untouched, hr0']
          · have hout : st.out n = none := by
              cases ho : st.out n with
              | none => rfl
              | some u =>
                obtain ⟨q', u', hm⟩ := h.out n u ho
                rw [← hsep q q' n hq (h.names q' n u' hm), ← h3 q hqp, hcn] at hm
                cases hm
            rw [hout]
            constructor
            · intro h; cases h
            · rintro ⟨h4, h5⟩
              rw [← h1 q h4 n, hcn] at h5
              simp [lastText] at h5
          · intro r' hr' u hu
            obtain ⟨q', hq', rfl⟩ := List.mem_map.mp hr'
            have := hsep q q' n hq (hrest q' n u hu)
            subst this
            exact hqo (List.mem_filter.mp hq').1
    · -- nobody generates the name
      rw [writeAll_untouched]
      · have hout : st.out n = none := by
          cases ho : st.out n with
          | none => rfl
          | some u => obtain ⟨q', u', hm⟩ := h.out n u ho; exact absurd ⟨q', h.names q' n u' hm⟩ hown
        rw [hout]
        constructor
        · intro h; cases h
        · rintro ⟨q, h4, h5⟩
          obtain ⟨u, hu⟩ := lastText_mem h5
          exact absurd ⟨q, st'.fs, u, h4, hs _ _ h4, hu⟩ hown
      · intro r' hr' u hu
        rcases List.mem_cons.mp hr' with rfl | hr'
        · exact hown ⟨p, hr0 n u hu⟩
        · obtain ⟨q', hq', rfl⟩ := List.mem_map.mp hr'
          exact hown ⟨q', hrest q' n u hu⟩
  refine ⟨⟨fun q hq n => ?_, fun q n t hm => ?_, fun n t ho => ?_⟩, hcur⟩
  · have hq' : st'.fs q ≠ none := by rw [hfin] at hq; exact hq
    rw [hca, if_neg (fun h => hq' h.2), h1 q hq' n, hfin]
  · rw [hca] at hm
    split at hm
    · cases hm
    · exact h2 q n t hm
  · obtain ⟨q, h4, h5⟩ := (hcur n t).mp ho
    have h4' : st'.fs q ≠ none := by rw [hfin] at h4; exact h4
    have h5' : lastText n (filesOf (gen st'.fs q).1) = some t := by rw [hfin] at h5; exact h5
    rw [← h1 q h4' n] at h5'
    obtain ⟨u, hu⟩ := lastText_mem h5'
    exact ⟨q, u, by rw [hca, if_neg (fun h => h4' h.2)]; exact hu⟩

theorem react_ok {gen : Gen} (hs : Succeeds gen) {p : Path} {c : Option Text} {ev : Event} {st st' : St}
    (he : c = none ↔ ev = .remove) (h : react gen ev p { st with fs := set st.fs p c } = (st', none)) : False := by
  have ok : c ≠ none → (gen (set st.fs p c) p).2 = true := fun hc => hs _ _ (by simpa using hc)
  cases ev with
  | remove => simp [react, deleteProtoFile] at h
  | create =>
    have := ok fun e => by cases he.mp e
    simp [react, createGeneratorResult, this] at h
  | write =>
    have := ok fun e => by cases he.mp e
    simp [react, updateProtoFile, createGeneratorResult, this] at h

theorem run_inv {gen : Gen} (hi : Independent gen) (hs : Succeeds gen) (hsep : Separate gen)
    (hf : FixedNames gen) {as : List Act} {st st' : St} (h : Inv gen st) (hrun : Run gen as st st')
    (hn : Noticed as) : Inv gen st' := by
  induction hrun with
  | nil => exact h
  | @snoc as a st st1 st2 _ hstep ih =>
    have hinv := ih h fun a ha => hn a (by simp [ha])
    cases hstep with
    | @silent p c =>
      have hc : c = none := hn _ (List.mem_append_right _ (List.mem_singleton.mpr rfl)) rfl
      subst hc
      refine ⟨fun q hq n => ?_, hinv.names, hinv.out⟩
      have hqp : q ≠ p := by rintro rfl; simp at hq
      show lastText n (cached st1 q) = _
      rw [gen_same hi none hqp]
      refine hinv.current q ?_ n
      simpa [set_other _ _ hqp] using hq
    | failed he hr => exact absurd hr fun hr => react_ok hs he hr
    | done he hr hk => exact (finish_spec hi hs hsep hf hinv (react_spec he hr) hk).1

/-- C71 (partial: only if generating always succeeds and depends on no other proto file, if different
proto files generate files with different names that do not depend on their content, and if only removals
go unnoticed): after every history of changes that ends with an event, the generated files are exactly
those of the current proto files. -/
theorem C71_current_partial (gen : Gen) (hi : Independent gen) (hs : Succeeds gen) (hsep : Separate gen)
    (hf : FixedNames gen) (fs : Fs) (as : List Act) (hn : Noticed as) (a : Act) (ha : a.event ≠ none) (st : St)
    (hrun : Run gen (as ++ [a]) (start gen fs) st) : Current gen st := by
  generalize hl : as ++ [a] = l at hrun
  cases hrun with
  | nil => simp at hl
  | @snoc as' a' _ st1 _ h1 h2 =>
    obtain ⟨rfl, rfl⟩ := List.append_singleton_inj.mp hl
    have hinv := run_inv hi hs hsep hf (inv_start hs fs) h1 hn
    cases h2 with
    | silent => exact absurd rfl ha
    | failed he hr => exact absurd hr fun hr => react_ok hs he hr
    | done he hr hk => exact (finish_spec hi hs hsep hf hinv (react_spec he hr) hk).2

/-! ## A single generation -/

/-- Results that write a name all with the same text, and one of them does. -/
theorem writeAll_agree {rs : List Result} {n : Name} {t : Text}
    (hw : ∀ r ∈ rs, r.delete = false) (h : ∀ r ∈ rs, ∀ u, lastText n r.files = some u → u = t)
    (hex : (∃ r ∈ rs, lastText n r.files = some t) ∨ out n = some t) :
    rs.foldl (fun out r => r.writeFiles out) out n = some t := by
  induction rs generalizing out with
  | nil => simpa using hex
  | cons r rs ih =>
    rw [List.foldl_cons]
    apply ih (fun r hr => hw r (List.mem_cons_of_mem _ hr)) (fun r hr => h r (List.mem_cons_of_mem _ hr))
    rw [writeFiles_write (hw r (List.mem_cons_self ..))]
    cases hl : lastText n r.files with
    | some u => right; rw [h r (List.mem_cons_self ..) u hl]; rfl
    | none =>
      rcases hex with ⟨r', hr', h'⟩ | h'
      · rcases List.mem_cons.mp hr' with rfl | hr'
        · rw [hl] at h'; cases h'
        · exact Or.inl ⟨r', hr', h'⟩
      · exact Or.inr (by simpa using h')

/-- C71, a single generation: whatever files are there before, afterwards every file that a current proto
file generates has the current text, and no other file has changed. -/
theorem C71_once (gen : Gen) (fs : Fs) (ha : Agree gen fs) (path : Path) (order : List Path)
    (hk : Keys order (generateAll gen fs)) (hpath : fs path ≠ none) (out : Name → Option Text) (st : St)
    (h : once gen order path fs out = some st) :
    (∀ p n t, fs p ≠ none → lastText n (filesOf (gen fs p).1) = some t → st.out n = some t) ∧
    ∀ n, (∀ p, fs p ≠ none → lastText n (filesOf (gen fs p).1) = none) → st.out n = out n := by
  have hex : ∀ p ∈ order, fs p ≠ none := by
    intro p hp
    have := (hk.2 p).mp hp
    intro e; simp [generateAll, e] at this
  have hca : ∀ p, fs p ≠ none → filesOf ((generateAll gen fs p).getD []) = filesOf (gen fs p).1 := by
    intro p hp
    by_cases hg : (gen fs p).1 = [] <;> simp [generateAll, hp, hg]
  unfold once at h
  rw [otherResults_eq path order hk.1] at h
  dsimp only at h
  -- the result of the named file
  have hout : st.out = ((order.filter (· ≠ path)).map (otherResult ⟨fs, generateAll gen fs, out⟩) ++
      [(⟨false, filesOf (gen fs path).1⟩ : Result)]).foldl (fun out r => r.writeFiles out) out := by
    split at h
    all_goals
      simp only [updateProtoFile, createGeneratorResult] at h
      by_cases hok : (gen fs path).2 = true
      · rw [if_pos hok] at h
        simp only [Option.map_some, Option.some.injEq] at h
        rw [← h]
      · rw [if_neg hok] at h; cases h
  have hmem : ∀ r, r ∈ (order.filter (· ≠ path)).map (otherResult ⟨fs, generateAll gen fs, out⟩) ++
      [(⟨false, filesOf (gen fs path).1⟩ : Result)] → r.delete = false ∧ ∃ p, fs p ≠ none ∧ r.files = filesOf (gen fs p).1 := by
    intro r hr
    rcases List.mem_append.mp hr with hr | hr
    · obtain ⟨p, hp, rfl⟩ := List.mem_map.mp hr
      have hp' := hex p (List.mem_filter.mp hp).1
      exact ⟨by simp [otherResult, hp'], p, hp', hca p hp'⟩
    · rw [List.mem_singleton.mp hr]; exact ⟨rfl, path, hpath, rfl⟩
  refine ⟨fun p n t hp ht => ?_, fun n hn => ?_⟩
  · rw [hout]
    apply writeAll_agree (fun r hr => (hmem r hr).1)
    · intro r hr u hu
      obtain ⟨_, q, hq, he⟩ := hmem r hr
      rw [he] at hu
      exact ha q p n u t hq hp hu ht
    · left
      by_cases hpp : p = path
      · subst hpp
        exact ⟨_, List.mem_append_right _ (List.mem_singleton.mpr rfl), ht⟩
      · refine ⟨otherResult ⟨fs, generateAll gen fs, out⟩ p, List.mem_append_left _ (List.mem_map.mpr ⟨p, ?_, rfl⟩), ?_⟩
        · simp only [List.mem_filter, ne_eq, hpp, not_false_eq_true, decide_true, and_true]
          apply (hk.2 p).mpr
          have : (gen fs p).1 ≠ [] := by intro e; rw [e] at ht; simp [filesOf, lastText] at ht
          simp [generateAll, hp, this]
        · show lastText n (filesOf ((generateAll gen fs p).getD [])) = some t
          rw [hca p hp, ht]
  · rw [hout, writeAll_untouched]
    intro r hr
    obtain ⟨_, q, hq, he⟩ := hmem r hr
    rw [he]
    exact lastText_none.mp (hn q hq)

/-! ## A history to which the theorem applies, and histories that show why each condition is needed -/

/-- Two proto files. -/
def two : Fs := fun p => if p = 0 then some 5 else if p = 1 then some 6 else none

/-- Every proto file generates one file with its content. -/
def copy : Gen := fun fs p => ([[(p, (fs p).getD 0)]], true)

theorem copy_names {p n : Nat} (h : Generates copy p n) : n = p := by
  obtain ⟨fs, t, _, _, h⟩ := h
  simp [copy, filesOf] at h
  exact h.1

theorem copy_ok : Independent copy ∧ Succeeds copy ∧ Separate copy ∧ FixedNames copy := by
  refine ⟨fun fs fs' p h => by simp [copy, h], fun _ _ _ => rfl,
    fun p q n h h' => (copy_names h).symm.trans (copy_names h'), fun p n h fs _ _ => ?_⟩
  rw [copy_names h]
  exact ⟨(fs p).getD 0, by simp [copy, filesOf]⟩

/-- The keys of a map whose keys are known to be `0` and `1`. -/
theorem keys_two {cache : Path → Option (List Resp)} (h0 : (cache 0).isSome) (h1 : (cache 1).isSome)
    (h : ∀ p, (cache (p + 2)).isSome = false) : Keys [0, 1] cache := by
  refine ⟨by decide, fun p => ?_⟩
  match p with
  | 0 => simp [h0]
  | 1 => simp [h1]
  | p + 2 => simp [h]

theorem keys_one {cache : Path → Option (List Resp)} (h0 : (cache 0).isSome)
    (h : ∀ p, (cache (p + 1)).isSome = false) : Keys [0] cache := by
  refine ⟨by decide, fun p => ?_⟩
  match p with
  | 0 => simp [h0]
  | p + 1 => simp [h]

theorem run_one {gen : Gen} {a : Act} {st st' : St} (h : Step gen a st st') : Run gen [a] st st' :=
  Run.snoc (as := []) Run.nil h

theorem run_two {gen : Gen} {a b : Act} {st st' st'' : St} (h : Step gen a st st') (h' : Step gen b st' st'') :
    Run gen [a, b] st st'' := Run.snoc (as := [a]) (run_one h) h'

/-- The first file is removed unnoticed, the second changes: the file of the first is removed, too. -/
example : ∃ st, Run copy ([⟨0, none, none⟩] ++ [⟨1, some 7, some .write⟩]) (start copy two) st ∧
    st.out 0 = none ∧ st.out 1 = some 7 :=
  ⟨_, run_two .silent (.done (order := [0, 1]) (by decide) rfl
    (keys_two rfl rfl (fun p => by simp [start, generateAll, two, copy, set]))), rfl, rfl⟩

/-- A single generation overwrites an old text and leaves a file of unknown origin alone. -/
example : ∃ st, once copy [0, 1] 1 two (fun n => if n = 0 ∨ n = 9 then some 3 else none) = some st ∧
    st.out 0 = some 5 ∧ st.out 1 = some 6 ∧ st.out 9 = some 3 ∧ Agree copy two ∧
    Keys [0, 1] (generateAll copy two) := by
  refine ⟨_, rfl, rfl, rfl, rfl, fun p q n t u _ _ h h' => ?_, ?_⟩
  · obtain ⟨x, hx⟩ := lastText_mem h
    obtain ⟨y, hy⟩ := lastText_mem h'
    simp [copy, filesOf] at hx hy
    obtain rfl : p = q := hx.1.symm.trans hy.1
    exact Option.some.inj (h.symm.trans h')
  · exact keys_two rfl rfl fun p => by simp [generateAll, two]

/-- C71 fails if a proto file imports another: a change of the imported file does not regenerate the
importing one. -/
theorem C71_import_false : ¬ ∀ (gen : Gen), Succeeds gen → Separate gen → FixedNames gen →
    ∀ (fs : Fs) (as : List Act), Noticed as → ∀ (a : Act), a.event ≠ none → ∀ st,
    Run gen (as ++ [a]) (start gen fs) st → Current gen st := by
  intro h
  let gen : Gen := fun fs p => ([[(p, if p = 0 then (fs 1).getD 0 else (fs p).getD 0)]], true)
  have hnames : ∀ {p n : Nat}, Generates gen p n → n = p := by
    rintro p n ⟨fs, t, _, _, h⟩
    simp [gen, filesOf] at h
    exact h.1
  have hrun : Run gen [⟨1, some 7, some .write⟩] (start gen two) _ :=
    run_one (.done (order := [0, 1]) (by decide) rfl
      (keys_two rfl rfl (fun p => by simp [start, generateAll, two, gen, set])))
  have := h gen (fun _ _ _ => rfl) (fun p q n h h' => (hnames h).symm.trans (hnames h'))
    (fun p n h fs _ _ => by rw [hnames h]; exact ⟨_, List.mem_singleton.mpr rfl⟩) two [] (fun _ h => by cases h)
    ⟨1, some 7, some .write⟩ (by simp) _ hrun
  have h1 := (this 0 7).mpr ⟨0, by decide, rfl⟩
  revert h1
  decide

/-- C71 fails if generating can fail: when a file with an error is removed, the files generated from its
last good version stay. -/
theorem C71_failure_false : ¬ ∀ (gen : Gen), Independent gen → Separate gen → FixedNames gen →
    ∀ (fs : Fs) (as : List Act), Noticed as → ∀ (a : Act), a.event ≠ none → ∀ st,
    Run gen (as ++ [a]) (start gen fs) st → Current gen st := by
  intro h
  let gen : Gen := fun fs p => if fs p = some 9 then ([], false) else ([[(p, (fs p).getD 0)]], true)
  have hnames : ∀ {p n : Nat}, Generates gen p n → n = p := by
    rintro p n ⟨fs, t, _, _, h⟩
    by_cases h9 : fs p = some 9
    · simp [gen, h9, filesOf] at h
    · simp [gen, h9, filesOf] at h; exact h.1
  have hrun : Run gen [⟨0, some 8, some .write⟩, ⟨0, some 9, some .write⟩, ⟨0, none, some .remove⟩]
      (start gen (set two 1 none)) _ :=
    Run.snoc (as := [⟨0, some 8, some .write⟩, ⟨0, some 9, some .write⟩])
      (run_two (.done (order := [0]) (by decide) rfl
          (keys_one rfl (fun p => by simp [start, generateAll, two, gen, set])))
        (.failed (by decide) rfl))
      (.done (order := []) (by decide) rfl
        ⟨by decide, fun p => by
          match p with
          | 0 => simp [deleteProtoFile]
          | p + 1 => simp [start, generateAll, two, gen, set, otherResults, finish, deleteProtoFile]⟩)
  have := h gen (fun fs fs' p h => by simp [gen, h]) (fun p q n h h' => (hnames h).symm.trans (hnames h'))
    (fun p n h fs _ hok => by
      rw [hnames h]
      by_cases h9 : fs p = some 9
      · simp [gen, h9] at hok
      · exact ⟨_, by simp only [gen, h9, if_false]; exact List.mem_singleton.mpr rfl⟩)
    (set two 1 none) [⟨0, some 8, some .write⟩, ⟨0, some 9, some .write⟩] (by intro a ha; simp at ha; rcases ha with rfl | rfl <;> simp)
    ⟨0, none, some .remove⟩ (by simp) _ hrun
  obtain ⟨p, h1, h2⟩ := (this 0 8).mp rfl
  match p, h1 with
  | 0, h1 => exact h1 rfl
  | 1, h1 => exact h1 rfl
  | p + 2, h1 => exact h1 rfl

/-- C71 fails if the names of the generated files depend on the content: after a change of the name the
old file stays. -/
theorem C71_names_false : ¬ ∀ (gen : Gen), Independent gen → Succeeds gen → Separate gen →
    ∀ (fs : Fs) (as : List Act), Noticed as → ∀ (a : Act), a.event ≠ none → ∀ st,
    Run gen (as ++ [a]) (start gen fs) st → Current gen st := by
  intro h
  let gen : Gen := fun fs p => if p = 0 then ([[((fs 0).getD 0, 0)]], true) else ([], true)
  have hnames : ∀ {p n : Nat}, Generates gen p n → p = 0 := by
    rintro p n ⟨fs, t, _, _, h⟩
    by_cases hp : p = 0
    · exact hp
    · simp [gen, hp, filesOf] at h
  have hrun : Run gen [⟨0, some 8, some .write⟩, ⟨0, some 9, some .write⟩] (start gen (set two 1 none)) _ :=
    run_two (.done (order := [0]) (by decide) rfl
        (keys_one rfl (fun p => by simp [start, generateAll, two, gen, set])))
      (.done (order := [0]) (by decide) rfl
        (keys_one rfl (fun p => by simp [start, generateAll, two, gen, set, finish, otherResults])))
  have := h gen (fun fs fs' p h => by
      by_cases hp : p = 0
      · subst hp; simp [gen, h]
      · simp [gen, hp]) (fun fs p _ => by by_cases hp : p = 0 <;> simp [gen, hp])
    (fun p q n h h' => (hnames h).trans (hnames h').symm)
    (set two 1 none) [⟨0, some 8, some .write⟩] (by intro a ha; simp at ha; rcases ha with rfl; simp)
    ⟨0, some 9, some .write⟩ (by simp) _ hrun
  obtain ⟨p, h1, h2⟩ := (this 8 0).mp rfl
  match p, h2 with
  | 0, h2 => revert h2; decide
  | p + 1, h2 => cases h2

/-- C71 fails if two proto files generate a file of the same name: removing one of them can remove the
file although the other one still generates it. -/
theorem C71_shared_name_false : ¬ ∀ (gen : Gen), Independent gen → Succeeds gen → FixedNames gen →
    ∀ (fs : Fs) (as : List Act), Noticed as → ∀ (a : Act), a.event ≠ none → ∀ st,
    Run gen (as ++ [a]) (start gen fs) st → Current gen st := by
  intro h
  let gen : Gen := fun _ _ => ([[(3, 4)]], true)
  have hrun : Run gen [⟨1, none, none⟩, ⟨0, some 7, some .write⟩] (start gen two) _ :=
    run_two .silent (.done (order := [0, 1]) (by decide) rfl
      (keys_two rfl rfl (fun p => by simp [start, generateAll, two, gen, set])))
  have := h gen (fun _ _ _ _ => rfl) (fun _ _ _ => rfl)
    (by rintro p n ⟨fs, t, _, _, h⟩ fs' _ _; exact ⟨t, h⟩) two [⟨1, none, none⟩]
    (by intro a ha; simp at ha; rcases ha with rfl; simp) ⟨0, some 7, some .write⟩ (by simp) _ hrun
  have h1 := (this 3 4).mpr ⟨0, by decide, rfl⟩
  revert h1
  decide

/-- C71 fails if a change goes unnoticed: its file is not generated again at later events. -/
theorem C71_unnoticed_false : ¬ ∀ (gen : Gen), Independent gen → Succeeds gen → Separate gen → FixedNames gen →
    ∀ (fs : Fs) (as : List Act) (a : Act), a.event ≠ none → ∀ st,
    Run gen (as ++ [a]) (start gen fs) st → Current gen st := by
  intro h
  have hrun : Run copy [⟨1, some 8, none⟩, ⟨0, some 7, some .write⟩] (start copy two) _ :=
    run_two .silent (.done (order := [0, 1]) (by decide) rfl
      (keys_two rfl rfl (fun p => by simp [start, generateAll, two, copy, set])))
  have := h copy copy_ok.1 copy_ok.2.1 copy_ok.2.2.1 copy_ok.2.2.2 two [⟨1, some 8, none⟩]
    ⟨0, some 7, some .write⟩ (by simp) _ hrun
  have h1 := (this 1 8).mpr ⟨1, by decide, rfl⟩
  revert h1
  decide

/-! ## Events -/

/-- Events that were taken from `fsnotify` but not handled yet, oldest first. -/
def Loops.pending {E : Type} (s : Loops E) : List E :=
  (match s.recv with
    | .idle => []
    | .got e => [e]
    | .handling e => [e]) ++ s.sending.toList

theorem working_running {E : Type} {relevant : E → Bool} {es : List (E × Bool)} {s : Loops E}
    (h : LoopRun relevant es s) : s.working = s.recv.running := by
  induction h with
  | init => rfl
  | event _ hs ih =>
    cases hs with
    | busy => exact ih
    | ignore => exact ih
    | send => exact ih
  | tau _ hs ih =>
    cases hs with
    | take _ hr => rw [hr] at ih; exact ih
    | begin => rfl
    | finish => rfl

/-- C71, the events: every relevant event that arrives while the handler is not running is handled
exactly once, in order of arrival, and no other event is. -/
theorem C71_events {E : Type} (relevant : E → Bool) (es : List (E × Bool)) (s : Loops E)
    (h : LoopRun relevant es s) :
    s.handled ++ s.pending = (es.filter fun x => relevant x.1 && !x.2).map Prod.fst := by
  induction h with
  | init => rfl
  | @event es e s s' hrun hs ih =>
    have hw := working_running hrun
    rw [List.filter_append, List.map_append, ← ih]
    cases hs with
    | busy _ hb => rw [hb] at hw; simp [← hw]
    | ignore _ _ hr => simp [hr]
    | send h1 h2 hr =>
      rw [h2] at hw
      simp [hr, ← hw, Loops.pending, h1]
  | tau _ hs ih =>
    rw [← ih]
    cases hs with
    | take h1 h2 => simp [Loops.pending, h1, h2]
    | begin h1 => simp [Loops.pending, h1]
    | finish h1 => simp [Loops.pending, h1]

/-- C71 fails for the events that arrive while the handler is running: they are lost. -/
theorem C71_events_all_false : ¬ ∀ (E : Type) (relevant : E → Bool) (es : List (E × Bool)) (s : Loops E),
    LoopRun relevant es s → s.pending = [] → s.handled = (es.map Prod.fst).filter relevant := by
  intro h
  let r : Nat → Bool := fun _ => true
  have h0 : LoopRun r [(1, false)] ⟨false, some 1, .idle, []⟩ :=
    .event (es := []) .init (.send rfl rfl rfl)
  have h1 : LoopRun r [(1, false)] ⟨true, none, .handling 1, []⟩ :=
    .tau (.tau h0 (.take rfl rfl)) (.begin rfl)
  have h2 : LoopRun r [(1, false), (2, true)] ⟨true, none, .handling 1, []⟩ :=
    .event (es := [(1, false)]) h1 (.busy rfl rfl)
  have h3 : LoopRun r [(1, false), (2, true)] ⟨false, none, .idle, [1]⟩ := .tau h2 (.finish rfl)
  have := h Nat r _ _ h3 rfl
  revert this
  decide

/-- A run in which an event waits while the first one is handled. -/
example : LoopRun (fun e : Nat => e != 0) [(1, false), (0, false), (2, false)]
    ⟨true, some 2, .handling 1, []⟩ :=
  .tau (.event (es := [(1, false), (0, false)])
    (.event (es := [(1, false)])
      (.tau (.event (es := []) .init (.send rfl rfl rfl)) (.take rfl rfl)) (.ignore rfl rfl rfl))
    (.send rfl rfl rfl)) (.begin rfl)

end Verif.Watch
