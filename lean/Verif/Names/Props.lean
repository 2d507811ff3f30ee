import Verif.Names.Lemmas

/-! # C42, C43, C44, C48, C49, C58: names -/

namespace Verif.Names

/-! ## C42: method names -/

theorem split_two (c : Char) (s : Str) (h : s.count c = 1) :
    ∃ a b, s = a ++ c :: b ∧ c ∉ a ∧ c ∉ b ∧ split c s = [a, b] := by
  obtain ⟨a, b, rfl, hb⟩ := exists_split c s (by rw [mem_iff_count]; omega)
  have ha : c ∉ a := by
    rw [mem_iff_count]
    simp only [List.count_append, List.count_cons_self] at h
    omega
  refine ⟨a, b, rfl, ha, hb, ?_⟩
  rw [split_append, split_of_not_mem _ _ ha, split_of_not_mem _ _ hb]; rfl

/-- C42: a fully qualified method name is split into its package, service and method. -/
theorem C42_qualified (cur pkg svc method : Str) (h1 : '/' ∉ pkg) (h2 : '.' ∉ svc) (h3 : '/' ∉ svc) (h4 : '/' ∉ method) :
    splitMethod cur (pkg ++ '.' :: (svc ++ '/' :: method)) = some (pkg, svc, method) := by
  have hs : '/' ∉ pkg ++ '.' :: svc := by simp [h1, h3]
  have he : pkg ++ '.' :: (svc ++ '/' :: method) = (pkg ++ '.' :: svc) ++ '/' :: method := by simp
  unfold splitMethod
  rw [he, split_append, split_of_not_mem _ _ hs, split_of_not_mem _ _ h4]
  simp only [List.singleton_append]
  have hd : ((pkg ++ '.' :: svc).contains '.') = true := by simp
  simp only [hd, Bool.not_true, Bool.false_eq_true, if_false]
  rw [split_append, split_of_not_mem _ _ h2]
  have hl : ¬ (split '.' pkg ++ [svc]).length ≤ 1 := by
    simp only [List.length_append, length_split, List.length_singleton]; omega
  rw [if_neg hl]
  simp [join_split]

/-- C42: a method name without package refers to the current package. -/
theorem C42_unqualified (cur svc method : Str) (h2 : '.' ∉ svc) (h3 : '/' ∉ svc) (h4 : '/' ∉ method) :
    splitMethod cur (svc ++ '/' :: method) = some (cur, svc, method) := by
  unfold splitMethod
  rw [split_append, split_of_not_mem _ _ h3, split_of_not_mem _ _ h4]
  simp [h2]

/-- C42: names without exactly one slash are rejected, all others are accepted. -/
theorem C42_rejected_iff (cur name : Str) : splitMethod cur name = none ↔ name.count '/' ≠ 1 := by
  constructor
  · intro h hc
    obtain ⟨a, b, rfl, ha, hb, _⟩ := split_two '/' name hc
    by_cases hd : '.' ∈ a
    · obtain ⟨p, s, rfl, hs⟩ := exists_split '.' a hd
      simp only [List.mem_append, List.mem_cons, not_or] at ha
      rw [List.append_assoc, List.cons_append, C42_qualified cur p s b ha.1 hs ha.2.2 hb] at h
      cases h
    · rw [C42_unqualified cur a b hd ha hb] at h; cases h
  · intro hc
    unfold splitMethod
    have hl := length_split '/' name
    split
    · rename_i svc method heq
      rw [heq] at hl
      simp at hl
      omega
    · rfl

/-- C42: whatever is accepted reads back: the result spells the given name. -/
theorem C42_reads_back (cur name pkg svc method : Str) (h : splitMethod cur name = some (pkg, svc, method)) :
    '.' ∉ svc ∧ '/' ∉ svc ∧ '/' ∉ method ∧
    (name = pkg ++ '.' :: (svc ++ '/' :: method) ∨ (pkg = cur ∧ name = svc ++ '/' :: method)) := by
  have hc : name.count '/' = 1 := by
    by_cases hc : name.count '/' = 1
    · exact hc
    · rw [(C42_rejected_iff cur name).mpr hc] at h; cases h
  obtain ⟨a, b, rfl, ha, hb, _⟩ := split_two '/' name hc
  by_cases hd : '.' ∈ a
  · obtain ⟨p, s, rfl, hs⟩ := exists_split '.' a hd
    simp only [List.mem_append, List.mem_cons, not_or] at ha
    rw [List.append_assoc, List.cons_append, C42_qualified cur p s b ha.1 hs ha.2.2 hb] at h
    cases h
    exact ⟨hs, ha.2.2, hb, Or.inl (by simp)⟩
  · rw [C42_unqualified cur a b hd ha hb] at h
    cases h
    exact ⟨hd, ha, hb, Or.inr ⟨rfl, rfl⟩⟩

example : splitMethod "cur".toList "org.user.v1.UserService/GetUser".toList =
    some ("org.user.v1".toList, "UserService".toList, "GetUser".toList) := by decide
example : splitMethod "cur".toList "S/M".toList = some ("cur".toList, "S".toList, "M".toList) := by decide
example : splitMethod "cur".toList "a.S/M/N".toList = none := by decide

/-! ## C43: packages -/

/-- `q` is a package part of the name: the name continues after it with a dot. -/
def PackagePart (q name : Str) : Prop := ∃ rest, name = q ++ '.' :: rest

theorem packagePart_iff (q n : Str) : PackagePart q n ↔
    ∃ i, 0 < i ∧ i < (split '.' n).length ∧ q = join ['.'] ((split '.' n).take i) ∧ i = (split '.' q).length := by
  constructor
  · rintro ⟨rest, rfl⟩
    refine ⟨(split '.' q).length, ?_, ?_, ?_, rfl⟩
    · rw [length_split]; omega
    · rw [split_append]; simp only [List.length_append]; have := length_split '.' rest; omega
    · rw [split_append, List.take_left, join_split]
  · rintro ⟨i, h1, h2, rfl, _⟩
    refine ⟨join ['.'] ((split '.' n).drop i), ?_⟩
    have hne1 : (split '.' n).take i ≠ [] := by
      intro h
      have := congrArg List.length h
      simp only [List.length_take, List.length_nil] at this
      omega
    have hne2 : (split '.' n).drop i ≠ [] := by
      intro h
      have := congrArg List.length h
      simp only [List.length_drop, List.length_nil] at this
      omega
    rw [← join_append '.' _ _ hne1 hne2, List.take_append_drop, join_split]

theorem findPackage_some (known : Str → Bool) (names : List Str) (k : Nat) (p : Str)
    (h : findPackage known names k = some p) :
    ∃ i, 0 < i ∧ i ≤ k ∧ p = join ['.'] (names.take i) ∧ known p = true ∧
      ∀ j, i < j → j ≤ k → known (join ['.'] (names.take j)) = false := by
  induction k with
  | zero => cases h
  | succ k ih =>
    simp only [findPackage] at h
    split at h
    · rename_i hk
      cases h
      exact ⟨k + 1, by omega, by omega, rfl, hk, fun j h1 h2 => by omega⟩
    · rename_i hk
      obtain ⟨i, h1, h2, h3, h4, h5⟩ := ih h
      refine ⟨i, h1, by omega, h3, h4, ?_⟩
      intro j hj1 hj2
      by_cases hjk : j = k + 1
      · subst hjk; simpa using hk
      · exact h5 j hj1 (by omega)

theorem findPackage_none (known : Str → Bool) (names : List Str) (k : Nat)
    (h : findPackage known names k = none) (j : Nat) (h1 : 0 < j) (h2 : j ≤ k) :
    known (join ['.'] (names.take j)) = false := by
  induction k with
  | zero => omega
  | succ k ih =>
    simp only [findPackage] at h
    split at h
    · cases h
    · rename_i hk
      by_cases hjk : j = k + 1
      · subst hjk; simpa using hk
      · exact ih h (by omega)

/-- C43: the package found is the longest known package that the name (without leading dot) starts
with. -/
theorem C43_longest (known : Str → Bool) (name p : Str) :
    lookupPackage known name = some p ↔
      known p = true ∧ PackagePart p (trimPrefix ['.'] name) ∧
      ∀ q, known q = true → PackagePart q (trimPrefix ['.'] name) → q.length ≤ p.length := by
  generalize hn : trimPrefix ['.'] name = n
  have fwd : ∀ p, lookupPackage known name = some p → known p = true ∧ PackagePart p n ∧
      ∀ q, known q = true → PackagePart q n → q.length ≤ p.length := by
    intro p h
    unfold lookupPackage at h
    rw [hn] at h
    simp only at h
    split at h
    · cases h
    · rename_i hl
      obtain ⟨i, h1, h2, h3, h4, h5⟩ := findPackage_some _ _ _ _ h
      have hp : PackagePart p n := by
        rw [packagePart_iff]
        refine ⟨i, h1, by omega, h3, ?_⟩
        rw [h3, split_join]
        · simp only [List.length_take]; omega
        · intro he
          have := congrArg List.length he
          simp only [List.length_take, List.length_nil] at this
          omega
        · intro x hx
          exact not_mem_split '.' n x (List.mem_of_mem_take hx)
      refine ⟨h4, hp, ?_⟩
      intro q hq hqp
      obtain ⟨restq, hrq⟩ := hqp
      obtain ⟨restp, hrp⟩ := hp
      obtain ⟨j, hj1, hj2, hj3, hj4⟩ := (packagePart_iff q n).mp ⟨restq, hrq⟩
      by_cases hlt : p.length < q.length
      · exfalso
        -- then p ++ "." is a prefix of q, so q has more segments
        have hpre : p ++ ['.'] <+: q := by
          have e1 : (p ++ ['.']) <+: n := ⟨restp, by simp [hrp]⟩
          have e2 : q <+: n := ⟨'.' :: restq, hrq.symm⟩
          exact List.prefix_of_prefix_length_le e1 e2 (by simp; omega)
        obtain ⟨r, hr⟩ := hpre
        have hq' : q = p ++ '.' :: r := by rw [← hr]; simp
        have hip : i = (split '.' p).length := by
          rw [h3, split_join]
          · simp only [List.length_take]; omega
          · intro he
            have := congrArg List.length he
            simp only [List.length_take, List.length_nil] at this
            omega
          · intro x hx
            exact not_mem_split '.' n x (List.mem_of_mem_take hx)
        have hji : i < j := by
          rw [hj4, hip, hq', split_append]
          simp only [List.length_append]
          have := length_split '.' r
          omega
        have := h5 j hji (by omega)
        rw [← hj3, hq] at this
        cases this
      · omega
  constructor
  · exact fwd p
  · rintro ⟨hk, hp, hmax⟩
    cases hl : lookupPackage known name with
    | none =>
      exfalso
      unfold lookupPackage at hl
      rw [hn] at hl
      simp only at hl
      obtain ⟨i, h1, h2, h3, _⟩ := (packagePart_iff p n).mp hp
      rw [if_neg (by omega)] at hl
      have := findPackage_none _ _ _ hl i h1 (by omega)
      rw [← h3, hk] at this
      cases this
    | some p' =>
      obtain ⟨hk', hp', hmax'⟩ := fwd p' hl
      have hlen : p.length = p'.length := Nat.le_antisymm (hmax' p hk hp) (hmax p' hk' hp')
      obtain ⟨r, hr⟩ := hp
      obtain ⟨r', hr'⟩ := hp'
      rw [hr] at hr'
      rw [(List.append_inj hr' hlen).1]

/-- C43: no package is found exactly if no known package is a part of the name. -/
theorem C43_none (known : Str → Bool) (name : Str) :
    lookupPackage known name = none ↔ ∀ q, PackagePart q (trimPrefix ['.'] name) → known q = false := by
  constructor
  · intro h q hq
    unfold lookupPackage at h
    simp only at h
    obtain ⟨i, h1, h2, h3, _⟩ := (packagePart_iff q _).mp hq
    rw [if_neg (by omega)] at h
    rw [h3]
    exact findPackage_none _ _ _ h i h1 (by omega)
  · intro h
    cases hl : lookupPackage known name with
    | none => rfl
    | some p =>
      obtain ⟨hk, hp, _⟩ := (C43_longest known name p).mp hl
      rw [h p hp] at hk; cases hk

/-- C43: the rest of the name, after its package, is what is looked up inside the package. -/
theorem C43_rest (pkg t : Str) (hd : pkg.head? ≠ some '.') (hne : pkg ≠ []) : trimPackage pkg (pkg ++ '.' :: t) = t ∧
    trimPackage pkg ('.' :: (pkg ++ '.' :: t)) = t := by
  have h1 : trimPrefix ['.'] (pkg ++ '.' :: t) = pkg ++ '.' :: t := by
    cases pkg with
    | nil => exact absurd rfl hne
    | cons c cs =>
      have hc : ¬ '.' = c := fun h => hd (by rw [← h]; rfl)
      simp [trimPrefix, List.isPrefixOf, hc]
  have h2 : trimPrefix ['.'] ('.' :: (pkg ++ '.' :: t)) = pkg ++ '.' :: t := by
    simp [trimPrefix, List.isPrefixOf]
  have h3 : trimPrefix (pkg ++ ['.']) (pkg ++ '.' :: t) = t := by
    have e : pkg ++ '.' :: t = (pkg ++ ['.']) ++ t := by simp
    rw [e]
    unfold trimPrefix
    have : (pkg ++ ['.']).isPrefixOf ((pkg ++ ['.']) ++ t) = true := by
      rw [List.isPrefixOf_iff_prefix]; exact ⟨t, rfl⟩
    rw [if_pos this, List.drop_left]
  unfold trimPackage
  rw [h1, h2]
  simp [h3]

example : lookupPackage (fun p => p = "a".toList || p = "a.b".toList || p = "a.b.c.D".toList) ".a.b.c.D".toList = some "a.b".toList := by
  decide
example : trimPackage "a.b".toList ".a.b.c.D".toList = "c.D".toList := by decide

/-! ## C44: go_package -/

/-- C44: `path;name`. -/
theorem C44_path_and_name (path name : Str) (h1 : ';' ∉ path) (h2 : ';' ∉ name) :
    splitGoPackage (path ++ ';' :: name) = some (path, name) := by
  simp [splitGoPackage, split_append, split_of_not_mem _ _ h1, split_of_not_mem _ _ h2]

/-- C44: a path alone: the package is called like its last segment. -/
theorem C44_path_only (s : Str) (h : ';' ∉ s) :
    ('/' ∉ s → splitGoPackage s = some (s, s)) ∧
    (∀ a b, s = a ++ '/' :: b → '/' ∉ b → splitGoPackage s = some (s, b)) := by
  constructor
  · intro h2
    simp [splitGoPackage, split_of_not_mem _ _ h, split_of_not_mem _ _ h2]
  · rintro a b rfl hb
    simp only [splitGoPackage, split_of_not_mem _ _ h, split_append, split_of_not_mem _ _ hb]
    simp

/-- C44: options with more than one semicolon, and only these, are rejected. -/
theorem C44_rejected_iff (s : Str) : splitGoPackage s = none ↔ 2 ≤ s.count ';' := by
  have hl := length_split ';' s
  unfold splitGoPackage
  constructor
  · intro h
    split at h
    · cases h
    · cases h
    · rename_i h1 h2
      cases hs : split ';' s with
      | nil => exact absurd hs (split_ne_nil _ _)
      | cons a t =>
        cases t with
        | nil => exact absurd hs (h1 a)
        | cons b t =>
          cases t with
          | nil => exact absurd hs (h2 a b)
          | cons c t => rw [hs] at hl; simp only [List.length_cons] at hl; omega
  · intro h
    split
    · rename_i hs; rw [hs] at hl; simp at hl; omega
    · rename_i hs; rw [hs] at hl; simp at hl; omega
    · rfl

example : splitGoPackage "example.com/foo/v1;foov1".toList = some ("example.com/foo/v1".toList, "foov1".toList) := by decide
example : splitGoPackage "example.com/foo".toList = some ("example.com/foo".toList, "foo".toList) := by decide

/-! ## C48: function identifiers -/

theorem underscores_inj_dotfree (a b : Str) (h1 : '_' ∉ a) (h2 : '_' ∉ b) (h : underscores a = underscores b) : a = b := by
  induction a generalizing b with
  | nil => cases b with
    | nil => rfl
    | cons _ _ => simp [underscores] at h
  | cons c a ih =>
    cases b with
    | nil => simp [underscores] at h
    | cons d b =>
      simp only [underscores, List.map_cons, List.cons.injEq] at h
      simp only [List.mem_cons, not_or] at h1 h2
      rw [ih b h1.2 h2.2 h.2]
      have hcd := h.1
      by_cases hc : c = '.'
      · by_cases hd : d = '.'
        · rw [hc, hd]
        · rw [if_pos hc, if_neg hd] at hcd; exact absurd hcd h2.1
      · by_cases hd : d = '.'
        · rw [if_neg hc, if_pos hd] at hcd; exact absurd hcd.symm h1.1
        · rw [if_neg hc, if_neg hd] at hcd; rw [hcd]

/-- The number of dot separated parts. -/
def parts (s : Str) : Nat := s.count '.' + 1

theorem split_underscores (s : Str) (h : '_' ∉ s) : split '_' (underscores s) = split '.' s := by
  induction s with
  | nil => rfl
  | cons c s ih =>
    simp only [List.mem_cons, not_or] at h
    simp only [underscores, List.map_cons] at ih ⊢
    by_cases hc : c = '.'
    · subst hc
      simp only [if_true, split]
      rw [ih h.2]
    · simp only [hc, if_false, split, if_neg (Ne.symm h.1)]
      rw [ih h.2]

theorem underscores_join (l : List Str) : underscores (join ['_'] l) = join ['_'] (l.map underscores) := by
  induction l with
  | nil => rfl
  | cons a l ih =>
    cases l with
    | nil => rfl
    | cons b r =>
      rw [join_cons _ a _ (by simp), List.map_cons, join_cons _ (underscores a) _ (by simp), ← ih]
      simp [underscores]

theorem split_id (l : List Str) (hne : l ≠ []) (h : ∀ s ∈ l, '_' ∉ s) :
    split '_' (underscores (join ['_'] l)) = l.flatMap (split '.') := by
  rw [underscores_join]
  induction l with
  | nil => exact absurd rfl hne
  | cons a l ih =>
    cases l with
    | nil => simp only [List.map_cons, List.map_nil, join]; rw [split_underscores a (h a (by simp))]; simp
    | cons b r =>
      rw [List.map_cons, join_cons _ _ _ (by simp), List.append_assoc, List.singleton_append, split_append,
        split_underscores a (h a (by simp)), ih (by simp) (fun s hs => h s (by simp [hs]))]
      rfl

theorem flatMap_split_inj (l m : List Str) (hlen : l.map parts = m.map parts)
    (h : l.flatMap (split '.') = m.flatMap (split '.')) : l = m := by
  induction l generalizing m with
  | nil => cases m with
    | nil => rfl
    | cons _ _ => simp at hlen
  | cons a l ih =>
    cases m with
    | nil => simp at hlen
    | cons b m =>
      simp only [List.map_cons, List.cons.injEq] at hlen
      simp only [List.flatMap_cons] at h
      have hl : (split '.' a).length = (split '.' b).length := by
        rw [length_split, length_split]; exact hlen.1
      obtain ⟨h1, h2⟩ := List.append_inj h hl
      rw [ih m hlen.2 h2, ← join_split '.' a, ← join_split '.' b, h1]

/-- C48 (partial: names without underscores whose parts are equally many): functions with the same
identifier are the same function with the same types. -/
theorem C48_injective_partial (pkg fn pkg' fn' : Str) (ts ts' : List Str)
    (h1 : ∀ s ∈ pkg :: fn :: ts, '_' ∉ s) (h2 : ∀ s ∈ pkg' :: fn' :: ts', '_' ∉ s)
    (hp : (pkg :: fn :: ts).map parts = (pkg' :: fn' :: ts').map parts)
    (h : functionID (functionPrefix pkg fn) ts = functionID (functionPrefix pkg' fn') ts') :
    pkg = pkg' ∧ fn = fn' ∧ ts = ts' := by
  have e : ∀ (a b : Str) (l : List Str), join ['_'] (functionPrefix a b :: l) = join ['_'] (a :: b :: l) := by
    intro a b l
    cases l with
    | nil => simp [join, functionPrefix]
    | cons c r =>
      rw [join_cons _ _ _ (by simp), join_cons _ a _ (by simp), join_cons _ b _ (by simp)]
      simp [functionPrefix]
  unfold functionID at h
  rw [e, e] at h
  have := congrArg (split '_') h
  rw [split_id _ (by simp) h1, split_id _ (by simp) h2] at this
  have := flatMap_split_inj _ _ hp this
  simp only [List.cons.injEq] at this
  exact this

/-- C48 for overloads of one function with scalar types: equal identifiers mean equal types. -/
theorem C48_scalar_overloads_partial (pkg fn : Str) (ts ts' : List Str) (hp : '_' ∉ pkg) (hf : '_' ∉ fn)
    (h1 : ∀ s ∈ ts, '_' ∉ s ∧ '.' ∉ s) (h2 : ∀ s ∈ ts', '_' ∉ s ∧ '.' ∉ s)
    (h : functionID (functionPrefix pkg fn) ts = functionID (functionPrefix pkg fn) ts') : ts = ts' := by
  have hl : ts.length = ts'.length := by
    have e : ∀ (a b : Str) (l : List Str), join ['_'] (functionPrefix a b :: l) = join ['_'] (a :: b :: l) := by
      intro a b l
      cases l with
      | nil => simp [join, functionPrefix]
      | cons c r =>
        rw [join_cons _ _ _ (by simp), join_cons _ a _ (by simp), join_cons _ b _ (by simp)]
        simp [functionPrefix]
    unfold functionID at h
    rw [e, e] at h
    have hc := congrArg (fun s => (split '_' s).length) h
    rw [split_id _ (by simp) (by intro s hs; simp at hs; rcases hs with rfl | rfl | hs <;> simp_all),
      split_id _ (by simp) (by intro s hs; simp at hs; rcases hs with rfl | rfl | hs <;> simp_all)] at hc
    have scal : ∀ l : List Str, (∀ s ∈ l, '.' ∉ s) → (l.flatMap (split '.')).length = l.length := by
      intro l hl
      induction l with
      | nil => rfl
      | cons a l ih =>
        simp only [List.flatMap_cons, List.length_append, List.length_cons]
        rw [split_of_not_mem _ _ (hl a (by simp)), ih (fun s hs => hl s (by simp [hs]))]
        simp; omega
    simp only [List.flatMap_cons, List.length_append] at hc
    rw [scal ts (fun s hs => (h1 s hs).2), scal ts' (fun s hs => (h2 s hs).2)] at hc
    omega
  have hpart : ∀ l : List Str, (∀ s ∈ l, '.' ∉ s) → l.map parts = List.replicate l.length 1 := by
    intro l hl
    induction l with
    | nil => rfl
    | cons a l ih =>
      rw [List.map_cons, ih (fun s hs => hl s (by simp [hs])), List.length_cons, List.replicate_succ]
      have : parts a = 1 := by
        have := hl a (by simp)
        rw [mem_iff_count] at this
        unfold parts; omega
      rw [this]
  refine (C48_injective_partial pkg fn pkg fn ts ts' ?_ ?_ ?_ h).2.2
  · intro s hs; simp at hs; rcases hs with rfl | rfl | hs
    · exact hp
    · exact hf
    · exact (h1 s hs).1
  · intro s hs; simp at hs; rcases hs with rfl | rfl | hs
    · exact hp
    · exact hf
    · exact (h2 s hs).1
  · simp only [List.map_cons]
    rw [hpart ts (fun s hs => (h1 s hs).2), hpart ts' (fun s hs => (h2 s hs).2), hl]

/-- C48 is false of the code: functions of different packages get the same identifier, with and
without underscores in their names. -/
theorem C48_unique_false :
    functionID (functionPrefix "a.b".toList "c".toList) ["int64".toList] =
      functionID (functionPrefix "a".toList "b_c".toList) ["int64".toList] ∧
    functionID (functionPrefix "a".toList "f".toList) ["p.T".toList, "int64".toList] =
      functionID (functionPrefix "a.f".toList "p".toList) ["T".toList, "int64".toList] := by
  decide

example : functionID (functionPrefix "example.regexp".toList "compile".toList) ["string".toList, "example.regexp.Regexp".toList] =
    "example_regexp_compile_string_example_regexp_Regexp".toList := by decide

/-! ## C49: the argument reference -/

/-- C49: the compiled expression is the given one with the argument's name at every `$`: its parts
between the `$` are unchanged. -/
theorem C49_rewritten (s : Str) (t : Str) (h : celExpr s = some t) : t = join arg (split '$' s) := by
  unfold celExpr at h
  split at h
  · cases h
  · cases h
    rename_i h0
    clear h0
    induction s with
    | nil => rfl
    | cons c s ih =>
      simp only [split]
      by_cases hc : c = '$'
      · subst hc
        rw [if_pos rfl, join_cons _ _ _ (split_ne_nil _ _), ← ih]
        simp [rewrite]
      · rw [if_neg hc]
        obtain ⟨a, t, ha⟩ := split_cons '$' s
        rw [ha] at ih ⊢
        simp only
        have hr : rewrite (c :: s) = c :: rewrite s := by simp [rewrite, hc]
        rw [hr, ih]
        cases t with
        | nil => rfl
        | cons b r => rw [join_cons _ a _ (by simp), join_cons _ (c :: a) _ (by simp)]; rfl

theorem occurs_iff (p s : Str) : occurs p s = true ↔ ∃ a b, s = a ++ p ++ b := by
  induction s with
  | nil =>
    simp only [occurs, List.isEmpty_iff]
    constructor
    · rintro rfl; exact ⟨[], [], rfl⟩
    · rintro ⟨a, b, h⟩
      have := congrArg List.length h
      simp at this
      exact List.eq_nil_of_length_eq_zero (by omega)
  | cons c s ih =>
    simp only [occurs, Bool.or_eq_true, List.isPrefixOf_iff_prefix, ih]
    constructor
    · rintro (⟨t, h⟩ | ⟨a, b, h⟩)
      · exact ⟨[], t, by simpa using h.symm⟩
      · exact ⟨c :: a, b, by simp [h]⟩
    · rintro ⟨a, b, h⟩
      cases a with
      | nil => exact Or.inl ⟨b, by simpa using h.symm⟩
      | cons d a =>
        simp only [List.cons_append, List.cons.injEq] at h
        exact Or.inr ⟨a, b, h.2⟩

/-- C49: an expression is rejected exactly if it contains the reserved name. -/
theorem C49_reserved_iff (s : Str) : celExpr s = none ↔ ∃ a b, s = a ++ "__ARG__".toList ++ b := by
  have : "__ARG__".toList = arg := rfl
  rw [this, ← occurs_iff]
  unfold celExpr
  cases occurs arg s <;> simp

/-- Reads the argument's name back as `$`. -/
def restore : Str → Str
  | [] => []
  | '_' :: '_' :: 'A' :: 'R' :: 'G' :: '_' :: '_' :: s => '$' :: restore s
  | c :: s => c :: restore s

theorem restore_cons (c : Char) (s : Str) (h : ¬ arg <+: c :: s) : restore (c :: s) = c :: restore s := by
  rw [restore]
  intro s' h1 h2
  apply h
  subst h1
  exact ⟨s', by rw [h2]; rfl⟩

theorem restore_arg (s : Str) : restore (arg ++ s) = '$' :: restore s := rfl

theorem rewrite_cons (c : Char) (s : Str) (h : c ≠ '$') : rewrite (c :: s) = c :: rewrite s := by
  simp [rewrite, h]

theorem rewrite_dollar (s : Str) : rewrite ('$' :: s) = arg ++ rewrite s := by simp [rewrite]

/-- If the rewritten text starts with a character that is not an underscore, so does the text. -/
theorem rewrite_head (c : Char) (s t : Str) (hc : c ≠ '_') (h : rewrite s = c :: t) :
    ∃ s', s = c :: s' ∧ rewrite s' = t := by
  cases s with
  | nil => simp [rewrite] at h
  | cons d s =>
    by_cases hd : d = '$'
    · subst hd
      rw [rewrite_dollar] at h
      have : '_' = c := by
        have := congrArg List.head? h
        simpa [arg] using this
      exact absurd this.symm hc
    · rw [rewrite_cons d s hd] at h
      simp only [List.cons.injEq] at h
      exact ⟨s, by rw [h.1], h.2⟩

theorem rewrite_underscore (s t : Str) (h : rewrite s = '_' :: t) :
    (∃ s', s = '_' :: s' ∧ rewrite s' = t) ∨ ∃ s', s = '$' :: s' := by
  cases s with
  | nil => simp [rewrite] at h
  | cons d s =>
    by_cases hd : d = '$'
    · exact Or.inr ⟨s, by rw [hd]⟩
    · rw [rewrite_cons d s hd] at h
      simp only [List.cons.injEq] at h
      exact Or.inl ⟨s, by rw [h.1], h.2⟩

/-- C49 (partial: expressions in which no `$` directly follows `__ARG` or `__ARG_`): the rewriting can
be undone, so different expressions stay different. -/
theorem C49_restore_partial (s t : Str) (h : celExpr s = some t)
    (h1 : occurs "__ARG$".toList s = false) (h2 : occurs "__ARG_$".toList s = false) : restore t = s := by
  unfold celExpr at h
  split at h
  · cases h
  · rename_i h0
    cases h
    simp only [Bool.not_eq_true] at h0
    induction s with
    | nil => rfl
    | cons c s ih =>
      have hs0 : occurs arg s = false := by simp only [occurs, Bool.or_eq_false_iff] at h0; exact h0.2
      have hs1 : occurs "__ARG$".toList s = false := by simp only [occurs, Bool.or_eq_false_iff] at h1; exact h1.2
      have hs2 : occurs "__ARG_$".toList s = false := by simp only [occurs, Bool.or_eq_false_iff] at h2; exact h2.2
      have ih' := ih hs1 hs2 hs0
      by_cases hc : c = '$'
      · subst hc; rw [rewrite_dollar, restore_arg, ih']
      · rw [rewrite_cons c s hc, restore_cons, ih']
        rintro ⟨t, ht⟩
        have e : (arg ++ t) = '_' :: '_' :: 'A' :: 'R' :: 'G' :: '_' :: '_' :: t := rfl
        rw [e] at ht
        simp only [List.cons.injEq] at ht
        obtain ⟨rfl, ht⟩ := ht
        rcases rewrite_underscore s _ ht.symm with ⟨s1, rfl, ht1⟩ | ⟨s1, rfl⟩
        · obtain ⟨s2, rfl, ht2⟩ := rewrite_head _ _ _ (by decide) ht1
          obtain ⟨s3, rfl, ht3⟩ := rewrite_head _ _ _ (by decide) ht2
          obtain ⟨s4, rfl, ht4⟩ := rewrite_head _ _ _ (by decide) ht3
          rcases rewrite_underscore s4 _ ht4 with ⟨s5, rfl, ht5⟩ | ⟨s5, rfl⟩
          · rcases rewrite_underscore s5 _ ht5 with ⟨s6, rfl, _⟩ | ⟨s6, rfl⟩
            · have : occurs arg ('_' :: '_' :: 'A' :: 'R' :: 'G' :: '_' :: '_' :: s6) = true :=
                (occurs_iff _ _).mpr ⟨[], s6, rfl⟩
              rw [this] at h0; cases h0
            · have : occurs "__ARG_$".toList ('_' :: '_' :: 'A' :: 'R' :: 'G' :: '_' :: '$' :: s6) = true :=
                (occurs_iff _ _).mpr ⟨[], s6, rfl⟩
              rw [this] at h2; cases h2
          · have : occurs "__ARG$".toList ('_' :: '_' :: 'A' :: 'R' :: 'G' :: '$' :: s5) = true :=
              (occurs_iff _ _).mpr ⟨[], s5, rfl⟩
            rw [this] at h1; cases h1
        · rw [rewrite_dollar] at ht
          have : arg = '_' :: '_' :: 'A' :: 'R' :: 'G' :: '_' :: '_' :: [] := rfl
          rw [this] at ht
          simp at ht

/-- C49 is false of the code for other expressions: two different ones are compiled to the same text. -/
theorem C49_collision_false : "$ARG__".toList ≠ "__ARG$".toList ∧
    ∃ t, celExpr "$ARG__".toList = some t ∧ celExpr "__ARG$".toList = some t := by
  refine ⟨by decide, _, rfl, by decide⟩

/-- The value of a string literal in single quotes without escapes. -/
def literalValue (s : Str) : Option Str :=
  match s with
  | '\'' :: rest => match rest.reverse with
    | '\'' :: r => if r.contains '\'' || r.contains '\\' then none else some r.reverse
    | _ => none
  | _ => none

/-- C49 is false of the code for `$` inside string literals: the literal's value changes. -/
theorem C49_literal_false : literalValue "'$100'".toList = some "$100".toList ∧
    ∃ t, celExpr "'$100'".toList = some t ∧ literalValue t = some "__ARG__100".toList := by
  refine ⟨by decide, _, rfl, by decide⟩

/-- Expressions without `$` are compiled as they are. -/
theorem C49_unchanged (s : Str) (h : '$' ∉ s) (h0 : celExpr s ≠ none) : celExpr s = some s := by
  unfold celExpr at h0 ⊢
  split
  · rename_i h'; rw [if_pos h'] at h0; exact absurd rfl h0
  · have : rewrite s = s := by
      clear h0
      induction s with
      | nil => rfl
      | cons c s ih =>
        simp only [List.mem_cons, not_or] at h
        rw [rewrite_cons c s (Ne.symm h.1), ih h.2]
        simp_all [occurs]
    rw [this]

example : celExpr "$.id + x".toList = some "__ARG__.id + x".toList := by decide
example : celExpr "__ARG__.id".toList = none := by decide

/-! ## C58: messages are found by name -/

/-- `path` names, from the outside in, the message with identity `i` among `ms`. -/
inductive At : List Msg → List Str → Nat → Prop
  | here {ms m} : m ∈ ms → At ms [m.name] m.id
  | inside {ms m p i} : m ∈ ms → At m.nested p i → At ms (m.name :: p) i

/-- Names contain no dots and messages declared side by side have different names. -/
inductive WfMsgs : List Msg → Prop
  | mk {ms} : (∀ m ∈ ms, '.' ∉ m.name) → (∀ m ∈ ms, ∀ m' ∈ ms, m.name = m'.name → m = m') →
      (∀ m ∈ ms, WfMsgs m.nested) → WfMsgs ms

theorem at_ne_nil {ms p i} (h : At ms p i) : p ≠ [] := by cases h <;> simp

theorem at_unique {ms p i j} (hw : WfMsgs ms) (h : At ms p i) (h' : At ms p j) : i = j := by
  induction h generalizing j with
  | here hm =>
    cases hw with
    | mk _ h2 _ =>
      generalize hp : [_] = p at h'
      cases h' with
      | here hm' => simp only [List.cons.injEq, and_true] at hp; rw [h2 _ hm _ hm' hp]
      | inside _ h => simp only [List.cons.injEq] at hp; exact absurd hp.2.symm (at_ne_nil h)
  | inside hm hin ih =>
    cases hw with
    | mk _ h2 h3 =>
      generalize hp : _ :: _ = p at h'
      cases h' with
      | here hm' => simp only [List.cons.injEq] at hp; exact absurd hp.2 (at_ne_nil hin)
      | inside hm' h =>
        simp only [List.cons.injEq] at hp
        have := h2 _ hm _ hm' hp.1
        subst this
        obtain ⟨_, rfl⟩ := hp
        exact ih (h3 _ hm) h

theorem at_dotfree {ms p i} (hw : WfMsgs ms) (h : At ms p i) : ∀ s ∈ p, '.' ∉ s := by
  induction h with
  | here hm => cases hw with | mk h1 _ _ => intro s hs; simp at hs; subst hs; exact h1 _ hm
  | inside hm _ ih =>
    cases hw with
    | mk h1 _ h3 =>
      intro s hs
      rcases List.mem_cons.mp hs with rfl | hs
      · exact h1 _ hm
      · exact ih (h3 _ hm) s hs

mutual
theorem lookupRec_sound (name parent : Str) : ∀ (m : Msg) (i : Nat), lookupRec name parent m = some i →
    ∃ p, At [m] p i ∧ name = parent ++ '.' :: join ['.'] p
  | .mk k n nested, i, h => by
    rw [lookupRec] at h
    by_cases hf : parent ++ '.' :: n = name
    · simp only [if_pos hf, Option.some.injEq] at h
      subst h
      exact ⟨[n], .here (m := .mk k n nested) (by simp), by simp [join, hf]⟩
    · simp only [if_neg hf] at h
      obtain ⟨p, hp, hn⟩ := lookupNested_sound name (parent ++ '.' :: n) nested i h
      refine ⟨n :: p, .inside (m := .mk k n nested) (by simp) hp, ?_⟩
      rw [join_cons _ _ _ (at_ne_nil hp), hn]; simp
theorem lookupNested_sound (name parent : Str) : ∀ (ms : List Msg) (i : Nat), lookupNested name parent ms = some i →
    ∃ p, At ms p i ∧ name = parent ++ '.' :: join ['.'] p
  | [], i, h => by rw [lookupNested] at h; cases h
  | m :: ms, i, h => by
    have mono : ∀ {l l' : List Msg} {p i}, (∀ x ∈ l, x ∈ l') → At l p i → At l' p i := by
      intro l l' p i hl h
      cases h with
      | here hm => exact .here (hl _ hm)
      | inside hm h => exact .inside (hl _ hm) h
    rw [lookupNested] at h
    cases hr : lookupRec name parent m with
    | some j =>
      rw [hr] at h; cases h
      obtain ⟨p, hp, hn⟩ := lookupRec_sound name parent m i hr
      exact ⟨p, mono (by simp) hp, hn⟩
    | none =>
      rw [hr] at h
      obtain ⟨p, hp, hn⟩ := lookupNested_sound name parent ms i h
      exact ⟨p, mono (fun x hx => by simp [hx]) hp, hn⟩
end

theorem lookupNested_some (name parent : Str) (ms : List Msg) (m : Msg) (hm : m ∈ ms)
    (h : (lookupRec name parent m).isSome = true) : (lookupNested name parent ms).isSome = true := by
  induction ms with
  | nil => cases hm
  | cons x ms ih =>
    rw [lookupNested]
    cases hx : lookupRec name parent x with
    | some _ => rfl
    | none =>
      simp only
      rcases List.mem_cons.mp hm with rfl | hm
      · rw [hx] at h; cases h
      · exact ih hm

theorem lookupNested_complete {ms p i} (h : At ms p i) (parent : Str) :
    (lookupNested (parent ++ '.' :: join ['.'] p) parent ms).isSome = true := by
  induction h generalizing parent with
  | @here ms m hm =>
    apply lookupNested_some _ _ _ _ hm
    cases m with
    | mk k n nested => simp [lookupRec, join, Msg.name]
  | @inside ms m p i hm hin ih =>
    apply lookupNested_some _ _ _ _ hm
    cases m with
    | mk k n nested =>
      simp only [Msg.name, Msg.nested] at ih ⊢
      rw [join_cons _ _ _ (at_ne_nil hin), lookupRec]
      by_cases hf : parent ++ '.' :: n = parent ++ '.' :: (n ++ ['.'] ++ join ['.'] p)
      · rw [if_pos hf]; rfl
      · rw [if_neg hf]
        have := ih (parent ++ '.' :: n)
        simpa using this

theorem lookupMessage_complete {ms p i} (h : At ms p i) : (lookupMessage (join ['.'] p) ms).isSome = true := by
  induction ms with
  | nil => cases h with
    | here hm => cases hm
    | inside hm _ => cases hm
  | cons x ms ih =>
    rw [lookupMessage]
    by_cases hx : x.name = join ['.'] p
    · rw [if_pos hx]; rfl
    · rw [if_neg hx]
      cases hn : lookupNested (join ['.'] p) x.name x.nested with
      | some _ => rfl
      | none =>
        simp only
        cases h with
        | here hm =>
          rcases List.mem_cons.mp hm with rfl | hm
          · exact absurd rfl hx
          · exact ih (.here hm)
        | @inside _ m p' _ hm hin =>
          rcases List.mem_cons.mp hm with rfl | hm
          · have := lookupNested_complete hin m.name
            rw [join_cons _ _ _ (at_ne_nil hin)] at hn
            simp only [List.append_assoc, List.singleton_append] at hn
            rw [hn] at this; cases this
          · exact ih (.inside hm hin)

theorem lookupMessage_sound (name : Str) (ms : List Msg) (i : Nat) (h : lookupMessage name ms = some i) :
    ∃ p, At ms p i ∧ name = join ['.'] p := by
  have mono : ∀ {l l' : List Msg} {p i}, (∀ x ∈ l, x ∈ l') → At l p i → At l' p i := by
    intro l l' p i hl h
    cases h with
    | here hm => exact .here (hl _ hm)
    | inside hm h => exact .inside (hl _ hm) h
  induction ms with
  | nil => rw [lookupMessage] at h; cases h
  | cons x ms ih =>
    rw [lookupMessage] at h
    by_cases hx : x.name = name
    · rw [if_pos hx] at h; cases h
      exact ⟨[x.name], .here (by simp), by simp [join, hx]⟩
    · rw [if_neg hx] at h
      cases hn : lookupNested name x.name x.nested with
      | some j =>
        rw [hn] at h; cases h
        obtain ⟨p, hp, he⟩ := lookupNested_sound name x.name x.nested i hn
        refine ⟨x.name :: p, .inside (by simp) hp, ?_⟩
        rw [join_cons _ _ _ (at_ne_nil hp), he]; simp
      | none =>
        rw [hn] at h
        obtain ⟨p, hp, he⟩ := ih h
        exact ⟨p, mono (fun y hy => by simp [hy]) hp, he⟩

/-- C58: a message declared at any depth is found by its dotted name, and nothing else is. -/
theorem C58_found_iff (ms : List Msg) (hw : WfMsgs ms) (p : List Str) (hne : p ≠ []) (hp : ∀ s ∈ p, '.' ∉ s) (i : Nat) :
    lookupMessage (join ['.'] p) ms = some i ↔ At ms p i := by
  have key : ∀ j, lookupMessage (join ['.'] p) ms = some j → At ms p j := by
    intro j h
    obtain ⟨q, hq, he⟩ := lookupMessage_sound _ _ _ h
    have : p = q := by
      rw [← split_join '.' p hne hp, ← split_join '.' q (at_ne_nil hq) (at_dotfree hw hq), he]
    rw [this]; exact hq
  constructor
  · exact key i
  · intro h
    have hs := lookupMessage_complete h
    cases hl : lookupMessage (join ['.'] p) ms with
    | none => rw [hl] at hs; cases hs
    | some j => rw [at_unique hw (key j hl) h]

/-- Two top level messages, each with a nested `B`. -/
def exMsgs : List Msg :=
  [.mk 0 "A".toList [.mk 1 "B".toList [.mk 2 "C".toList []]], .mk 3 "X".toList [.mk 4 "B".toList []]]

example : lookupMessage "X.B".toList exMsgs = some 4 ∧ lookupMessage "A.B.C".toList exMsgs = some 2 ∧
    lookupMessage "B".toList exMsgs = none := by decide

example : WfMsgs exMsgs := by
  have empty : WfMsgs [] := .mk (by simp) (by simp) (by simp)
  refine .mk (by simp [exMsgs, Msg.name]) ?_ ?_
  · intro m hm m' hm' h
    simp only [exMsgs, List.mem_cons, List.not_mem_nil, or_false] at hm hm'
    rcases hm with rfl | rfl <;> rcases hm' with rfl | rfl <;> simp [Msg.name] at h ⊢
  · intro m hm
    simp only [exMsgs, List.mem_cons, List.not_mem_nil, or_false] at hm
    rcases hm with rfl | rfl
    · refine .mk (by simp [Msg.nested, Msg.name]) (by simp [Msg.nested]) ?_
      intro m hm
      simp only [Msg.nested, List.mem_cons, List.not_mem_nil, or_false] at hm
      subst hm
      refine .mk (by simp [Msg.nested, Msg.name]) (by simp [Msg.nested]) ?_
      intro m hm
      simp only [Msg.nested, List.mem_cons, List.not_mem_nil, or_false] at hm
      subst hm
      exact empty
    · refine .mk (by simp [Msg.nested, Msg.name]) (by simp [Msg.nested]) ?_
      intro m hm
      simp only [Msg.nested, List.mem_cons, List.not_mem_nil, or_false] at hm
      subst hm
      exact empty

end Verif.Names
