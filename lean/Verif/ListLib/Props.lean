import Verif.ListLib.Model

/-! # C29: sorting, flattening, first match and folding -/

namespace Verif.ListLib

/-! ## What is assumed of package sort -/

/-- A strict weak order. -/
structure StrictWeak {B : Type} (lt : B → B → Bool) : Prop where
  asymm : ∀ a b, lt a b = true → lt b a = false
  negTrans : ∀ a b c, lt a c = true → lt a b = true ∨ lt b c = true

/-- `sort.Slice`: a permutation, sorted for strict weak orders. -/
structure IsSort {B : Type} (fn : SortFn B) : Prop where
  perm : ∀ lt xs, (fn lt xs).Perm xs
  sorted : ∀ lt xs, StrictWeak lt → (fn lt xs).Pairwise (fun a b => lt b a = false)

/-- `sort.SliceStable`: moreover, equivalent elements keep their order. -/
structure IsStableSort {B : Type} (fn : SortFn B) : Prop extends IsSort fn where
  stable : ∀ lt xs, StrictWeak lt → ∀ a,
    (fn lt xs).filter (fun x => !lt a x && !lt x a) = xs.filter (fun x => !lt a x && !lt x a)

/-- Specification: `cmp` compares along a total order. -/
structure Orders {K : Type} (cmp : K → K → Option Int) (le : K → K → Prop) : Prop where
  total : ∀ a b, le a b ∨ le b a
  trans : ∀ a b c, le a b → le b c → le a c
  antisymm : ∀ a b, le a b → le b a → a = b
  before : ∀ a b, cmp a b = some (-1) ↔ (le a b ∧ a ≠ b)
  after : ∀ a b, cmp a b = some 1 ↔ (le b a ∧ a ≠ b)

theorem pairUp_map {A K : Type} (key : A → K) (xs : List A) : pairUp xs (xs.map key) = some (xs.map (fun a => (a, key a))) := by
  induction xs with
  | nil => rfl
  | cons x xs ih => simp [pairUp, ih]

theorem map_fst_pair {A K : Type} (key : A → K) (xs : List A) : (xs.map (fun a => (a, key a))).map (·.1) = xs := by
  rw [List.map_map]; exact List.map_id' xs

theorem less_asc {A K : Type} {cmp : K → K → Option Int} {le : K → K → Prop} (h : Orders cmp le) (a b : A × K) :
    less cmp (-1) a b = true ↔ (le a.2 b.2 ∧ a.2 ≠ b.2) := by
  simp only [less, beq_iff_eq]; exact h.before a.2 b.2

theorem less_desc {A K : Type} {cmp : K → K → Option Int} {le : K → K → Prop} (h : Orders cmp le) (a b : A × K) :
    less cmp 1 a b = true ↔ (le b.2 a.2 ∧ a.2 ≠ b.2) := by
  simp only [less, beq_iff_eq]; exact h.after a.2 b.2

theorem sw_asc {A K : Type} {cmp : K → K → Option Int} {le : K → K → Prop} (h : Orders cmp le) :
    StrictWeak (less (A := A) cmp (-1)) := by
  constructor
  · intro a b hab
    have h1 := (less_asc h a b).mp hab
    cases hb : less cmp (-1) b a with
    | false => rfl
    | true => exact absurd (h.antisymm _ _ h1.1 ((less_asc h b a).mp hb).1) h1.2
  · intro a b c hac
    have h1 := (less_asc h a c).mp hac
    by_cases e : a.2 = b.2
    · right; rw [less_asc h, ← e]; exact h1
    · rcases h.total a.2 b.2 with hl | hl
      · exact .inl ((less_asc h a b).mpr ⟨hl, e⟩)
      · refine .inr ((less_asc h b c).mpr ⟨h.trans _ _ _ hl h1.1, fun e' => ?_⟩)
        exact e (h.antisymm _ _ (e' ▸ h1.1) hl)

theorem sw_desc {A K : Type} {cmp : K → K → Option Int} {le : K → K → Prop} (h : Orders cmp le) :
    StrictWeak (less (A := A) cmp 1) := by
  constructor
  · intro a b hab
    have h1 := (less_desc h a b).mp hab
    cases hb : less cmp 1 b a with
    | false => rfl
    | true => exact absurd (h.antisymm _ _ ((less_desc h b a).mp hb).1 h1.1) h1.2
  · intro a b c hac
    have h1 := (less_desc h a c).mp hac
    by_cases e : a.2 = b.2
    · right; rw [less_desc h, ← e]; exact h1
    · rcases h.total a.2 b.2 with hl | hl
      · refine .inr ((less_desc h b c).mpr ⟨h.trans _ _ _ h1.1 hl, fun e' => ?_⟩)
        exact e (h.antisymm _ _ hl (e' ▸ h1.1))
      · exact .inl ((less_desc h a b).mpr ⟨hl, e⟩)

/-- Common part: permutation. -/
theorem sort_perm {A K : Type} {fn : SortFn (A × K)} (hf : IsSort fn) (cmp : K → K → Option Int) (dir : Int) (key : A → K)
    (xs ys : List A) (h : sortRefVal fn cmp dir xs (xs.map key) = some ys) : ys.Perm xs := by
  unfold sortRefVal at h
  rw [pairUp_map] at h
  simp only [Option.map_some, Option.some.injEq] at h
  subst h
  have := (hf.perm (less cmp dir) (xs.map (fun a => (a, key a)))).map (·.1)
  rwa [map_fst_pair] at this

theorem sorted_pairs {A K : Type} {fn : SortFn (A × K)} (hf : IsSort fn) (cmp : K → K → Option Int) (dir : Int) (key : A → K)
    (xs ys : List A) (hsw : StrictWeak (less (A := A) cmp dir)) (h : sortRefVal fn cmp dir xs (xs.map key) = some ys) :
    ys.Pairwise (fun a b => less cmp dir (b, key b) (a, key a) = false) := by
  unfold sortRefVal at h
  rw [pairUp_map] at h
  simp only [Option.map_some, Option.some.injEq] at h
  subst h
  have hs := hf.sorted _ (xs.map (fun a => (a, key a))) hsw
  have hp := hf.perm (less cmp dir) (xs.map (fun a => (a, key a)))
  rw [List.pairwise_map]
  refine hs.imp_of_mem ?_
  intro a b ha hb hl
  have key_eq : ∀ p ∈ fn (less cmp dir) (xs.map (fun a => (a, key a))), p = (p.1, key p.1) := by
    intro p hpm
    obtain ⟨x, _, rfl⟩ := List.mem_map.mp (hp.mem_iff.mp hpm)
    rfl
  rw [← key_eq a ha, ← key_eq b hb]
  exact hl

theorem sort_isSome {A K : Type} (fn : SortFn (A × K)) (cmp : K → K → Option Int) (dir : Int) (key : A → K) (xs : List A) :
    ∃ ys, sortRefVal fn cmp dir xs (xs.map key) = some ys := by
  unfold sortRefVal; rw [pairUp_map]; exact ⟨_, rfl⟩

/-- C29: `sortAsc` gives the elements of the list, ordered by ascending keys. -/
theorem C29_sortAsc {A K : Type} (fn : SortFn (A × K)) (hf : IsSort fn) (cmp : K → K → Option Int) (le : K → K → Prop)
    (ho : Orders cmp le) (key : A → K) (xs : List A) :
    ∃ ys, sortAsc fn cmp xs (xs.map key) = some ys ∧ ys.Perm xs ∧ ys.Pairwise (fun a b => le (key a) (key b)) := by
  obtain ⟨ys, h⟩ := sort_isSome fn cmp (-1) key xs
  refine ⟨ys, h, sort_perm hf _ _ key _ _ h, (sorted_pairs hf cmp (-1) key xs ys (sw_asc ho) h).imp ?_⟩
  intro a b hl
  rcases ho.total (key a) (key b) with h1 | h1
  · exact h1
  · by_cases e : key b = key a
    · rw [e] at h1 ⊢; exact h1
    · rw [(less_asc ho (b, key b) (a, key a)).mpr ⟨h1, e⟩] at hl; cases hl

/-- C29: `sortDesc` gives the elements of the list, ordered by descending keys. -/
theorem C29_sortDesc {A K : Type} (fn : SortFn (A × K)) (hf : IsSort fn) (cmp : K → K → Option Int) (le : K → K → Prop)
    (ho : Orders cmp le) (key : A → K) (xs : List A) :
    ∃ ys, sortDesc fn cmp xs (xs.map key) = some ys ∧ ys.Perm xs ∧ ys.Pairwise (fun a b => le (key b) (key a)) := by
  obtain ⟨ys, h⟩ := sort_isSome fn cmp 1 key xs
  refine ⟨ys, h, sort_perm hf _ _ key _ _ h, (sorted_pairs hf cmp 1 key xs ys (sw_desc ho) h).imp ?_⟩
  intro a b hl
  rcases ho.total (key b) (key a) with h1 | h1
  · exact h1
  · by_cases e : key b = key a
    · rw [e] at h1 ⊢; exact h1
    · rw [(less_desc ho (b, key b) (a, key a)).mpr ⟨h1, e⟩] at hl; cases hl

theorem stable_filter {A K : Type} [DecidableEq K] {fn : SortFn (A × K)} (hf : IsStableSort fn) (cmp : K → K → Option Int) (dir : Int)
    (key : A → K) (xs ys : List A) (hsw : StrictWeak (less (A := A) cmp dir))
    (heq : ∀ a b : A × K, (less cmp dir a b = false ∧ less cmp dir b a = false) ↔ a.2 = b.2)
    (h : sortRefVal fn cmp dir xs (xs.map key) = some ys) (k : K) :
    ys.filter (fun a => key a = k) = xs.filter (fun a => key a = k) := by
  have hperm := sort_perm hf.toIsSort cmp dir key xs ys h
  unfold sortRefVal at h
  rw [pairUp_map] at h
  simp only [Option.map_some, Option.some.injEq] at h
  by_cases hx : ∃ x ∈ xs, key x = k
  · obtain ⟨x, hx, rfl⟩ := hx
    have hs := hf.stable _ (xs.map (fun a => (a, key a))) hsw (x, key x)
    have hp := hf.perm (less cmp dir) (xs.map (fun a => (a, key a)))
    have e : ∀ p : A × K, p.2 = key p.1 → (!less cmp dir (x, key x) p && !less cmp dir p (x, key x)) = decide (key p.1 = key x) := by
      intro p hp2
      have := heq (x, key x) p
      simp only [hp2] at this
      by_cases hk : key p.1 = key x
      · simp [hk, this.mpr hk.symm]
      · simp only [hk, decide_false]
        have hn := mt this.mp (fun e => hk e.symm)
        cases h1 : less cmp dir (x, key x) p <;> cases h2 : less cmp dir p (x, key x) <;> simp_all
    have hs' := congrArg (List.map (·.1)) hs
    rw [List.filter_congr (q := fun p => decide (key p.1 = key x)) (by
        intro p hpm
        obtain ⟨x', _, rfl⟩ := List.mem_map.mp (hp.mem_iff.mp hpm)
        exact e _ rfl)] at hs'
    rw [List.filter_congr (q := fun p => decide (key p.1 = key x)) (l := xs.map (fun a => (a, key a))) (by
        intro p hpm
        obtain ⟨x', _, rfl⟩ := List.mem_map.mp hpm
        exact e _ rfl)] at hs'
    subst h
    have r1 : ∀ l : List (A × K), (l.filter (fun p => decide (key p.1 = key x))).map (·.1) = (l.map (·.1)).filter (fun a => decide (key a = key x)) := by
      intro l; rw [List.filter_map]; rfl
    rw [r1, r1, map_fst_pair] at hs'
    exact hs'
  · have n : ∀ l : List A, (∀ a ∈ l, a ∈ xs) → l.filter (fun a => key a = k) = [] := by
      intro l hl
      rw [List.filter_eq_nil_iff]
      intro a ha
      simp only [decide_eq_true_eq]
      exact fun e => hx ⟨a, hl a ha, e⟩
    rw [n ys (fun a ha => hperm.mem_iff.mp ha), n xs (fun _ h => h)]

/-- C29: the stable variants keep the order of elements with the same key. -/
theorem C29_stable {A K : Type} [DecidableEq K] (fn : SortFn (A × K)) (hf : IsStableSort fn) (cmp : K → K → Option Int) (le : K → K → Prop)
    (ho : Orders cmp le) (key : A → K) (xs ys : List A)
    (h : sortAsc fn cmp xs (xs.map key) = some ys ∨ sortDesc fn cmp xs (xs.map key) = some ys) (k : K) :
    ys.filter (fun a => key a = k) = xs.filter (fun a => key a = k) := by
  rcases h with h | h
  · refine stable_filter hf cmp (-1) key xs ys (sw_asc ho) ?_ h k
    intro a b
    constructor
    · intro ⟨h1, h2⟩
      by_cases e : a.2 = b.2
      · exact e
      · rcases ho.total a.2 b.2 with hl | hl
        · rw [(less_asc ho a b).mpr ⟨hl, e⟩] at h1; cases h1
        · rw [(less_asc ho b a).mpr ⟨hl, fun e' => e e'.symm⟩] at h2; cases h2
    · intro e
      constructor
      · cases hl : less cmp (-1) a b with
        | false => rfl
        | true => exact absurd e ((less_asc ho a b).mp hl).2
      · cases hl : less cmp (-1) b a with
        | false => rfl
        | true => exact absurd e.symm ((less_asc ho b a).mp hl).2
  · refine stable_filter hf cmp 1 key xs ys (sw_desc ho) ?_ h k
    intro a b
    constructor
    · intro ⟨h1, h2⟩
      by_cases e : a.2 = b.2
      · exact e
      · rcases ho.total a.2 b.2 with hl | hl
        · rw [(less_desc ho b a).mpr ⟨hl, fun e' => e e'.symm⟩] at h2; cases h2
        · rw [(less_desc ho a b).mpr ⟨hl, e⟩] at h1; cases h1
    · intro e
      constructor
      · cases hl : less cmp 1 a b with
        | false => rfl
        | true => exact absurd e ((less_desc ho a b).mp hl).2
      · cases hl : less cmp 1 b a with
        | false => rfl
        | true => exact absurd e.symm ((less_desc ho b a).mp hl).2

/-- C29 for the macro: with a target whose evaluation always gives the same list, the macro sorts that
list. -/
theorem C29_macro_partial {A K W : Type} (fn : SortFn (A × K)) (hf : IsSort fn) (cmp : K → K → Option Int) (le : K → K → Prop)
    (ho : Orders cmp le) (key : A → K) (xs : List A) (target : W → List A × W) (ht : ∀ w, (target w).1 = xs) (w : W) :
    ∃ ys, (sortMacro (sortAsc fn cmp) key target w).1 = some ys ∧ ys.Perm xs ∧ ys.Pairwise (fun a b => le (key a) (key b)) := by
  obtain ⟨ys, h1, h2, h3⟩ := C29_sortAsc fn hf cmp le ho key xs
  refine ⟨ys, ?_, h2, h3⟩
  simp only [sortMacro, ht]
  exact h1

/-! ## `goSort` meets the assumptions -/

theorem insertRev_perm {B : Type} (lt : B → B → Bool) (x : B) (l : List B) : (insertRev lt x l).Perm (x :: l) := by
  induction l with
  | nil => exact .refl _
  | cons y ys ih =>
    simp only [insertRev]
    split
    · exact (ih.cons y).trans (.swap x y ys)
    · exact .refl _

theorem insertRev_sorted {B : Type} (lt : B → B → Bool) (h : StrictWeak lt) (x : B) (l : List B)
    (hl : l.Pairwise (fun a b => lt a b = false)) : (insertRev lt x l).Pairwise (fun a b => lt a b = false) := by
  induction l with
  | nil => simp [insertRev]
  | cons y ys ih =>
    rw [List.pairwise_cons] at hl
    simp only [insertRev]
    split
    · rename_i hxy
      rw [List.pairwise_cons]
      refine ⟨?_, ih hl.2⟩
      intro z hz
      rcases List.mem_cons.mp ((insertRev_perm lt x ys).mem_iff.mp hz) with rfl | hz'
      · exact h.asymm _ _ hxy
      · exact hl.1 z hz'
    · rename_i hxy
      have hxy : lt x y = false := by simpa using hxy
      rw [List.pairwise_cons]
      refine ⟨?_, List.pairwise_cons.mpr hl⟩
      intro z hz
      rcases List.mem_cons.mp hz with rfl | hz'
      · exact hxy
      · cases hxz : lt x z with
        | false => rfl
        | true =>
          rcases h.negTrans x y z hxz with h1 | h1
          · rw [h1] at hxy; cases hxy
          · rw [hl.1 z hz'] at h1; cases h1

theorem insertRev_filter {B : Type} (lt : B → B → Bool) (h : StrictWeak lt) (a x : B) (l : List B) :
    (insertRev lt x l).filter (fun x => !lt a x && !lt x a) = (x :: l).filter (fun x => !lt a x && !lt x a) := by
  induction l with
  | nil => rfl
  | cons y ys ih =>
    simp only [insertRev]
    split
    · rename_i hxy
      rw [List.filter_cons, ih]
      by_cases hx : (!lt a x && !lt x a) = true
      · have hy : (!lt a y && !lt y a) = false := by
          simp only [Bool.and_eq_true, Bool.not_eq_true'] at hx
          rcases h.negTrans x a y hxy with h1 | h1
          · rw [hx.2] at h1; cases h1
          · simp [h1]
        simp [hx, hy]
      · simp [hx, List.filter_cons]
    · rfl

theorem fold_perm {B : Type} (lt : B → B → Bool) (xs acc : List B) :
    (xs.foldl (fun acc x => insertRev lt x acc) acc).Perm (xs.reverse ++ acc) := by
  induction xs generalizing acc with
  | nil => exact .refl _
  | cons x xs ih =>
    simp only [List.foldl_cons, List.reverse_cons, List.append_assoc]
    refine (ih _).trans ?_
    exact List.Perm.append_left _ (insertRev_perm lt x acc)

theorem fold_sorted {B : Type} (lt : B → B → Bool) (h : StrictWeak lt) (xs acc : List B)
    (ha : acc.Pairwise (fun a b => lt a b = false)) :
    (xs.foldl (fun acc x => insertRev lt x acc) acc).Pairwise (fun a b => lt a b = false) := by
  induction xs generalizing acc with
  | nil => exact ha
  | cons x xs ih => exact ih _ (insertRev_sorted lt h x acc ha)

theorem fold_filter {B : Type} (lt : B → B → Bool) (h : StrictWeak lt) (a : B) (xs acc : List B) :
    (xs.foldl (fun acc x => insertRev lt x acc) acc).filter (fun x => !lt a x && !lt x a) =
      (xs.reverse ++ acc).filter (fun x => !lt a x && !lt x a) := by
  induction xs generalizing acc with
  | nil => rfl
  | cons x xs ih =>
    simp only [List.foldl_cons, List.reverse_cons, List.append_assoc]
    rw [ih, List.filter_append, List.filter_append, insertRev_filter lt h]
    rfl

/-- The sort of short slices meets the assumptions made of package sort. -/
theorem goSort_stable {B : Type} : IsStableSort (goSort (B := B)) where
  perm lt xs := by
    unfold goSort
    refine (List.reverse_perm _).trans ((fold_perm lt xs []).trans ?_)
    rw [List.append_nil]; exact List.reverse_perm _
  sorted lt xs h := by
    unfold goSort
    rw [List.pairwise_reverse]
    exact (fold_sorted lt h xs [] .nil).imp (fun h => h)
  stable lt xs h a := by
    unfold goSort
    rw [List.filter_reverse, fold_filter lt h, List.append_nil, List.filter_reverse, List.reverse_reverse]

/-! ## Failures -/

/-- Comparing doubles: NaN (here `none`) has no order. -/
def cmpDouble (a b : Option Int) : Option Int :=
  match a, b with
  | some x, some y => some (if x < y then -1 else if y < x then 1 else 0)
  | _, _ => none

/-- C29 is false of the code for NaN keys: the list comes back unsorted, without an error. -/
theorem C29_nan_false : sortAsc goSort cmpDouble [2, 0, 1] [some 2, none, some 1] = some [2, 0, 1] := by decide

/-- C29 is false of the code for targets whose evaluations differ (random numbers, plugin functions): the
keys are those of another list. -/
theorem C29_target_false :
    (sortMacro (sortAsc goSort cmpDouble) (fun n : Int => some n) (fun w : Nat => (if w = 0 then [2, 1] else [1, 2], w + 1)) 0).1 = some [2, 1] := by
  decide

/-- C29 is false of the code for the effects of the target: with `n` chained sorts, the target (a plugin
function, a log call) is evaluated `2 ^ n` times. -/
theorem C29_evaluations_false {A K : Type} (sort : List A → List K → Option (List A)) (key : A → K) (xs : List A) (n : Nat) :
    ∀ w : Nat, (chain sort key (fun w => (xs, w + 1)) n w).2 = w + 2 ^ n := by
  induction n with
  | zero => intro w; rfl
  | succ n ih =>
    intro w
    simp only [chain, sortMacro]
    rw [ih, ih, Nat.pow_succ]
    omega

/-! ## The other functions -/

/-- C29: `flatten` concatenates the lists in order; lists within them are kept. -/
theorem C29_flatten (ls : List (List V)) : flatten 1 (ls.map .list) = ls.flatten := by
  induction ls with
  | nil => rfl
  | cons l ls ih =>
    rw [List.flatten_cons, ← ih]
    rfl

/-- C29: `reduce` folds from left to right, if no step fails. -/
theorem C29_reduce {A X E : Type} (step : Except E A → X → Except E A) (f : A → X → A) (hs : ∀ a x, step (.ok a) x = .ok (f a x))
    (init : A) (range : List X) : reduce step (.ok init) range = .ok (range.foldl f init) := by
  unfold reduce
  induction range generalizing init with
  | nil => rfl
  | cons x xs ih => simp only [List.foldl_cons, hs]; exact ih _

/-- C29: `reduce` fails when a step fails, if steps fail with a failed accumulator. -/
theorem C29_reduce_error {A X E : Type} (step : Except E A → X → Except E A) (hs : ∀ e x, ∃ e', step (.error e) x = .error e')
    (init : Except E A) (pre post : List X) (x : X) (e : E) (hx : step (reduce step init pre) x = .error e) :
    ∃ e', reduce step init (pre ++ x :: post) = .error e' := by
  unfold reduce at hx ⊢
  rw [List.foldl_append, List.foldl_cons, hx]
  clear hx
  induction post generalizing e with
  | nil => exact ⟨e, rfl⟩
  | cons y ys ih =>
    obtain ⟨e', h⟩ := hs e y
    rw [List.foldl_cons, h]; exact ih e'

theorem filter_ok {X E : Type} (pred : X → Except E Bool) (p : X → Bool) (xs acc : List X) (hp : ∀ x ∈ xs, pred x = .ok (p x)) :
    reduce (filterStep pred) (.ok acc) xs = .ok (acc ++ xs.filter p) := by
  unfold reduce
  induction xs generalizing acc with
  | nil => simp
  | cons x xs ih =>
    have hx := hp x (by simp)
    have := fun acc => ih acc (fun y hy => hp y (by simp [hy]))
    rw [List.foldl_cons]
    cases hpx : p x with
    | true =>
      simp only [filterStep, hx, hpx, Except.map]
      rw [this]; simp [hpx]
    | false =>
      simp only [filterStep, hx, hpx]
      rw [this]; simp [hpx]

/-- C29: `first` gives the first element that matches, none if none does. -/
theorem C29_first {X E : Type} (pred : X → Except E Bool) (p : X → Bool) (xs : List X) (hp : ∀ x ∈ xs, pred x = .ok (p x)) :
    first pred xs = .ok (xs.find? p) := by
  unfold first
  rw [filter_ok pred p xs [] hp]
  simp only [List.nil_append, Except.map, List.head?_filter]

/-- C29: `first` fails when the condition fails for any element, even one after a match. -/
theorem C29_first_error {X E : Type} (pred : X → Except E Bool) (xs : List X) (x : X) (e : E) (hx : x ∈ xs) (he : pred x = .error e) :
    ∃ e', first pred xs = .error e' := by
  obtain ⟨pre, post, rfl⟩ := List.append_of_mem hx
  have := C29_reduce_error (filterStep pred) (fun e x => by
      unfold filterStep
      cases pred x with
      | error e' => exact ⟨e', rfl⟩
      | ok b => cases b <;> exact ⟨e, rfl⟩) (.ok []) pre post x e (by simp [filterStep, he])
  obtain ⟨e', h⟩ := this
  exact ⟨e', by unfold first; rw [h]; rfl⟩

/-! ## Examples -/

/-- Comparison of integers meets the hypotheses. -/
theorem cmpInt_orders : Orders (fun a b : Int => some (if a < b then -1 else if b < a then 1 else 0)) (· ≤ ·) where
  total a b := by omega
  trans a b c := by omega
  antisymm a b := by omega
  before a b := by
    simp only [Option.some.injEq]
    constructor
    · intro h; split at h
      · omega
      · split at h <;> omega
    · intro h; rw [if_pos (by omega)]
  after a b := by
    simp only [Option.some.injEq]
    constructor
    · intro h; split at h
      · omega
      · split at h <;> omega
    · intro h; rw [if_neg (by omega), if_pos (by omega)]

example : sortAsc goSort (fun a b : Int => some (if a < b then -1 else if b < a then 1 else 0)) ["ccc", "a", "bb", "b"] [3, 1, 2, 1]
    = some ["a", "b", "bb", "ccc"] := by decide
example : sortDesc goSort (fun a b : Int => some (if a < b then -1 else if b < a then 1 else 0)) ["ccc", "a", "bb", "b"] [3, 1, 2, 1]
    = some ["ccc", "bb", "a", "b"] := by decide
example : first (fun n : Nat => if n = 9 then Except.error "x" else .ok (n > 2)) [1, 3, 4] = .ok (some 3) := rfl
example : flatten 1 [.list [.atom 1, .list [.atom 2]], .list [], .list [.atom 3]] = [.atom 1, .list [.atom 2], .atom 3] := rfl
example : reduce (fun (a : Except String Nat) x => a.map (· * 10 + x)) (.ok 0) [1, 2, 3] = .ok 123 := rfl

end Verif.ListLib
