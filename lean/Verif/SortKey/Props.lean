import Verif.SortKey.Spec

/-! # C118: a sort that is accepted can compare its keys -/

namespace Verif.SortKey

open Verif.CelTy (CTy Prim)

theorem comparer_iff (t : CTy) : comparer t = true ↔ Sortable t := by
  constructor
  · intro h
    cases t <;> simp [comparer] at h <;> constructor
  · intro h; cases h <;> rfl

theorem mem_calls (fn : Fn) (loc : Loc) (key : CTy) (e : Expr) : (loc, key) ∈ calls fn e ↔ Sorts e fn loc key := by
  constructor
  · intro h
    induction e with
    | leaf => simp [calls] at h
    | pair a b iha ihb =>
      simp only [calls, List.mem_append] at h
      exact h.elim (fun h => .left b (iha h)) (fun h => .right a (ihb h))
    | sort g l k t m iht ihm =>
      simp only [calls, List.mem_append] at h
      rcases h with h | h | h
      · split at h
        · rename_i hg
          simp at h
          obtain ⟨rfl, rfl⟩ := h
          subst hg
          exact .here ..
        · simp at h
      · exact .target _ _ _ _ (iht h)
      · exact .mapping _ _ _ _ (ihm h)
  · intro h
    induction h with
    | here => simp [calls]
    | target _ _ _ _ _ ih => simp [calls, ih]
    | mapping _ _ _ _ _ ih => simp [calls, ih]
    | left _ _ ih => simp [calls, ih]
    | right _ _ ih => simp [calls, ih]

theorem mem_scan (fn : Fn) (cs : List (Loc × CTy)) (seen : List Report) (r : Report) :
    r ∈ scan fn cs seen ↔ r ∈ seen ∨ (r.1 = fn ∧ r.2 ∈ cs ∧ comparer r.2.2 = false) := by
  induction cs generalizing seen with
  | nil => simp [scan]
  | cons c cs ih =>
    obtain ⟨loc, key⟩ := c
    obtain ⟨f, l, k⟩ := r
    simp only [scan]
    split
    · rename_i h
      rw [ih]
      simp only [List.mem_append, List.mem_cons, List.not_mem_nil, or_false, Prod.mk.injEq]
      constructor
      · rintro ((h1 | ⟨rfl, rfl, rfl⟩) | ⟨h1, h2, h3⟩)
        · exact .inl h1
        · exact .inr ⟨rfl, .inl ⟨rfl, rfl⟩, h.2⟩
        · exact .inr ⟨h1, .inr h2, h3⟩
      · rintro (h1 | ⟨h1, ⟨h2, h2'⟩ | h2, h3⟩)
        · exact .inl (.inl h1)
        · exact .inl (.inr ⟨h1, h2, h2'⟩)
        · exact .inr ⟨h1, h2, h3⟩
    · rename_i h
      rw [ih]
      simp only [List.mem_cons, Prod.mk.injEq]
      constructor
      · rintro (h1 | ⟨h1, h2, h3⟩)
        · exact .inl h1
        · exact .inr ⟨h1, .inr h2, h3⟩
      · rintro (h1 | ⟨h1, ⟨h2, h2'⟩ | h2, h3⟩)
        · exact .inl h1
        · subst h1 h2 h2'
          refine .inl ?_
          apply Classical.byContradiction
          intro hn
          exact h ⟨hn, h3⟩
        · exact .inr ⟨h1, h2, h3⟩

theorem scan_nodup (fn : Fn) (cs : List (Loc × CTy)) (seen : List Report) (h : seen.Nodup) : (scan fn cs seen).Nodup := by
  induction cs generalizing seen with
  | nil => exact h
  | cons c cs ih =>
    simp only [scan]
    split
    · rename_i hc
      apply ih
      rw [List.nodup_append]
      refine ⟨h, by simp, ?_⟩
      intro a ha b hb hab
      simp only [List.mem_cons, List.not_mem_nil, or_false] at hb
      subst hb hab
      exact hc.1 ha
    · exact ih _ h

/-- C118: what is reported is exactly the sorts, at any depth and by any of the four macros, by keys of a type without an order. -/
theorem C118_reported_iff (e : Expr) (fn : Fn) (loc : Loc) (key : CTy) :
    (fn, loc, key) ∈ validate e ↔ Sorts e fn loc key ∧ ¬ Sortable key := by
  have hc : comparer key = false ↔ ¬ Sortable key := by
    rw [← comparer_iff]; simp
  simp only [validate, List.foldl_cons, List.foldl_nil, mem_scan, mem_calls, hc, List.not_mem_nil, false_or]
  cases fn <;> simp

/-- C118: an expression is accepted when, and only when, everything it sorts is sorted by a type with an order. -/
theorem C118_accepted_iff (e : Expr) : validate e = [] ↔ ∀ fn loc key, Sorts e fn loc key → Sortable key := by
  constructor
  · intro h fn loc key hs
    apply Classical.byContradiction
    intro hn
    have := (C118_reported_iff e fn loc key).2 ⟨hs, hn⟩
    simp [h] at this
  · intro h
    rw [List.eq_nil_iff_forall_not_mem]
    rintro ⟨fn, loc, key⟩ hm
    obtain ⟨hs, hn⟩ := (C118_reported_iff e fn loc key).1 hm
    exact hn (h _ _ _ hs)

/-- C118: a chain of sorts, which repeats its target in every call, gives each message once. -/
theorem C118_reported_once (e : Expr) : (validate e).Nodup := by
  simp only [validate, List.foldl_cons, List.foldl_nil]
  exact scan_nodup _ _ _ (scan_nodup _ _ _ (scan_nodup _ _ _ (scan_nodup _ _ _ List.nodup_nil)))

theorem less_ok {O : Type} (cmp : O → O → Int) (d : Int) {a b : KV O} {t : CTy} (ht : Sortable t) (ha : HasTy a t) (hn : a ≠ .null) :
    ∃ r, less cmp d a b = .less r := by
  have : isComparer a = true := by
    cases ht <;> cases ha <;> first | rfl | exact absurd rfl hn
  exact ⟨_, by rw [less, this]; rfl⟩

/-- C118: the sorts of an accepted expression do not panic, in either direction, whatever algorithm sorts, when no key is null. -/
theorem C118_no_panic_partial {O : Type} (e : Expr) (he : validate e = []) (fn : Fn) (loc : Loc) (key : CTy) (hs : Sorts e fn loc key)
    (vals : List (KV O)) (hv : ∀ v ∈ vals, HasTy v key) (hn : .null ∉ vals) (cmp : O → O → Int) (d : Int) (alg : Alg)
    (ha : Within vals.length alg) : ∃ out, run cmp d vals alg = some out := by
  have ht := (C118_accepted_iff e).1 he fn loc key hs
  induction ha with
  | done out => exact ⟨out, rfl⟩
  | ask i j k hi hj _ ih =>
    have hm : vals[i] ∈ vals := List.getElem_mem hi
    obtain ⟨r, hr⟩ := less_ok cmp d (b := vals[j]) ht (hv _ hm) (fun h => hn (h ▸ hm))
    obtain ⟨out, ho⟩ := ih r
    exact ⟨out, by simp [run, hi, hj, hr, ho]⟩

/-- C118: a key that can be null is always a wrapper, so without wrappers an accepted sort never panics. -/
theorem C118_no_panic {O : Type} (e : Expr) (he : validate e = []) (fn : Fn) (loc : Loc) (key : CTy) (hs : Sorts e fn loc key)
    (hw : ∀ p, key ≠ .wrapper p) (vals : List (KV O)) (hv : ∀ v ∈ vals, HasTy v key) (cmp : O → O → Int) (d : Int) (alg : Alg)
    (ha : Within vals.length alg) : ∃ out, run cmp d vals alg = some out := by
  refine C118_no_panic_partial e he fn loc key hs vals hv ?_ cmp d alg ha
  intro hm
  have ht := (C118_accepted_iff e).1 he fn loc key hs
  have := hv _ hm
  cases ht <;> cases this
  exact hw _ rfl

/-- C118: nothing is rejected that could be sorted: keys of a type without an order are no comparers, so the first comparison
panics, in either direction. (A value of unknown type may be one at run time.) -/
theorem C118_rejected_panics {O : Type} (e : Expr) (fn : Fn) (loc : Loc) (key : CTy) (hr : (fn, loc, key) ∈ validate e) (hd : key ≠ .dyn)
    (vals : List (KV O)) (hv : ∀ v ∈ vals, HasTy v key) (cmp : O → O → Int) (d : Int) (i j : Nat) (k : Bool → Alg) :
    run cmp d vals (.ask i j k) = none := by
  have hn := ((C118_reported_iff e fn loc key).1 hr).2
  simp only [run]
  split
  · rename_i a b ha hb
    have ht := hv a (List.mem_of_getElem? ha)
    have hc : isComparer a = false := by
      cases ht <;> first | rfl | exact absurd rfl hd | exact absurd (by constructor) hn
    simp [less, hc]
  · rfl

theorem less_prim {O : Type} (cmp : O → O → Int) (d : Int) (p : Prim) (x y : O) :
    less cmp d (.prim p x) (.prim p y) = .less (decide (cmp x y = d)) := by
  by_cases h : cmp x y = d <;> simp [less, isComparer, compare, h]

theorem less_dur {O : Type} (cmp : O → O → Int) (d : Int) (x y : O) : less cmp d (.dur x) (.dur y) = .less (decide (cmp x y = d)) := by
  by_cases h : cmp x y = d <;> simp [less, isComparer, compare, h]

theorem less_time {O : Type} (cmp : O → O → Int) (d : Int) (x y : O) : less cmp d (.time x) (.time y) = .less (decide (cmp x y = d)) := by
  by_cases h : cmp x y = d <;> simp [less, isComparer, compare, h]

/-- C118: each direction puts a key before another exactly when it is smaller, or larger. Keys of an accepted type that are neither null
nor no number are compared by the order of their type. -/
theorem C118_less_iff {O : Type} (cmp : O → O → Int) (d : Int) (a b : KV O) (t : CTy) (ht : Sortable t) (ha : HasTy a t) (hb : HasTy b t)
    (hn : a ≠ .null ∧ a ≠ .nan) (hm : b ≠ .null ∧ b ≠ .nan) :
    ∃ x y, (a = .dur x ∧ b = .dur y ∨ a = .time x ∧ b = .time y ∨ ∃ p, a = .prim p x ∧ b = .prim p y) ∧
      less cmp d a b = .less (decide (cmp x y = d)) := by
  cases ht <;> cases ha <;> first | exact absurd rfl hn.1 | exact absurd rfl hn.2 | skip
  all_goals cases hb <;> first | exact absurd rfl hm.1 | exact absurd rfl hm.2 | skip
  all_goals first
    | exact ⟨_, _, .inl ⟨rfl, rfl⟩, less_dur ..⟩
    | exact ⟨_, _, .inr (.inl ⟨rfl, rfl⟩), less_time ..⟩
    | exact ⟨_, _, .inr (.inr ⟨_, rfl, rfl⟩), less_prim ..⟩

/-! ## A null key -/

def cmpInt (a b : Int) : Int := if a < b then -1 else if b < a then 1 else 0

/-- `xs.sortAsc(v, v.n)` where `n` is an `Int64Value`. -/
def byWrapper : Expr := .sort .asc (1, 12) (.wrapper .int) .leaf .leaf

/-- What insertion does with two elements: is the second before the first? -/
def two : Alg := .ask 1 0 (fun r => .done (if r then [1, 0] else [0, 1]))

/-- C118 fails for keys that are wrappers: the sort is accepted, and panics when the wrapper of an element is not set; it depends on the
order of the elements. -/
theorem C118_null_false : validate byWrapper = [] ∧ Sorts byWrapper .asc (1, 12) (.wrapper .int) ∧
    (∀ v ∈ [KV.prim .int (1 : Int), .null], HasTy v (.wrapper .int)) ∧ Within 2 two ∧
    run cmpInt (-1) [.prim .int 1, .null] two = none ∧ run cmpInt (-1) [.null, .prim .int 1] two = some [0, 1] := by
  refine ⟨by decide, .here .., ?_, .ask _ _ _ (by decide) (by decide) (fun _ => .done _), by decide, by decide⟩
  intro v hv
  simp at hv
  rcases hv with rfl | rfl <;> constructor

/-- A sort of messages inside a chain is reported once for each place; the sort by a number is not. -/
example : validate (.sort .asc (1, 30) (.prim .int) (.sort .desc (1, 9) (.obj ["p", "M"]) .leaf .leaf)
      (.pair (.sort .desc (1, 9) (.obj ["p", "M"]) .leaf .leaf) .leaf)) = [(.desc, (1, 9), .obj ["p", "M"])] := by decide

example : run cmpInt (-1) [.prim .int 3, .prim .int 1] two = some [1, 0] := by decide
example : run cmpInt 1 [.dur 3, .dur 1] two = some [0, 1] := by decide

end Verif.SortKey
