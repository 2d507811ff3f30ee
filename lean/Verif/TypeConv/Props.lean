import Verif.TypeConv.Model

/-! # C35: the functions a generated conversion calls are generated -/

namespace Verif.TypeConv

section Generic
variable {P K : Type} [DecidableEq K] (req : P → Bool) (key : P → K) (children : P → List P)

/-- Keys of the universe that have not been recorded. -/
def rest (U : List K) (seen : List K) : Nat := (U.filter (fun k => !decide (k ∈ seen))).length

theorem rest_mono (U seen seen' : List K) (h : ∀ k ∈ seen, k ∈ seen') : rest U seen' ≤ rest U seen := by
  unfold rest
  induction U with
  | nil => simp
  | cons u us ih =>
    by_cases h1 : u ∈ seen
    · simp [h1, h u h1]; exact ih
    · by_cases h2 : u ∈ seen'
      · simp [h1, h2]; exact Nat.le_succ_of_le ih
      · simp [h1, h2]; exact ih

theorem rest_cons_lt (U seen : List K) (k : K) (hU : k ∈ U) (hk : k ∉ seen) : rest U (k :: seen) < rest U seen := by
  unfold rest
  induction U with
  | nil => cases hU
  | cons u us ih =>
    by_cases e : u = k
    · subst e
      have hm := rest_mono us seen (u :: seen) (fun x hx => List.mem_cons_of_mem _ hx)
      unfold rest at hm
      simp only [List.filter_cons, List.mem_cons, true_or, hk, decide_true, decide_false, Bool.not_true, Bool.not_false, if_true, if_false, Bool.false_eq_true, List.length_cons]
      simp only [List.mem_cons] at hm
      exact Nat.lt_succ_of_le hm
    · have hU' : k ∈ us := by
        rcases List.mem_cons.mp hU with h | h
        · exact absurd h.symm e
        · exact h
      have := ih hU'
      by_cases h1 : u ∈ seen
      · simpa [List.filter_cons, h1, e] using this
      · simpa [List.filter_cons, h1, e] using this

/-- What a visit does to the state. -/
structure Grows (st st' : List K × List P) : Prop where
  seen : ∀ k ∈ st.1, k ∈ st'.1
  decls : ∀ p ∈ st.2, p ∈ st'.2
  sound : ∀ k ∈ st'.1, k ∈ st.1 ∨ ∃ p ∈ st'.2, key p = k
  need : ∀ p ∈ st'.2, p ∈ st.2 ∨ (req p = true ∧ key p ∈ st'.1)
  closed : ∀ p ∈ st'.2, p ∈ st.2 ∨ ∀ c ∈ children p, req c = true → key c ∈ st'.1

omit [DecidableEq K] in
theorem Grows.refl (st : List K × List P) : Grows req key children st st :=
  ⟨fun _ h => h, fun _ h => h, fun _ h => .inl h, fun _ h => .inl h, fun _ h => .inl h⟩

omit [DecidableEq K] in
theorem Grows.trans {a b c : List K × List P} (h1 : Grows req key children a b) (h2 : Grows req key children b c) :
    Grows req key children a c where
  seen k h := h2.seen k (h1.seen k h)
  decls p h := h2.decls p (h1.decls p h)
  sound k h := by
    rcases h2.sound k h with h | h
    · rcases h1.sound k h with h | ⟨p, hp, e⟩
      · exact .inl h
      · exact .inr ⟨p, h2.decls p hp, e⟩
    · exact .inr h
  need p h := by
    rcases h2.need p h with h | h
    · rcases h1.need p h with h | ⟨h, h'⟩
      · exact .inl h
      · exact .inr ⟨h, h2.seen _ h'⟩
    · exact .inr h
  closed p h := by
    rcases h2.closed p h with h | h
    · rcases h1.closed p h with h | h
      · exact .inl h
      · exact .inr (fun c hc hr => h2.seen _ (h c hc hr))
    · exact .inr h

theorem visit_spec (U : List P) (hU : ∀ p ∈ U, ∀ c ∈ children p, c ∈ U) (n : Nat) : ∀ (st : List K × List P) (p : P), p ∈ U →
    rest (U.map key) st.1 < n →
    Grows req key children st (visit req key children n st p) ∧ (req p = true → key p ∈ (visit req key children n st p).1) := by
  induction n with
  | zero => intro st p _ h; omega
  | succ n ih =>
    intro st p hp hn
    simp only [visit]
    by_cases hr : req p = true
    · simp only [hr, Bool.not_true, Bool.false_eq_true, if_false]
      by_cases hk : key p ∈ st.1
      · rw [if_pos hk]; exact ⟨.refl _ _ _ st, fun _ => hk⟩
      · rw [if_neg hk]
        have hlt := rest_cons_lt (U.map key) st.1 (key p) (List.mem_map.mpr ⟨p, hp, rfl⟩) hk
        -- the fold over a list of children
        have hfold : ∀ (cs : List P), (∀ c ∈ cs, c ∈ U) → ∀ s : List K × List P, rest (U.map key) s.1 < n →
            Grows req key children s (cs.foldl (visit req key children n) s) ∧
            ∀ c ∈ cs, req c = true → key c ∈ (cs.foldl (visit req key children n) s).1 := by
          intro cs
          induction cs with
          | nil => intro _ s _; exact ⟨.refl _ _ _ s, by simp⟩
          | cons c cs ihc =>
            intro hc s hs
            obtain ⟨g1, v1⟩ := ih s c (hc c (by simp)) hs
            have hs' := Nat.lt_of_le_of_lt (rest_mono (U.map key) s.1 _ g1.seen) hs
            obtain ⟨g2, v2⟩ := ihc (fun x hx => hc x (by simp [hx])) _ hs'
            refine ⟨g1.trans _ _ _ g2, ?_⟩
            intro x hx hrx
            rcases List.mem_cons.mp hx with rfl | hx
            · exact g2.seen _ (v1 hrx)
            · exact v2 x hx hrx
        obtain ⟨g, v⟩ := hfold (children p) (hU p hp) (key p :: st.1, st.2 ++ [p]) (by simp only; omega)
        refine ⟨?_, fun _ => g.seen _ (by simp)⟩
        constructor
        · intro k h; exact g.seen k (List.mem_cons_of_mem _ h)
        · intro q h; exact g.decls q (List.mem_append_left _ h)
        · intro k h
          rcases g.sound k h with h | h
          · rcases List.mem_cons.mp h with rfl | h
            · exact .inr ⟨p, g.decls p (by simp), rfl⟩
            · exact .inl h
          · exact .inr h
        · intro q h
          rcases g.need q h with h | h
          · rcases List.mem_append.mp h with h | h
            · exact .inl h
            · rw [List.mem_singleton.mp h]; exact .inr ⟨hr, g.seen _ (by simp)⟩
          · exact .inr h
        · intro q h
          rcases g.closed q h with h | h
          · rcases List.mem_append.mp h with h | h
            · exact .inl h
            · rw [List.mem_singleton.mp h]; exact .inr v
          · exact .inr h
    · have hr' : req p = false := by simpa using hr
      simp only [hr', Bool.not_false, if_true]
      exact ⟨.refl _ _ _ st, by simp⟩

theorem visits_spec (U : List P) (hU : ∀ p ∈ U, ∀ c ∈ children p, c ∈ U) (roots : List P) (hroots : ∀ p ∈ roots, p ∈ U) :
    ∀ st : List K × List P,
    Grows req key children st (roots.foldl (visit req key children (U.length + 1)) st) ∧
    ∀ p ∈ roots, req p = true → key p ∈ (roots.foldl (visit req key children (U.length + 1)) st).1 := by
  induction roots with
  | nil => intro st; exact ⟨.refl _ _ _ st, by simp⟩
  | cons p ps ih =>
    intro st
    have hlt : rest (U.map key) st.1 < U.length + 1 := by
      unfold rest
      have := List.length_filter_le (fun k => !decide (k ∈ st.1)) (U.map key)
      rw [List.length_map] at this
      omega
    obtain ⟨g1, v1⟩ := visit_spec req key children U hU _ st p (hroots p (by simp)) hlt
    obtain ⟨g2, v2⟩ := ih (fun x hx => hroots x (by simp [hx])) (visit req key children (U.length + 1) st p)
    refine ⟨g1.trans _ _ _ g2, ?_⟩
    intro x hx hr
    rcases List.mem_cons.mp hx with rfl | hx
    · exact g2.seen _ (v1 hr)
    · exact v2 x hx hr

/-- All declarations satisfy what the roots satisfy and children inherit. -/
theorem visit_pred (Q : P → Prop) (hQ : ∀ p, Q p → ∀ c ∈ children p, Q c) (n : Nat) : ∀ (st : List K × List P) (p : P), Q p →
    (∀ q ∈ st.2, Q q) → ∀ q ∈ (visit req key children n st p).2, Q q := by
  induction n with
  | zero => intro st p _ h; exact h
  | succ n ih =>
    intro st p hp h
    simp only [visit]
    split
    · exact h
    split
    · exact h
    · have hfold : ∀ (cs : List P), (∀ c ∈ cs, Q c) → ∀ s : List K × List P, (∀ q ∈ s.2, Q q) →
          ∀ q ∈ (cs.foldl (visit req key children n) s).2, Q q := by
        intro cs
        induction cs with
        | nil => intro _ s hs; exact hs
        | cons c cs ihc =>
          intro hc s hs
          exact ihc (fun x hx => hc x (by simp [hx])) _ (ih s c (hc c (by simp)) hs)
      refine hfold _ (hQ p hp) _ ?_
      intro q hq
      rcases List.mem_append.mp hq with hq | hq
      · exact h q hq
      · rw [List.mem_singleton.mp hq]; exact hp

theorem visits_pred (Q : P → Prop) (hQ : ∀ p, Q p → ∀ c ∈ children p, Q c) (roots : List P) (hroots : ∀ p ∈ roots, Q p) (n : Nat) :
    ∀ st : List K × List P, (∀ q ∈ st.2, Q q) → ∀ q ∈ (roots.foldl (visit req key children n) st).2, Q q := by
  induction roots with
  | nil => intro st h; exact h
  | cons p ps ih =>
    intro st h
    exact ih (fun x hx => hroots x (by simp [hx])) _ (visit_pred req key children Q hQ n st p (hroots p (by simp)) h)

/-- All declarations are in the universe. -/
theorem visits_universe (U : List P) (hU : ∀ p ∈ U, ∀ c ∈ children p, c ∈ U) (roots : List P) (hroots : ∀ p ∈ roots, p ∈ U) (n : Nat) :
    ∀ st : List K × List P, (∀ q ∈ st.2, q ∈ U) → ∀ q ∈ (roots.foldl (visit req key children n) st).2, q ∈ U :=
  visits_pred req key children (· ∈ U) hU roots hroots n

/-- Closure of what is declared, for keys that tell the pairs of the universe apart. -/
theorem visits_closed (U : List P) (hU : ∀ p ∈ U, ∀ c ∈ children p, c ∈ U) (hkey : ∀ p ∈ U, ∀ q ∈ U, key p = key q → p = q)
    (roots : List P) (hroots : ∀ p ∈ roots, p ∈ U) :
    let ds := (roots.foldl (visit req key children (U.length + 1)) ([], [])).2
    (∀ p ∈ roots, req p = true → p ∈ ds) ∧ (∀ p ∈ ds, ∀ c ∈ children p, req c = true → c ∈ ds) := by
  intro ds
  obtain ⟨g, v⟩ := visits_spec req key children U hU roots hroots ([], [])
  have hu := visits_universe req key children U hU roots hroots (U.length + 1) ([], []) (by simp)
  have hin : ∀ p ∈ U, key p ∈ (roots.foldl (visit req key children (U.length + 1)) ([], [])).1 → p ∈ ds := by
    intro p hp hk
    rcases g.sound _ hk with h | ⟨q, hq, e⟩
    · cases h
    · rw [← hkey q (hu q hq) p hp e]; exact hq
  refine ⟨fun p hp hr => hin p (hroots p hp) (v p hp hr), ?_⟩
  intro p hp c hc hr
  rcases g.closed p hp with h | h
  · cases h
  · exact hin c (hU p (hu p hp) c hc) (h c hc hr)

end Generic

/-- Specification: a set of types closed under components and fields. -/
def ClosedTypes (S : Schema) (T : List Ty) : Prop :=
  ∀ t ∈ T, match t with
    | .map k v => k ∈ T ∧ v ∈ T
    | .list e => e ∈ T
    | .msg m => ∀ f ∈ S.fields m, f.ty ∈ T
    | _ => True

/-- All pairs of types. -/
def pairs (T : List Ty) : List (Ty × Ty) := T.flatMap (fun a => T.map (fun b => (a, b)))

theorem mem_pairs (T : List Ty) (a b : Ty) : (a, b) ∈ pairs T ↔ a ∈ T ∧ b ∈ T := by
  simp [pairs]

theorem fieldOf_mem {fs : List Field} {n : Name} {f : Field} (h : fieldOf fs n = some f) : f ∈ fs := List.mem_of_find?_eq_some h

theorem elem_mem {S : Schema} {T : List Ty} (hT : ClosedTypes S T) {b : Ty} (hb : b ∈ T) : elem b ∈ T := by
  have := hT b hb
  cases b <;> first | exact hb | exact this

theorem pairs_closed (S : Schema) (T : List Ty) (hT : ClosedTypes S T) : ∀ p ∈ pairs T, ∀ c ∈ children S p, c ∈ pairs T := by
  rintro ⟨a, b⟩ hp ⟨c, d⟩ hc
  rw [mem_pairs] at hp ⊢
  have ha := hT a hp.1
  have hbe := elem_mem hT hp.2
  have hb := hT _ hbe
  simp only [children] at hc
  generalize elem b = b' at hc hbe hb
  cases a with
  | list t =>
    simp only [List.mem_singleton, Prod.mk.injEq] at hc
    obtain ⟨rfl, rfl⟩ := hc
    exact ⟨ha, hbe⟩
  | scalar _ => simp at hc
  | enum _ => simp at hc
  | map k v =>
    cases b' <;> simp only [List.not_mem_nil] at hc
    simp only [List.mem_cons, Prod.mk.injEq, List.not_mem_nil, or_false] at hc
    rcases hc with ⟨rfl, rfl⟩ | ⟨rfl, rfl⟩
    · exact ⟨ha.1, hb.1⟩
    · exact ⟨ha.2, hb.2⟩
  | msg m =>
    cases b' <;> simp only [List.not_mem_nil] at hc
    obtain ⟨f, hf, e⟩ := List.mem_filterMap.mp hc
    cases hg : fieldOf (S.fields m) f.name with
    | none => rw [hg] at e; cases e
    | some g =>
      rw [hg] at e
      simp only [Option.map_some, Option.some.injEq, Prod.mk.injEq] at e
      obtain ⟨rfl, rfl⟩ := e
      exact ⟨ha g (fieldOf_mem hg), hb f hf⟩

/-- Specification: neither a list nor a map. -/
def Single : Ty → Prop
  | .list _ | .map _ _ => False
  | _ => True

/-- Specification: a type that a proto file can have: lists and maps are not nested. -/
def Proto : Ty → Prop
  | .list t => Single t
  | .map k v => Single k ∧ Single v
  | _ => True

/-- Specification: both are lists, both maps, or both neither. -/
def SameForm : Ty → Ty → Prop
  | .list _, .list _ | .map _ _, .map _ _ => True
  | a, b => Single a ∧ Single b

theorem required_single {a b : Ty} (ha : Single a) (hb : Single b) : required a b = true ↔ a ≠ b := by
  cases a <;> simp [Single] at ha <;> cases b <;> simp [Single] at hb <;> simp [required, elem] <;>
    exact ⟨fun h e => h e.symm, fun h e => h e.symm⟩

/-- C35: a conversion is needed exactly between different types, of the types of proto files that are both lists, both maps or both
neither. -/
theorem C35_required (a b : Ty) (ha : Proto a) (hb : Proto b) (hf : SameForm a b) : required a b = true ↔ a ≠ b := by
  cases a with
  | list t =>
    cases b <;> simp [SameForm, Single] at hf
    rename_i t'
    have : required (.list t) (.list t') = required t t' := by
      cases t <;> simp [Proto, Single] at ha <;> cases t' <;> simp [Proto, Single] at hb <;> simp [required, elem]
    rw [this, required_single ha hb]; simp
  | map k v =>
    cases b <;> simp [SameForm, Single] at hf
    rename_i k' v'
    simp only [required, elem, Bool.or_eq_true, required_single ha.1 hb.1, required_single ha.2 hb.2, ne_eq, Ty.map.injEq]
    by_cases h : k = k' <;> simp [h]
  | scalar _ => cases b <;> simp [SameForm, Single] at hf <;> exact required_single trivial trivial
  | enum _ => cases b <;> simp [SameForm, Single] at hf <;> exact required_single trivial trivial
  | msg _ => cases b <;> simp [SameForm, Single] at hf <;> exact required_single trivial trivial

/-- C35 fails for a list and a single value of the same message: no conversion is made, so the value is assigned as it is. -/
theorem C35_list_single_false : required (.list (.msg 0)) (.msg 0) = false ∧ required (.msg 0) (.list (.msg 0)) = false := by decide

/-- C35 (partial: names that tell pairs of types apart, no renamed fields): for every schema, also a
recursive one, every conversion that is needed is declared, and so is every conversion that the function of
a declared one calls. -/
theorem C35_closed_partial (S : Schema) (T : List Ty) (hT : ClosedTypes S T)
    (hkey : ∀ p ∈ pairs T, ∀ q ∈ pairs T, key S p = key S q → p = q) (halias : ∀ m f m', S.alias m f m' = none)
    (roots : List (Ty × Ty)) (hroots : ∀ p ∈ roots, p.1 ∈ T ∧ p.2 ∈ T) :
    (∀ p ∈ roots, required p.1 p.2 = true → p ∈ decls S ((pairs T).length + 1) roots) ∧
    ∀ p ∈ decls S ((pairs T).length + 1) roots, ∀ c ∈ calls S p, c ∈ decls S ((pairs T).length + 1) roots := by
  obtain ⟨h1, h2⟩ := visits_closed (fun p : Ty × Ty => required p.1 p.2) (key S) (children S) (pairs T) (pairs_closed S T hT) hkey roots
    (fun p hp => (mem_pairs T p.1 p.2).mpr (hroots p hp))
  unfold decls
  refine ⟨h1, ?_⟩
  intro p hp c hc
  simp only [calls, List.mem_filter] at hc
  refine h2 p hp c ?_ hc.2
  have := hc.1
  obtain ⟨a, b⟩ := p
  clear h1 h2 hp hc hkey hroots hT
  simp only [children, structField, halias] at this ⊢
  exact this

theorem visit_nodup (S : Schema) (n : Nat) : ∀ (st : List Name × List (Ty × Ty)) (p : Ty × Ty),
    (st.2.map (key S)).Nodup ∧ (∀ q ∈ st.2, key S q ∈ st.1) ∧ (∀ q ∈ st.2, required q.1 q.2 = true) →
    let st' := visit (fun p => required p.1 p.2) (key S) (children S) n st p
    (st'.2.map (key S)).Nodup ∧ (∀ q ∈ st'.2, key S q ∈ st'.1) ∧ (∀ q ∈ st'.2, required q.1 q.2 = true) := by
  induction n with
  | zero => intro st p h; exact h
  | succ n ih =>
    intro st p h
    simp only [visit]
    by_cases hr : required p.1 p.2 = true
    · by_cases hk : key S p ∈ st.1
      · simpa [hr, hk] using h
      · simp only [hr, Bool.not_true, Bool.false_eq_true, if_false, hk]
        have hfold : ∀ (cs : List (Ty × Ty)) (s : List Name × List (Ty × Ty)),
            ((s.2.map (key S)).Nodup ∧ (∀ q ∈ s.2, key S q ∈ s.1) ∧ (∀ q ∈ s.2, required q.1 q.2 = true)) →
            let s' := cs.foldl (visit (fun p => required p.1 p.2) (key S) (children S) n) s
            (s'.2.map (key S)).Nodup ∧ (∀ q ∈ s'.2, key S q ∈ s'.1) ∧ (∀ q ∈ s'.2, required q.1 q.2 = true) := by
          intro cs
          induction cs with
          | nil => intro s hs; exact hs
          | cons c cs ihc => intro s hs; exact ihc _ (ih s c hs)
        apply hfold
        refine ⟨?_, ?_, ?_⟩
        · rw [List.map_append, List.nodup_append]
          refine ⟨h.1, by simp, ?_⟩
          intro x hx y hy e
          simp only [List.map_cons, List.map_nil, List.mem_singleton] at hy
          subst hy; subst e
          obtain ⟨q, hq, e⟩ := List.mem_map.mp hx
          exact hk (e ▸ h.2.1 q hq)
        · intro q hq
          rcases List.mem_append.mp hq with hq | hq
          · exact List.mem_cons_of_mem _ (h.2.1 q hq)
          · rw [List.mem_singleton.mp hq]; exact List.mem_cons_self ..
        · intro q hq
          rcases List.mem_append.mp hq with hq | hq
          · exact h.2.2 q hq
          · rw [List.mem_singleton.mp hq]; exact hr
    · have : required p.1 p.2 = false := by simpa using hr
      simpa [this] using h

theorem nodup_of_map {α β : Type} (f : α → β) (l : List α) (h : (l.map f).Nodup) : l.Nodup := by
  induction l with
  | nil => simp
  | cons x xs ih =>
    rw [List.map_cons, List.nodup_cons] at h
    exact List.nodup_cons.mpr ⟨fun hx => h.1 (List.mem_map.mpr ⟨x, hx, rfl⟩), ih h.2⟩

/-- C35: nothing is declared twice or without need. -/
theorem C35_needed_once (S : Schema) (n : Nat) (roots : List (Ty × Ty)) :
    (decls S n roots).Nodup ∧ ∀ p ∈ decls S n roots, required p.1 p.2 = true := by
  have : ∀ (rs : List (Ty × Ty)) (s : List Name × List (Ty × Ty)),
      ((s.2.map (key S)).Nodup ∧ (∀ q ∈ s.2, key S q ∈ s.1) ∧ (∀ q ∈ s.2, required q.1 q.2 = true)) →
      let s' := rs.foldl (visit (fun p => required p.1 p.2) (key S) (children S) n) s
      (s'.2.map (key S)).Nodup ∧ (∀ q ∈ s'.2, key S q ∈ s'.1) ∧ (∀ q ∈ s'.2, required q.1 q.2 = true) := by
    intro rs
    induction rs with
    | nil => intro s hs; exact hs
    | cons c cs ihc => intro s hs; exact ihc _ (visit_nodup S n s c hs)
  have := this roots ([], []) (by simp)
  exact ⟨nodup_of_map _ _ this.1, this.2.2⟩

/-! ## Functions -/

theorem fold_unique {N : Type} [DecidableEq N] (name : Ty × Ty → N) (l acc : List (Ty × Ty)) (ha : (acc.map name).Nodup) :
    let r := l.foldl (fun acc p => if acc.any (fun q => name q == name p) then acc else acc ++ [p]) acc
    (r.map name).Nodup ∧ (∀ p ∈ acc, p ∈ r) ∧ (∀ p ∈ r, p ∈ acc ∨ p ∈ l) ∧ ∀ p ∈ l, ∃ q ∈ r, name q = name p := by
  induction l generalizing acc with
  | nil => exact ⟨ha, fun _ h => h, fun _ h => .inl h, by simp⟩
  | cons x xs ih =>
    simp only [List.foldl_cons]
    by_cases hx : acc.any (fun q => name q == name x) = true
    · rw [if_pos hx]
      obtain ⟨h1, h2, h3, h4⟩ := ih acc ha
      refine ⟨h1, h2, fun p hp => ?_, ?_⟩
      · rcases h3 p hp with h | h
        · exact .inl h
        · exact .inr (List.mem_cons_of_mem _ h)
      · intro p hp
        rcases List.mem_cons.mp hp with rfl | hp
        · obtain ⟨q, hq, e⟩ := List.any_eq_true.mp hx
          exact ⟨q, h2 q hq, beq_iff_eq.mp e⟩
        · exact h4 p hp
    · rw [if_neg hx]
      have hx' : ∀ q ∈ acc, name q ≠ name x := by
        intro q hq e
        exact hx (List.any_eq_true.mpr ⟨q, hq, by simp [e]⟩)
      have hnd : ((acc ++ [x]).map name).Nodup := by
        rw [List.map_append, List.nodup_append]
        refine ⟨ha, by simp, ?_⟩
        intro a ha' b hb e
        simp only [List.map_cons, List.map_nil, List.mem_singleton] at hb
        subst hb; subst e
        obtain ⟨q, hq, e⟩ := List.mem_map.mp ha'
        exact hx' q hq e
      obtain ⟨h1, h2, h3, h4⟩ := ih (acc ++ [x]) hnd
      refine ⟨h1, fun p hp => h2 p (List.mem_append_left _ hp), fun p hp => ?_, ?_⟩
      · rcases h3 p hp with h | h
        · rcases List.mem_append.mp h with h | h
          · exact .inl h
          · exact .inr (by simp [List.mem_singleton.mp h])
        · exact .inr (List.mem_cons_of_mem _ h)
      · intro p hp
        rcases List.mem_cons.mp hp with rfl | hp
        · exact ⟨p, h2 p (by simp), rfl⟩
        · exact h4 p hp

/-- C35: the generated functions have different names; each declared conversion and each method response has
the function of its name. -/
theorem C35_functions {N : Type} [DecidableEq N] (name : Ty × Ty → N) (responses ds : List (Ty × Ty)) :
    ((castFields name responses ds).map name).Nodup ∧
    ∀ p, p ∈ responses ∨ p ∈ ds → ∃ q ∈ castFields name responses ds, name q = name p := by
  obtain ⟨h1, _, _, h4⟩ := fold_unique name (responses ++ ds).reverse [] (by simp)
  exact ⟨h1, fun p hp => h4 p (by rw [List.mem_reverse]; exact List.mem_append.mpr hp)⟩

/-- C35 (partial: names of functions that tell the pairs apart): the function of its name is the one that
converts between its types. -/
theorem C35_right_function_partial {N : Type} [DecidableEq N] (name : Ty × Ty → N) (responses ds : List (Ty × Ty))
    (hname : ∀ p ∈ responses ++ ds, ∀ q ∈ responses ++ ds, name p = name q → p = q) (p : Ty × Ty) (hp : p ∈ responses ∨ p ∈ ds) :
    p ∈ castFields name responses ds := by
  obtain ⟨_, _, h3, h4⟩ := fold_unique name (responses ++ ds).reverse [] (by simp)
  obtain ⟨q, hq, e⟩ := h4 p (by rw [List.mem_reverse]; exact List.mem_append.mpr hp)
  have hq' : q ∈ responses ++ ds := by
    rcases h3 q hq with h | h
    · cases h
    · exact List.mem_reverse.mp h
  rw [← hname q hq' p (by simpa using hp) e]
  exact hq

/-! ## Failures -/

/-- Names for the witnesses. -/
def wit (enums msgs : List String) (fields : List (List (String × Ty))) (alias : Nat → Name → Nat → Option Name) : Schema where
  kindName k := if k = 0 then "int64".toList else "uint64".toList
  enumName e := (enums.getD e "").toList
  msgName m := (msgs.getD m "").toList
  fields m := (fields.getD m []).map (fun f => ⟨f.1.toList, f.2⟩)
  alias := alias

/-- C35 is false of the code for types whose names coincide when concatenated: only one of the two
conversions is declared. -/
theorem C35_names_false :
    let S := wit ["a.X", "yb.Z", "a.Xy", "b.Z"] [] [] (fun _ _ _ => none)
    decls S 9 [(.enum 0, .enum 1), (.enum 2, .enum 3)] = [(.enum 0, .enum 1)] ∧ required (.enum 2) (.enum 3) = true := by
  decide

/-- C35 is false of the code for renamed fields of nested messages: the conversion of the field is called but
not declared. -/
theorem C35_renamed_false :
    let S := wit ["dep.E", "fed.E"] ["dep.M", "fed.M"] [[("old", .enum 0)], [("new", .enum 1)]]
      (fun m f m' => if m = 1 ∧ f = "new".toList ∧ m' = 0 then some "old".toList else none)
    (.enum 0, .enum 1) ∈ calls S (.msg 0, .msg 1) ∧ (.msg 0, .msg 1) ∈ decls S 9 [(.msg 0, .msg 1)] ∧
    (.enum 0, .enum 1) ∉ decls S 9 [(.msg 0, .msg 1)] := by
  decide

/-- C35 is false of the code for methods with a `response` option: the conversion of the response calls
functions that are not generated. -/
theorem C35_method_response_false :
    let S := wit ["dep.E", "fed.E"] ["dep.M", "fed.M"] [[("e", .enum 0)], [("e", .enum 1)]] (fun _ _ _ => none)
    (.msg 0, .msg 1) ∈ castFields (key S) [(.msg 0, .msg 1)] (decls S 9 []) ∧
    (.enum 0, .enum 1) ∈ calls S (.msg 0, .msg 1) ∧ (.enum 0, .enum 1) ∉ castFields (key S) [(.msg 0, .msg 1)] (decls S 9 []) := by
  decide

/-- A recursive schema meets the hypotheses; the nested conversions are declared. -/
example :
    let S := wit ["dep.E", "fed.E"] ["dep.M", "fed.M"] [[("e", .list (.enum 0)), ("m", .msg 0)], [("e", .list (.enum 1)), ("m", .msg 1)]] (fun _ _ _ => none)
    let T : List Ty := [.msg 0, .msg 1, .enum 0, .enum 1, .list (.enum 0), .list (.enum 1)]
    (∀ p ∈ pairs T, ∀ q ∈ pairs T, key S p = key S q → p = q) ∧
    decls S 37 [(.msg 0, .msg 1)] = [(.msg 0, .msg 1), (.list (.enum 0), .list (.enum 1)), (.enum 0, .enum 1)] := by
  decide

example :
    let S := wit ["dep.E", "fed.E"] ["dep.M", "fed.M"] [[("e", .list (.enum 0)), ("m", .msg 0)], [("e", .list (.enum 1)), ("m", .msg 1)]] (fun _ _ _ => none)
    ClosedTypes S [.msg 0, .msg 1, .enum 0, .enum 1, .list (.enum 0), .list (.enum 1)] := by
  intro S t ht
  simp only [List.mem_cons, List.not_mem_nil, or_false] at ht
  rcases ht with rfl | rfl | rfl | rfl | rfl | rfl <;> simp [S, wit]

end Verif.TypeConv
