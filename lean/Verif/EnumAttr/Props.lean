import Verif.Embed.Props
import Verif.EnumAttr.Model

/-!
# C106: enum values have the attributes that are written
-/

namespace Verif.EnumAttr

open Verif.Embed

/-! ## Specification -/

/-- The attributes written at a value. -/
def ValDef.attrs (d : ValDef) : List (Text × Text) := d.option.getD []

/-- No value has an attribute twice. -/
def EnumDef.Once (e : EnumDef) : Prop := ∀ v ∈ e.values, (v.attrs.map Prod.fst).Nodup

/-- An attribute that some value has, all values have. -/
def EnumDef.Complete (e : EnumDef) : Prop :=
  ∀ v ∈ e.values, ∀ k ∈ v.attrs.map Prod.fst, ∀ w ∈ e.values, k ∈ w.attrs.map Prod.fst

/-- No two values have the same number. -/
def EnumDef.Distinct (e : EnumDef) : Prop := (e.values.map ValDef.number).Nodup

/-- Numbers are those of Protocol Buffers. -/
def EnumDef.Int32 (e : EnumDef) : Prop := ∀ v ∈ e.values, -2147483648 ≤ v.number ∧ v.number < 2147483648

/-- No attribute contains backquotes, carriage returns or characters that no Go file may contain. -/
def EnumDef.Plain (e : EnumDef) : Prop := ∀ v ∈ e.values, ∀ a ∈ v.attrs, Clean a.1 ∧ Clean a.2

/-! ## Helper lemmas -/

theorem resolveAttrs_ok (as : List (Text × Text)) :
    ((resolveAttrs as).2 = [] ↔ ∀ a ∈ as, a.1 ≠ []) ∧ ((resolveAttrs as).2 = [] → (resolveAttrs as).1 = as) := by
  induction as with
  | nil => simp [resolveAttrs]
  | cons a as ih =>
    rw [resolveAttrs]
    by_cases h : a.1 = []
    · simp [h]
    · simp only [h, if_false]
      refine ⟨?_, fun h' => by rw [ih.2 h']⟩
      rw [ih.1]
      simp [h]

/-- What a value is resolved to if there is no error. -/
def valOf (hasRule : Bool) (d : ValDef) : Val :=
  { name := d.name, number := d.number,
    rule := match d.option with
      | none => if hasRule then some [] else none
      | some as => some as }

theorem resolveVal_ok (b : Bool) (d : ValDef) :
    ((resolveVal b d).2 = [] ↔ ∀ a ∈ d.attrs, a.1 ≠ []) ∧ ((resolveVal b d).2 = [] → (resolveVal b d).1 = valOf b d) := by
  cases h : d.option with
  | none => simp [resolveVal, h, ValDef.attrs, valOf]
  | some as =>
    have := resolveAttrs_ok as
    simp only [resolveVal, h, ValDef.attrs, valOf, Option.getD_some]
    exact ⟨this.1, fun h' => by rw [this.2 h']⟩

theorem attrNames_valOf (b : Bool) (ds : List ValDef) :
    attrNames (ds.map (valOf b)) = ds.flatMap fun d => d.attrs.map Prod.fst := by
  induction ds with
  | nil => rfl
  | cons d ds ih =>
    have : (match (valOf b d).rule with
      | none => []
      | some as => as.map Prod.fst) = d.attrs.map Prod.fst := by
      cases h : d.option with
      | none => cases b <;> simp [valOf, h, ValDef.attrs]
      | some as => simp [valOf, h, ValDef.attrs]
    rw [List.map_cons, List.flatMap_cons, ← ih, ← this]
    rfl

theorem resolveEnum_ok (e : EnumDef) :
    (resolveEnum e).2 = [] ↔ (∀ v ∈ e.values, ∀ a ∈ v.attrs, a.1 ≠ []) ∧ checkAttrs (e.values.map (valOf e.hasRule)) = [] := by
  have h1 : (e.values.map (resolveVal e.hasRule)).flatMap Prod.snd = [] ↔ ∀ v ∈ e.values, ∀ a ∈ v.attrs, a.1 ≠ [] := by
    rw [List.flatMap_eq_nil_iff]
    constructor
    · intro h v hv
      exact (resolveVal_ok _ v).1.1 (h _ (List.mem_map.2 ⟨v, hv, rfl⟩))
    · intro h x hx
      obtain ⟨v, hv, rfl⟩ := List.mem_map.1 hx
      exact (resolveVal_ok _ v).1.2 (h v hv)
  have h2 : (∀ v ∈ e.values, ∀ a ∈ v.attrs, a.1 ≠ []) →
      (e.values.map (resolveVal e.hasRule)).map Prod.fst = e.values.map (valOf e.hasRule) := by
    intro h
    rw [List.map_map]
    apply List.map_congr_left
    intro v hv
    exact (resolveVal_ok _ v).2 ((resolveVal_ok _ v).1.2 (h v hv))
  simp only [resolveEnum, List.append_eq_nil_iff, h1]
  constructor
  · rintro ⟨h, h'⟩
    exact ⟨h, by rw [← h2 h]; exact h'⟩
  · rintro ⟨h, h'⟩
    exact ⟨h, by rw [h2 h]; exact h'⟩

theorem resolveEnum_vals (e : EnumDef) (h : (resolveEnum e).2 = []) :
    (resolveEnum e).1 = e.values.map (valOf e.hasRule) := by
  have h := ((resolveEnum_ok e).1 h).1
  simp only [resolveEnum]
  rw [List.map_map]
  apply List.map_congr_left
  intro v hv
  exact (resolveVal_ok _ v).2 ((resolveVal_ok _ v).1.2 (h v hv))

theorem checkAttrs_nil (vs : List Val) :
    checkAttrs vs = [] ↔ ∀ k ∈ attrNames vs, (attrNames vs).count k = vs.length := by
  simp [checkAttrs, List.filter_eq_nil_iff]

theorem count_flat (ds : List ValDef) (h : ∀ v ∈ ds, (v.attrs.map Prod.fst).Nodup) (k : Text) :
    (ds.flatMap fun d => d.attrs.map Prod.fst).count k ≤ ds.length ∧
    ((ds.flatMap fun d => d.attrs.map Prod.fst).count k = ds.length ↔ ∀ v ∈ ds, k ∈ v.attrs.map Prod.fst) := by
  induction ds with
  | nil => simp
  | cons d ds ih =>
    have ih := ih (fun v hv => h v (List.mem_cons_of_mem _ hv))
    have hd := List.nodup_iff_count.1 (h d (List.mem_cons_self ..)) k
    rw [List.flatMap_cons, List.count_append]
    have hm : 0 < (d.attrs.map Prod.fst).count k ↔ k ∈ d.attrs.map Prod.fst := List.count_pos_iff
    refine ⟨by simp only [List.length_cons]; omega, ?_⟩
    simp only [List.length_cons, List.forall_mem_cons, ← ih.2, ← hm]
    omega

/-! ## Acceptance -/

/-- An enum in which no value has an attribute twice is accepted exactly if all attributes have names and every attribute that
one value has, all values have. -/
theorem C106_accepted_partial (e : EnumDef) (h : e.Once) :
    (resolveEnum e).2 = [] ↔ (∀ v ∈ e.values, ∀ a ∈ v.attrs, a.1 ≠ []) ∧ e.Complete := by
  rw [resolveEnum_ok, checkAttrs_nil, attrNames_valOf]
  refine and_congr_right fun _ => ?_
  simp only [List.length_map, List.mem_flatMap]
  constructor
  · intro hc v hv k hk
    exact (count_flat e.values h k).2.1 (hc k ⟨v, hv, hk⟩)
  · rintro hc k ⟨v, hv, hk⟩
    exact (count_flat e.values h k).2.2 (hc v hv k hk)

/-- Two values with two attributes. -/
def exampleEnum : EnumDef :=
  ⟨false, [⟨t!"A", 0, some [(t!"en", t!"first"), (t!"ja", t!"x")]⟩, ⟨t!"B", 5, some [(t!"ja", t!"y"), (t!"en", t!"second")]⟩]⟩

example : (resolveEnum exampleEnum).2 = [] :=
  (C106_accepted_partial exampleEnum (by unfold EnumDef.Once; decide)).2 ⟨by decide, by unfold EnumDef.Complete; decide⟩

/-- An enum is accepted in which one value has an attribute twice and the other not at all. -/
theorem C106_complete_false : ∃ e : EnumDef, (resolveEnum e).2 = [] ∧ ¬ e.Complete :=
  ⟨⟨false, [⟨t!"A", 0, some [(t!"en", t!"a"), (t!"en", t!"b")]⟩, ⟨t!"B", 1, some []⟩]⟩, by decide, by
    unfold EnumDef.Complete; decide⟩

/-- If that other value has no option, the generator crashes. -/
theorem C106_crash_false : ∃ e : EnumDef, (resolveEnum e).2 = [] ∧ gen (resolveEnum e).1 = .crash :=
  ⟨⟨false, [⟨t!"A", 0, some [(t!"en", t!"a"), (t!"en", t!"b")]⟩, ⟨t!"B", 1, none⟩]⟩, by decide, by decide⟩

/-! ## The answers -/

theorem genRows_ok (b : Bool) (ds : List ValDef) (h : ∀ d ∈ ds, d.attrs ≠ []) :
    genRows (ds.map (valOf b)) = some (ds.map fun d => (d.number, d.attrs)) := by
  induction ds with
  | nil => rfl
  | cons d ds ih =>
    have ih := ih (fun v hv => h v (List.mem_cons_of_mem _ hv))
    have hd := h d (List.mem_cons_self ..)
    cases ho : d.option with
    | none => exact absurd (by simp [ValDef.attrs, ho]) hd
    | some as =>
      rw [List.map_cons, genRows, ih]
      simp [valOf, ho, ValDef.attrs]

theorem litOf_clean (t : Text) (h : Clean t) : litOf t = some t := by
  have : readLit (Piece.raw t).text = some (t, []) := by
    simp only [Piece.text, readLit, if_true]
    exact readRaw_clean t [] (fun c hc => rawChar_iff.2 (h c hc))
  simp [litOf, this]

theorem readRow_clean (as : List (Text × Text)) (h : ∀ a ∈ as, Clean a.1 ∧ Clean a.2) : readRow as = some as := by
  induction as with
  | nil => rfl
  | cons a as ih =>
    have ih := ih (fun v hv => h v (List.mem_cons_of_mem _ hv))
    have ha := h a (List.mem_cons_self ..)
    obtain ⟨k, x⟩ := a
    simp [readRow, ih, litOf_clean _ ha.1, litOf_clean _ ha.2]

theorem readRows_clean (rs : List (Int × List (Text × Text))) (h : ∀ r ∈ rs, ∀ a ∈ r.2, Clean a.1 ∧ Clean a.2) :
    readRows rs = some rs := by
  induction rs with
  | nil => rfl
  | cons r rs ih =>
    have ih := ih (fun v hv => h v (List.mem_cons_of_mem _ hv))
    obtain ⟨n, as⟩ := r
    simp [readRows, ih, readRow_clean as (h _ (List.mem_cons_self ..))]

theorem find_mem {K V : Type} [DecidableEq K] (l : List (K × V)) (h : (l.map Prod.fst).Nodup) (k : K) (v : V)
    (hm : (k, v) ∈ l) : find k l = some v := by
  induction l with
  | nil => cases hm
  | cons p l ih =>
    obtain ⟨k', v'⟩ := p
    simp only [List.map_cons, List.nodup_cons] at h
    rcases List.mem_cons.1 hm with hm | hm
    · cases hm
      simp [find]
    · have : k' ≠ k := by
        rintro rfl
        exact h.1 (List.mem_map.2 ⟨_, hm, rfl⟩)
      simp [find, this, ih h.2 hm]

theorem find_none {K V : Type} [DecidableEq K] (l : List (K × V)) (k : K) (h : k ∉ l.map Prod.fst) : find k l = none := by
  induction l with
  | nil => rfl
  | cons p l ih =>
    obtain ⟨k', v'⟩ := p
    simp only [List.map_cons, List.mem_cons, not_or] at h
    simp [find, Ne.symm h.1, ih h.2]

theorem wrap32_id (n : Int) (h : -2147483648 ≤ n ∧ n < 2147483648) : wrap32 n = n := by
  unfold wrap32
  omega

/-- For an accepted enum with an attribute the generator writes a table that compiles, and `attr` gives for every value and every
attribute what is written there. A name that is no attribute gives the empty string, and a number that no value has an error. No
value has an attribute twice here, no two values the same number, and there are no backquotes. -/
theorem C106_attr_partial (e : EnumDef) (hacc : (resolveEnum e).2 = []) (h1 : e.Once) (h2 : e.Distinct) (h3 : e.Int32)
    (h4 : e.Plain) (hsome : ∃ v ∈ e.values, v.attrs ≠ []) :
    ∃ rows table, gen (resolveEnum e).1 = .table rows ∧ compile rows = some table ∧
      (∀ v ∈ e.values, ∀ k x, (k, x) ∈ v.attrs → attrFn table v.number k = some x) ∧
      (∀ v ∈ e.values, ∀ k, k ∉ v.attrs.map Prod.fst → attrFn table v.number k = some []) ∧
      (∀ n : Int, -2147483648 ≤ n → n < 2147483648 → n ∉ e.values.map ValDef.number → ∀ k, attrFn table n k = none) := by
  have hcomp := ((C106_accepted_partial e h1).1 hacc).2
  obtain ⟨v0, hv0, hne⟩ := hsome
  obtain ⟨a0, l0, ha0⟩ := List.exists_cons_of_ne_nil hne
  have hk0 : a0.1 ∈ v0.attrs.map Prod.fst := List.mem_map.2 ⟨a0, by simp [ha0], rfl⟩
  have hall : ∀ d ∈ e.values, d.attrs ≠ [] := by
    intro d hd h
    have := hcomp v0 hv0 _ hk0 d hd
    rw [h] at this
    cases this
  have hrows := genRows_ok e.hasRule e.values hall
  have hnames : attrNames (e.values.map (valOf e.hasRule)) ≠ [] := by
    rw [attrNames_valOf]
    intro h
    have : a0.1 ∈ e.values.flatMap fun d => d.attrs.map Prod.fst := List.mem_flatMap.2 ⟨v0, hv0, hk0⟩
    rw [h] at this
    cases this
  have hfst : (e.values.map fun d => (d.number, d.attrs)).map Prod.fst = e.values.map ValDef.number := by
    simp [List.map_map, Function.comp_def]
  have hnd : ((e.values.map fun d => (d.number, d.attrs)).map Prod.fst).Nodup := by rw [hfst]; exact h2
  have hrow : ∀ v ∈ e.values, find (wrap32 v.number) (e.values.map fun d => (d.number, d.attrs)) = some v.attrs := by
    intro v hv
    rw [wrap32_id _ (h3 v hv)]
    exact find_mem _ hnd _ _ (List.mem_map.2 ⟨v, hv, rfl⟩)
  refine ⟨e.values.map fun d => (d.number, d.attrs), e.values.map fun d => (d.number, d.attrs), ?_, ?_, ?_, ?_, ?_⟩
  · rw [resolveEnum_vals e hacc, gen, if_neg hnames, hrows]
  · rw [compile, readRows_clean]
    · refine if_pos ⟨hnd, ?_⟩
      intro r hr
      obtain ⟨v, hv, rfl⟩ := List.mem_map.1 hr
      exact h1 v hv
    · intro r hr
      obtain ⟨v, hv, rfl⟩ := List.mem_map.1 hr
      exact h4 v hv
  · intro v hv k x hx
    rw [attrFn, hrow v hv]
    simp [find_mem _ (h1 v hv) k x hx]
  · intro v hv k hk
    rw [attrFn, hrow v hv]
    simp [find_none _ k hk]
  · intro n hn1 hn2 hn k
    rw [attrFn, wrap32_id _ ⟨hn1, hn2⟩, find_none _ _ (by rw [hfst]; exact hn)]

example : ∃ rows table, gen (resolveEnum exampleEnum).1 = .table rows ∧ compile rows = some table ∧
    attrFn table 5 t!"en" = some t!"second" ∧ attrFn table 0 t!"xx" = some [] ∧ attrFn table 1 t!"en" = none := by
  obtain ⟨r, t, h1, h2, h3, h4, h5⟩ := C106_attr_partial exampleEnum (by decide) (by unfold EnumDef.Once; decide)
    (by unfold EnumDef.Distinct; decide) (by unfold EnumDef.Int32; decide) (by unfold EnumDef.Plain Clean; decide)
    ⟨_, List.mem_cons_self .., by decide⟩
  refine ⟨r, t, h1, h2, ?_, ?_, h5 1 (by decide) (by decide) (by decide) _⟩
  · exact h3 ⟨t!"B", 5, some [(t!"ja", t!"y"), (t!"en", t!"second")]⟩ (by decide) _ _ (by decide)
  · exact h4 ⟨t!"A", 0, some [(t!"en", t!"first"), (t!"ja", t!"x")]⟩ (by decide) _ (by decide)

/-- Two values with one number, which Protocol Buffers allow: the table does not compile. -/
theorem C106_number_false : ∃ e : EnumDef, (resolveEnum e).2 = [] ∧ e.Once ∧ e.Complete ∧
    ∃ rows, gen (resolveEnum e).1 = .table rows ∧ compile rows = none :=
  ⟨⟨false, [⟨t!"A", 0, some [(t!"en", t!"a")]⟩, ⟨t!"B", 0, some [(t!"en", t!"b")]⟩]⟩, by decide, by
    unfold EnumDef.Once; decide, by unfold EnumDef.Complete; decide, _, rfl, by decide⟩

/-- An attribute twice at the only value is accepted too, and does not compile. -/
theorem C106_twice_false : ∃ e : EnumDef, (resolveEnum { e with values := e.values ++ [⟨t!"B", 1, some []⟩] }).2 = [] ∧
    ∃ rows, gen (resolveEnum { e with values := e.values ++ [⟨t!"B", 1, some []⟩] }).1 = .table rows ∧ compile rows = none :=
  ⟨⟨false, [⟨t!"A", 0, some [(t!"en", t!"a"), (t!"en", t!"b")]⟩]⟩, by decide, _, rfl, by decide⟩

/-- Numbers are cut to 32 bits: a number that no value has can have the attribute of another. -/
theorem C106_large_false : ∃ table : List (Int × List (Text × Text)), ∃ n : Int, n ∉ table.map Prod.fst ∧
    attrFn table n t!"en" = some t!"a" ∧ nameFn [⟨t!"A", 1, none⟩] n = t!"A" :=
  ⟨[(1, [(t!"en", t!"a")])], 4294967297, by decide, by decide, by decide⟩

/-! ## Names and numbers -/

/-- `name` gives the name of the number of a value, `value` the number of its name, and `from` changes nothing, if no two values have the
same number or name. -/
theorem C106_names_partial (vs : List Val) (h1 : (vs.map Val.number).Nodup) (h2 : (vs.map Val.name).Nodup)
    (h3 : ∀ v ∈ vs, -2147483648 ≤ v.number ∧ v.number < 2147483648) :
    (∀ v ∈ vs, nameFn vs v.number = v.name ∧ valueFn vs v.name = v.number ∧ fromFn v.number = v.number) ∧
    (∀ n : Int, -2147483648 ≤ n → n < 2147483648 → n ∉ vs.map Val.number → nameFn vs n = []) := by
  have e1 : (vs.map fun v => (v.number, v.name)).map Prod.fst = vs.map Val.number := by
    simp [List.map_map, Function.comp_def]
  have e2 : (vs.map fun v => (v.name, v.number)).map Prod.fst = vs.map Val.name := by
    simp [List.map_map, Function.comp_def]
  refine ⟨?_, ?_⟩
  · intro v hv
    refine ⟨?_, ?_, rfl⟩
    · rw [nameFn, wrap32_id _ (h3 v hv), find_mem _ (by rw [e1]; exact h1) _ v.name (List.mem_map.2 ⟨v, hv, rfl⟩)]
      rfl
    · rw [valueFn, find_mem _ (by rw [e2]; exact h2) _ v.number (List.mem_map.2 ⟨v, hv, rfl⟩)]
      rfl
  · intro n hn1 hn2 hn
    rw [nameFn, wrap32_id _ ⟨hn1, hn2⟩, find_none _ _ (by rw [e1]; exact hn)]
    rfl

example : nameFn [⟨t!"A", 0, none⟩, ⟨t!"B", 7, none⟩] 7 = t!"B" ∧ valueFn [⟨t!"A", 0, none⟩, ⟨t!"B", 7, none⟩] t!"B" = 7 :=
  let h := (C106_names_partial [⟨t!"A", 0, none⟩, ⟨t!"B", 7, none⟩] (by decide) (by decide) (by decide)).1 ⟨t!"B", 7, none⟩ (by decide)
  ⟨h.1, h.2.1⟩

/-- A name that no value has is no error: it is taken for the value 0. -/
theorem C106_unknown_false : ∃ vs : List Val, ∃ v ∈ vs, ∃ s, s ∉ vs.map Val.name ∧ valueFn vs s = valueFn vs v.name :=
  ⟨[⟨t!"A", 0, none⟩, ⟨t!"B", 7, none⟩], ⟨t!"A", 0, none⟩, by decide, t!"C", by decide, by decide⟩

end Verif.EnumAttr
