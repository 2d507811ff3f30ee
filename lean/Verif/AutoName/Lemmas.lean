import Verif.AutoName.Spec

/-! # Generated names as data -/

namespace Verif.AutoName

theorem digits_inj {a b : Nat} (h : digits a = digits b) : a = b := by
  have := congrArg (Nat.ofDigitChars 10 · 0) h
  simpa [digits, Nat.ofDigitChars_ten_toDigits] using this

theorem digits_digit {n : Nat} {c : Char} (h : c ∈ digits n) : c.isDigit = true :=
  Nat.isDigit_of_mem_toDigits (by decide) (by decide) h

/-- Two numerals before something that is not a digit. -/
theorem digits_split {a b : Nat} {r s : Name} (hr : ∀ c ∈ r.head?, c.isDigit = false)
    (hs : ∀ c ∈ s.head?, c.isDigit = false) (h : digits a ++ r = digits b ++ s) : a = b ∧ r = s := by
  have key : ∀ (x y r s : Name), (∀ c ∈ x, c.isDigit = true) → (∀ c ∈ y, c.isDigit = true) →
      (∀ c ∈ r.head?, c.isDigit = false) → (∀ c ∈ s.head?, c.isDigit = false) →
      x ++ r = y ++ s → x = y ∧ r = s := by
    intro x
    induction x with
    | nil =>
      intro y r s _ hy hr _ h
      cases y with
      | nil => exact ⟨rfl, h⟩
      | cons c y =>
        simp only [List.nil_append, List.cons_append] at h
        have h1 := hr c (by rw [h]; rfl)
        rw [hy c (List.mem_cons_self ..)] at h1
        cases h1
    | cons c x ih =>
      intro y r s hx hy hr hs h
      cases y with
      | nil =>
        simp only [List.nil_append, List.cons_append] at h
        have h1 := hs c (by rw [← h]; rfl)
        rw [hx c (List.mem_cons_self ..)] at h1
        cases h1
      | cons c' y =>
        simp only [List.cons_append, List.cons.injEq] at h
        obtain ⟨h1, h2⟩ := ih y r s (fun c hc => hx c (List.mem_cons_of_mem _ hc))
          (fun c hc => hy c (List.mem_cons_of_mem _ hc)) hr hs h.2
        exact ⟨by rw [h.1, h1], h2⟩
  obtain ⟨h1, h2⟩ := key _ _ r s (fun _ h => digits_digit h) (fun _ h => digits_digit h) hr hs h
  exact ⟨digits_inj h1, h2⟩

/-- The generated names. -/
inductive Tag where
  | plain (i : Nat)
  | oneof (i : Nat)
  | error (d i : Nat)
  | detail (d e i : Nat)
  | message (d e i : Nat)
deriving DecidableEq

def Tag.render : Tag → Name
  | .plain i => defName i
  | .oneof i => oneofName i
  | .error d i => errorName d i
  | .detail d e i => detailName d e i
  | .message d e i => messageName d e i

/-- What follows the first number. -/
def Tag.tail : Tag → Name
  | .plain _ => []
  | .oneof _ => []
  | .error _ i => ['_', 'd', 'e', 'f'] ++ digits i
  | .detail _ e i => ['_', 'e', 'r', 'r', '_', 'd', 'e', 't', 'a', 'i', 'l'] ++ (digits e ++ (['_', 'd', 'e', 'f'] ++ digits i))
  | .message _ e i => ['_', 'e', 'r', 'r', '_', 'd', 'e', 't', 'a', 'i', 'l'] ++ (digits e ++ (['_', 'm', 's', 'g'] ++ digits i))

def Tag.first : Tag → Nat
  | .plain i => i
  | .oneof i => i
  | .error d _ => d
  | .detail d _ _ => d
  | .message d _ _ => d

def Tag.isOneof : Tag → Bool
  | .oneof _ => true
  | _ => false

theorem Tag.render_eq (t : Tag) : t.render =
    (if t.isOneof then ['_', 'o', 'n', 'e', 'o', 'f', '_', 'd', 'e', 'f'] else ['_', 'd', 'e', 'f']) ++ (digits t.first ++ t.tail) := by
  cases t <;>
    simp [Tag.render, Tag.isOneof, Tag.first, Tag.tail, defName, oneofName, errorName, detailName, messageName,
      List.append_assoc]

theorem Tag.tail_head (t : Tag) : ∀ c ∈ t.tail.head?, c.isDigit = false := by
  cases t <;> simp [Tag.tail]

theorem detail_tail {e e' : Nat} {x y : Name}
    (hx : ∀ c ∈ x.head?, c.isDigit = false) (hy : ∀ c ∈ y.head?, c.isDigit = false)
    (h : ['_', 'e', 'r', 'r', '_', 'd', 'e', 't', 'a', 'i', 'l'] ++ (digits e ++ x) = ['_', 'e', 'r', 'r', '_', 'd', 'e', 't', 'a', 'i', 'l'] ++ (digits e' ++ y)) : e = e' ∧ x = y :=
  digits_split hx hy (List.append_cancel_left h)

theorem Tag.render_inj {t u : Tag} (h : t.render = u.render) : t = u := by
  rw [Tag.render_eq, Tag.render_eq] at h
  have ho : t.isOneof = u.isOneof := by
    cases ht : t.isOneof <;> cases hu : u.isOneof <;> simp [ht, hu] at h <;> rfl
  rw [ho] at h
  obtain ⟨h1, h2⟩ := digits_split t.tail_head u.tail_head (List.append_cancel_left h)
  cases t <;> cases u <;> simp [Tag.isOneof] at ho <;> simp only [Tag.first] at h1 <;> subst h1 <;>
    simp only [Tag.tail] at h2
  case plain.plain => rfl
  case oneof.oneof => rfl
  case error.error => rw [digits_inj (List.append_cancel_left h2)]
  case detail.detail =>
    obtain ⟨h3, h4⟩ := detail_tail (by simp) (by simp) h2
    rw [h3, digits_inj (List.append_cancel_left h4)]
  case message.message =>
    obtain ⟨h3, h4⟩ := detail_tail (by simp) (by simp) h2
    rw [h3, digits_inj (List.append_cancel_left h4)]
  case detail.message =>
    obtain ⟨_, h4⟩ := detail_tail (by simp) (by simp) h2
    simp at h4
  case message.detail =>
    obtain ⟨_, h4⟩ := detail_tail (by simp) (by simp) h2
    simp at h4
  all_goals simp at h2

/-! ## Names written by the user and generated names -/

/-- Generated names start with an underscore. -/
def isAuto (n : Name) : Bool := n.head? == some '_'

theorem render_auto (t : Tag) : isAuto t.render = true := by
  cases t <;> simp [Tag.render, isAuto, defName, oneofName, errorName, detailName, messageName]

theorem valid_not_auto {n : Name} (h : validName n = true) : isAuto n = false := by
  unfold validName at h
  cases n with
  | nil => rfl
  | cons c cs =>
    simp only [Bool.and_eq_true] at h
    have hc := h.1.1
    unfold isAuto
    simp only [List.head?_cons]
    cases he : (some c == some '_') with
    | false => rfl
    | true =>
      have : c = '_' := by simpa using he
      subst this
      revert hc; decide

theorem valid_ne_nil {n : Name} (h : validName n = true) : n ≠ [] := by
  rintro rfl; simp [validName] at h

/-- The generated names in a list. -/
abbrev gen (l : List Name) : List Name := l.filter isAuto

theorem filter_resolved (t : Tag) (n : Name) (hn : n ≠ [] → validName n = true) :
    gen [resolved t.render n] = (if n = [] then [t.render] else []) ∧
    [resolved t.render n].filter (fun n => !isAuto n) = (if n = [] then [] else [n]) := by
  unfold resolved
  by_cases h : n = []
  · simp [h, gen, render_auto]
  · simp [h, gen, hn h, valid_not_auto (hn h)]

mutual

theorem defs_split (msgs : Bool) (auto : Nat → Tag) (i : Nat) : ∀ (ds : List Def),
    (∀ n ∈ defsUser ds, validName n = true) →
    (gen (defsNames msgs (fun i => (auto i).render) i ds)).length = defsUnnamed msgs ds ∧
    (defsNames msgs (fun i => (auto i).render) i ds).filter (fun n => !isAuto n) = defsUser ds
  | [], _ => by simp [defsNames, gen, defsUnnamed, defsUser]
  | .mk n errors :: ds, h => by
    rw [defsUser] at h
    have h1 := entries_split msgs i errors fun n hn => h n (by simp [hn])
    have h2 := defs_split msgs auto (i + 1) ds fun n hn => h n (by simp [hn])
    have h3 := filter_resolved (auto i) n fun hne => h n (by simp [hne])
    rw [defsNames, defsUnnamed, defsUser]
    rw [show ∀ (x : Name) (l : List Name), x :: l = [x] ++ l from fun _ _ => rfl]
    simp only [gen, List.filter_append, List.length_append] at h1 h2 h3 ⊢
    rw [h1.1, h1.2, h2.1, h2.2, h3.1, h3.2]
    by_cases hn : n = [] <;> simp [hn] <;> omega

theorem entries_split (msgs : Bool) (d : Nat) : ∀ (es : List Entry),
    (∀ n ∈ entriesUser es, validName n = true) →
    (gen (entriesNames msgs d es)).length = entriesUnnamed msgs es ∧
    (entriesNames msgs d es).filter (fun n => !isAuto n) = entriesUser es
  | [], _ => by simp [entriesNames, gen, entriesUnnamed, entriesUser]
  | .mk defs details :: es, h => by
    rw [entriesUser] at h
    have h1 := defs_split msgs (.error d) 0 defs fun n hn => h n (by simp [hn])
    have h2 := details_split msgs d 0 details fun n hn => h n (by simp [hn])
    have h3 := entries_split msgs d es fun n hn => h n (by simp [hn])
    rw [entriesNames, entriesUnnamed, entriesUser]
    simp only [gen, List.filter_append, List.length_append, Tag.render] at h1 h2 h3 ⊢
    rw [h1.1, h1.2, h2.1, h2.2, h3.1, h3.2]
    exact ⟨by omega, rfl⟩

theorem details_split (msgs : Bool) (d e : Nat) : ∀ (ds : List Detail),
    (∀ n ∈ detailsUser ds, validName n = true) →
    (gen (detailsNames msgs d e ds)).length = detailsUnnamed msgs ds ∧
    (detailsNames msgs d e ds).filter (fun n => !isAuto n) = detailsUser ds
  | [], _ => by simp [detailsNames, gen, detailsUnnamed, detailsUser]
  | .mk defs messages :: ds, h => by
    rw [detailsUser] at h
    have h1 := defs_split msgs (.detail d e) 0 defs fun n hn => h n (by simp [hn])
    have h2 := details_split msgs d (e + 1) ds fun n hn => h n (by simp [hn])
    have hm : ∀ n, isAuto (messageName d e n) = true := fun n => render_auto (.message d e n)
    have h4 : (List.filter (fun n => !isAuto n) ((List.range messages).map (messageName d e))) = [] := by
      rw [List.filter_eq_nil_iff]; intro a ha
      obtain ⟨k, _, rfl⟩ := List.mem_map.mp ha
      simp [hm]
    have h5 : (List.filter isAuto ((List.range messages).map (messageName d e))) =
        (List.range messages).map (messageName d e) := by
      rw [List.filter_eq_self]; intro a ha
      obtain ⟨k, _, rfl⟩ := List.mem_map.mp ha
      exact hm k
    rw [detailsNames, detailsUnnamed, detailsUser]
    simp only [gen, List.filter_append, List.length_append, Tag.render] at h1 h2 ⊢
    rw [h1.1, h1.2, h2.1, h2.2]
    cases msgs
    · simp
    · simp only [if_true, h4, h5]; simp; omega

end

theorem defs_none {msgs : Bool} {auto : Nat → Tag} {i : Nat} {ds : List Def}
    (h : ∀ n ∈ defsUser ds, validName n = true) (h0 : defsUnnamed msgs ds = 0) :
    gen (defsNames msgs (fun i => (auto i).render) i ds) = [] := by
  have := (defs_split msgs auto i ds h).1
  rw [h0] at this
  exact List.eq_nil_of_length_eq_zero this

theorem entries_none {msgs : Bool} {d : Nat} {es : List Entry}
    (h : ∀ n ∈ entriesUser es, validName n = true) (h0 : entriesUnnamed msgs es = 0) :
    gen (entriesNames msgs d es) = [] := by
  have := (entries_split msgs d es h).1
  rw [h0] at this
  exact List.eq_nil_of_length_eq_zero this

/-! ## Generated names differ -/

/-- The generated names of definitions whose error entries have none. -/
theorem shallow_gen {msgs : Bool} {auto : Nat → Tag} {ds : List Def} (hs : Shallow msgs ds)
    (h : ∀ n ∈ defsUser ds, validName n = true) (i : Nat) :
    (gen (defsNames msgs (fun i => (auto i).render) i ds)).Sublist
      ((List.range' i ds.length).map fun i => (auto i).render) := by
  induction ds generalizing i with
  | nil => simp [defsNames, gen]
  | cons d ds ih =>
    obtain ⟨n, errors⟩ := d
    rw [defsUser] at h
    have h1 : gen (entriesNames msgs i errors) = [] :=
      entries_none (fun n hn => h n (by simp [hn])) (hs _ (List.mem_cons_self ..))
    have h2 := ih (fun d hd => hs d (List.mem_cons_of_mem _ hd)) (fun n hn => h n (by simp [hn])) (i + 1)
    have h3 := filter_resolved (auto i) n fun hne => h n (by simp [hne])
    rw [defsNames, show ∀ (x : Name) (l : List Name), x :: l = [x] ++ l from fun _ _ => rfl]
    simp only [gen, List.filter_append, List.length_cons, List.range'_succ, List.map_cons] at h1 h2 h3 ⊢
    rw [h1, h3.1]
    by_cases hn : n = []
    · simpa [hn] using h2.cons_cons (auto i).render
    · simpa [hn] using h2.cons (auto i).render

theorem map_range_nodup {f : Nat → Tag} (hf : ∀ a b, f a = f b → a = b) (i k : Nat) :
    ((List.range' i k).map fun i => (f i).render).Nodup := by
  induction k generalizing i with
  | zero => simp
  | succ k ih =>
    rw [List.range'_succ, List.map_cons, List.nodup_cons]
    refine ⟨fun hm => ?_, ih (i + 1)⟩
    obtain ⟨j, hj, he⟩ := List.mem_map.mp hm
    have := hf _ _ (Tag.render_inj he)
    simp only [List.mem_range'_1] at hj
    omega

theorem shallow_nodup {msgs : Bool} {auto : Nat → Tag} (hf : ∀ a b, auto a = auto b → a = b) {ds : List Def}
    (hs : Shallow msgs ds) (h : ∀ n ∈ defsUser ds, validName n = true) (i : Nat) :
    (gen (defsNames msgs (fun i => (auto i).render) i ds)).Nodup :=
  (map_range_nodup hf i ds.length).sublist (shallow_gen hs h i)

theorem shallow_mem {msgs : Bool} {auto : Nat → Tag} {ds : List Def}
    (hs : Shallow msgs ds) (h : ∀ n ∈ defsUser ds, validName n = true) {i : Nat} {n : Name}
    (hn : n ∈ gen (defsNames msgs (fun i => (auto i).render) i ds)) : ∃ k, n = (auto k).render := by
  obtain ⟨k, _, rfl⟩ := List.mem_map.mp ((shallow_gen hs h i).subset hn)
  exact ⟨k, rfl⟩

theorem details_gen {msgs : Bool} {d : Nat} {ds : List Detail} (hs : ∀ t ∈ ds, Shallow msgs t.defs)
    (h : ∀ n ∈ detailsUser ds, validName n = true) (e : Nat) :
    (gen (detailsNames msgs d e ds)).Nodup ∧ ∀ n ∈ gen (detailsNames msgs d e ds), ∃ t : Tag, n = t.render ∧
      ∃ e' i, e ≤ e' ∧ (t = .detail d e' i ∨ t = .message d e' i) := by
  induction ds generalizing e with
  | nil => simp [detailsNames, gen]
  | cons t ds ih =>
    obtain ⟨defs, messages⟩ := t
    rw [detailsUser] at h
    have hd : ∀ n ∈ defsUser defs, validName n = true := fun n hn => h n (by simp [hn])
    have hs0 : Shallow msgs defs := hs _ (List.mem_cons_self ..)
    have h1 : (gen (defsNames msgs (detailName d e) 0 defs)).Nodup :=
      shallow_nodup (auto := .detail d e) (fun a b hab => by cases hab; rfl) hs0 hd 0
    have m1 : ∀ n ∈ gen (defsNames msgs (detailName d e) 0 defs), ∃ k, n = (Tag.detail d e k).render :=
      fun n hn => shallow_mem (auto := .detail d e) hs0 hd hn
    have h2 : (gen (if msgs then (List.range messages).map (messageName d e) else [])).Nodup := by
      cases msgs
      · simp [gen]
      · refine List.Nodup.sublist List.filter_sublist ?_
        rw [List.range_eq_range']
        exact map_range_nodup (f := .message d e) (fun a b hab => by cases hab; rfl) 0 messages
    have m2 : ∀ n ∈ gen (if msgs then (List.range messages).map (messageName d e) else []),
        ∃ k, n = (Tag.message d e k).render := by
      intro n hn
      cases msgs
      · simp [gen] at hn
      · obtain ⟨k, _, rfl⟩ := List.mem_map.mp (List.mem_filter.mp hn).1
        exact ⟨k, rfl⟩
    obtain ⟨h3, m3⟩ := ih (fun t ht => hs t (List.mem_cons_of_mem _ ht)) (fun n hn => h n (by simp [hn])) (e + 1)
    rw [detailsNames]
    simp only [gen, List.filter_append] at h1 h2 h3 m1 m2 m3 ⊢
    refine ⟨?_, ?_⟩
    · rw [List.nodup_append, List.nodup_append]
      refine ⟨h1, ⟨h2, h3, ?_⟩, ?_⟩
      · rintro a ha b hb rfl
        obtain ⟨k, hk⟩ := m2 a ha
        obtain ⟨t, ht, e', i', he', ht'⟩ := m3 a hb
        have := Tag.render_inj (hk.symm.trans ht)
        subst this
        rcases ht' with h | h <;> cases h
        omega
      · rintro a ha b hb rfl
        obtain ⟨k, hk⟩ := m1 a ha
        rcases List.mem_append.mp hb with hb | hb
        · obtain ⟨k', hk'⟩ := m2 a hb
          exact absurd (Tag.render_inj (hk.symm.trans hk')) (by simp)
        · obtain ⟨t, ht, e', i', he', ht'⟩ := m3 a hb
          have := Tag.render_inj (hk.symm.trans ht)
          subst this
          rcases ht' with h | h <;> cases h
          omega
    · intro n hn
      rcases List.mem_append.mp hn with hn | hn
      · obtain ⟨k, hk⟩ := m1 n hn
        exact ⟨_, hk, e, k, Nat.le_refl _, Or.inl rfl⟩
      · rcases List.mem_append.mp hn with hn | hn
        · obtain ⟨k, hk⟩ := m2 n hn
          exact ⟨_, hk, e, k, Nat.le_refl _, Or.inr rfl⟩
        · obtain ⟨t, ht, e', i, he', h'⟩ := m3 n hn
          exact ⟨t, ht, e', i, by omega, h'⟩

/-- Names in the error entries of the definition at position `d`. -/
def Tag.inEntry (d : Nat) (t : Tag) : Prop :=
  (∃ i, t = .error d i) ∨ ∃ e i, t = .detail d e i ∨ t = .message d e i

theorem entry_gen {msgs : Bool} {d : Nat} {en : Entry} (hs : Shallow msgs en.defs)
    (ht : ∀ t ∈ en.details, Shallow msgs t.defs) (h : ∀ n ∈ entriesUser [en], validName n = true) :
    (gen (entriesNames msgs d [en])).Nodup ∧
    ∀ n ∈ gen (entriesNames msgs d [en]), ∃ t : Tag, n = t.render ∧ t.inEntry d := by
  obtain ⟨defs, details⟩ := en
  simp only [entriesUser, List.append_nil] at h
  have hd : ∀ n ∈ defsUser defs, validName n = true := fun n hn => h n (by simp [hn])
  have h1 : (gen (defsNames msgs (errorName d) 0 defs)).Nodup :=
    shallow_nodup (auto := .error d) (fun a b hab => by cases hab; rfl) hs hd 0
  have m1 : ∀ n ∈ gen (defsNames msgs (errorName d) 0 defs), ∃ k, n = (Tag.error d k).render :=
    fun n hn => shallow_mem (auto := .error d) hs hd hn
  obtain ⟨h2, m2⟩ := details_gen (d := d) ht (fun n hn => h n (List.mem_append_right _ hn)) 0
  simp only [entriesNames, List.append_nil]
  simp only [gen, List.filter_append] at h1 h2 m1 m2 ⊢
  refine ⟨?_, ?_⟩
  · rw [List.nodup_append]
    refine ⟨h1, h2, ?_⟩
    rintro a ha b hb rfl
    obtain ⟨k, hk⟩ := m1 a ha
    obtain ⟨t, ht, e', i', _, ht'⟩ := m2 a hb
    have := Tag.render_inj (hk.symm.trans ht)
    subst this
    rcases ht' with h | h <;> cases h
  · intro n hn
    rcases List.mem_append.mp hn with hn | hn
    · obtain ⟨k, hk⟩ := m1 n hn; exact ⟨_, hk, Or.inl ⟨k, rfl⟩⟩
    · obtain ⟨t, ht, e', i', _, ht'⟩ := m2 n hn; exact ⟨t, ht, Or.inr ⟨e', i', ht'⟩⟩

theorem entriesNames_cons (msgs : Bool) (d : Nat) (e : Entry) (es : List Entry) :
    entriesNames msgs d (e :: es) = entriesNames msgs d [e] ++ entriesNames msgs d es := by
  obtain ⟨defs, details⟩ := e
  simp [entriesNames]

theorem entriesUser_cons (e : Entry) (es : List Entry) :
    entriesUser (e :: es) = entriesUser [e] ++ entriesUser es := by
  obtain ⟨defs, details⟩ := e
  simp [entriesUser]

theorem entriesUnnamed_all {msgs : Bool} {es : List Entry}
    (h : ∀ e ∈ es, entriesUnnamed msgs [e] = 0) : entriesUnnamed msgs es = 0 := by
  induction es with
  | nil => simp [entriesUnnamed]
  | cons e es ih =>
    have h1 := h e (List.mem_cons_self ..)
    have h2 := ih fun e he => h e (List.mem_cons_of_mem _ he)
    obtain ⟨defs, details⟩ := e
    simp only [entriesUnnamed] at h1 ⊢
    omega

theorem entries_gen {msgs : Bool} {d : Nat} {es : List Entry} (hs : OneEntry msgs es)
    (h : ∀ n ∈ entriesUser es, validName n = true) :
    (gen (entriesNames msgs d es)).Nodup ∧
    ∀ n ∈ gen (entriesNames msgs d es), ∃ t : Tag, n = t.render ∧ t.inEntry d := by
  induction es with
  | nil => simp [entriesNames, gen]
  | cons e es ih =>
    obtain ⟨hone, hsh⟩ := hs
    rw [entriesUser_cons] at h
    rw [entriesNames_cons]
    simp only [gen, List.filter_append]
    have he := hsh e (List.mem_cons_self ..)
    have hue : ∀ n ∈ entriesUser [e], validName n = true := fun n hn => h n (by simp [hn])
    have hues : ∀ n ∈ entriesUser es, validName n = true := fun n hn => h n (by simp [hn])
    by_cases h0 : entriesUnnamed msgs [e] = 0
    · have h1 : gen (entriesNames msgs d [e]) = [] := entries_none hue h0
      have h2 := ih ⟨by simpa [List.filter_cons, h0] using hone,
        fun e he => hsh e (List.mem_cons_of_mem _ he)⟩ hues
      simp only [gen] at h1 h2
      rw [h1]; simpa using h2
    · have h2 : gen (entriesNames msgs d es) = [] := by
        apply entries_none hues
        apply entriesUnnamed_all
        intro e' he'
        have : (es.filter fun e => entriesUnnamed msgs [e] ≠ 0).length = 0 := by
          have h' := hone
          rw [List.filter_cons_of_pos (by simpa using h0), List.length_cons] at h'
          omega
        have := List.eq_nil_of_length_eq_zero this
        rw [List.filter_eq_nil_iff] at this
        simpa using this e' he'
      have h1 := entry_gen (d := d) he.1 he.2 hue
      simp only [gen] at h1 h2
      rw [h2]; simpa using h1

/-- Names of the definitions of a message from position `i` on. -/
theorem message_gen {msgs : Bool} {ds : List Def} (hs : ∀ d ∈ ds, OneEntry msgs d.errors)
    (h : ∀ n ∈ defsUser ds, validName n = true) (i : Nat) :
    (gen (defsNames msgs defName i ds)).Nodup ∧
    ∀ n ∈ gen (defsNames msgs defName i ds), ∃ t : Tag, n = t.render ∧
      ∃ k, i ≤ k ∧ (t = .plain k ∨ t.inEntry k) := by
  induction ds generalizing i with
  | nil => simp [defsNames, gen]
  | cons d ds ih =>
    obtain ⟨n, errors⟩ := d
    rw [defsUser] at h
    have h0 := (filter_resolved (.plain i) n fun hne => h n (by simp [hne])).1
    obtain ⟨h1, m1⟩ := entries_gen (d := i) (hs _ (List.mem_cons_self ..)) (fun n hn => h n (by simp [Def.errors] at hn; simp [hn]))
    obtain ⟨h2, m2⟩ := ih (fun d hd => hs d (List.mem_cons_of_mem _ hd)) (fun n hn => h n (by simp [hn])) (i + 1)
    simp only [Def.errors] at h1 m1
    rw [defsNames, show ∀ (x : Name) (l : List Name), x :: l = [x] ++ l from fun _ _ => rfl]
    simp only [gen, List.filter_append] at h0 h1 h2 m1 m2 ⊢
    have m0 : ∀ a ∈ List.filter isAuto [resolved (defName i) n], a = (Tag.plain i).render := by
      intro a ha
      rw [show defName i = (Tag.plain i).render from rfl, h0] at ha
      by_cases hn : n = [] <;> simp [hn] at ha
      exact ha
    have n0 : (List.filter isAuto [resolved (defName i) n]).Nodup := by
      rw [show defName i = (Tag.plain i).render from rfl, h0]
      by_cases hn : n = [] <;> simp [hn]
    refine ⟨?_, ?_⟩
    · rw [List.nodup_append, List.nodup_append]
      refine ⟨n0, ⟨h1, h2, ?_⟩, ?_⟩
      · rintro a ha b hb rfl
        obtain ⟨t, ht, hte⟩ := m1 a ha
        obtain ⟨u, hu, k, hk, hue⟩ := m2 a hb
        have := Tag.render_inj (ht.symm.trans hu)
        subst this
        rcases hte with ⟨x, rfl⟩ | ⟨x, y, rfl | rfl⟩ <;> rcases hue with h' | ⟨x', h'⟩ | ⟨x', y', h' | h'⟩ <;>
          cases h' <;> omega
      · rintro a ha b hb rfl
        have ha' := m0 a ha
        rcases List.mem_append.mp hb with hb | hb
        · obtain ⟨t, ht, hte⟩ := m1 a hb
          have := Tag.render_inj (ha'.symm.trans ht)
          subst this
          rcases hte with ⟨x, h'⟩ | ⟨x, y, h' | h'⟩ <;> cases h'
        · obtain ⟨u, hu, k, hk, hue⟩ := m2 a hb
          have := Tag.render_inj (ha'.symm.trans hu)
          subst this
          rcases hue with h' | ⟨x', h'⟩ | ⟨x', y', h' | h'⟩ <;> cases h'
          omega
    · intro a ha
      rcases List.mem_append.mp ha with ha | ha
      · exact ⟨_, m0 a ha, i, Nat.le_refl _, Or.inl rfl⟩
      · rcases List.mem_append.mp ha with ha | ha
        · obtain ⟨t, ht, hte⟩ := m1 a ha
          exact ⟨t, ht, i, Nat.le_refl _, Or.inr hte⟩
        · obtain ⟨u, hu, k, hk, hue⟩ := m2 a ha
          exact ⟨u, hu, k, by omega, hue⟩

theorem oneofs_gen {msgs : Bool} {os : List (List Def)}
    (hone : (os.filter fun ds => defsUnnamed msgs ds ≠ 0).length ≤ 1) (hs : ∀ ds ∈ os, Shallow msgs ds)
    (h : ∀ n ∈ os.flatMap defsUser, validName n = true) :
    (gen (os.flatMap (defsNames msgs oneofName 0))).Nodup ∧
    ∀ n ∈ gen (os.flatMap (defsNames msgs oneofName 0)), ∃ k, n = (Tag.oneof k).render := by
  induction os with
  | nil => simp [gen]
  | cons ds os ih =>
    rw [List.flatMap_cons] at h ⊢
    simp only [gen, List.filter_append]
    have hds : ∀ n ∈ defsUser ds, validName n = true := fun n hn => h n (by simp [hn])
    have hos : ∀ n ∈ os.flatMap defsUser, validName n = true := fun n hn => h n (List.mem_append_right _ hn)
    have hsd := hs ds (List.mem_cons_self ..)
    by_cases h0 : defsUnnamed msgs ds = 0
    · have h1 : gen (defsNames msgs oneofName 0 ds) = [] := defs_none (auto := .oneof) hds h0
      have h2 := ih (by simpa [List.filter_cons, h0] using hone) (fun d hd => hs d (List.mem_cons_of_mem _ hd)) hos
      simp only [gen] at h1 h2
      rw [h1]; simpa using h2
    · have h2 : gen (os.flatMap (defsNames msgs oneofName 0)) = [] := by
        have : (os.filter fun ds => defsUnnamed msgs ds ≠ 0).length = 0 := by
          have h' := hone
          rw [List.filter_cons_of_pos (by simpa using h0), List.length_cons] at h'
          omega
        have := List.eq_nil_of_length_eq_zero this
        rw [List.filter_eq_nil_iff] at this
        rw [List.filter_eq_nil_iff]
        intro a ha
        obtain ⟨ds', hd', ha⟩ := List.mem_flatMap.mp ha
        have h3 : gen (defsNames msgs oneofName 0 ds') = [] :=
          defs_none (auto := .oneof) (fun n hn => hos n (List.mem_flatMap.mpr ⟨ds', hd', hn⟩))
            (by simpa using this ds' hd')
        exact (List.filter_eq_nil_iff.mp h3) a ha
      have h1 := shallow_nodup (auto := .oneof) (fun a b hab => by cases hab; rfl) hsd hds 0
      have m1 := fun n hn => shallow_mem (msgs := msgs) (auto := .oneof) (i := 0) (n := n) hsd hds hn
      simp only [gen] at h1 h2 m1
      rw [h2]
      simp only [List.append_nil]
      exact ⟨h1, m1⟩

theorem names_gen {msgs : Bool} {m : Msg} (hs : Simple msgs m) (h : ∀ n ∈ userNames m, validName n = true) :
    (gen (names msgs m)).Nodup := by
  obtain ⟨h1, m1⟩ := message_gen hs.1 (fun n hn => h n (by simp [userNames, hn])) 0
  obtain ⟨h2, m2⟩ := oneofs_gen hs.2.1 hs.2.2 (fun n hn => h n (List.mem_append_right _ hn))
  unfold names
  simp only [gen, List.filter_append] at h1 h2 m1 m2 ⊢
  rw [List.nodup_append]
  refine ⟨h1, h2, ?_⟩
  rintro a ha b hb rfl
  obtain ⟨t, ht, k, _, hk⟩ := m1 a ha
  obtain ⟨k', hk'⟩ := m2 a hb
  have := Tag.render_inj (ht.symm.trans hk')
  subst this
  rcases hk with h' | ⟨x', h'⟩ | ⟨x', y', h' | h'⟩ <;> cases h'

theorem names_user {msgs : Bool} {m : Msg} (h : ∀ n ∈ userNames m, validName n = true) :
    (names msgs m).filter (fun n => !isAuto n) = userNames m := by
  unfold names userNames at *
  rw [List.filter_append]
  have h1 := (defs_split msgs .plain 0 m.defs fun n hn => h n (by simp [hn])).2
  rw [show (fun i => (Tag.plain i).render) = defName from rfl] at h1
  rw [h1]
  congr 1
  have h' : ∀ n ∈ m.oneofs.flatMap defsUser, validName n = true := fun n hn => h n (List.mem_append_right _ hn)
  clear h h1
  generalize m.oneofs = os at h' ⊢
  induction os with
  | nil => rfl
  | cons ds os ih =>
    rw [List.flatMap_cons] at h' ⊢
    rw [List.flatMap_cons, List.filter_append, ih fun n hn => h' n (List.mem_append_right _ hn)]
    have := (defs_split msgs .oneof 0 ds fun n hn => h' n (List.mem_append_left _ hn)).2
    rw [show (fun i => (Tag.oneof i).render) = oneofName from rfl] at this
    rw [this]

/-- A list has no duplicates if neither the names of the user nor the generated ones have. -/
theorem nodup_parts {l : List Name} (h1 : (gen l).Nodup) (h2 : (l.filter fun n => !isAuto n).Nodup) : l.Nodup := by
  induction l with
  | nil => simp
  | cons a l ih =>
    by_cases ha : isAuto a = true
    · simp only [gen, List.filter_cons, ha, if_true, Bool.not_true] at h1 h2
      rw [List.nodup_cons] at h1 ⊢
      exact ⟨fun hm => h1.1 (List.mem_filter.mpr ⟨hm, ha⟩), ih h1.2 (by simpa using h2)⟩
    · simp only [gen, List.filter_cons, ha] at h1 h2
      simp only [Bool.not_eq_true] at ha
      simp only [Bool.not_false, if_true] at h2
      rw [List.nodup_cons] at h2 ⊢
      exact ⟨fun hm => h2.1 (List.mem_filter.mpr ⟨hm, by simp [ha]⟩), ih (by simpa using h1) h2.2⟩

/-! ## The check -/

theorem noDuplicate_iff {seen l : List Name} (hne : ∀ n ∈ l, n ≠ []) :
    noDuplicate seen l = true ↔ l.Nodup ∧ ∀ n ∈ l, n ∉ seen := by
  induction l generalizing seen with
  | nil => simp [noDuplicate]
  | cons a l ih =>
    have ha := hne a (List.mem_cons_self ..)
    rw [noDuplicate, Bool.and_eq_true, ih fun n hn => hne n (List.mem_cons_of_mem _ hn), List.nodup_cons]
    simp only [ha, beq_iff_eq, Bool.or_eq_true, Bool.not_eq_true', false_or]
    constructor
    · rintro ⟨h1, h2, h3⟩
      refine ⟨⟨fun hm => h3 a hm (List.mem_cons_self ..), h2⟩, ?_⟩
      intro n hn
      rcases List.mem_cons.mp hn with rfl | hn
      · simpa using h1
      · exact fun h => h3 n hn (List.mem_cons_of_mem _ h)
    · rintro ⟨⟨h1, h2⟩, h3⟩
      refine ⟨by simpa using h3 a (List.mem_cons_self ..), h2, fun n hn hm => ?_⟩
      rcases List.mem_cons.mp hm with rfl | hm
      · exact h1 hn
      · exact h3 n (List.mem_cons_of_mem _ hn) hm

theorem auto_ne_nil {n : Name} (h : isAuto n = true) : n ≠ [] := by rintro rfl; cases h

theorem names_ne_nil {msgs : Bool} {m : Msg} (h : ∀ n ∈ userNames m, validName n = true) :
    ∀ n ∈ names msgs m, n ≠ [] := by
  intro n hn
  by_cases ha : isAuto n = true
  · exact auto_ne_nil ha
  · have : n ∈ userNames m := by
      rw [← names_user (msgs := msgs) h]
      exact List.mem_filter.mpr ⟨hn, by simpa using ha⟩
    exact valid_ne_nil (h n this)

end Verif.AutoName
