import Verif.FileEnums.Model
import Verif.ImportGraph.Register

/-! # C75: a file can use the enums and plugins of all files it imports -/

namespace Verif.FileEnums

open Verif.ImportGraph (Name Reg registerFiles importFiles Complete C77_registered)

/-! ## Specification -/

/-- A file is another one or imports it, directly or through others. -/
inductive Imports (links : Name → List Name) : Name → Name → Prop
  | self f : Imports links f f
  | step {f d g} : d ∈ links f → Imports links d g → Imports links f g

/-- A list with exactly one element for each name used in a file or in one it imports, ordered by name. -/
structure Right {α : Type} (key : α → Key) (links : Name → List Name) (own : Name → List α) (f : Name)
    (xs : List α) : Prop where
  sorted : xs.Pairwise fun a b => key a < key b
  sound : ∀ x ∈ xs, ∃ g, Imports links f g ∧ x ∈ own g
  complete : ∀ g, Imports links f g → ∀ x ∈ own g, ∃ y ∈ xs, key y = key x

/-- No two elements of the files have the same name. -/
def Unique {α : Type} (key : α → Key) (own : Name → List α) : Prop :=
  ∀ f g x y, x ∈ own f → y ∈ own g → key x = key y → x = y

/-- The packages of `google` and of the federation itself: `google.…` and `grpc.federation.…`. -/
def Standard (k : Key) : Prop :=
  (∃ r, k = ['g', 'o', 'o', 'g', 'l', 'e', '.'] ++ r) ∨
  ∃ r, k = ['g', 'r', 'p', 'c', '.', 'f', 'e', 'd', 'e', 'r', 'a', 't', 'i', 'o', 'n', '.'] ++ r

/-! ## Lemmas -/

theorem skipped_iff (k : Key) : skipped k = true ↔ Standard k := by
  simp only [skipped, Standard, Bool.or_eq_true, List.isPrefixOf_iff_prefix]
  constructor
  · rintro (⟨r, h⟩ | ⟨r, h⟩)
    · exact Or.inl ⟨r, h.symm⟩
    · exact Or.inr ⟨r, h.symm⟩
  · rintro (⟨r, h⟩ | ⟨r, h⟩)
    · exact Or.inl ⟨r, h.symm⟩
    · exact Or.inr ⟨r, h.symm⟩

theorem Imports.trans {links : Name → List Name} {f g h : Name} (h1 : Imports links f g) (h2 : Imports links g h) :
    Imports links f h := by
  induction h1 with
  | self => exact h2
  | step hd _ ih => exact .step hd (ih h2)

theorem key_lt {a b : Key} (h : ¬ a < b) (hn : a ≠ b) : b < a := by
  rcases Decidable.em (b < a) with h2 | h2
  · exact h2
  · exact absurd (List.le_antisymm (List.not_lt.mp h2) (List.not_lt.mp h)) hn

section
variable {α : Type} (key : α → Key)

theorem mem_put (m : List α) (x y : α) : y ∈ put key m x ↔ (y ∈ m ∧ key y ≠ key x) ∨ y = x := by
  simp [put]

theorem put_distinct (m : List α) (x : α) (h : m.Pairwise fun a b => key a ≠ key b) :
    (put key m x).Pairwise fun a b => key a ≠ key b := by
  rw [put, List.pairwise_append]
  refine ⟨h.sublist List.filter_sublist, by simp, ?_⟩
  intro a ha b hb
  rw [List.mem_singleton] at hb
  subst hb
  simpa using (List.mem_filter.mp ha).2

theorem put_key (m : List α) (x : α) (k : Key) :
    (∃ y ∈ put key m x, key y = k) ↔ (∃ y ∈ m, key y = k) ∨ key x = k := by
  constructor
  · rintro ⟨y, hy, rfl⟩
    rcases (mem_put key m x y).mp hy with h | rfl
    · exact Or.inl ⟨y, h.1, rfl⟩
    · exact Or.inr rfl
  · rintro (⟨y, hy, rfl⟩ | rfl)
    · by_cases h : key y = key x
      · exact ⟨x, (mem_put key m x x).mpr (Or.inr rfl), h.symm⟩
      · exact ⟨y, (mem_put key m x y).mpr (Or.inl ⟨hy, h⟩), rfl⟩
    · exact ⟨x, (mem_put key m x x).mpr (Or.inr rfl), rfl⟩

theorem putAll_distinct (xs : List α) : ∀ (m : List α), (m.Pairwise fun a b => key a ≠ key b) →
    (xs.foldl (put key) m).Pairwise fun a b => key a ≠ key b := by
  induction xs with
  | nil => exact fun m h => h
  | cons x xs ih => exact fun m h => ih _ (put_distinct key m x h)

theorem putAll_mem (xs : List α) : ∀ (m : List α) (y : α), y ∈ xs.foldl (put key) m → y ∈ m ∨ y ∈ xs := by
  induction xs with
  | nil => exact fun m y h => Or.inl h
  | cons x xs ih =>
    intro m y h
    rcases ih _ y h with h | h
    · rcases (mem_put key m x y).mp h with h | rfl
      · exact Or.inl h.1
      · exact Or.inr (List.mem_cons_self ..)
    · exact Or.inr (List.mem_cons_of_mem _ h)

theorem putAll_key (xs : List α) : ∀ (m : List α) (k : Key),
    (∃ y ∈ xs.foldl (put key) m, key y = k) ↔ (∃ y ∈ m, key y = k) ∨ ∃ y ∈ xs, key y = k := by
  induction xs with
  | nil => intro m k; simp
  | cons x xs ih =>
    intro m k
    rw [List.foldl_cons, ih, put_key, or_assoc]
    simp

theorem insertSorted_perm (x : α) (l : List α) : (insertSorted key x l).Perm (x :: l) := by
  induction l with
  | nil => exact .refl _
  | cons y l ih =>
    rw [insertSorted]
    by_cases h : key y < key x
    · rw [if_pos h]
      exact (ih.cons y).trans (.swap x y l)
    · rw [if_neg h]

theorem sortByKey_perm (l : List α) : (sortByKey key l).Perm l := by
  induction l with
  | nil => exact .refl _
  | cons x l ih => exact (insertSorted_perm key x _).trans (ih.cons x)

theorem insertSorted_sorted (x : α) (l : List α) (h : l.Pairwise fun a b => key a < key b)
    (hx : ∀ y ∈ l, key x ≠ key y) : (insertSorted key x l).Pairwise fun a b => key a < key b := by
  induction l with
  | nil => simp [insertSorted]
  | cons y l ih =>
    rw [List.pairwise_cons] at h
    rw [insertSorted]
    by_cases hy : key y < key x
    · rw [if_pos hy, List.pairwise_cons]
      refine ⟨?_, ih h.2 fun z hz => hx z (List.mem_cons_of_mem _ hz)⟩
      intro z hz
      rcases List.mem_cons.mp ((insertSorted_perm key x l).mem_iff.mp hz) with rfl | hz
      · exact hy
      · exact h.1 z hz
    · rw [if_neg hy, List.pairwise_cons]
      have hxy := key_lt hy (Ne.symm (hx y (List.mem_cons_self ..)))
      refine ⟨?_, List.pairwise_cons.mpr h⟩
      intro z hz
      rcases List.mem_cons.mp hz with rfl | hz
      · exact hxy
      · exact List.lt_trans hxy (h.1 z hz)

theorem sortByKey_sorted (l : List α) (h : l.Pairwise fun a b => key a ≠ key b) :
    (sortByKey key l).Pairwise fun a b => key a < key b := by
  induction l with
  | nil => simp [sortByKey]
  | cons x l ih =>
    rw [List.pairwise_cons] at h
    refine insertSorted_sorted key x _ (ih h.2) fun y hy => ?_
    exact h.1 y ((sortByKey_perm key l).mem_iff.mp hy)

variable {links : Name → List Name} {own : Name → List α}

theorem importLoop_ok {σ : Type} (I : σ → Prop) (visit : σ → Name → Option (σ × List α)) (ds : List Name)
    (hv : ∀ d ∈ ds, ∀ s, I s → ∃ s' xs, visit s d = some (s', xs) ∧ I s' ∧ Right key links own d xs) :
    ∀ (s : σ) (m : List α), I s → (m.Pairwise fun a b => key a ≠ key b) →
    ∃ s' m', importLoop key visit s m ds = some (s', m') ∧ I s' ∧ (m'.Pairwise fun a b => key a ≠ key b) ∧
      (∀ x ∈ m', x ∈ m ∨ ∃ d ∈ ds, ∃ g, Imports links d g ∧ x ∈ own g) ∧
      (∀ x ∈ m, ∃ y ∈ m', key y = key x) ∧
      (∀ d ∈ ds, ∀ g, Imports links d g → ∀ x ∈ own g, ∃ y ∈ m', key y = key x) := by
  induction ds with
  | nil =>
    exact fun s m hs hm => ⟨s, m, rfl, hs, hm, fun x h => Or.inl h, fun x h => ⟨x, h, rfl⟩, by simp⟩
  | cons d ds ih =>
    intro s m hs hm
    obtain ⟨s1, xs, h1, hs1, hr⟩ := hv d (List.mem_cons_self ..) s hs
    obtain ⟨s2, m2, g1, g2, g3, g4, g5, g6⟩ := ih (fun d hd => hv d (List.mem_cons_of_mem _ hd)) s1
      (xs.foldl (put key) m) hs1 (putAll_distinct key xs m hm)
    have lift : ∀ k, (∃ y ∈ xs.foldl (put key) m, key y = k) → ∃ y ∈ m2, key y = k := by
      rintro k ⟨y, hy, rfl⟩
      exact g5 y hy
    refine ⟨s2, m2, ?_, g2, g3, ?_, ?_, ?_⟩
    · rw [importLoop, h1]
      exact g1
    · intro x hx
      rcases g4 x hx with h | ⟨d', hd', h⟩
      · rcases putAll_mem key xs m x h with h | h
        · exact Or.inl h
        · exact Or.inr ⟨d, List.mem_cons_self .., hr.sound x h⟩
      · exact Or.inr ⟨d', List.mem_cons_of_mem _ hd', h⟩
    · intro x hx
      exact lift _ ((putAll_key key xs m _).mpr (Or.inl ⟨x, hx, rfl⟩))
    · intro d' hd' g hg x hx
      rcases List.mem_cons.mp hd' with rfl | hd'
      · obtain ⟨y, hy, he⟩ := hr.complete g hg x hx
        exact lift _ ((putAll_key key xs m _).mpr (Or.inr ⟨y, hy, he⟩))
      · exact g6 d' hd' g hg x hx

/-- What the loop leaves, ordered, is right for the file. -/
theorem right_of_loop (order : List α → List α) (ho : ∀ l, (order l).Perm l) (f : Name) (m' : List α)
    (h1 : m'.Pairwise fun a b => key a ≠ key b)
    (h2 : ∀ x ∈ m', x ∈ (own f).foldl (put key) [] ∨ ∃ d ∈ links f, ∃ g, Imports links d g ∧ x ∈ own g)
    (h3 : ∀ x ∈ (own f).foldl (put key) [], ∃ y ∈ m', key y = key x)
    (h4 : ∀ d ∈ links f, ∀ g, Imports links d g → ∀ x ∈ own g, ∃ y ∈ m', key y = key x) :
    Right key links own f (sortByKey key (order m')) := by
  have hmem : ∀ x, x ∈ sortByKey key (order m') ↔ x ∈ m' :=
    fun x => (sortByKey_perm key _).mem_iff.trans (ho m').mem_iff
  refine ⟨?_, ?_, ?_⟩
  · exact sortByKey_sorted key _ ((ho m').symm.pairwise h1 fun hab => Ne.symm hab)
  · intro x hx
    rcases h2 x ((hmem x).mp hx) with h | ⟨d, hd, g, hg, hxg⟩
    · rcases putAll_mem key _ _ x h with h | h
      · simp at h
      · exact ⟨f, .self f, h⟩
    · exact ⟨g, .step hd hg, hxg⟩
  · intro g hg x hx
    have : ∃ y ∈ m', key y = key x := by
      cases hg with
      | self =>
        obtain ⟨y, hy, he⟩ := (putAll_key key (own f) [] (key x)).mpr (Or.inr ⟨x, hx, rfl⟩)
        obtain ⟨z, hz, he'⟩ := h3 y hy
        exact ⟨z, hz, he'.trans he⟩
      | step hd hg => exact h4 _ hd g hg x hx
    obtain ⟨y, hy, he⟩ := this
    exact ⟨y, (hmem y).mpr hy, he⟩

end

section
variable {α : Type} (key : α → Key) {deps : Name → List Name} {files : List Name}

/-- In an ordered list the imports of a file come before it. -/
theorem before {l : List Name} (hl : Complete deps files l) {l1 : List Name} {f : Name} {l2 : List Name}
    (hlf : l = l1 ++ f :: l2) {d : Name} (hd : d ∈ importFiles deps files f) :
    ∃ m1 m2, l = m1 ++ d :: m2 ∧ m1.length < l1.length := by
  obtain ⟨hd1, hd2⟩ := List.mem_filter.mp hd
  obtain ⟨m1, m2, hm⟩ := List.append_of_mem (hl.ordered l1 f l2 hlf d hd1 (by simpa using hd2))
  exact ⟨m1, m2 ++ f :: l2, by rw [hlf, hm]; simp, by rw [hm]; simp⟩

theorem plugins_ok {l : List Name} (hl : Complete deps files l) (own : Name → List α) (order : List α → List α)
    (ho : ∀ l, (order l).Perm l) : ∀ (n : Nat) (l1 : List Name) (f : Name) (l2 : List Name),
    l = l1 ++ f :: l2 → l1.length < n →
    ∃ xs, plugins key (importFiles deps files) own order n f = some xs ∧
      Right key (importFiles deps files) own f xs := by
  intro n
  induction n with
  | zero => intro l1 f l2 _ h; omega
  | succ n ih =>
    intro l1 f l2 hlf hlen
    obtain ⟨s', m', h1, -, h2, h3, h4, h5⟩ := importLoop_ok key (links := importFiles deps files) (own := own)
      (fun _ : Unit => True)
      (fun s d => (plugins key (importFiles deps files) own order n d).map fun xs => (s, xs))
      (importFiles deps files f) (fun d hd s _ => by
        obtain ⟨m1, m2, hm, hlt⟩ := before hl hlf hd
        obtain ⟨xs, hx, hr⟩ := ih m1 d m2 hm (by omega)
        exact ⟨s, xs, by rw [hx]; rfl, trivial, hr⟩) () ((own f).foldl (put key) []) trivial
        (putAll_distinct key _ _ (by simp))
    refine ⟨_, by rw [plugins, h1]; rfl, ?_⟩
    exact right_of_loop key order ho f m' h2 h3 h4 h5

theorem lookup_mem {β : Type} {f : Name} {es : β} {cache : List (Name × β)} (h : cache.lookup f = some es) :
    (f, es) ∈ cache := by
  induction cache with
  | nil => simp at h
  | cons p cache ih =>
    obtain ⟨g, fs⟩ := p
    rw [List.lookup_cons] at h
    by_cases hg : f = g
    · subst hg
      simp only [BEq.rfl] at h
      rw [Option.some.injEq] at h
      simp [h]
    · have : (f == g) = false := by simpa using hg
      rw [this] at h
      exact List.mem_cons_of_mem _ (ih h)

theorem enums_ok {l : List Name} (hl : Complete deps files l) (own : Name → List α) (order : List α → List α)
    (ho : ∀ l, (order l).Perm l) : ∀ (n : Nat) (l1 : List Name) (f : Name) (l2 : List Name),
    l = l1 ++ f :: l2 → l1.length < n →
    ∀ cache : Cache α, (∀ p ∈ cache, Right key (importFiles deps files) own p.1 p.2) →
    ∃ cache' es, enums key (importFiles deps files) own order n cache f = some (cache', es) ∧
      (∀ p ∈ cache', Right key (importFiles deps files) own p.1 p.2) ∧
      Right key (importFiles deps files) own f es := by
  intro n
  induction n with
  | zero => intro l1 f l2 _ h; omega
  | succ n ih =>
    intro l1 f l2 hlf hlen cache hc
    rw [enums]
    cases hlook : cache.lookup f with
    | some es => exact ⟨cache, es, rfl, hc, hc _ (lookup_mem hlook)⟩
    | none =>
      obtain ⟨c', m', h1, hc', h2, h3, h4, h5⟩ := importLoop_ok key (links := importFiles deps files) (own := own)
        (fun c : Cache α => ∀ p ∈ c, Right key (importFiles deps files) own p.1 p.2)
        (enums key (importFiles deps files) own order n)
        (importFiles deps files f) (fun d hd s hs => by
          obtain ⟨m1, m2, hm, hlt⟩ := before hl hlf hd
          exact ih m1 d m2 hm (by omega) s hs) cache ((own f).foldl (put key) []) hc
          (putAll_distinct key _ _ (by simp))
      have hr := right_of_loop key order ho f m' h2 h3 h4 h5
      simp only [h1]
      refine ⟨_, _, rfl, ?_, hr⟩
      intro p hp
      rcases List.mem_cons.mp hp with rfl | hp
      · exact hr
      · exact hc' p hp

theorem rank {r : Reg} (hl : Complete deps files r.done) {f : Name} (hf : f ∈ files) :
    ∃ l1 l2, r.done = l1 ++ f :: l2 ∧ l1.length < files.length := by
  obtain ⟨l1, l2, hlf⟩ := List.append_of_mem ((hl.mem f).mpr hf)
  refine ⟨l1, l2, hlf, ?_⟩
  have hle := Verif.ImportGraph.length_le_of_subset hl.nodup fun x hx => (hl.mem x).mp hx
  rw [hlf] at hle
  simp at hle
  omega

/-- C75: once the files are registered, whatever files are asked for, in whatever order and however often, the
answer for each file has exactly one enum for each name in it and in the files it imports, ordered by name. -/
theorem C75_enums (own : Name → List α) (order : List α → List α) (ho : ∀ l, (order l).Perm l)
    (visits : List Name) (hv : ∀ f ∈ files, f ∈ visits) (r : Reg) (h : registerFiles deps files visits = .ok r)
    (fs : List Name) (hfs : ∀ f ∈ fs, f ∈ files) :
    ∃ rs, ask key (importFiles deps files) own order files.length [] fs = some rs ∧ rs.length = fs.length ∧
      ∀ p ∈ fs.zip rs, Right key (importFiles deps files) own p.1 p.2 := by
  have hl := C77_registered deps files visits hv r h
  have main : ∀ (fs : List Name), (∀ f ∈ fs, f ∈ files) → ∀ cache : Cache α,
      (∀ p ∈ cache, Right key (importFiles deps files) own p.1 p.2) →
      ∃ rs, ask key (importFiles deps files) own order files.length cache fs = some rs ∧ rs.length = fs.length ∧
        ∀ p ∈ fs.zip rs, Right key (importFiles deps files) own p.1 p.2 := by
    intro fs
    induction fs with
    | nil => exact fun _ cache _ => ⟨[], rfl, rfl, by simp⟩
    | cons f fs ih =>
      intro hfs cache hc
      obtain ⟨l1, l2, hlf, hlt⟩ := rank hl (hfs f (List.mem_cons_self ..))
      obtain ⟨c', es, h1, h2, h3⟩ := enums_ok key hl own order ho files.length l1 f l2 hlf hlt cache hc
      obtain ⟨rs, g1, g2, g3⟩ := ih (fun f hf => hfs f (List.mem_cons_of_mem _ hf)) c' h2
      refine ⟨es :: rs, by simp [ask, h1, g1], by simp [g2], ?_⟩
      intro p hp
      rw [List.zip_cons_cons, List.mem_cons] at hp
      rcases hp with rfl | hp
      · exact h3
      · exact g3 p hp
  exact main fs hfs [] (by simp)

/-- C75 for plugins, which are not cached. -/
theorem C75_plugins (own : Name → List α) (order : List α → List α) (ho : ∀ l, (order l).Perm l)
    (visits : List Name) (hv : ∀ f ∈ files, f ∈ visits) (r : Reg) (h : registerFiles deps files visits = .ok r)
    (f : Name) (hf : f ∈ files) :
    ∃ xs, plugins key (importFiles deps files) own order files.length f = some xs ∧
      Right key (importFiles deps files) own f xs := by
  have hl := C77_registered deps files visits hv r h
  obtain ⟨l1, l2, hlf, hlt⟩ := rank hl hf
  exact plugins_ok key hl own order ho files.length l1 f l2 hlf hlt

/-- C75: if names are unique, the answer is the set of all elements of the file and the files it imports, and
there is only one such list, so it does not depend on the order of maps nor on the cache. -/
theorem C75_exact {links : Name → List Name} {own : Name → List α} (hu : Unique key own) {f : Name} {xs : List α}
    (h : Right key links own f xs) :
    (∀ x, x ∈ xs ↔ ∃ g, Imports links f g ∧ x ∈ own g) ∧ ∀ ys, Right key links own f ys → ys = xs := by
  have hmem : ∀ {zs : List α}, Right key links own f zs → ∀ x, x ∈ zs ↔ ∃ g, Imports links f g ∧ x ∈ own g := by
    intro zs hz x
    refine ⟨hz.sound x, ?_⟩
    rintro ⟨g, hg, hx⟩
    obtain ⟨y, hy, he⟩ := hz.complete g hg x hx
    obtain ⟨g', -, hy'⟩ := hz.sound y hy
    rw [← hu g' g y x hy' hx he]
    exact hy
  refine ⟨hmem h, fun ys hy => ?_⟩
  have hn : ∀ {zs : List α}, Right key links own f zs → zs.Nodup := fun hz =>
    hz.sorted.imp (S := (· ≠ ·)) fun {a b} (hab : key a < key b) he => List.lt_irrefl (key b) (by rw [he] at hab; exact hab)
  have hp : ys.Perm xs := (List.perm_ext_iff_of_nodup (hn hy) (hn h)).mpr fun x => (hmem hy x).trans (hmem h x).symm
  exact hp.eq_of_pairwise (fun a b _ _ h1 h2 => absurd (List.lt_trans h1 h2) (List.lt_irrefl _)) hy.sorted h.sorted

end

/-! ## Functions at run time -/

/-- C75: what the expressions of a file may call when they are checked is declared in each service of a file
that imports it, except functions on enums of `google` and of the federation itself, and attributes of enums
without any. -/
theorem C75_runtime_partial {links : Name → List Name} {own : Name → List Enum} (hu : Unique Enum.fqdn own)
    {f g : Name} (hfg : Imports links f g) {es es' : List Enum} (h : Right Enum.fqdn links own g es)
    (h' : Right Enum.fqdn links own f es') (k : Key) (fn : Fn) (hc : checked es (k, fn) = true)
    (hs : ¬ Standard k) (ha : fn = .attr → ∀ e ∈ es, e.fqdn = k → e.attrs = true) :
    declared es' (k, fn) = true := by
  simp only [checked, List.any_eq_true, decide_eq_true_eq] at hc
  obtain ⟨e, he, rfl⟩ := hc
  obtain ⟨g', hg', hx⟩ := h.sound e he
  have he' : e ∈ es' := ((C75_exact Enum.fqdn hu h').1 e).mpr ⟨g', hfg.trans hg', hx⟩
  simp only [declared, generated, Bool.or_eq_true, List.any_eq_true, List.mem_filter, Bool.and_eq_true,
    decide_eq_true_eq, Bool.not_eq_true']
  refine Or.inr ⟨e, ⟨he', Bool.eq_false_iff.mpr fun h => hs ((skipped_iff _).mp h)⟩, rfl, ?_⟩
  by_cases hfn : fn = .attr
  · exact Or.inr (ha hfn e he rfl)
  · exact Or.inl hfn

/-- The converse: what is declared in a service is `google.rpc.Code` or was checked against an enum of its
file or of a file it imports. -/
theorem C75_declared {links : Name → List Name} {own : Name → List Enum} {f : Name} {es : List Enum}
    (h : Right Enum.fqdn links own f es) (k : Key) (fn : Fn) (hd : declared es (k, fn) = true) :
    (k = codeName ∧ fn ≠ .attr) ∨ ∃ g, Imports links f g ∧ ∃ e ∈ own g, e.fqdn = k ∧ (fn = .attr → e.attrs = true) := by
  simp only [declared, generated, Bool.or_eq_true, List.any_eq_true, List.mem_filter, Bool.and_eq_true,
    decide_eq_true_eq, Bool.not_eq_true'] at hd
  rcases hd with hd | ⟨e, ⟨he, -⟩, hk, ha⟩
  · exact Or.inl hd
  · obtain ⟨g, hg, hx⟩ := h.sound e he
    refine Or.inr ⟨g, hg, e, hx, hk, fun hfn => ?_⟩
    rcases ha with ha | ha
    · exact absurd hfn ha
    · exact ha

/-! ## Examples and counterexamples -/

/-- Three files: 0 imports 1 and 2, 1 imports 2. -/
def sampleLinks (f : Name) : List Name := if f = 0 then [1, 2] else if f = 1 then [2] else []

def sampleOwn (f : Name) : List Enum :=
  if f = 0 then [⟨['b'], false, 0⟩] else if f = 1 then [⟨['a'], true, 1⟩, ⟨['c'], false, 2⟩]
  else [⟨['a', 'a'], false, 3⟩]

example : registerFiles sampleLinks [0, 1, 2] [0, 1, 2] = .ok ⟨[], [], [2, 1, 0]⟩ := by rfl

example : ask Enum.fqdn (importFiles sampleLinks [0, 1, 2]) sampleOwn List.reverse 3 [] [2, 0, 1] =
    some [[⟨['a', 'a'], false, 3⟩],
      [⟨['a'], true, 1⟩, ⟨['a', 'a'], false, 3⟩, ⟨['b'], false, 0⟩, ⟨['c'], false, 2⟩],
      [⟨['a'], true, 1⟩, ⟨['a', 'a'], false, 3⟩, ⟨['c'], false, 2⟩]] := by rfl

example : Unique Enum.fqdn sampleOwn := by
  have h : ∀ f x, x ∈ sampleOwn f → x = (if x.fqdn = ['b'] then ⟨['b'], false, 0⟩ else if x.fqdn = ['a'] then
      ⟨['a'], true, 1⟩ else if x.fqdn = ['c'] then ⟨['c'], false, 2⟩ else ⟨['a', 'a'], false, 3⟩ : Enum) := by
    intro f x hx
    unfold sampleOwn at hx
    by_cases h0 : f = 0
    · simp only [h0, if_true, List.mem_singleton] at hx
      subst hx; rfl
    · by_cases h1 : f = 1
      · rw [if_neg h0, if_pos h1, List.mem_cons, List.mem_singleton] at hx
        rcases hx with rfl | rfl <;> rfl
      · simp only [h0, h1, if_false, List.mem_singleton] at hx
        subst hx; rfl
  intro f g x y hx hy he
  rw [h f x hx, h g y hy, he]

/-- `google.type.DayOfWeek` -/
def dayName : Key := ['g', 'o', 'o', 'g', 'l', 'e', '.', 't', 'y', 'p', 'e', '.', 'D', 'a', 'y', 'O', 'f', 'W', 'e', 'e', 'k']

/-- The full claim fails: an expression which uses the accessors of an enum of `google`, or the attributes of
an enum without any, is accepted, and the function does not exist in the service. -/
theorem C75_runtime_false :
    (∃ (links : Name → List Name) (own : Name → List Enum) (es : List Enum), Unique Enum.fqdn own ∧
      Right Enum.fqdn links own 0 es ∧ checked es (dayName, .value) = true ∧ declared es (dayName, .value) = false) ∧
    ∃ (links : Name → List Name) (own : Name → List Enum) (es : List Enum), Unique Enum.fqdn own ∧
      Right Enum.fqdn links own 0 es ∧ checked es (['a'], .attr) = true ∧ declared es (['a'], .attr) = false := by
  have hr : ∀ e : Enum, Right Enum.fqdn (fun _ => []) (fun f => if f = 0 then [e] else []) 0 [e] := by
    intro e
    refine ⟨by simp, ?_, ?_⟩
    · intro x hx
      exact ⟨0, .self 0, by simpa using hx⟩
    · intro g _ x hx
      by_cases hg : g = 0
      · simp only [hg, if_true] at hx
        exact ⟨x, hx, rfl⟩
      · simp [hg] at hx
  have hu : ∀ e : Enum, Unique Enum.fqdn (fun f => if f = 0 then [e] else []) := by
    intro e f g x y hx hy _
    by_cases hf : f = 0 <;> by_cases hg : g = 0 <;> simp_all
  exact ⟨⟨_, _, _, hu ⟨dayName, false, 0⟩, hr _, by rfl, by rfl⟩, ⟨_, _, _, hu ⟨['a'], false, 0⟩, hr _, by rfl, by rfl⟩⟩

/-- Names of plugins need not be unique: the plugin a file exports itself is hidden by one of the same name
of a file it imports. -/
theorem C75_own_plugin_false : ∃ (links : Name → List Name) (own : Name → List (Key × Nat)) (xs : List (Key × Nat)),
    plugins Prod.fst links own (fun l => l) 2 0 = some xs ∧ (['p'], 0) ∈ own 0 ∧ (['p'], 0) ∉ xs :=
  ⟨fun f => if f = 0 then [1] else [], fun f => [(['p'], f)], [(['p'], 1)], by rfl, by simp, by simp⟩

end Verif.FileEnums
