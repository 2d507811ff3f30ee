import Verif.ImportGraph.Model

/-! # C77: files are registered after what they import, and cycles are reported -/

namespace Verif.ImportGraph

/-! ## Specification -/

/-- One of the files imports another one, directly or through others. -/
inductive Path (deps : Name → List Name) (files : List Name) : Name → Name → Prop
  | edge {a b} : b ∈ deps a → b ∈ files → Path deps files a b
  | cons {a b c} : b ∈ deps a → b ∈ files → Path deps files b c → Path deps files a c

/-- Each file of a list comes after all it imports. -/
def Ordered (deps : Name → List Name) (files l : List Name) : Prop :=
  ∀ l1 f l2, l = l1 ++ f :: l2 → ∀ d ∈ deps f, d ∈ files → d ∈ l1

/-- Each file is in a list once, after all it imports. -/
structure Complete (deps : Name → List Name) (files l : List Name) : Prop where
  nodup : l.Nodup
  mem : ∀ f, f ∈ l ↔ f ∈ files
  ordered : Ordered deps files l

/-! ## Lemmas -/

variable {deps : Name → List Name} {files : List Name}

theorem Path.snoc {a b c : Name} (h : Path deps files a b) (h1 : c ∈ deps b) (h2 : c ∈ files) :
    Path deps files a c := by
  induction h with
  | edge ha hb => exact .cons ha hb (.edge h1 h2)
  | cons ha hb _ ih => exact .cons ha hb (ih h1)

theorem Ordered.path {l : List Name} (h : Ordered deps files l) {a b : Name} (hp : Path deps files a b) :
    ∀ l1 l2, l = l1 ++ a :: l2 → b ∈ l1 := by
  induction hp with
  | edge h1 h2 => exact fun l1 l2 hl => h l1 _ l2 hl _ h1 h2
  | @cons a' _ _ h1 h2 _ ih =>
    intro l1 l2 hl
    obtain ⟨m1, m2, rfl⟩ := List.append_of_mem (h l1 _ l2 hl _ h1 h2)
    have := ih m1 (m2 ++ a' :: l2) (by rw [hl]; simp)
    exact List.mem_append_left _ this

/-- An ordered list has no cycles. -/
theorem Ordered.acyclic {l : List Name} (h : Ordered deps files l) (hn : l.Nodup) {a : Name} (ha : a ∈ l) :
    ¬ Path deps files a a := by
  intro hp
  obtain ⟨l1, l2, rfl⟩ := List.append_of_mem ha
  have := h.path hp l1 l2 rfl
  rw [List.nodup_append] at hn
  exact hn.2.2 a this a (List.mem_cons_self ..) rfl

theorem Ordered.snoc {l : List Name} (h : Ordered deps files l) {f : Name}
    (hf : ∀ d ∈ deps f, d ∈ files → d ∈ l) : Ordered deps files (l ++ [f]) := by
  intro l1 g l2 hl
  rcases List.eq_nil_or_concat l2 with rfl | ⟨l3, x, rfl⟩
  · obtain ⟨h1, h2⟩ := List.append_inj' hl rfl
    simp only [List.cons.injEq, and_true] at h2
    subst h1 h2
    exact hf
  · rw [List.concat_eq_append, ← List.cons_append, ← List.append_assoc] at hl
    obtain ⟨h1, -⟩ := List.append_inj' hl rfl
    exact h l1 g l3 h1

/-! ## The registration -/

/-- The entries of the map and the registered files are the files, each in one place. -/
structure Inv (deps : Name → List Name) (files : List Name) (r : Reg) : Prop where
  mem : ∀ x, x ∈ files ↔ x ∈ r.present ∨ x ∈ r.opened ∨ x ∈ r.done
  po : ∀ x ∈ r.present, x ∉ r.opened
  pd : ∀ x ∈ r.present, x ∉ r.done
  od : ∀ x ∈ r.opened, x ∉ r.done
  nodup : r.done.Nodup
  ordered : Ordered deps files r.done

/-- What the recursive call has to guarantee: it registers the file or finds a cycle. -/
def Good (deps : Name → List Name) (files : List Name) (r : Reg) (wanted : Name → Prop) : Res → Prop
  | .fuel => False
  | .cycle d => d ∈ files ∧ Path deps files d d
  | .ok r' => Inv deps files r' ∧ r'.opened = r.opened ∧ (∀ x ∈ r'.present, x ∈ r.present) ∧
      r'.present.length ≤ r.present.length ∧ (∀ x ∈ r.done, x ∈ r'.done) ∧ ∀ x, wanted x → x ∈ r'.done

def VisitOk (deps : Name → List Name) (files : List Name) (n : Nat) (visit : Reg → Name → Res) : Prop :=
  ∀ r f, Inv deps files r → f ∈ r.present → r.present.length ≤ n → (∀ o ∈ r.opened, Path deps files o f) →
    Good deps files r (· = f) (visit r f)

theorem depLoop_ok (n : Nat) (visit : Reg → Name → Res) (hv : VisitOk deps files n visit) (f : Name)
    (ds : List Name) : ∀ (r : Reg), Inv deps files r → r.present.length ≤ n → (∀ d ∈ ds, d ∈ deps f) →
    (∀ o ∈ r.opened, o = f ∨ Path deps files o f) →
    Good deps files r (fun x => x ∈ ds ∧ x ∈ files) (depLoop visit r ds) := by
  induction ds with
  | nil => exact fun r hi _ _ _ => ⟨hi, rfl, fun _ h => h, Nat.le_refl _, fun _ h => h, by simp⟩
  | cons d ds ih =>
    intro r hi hl hds ho
    have hds' : ∀ d ∈ ds, d ∈ deps f := fun x hx => hds x (List.mem_cons_of_mem _ hx)
    have hdf : d ∈ deps f := hds d (List.mem_cons_self ..)
    rw [depLoop]
    by_cases h1 : d ∈ r.present
    · rw [if_pos h1]
      have hmem : d ∈ files := (hi.mem d).mpr (Or.inl h1)
      have hvis := hv r d hi h1 hl fun o hoo => by
        rcases ho o hoo with rfl | hp
        · exact .edge hdf hmem
        · exact hp.snoc hdf hmem
      cases hres : visit r d with
      | fuel => rw [hres] at hvis; exact hvis
      | cycle x => rw [hres] at hvis; exact hvis
      | ok r1 =>
        rw [hres] at hvis
        obtain ⟨i1, o1, p1, l1, d1, w1⟩ := hvis
        have := ih r1 i1 (by omega) hds' (o1 ▸ ho)
        simp only []
        cases hres2 : depLoop visit r1 ds with
        | fuel => rw [hres2] at this; exact this
        | cycle x => rw [hres2] at this; exact this
        | ok r2 =>
          rw [hres2] at this
          obtain ⟨i2, o2, p2, l2, d2, w2⟩ := this
          refine ⟨i2, o2.trans o1, fun x hx => p1 x (p2 x hx), by omega, fun x hx => d2 x (d1 x hx), ?_⟩
          rintro x ⟨hx, hxf⟩
          rcases List.mem_cons.mp hx with rfl | hx
          · exact d2 _ (w1 _ rfl)
          · exact w2 x ⟨hx, hxf⟩
    · rw [if_neg h1]
      by_cases h2 : d ∈ r.opened
      · rw [if_pos h2]
        have hmem : d ∈ files := (hi.mem d).mpr (Or.inr (Or.inl h2))
        refine ⟨hmem, ?_⟩
        rcases ho d h2 with rfl | hp
        · exact .edge hdf hmem
        · exact hp.snoc hdf hmem
      · rw [if_neg h2]
        have := ih r hi hl hds' ho
        cases hres2 : depLoop visit r ds with
        | fuel => rw [hres2] at this; exact this
        | cycle x => rw [hres2] at this; exact this
        | ok r2 =>
          rw [hres2] at this
          obtain ⟨i2, o2, p2, l2, d2, w2⟩ := this
          refine ⟨i2, o2, p2, l2, d2, ?_⟩
          rintro x ⟨hx, hxf⟩
          rcases List.mem_cons.mp hx with rfl | hx
          · rcases (hi.mem x).mp hxf with h | h | h
            · exact absurd h h1
            · exact absurd h h2
            · exact d2 x h
          · exact w2 x ⟨hx, hxf⟩

theorem filter_length_lt {f : Name} {l : List Name} (h : f ∈ l) : (l.filter (· ≠ f)).length < l.length := by
  rcases Nat.lt_or_ge (l.filter (· ≠ f)).length l.length with h1 | h1
  · exact h1
  · have : (l.filter (· ≠ f)).length = l.length := Nat.le_antisymm (List.length_filter_le ..) h1
    rw [List.length_filter_eq_length_iff] at this
    exact absurd (this f h) (by simp)

theorem register_ok (n : Nat) : VisitOk deps files n (register deps n) := by
  induction n with
  | zero =>
    intro r f hi hf hl _
    have : r.present = [] := List.length_eq_zero_iff.mp (Nat.le_zero.mp hl)
    rw [this] at hf
    simp at hf
  | succ n ih =>
    intro r f hi hf hl ho
    have hfo : f ∉ r.opened := hi.po f hf
    have hfd : f ∉ r.done := hi.pd f hf
    have hi0 : Inv deps files ⟨r.present.filter (· ≠ f), f :: r.opened, r.done⟩ := by
      refine ⟨?_, ?_, ?_, ?_, hi.nodup, hi.ordered⟩
      · intro x
        rw [hi.mem x]
        by_cases hx : x = f
        · subst hx
          simp [hf]
        · simp [hx]
      · intro x hx
        obtain ⟨h1, h2⟩ := List.mem_filter.mp hx
        simp only [ne_eq, decide_not, Bool.not_eq_true', decide_eq_false_iff_not] at h2
        rw [List.mem_cons, not_or]
        exact ⟨h2, hi.po x h1⟩
      · intro x hx
        exact hi.pd x (List.mem_filter.mp hx).1
      · intro x hx
        rcases List.mem_cons.mp hx with rfl | hx
        · exact hfd
        · exact hi.od x hx
    have hlt := filter_length_lt hf
    have := depLoop_ok n (register deps n) ih f (deps f) ⟨r.present.filter (· ≠ f), f :: r.opened, r.done⟩ hi0
      (by simp only []; omega) (fun _ h => h) (fun o hoo => by
        rcases List.mem_cons.mp hoo with rfl | hoo
        · exact Or.inl rfl
        · exact Or.inr (ho o hoo))
    rw [register]
    cases hres : depLoop (register deps n) ⟨r.present.filter (· ≠ f), f :: r.opened, r.done⟩ (deps f) with
    | fuel => rw [hres] at this; exact this
    | cycle x => rw [hres] at this; exact this
    | ok r1 =>
      rw [hres] at this
      obtain ⟨i1, o1, p1, l1, d1, w1⟩ := this
      simp only [] at o1 p1 l1 d1 ⊢
      have hf1 : f ∈ r1.opened := by rw [o1]; simp
      have hfd1 : f ∉ r1.done := i1.od f hf1
      have hop : (finish r1 f).opened = r.opened := by
        simp only [finish, o1]
        rw [List.filter_cons]
        simp only [ne_eq, not_true_eq_false, decide_false, Bool.false_eq_true, if_false]
        rw [List.filter_eq_self]
        intro x hx
        simp only [decide_eq_true_eq]
        exact fun h => hfo (h ▸ hx)
      have hdn : (finish r1 f).done = r1.done ++ [f] := by simp [finish, hfd1]
      refine ⟨⟨?_, ?_, ?_, ?_, ?_, ?_⟩, hop, ?_, ?_, ?_, ?_⟩
      · intro x
        rw [i1.mem x, hop, hdn, o1]
        have : (finish r1 f).present = r1.present := rfl
        rw [this]
        simp only [List.mem_cons, List.mem_append, List.not_mem_nil, or_false]
        constructor
        · rintro (h | (h | h) | h)
          · exact Or.inl h
          · exact Or.inr (Or.inr (Or.inr h))
          · exact Or.inr (Or.inl h)
          · exact Or.inr (Or.inr (Or.inl h))
        · rintro (h | h | (h | h))
          · exact Or.inl h
          · exact Or.inr (Or.inl (Or.inr h))
          · exact Or.inr (Or.inr h)
          · exact Or.inr (Or.inl (Or.inl h))
      · intro x hx
        rw [hop]
        intro h
        exact i1.po x hx (by rw [o1]; exact List.mem_cons_of_mem _ h)
      · intro x hx
        rw [hdn, List.mem_append, not_or]
        refine ⟨i1.pd x hx, ?_⟩
        simp only [List.mem_singleton]
        rintro rfl
        exact i1.po x hx hf1
      · intro x hx
        rw [hop] at hx
        rw [hdn, List.mem_append, not_or]
        refine ⟨i1.od x (by rw [o1]; exact List.mem_cons_of_mem _ hx), ?_⟩
        simp only [List.mem_singleton]
        rintro rfl
        exact hfo hx
      · rw [hdn, List.nodup_append]
        refine ⟨i1.nodup, by simp, ?_⟩
        intro a ha b hb
        simp only [List.mem_singleton] at hb
        rintro rfl
        exact hfd1 (hb ▸ ha)
      · rw [hdn]
        exact i1.ordered.snoc fun d hd hdf => w1 d ⟨hd, hdf⟩
      · intro x hx
        exact (List.mem_filter.mp (p1 x hx)).1
      · have : (finish r1 f).present = r1.present := rfl
        rw [this]
        omega
      · intro x hx
        rw [hdn]
        exact List.mem_append_left _ (d1 x hx)
      · rintro x rfl
        rw [hdn]
        simp

theorem registerLoop_ok (n : Nat) (order : List Name) : ∀ (r : Reg), Inv deps files r → r.opened = [] →
    r.present.length ≤ n → Good deps files r (fun x => x ∈ order ∧ x ∈ files) (registerLoop deps n r order) := by
  induction order with
  | nil => exact fun r hi _ _ => ⟨hi, rfl, fun _ h => h, Nat.le_refl _, fun _ h => h, by simp⟩
  | cons f order ih =>
    intro r hi ho hl
    rw [registerLoop]
    by_cases hf : f ∈ r.present
    · rw [if_pos hf]
      have hvis := register_ok n r f hi hf hl (by simp [ho])
      cases hres : register deps n r f with
      | fuel => rw [hres] at hvis; exact hvis
      | cycle x => rw [hres] at hvis; exact hvis
      | ok r1 =>
        rw [hres] at hvis
        obtain ⟨i1, o1, p1, l1, d1, w1⟩ := hvis
        have := ih r1 i1 (o1.trans ho) (by omega)
        simp only []
        cases hres2 : registerLoop deps n r1 order with
        | fuel => rw [hres2] at this; exact this
        | cycle x => rw [hres2] at this; exact this
        | ok r2 =>
          rw [hres2] at this
          obtain ⟨i2, o2, p2, l2, d2, w2⟩ := this
          refine ⟨i2, o2.trans o1, fun x hx => p1 x (p2 x hx), by omega, fun x hx => d2 x (d1 x hx), ?_⟩
          rintro x ⟨hx, hxf⟩
          rcases List.mem_cons.mp hx with rfl | hx
          · exact d2 _ (w1 _ rfl)
          · exact w2 x ⟨hx, hxf⟩
    · rw [if_neg hf]
      have := ih r hi ho hl
      cases hres2 : registerLoop deps n r order with
      | fuel => rw [hres2] at this; exact this
      | cycle x => rw [hres2] at this; exact this
      | ok r2 =>
        rw [hres2] at this
        obtain ⟨i2, o2, p2, l2, d2, w2⟩ := this
        refine ⟨i2, o2, p2, l2, d2, ?_⟩
        rintro x ⟨hx, hxf⟩
        rcases List.mem_cons.mp hx with rfl | hx
        · rcases (hi.mem x).mp hxf with h | h | h
          · exact absurd h hf
          · simp [ho] at h
          · exact d2 x h
        · exact w2 x ⟨hx, hxf⟩

theorem registerFiles_good (deps : Name → List Name) (files order : List Name) :
    Good deps files ⟨files, [], []⟩ (fun x => x ∈ order ∧ x ∈ files) (registerFiles deps files order) :=
  registerLoop_ok files.length order ⟨files, [], []⟩
    ⟨by simp, by simp, by simp, by simp, by simp, by intro l1 f l2 h; simp at h⟩ rfl (Nat.le_refl _)

/-- C77: in whatever order the map is visited, if the registration succeeds, each file was registered once,
after all files it imports. -/
theorem C77_registered (deps : Name → List Name) (files order : List Name) (ho : ∀ f ∈ files, f ∈ order) (r : Reg)
    (h : registerFiles deps files order = .ok r) : Complete deps files r.done := by
  have := registerFiles_good deps files order
  rw [h] at this
  obtain ⟨hi, ho', -, -, -, hw⟩ := this
  refine ⟨hi.nodup, fun f => ⟨fun hf => (hi.mem f).mpr (Or.inr (Or.inr hf)), fun hf => hw f ⟨ho f hf, hf⟩⟩, hi.ordered⟩

/-- C77: the registration succeeds exactly if no file imports itself, directly or through others; otherwise
a file on a cycle is reported. -/
theorem C77_cycles (deps : Name → List Name) (files order : List Name) (ho : ∀ f ∈ files, f ∈ order) :
    ((∃ r, registerFiles deps files order = .ok r) ↔ ∀ f ∈ files, ¬ Path deps files f f) ∧
    ((∃ d, registerFiles deps files order = .cycle d ∧ d ∈ files ∧ Path deps files d d) ↔
      ∃ f ∈ files, Path deps files f f) := by
  have hg := registerFiles_good deps files order
  have hc : ∀ r, registerFiles deps files order = .ok r → ∀ f ∈ files, ¬ Path deps files f f := by
    intro r hr f hf
    have hcomp := C77_registered deps files order ho r hr
    exact hcomp.ordered.acyclic hcomp.nodup ((hcomp.mem f).mpr hf)
  cases hres : registerFiles deps files order with
  | fuel => rw [hres] at hg; exact absurd hg (by simp [Good])
  | cycle d =>
    rw [hres] at hg
    obtain ⟨h1, h2⟩ := hg
    refine ⟨⟨by simp, fun h => absurd h2 (h d h1)⟩, ⟨fun _ => ⟨d, h1, h2⟩, fun _ => ⟨d, rfl, h1, h2⟩⟩⟩
  | ok r =>
    refine ⟨⟨fun _ => hc r hres, fun _ => ⟨r, rfl⟩⟩, ⟨?_, ?_⟩⟩
    · rintro ⟨d, hd, -⟩
      simp at hd
    · rintro ⟨f, hf, hp⟩
      exact absurd hp (hc r hres f hf)

example : registerFiles (fun f => if f = 0 then [1, 2] else if f = 1 then [2, 7] else []) [0, 1, 2] [1, 0, 2] =
    .ok ⟨[], [], [2, 1, 0]⟩ := by rfl

example : registerFiles (fun f => if f = 0 then [1] else if f = 1 then [2] else [0]) [0, 1, 2] [1, 0, 2] =
    .cycle 1 := by rfl

/-! ## Links -/

/-- What resolving a file guarantees for its cache. -/
structure Cache (deps : Name → List Name) (files cache : List Name) : Prop where
  nodup : cache.Nodup
  sub : ∀ f ∈ cache, f ∈ files
  ordered : Ordered deps files cache

theorem foldlM_links (visit : List Name → Name → Option (List Name)) (ds : List Name)
    (hv : ∀ d ∈ ds, ∀ cache, Cache deps files cache → ∃ c, visit cache d = some c ∧ Cache deps files c ∧
      (∀ x ∈ cache, x ∈ c) ∧ d ∈ c) : ∀ cache, Cache deps files cache → ∃ c, ds.foldlM visit cache = some c ∧
      Cache deps files c ∧ (∀ x ∈ cache, x ∈ c) ∧ ∀ d ∈ ds, d ∈ c := by
  induction ds with
  | nil => exact fun cache hc => ⟨cache, rfl, hc, fun _ h => h, by simp⟩
  | cons d ds ih =>
    intro cache hc
    obtain ⟨c1, h1, h2, h3, h4⟩ := hv d (List.mem_cons_self ..) cache hc
    obtain ⟨c2, g1, g2, g3, g4⟩ := ih (fun x hx => hv x (List.mem_cons_of_mem _ hx)) c1 h2
    refine ⟨c2, ?_, g2, fun x hx => g3 x (h3 x hx), ?_⟩
    · rw [List.foldlM_cons, h1]
      exact g1
    · intro x hx
      rcases List.mem_cons.mp hx with rfl | hx
      · exact g3 _ h4
      · exact g4 x hx

theorem resolveFile_ok {l : List Name} (hl : Complete deps files l) : ∀ (n : Nat) (l1 : List Name) (f : Name)
    (l2 : List Name), l = l1 ++ f :: l2 → l1.length < n → ∀ cache, Cache deps files cache →
    ∃ c, resolveFile (importFiles deps files) n cache f = some c ∧ Cache deps files c ∧ (∀ x ∈ cache, x ∈ c) ∧ f ∈ c := by
  intro n
  induction n with
  | zero => intro l1 f l2 _ h; omega
  | succ n ih =>
    intro l1 f l2 hlf hlen cache hc
    rw [resolveFile]
    by_cases hf : f ∈ cache
    · exact ⟨cache, if_pos hf, hc, fun _ h => h, hf⟩
    · rw [if_neg hf]
      obtain ⟨c, h1, h2, h3, h4⟩ := foldlM_links (deps := deps) (files := files)
        (resolveFile (importFiles deps files) n) (importFiles deps files f) (fun d hd cache hc => by
          obtain ⟨hd1, hd2⟩ := List.mem_filter.mp hd
          have hdl := hl.ordered l1 f l2 hlf d hd1 (by simpa using hd2)
          obtain ⟨m1, m2, hm⟩ := List.append_of_mem hdl
          refine ih m1 d (m2 ++ f :: l2) (by rw [hlf, hm]; simp) ?_ cache hc
          have : l1.length = m1.length + (m2.length + 1) := by rw [hm]; simp
          omega) cache hc
      have hfc : f ∉ c ∨ f ∈ c := Classical.em _ |>.symm
      have hff : f ∈ files := (hl.mem f).mp (by rw [hlf]; simp)
      have hnot : f ∉ c := by
        -- `f` is not added while its imports are resolved: it comes after them in `l`.
        intro hfc'
        have : ∀ ds : List Name, (∀ d ∈ ds, d ∈ l1) → ∀ cache c, f ∉ cache →
            ds.foldlM (resolveFile (importFiles deps files) n) cache = some c → f ∉ c := by
          have base : ∀ (m : Nat) (d : Name) (k1 k2 : List Name), l = k1 ++ d :: k2 → k1.length < l1.length →
              ∀ cache c, f ∉ cache → resolveFile (importFiles deps files) m cache d = some c → f ∉ c := by
            intro m
            induction m with
            | zero => intro d k1 k2 _ _ cache c _ h; simp [resolveFile] at h
            | succ m ihm =>
              intro d k1 k2 hk hlt cache c hfn h
              rw [resolveFile] at h
              by_cases hd : d ∈ cache
              · rw [if_pos hd, Option.some.injEq] at h
                exact h ▸ hfn
              · rw [if_neg hd, Option.map_eq_some_iff] at h
                obtain ⟨c', hc', rfl⟩ := h
                rw [List.mem_append, not_or]
                constructor
                · have hsub : ∀ e ∈ importFiles deps files d, e ∈ k1 := by
                    intro e he
                    obtain ⟨he1, he2⟩ := List.mem_filter.mp he
                    exact hl.ordered k1 d k2 hk e he1 (by simpa using he2)
                  clear hd
                  generalize importFiles deps files d = es at hc' hsub
                  induction es generalizing cache with
                  | nil =>
                    simp only [List.foldlM_nil] at hc'
                    cases hc'
                    exact hfn
                  | cons e es ihe =>
                    rw [List.foldlM_cons] at hc'
                    cases hv : resolveFile (importFiles deps files) m cache e with
                    | none =>
                      rw [hv] at hc'
                      simp at hc'
                    | some c1 =>
                      rw [hv] at hc'
                      obtain ⟨m1, m2, hm⟩ := List.append_of_mem (hsub e (List.mem_cons_self ..))
                      have hlen1 : k1.length = m1.length + (m2.length + 1) := by rw [hm]; simp
                      exact ihe c1 (ihm e m1 (m2 ++ d :: k2) (by rw [hk, hm]; simp) (by omega) cache c1 hfn hv) hc'
                        fun x hx => hsub x (List.mem_cons_of_mem _ hx)
                · simp only [List.mem_singleton]
                  rintro rfl
                  -- the two places of `f` in `l` are the same
                  have hn := hl.nodup
                  rw [hlf] at hn hk
                  rcases List.append_eq_append_iff.mp hk with ⟨a, ha, -⟩ | ⟨a, ha, hb⟩
                  · have := congrArg List.length ha
                    simp at this
                    omega
                  · cases a with
                    | nil =>
                      rw [List.append_nil] at ha
                      rw [ha] at hlt
                      omega
                    | cons y a =>
                      simp only [List.cons_append, List.cons.injEq] at hb
                      obtain ⟨rfl, -⟩ := hb
                      rw [ha, List.nodup_append] at hn
                      exact hn.2.2 _ (by simp) _ (List.mem_cons_self ..) rfl
          intro ds
          induction ds with
          | nil =>
            intro _ cache c hfn h
            simp only [List.foldlM_nil] at h
            cases h
            exact hfn
          | cons d ds ihd =>
            intro hds cache c hfn h
            rw [List.foldlM_cons] at h
            cases hv : resolveFile (importFiles deps files) n cache d with
            | none =>
              rw [hv] at h
              simp at h
            | some c1 =>
              rw [hv] at h
              obtain ⟨m1, m2, hm⟩ := List.append_of_mem (hds d (List.mem_cons_self ..))
              have hlen1 : l1.length = m1.length + (m2.length + 1) := by rw [hm]; simp
              exact ihd (fun x hx => hds x (List.mem_cons_of_mem _ hx)) c1 c
                (base n d m1 (m2 ++ f :: l2) (by rw [hlf, hm]; simp) (by omega) cache c1 hfn hv) h
        exact this (importFiles deps files f) (fun d hd => by
          obtain ⟨hd1, hd2⟩ := List.mem_filter.mp hd
          exact hl.ordered l1 f l2 hlf d hd1 (by simpa using hd2)) cache c hf h1 hfc'
      refine ⟨c ++ [f], by rw [h1]; rfl, ⟨?_, ?_, ?_⟩, fun x hx => List.mem_append_left _ (h3 x hx), by simp⟩
      · rw [List.nodup_append]
        refine ⟨h2.nodup, by simp, ?_⟩
        intro a ha b hb
        simp only [List.mem_singleton] at hb
        rintro rfl
        exact hnot (hb ▸ ha)
      · intro x hx
        rcases List.mem_append.mp hx with hx | hx
        · exact h2.sub x hx
        · simp only [List.mem_singleton] at hx
          exact hx ▸ hff
      · exact h2.ordered.snoc fun d hd hdf => h4 d (List.mem_filter.mpr ⟨hd, by simpa using hdf⟩)

theorem length_le_of_subset {l m : List Name} (hl : l.Nodup) (hs : ∀ x ∈ l, x ∈ m) : l.length ≤ m.length := by
  induction l generalizing m with
  | nil => simp
  | cons a l ih =>
    rw [List.nodup_cons] at hl
    have ha := hs a (by simp)
    have := ih (m := m.erase a) hl.2 (fun y hy => by
      have hya : y ≠ a := fun h => hl.1 (h ▸ hy)
      exact (List.mem_erase_of_ne hya).mpr (hs y (by simp [hy])))
    rw [List.length_erase_of_mem ha] at this
    have : 0 < m.length := List.length_pos_of_mem ha
    simp only [List.length_cons]; omega

/-- C77: after a successful registration, resolving the files ends, and each file is resolved once, after all
files it imports. -/
theorem C77_resolved (deps : Name → List Name) (files order : List Name) (ho : ∀ f ∈ files, f ∈ order)
    (r : Reg) (h : registerFiles deps files order = .ok r) :
    ∃ c, resolveFiles (importFiles deps files) files.length files = some c ∧ Complete deps files c := by
  have hl := C77_registered deps files order ho r h
  obtain ⟨c, h1, h2, -, h4⟩ := foldlM_links (deps := deps) (files := files)
    (resolveFile (importFiles deps files) files.length) files (fun f hf cache hc => by
      obtain ⟨l1, l2, hlf⟩ := List.append_of_mem ((hl.mem f).mpr hf)
      refine resolveFile_ok hl files.length l1 f l2 hlf ?_ cache hc
      have hle : r.done.length ≤ files.length := length_le_of_subset hl.nodup fun x hx => (hl.mem x).mp hx
      rw [hlf] at hle
      simp at hle
      omega) [] ⟨by simp, by simp, by intro l1 f l2 h; simp at h⟩
  exact ⟨c, h1, h2.nodup, fun f => ⟨h2.sub f, h4 f⟩, h2.ordered⟩

example : resolveFiles (importFiles (fun f => if f = 0 then [1, 2] else if f = 1 then [2, 7] else []) [0, 1, 2]) 3
    [0, 1, 2] = some [2, 1, 0] := by rfl

theorem resolveFile_ordered (n : Nat) : ∀ (f : Name) (cache c : List Name), Ordered deps files cache →
    resolveFile (importFiles deps files) n cache f = some c →
    Ordered deps files c ∧ f ∈ c ∧ ∀ x ∈ cache, x ∈ c := by
  induction n with
  | zero => intro f cache c _ h; simp [resolveFile] at h
  | succ n ih =>
    intro f cache c hc h
    rw [resolveFile] at h
    by_cases hf : f ∈ cache
    · rw [if_pos hf, Option.some.injEq] at h
      subst h
      exact ⟨hc, hf, fun _ h => h⟩
    · rw [if_neg hf, Option.map_eq_some_iff] at h
      obtain ⟨c', hc', rfl⟩ := h
      have : ∀ (ds cache c : List Name), Ordered deps files cache →
          ds.foldlM (resolveFile (importFiles deps files) n) cache = some c →
          Ordered deps files c ∧ (∀ d ∈ ds, d ∈ c) ∧ ∀ x ∈ cache, x ∈ c := by
        intro ds
        induction ds with
        | nil =>
          intro cache c ho h
          simp only [List.foldlM_nil] at h
          cases h
          exact ⟨ho, by simp, fun _ h => h⟩
        | cons d ds ihd =>
          intro cache c ho h
          rw [List.foldlM_cons] at h
          cases hv : resolveFile (importFiles deps files) n cache d with
          | none =>
            rw [hv] at h
            simp at h
          | some c1 =>
            rw [hv] at h
            obtain ⟨o1, m1, s1⟩ := ih d cache c1 ho hv
            obtain ⟨o2, m2, s2⟩ := ihd c1 c o1 h
            refine ⟨o2, ?_, fun x hx => s2 x (s1 x hx)⟩
            intro x hx
            rcases List.mem_cons.mp hx with rfl | hx
            · exact s2 _ m1
            · exact m2 x hx
      obtain ⟨o, m, s⟩ := this _ cache c' hc hc'
      refine ⟨o.snoc fun d hd hdf => m d (List.mem_filter.mpr ⟨hd, by simpa using hdf⟩), by simp,
        fun x hx => List.mem_append_left _ (s x hx)⟩

/-- C77: the check is needed: on a cycle of imports resolving the files never ends. -/
theorem C77_check_needed (deps : Name → List Name) (files : List Name) (f : Name) (hp : Path deps files f f) (n : Nat) :
    resolveFile (importFiles deps files) n [] f = none := by
  cases h : resolveFile (importFiles deps files) n [] f with
  | none => rfl
  | some c =>
    obtain ⟨o, m, -⟩ := resolveFile_ordered (deps := deps) (files := files) n f [] c
      (by intro l1 f l2 h; simp at h) h
    obtain ⟨l1, l2, hl, hn⟩ : ∃ l1 l2, c = l1 ++ f :: l2 ∧ f ∉ l1 := by
      clear h o
      induction c with
      | nil => simp at m
      | cons x c ih =>
        by_cases hx : x = f
        · exact ⟨[], c, by simp [hx], by simp⟩
        · rcases List.mem_cons.mp m with h | h
          · exact absurd h.symm hx
          · obtain ⟨l1, l2, h1, h2⟩ := ih h
            exact ⟨x :: l1, l2, by simp [h1], by simp [Ne.symm hx, h2]⟩
    exact absurd (o.path hp l1 l2 hl) hn

example : Path (fun f => if f = 0 then [1] else [0]) [0, 1] 0 0 :=
  .cons (b := 1) (by simp) (by simp) (.edge (by simp) (by simp))

end Verif.ImportGraph
