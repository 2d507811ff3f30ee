import Verif.LocBuild.Rel

/-! # The invariant of programs -/

namespace Verif.LocBuild

structure TreeOk (H : Heap) (b : Builder) (n : Nat) : Prop where
  root : ∃ nd, H[b.root]? = some nd ∧ nd.kind = .location
  inj : Inj H b.root
  depth : Depth H b.root n

theorem TreeOk.lt {H : Heap} {b : Builder} {n : Nat} (h : TreeOk H b n) : b.root < H.length := by
  obtain ⟨nd, h1, _⟩ := h.root
  exact lt_of_get h1

theorem TreeOk.mono {H : Heap} {b : Builder} {n m : Nat} (h : TreeOk H b n) (hm : n ≤ m) : TreeOk H b m :=
  ⟨h.root, h.inj, fun p x hx => Nat.lt_of_lt_of_le (h.depth p x hx) hm⟩

/-- Builder number `j` was made by `WithVar` of the builder of an environment. -/
def Captor (os : List Op) (bs : List Builder) (j : Nat) : Prop :=
  (∃ l c, os[j]? = some (.call l c) ∧ c.meth = .withVar) ∧ ∃ b, bs[j]? = some b ∧ b.kind = .envVar

def SelOk (H : Heap) (bs : List Builder) (os : List Op) (b : Builder) : Prop :=
  match b.sel with
  | .path p => isEnv b.kind = false ∧ ∃ i, view H b.root p = some i ∧ i.kind = b.kind
  | .kept r p => isEnv b.kind = true ∧ (∃ j bj, bs[j]? = some bj ∧ bj.root = r ∧ Captor os bs j) ∧
      ∃ i, view H r p = some i ∧ i.kind = b.kind
  | .lazy f k _ p => isEnv b.kind = false ∧ ((f = .message ∧ k = .message) ∨ (f = .enum ∧ k = .enum)) ∧ (p = [] → b.kind = k)

structure Inv (os : List Op) (s : St) : Prop where
  good : Good s.heap
  len : s.builders.length = os.length
  tree : ∀ (i : Nat) (b : Builder), s.builders[i]? = some b → TreeOk s.heap b (2 * os.length + 1)
  sep : ∀ (i j : Nat) (bi bj : Builder), i ≠ j → s.builders[i]? = some bi → s.builders[j]? = some bj →
    ∀ (p q : Path) (x : Nat), find s.heap bi.root p = some x → find s.heap bj.root q ≠ some x
  sel : ∀ (i : Nat) (b : Builder), s.builders[i]? = some b → SelOk s.heap s.builders os b
  rel : ∀ (i : Nat) (sd : Said) (last : Path), Made os i sd last → ∃ b, s.builders[i]? = some b ∧ b.kind = sd.kind ∧
    (isEnv sd.kind = false → b.sel = .path sd.pos ∧ Rel (view s.heap b.root) sd.content last)

theorem captor_append {os : List Op} {bs : List Builder} {o : Op} {b : Builder} {j : Nat} (h : Captor os bs j) :
    Captor (os ++ [o]) (bs ++ [b]) j := by
  obtain ⟨⟨l, c, h1, h2⟩, b', h3, h4⟩ := h
  refine ⟨⟨l, c, ?_, h2⟩, b', ?_, h4⟩
  · rw [List.getElem?_append_left (List.getElem?_eq_some_iff.1 h1).1]; exact h1
  · rw [List.getElem?_append_left (List.getElem?_eq_some_iff.1 h3).1]; exact h3

theorem made_prefix {os : List Op} {o : Op} {i : Nat} {sd : Said} {last : Path} (hm : Made (os ++ [o]) i sd last) (hi : i < os.length) :
    Made os i sd last := by
  induction hm with
  | new i file h => exact .new i file (by rwa [List.getElem?_append_left hi] at h)
  | call i j c s s' last h hj hm hc ih => exact .call i j c s s' last (by rwa [List.getElem?_append_left hi] at h) hj (ih (by omega)) hc

theorem made_lt {os : List Op} {i : Nat} {sd : Said} {last : Path} (hm : Made os i sd last) : i < os.length := by
  cases hm with
  | new i file h => exact (List.getElem?_eq_some_iff.1 h).1
  | call i j c s s' last h => exact (List.getElem?_eq_some_iff.1 h).1

theorem get_append_cases {α : Type} {l : List α} {x y : α} {i : Nat} (h : (l ++ [x])[i]? = some y) :
    l[i]? = some y ∨ (i = l.length ∧ y = x) := by
  by_cases hi : i < l.length
  · rw [List.getElem?_append_left hi] at h; exact .inl h
  · have := (List.getElem?_eq_some_iff.1 h).1
    simp only [List.length_append, List.length_singleton] at this
    have hi2 : i = l.length := by omega
    subst hi2
    simp at h
    exact .inr ⟨rfl, h.symm⟩

theorem Inv.add {os : List Op} {s : St} {o : Op} {H' : Heap} {b' : Builder} (h : Inv os s) (hg : Good H')
    (htree : ∀ (i : Nat) (b : Builder), s.builders[i]? = some b → TreeOk H' b (2 * os.length + 3))
    (hnew : TreeOk H' b' (2 * os.length + 3))
    (hsep : ∀ (i j : Nat) (bi bj : Builder), i ≠ j → s.builders[i]? = some bi → s.builders[j]? = some bj →
      ∀ (p q : Path) (x : Nat), find H' bi.root p = some x → find H' bj.root q ≠ some x)
    (hsepn : ∀ (i : Nat) (b : Builder), s.builders[i]? = some b → ∀ (p q : Path) (x : Nat), find H' b.root p = some x →
      find H' b'.root q ≠ some x)
    (hselold : ∀ (i : Nat) (b : Builder), s.builders[i]? = some b → SelOk H' (s.builders ++ [b']) (os ++ [o]) b)
    (hselnew : SelOk H' (s.builders ++ [b']) (os ++ [o]) b')
    (hframe : ∀ (i : Nat) (b : Builder), s.builders[i]? = some b → ¬ Captor os s.builders i → ∀ p, view H' b.root p = view s.heap b.root p)
    (hrel : ∀ (sd : Said) (last : Path), Made (os ++ [o]) os.length sd last → b'.kind = sd.kind ∧
      (isEnv sd.kind = false → b'.sel = .path sd.pos ∧ Rel (view H' b'.root) sd.content last)) :
    Inv (os ++ [o]) ⟨H', s.builders ++ [b']⟩ := by
  have hl : 2 * (os ++ [o]).length + 1 = 2 * os.length + 3 := by simp; omega
  refine ⟨hg, by simp [h.len], ?_, ?_, ?_, ?_⟩
  · intro i b hb
    rw [hl]
    rcases get_append_cases hb with hb | ⟨_, rfl⟩
    · exact htree i b hb
    · exact hnew
  · intro i j bi bj hij hi hj p q x hp hq
    rcases get_append_cases hi with hi' | ⟨hi1, rfl⟩
    · rcases get_append_cases hj with hj' | ⟨hj1, rfl⟩
      · exact hsep i j bi bj hij hi' hj' p q x hp hq
      · exact hsepn i bi hi' p q x hp hq
    · rcases get_append_cases hj with hj' | ⟨hj1, rfl⟩
      · exact hsepn j bj hj' q p x hq hp
      · exact hij (hi1.trans hj1.symm)
  · intro i b hb
    rcases get_append_cases hb with hb | ⟨_, rfl⟩
    · exact hselold i b hb
    · exact hselnew
  · intro i sd last hm
    have hi := made_lt hm
    simp only [List.length_append, List.length_singleton] at hi
    by_cases hlt : i < os.length
    · obtain ⟨b, hb, hk, hr⟩ := h.rel i sd last (made_prefix hm hlt)
      refine ⟨b, by rw [List.getElem?_append_left (by rw [h.len]; exact hlt)]; exact hb, hk, fun he => ?_⟩
      obtain ⟨h1, h2⟩ := hr he
      refine ⟨h1, ?_⟩
      have hnc : ¬ Captor os s.builders i := by
        rintro ⟨_, b2, hb2, hk2⟩
        rw [hb, Option.some.injEq] at hb2
        subst hb2
        rw [← hk, hk2] at he
        simp [isEnv] at he
      have : view H' b.root = view s.heap b.root := funext (hframe i b hb hnc)
      rw [this]
      exact h2
    · have hi2 : i = os.length := by omega
      subst hi2
      obtain ⟨h1, h2⟩ := hrel sd last hm
      exact ⟨b', by rw [← h.len]; simp, h1, h2⟩

theorem TreeOk.ext {H H' : Heap} (hg : Good H) (he : Ext H H') {b : Builder} {n : Nat} (h : TreeOk H b n) : TreeOk H' b n := by
  have hf := fun p => find_ext hg he p b.root h.lt
  obtain ⟨nd, h1, h2⟩ := h.root
  exact ⟨⟨nd, he.get h1, h2⟩, fun p q x hp hq => h.inj p q x (by rw [← hf]; exact hp) (by rw [← hf]; exact hq),
    fun p x hx => h.depth p x (by rw [← hf]; exact hx)⟩

/-- The new tree is fresh and nothing else changes. -/
theorem Inv.addExt {os : List Op} {s : St} {o : Op} {H' : Heap} {b' : Builder} (h : Inv os s) (hg : Good H') (he : Ext s.heap H')
    (hnew : TreeOk H' b' (2 * os.length + 3))
    (hfrom : ∀ (p : Path) (x : Nat), find H' b'.root p = some x → s.heap.length ≤ x)
    (hselnew : SelOk H' (s.builders ++ [b']) (os ++ [o]) b')
    (hrel : ∀ (sd : Said) (last : Path), Made (os ++ [o]) os.length sd last → b'.kind = sd.kind ∧
      (isEnv sd.kind = false → b'.sel = .path sd.pos ∧ Rel (view H' b'.root) sd.content last)) :
    Inv (os ++ [o]) ⟨H', s.builders ++ [b']⟩ ∧
    ∀ (i : Nat) (b : Builder), s.builders[i]? = some b → ∀ p, view H' b.root p = view s.heap b.root p := by
  have hview : ∀ (i : Nat) (b : Builder), s.builders[i]? = some b → ∀ p, view H' b.root p = view s.heap b.root p :=
    fun i b hb p => view_ext h.good he (h.tree i b hb).lt p
  have hfind : ∀ (i : Nat) (b : Builder), s.builders[i]? = some b → ∀ p, find H' b.root p = find s.heap b.root p :=
    fun i b hb p => find_ext h.good he p b.root (h.tree i b hb).lt
  refine ⟨h.add hg (fun i b hb => ((h.tree i b hb).ext h.good he).mono (by omega)) hnew ?_ ?_ ?_ hselnew (fun i b hb _ => hview i b hb) hrel,
    hview⟩
  · intro i j bi bj hij hi hj p q x hp hq
    rw [hfind i bi hi] at hp
    rw [hfind j bj hj] at hq
    exact h.sep i j bi bj hij hi hj p q x hp hq
  · intro i b hb p q x hp hq
    rw [hfind i b hb] at hp
    have := find_lt h.good p b.root x (h.tree i b hb).lt hp
    have := hfrom q x hq
    omega
  · intro i b hb
    have := h.sel i b hb
    unfold SelOk at this ⊢
    cases hs : b.sel with
    | path p =>
      rw [hs] at this
      simp only [hview i b hb]
      exact this
    | kept r p =>
      rw [hs] at this
      obtain ⟨h1, ⟨j, bj, hj, rfl, hc⟩, hi⟩ := this
      refine ⟨h1, ⟨j, bj, ?_, rfl, captor_append hc⟩, ?_⟩
      · rw [List.getElem?_append_left (List.getElem?_eq_some_iff.1 hj).1]; exact hj
      · simp only [hview j bj hj]
        exact hi
    | lazy f k n p =>
      rw [hs] at this
      exact this

/-- The copy of the root of a builder. -/
theorem Inv.clone {os : List Op} {s : St} (h : Inv os s) {i : Nat} {b : Builder} (hb : s.builders[i]? = some b) {fuel : Nat}
    (hf : 2 * os.length < fuel) : ∃ H1 r nd, clone fuel s.heap b.root = some (H1, r) ∧ CloneOk s.heap H1 b.root r ∧
      H1[r]? = some nd ∧ nd.kind = .location ∧ Depth H1 r (2 * os.length + 1) := by
  have ht := h.tree i b hb
  obtain ⟨H1, r, h1, h2⟩ := clone_ok fuel s.heap b.root h.good ht.lt (fun p x hx => by have := ht.depth p x hx; omega)
  obtain ⟨he, hg1, hfr, hv⟩ := h2
  obtain ⟨nd0, h01, h02⟩ := ht.root
  have hget : H1[r]? = some (H1[r]'hfr.lt) := by simp [hfr.lt]
  have hk := hv []
  rw [view_nil hget, view_nil h01] at hk
  simp only [Option.map_some, Option.some.injEq] at hk
  refine ⟨H1, r, _, h1, ⟨he, hg1, hfr, hv⟩, hget, ?_, ?_⟩
  · have := congrArg Info.kind hk
    exact this.trans h02
  · intro p x hx
    obtain ⟨nd, _, hvp⟩ := view_some hg1 hfr.lt hx
    rw [hv] at hvp
    cases hvp0 : view s.heap b.root p with
    | none => rw [hvp0] at hvp; cases hvp
    | some i =>
      obtain ⟨x0, hx0⟩ := (view_isSome h.good ht.lt p).1 ⟨i, hvp0⟩
      exact ht.depth p x0 hx0

theorem next_kind (b : Builder) (r : Nat) (e : Effect) : (next b r e).kind = returns b.kind e := by cases e <;> rfl
theorem next_root (b : Builder) (r : Nat) (e : Effect) : (next b r e).root = r := by cases e <;> rfl

/-- The builders that the last call of a program makes. -/
theorem made_last {os : List Op} {i : Nat} {c : Call} {sd : Said} {last : Path} (hm : Made (os ++ [.call i c]) os.length sd last) :
    ∃ sd0 last0, Made os i sd0 last0 ∧ sd0.call c = some sd ∧ last = sd0.pos ++ parts sd0.kind c.meth := by
  generalize hn : os.length = n at hm
  cases hm with
  | new _ file h => subst hn; simp at h
  | call _ j c' s s' last' h hj hm hc =>
    subst hn
    simp at h
    obtain ⟨rfl, rfl⟩ := h
    exact ⟨s, last', made_prefix hm hj, hc, rfl⟩

theorem view_change_pos {V : View} {pos : Path} {i : Info} (hpos : V pos = some i) (k : Kind) (a : Arg) (e : Effect) :
    ∃ j, change V pos k a e pos = some j ∧ j.kind = i.kind := by
  rcases e.cases with ⟨f, rfl⟩ | ⟨f, k', flags, hgr⟩
  · simp [change, Effect.graft, hpos]
  · refine ⟨i, ?_, rfl⟩
    have : ¬ pos ++ [f] <+: pos := fun h => by
      have := h.length_le
      simp at this
      omega
    simp only [change, hgr, if_neg this, hpos]

theorem view_change_new {V : View} {pos : Path} (k : Kind) (a : Arg) {e : Effect} {f : Fld} {k' : Kind} {flags : List Fld}
    (hgr : e.graft = some (f, k', flags)) : ∃ j, change V pos k a e (pos ++ [f]) = some j ∧ j.kind = k' := by
  refine ⟨_, by simp only [change, hgr, if_pos (List.prefix_refl _)]; rfl, rfl⟩

theorem said_call {sd sd' : Said} {c : Call} (h : sd.call c = some sd') : ∃ e, effect sd.kind c = some e ∧
    sd' = ⟨say sd.content sd.pos (parts sd.kind c.meth) (argOf sd.kind c),
      if returns sd.kind e ≠ sd.kind ∨ sd.kind = .message then sd.pos ++ parts sd.kind c.meth else sd.pos, returns sd.kind e⟩ := by
  unfold Said.call at h
  cases he : effect sd.kind c with
  | none => rw [he] at h; cases h
  | some e =>
    rw [he, Option.some.injEq] at h
    exact ⟨e, rfl, h.symm⟩

/-- Nothing but the trees of captors changes. -/
def Frame (os : List Op) (s s' : St) : Prop := (∃ b, s'.builders = s.builders ++ [b]) ∧
  ∀ (i : Nat) (b : Builder), s.builders[i]? = some b → ¬ Captor os s.builders i → ∀ p, view s'.heap b.root p = view s.heap b.root p

/-- A step keeps the invariant; the result of a step. -/
def StepOk (os : List Op) (s : St) (o : Op) : Res → Prop
  | .ok s' => Inv (os ++ [o]) s' ∧ Frame os s s'
  | .panic => ∃ i c b f k n g p, o = .call i c ∧ s.builders[i]? = some b ∧ b.sel = .lazy f k n (g :: p)
  | .bad => True
  | .more => False

theorem step_new {os : List Op} {s : St} (h : Inv os s) (fuel : Nat) (file : String) : StepOk os s (.new file) (step fuel s (.new file)) := by
  simp only [step, StepOk]
  have he : Ext s.heap (s.heap ++ [⟨.location, .name file, fun _ => none, fun _ => none⟩]) := Ext.append _ _
  have hnew : (s.heap ++ [(⟨.location, .name file, fun _ => none, fun _ => none⟩ : Node)])[s.heap.length]? =
      some ⟨.location, .name file, fun _ => none, fun _ => none⟩ := by simp
  have hfind : ∀ p x, find (s.heap ++ [⟨.location, .name file, fun _ => none, fun _ => none⟩]) s.heap.length p = some x →
      p = [] ∧ x = s.heap.length := by
    intro p x hx
    cases p with
    | nil => simp only [find, Option.some.injEq] at hx; exact ⟨rfl, hx.symm⟩
    | cons f p => simp [find] at hx
  have hgood : Good (s.heap ++ [⟨.location, .name file, fun _ => none, fun _ => none⟩]) := by
    refine ⟨?_, ?_, ?_⟩
    · intro x nd hx f b hb
      rcases get_append_cases hx with hx | ⟨_, rfl⟩
      · obtain ⟨nb, h1, h2⟩ := h.good.kid x nd hx f b hb
        exact ⟨nb, he.get h1, h2⟩
      · cases hb
    · intro x nd hx
      rcases get_append_cases hx with hx | ⟨_, rfl⟩
      · exact h.good.arg x nd hx
      · rfl
    · intro x nd hx f hf
      rcases get_append_cases hx with hx | ⟨_, rfl⟩
      · exact h.good.val x nd hx f hf
      · exact absurd rfl hf
  have hview : ∀ p, view (s.heap ++ [⟨.location, .name file, fun _ => none, fun _ => none⟩]) s.heap.length p =
      if p = [] then some ⟨.location, .name file, fun _ => none⟩ else none := by
    intro p
    cases p with
    | nil => rw [view_nil hnew]; rfl
    | cons f p => rw [view_cons hnew]; rfl
  obtain ⟨h1, h2⟩ := h.addExt (o := .new file) (b' := ⟨s.heap.length, .path [], .location⟩) hgood he
    ⟨⟨_, hnew, rfl⟩, fun p q x hp hq => by rw [(hfind p x hp).1, (hfind q x hq).1],
      fun p x hp => by rw [(hfind p x hp).1]; simp⟩
    (fun p x hp => Nat.le_of_eq (hfind p x hp).2.symm)
    ⟨rfl, _, view_nil hnew, rfl⟩
    (by
      intro sd last hm
      generalize hn : os.length = n at hm
      cases hm with
      | call _ j c' s s' last' hh hj hm hc => subst hn; simp at hh
      | new _ file' hh =>
        subst hn
        simp at hh
        subst hh
        refine ⟨rfl, fun _ => ⟨rfl, fun p => ?_⟩⟩
        have hr : readV (view (s.heap ++ [⟨.location, .name file, fun _ => none, fun _ => none⟩]) s.heap.length) p =
            if p = [] then some (.name file) else none := by
          by_cases hp : p = []
          · subst hp
            simp [readV, hview]
          · obtain ⟨q, g, rfl⟩ : ∃ s g, p = s ++ [g] := ⟨p.dropLast, p.getLast hp, (List.dropLast_concat_getLast hp).symm⟩
            rw [readV_snoc, hview, if_neg hp, if_neg hp, hview]
            by_cases hq : q = [] <;> simp [hq]
        rw [hr]
        refine ⟨fun _ => rfl, fun hF => ?_⟩
        by_cases hp : p = []
        · subst hp; exact absurd hF forgotten_ne_nil
        · simp [hp])
  exact ⟨h1, ⟨_, rfl⟩, fun i b hb _ => h2 i b hb⟩

theorem step_lazy {os : List Op} {s : St} (h : Inv os s) {fuel : Nat} (hf : 2 * os.length < fuel) (i : Nat) (f : Fld) (k : Kind)
    (name : String) (hfk : (f = .message ∧ k = .message) ∨ (f = .enum ∧ k = .enum)) (o : Op) (ho : (∀ file, o ≠ .new file) ∧ ∀ j c, o ≠ .call j c) :
    StepOk os s o (makeLazy fuel s i f k name) := by
  unfold makeLazy
  cases hb : s.builders[i]? with
  | none => exact trivial
  | some b =>
    obtain ⟨H1, r, nd, hc1, ⟨he, hg1, hfr, hv⟩, hnd, hk, hd⟩ := h.clone hb hf
    simp only [hc1, StepOk]
    obtain ⟨h1, h2⟩ := h.addExt (o := o) (b' := ⟨r, .lazy f k name [], k⟩) hg1 he
      (TreeOk.mono (n := 2 * os.length + 1) ⟨⟨nd, hnd, hk⟩, hfr.inj, hd⟩ (by omega)) hfr.from_
      (show SelOk _ _ _ _ from ⟨by rcases hfk with ⟨_, rfl⟩ | ⟨_, rfl⟩ <;> rfl, hfk, fun _ => rfl⟩)
      (by
        intro sd last hm
        exfalso
        generalize hn : os.length = n at hm
        cases hm with
        | new _ file' hh => subst hn; simp at hh; exact ho.1 _ hh
        | call _ j c' s s' last' hh hj hm hc => subst hn; simp at hh; exact ho.2 _ _ hh)
    exact ⟨h1, ⟨_, rfl⟩, fun i b hb _ => h2 i b hb⟩

theorem isEnv_returns {k : Kind} {c : Call} {e : Effect} (hn : NameOk k c e) (h : isEnv (returns k e) = false) :
    isEnv k = false ∧ ∀ f k', e ≠ .capture f k' := by
  cases e with
  | set f => exact ⟨h, fun _ _ hh => by cases hh⟩
  | put f k' fl => exact ⟨h, fun _ _ hh => by cases hh⟩
  | enter f k' => exact ⟨by rw [← hn.2.2.2]; exact h, fun _ _ hh => by cases hh⟩
  | capture f k' =>
    have := hn.2.2.1
    simp [returns, this, isEnv] at h

theorem step_path {os : List Op} {s : St} (h : Inv os s) {fuel : Nat} (hf : 2 * os.length < fuel) {i : Nat} {c : Call} {b : Builder}
    (hb : s.builders[i]? = some b) {pos : Path} (hsel : b.sel = .path pos) {e : Effect} (he : effect b.kind c = some e) :
    StepOk os s (.call i c) (callMethod fuel s i c) := by
  obtain ⟨H1, r, nd, hc1, ⟨hext, hg1, hfr, hv⟩, hnd, hk, hd⟩ := h.clone hb hf
  have hs := h.sel i b hb
  unfold SelOk at hs
  rw [hsel] at hs
  obtain ⟨henv, inf, hinf, hik⟩ := hs
  have hvp : view H1 r pos = some inf.cut := by rw [hv, hinf]; rfl
  obtain ⟨x, hx⟩ := (view_isSome hg1 hfr.lt pos).1 ⟨_, hvp⟩
  obtain ⟨n, hn, hnv⟩ := view_some hg1 hfr.lt hx
  have hnk : n.kind = b.kind := by
    rw [hvp, Option.some.injEq] at hnv
    have := congrArg Info.kind hnv
    exact this.symm.trans hik
  obtain ⟨heff, hname⟩ := effect_ok he
  simp only [callMethod, hb, he, hc1, select, hsel, hx, Option.map_some, hn, StepOk]
  have hw := write_ok hg1 hn (a := c.arg) (e := e) (by rw [hnk]; exact heff)
  obtain ⟨t1, t2, t3, t4, t5⟩ := write_tree hg1 hn (a := c.arg) (e := e) hfr.lt hfr.inj hx
  have hxl : s.heap.length ≤ x := hfr.from_ pos x hx
  have hext2 : Ext s.heap (write H1 x n c.arg e) := ⟨Nat.le_trans hext.1 hw.len, fun z hz => by
    rw [hw.same z (Nat.lt_of_lt_of_le hz hext.1) (by omega), hext.2 z hz]⟩
  obtain ⟨n2, hn2, hn2k⟩ := hw.kind r nd hnd
  have htree : TreeOk (write H1 x n c.arg e) (next b r e) (2 * os.length + 3) := by
    refine ⟨⟨n2, by rw [next_root]; exact hn2, hn2k.trans hk⟩, by rw [next_root]; exact t2, ?_⟩
    intro p z hp
    rw [next_root] at hp
    rcases t4 p z hp with ⟨z', hz'⟩ | hl
    · have := hd p z' hz'; omega
    · have := hd pos x hx; omega
  obtain ⟨h1, h2⟩ := h.addExt (o := .call i c) (b' := next b r e) hw.good hext2 htree
    (by
      intro p z hp
      rw [next_root] at hp
      rcases t3 p z hp with hp | rfl
      · exact hfr.from_ p z hp
      · exact hext.1)
    (by
      obtain ⟨j1, hj1, hj1k⟩ := view_change_pos (V := view H1 r) hvp n.kind c.arg e
      have hold : isEnv b.kind = false ∧ ∃ i, view (write H1 x n c.arg e) r pos = some i ∧ i.kind = b.kind :=
        ⟨henv, j1, by rw [t1]; exact hj1, by rw [hj1k]; exact hik⟩
      unfold SelOk
      cases e with
      | set f => simp only [next, hsel] at hold ⊢; exact hold
      | put f k' fl => simp only [next, hsel] at hold ⊢; exact hold
      | enter f k' =>
        simp only [next, hsel, Sel.extend]
        obtain ⟨j2, hj2, hj2k⟩ := view_change_new (V := view H1 r) (pos := pos) n.kind c.arg (e := .enter f k') rfl
        exact ⟨by rw [hname.2.2.2]; exact henv, j2, by rw [t1]; exact hj2, hj2k⟩
      | capture f k' =>
        simp only [next, hsel, Sel.capture]
        obtain ⟨hn1, hn2', rfl, hn4, hn5⟩ := hname
        obtain ⟨j2, hj2, hj2k⟩ := view_change_new (V := view H1 r) (pos := pos) n.kind c.arg (e := .capture f .envVar) rfl
        have hlast : (s.builders ++ [(⟨r, .kept r (pos ++ [f]), .envVar⟩ : Builder)])[os.length]? =
            some ⟨r, .kept r (pos ++ [f]), .envVar⟩ := by rw [← h.len]; simp
        exact ⟨rfl, ⟨os.length, ⟨r, .kept r (pos ++ [f]), .envVar⟩, hlast, rfl,
          ⟨⟨i, c, (by simp), hn5⟩, ⟨r, .kept r (pos ++ [f]), .envVar⟩, hlast, rfl⟩⟩, j2, (by rw [t1]; exact hj2), hj2k⟩)
    (by
      intro sd last hm
      obtain ⟨sd0, last0, hm0, hsc, rfl⟩ := made_last hm
      obtain ⟨b0, hb0, hk0, hr0⟩ := h.rel i sd0 last0 hm0
      rw [hb, Option.some.injEq] at hb0
      subst hb0
      obtain ⟨e', he', rfl⟩ := said_call hsc
      rw [← hk0, he, Option.some.injEq] at he'
      subst he'
      refine ⟨by rw [next_kind, hk0], fun hne => ?_⟩
      rw [← hk0] at hne
      simp only at hne
      obtain ⟨hke, hnc⟩ := isEnv_returns hname hne
      obtain ⟨hp0, hrel0⟩ := hr0 (by rw [← hk0]; exact hke)
      rw [hsel, Sel.path.injEq] at hp0
      subst hp0
      have ht := h.tree i b hb
      obtain ⟨nd0, hnd0, hnk0⟩ := ht.root
      have hvg := view_good h.good hnd0 hnk0
      have hkk : inf.cut.kind = sd0.kind := hik.trans hk0
      have hR := hrel0.step hvg hv hvp (c := c) (e := e) (by rw [hkk, ← hk0]; exact heff) (by rw [hkk, ← hk0]; exact hname)
      rw [hkk] at hR
      refine ⟨?_, ?_⟩
      · rw [← hk0]
        cases e with
        | set f => simp [next, hsel, returns, hname.2.2]
        | put f k' fl => simp [next, hsel, returns, hname.1]
        | enter f k' =>
          have := hname.2.2.1
          simp only [next, hsel, returns, Sel.extend, if_pos this, hname.1]
        | capture f k' => exact absurd rfl (hnc f k')
      · have : view (write H1 x n c.arg e) (next b r e).root = change (view H1 r) sd0.pos sd0.kind c.arg e := by
          rw [next_root]
          funext p
          rw [t1, hnk, hk0]
        rw [this]
        exact hR)
  exact ⟨h1, ⟨_, rfl⟩, fun i b hb _ => h2 i b hb⟩

theorem kidKind_env {k k' : Kind} {f : Fld} (h : isEnv k = true) (hk : kidKind k f = some k') : k' = .envVarOption := by
  cases k <;> first | (exfalso; revert h; decide) | (cases f <;> first | (exfalso; revert hk; simp [kidKind]; done) | (simp [kidKind] at hk; exact hk.symm))

theorem kidKind_option (g : Fld) : kidKind .envVarOption g = none := by cases g <;> rfl

/-- A write at the builder of an entry of an environment keeps the structures of the tree. -/
theorem change_keeps {V : View} (hvg : VGood V) {pos : Path} {k : Kind} {a : Arg} {e : Effect} (heff : EffOk k a e) (henv : isEnv k = true)
    {inf : Info} (hvp : V pos = some inf) (hik : inf.kind = k) {q : Path} {iq : Info} {kq : Kind} (hq1 : V q = some iq) (hqk : iq.kind = kq) :
    ∃ i, change V pos k a e q = some i ∧ i.kind = kq := by
  rcases e.cases with ⟨f, rfl⟩ | ⟨f, k', flags, hgr⟩
  · simp only [change, Effect.graft]
    by_cases hqp : q = pos
    · rw [if_pos hqp, hq1]
      exact ⟨_, rfl, hqk⟩
    · rw [if_neg hqp]
      exact ⟨iq, hq1, hqk⟩
  · simp only [change, hgr]
    by_cases hpre : pos ++ [f] <+: q
    · obtain ⟨hkk, _, _⟩ := heff.graft hgr
      have hk' : k' = .envVarOption := kidKind_env henv hkk
      by_cases hqe : q = pos ++ [f]
      · rw [if_pos hpre, if_pos hqe]
        refine ⟨_, rfl, ?_⟩
        subst hqe
        obtain ⟨j0, hj0, hj0k⟩ := hvg.up pos f iq hq1
        rw [hvp, Option.some.injEq] at hj0
        subst hj0
        rw [hik, hkk, Option.some.injEq] at hj0k
        simp only [leaf, Node.info]
        rw [hj0k]; exact hqk
      · exfalso
        obtain ⟨rr, rfl⟩ := hpre
        cases rr with
        | nil => simp at hqe
        | cons g rr =>
          have hsome : ∃ i1, V (pos ++ [f] ++ [g]) = some i1 := by
            cases hh : V (pos ++ [f] ++ [g]) with
            | some i1 => exact ⟨i1, rfl⟩
            | none =>
              have := hvg.none_below hh rr
              rw [List.append_assoc, List.cons_append, List.nil_append] at this
              rw [this] at hq1
              cases hq1
          obtain ⟨i1, hi1⟩ := hsome
          obtain ⟨i2, hi2, hi2k⟩ := hvg.up _ g i1 hi1
          obtain ⟨i3, hi3, hi3k⟩ := hvg.up pos f i2 hi2
          rw [hvp, Option.some.injEq] at hi3
          subst hi3
          rw [hik, hkk, Option.some.injEq] at hi3k
          rw [← hi3k, hk', kidKind_option] at hi2k
          cases hi2k
    · rw [if_neg hpre]
      exact ⟨iq, hq1, hqk⟩

theorem step_kept {os : List Op} {s : St} (h : Inv os s) {fuel : Nat} (hf : 2 * os.length < fuel) {i : Nat} {c : Call} {b : Builder}
    (hb : s.builders[i]? = some b) {r0 : Nat} {pos : Path} (hsel : b.sel = .kept r0 pos) {e : Effect} (he : effect b.kind c = some e) :
    StepOk os s (.call i c) (callMethod fuel s i c) := by
  obtain ⟨H1, r, nd, hc1, ⟨hext, hg1, hfr, hv⟩, hnd, hk, hd⟩ := h.clone hb hf
  have hs := h.sel i b hb
  unfold SelOk at hs
  rw [hsel] at hs
  obtain ⟨henv, ⟨j, bj, hj, rfl, hcap⟩, inf, hinf, hik⟩ := hs
  have htj := h.tree j bj hj
  have htj1 := htj.ext h.good hext
  have hvp : view H1 bj.root pos = some inf := by rw [view_ext h.good hext htj.lt]; exact hinf
  obtain ⟨x, hx⟩ := (view_isSome hg1 htj1.lt pos).1 ⟨_, hvp⟩
  obtain ⟨n, hn, hnv⟩ := view_some hg1 htj1.lt hx
  have hnk : n.kind = b.kind := by
    rw [hvp, Option.some.injEq] at hnv
    have := congrArg Info.kind hnv
    exact this.symm.trans hik
  obtain ⟨heff, hname⟩ := effect_ok he
  simp only [callMethod, hb, he, hc1, select, hsel, hx, Option.map_some, hn, StepOk]
  have hw := write_ok hg1 hn (a := c.arg) (e := e) (by rw [hnk]; exact heff)
  have hx0 : find s.heap bj.root pos = some x := by rw [← find_ext h.good hext pos bj.root htj.lt]; exact hx
  have hxl : x < s.heap.length := find_lt h.good pos bj.root x htj.lt hx0
  obtain ⟨t1, t2, t3, t4, t5⟩ := write_tree hg1 hn (a := c.arg) (e := e) htj1.lt htj1.inj hx
  -- the new tree
  have hnewo := write_other hg1 hn (a := c.arg) (e := e) hfr.lt (fun p hp => by have := hfr.from_ p x hp; omega)
  obtain ⟨n2, hn2, hn2k⟩ := hw.kind r nd hnd
  have hnew : TreeOk (write H1 x n c.arg e) (next b r e) (2 * os.length + 3) := by
    refine ⟨⟨n2, by rw [next_root]; exact hn2, hn2k.trans hk⟩, ?_, ?_⟩
    · rw [next_root]
      intro p q z hp hq
      rw [(hnewo _).1] at hp hq
      exact hfr.inj p q z hp hq
    · intro p z hp
      rw [next_root, (hnewo _).1] at hp
      have := hd p z hp
      omega
  -- the other trees
  have holdo : ∀ (l : Nat) (bl : Builder), l ≠ j → s.builders[l]? = some bl → ∀ p,
      find (write H1 x n c.arg e) bl.root p = find H1 bl.root p ∧ view (write H1 x n c.arg e) bl.root p = view H1 bl.root p := by
    intro l bl hl hbl p
    have htl := h.tree l bl hbl
    refine write_other hg1 hn (htl.ext h.good hext).lt (fun q hq => ?_) p
    rw [find_ext h.good hext q bl.root htl.lt] at hq
    exact h.sep l j bl bj hl hbl hj q pos x hq hx0
  have hfind1 : ∀ (l : Nat) (bl : Builder), s.builders[l]? = some bl → ∀ p, find H1 bl.root p = find s.heap bl.root p :=
    fun l bl hbl p => find_ext h.good hext p bl.root (h.tree l bl hbl).lt
  have hview1 : ∀ (l : Nat) (bl : Builder), s.builders[l]? = some bl → ∀ p, view H1 bl.root p = view s.heap bl.root p :=
    fun l bl hbl p => view_ext h.good hext (h.tree l bl hbl).lt p
  have hframe : ∀ (l : Nat) (bl : Builder), s.builders[l]? = some bl → ¬ Captor os s.builders l →
      ∀ p, view (write H1 x n c.arg e) bl.root p = view s.heap bl.root p := by
    intro l bl hbl hnc p
    have hlj : l ≠ j := by rintro rfl; exact hnc hcap
    rw [(holdo l bl hlj hbl p).2, hview1 l bl hbl]
  -- places in trees of the old builders
  have hplace : ∀ (l : Nat) (bl : Builder), s.builders[l]? = some bl → ∀ p z, find (write H1 x n c.arg e) bl.root p = some z →
      find s.heap bl.root p = some z ∨ (l = j ∧ z = H1.length) := by
    intro l bl hbl p z hz
    by_cases hlj : l = j
    · subst hlj
      rw [hj, Option.some.injEq] at hbl
      subst hbl
      rcases t3 p z hz with hz | hz
      · exact .inl (by rw [← hfind1 l bj hj]; exact hz)
      · exact .inr ⟨rfl, hz⟩
    · rw [(holdo l bl hlj hbl p).1, hfind1 l bl hbl] at hz
      exact .inl hz
  -- the structure of a builder of the captor stays there
  have hkeep : ∀ (q : Path) (k : Kind), (∃ i, view s.heap bj.root q = some i ∧ i.kind = k) →
      ∃ i, view (write H1 x n c.arg e) bj.root q = some i ∧ i.kind = k := by
    rintro q k ⟨iq, hq, hqk⟩
    rw [t1, hnk]
    obtain ⟨nd0, hnd0, hnk0⟩ := htj1.root
    exact change_keeps (view_good hg1 hnd0 hnk0) heff henv hvp hik (by rw [hview1 j bj hj]; exact hq) hqk
  refine ⟨h.add hw.good ?_ hnew ?_ ?_ ?_ ?_ hframe ?_, ⟨_, rfl⟩, hframe⟩
  · intro l bl hbl
    by_cases hlj : l = j
    · subst hlj
      rw [hj, Option.some.injEq] at hbl
      subst hbl
      obtain ⟨nj, hnj, hnjk⟩ := htj1.root
      obtain ⟨n3, hn3, hn3k⟩ := hw.kind _ nj hnj
      refine ⟨⟨n3, hn3, hn3k.trans hnjk⟩, t2, ?_⟩
      intro p z hp
      rcases t4 p z hp with ⟨z', hz'⟩ | hl
      · have := htj1.depth p z' hz'; omega
      · have := htj1.depth pos x hx; omega
    · have htl := (h.tree l bl hbl).ext h.good hext
      obtain ⟨nj, hnj, hnjk⟩ := htl.root
      obtain ⟨n3, hn3, hn3k⟩ := hw.kind _ nj hnj
      have hfo := fun p => (holdo l bl hlj hbl p).1
      refine ⟨⟨n3, hn3, hn3k.trans hnjk⟩, fun p q z hp hq => htl.inj p q z (by rw [← hfo]; exact hp) (by rw [← hfo]; exact hq), ?_⟩
      intro p z hp
      rw [hfo] at hp
      have := htl.depth p z hp
      omega
  · intro l m bl bm hlm hbl hbm p q z hp hq
    rcases hplace l bl hbl p z hp with hp | ⟨rfl, rfl⟩
    · rcases hplace m bm hbm q z hq with hq | ⟨rfl, rfl⟩
      · exact h.sep l m bl bm hlm hbl hbm p q z hp hq
      · have := find_lt h.good p bl.root _ (h.tree l bl hbl).lt hp
        have := hext.1
        omega
    · rcases hplace m bm hbm q _ hq with hq | ⟨rfl, _⟩
      · have := find_lt h.good q bm.root _ (h.tree m bm hbm).lt hq
        have := hext.1
        omega
      · exact hlm rfl
  · intro l bl hbl p q z hp hq
    rw [next_root, (hnewo _).1] at hq
    have hlow := hfr.from_ q z hq
    have hhigh := find_lt hg1 q r z hfr.lt hq
    rcases hplace l bl hbl p z hp with hp | ⟨_, rfl⟩
    · have := find_lt h.good p bl.root _ (h.tree l bl hbl).lt hp
      omega
    · omega
  · intro l bl hbl
    have hsl := h.sel l bl hbl
    unfold SelOk at hsl ⊢
    cases hs : bl.sel with
    | path p =>
      rw [hs] at hsl
      have hnc : ¬ Captor os s.builders l := by
        rintro ⟨_, b2, hb2, hk2⟩
        rw [hbl, Option.some.injEq] at hb2
        subst hb2
        rw [hk2] at hsl
        simp [isEnv] at hsl
      simp only [hframe l bl hbl hnc]
      exact hsl
    | kept r2 p =>
      rw [hs] at hsl
      obtain ⟨h1, ⟨m, bm, hm, rfl, hc⟩, hi⟩ := hsl
      refine ⟨h1, ⟨m, bm, ?_, rfl, captor_append hc⟩, ?_⟩
      · rw [List.getElem?_append_left (List.getElem?_eq_some_iff.1 hm).1]; exact hm
      · by_cases hmj : m = j
        · subst hmj
          rw [hj, Option.some.injEq] at hm
          subst hm
          exact hkeep p bl.kind hi
        · simp only [(holdo m bm hmj hm p).2, hview1 m bm hm]
          exact hi
    | lazy f k nn p =>
      rw [hs] at hsl
      exact hsl
  · have hbs : (s.builders ++ [next b r e])[j]? = some bj := by
      rw [List.getElem?_append_left (List.getElem?_eq_some_iff.1 hj).1]; exact hj
    have hold : isEnv b.kind = true ∧ (∃ m bm, (s.builders ++ [next b r e])[m]? = some bm ∧ bm.root = bj.root ∧
        Captor (os ++ [.call i c]) (s.builders ++ [next b r e]) m) ∧
        ∃ i, view (write H1 x n c.arg e) bj.root pos = some i ∧ i.kind = b.kind :=
      ⟨henv, ⟨j, bj, hbs, rfl, captor_append hcap⟩, hkeep pos b.kind ⟨inf, hinf, hik⟩⟩
    unfold SelOk
    cases e with
    | set f => simp only [next, hsel] at hold ⊢; exact hold
    | put f k' fl => simp only [next, hsel] at hold ⊢; exact hold
    | enter f k' =>
      simp only [next, hsel, Sel.extend]
      obtain ⟨j2, hj2, hj2k⟩ := view_change_new (V := view H1 bj.root) (pos := pos) n.kind c.arg (e := .enter f k') rfl
      refine ⟨by rw [hname.2.2.2]; exact henv, ⟨j, bj, ?_, rfl, captor_append hcap⟩, j2, by rw [t1]; exact hj2, hj2k⟩
      rw [List.getElem?_append_left (List.getElem?_eq_some_iff.1 hj).1]; exact hj
    | capture f k' =>
      have := hname.2.2.2.1
      rw [this] at henv
      cases henv
  · intro sd last hm
    obtain ⟨sd0, last0, hm0, hsc, rfl⟩ := made_last hm
    obtain ⟨b0, hb0, hk0, hr0⟩ := h.rel i sd0 last0 hm0
    rw [hb, Option.some.injEq] at hb0
    subst hb0
    obtain ⟨e', he', rfl⟩ := said_call hsc
    rw [← hk0, he, Option.some.injEq] at he'
    subst he'
    refine ⟨by rw [next_kind, hk0], fun hne => ?_⟩
    rw [← hk0] at hne
    simp only at hne
    obtain ⟨hke, _⟩ := isEnv_returns hname hne
    rw [hke] at henv
    cases henv

theorem step_lazyCall {os : List Op} {s : St} (h : Inv os s) {fuel : Nat} (hf : 2 * os.length < fuel) {i : Nat} {c : Call} {b : Builder}
    (hb : s.builders[i]? = some b) {f : Fld} {k : Kind} {name : String} {p : Path} (hsel : b.sel = .lazy f k name p) {e : Effect}
    (he : effect b.kind c = some e) : StepOk os s (.call i c) (callMethod fuel s i c) := by
  obtain ⟨H1, r, nd, hc1, ⟨hext, hg1, hfr, hv⟩, hnd, hk, hd⟩ := h.clone hb hf
  have hs := h.sel i b hb
  unfold SelOk at hs
  rw [hsel] at hs
  obtain ⟨henv, hfk, hbk⟩ := hs
  cases p with
  | cons g p =>
    simp only [callMethod, hb, he, hc1, select, hsel, StepOk]
    exact ⟨i, c, b, f, k, name, g, p, rfl, hb, hsel⟩
  | nil =>
    have hbk := hbk rfl
    obtain ⟨heff, hname⟩ := effect_ok he
    have heff0 : EffOk nd.kind (.name name) (.enter f k) := by
      rw [hk]
      rcases hfk with ⟨rfl, rfl⟩ | ⟨rfl, rfl⟩ <;> simp [EffOk, kidKind, given, keepArg, copied]
    have hsel1 : select H1 r (.lazy f k name []) = some (write H1 r nd (.name name) (.enter f k), H1.length) := by
      have hgv : given nd.kind (.name name) = .name name := by rw [hk]; simp [given]
      simp only [select, hnd, write, leaf, hgv, List.not_mem_nil, if_false]
    have hw0 := write_ok hg1 hnd heff0
    obtain ⟨u1, u2, u3, u4, u5⟩ := write_tree hg1 hnd (a := .name name) (e := .enter f k) hfr.lt hfr.inj (pos := []) rfl
    have hxg : (write H1 r nd (.name name) (.enter f k))[H1.length]? = some (leaf k (given nd.kind (.name name)) []) := by
      rw [write_graft H1 r nd (.name name) (e := .enter f k) rfl, get_graft H1 hfr.lt, if_pos rfl]
    have hx : find (write H1 r nd (.name name) (.enter f k)) r [f] = some H1.length := by
      rw [write_graft H1 r nd (.name name) (e := .enter f k) rfl, graft_find hg1 hnd rfl f hfr.lt hfr.inj (pos := []) rfl]
      simp
    have hrl : r < (write H1 r nd (.name name) (.enter f k)).length := Nat.lt_of_lt_of_le hfr.lt hw0.len
    have heff1 : EffOk (leaf k (given nd.kind (.name name)) []).kind c.arg e := by
      show EffOk k c.arg e
      rw [← hbk]; exact heff
    simp only [callMethod, hb, he, hc1, hsel, hsel1, hxg, StepOk]
    have hw := write_ok hw0.good hxg heff1
    obtain ⟨t1, t2, t3, t4, t5⟩ := write_tree hw0.good hxg (a := c.arg) (e := e) hrl u2 hx
    have hrlow : s.heap.length ≤ r := hfr.from_ [] r rfl
    have hext2 : Ext s.heap (write (write H1 r nd (.name name) (.enter f k)) H1.length (leaf k (given nd.kind (.name name)) []) c.arg e) := by
      refine ⟨Nat.le_trans hext.1 (Nat.le_trans hw0.len hw.len), fun z hz => ?_⟩
      have hz1 : z < H1.length := Nat.lt_of_lt_of_le hz hext.1
      rw [hw.same z (Nat.lt_of_lt_of_le hz1 hw0.len) (by omega), hw0.same z hz1 (by omega), hext.2 z hz]
    obtain ⟨n1, hn1, hn1k⟩ := hw0.kind r nd hnd
    obtain ⟨n2, hn2, hn2k⟩ := hw.kind r n1 hn1
    have htree : TreeOk (write (write H1 r nd (.name name) (.enter f k)) H1.length (leaf k (given nd.kind (.name name)) []) c.arg e)
        (next b r e) (2 * os.length + 3) := by
      refine ⟨⟨n2, by rw [next_root]; exact hn2, hn2k.trans (hn1k.trans hk)⟩, by rw [next_root]; exact t2, ?_⟩
      intro p z hp
      rw [next_root] at hp
      have hlen : 0 < os.length := by
        have := (List.getElem?_eq_some_iff.1 hb).1
        rw [h.len] at this
        omega
      rcases t4 p z hp with ⟨z', hz'⟩ | hl
      · rcases u4 p z' hz' with ⟨z2, hz2⟩ | hl
        · have := hd p z2 hz2; omega
        · simp at hl; omega
      · simp at hl; omega
    obtain ⟨h1, h2⟩ := h.addExt (o := .call i c) (b' := next b r e) hw.good hext2 htree
      (by
        intro p z hp
        rw [next_root] at hp
        rcases t3 p z hp with hp | rfl
        · rcases u3 p z hp with hp | rfl
          · exact hfr.from_ p z hp
          · exact hext.1
        · exact Nat.le_trans hext.1 hw0.len)
      (by
        unfold SelOk
        cases e with
        | set f' => simp only [next, hsel]; exact ⟨henv, hfk, fun _ => hbk⟩
        | put f' k' fl => simp only [next, hsel]; exact ⟨henv, hfk, fun _ => hbk⟩
        | enter f' k' =>
          simp only [next, hsel, Sel.extend]
          exact ⟨by rw [hname.2.2.2]; exact henv, hfk, fun hh => by simp at hh⟩
        | capture f' k' =>
          exfalso
          have h4 := hname.2.2.2.1
          rw [hbk] at h4
          rcases hfk with ⟨_, rfl⟩ | ⟨_, rfl⟩ <;> cases h4)
      (by
        intro sd last hm
        obtain ⟨sd0, last0, hm0, hsc, rfl⟩ := made_last hm
        obtain ⟨b0, hb0, hk0, hr0⟩ := h.rel i sd0 last0 hm0
        rw [hb, Option.some.injEq] at hb0
        subst hb0
        have := (hr0 (by rw [← hk0]; exact henv)).1
        rw [hsel] at this
        cases this)
    exact ⟨h1, ⟨_, rfl⟩, fun i b hb _ => h2 i b hb⟩

theorem step_ok {os : List Op} {s : St} (h : Inv os s) {fuel : Nat} (hf : 2 * os.length < fuel) (o : Op) :
    StepOk os s o (step fuel s o) := by
  cases o with
  | new file => exact step_new h fuel file
  | lazyMessage i name => exact step_lazy h hf i _ _ name (.inl ⟨rfl, rfl⟩) _ ⟨fun _ hh => (by cases hh), fun _ _ hh => (by cases hh)⟩
  | lazyEnum i name => exact step_lazy h hf i _ _ name (.inr ⟨rfl, rfl⟩) _ ⟨fun _ hh => (by cases hh), fun _ _ hh => (by cases hh)⟩
  | call i c =>
    show StepOk os s _ (callMethod fuel s i c)
    cases hb : s.builders[i]? with
    | none => simp only [callMethod, hb]; exact trivial
    | some b =>
      cases he : effect b.kind c with
      | none => simp only [callMethod, hb, he]; exact trivial
      | some e =>
        cases hs : b.sel with
        | path p => exact step_path h hf hb hs he
        | kept r p => exact step_kept h hf hb hs he
        | lazy f k n p => exact step_lazyCall h hf hb hs he

theorem inv_init : Inv [] ⟨[], []⟩ := by
  refine ⟨⟨?_, ?_, ?_⟩, rfl, ?_, ?_, ?_, ?_⟩
  · intro x nd h; simp at h
  · intro x nd h; simp at h
  · intro x nd h; simp at h
  · intro i b h; simp at h
  · intro i j bi bj _ h; simp at h
  · intro i b h; simp at h
  · intro i sd last hm
    have := made_lt hm
    simp at this

end Verif.LocBuild
