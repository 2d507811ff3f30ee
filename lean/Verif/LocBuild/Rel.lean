import Verif.LocBuild.Write

/-! # What a location says, and what it should say -/

namespace Verif.LocBuild

abbrev View := Path → Option Info

/-- What a reader finds. -/
def readV (V : View) (p : Path) : Option Arg :=
  match V p with
  | some i => some i.arg
  | none => if h : p = [] then none else (V p.dropLast).bind fun i => i.val (p.getLast h)

theorem readV_snoc (V : View) (q : Path) (f : Fld) : readV V (q ++ [f]) =
    match V (q ++ [f]) with
    | some i => some i.arg
    | none => (V q).bind fun i => i.val f := by
  simp [readV]

theorem read_eq {H : Heap} (hg : Good H) : ∀ (p : Path) (a : Nat), a < H.length → read H a p = readV (view H a) p
  | [], a, ha => by
    have hget : H[a]? = some H[a] := by simp [ha]
    simp only [read, readV, view_nil hget, hget, Option.map_some]
    rfl
  | f :: p, a, ha => by
    have hget : H[a]? = some H[a] := by simp [ha]
    obtain ⟨nd, hnd⟩ : ∃ nd, H[a]? = some nd := ⟨_, hget⟩
    have hv : ∀ q, view H a (f :: q) = (nd.kid f).bind fun b => view H b q := view_cons hnd f
    simp only [read, hnd]
    cases hk : nd.kid f with
    | none =>
      simp only [readV, hv, hk, Option.bind_none]
      cases p with
      | nil => simp [view_nil hnd, Node.info]
      | cons g p => simp [hv, hk]
    | some b =>
      obtain ⟨nb, hb, _⟩ := hg.kid a nd hnd f b hk
      simp only
      rw [read_eq hg p b (lt_of_get hb)]
      simp only [readV, hv, hk, Option.bind_some]
      cases p with
      | nil => simp [view_nil hb]
      | cons g p => simp [hv, hk]

/-- The views of trees in a well-typed heap. -/
structure VGood (V : View) : Prop where
  root : ∃ i, V [] = some i ∧ i.kind = .location
  up : ∀ q f i, V (q ++ [f]) = some i → ∃ j, V q = some j ∧ kidKind j.kind f = some i.kind
  arg : ∀ q i, V q = some i → keepArg i.kind i.arg = i.arg
  val : ∀ q i, V q = some i → ∀ f, i.val f ≠ none → f ∈ copied i.kind ∨ lossy i.kind f = true

theorem view_good {H : Heap} (hg : Good H) {a : Nat} {nd : Node} (ha : H[a]? = some nd) (hk : nd.kind = .location) : VGood (view H a) := by
  have hal := lt_of_get ha
  have hcase : ∀ q i, view H a q = some i → ∃ x n, find H a q = some x ∧ H[x]? = some n ∧ n.info = i := by
    intro q i h
    unfold view at h
    cases hf : find H a q with
    | none => rw [hf] at h; cases h
    | some x =>
      rw [hf] at h
      simp only [Option.bind_some] at h
      cases hn : H[x]? with
      | none => rw [hn] at h; cases h
      | some n =>
        rw [hn, Option.map_some, Option.some.injEq] at h
        exact ⟨x, n, rfl, hn, h⟩
  refine ⟨⟨_, view_nil ha, hk⟩, ?_, ?_, ?_⟩
  · intro q f i h
    obtain ⟨x, n, h1, h2, h3⟩ := hcase _ _ h
    rw [find_append] at h1
    cases hq : find H a q with
    | none => rw [hq] at h1; cases h1
    | some y =>
      rw [hq] at h1
      simp only [Option.bind_some, find] at h1
      cases hy : H[y]? with
      | none => rw [hy] at h1; cases h1
      | some ny =>
        rw [hy] at h1
        simp only at h1
        cases hf : ny.kid f with
        | none => rw [hf] at h1; cases h1
        | some z =>
          rw [hf] at h1
          simp only [Option.some.injEq] at h1
          subst h1
          obtain ⟨nb, hb1, hb2⟩ := hg.kid y ny hy f z hf
          rw [h2, Option.some.injEq] at hb1
          subst hb1
          subst h3
          refine ⟨ny.info, ?_, hb2⟩
          unfold view
          simp [hq, hy]
  · intro q i h
    obtain ⟨x, n, h1, h2, rfl⟩ := hcase _ _ h
    exact hg.arg x n h2
  · intro q i h f
    obtain ⟨x, n, h1, h2, rfl⟩ := hcase _ _ h
    exact hg.val x n h2 f

theorem VGood.none_below {V : View} (hv : VGood V) {p : Path} (h : V p = none) : ∀ (r : Path), V (p ++ r) = none := by
  intro r
  induction hr : r.length generalizing r with
  | zero =>
    have : r = [] := List.length_eq_zero_iff.1 hr
    subst this
    simpa using h
  | succ n ih =>
    have hne : r ≠ [] := by rintro rfl; simp at hr
    obtain ⟨s, g, rfl⟩ : ∃ s g, r = s ++ [g] := ⟨r.dropLast, r.getLast hne, (List.dropLast_concat_getLast hne).symm⟩
    cases hx : V (p ++ (s ++ [g])) with
    | none => rfl
    | some i =>
      rw [← List.append_assoc] at hx
      obtain ⟨j, hj, _⟩ := hv.up _ _ _ hx
      rw [ih s (by simpa using hr)] at hj
      cases hj

theorem forgotten_iff {V : View} (hv : VGood V) {q : Path} {i : Info} (hq : V q = some i) (f : Fld) :
    lossy i.kind f = true ↔ Forgotten (q ++ [f]) := by
  have hsuf : ∀ (g h : Fld), [g, h] <:+ q ++ [f] ↔ h = f ∧ ∃ q', q = q' ++ [g] := by
    intro g h
    constructor
    · rintro ⟨t, ht⟩
      have h2 : (t ++ [g]) ++ [h] = q ++ [f] := by rw [← ht]; simp
      have := List.append_inj' h2 rfl
      exact ⟨by simpa using this.2, t, this.1.symm⟩
    · rintro ⟨rfl, q', rfl⟩
      exact ⟨q', by simp⟩
  have himp : q ++ [f] = [.importName] ↔ q = [] ∧ f = .importName := by
    cases q with
    | nil => simp
    | cons a q => cases q <;> simp
  rw [lossy_cases]
  unfold Forgotten
  rw [hsuf, hsuf, hsuf, hsuf, himp]
  have hlast : ∀ g q', q = q' ++ [g] → (i.kind = .request ↔ g = .request) ∧ (i.kind = .retry ↔ g = .retry) ∧
      (i.kind = .grpcError ↔ g = .error) ∧ (i.kind = .detail ↔ g = .detail) ∧ i.kind ≠ .location := by
    rintro g q' rfl
    obtain ⟨j, _, hj⟩ := hv.up q' g i hq
    exact kidKind_request hj
  by_cases hnil : q = []
  · subst hnil
    obtain ⟨i0, h0, hk0⟩ := hv.root
    rw [hq, Option.some.injEq] at h0
    subst h0
    simp [hk0]
  · obtain ⟨q', g, rfl⟩ : ∃ s g, q = s ++ [g] := ⟨q.dropLast, q.getLast hnil, (List.dropLast_concat_getLast hnil).symm⟩
    obtain ⟨h1, h2, h3, h4, h5⟩ := hlast g q' rfl
    have hex : ∀ g', (∃ q'', q' ++ [g] = q'' ++ [g']) ↔ g = g' := by
      intro g'
      constructor
      · rintro ⟨q'', hh⟩
        simpa using (List.append_inj' hh rfl).2
      · rintro rfl
        exact ⟨q', rfl⟩
    rw [hex, hex, hex, hex, h1, h2, h3, h4]
    simp only [h5, false_and, false_or, hnil]
    constructor
    · rintro (⟨a, b⟩ | ⟨a, b⟩ | ⟨a, b⟩ | ⟨a, b⟩)
      · exact .inl ⟨b.symm, a⟩
      · exact .inr (.inl ⟨b.symm, a⟩)
      · exact .inr (.inr (.inl ⟨b.symm, a⟩))
      · exact .inr (.inr (.inr ⟨b.symm, a⟩))
    · rintro (⟨a, b⟩ | ⟨a, b⟩ | ⟨a, b⟩ | ⟨a, b⟩)
      · exact .inl ⟨b, a.symm⟩
      · exact .inr (.inl ⟨b, a.symm⟩)
      · exact .inr (.inr (.inl ⟨b, a.symm⟩))
      · exact .inr (.inr (.inr ⟨b, a.symm⟩))

theorem forgotten_ne_nil : ¬ Forgotten [] := by
  simp [Forgotten]

/-- After `Clone`. -/
theorem read_cut {V V1 : View} (hv : VGood V) (hc : ∀ p, V1 p = (V p).map Info.cut) (p : Path) :
    (¬ Forgotten p → readV V1 p = readV V p) ∧ (Forgotten p → readV V1 p = none) := by
  by_cases hnil : p = []
  · subst hnil
    refine ⟨fun _ => ?_, fun h => absurd h forgotten_ne_nil⟩
    obtain ⟨i, hi, _⟩ := hv.root
    simp only [readV, hc, hi, Option.map_some, Info.cut, hv.arg [] i hi]
  · obtain ⟨q, f, rfl⟩ : ∃ s g, p = s ++ [g] := ⟨p.dropLast, p.getLast hnil, (List.dropLast_concat_getLast hnil).symm⟩
    rw [readV_snoc, readV_snoc, hc, hc]
    cases hp : V (q ++ [f]) with
    | some i =>
      simp only [Option.map_some, Info.cut, hv.arg _ i hp]
      refine ⟨fun _ => trivial, fun hF => ?_⟩
      obtain ⟨j, hj, hk⟩ := hv.up q f i hp
      rw [← forgotten_iff hv hj] at hF
      rw [(lossy_flag hF).1] at hk
      cases hk
    | none =>
      simp only [Option.map_none]
      cases hq : V q with
      | none => simp
      | some i =>
        simp only [Option.map_some, Option.bind_some, Info.cut]
        rw [← forgotten_iff hv hq]
        constructor
        · intro hF
          by_cases hm : f ∈ copied i.kind
          · rw [if_pos hm]
          · rw [if_neg hm]
            cases hval : i.val f with
            | none => rfl
            | some v =>
              rcases hv.val q i hq f (by rw [hval]; simp) with h | h
              · exact absurd h hm
              · exact absurd h hF
        · intro hF
          rw [if_neg (lossy_flag hF).2]

theorem cut_good {V V1 : View} (hv : VGood V) (hc : ∀ p, V1 p = (V p).map Info.cut) : VGood V1 := by
  have hcase : ∀ q i, V1 q = some i → ∃ j, V q = some j ∧ i = j.cut := by
    intro q i h
    rw [hc] at h
    cases hq : V q with
    | none => rw [hq] at h; cases h
    | some j => rw [hq, Option.map_some, Option.some.injEq] at h; exact ⟨j, rfl, h.symm⟩
  refine ⟨?_, ?_, ?_, ?_⟩
  · obtain ⟨i, hi, hk⟩ := hv.root
    exact ⟨i.cut, by rw [hc, hi]; rfl, hk⟩
  · intro q f i h
    obtain ⟨j, hj, rfl⟩ := hcase _ _ h
    obtain ⟨j2, hj2, hk⟩ := hv.up q f j hj
    exact ⟨j2.cut, by rw [hc, hj2]; rfl, hk⟩
  · intro q i h
    obtain ⟨j, hj, rfl⟩ := hcase _ _ h
    exact keepArg_idem _ _
  · intro q i h f hf
    obtain ⟨j, hj, rfl⟩ := hcase _ _ h
    simp only [Info.cut] at hf ⊢
    by_cases hm : f ∈ copied j.kind
    · exact .inl hm
    · rw [if_neg hm] at hf; exact absurd rfl hf

/-- A prefix that ends before the last part. -/
theorem prefix_dropLast {a p : Path} (h : a <+: p) (hne : p ≠ a) : p ≠ [] ∧ a <+: p.dropLast := by
  obtain ⟨r, rfl⟩ := h
  have hr : r ≠ [] := by rintro rfl; simp at hne
  refine ⟨by simp [hr], ?_⟩
  rw [List.dropLast_append_of_ne_nil hr]
  exact List.prefix_append _ _

theorem not_prefix_dropLast {a p : Path} (h : ¬ a <+: p) : ¬ a <+: p.dropLast := fun h2 => h (h2.trans (List.dropLast_prefix p))

theorem say_cons (c : Content) (pos : Path) (f : Fld) (r : Path) (a : Arg) (p : Path) : say c pos (f :: r) a p =
    if p = pos ++ f :: r then some a else if pos ++ [f] <+: p then (if p <+: pos ++ f :: r then some .none else none) else c p := rfl

/-- What a reader finds after a change. -/
theorem read_change {V : View} (hv : VGood V) {pos : Path} {i : Info} (hpos : V pos = some i) {c : Call} {e : Effect}
    (he : EffOk i.kind c.arg e) (hn : NameOk i.kind c e) (p : Path) :
    readV (change V pos i.kind c.arg e) p = say (readV V) pos (parts i.kind c.meth) (argOf i.kind c) p := by
  rcases e.cases with ⟨f, rfl⟩ | ⟨f, k, flags, hgr⟩
  · obtain ⟨hn1, hn2, hn3⟩ := hn
    obtain ⟨he1, he2⟩ := he
    rw [hn1, hn2]
    have hVf : V (pos ++ [f]) = none := by
      cases h : V (pos ++ [f]) with
      | none => rfl
      | some j =>
        obtain ⟨i', hi', hk⟩ := hv.up pos f j h
        rw [hpos, Option.some.injEq] at hi'
        subst hi'
        rw [he2] at hk
        cases hk
    have hne : pos ++ [f] ≠ pos := by simp
    rw [say_cons]
    by_cases hp : p = pos ++ [f]
    · subst hp
      rw [if_pos rfl, readV_snoc]
      simp only [change, Effect.graft, if_neg hne, hVf, if_true, hpos, Option.map_some, Option.bind_some]
    · rw [if_neg hp]
      by_cases hpre : pos ++ [f] <+: p
      · rw [if_pos hpre, if_neg (fun h => hp (List.IsPrefix.eq_of_length_le h hpre.length_le))]
        obtain ⟨hnil, hd⟩ := prefix_dropLast hpre hp
        have hV : ∀ q, pos ++ [f] <+: q → change V pos i.kind c.arg (.set f) q = none := by
          intro q hq
          have hqp : q ≠ pos := by
            rintro rfl
            have := hq.length_le
            simp at this
            omega
          obtain ⟨r, rfl⟩ := hq
          simp only [change, Effect.graft, if_neg hqp]
          exact hv.none_below hVf r
        simp [readV, hV p hpre, hV _ hd]
      · rw [if_neg hpre]
        by_cases hnil : p = []
        · subst hnil
          simp only [readV]
          by_cases h0 : [] = pos
          · subst h0
            simp [change, Effect.graft, hpos]
          · simp [change, Effect.graft, h0]
        · obtain ⟨q, g, rfl⟩ : ∃ s g, p = s ++ [g] := ⟨p.dropLast, p.getLast hnil, (List.dropLast_concat_getLast hnil).symm⟩
          rw [readV_snoc, readV_snoc]
          simp only [change, Effect.graft]
          by_cases h1 : q ++ [g] = pos
          · rw [if_pos h1]
            cases hV : V (q ++ [g]) with
            | none => rw [h1, hpos] at hV; cases hV
            | some j => simp
          · rw [if_neg h1]
            cases hV : V (q ++ [g]) with
            | some j => simp
            | none =>
              simp only
              by_cases h2 : q = pos
              · subst h2
                have hgf : g ≠ f := by rintro rfl; exact hp rfl
                simp [hpos, hgf]
              · rw [if_neg h2]
  · obtain ⟨hk1, hk2, hk3⟩ := he.graft hgr
    have hpn : (flags = [] ∧ parts i.kind c.meth = [f] ∧ argOf i.kind c = given i.kind c.arg) ∨
        ∃ g, flags = [g] ∧ parts i.kind c.meth = [f, g] ∧ argOf i.kind c = .none ∧ given i.kind c.arg = .none := by
      cases e with
      | set f => cases hgr
      | put f' k' flags' =>
        simp only [Effect.graft, Option.some.injEq, Prod.mk.injEq] at hgr
        obtain ⟨rfl, rfl, rfl⟩ := hgr
        exact hn.2
      | enter f' k' =>
        simp only [Effect.graft, Option.some.injEq, Prod.mk.injEq] at hgr
        obtain ⟨rfl, rfl, rfl⟩ := hgr
        exact .inl ⟨rfl, hn.1, hn.2.1⟩
      | capture f' k' =>
        simp only [Effect.graft, Option.some.injEq, Prod.mk.injEq] at hgr
        obtain ⟨rfl, rfl, rfl⟩ := hgr
        exact .inl ⟨rfl, hn.1, hn.2.1⟩
    have hch : ∀ q, change V pos i.kind c.arg e q =
        if pos ++ [f] <+: q then (if q = pos ++ [f] then some (leaf k (given i.kind c.arg) flags).info else none) else V q := fun q => by
      simp only [change, hgr]
    have hold : ¬ pos ++ [f] <+: p → readV (change V pos i.kind c.arg e) p = readV V p := by
      intro hpre
      simp only [readV, hch, if_neg hpre, if_neg (not_prefix_dropLast hpre)]
    have hself : readV (change V pos i.kind c.arg e) (pos ++ [f]) = some (given i.kind c.arg) := by
      simp [readV, hch, leaf, Node.info]
    have hbelow : ∀ g r, readV (change V pos i.kind c.arg e) (pos ++ [f] ++ g :: r) =
        if r = [] ∧ g ∈ flags then some .none else none := by
      intro g r
      have hpre : pos ++ [f] <+: pos ++ [f] ++ g :: r := List.prefix_append _ _
      have hne : pos ++ [f] ++ g :: r ≠ pos ++ [f] := by
        intro h
        have := congrArg List.length h
        simp at this
      have hthis : change V pos i.kind c.arg e (pos ++ [f] ++ g :: r) = none := by rw [hch, if_pos hpre, if_neg hne]
      cases r with
      | nil =>
        rw [readV_snoc, hthis, hch, if_pos (List.prefix_refl _), if_pos rfl]
        simp [leaf, Node.info]
      | cons g2 r =>
        have hd : (pos ++ [f] ++ g :: g2 :: r).dropLast = pos ++ [f] ++ (g :: g2 :: r).dropLast :=
          List.dropLast_append_of_ne_nil (by simp)
        have hne2 : pos ++ [f] ++ (g :: g2 :: r).dropLast ≠ pos ++ [f] := by
          intro h
          have := congrArg List.length h
          simp at this
        have : change V pos i.kind c.arg e (pos ++ [f] ++ g :: g2 :: r).dropLast = none := by
          rw [hd, hch, if_pos (List.prefix_append _ _), if_neg hne2]
        simp only [readV, hthis, this]
        simp
    rcases hpn with ⟨hfl, hpt, harg⟩ | ⟨g, hfl, hpt, harg, hgv⟩
    · rw [hpt, harg]
      rw [say_cons]
      by_cases hp : p = pos ++ [f]
      · subst hp
        rw [if_pos rfl, hself]
      · rw [if_neg hp]
        by_cases hpre : pos ++ [f] <+: p
        · rw [if_pos hpre, if_neg (fun h => hp (List.IsPrefix.eq_of_length_le h hpre.length_le))]
          obtain ⟨r, rfl⟩ := hpre
          cases r with
          | nil => simp at hp
          | cons g r => rw [hbelow, hfl]; simp
        · rw [if_neg hpre, hold hpre]
    · rw [hpt, harg]
      rw [say_cons]
      by_cases hp : p = pos ++ [f, g]
      · subst hp
        have : pos ++ [f, g] = pos ++ [f] ++ g :: [] := by simp
        rw [if_pos rfl, this, hbelow, hfl]
        simp
      · rw [if_neg hp]
        by_cases hpre : pos ++ [f] <+: p
        · rw [if_pos hpre]
          obtain ⟨r, rfl⟩ := hpre
          cases r with
          | nil =>
            rw [List.append_nil, hself, hgv, if_pos ⟨[g], by simp⟩]
          | cons g2 r =>
            rw [hbelow, hfl, if_neg, if_neg]
            · intro h
              have h2 : (pos ++ [f]) ++ g2 :: r <+: (pos ++ [f]) ++ [g] := by simpa using h
              rw [List.prefix_append_right_inj] at h2
              have h3 := h2.length_le
              simp only [List.length_cons, List.length_nil] at h3
              have : r = [] := List.length_eq_zero_iff.1 (by omega)
              subst this
              have h4 : g2 = g := by
                have := h2.eq_of_length_le (by simp)
                simpa using this
              subst h4
              exact hp (by simp)
            · rintro ⟨rfl, hm⟩
              simp only [List.mem_singleton] at hm
              subst hm
              exact hp (by simp)
        · rw [if_neg hpre, hold hpre]

/-- What a location says, compared with what it should say. -/
def Rel (V : View) (content : Content) (last : Path) : Prop :=
  ∀ p, (¬ Forgotten p → readV V p = content p) ∧ (Forgotten p → readV V p = if p = last then content p else none)

theorem Rel.step {V V1 : View} {content : Content} {last : Path} (hv : VGood V) (hr : Rel V content last)
    (hc : ∀ p, V1 p = (V p).map Info.cut) {pos : Path} {i : Info} (hpos : V1 pos = some i) {c : Call} {e : Effect}
    (he : EffOk i.kind c.arg e) (hn : NameOk i.kind c e) :
    Rel (change V1 pos i.kind c.arg e) (say content pos (parts i.kind c.meth) (argOf i.kind c)) (pos ++ parts i.kind c.meth) := by
  have hv1 := cut_good hv hc
  intro p
  rw [read_change hv1 hpos he hn p]
  simp only [say]
  by_cases hp : p = pos ++ parts i.kind c.meth
  · simp [hp]
  · simp only [if_neg hp]
    by_cases hpre : pos ++ (parts i.kind c.meth).take 1 <+: p
    · simp only [if_pos hpre]
      refine ⟨fun _ => trivial, fun hF => ?_⟩
      by_cases h2 : p <+: pos ++ parts i.kind c.meth
      · exfalso
        -- the pointer of a new structure with a flag
        rcases e.cases with ⟨f, rfl⟩ | ⟨f, k, flags, hgr⟩
        · rw [hn.1] at h2 hpre hp
          exact hp (List.IsPrefix.eq_of_length_le h2 hpre.length_le)
        · obtain ⟨hk1, _, _⟩ := he.graft hgr
          have hparts : parts i.kind c.meth = [f] ∨ ∃ g, parts i.kind c.meth = [f, g] := by
            cases e with
            | set f => cases hgr
            | put f' k' flags' =>
              simp only [Effect.graft, Option.some.injEq, Prod.mk.injEq] at hgr
              obtain ⟨rfl, rfl, rfl⟩ := hgr
              rcases hn.2 with h | ⟨g, h⟩
              · exact .inl h.2.1
              · exact .inr ⟨g, h.2.1⟩
            | enter f' k' =>
              simp only [Effect.graft, Option.some.injEq, Prod.mk.injEq] at hgr
              obtain ⟨rfl, rfl, rfl⟩ := hgr
              exact .inl hn.1
            | capture f' k' =>
              simp only [Effect.graft, Option.some.injEq, Prod.mk.injEq] at hgr
              obtain ⟨rfl, rfl, rfl⟩ := hgr
              exact .inl hn.1
          rcases hparts with h | ⟨g, h⟩
          · rw [h] at h2 hpre hp
            exact hp (List.IsPrefix.eq_of_length_le h2 hpre.length_le)
          · rw [h] at h2 hpre hp
            simp only [List.take_succ_cons, List.take_zero] at hpre
            have hlen1 := hpre.length_le
            have hlen2 := h2.length_le
            simp only [List.length_append, List.length_cons, List.length_nil] at hlen1 hlen2
            have hpf : p = pos ++ [f] := by
              by_cases hl : p.length = pos.length + 1
              · exact (hpre.eq_of_length_le (by simp; omega)).symm
              · exact absurd (h2.eq_of_length_le (by simp; omega)) hp
            subst hpf
            rw [← forgotten_iff hv1 hpos] at hF
            rw [(lossy_flag hF).1] at hk1
            cases hk1
      · rw [if_neg h2]
    · simp only [if_neg hpre]
      obtain ⟨h1, h2⟩ := read_cut hv hc p
      exact ⟨fun hF => by rw [h1 hF]; exact (hr p).1 hF, fun hF => h2 hF⟩

end Verif.LocBuild
