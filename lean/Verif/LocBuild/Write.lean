import Verif.LocBuild.Table

/-! # Changes of the heap -/

namespace Verif.LocBuild

/-- The place that a change sets a pointer in, if it does: the field, the kind and the flags of the new structure. -/
def Effect.graft : Effect → Option (Fld × Kind × List Fld)
  | .set _ => none
  | .put f k flags => some (f, k, flags)
  | .enter f k => some (f, k, [])
  | .capture f k => some (f, k, [])

theorem write_set (H : Heap) (x : Nat) (nd : Node) (a : Arg) (f : Fld) :
    write H x nd a (.set f) = H.set x { nd with val := fun g => if g = f then some a else nd.val g } := rfl

theorem write_graft (H : Heap) (x : Nat) (nd : Node) (a : Arg) {e : Effect} {f : Fld} {k : Kind} {flags : List Fld}
    (h : e.graft = some (f, k, flags)) : write H x nd a e =
      H.set x { nd with kid := fun g => if g = f then some H.length else nd.kid g } ++ [leaf k (given nd.kind a) flags] := by
  cases e <;> simp only [Effect.graft, Option.some.injEq, Prod.mk.injEq, reduceCtorEq] at h <;> (try obtain ⟨rfl, rfl, rfl⟩ := h) <;> rfl

theorem EffOk.graft {k : Kind} {a : Arg} {e : Effect} (h : EffOk k a e) {f : Fld} {k' : Kind} {flags : List Fld}
    (he : e.graft = some (f, k', flags)) : kidKind k f = some k' ∧ keepArg k' (given k a) = given k a ∧ ∀ g ∈ flags, g ∈ copied k' := by
  cases e <;> simp only [Effect.graft, Option.some.injEq, Prod.mk.injEq, reduceCtorEq] at he <;> (try obtain ⟨rfl, rfl, rfl⟩ := he)
  · exact h
  · exact ⟨h.1, h.2, fun g hg => by cases hg⟩
  · exact ⟨h.1, h.2, fun g hg => by cases hg⟩

theorem Effect.cases (e : Effect) : (∃ f, e = .set f) ∨ ∃ f k flags, e.graft = some (f, k, flags) := by
  cases e with
  | set f => exact .inl ⟨f, rfl⟩
  | put f k flags => exact .inr ⟨f, k, flags, rfl⟩
  | enter f k => exact .inr ⟨f, k, [], rfl⟩
  | capture f k => exact .inr ⟨f, k, [], rfl⟩

/-! ## A flag -/

theorem get_set (H : Heap) {x : Nat} (hx : x < H.length) (nd : Node) (z : Nat) : (H.set x nd)[z]? = if z = x then some nd else H[z]? := by
  rw [List.getElem?_set]
  by_cases h : x = z
  · subst h; simp [hx]
  · simp [h, Ne.symm h]

theorem find_set {H : Heap} {x : Nat} {nd nd' : Node} (hx : H[x]? = some nd) (hk : nd'.kid = nd.kid) :
    ∀ (p : Path) (a : Nat), find (H.set x nd') a p = find H a p
  | [], _ => rfl
  | f :: p, a => by
    simp only [find, get_set H (lt_of_get hx)]
    by_cases h : a = x
    · subst h
      simp only [if_pos, hx, hk]
      cases nd.kid f with
      | none => rfl
      | some b => exact find_set hx hk p b
    · simp only [if_neg h]
      cases H[a]? with
      | none => rfl
      | some n =>
        simp only
        cases n.kid f with
        | none => rfl
        | some b => exact find_set hx hk p b

/-! ## A pointer -/

theorem get_graft (H : Heap) {x : Nat} (hx : x < H.length) (nd lf : Node) (z : Nat) : (H.set x nd ++ [lf])[z]? =
    if z = H.length then some lf else if z = x then some nd else H[z]? := by
  by_cases h : z = H.length
  · subst h
    rw [List.getElem?_append_right (by simp)]
    simp
  · rw [if_neg h]
    by_cases hlt : z < H.length
    · rw [List.getElem?_append_left (by simpa using hlt), get_set H hx]
    · rw [List.getElem?_eq_none (by simp; omega), if_neg (by omega), List.getElem?_eq_none (by omega)]

theorem graft_other {H : Heap} (hg : Good H) {x : Nat} {nd lf : Node} (hx : H[x]? = some nd) (f : Fld) :
    ∀ (p : Path) (b : Nat), b < H.length → (∀ q r, p = q ++ f :: r → find H b q ≠ some x) →
      find (H.set x { nd with kid := fun g => if g = f then some H.length else nd.kid g } ++ [lf]) b p = find H b p
  | [], _, _, _ => rfl
  | g :: p, b, hb, hno => by
    have hne : b ≠ H.length := by omega
    simp only [find, get_graft H (lt_of_get hx), if_neg hne]
    by_cases h : b = x
    · subst h
      have hgf : g ≠ f := by
        rintro rfl
        exact hno [] p rfl rfl
      simp only [if_pos, hx, if_neg hgf]
      cases hk : nd.kid g with
      | none => rfl
      | some c =>
        obtain ⟨nc, hc, _⟩ := hg.kid b nd hx g c hk
        exact graft_other hg hx f p c (lt_of_get hc) (fun q r hq hf => hno (g :: q) r (by rw [hq]; rfl) (by
          simp only [find, hx, hk]; exact hf))
    · simp only [if_neg h]
      cases hn : H[b]? with
      | none => rfl
      | some n =>
        simp only
        cases hk : n.kid g with
        | none => rfl
        | some c =>
          obtain ⟨nc, hc, _⟩ := hg.kid b n hn g c hk
          exact graft_other hg hx f p c (lt_of_get hc) (fun q r hq hf => hno (g :: q) r (by rw [hq]; rfl) (by
            simp only [find, hn, hk]; exact hf))

/-- No two paths lead to the same place. -/
def Inj (H : Heap) (a : Nat) : Prop := ∀ (p q : Path) (x : Nat), find H a p = some x → find H a q = some x → p = q

theorem graft_find {H : Heap} (hg : Good H) {x : Nat} {nd lf : Node} (hx : H[x]? = some nd) (hlf : lf.kid = fun _ => none) (f : Fld)
    {a : Nat} (ha : a < H.length) (hi : Inj H a) {pos : Path} (hpos : find H a pos = some x) (p : Path) :
    find (H.set x { nd with kid := fun g => if g = f then some H.length else nd.kid g } ++ [lf]) a p =
      if pos ++ [f] <+: p then (if p = pos ++ [f] then some H.length else none) else find H a p := by
  have hxl := lt_of_get hx
  by_cases hpre : pos ++ [f] <+: p
  · obtain ⟨r, rfl⟩ := hpre
    have h1 : find (H.set x { nd with kid := fun g => if g = f then some H.length else nd.kid g } ++ [lf]) a pos = some x := by
      rw [graft_other hg hx f pos a ha, hpos]
      intro q r' hq hf
      have := hi q pos x hf hpos
      subst this
      have := congrArg List.length hq
      simp only [List.length_append, List.length_cons] at this
      omega
    have hne : x ≠ H.length := by omega
    rw [List.append_assoc, find_append, h1]
    simp only [Option.bind_some, List.cons_append, List.nil_append, find, get_graft H hxl, if_neg hne, if_pos]
    rw [if_pos ⟨r, by simp⟩]
    cases r with
    | nil => simp [find]
    | cons g r =>
      simp only [find, get_graft H hxl, if_pos, hlf]
      rw [if_neg]
      intro h
      have := congrArg List.length h
      simp at this
  · rw [if_neg hpre]
    refine graft_other hg hx f p a ha ?_
    intro q r hq hf
    have := hi q pos x hf hpos
    subst this
    exact hpre ⟨r, by rw [hq]; simp⟩

/-! ## Both -/

/-- What is at a path after a change at `pos`. -/
def change (V : Path → Option Info) (pos : Path) (k : Kind) (a : Arg) (e : Effect) : Path → Option Info :=
  match e.graft, e with
  | some (f, k', flags), _ => fun p =>
    if pos ++ [f] <+: p then (if p = pos ++ [f] then some (leaf k' (given k a) flags).info else none) else V p
  | none, .set f => fun p => if p = pos then (V p).map fun i => { i with val := fun g => if g = f then some a else i.val g } else V p
  | none, _ => V

structure WriteOk (H H' : Heap) (x : Nat) : Prop where
  good : Good H'
  len : H.length ≤ H'.length
  same : ∀ z, z < H.length → z ≠ x → H'[z]? = H[z]?
  kind : ∀ (z : Nat) (nd : Node), H[z]? = some nd → ∃ nd', H'[z]? = some nd' ∧ nd'.kind = nd.kind

theorem write_ok {H : Heap} (hg : Good H) {x : Nat} {nd : Node} (hx : H[x]? = some nd) {a : Arg} {e : Effect}
    (he : EffOk nd.kind a e) : WriteOk H (write H x nd a e) x := by
  have hxl := lt_of_get hx
  rcases e.cases with ⟨f, rfl⟩ | ⟨f, k, flags, hgr⟩
  · rw [write_set]
    refine ⟨⟨?_, ?_, ?_⟩, by simp, fun z _ hne => by rw [get_set H hxl, if_neg hne], ?_⟩
    · intro z n hz g b hb
      rw [get_set H hxl] at hz
      have hcase : ∃ n0, H[z]? = some n0 ∧ n0.kid = n.kid ∧ n0.kind = n.kind := by
        by_cases h : z = x
        · subst h
          simp only [if_pos, Option.some.injEq] at hz
          subst hz
          exact ⟨nd, hx, rfl, rfl⟩
        · rw [if_neg h] at hz
          exact ⟨n, hz, rfl, rfl⟩
      obtain ⟨n0, h0, h1, h2⟩ := hcase
      obtain ⟨nb, hb1, hb2⟩ := hg.kid z n0 h0 g b (by rw [h1]; exact hb)
      by_cases hbx : b = x
      · subst hbx
        rw [hx, Option.some.injEq] at hb1
        subst hb1
        exact ⟨_, by rw [get_set H hxl, if_pos rfl], by rw [← h2]; exact hb2⟩
      · exact ⟨nb, by rw [get_set H hxl, if_neg hbx]; exact hb1, by rw [← h2]; exact hb2⟩
    · intro z n hz
      rw [get_set H hxl] at hz
      by_cases h : z = x
      · simp only [if_pos h, Option.some.injEq] at hz
        subst hz
        exact hg.arg x nd hx
      · rw [if_neg h] at hz
        exact hg.arg z n hz
    · intro z n hz g hgv
      rw [get_set H hxl] at hz
      by_cases h : z = x
      · simp only [if_pos h, Option.some.injEq] at hz
        subst hz
        simp only at hgv ⊢
        by_cases hgf : g = f
        · subst hgf; exact he.1
        · rw [if_neg hgf] at hgv
          exact hg.val x nd hx g hgv
      · rw [if_neg h] at hz
        exact hg.val z n hz g hgv
    · intro z n hz
      by_cases h : z = x
      · subst h
        rw [hx, Option.some.injEq] at hz
        subst hz
        refine ⟨{ nd with val := fun g => if g = f then some a else nd.val g }, ?_, rfl⟩
        rw [get_set H hxl, if_pos rfl]
      · exact ⟨n, by rw [get_set H hxl, if_neg h]; exact hz, rfl⟩
  · obtain ⟨hk1, hk2, hk3⟩ := he.graft hgr
    rw [write_graft H x nd a hgr]
    have hget := get_graft H hxl { nd with kid := fun g => if g = f then some H.length else nd.kid g } (leaf k (given nd.kind a) flags)
    have hkind : ∀ (z : Nat) (n : Node), H[z]? = some n →
        ∃ nd', (H.set x { nd with kid := fun g => if g = f then some H.length else nd.kid g } ++ [leaf k (given nd.kind a) flags])[z]? =
          some nd' ∧ nd'.kind = n.kind := by
      intro z n hz
      have hzl := lt_of_get hz
      by_cases h : z = x
      · subst h
        rw [hx, Option.some.injEq] at hz
        subst hz
        refine ⟨{ nd with kid := fun g => if g = f then some H.length else nd.kid g }, ?_, rfl⟩
        rw [hget, if_neg (by omega), if_pos rfl]
      · exact ⟨n, by rw [hget, if_neg (by omega), if_neg h]; exact hz, rfl⟩
    refine ⟨⟨?_, ?_, ?_⟩, by simp, fun z hz hne => by rw [hget, if_neg (by omega), if_neg hne], hkind⟩
    · intro z n hz g b hb
      rw [hget] at hz
      by_cases h0 : z = H.length
      · simp only [if_pos h0, Option.some.injEq] at hz
        subst hz
        cases hb
      · rw [if_neg h0] at hz
        by_cases h : z = x
        · simp only [if_pos h, Option.some.injEq] at hz
          subst hz
          simp only at hb ⊢
          by_cases hgf : g = f
          · subst hgf
            simp only [if_pos, Option.some.injEq] at hb
            subst hb
            exact ⟨_, by rw [hget, if_pos rfl], hk1⟩
          · rw [if_neg hgf] at hb
            obtain ⟨nb, hb1, hb2⟩ := hg.kid x nd hx g b hb
            obtain ⟨nb', h1, h2⟩ := hkind b nb hb1
            exact ⟨nb', h1, by rw [h2]; exact hb2⟩
        · rw [if_neg h] at hz
          obtain ⟨nb, hb1, hb2⟩ := hg.kid z n hz g b hb
          obtain ⟨nb', h1, h2⟩ := hkind b nb hb1
          exact ⟨nb', h1, by rw [h2]; exact hb2⟩
    · intro z n hz
      rw [hget] at hz
      by_cases h0 : z = H.length
      · simp only [if_pos h0, Option.some.injEq] at hz
        subst hz
        exact hk2
      · rw [if_neg h0] at hz
        by_cases h : z = x
        · simp only [if_pos h, Option.some.injEq] at hz
          subst hz
          exact hg.arg x nd hx
        · rw [if_neg h] at hz
          exact hg.arg z n hz
    · intro z n hz g hgv
      rw [hget] at hz
      by_cases h0 : z = H.length
      · simp only [if_pos h0, Option.some.injEq] at hz
        subst hz
        simp only [leaf] at hgv ⊢
        by_cases hm : g ∈ flags
        · exact .inl (hk3 g hm)
        · rw [if_neg hm] at hgv; exact absurd rfl hgv
      · rw [if_neg h0] at hz
        by_cases h : z = x
        · simp only [if_pos h, Option.some.injEq] at hz
          subst hz
          exact hg.val x nd hx g hgv
        · rw [if_neg h] at hz
          exact hg.val z n hz g hgv

/-- Trees that do not contain the place stay as they are. -/
theorem write_other {H : Heap} (hg : Good H) {x : Nat} {nd : Node} (hx : H[x]? = some nd) {a : Arg} {e : Effect} {c : Nat}
    (hc : c < H.length) (hno : ∀ p, find H c p ≠ some x) (p : Path) :
    find (write H x nd a e) c p = find H c p ∧ view (write H x nd a e) c p = view H c p := by
  have hfind : find (write H x nd a e) c p = find H c p := by
    rcases e.cases with ⟨f, rfl⟩ | ⟨f, k, flags, hgr⟩
    · rw [write_set]; exact find_set hx (nd' := { nd with val := fun g => if g = f then some a else nd.val g }) rfl p c
    · rw [write_graft H x nd a hgr]
      exact graft_other hg hx f p c hc (fun q r _ => hno q)
  refine ⟨hfind, ?_⟩
  unfold view
  rw [hfind]
  cases hf : find H c p with
  | none => rfl
  | some z =>
    have hz := find_lt hg p c z hc hf
    have hne : z ≠ x := by rintro rfl; exact hno p hf
    have : (write H x nd a e)[z]? = H[z]? := by
      rcases e.cases with ⟨f, rfl⟩ | ⟨f, k, flags, hgr⟩
      · rw [write_set, get_set H (lt_of_get hx), if_neg hne]
      · rw [write_graft H x nd a hgr, get_graft H (lt_of_get hx), if_neg (by omega), if_neg hne]
    simp only [Option.bind_some, this]

/-- The tree that contains the place. -/
theorem write_tree {H : Heap} (hg : Good H) {x : Nat} {nd : Node} (hx : H[x]? = some nd) {a : Arg} {e : Effect}
    {c : Nat} (hc : c < H.length) (hi : Inj H c) {pos : Path} (hpos : find H c pos = some x) :
    (∀ p, view (write H x nd a e) c p = change (view H c) pos nd.kind a e p) ∧
    Inj (write H x nd a e) c ∧
    (∀ p z, find (write H x nd a e) c p = some z → find H c p = some z ∨ z = H.length) ∧
    (∀ p z, find (write H x nd a e) c p = some z → (∃ z', find H c p = some z') ∨ p.length = pos.length + 1) ∧
    find (write H x nd a e) c pos = some x := by
  have hxl := lt_of_get hx
  rcases e.cases with ⟨f, rfl⟩ | ⟨f, k, flags, hgr⟩
  · have hf : ∀ p, find (write H x nd a (.set f)) c p = find H c p := fun p => by rw [write_set]; exact find_set hx (nd' := { nd with val := fun g => if g = f then some a else nd.val g }) rfl p c
    refine ⟨fun p => ?_, fun p q z h1 h2 => hi p q z (by rw [← hf]; exact h1) (by rw [← hf]; exact h2),
      fun p z h => .inl (by rw [← hf]; exact h), fun p z h => .inl ⟨z, by rw [← hf]; exact h⟩, by rw [hf]; exact hpos⟩
    simp only [change, Effect.graft]
    unfold view
    rw [hf]
    by_cases hp : p = pos
    · subst hp
      rw [hpos, if_pos rfl]
      simp only [Option.bind_some, write_set, get_set H hxl, if_true, hx, Option.map_some, Node.info]
    · rw [if_neg hp]
      cases hfp : find H c p with
      | none => rfl
      | some z =>
        have hne : z ≠ x := by rintro rfl; exact hp (hi p pos z hfp hpos)
        simp only [Option.bind_some, write_set, get_set H hxl, if_neg hne]
  · have hf : ∀ p, find (write H x nd a e) c p =
        if pos ++ [f] <+: p then (if p = pos ++ [f] then some H.length else none) else find H c p := fun p => by
      rw [write_graft H x nd a hgr]
      exact graft_find hg hx rfl f hc hi hpos p
    have hposn : ¬ pos ++ [f] <+: pos := fun h => by
      have := h.length_le
      simp at this
      omega
    refine ⟨fun p => ?_, ?_, ?_, ?_, by rw [hf, if_neg hposn]; exact hpos⟩
    · simp only [change, hgr]
      unfold view
      rw [hf]
      by_cases hpre : pos ++ [f] <+: p
      · simp only [if_pos hpre]
        by_cases hp : p = pos ++ [f]
        · simp only [if_pos hp, Option.bind_some, write_graft H x nd a hgr, get_graft H hxl, if_true, Option.map_some]
        · simp only [if_neg hp, Option.bind_none, Option.map_none]
      · simp only [if_neg hpre]
        cases hfp : find H c p with
        | none => rfl
        | some z =>
          have hz := find_lt hg p c z hc hfp
          have hzl : z ≠ H.length := by omega
          simp only [Option.bind_some, write_graft H x nd a hgr, get_graft H hxl, if_neg hzl]
          by_cases hzx : z = x
          · subst hzx
            simp [hx, Node.info]
          · rw [if_neg hzx]
    · intro p q z hp hq
      rw [hf] at hp hq
      by_cases h1 : pos ++ [f] <+: p
      · rw [if_pos h1] at hp
        by_cases h2 : p = pos ++ [f]
        · rw [if_pos h2, Option.some.injEq] at hp
          subst hp
          by_cases h3 : pos ++ [f] <+: q
          · rw [if_pos h3] at hq
            by_cases h4 : q = pos ++ [f]
            · rw [h2, h4]
            · rw [if_neg h4] at hq; cases hq
          · rw [if_neg h3] at hq
            have := find_lt hg q c _ hc hq
            omega
        · rw [if_neg h2] at hp; cases hp
      · rw [if_neg h1] at hp
        by_cases h3 : pos ++ [f] <+: q
        · rw [if_pos h3] at hq
          by_cases h4 : q = pos ++ [f]
          · rw [if_pos h4, Option.some.injEq] at hq
            subst hq
            have := find_lt hg p c _ hc hp
            omega
          · rw [if_neg h4] at hq; cases hq
        · rw [if_neg h3] at hq
          exact hi p q z hp hq
    · intro p z hp
      rw [hf] at hp
      by_cases h1 : pos ++ [f] <+: p
      · rw [if_pos h1] at hp
        by_cases h2 : p = pos ++ [f]
        · rw [if_pos h2, Option.some.injEq] at hp
          exact .inr hp.symm
        · rw [if_neg h2] at hp; cases hp
      · rw [if_neg h1] at hp
        exact .inl hp
    · intro p z hp
      rw [hf] at hp
      by_cases h1 : pos ++ [f] <+: p
      · rw [if_pos h1] at hp
        by_cases h2 : p = pos ++ [f]
        · exact .inr (by rw [h2]; simp)
        · rw [if_neg h2] at hp; cases hp
      · rw [if_neg h1] at hp
        exact .inl ⟨z, hp⟩

end Verif.LocBuild
