import Verif.Tree.Spec
import Verif.Tree.Lemmas

/-! # Properties of the tree of dependencies (C97) -/

namespace Verif.Tree

/-! ### Names -/

mutual
theorem named_of (g : Group) (h : ∀ n ∈ g.names, isName n = true) : g.named := by
  cases g with
  | mk starts name =>
    simp only [Group.names] at h
    simp only [Group.named]
    refine ⟨?_, namedAll_of starts fun n hn => h n (by simp [hn])⟩
    intro he
    have := h name (by simp)
    rw [he] at this
    simp [isName] at this
theorem namedAll_of (gs : List Group) (h : ∀ n ∈ namesAll gs, isName n = true) : namedAll gs := by
  cases gs with
  | nil => simp [namedAll]
  | cons g gs =>
    simp only [namesAll] at h
    simp only [namedAll]
    exact ⟨named_of g fun n hn => h n (by simp [hn]), namedAll_of gs fun n hn => h n (by simp [hn])⟩
end

theorem isName_char {n : Text} (h : isName n = true) {c : Char} (hc : c ∈ n) : (c.isAlphanum || c == '_') = true := by
  simp only [isName, Bool.and_eq_true, List.all_eq_true] at h
  exact h.2 c hc

theorem isName_ne {n : Text} (h : isName n = true) : n ≠ [] := by
  intro he
  rw [he] at h
  simp [isName] at h

theorem no_char {n : Text} (h : isName n = true) (c : Char) (hc : (c.isAlphanum || c == '_') = false) : c ∉ n := by
  intro hm
  rw [isName_char h hm] at hc
  cases hc

/-! ### Pictures -/

theorem Picture.append {X : Nat → Nat} {rs rs' : List Row} {t t' : Text} (h : Picture X rs t) (h' : Picture X rs' t') :
    Picture X (rs ++ rs') (t ++ t') := by
  induction h with
  | nil => exact h'
  | cons hd hl _ ih =>
    rw [List.append_assoc, List.cons_append]
    exact .cons hd hl ih

theorem mem_bars {xs : List Nat} {p : Nat} {c : Char} (h : c ∈ bars p xs) : c = ' ' ∨ c = '│' := by
  induction xs generalizing p with
  | nil => simp [bars] at h
  | cons x xs ih =>
    unfold bars at h
    split at h
    · exact ih h
    · rcases List.mem_append.1 h with h | h
      · exact Or.inl (List.eq_of_mem_replicate h)
      · rcases List.mem_cons.1 h with h | h
        · exact Or.inr h
        · exact ih h

/-- The lines that pass are those of lesser depths, the deepest first. -/
def Lines (c : Ctx) : Prop := c.lines.Pairwise (· > ·) ∧ ∀ d ∈ c.lines, d < c.depth

theorem asc_map {m : Lens} (hf : Full m) {l : List Nat} (h : l.Pairwise (· > ·)) (hle : ∀ d ∈ l, d ≤ maxDepth m) :
    (l.map (indent m)).Pairwise (· < ·) := by
  induction l with
  | nil => simp
  | cons x l ih =>
    rw [List.pairwise_cons] at h
    rw [List.map_cons, List.pairwise_cons]
    refine ⟨fun y hy => ?_, ih h.2 fun d hd => hle d (by simp [hd])⟩
    obtain ⟨d, hd, rfl⟩ := List.mem_map.1 hy
    exact indent_lt hf (h.1 d hd) (hle x (by simp))

theorem drawn_of {c : Ctx} (hf : Full c.m) (hd : c.depth < maxDepth c.m) (hl : Lines c) (first : Bool) {name : Text}
    (hfit : name.length ≤ c.m.get (c.depth + 1)) (th : List Nat)
    (hth : th = if first then c.lines else c.depth :: c.lines)
    (ls : List Nat) (hls : ls = th.map (indent c.m)) :
    Drawn (indent c.m) ⟨name, c.depth, first, th⟩
      (endText c.withNextDepth name ++ corner first ++ bars (indent c.m c.depth) (sortInts ls)) := by
  have hs := indent_succ hf hd
  have hlen : (endText c.withNextDepth name).length = indent c.m c.depth - 2 := by
    simp only [endText, Ctx.withNextDepth, List.length_append, List.length_replicate]
    omega
  have hasc : (c.lines.map (indent c.m)).Pairwise (· < ·) :=
    asc_map hf hl.1 fun d h => by have := hl.2 d h; omega
  have hgt : ∀ x ∈ c.lines.map (indent c.m), indent c.m c.depth < x := by
    intro x hx
    obtain ⟨d, hd', rfl⟩ := List.mem_map.1 hx
    exact indent_lt hf (hl.2 d hd') (by omega)
  have hbars : bars (indent c.m c.depth) (sortInts ls) = bars (indent c.m c.depth) (c.lines.map (indent c.m)) := by
    subst hls hth
    cases first with
    | true => simp only [if_true]; rw [sortInts_asc _ hasc]
    | false =>
      simp only [Bool.false_eq_true, if_false, List.map_cons]
      rw [sortInts_asc _ (List.pairwise_cons.2 ⟨hgt, hasc⟩)]
      conv => lhs; unfold bars
      rw [if_pos (by omega)]
  have h2 : 2 ≤ indent c.m c.depth := by omega
  refine ⟨?_, ?_, ⟨?_, ?_⟩, ?_, ?_⟩
  · show indent c.m (c.depth + 1) + name.length + 2 ≤ indent c.m c.depth
    omega
  · show List.take (indent c.m c.depth - 2) _ = _
    rw [List.append_assoc, List.take_append_of_le_length (by omega), List.take_of_length_le (by omega)]
    simp only [endText, Ctx.withNextDepth]
    rw [← List.append_assoc, List.replicate_append_replicate]
    congr 2
    omega
  · show _[indent c.m c.depth - 2]? = _
    rw [List.append_assoc, List.getElem?_append_right (by omega), hlen]
    simp [corner]
  · show _[indent c.m c.depth - 1]? = _
    rw [List.append_assoc, List.getElem?_append_right (by omega), hlen,
      show indent c.m c.depth - 1 - (indent c.m c.depth - 2) = 1 by omega]
    simp [corner]
  · show _[indent c.m c.depth]? = _
    rw [List.append_assoc, List.getElem?_append_right (by omega), hlen,
      show indent c.m c.depth - (indent c.m c.depth - 2) = 2 by omega]
    simp [corner]
  · intro k hk
    have hk : indent c.m c.depth < k := hk
    rw [List.getElem?_append_right (by simp [hlen, corner]; omega)]
    simp only [List.length_append, hlen]
    rw [show k - (indent c.m c.depth - 2 + (corner first).length) = k - indent c.m c.depth - 1 by
      simp [corner]; omega]
    rw [hbars, bars_get _ _ hasc hgt, show indent c.m c.depth + 1 + (k - indent c.m c.depth - 1) = k by omega]
    have e1 : (k ∈ c.lines.map (indent c.m)) ↔ ∃ d ∈ th, indent c.m d = k := by
      subst hth
      cases first
      · simp only [Bool.false_eq_true, if_false, List.mem_map, List.mem_cons]
        constructor
        · rintro ⟨d, h, rfl⟩; exact ⟨d, Or.inr h, rfl⟩
        · rintro ⟨d, rfl | h, rfl⟩
          · omega
          · exact ⟨d, h, rfl⟩
      · simp
    have e2 : (∃ x ∈ c.lines.map (indent c.m), k < x) ↔ ∃ d ∈ th, k < indent c.m d := by
      subst hth
      cases first
      · simp only [Bool.false_eq_true, if_false, List.mem_map, List.mem_cons]
        constructor
        · rintro ⟨x, ⟨d, h, rfl⟩, hlt⟩; exact ⟨d, Or.inr h, hlt⟩
        · rintro ⟨d, rfl | h, hlt⟩
          · omega
          · exact ⟨_, ⟨d, h, rfl⟩, hlt⟩
      · simp only [if_true, List.mem_map]
        constructor
        · rintro ⟨x, ⟨d, h, rfl⟩, hlt⟩; exact ⟨d, h, hlt⟩
        · rintro ⟨d, h, hlt⟩; exact ⟨_, ⟨d, h, rfl⟩, hlt⟩
    simp only [e1, e2]

theorem noNewline {c : Ctx} {name : Text} (hn : isName name = true) (first : Bool) (p : Nat) (ls : List Nat) :
    '\n' ∉ endText c name ++ corner first ++ bars p ls := by
  intro h
  rcases List.mem_append.1 h with h | h
  · rcases List.mem_append.1 h with h | h
    · simp only [endText] at h
      rcases List.mem_append.1 h with h | h
      · exact absurd (List.eq_of_mem_replicate h) (by decide)
      · rcases List.mem_append.1 h with h | h
        · exact absurd (List.eq_of_mem_replicate h) (by decide)
        · exact no_char hn '\n' (by decide) h
    · cases first <;> revert h <;> decide
  · rcases mem_bars h with h | h <;> revert h <;> decide

mutual
theorem picture_group (g : Group) (c : Ctx) (first : Bool) (hf : Full c.m) (hl : Lines c)
    (hfit : g.fits c.m (c.depth + 1)) (hn : ∀ n ∈ g.names, isName n = true) (c' : Ctx)
    (hc' : c' = if first then c else c.withLineDepth) :
    Picture (indent c.m) (g.rows c.depth (if first then c.lines else c.depth :: c.lines) first)
      (g.treeFormat c'.withNextDepth ++ corner first ++ bars (indent c'.m c'.depth) c'.lineIndents ++ ['\n']) := by
  cases g with
  | mk starts name =>
    simp only [Group.fits] at hfit
    simp only [Group.names] at hn
    have hpos := List.length_pos_iff.2 hfit.1
    have hd : c.depth < maxDepth c.m := by
      have := has_le_maxDepth (m := c.m) (d := c.depth + 1) (has_of_get (by omega))
      omega
    have hnot : c.depth ∉ c.lines := fun h => by have := hl.2 _ h; omega
    have hc2 : c' = ⟨c.m, c.depth, if first then c.lines else c.depth :: c.lines⟩ := by
      rw [hc']
      cases first
      · simp only [Bool.false_eq_true, if_false, Ctx.withLineDepth]
        rw [if_neg hnot]
      · simp
    have hl' : Lines c'.withNextDepth := by
      rw [hc2]
      cases first
      · refine ⟨?_, ?_⟩
        · simp only [Ctx.withNextDepth, Bool.false_eq_true, if_false]
          exact List.pairwise_cons.2 ⟨hl.2, hl.1⟩
        · intro d hd'
          simp only [Ctx.withNextDepth, Bool.false_eq_true, if_false] at hd' ⊢
          rcases List.mem_cons.1 hd' with rfl | h
          · omega
          · have := hl.2 d h; omega
      · exact ⟨hl.1, fun d h => by have := hl.2 d h; simp only [Ctx.withNextDepth]; omega⟩
    have hm : c'.withNextDepth.m = c.m := by rw [hc2]; rfl
    have hdep : c'.withNextDepth.depth = c.depth + 1 := by rw [hc2]; rfl
    have ih := picture_all starts c'.withNextDepth true (by rw [hm]; exact hf) hl'
      (by rw [hm, hdep]; exact hfit.2.2) (fun n h => hn n (by simp [h]))
    rw [hm, hdep] at ih
    have hlines : c'.withNextDepth.lines = if first then c.lines else c.depth :: c.lines := by rw [hc2]; rfl
    rw [hlines] at ih
    simp only [Group.rows, Group.treeFormat]
    have hrow := drawn_of hf hd hl first hfit.2.1 _ rfl _ rfl
    have hend : endText c'.withNextDepth name = endText c.withNextDepth name := by
      rw [hc2]; rfl
    have hli : c'.lineIndents = sortInts ((if first then c.lines else c.depth :: c.lines).map (indent c.m)) := by
      rw [hc2]; rfl
    have hind : indent c'.m c'.depth = indent c.m c.depth := by rw [hc2]
    rw [hend, hli, hind]
    have hpic := Picture.cons (X := indent c.m) hrow (noNewline (hn name (by simp)) _ _ _) .nil
    have := ih.append hpic
    simp only [List.append_assoc] at this ⊢
    exact this
theorem picture_all (gs : List Group) (c : Ctx) (first : Bool) (hf : Full c.m) (hl : Lines c)
    (hfit : fitsAll c.m (c.depth + 1) gs) (hn : ∀ n ∈ namesAll gs, isName n = true) :
    Picture (indent c.m) (rowsAll c.depth c.lines first gs) (startsFormat c first gs) := by
  cases gs with
  | nil => simp only [rowsAll, startsFormat]; exact .nil
  | cons g gs =>
    simp only [fitsAll] at hfit
    simp only [namesAll] at hn
    have h1 := picture_group g c first hf hl hfit.1 (fun n h => hn n (by simp [h])) _ rfl
    have h2 := picture_all gs c false hf hl hfit.2 (fun n h => hn n (by simp [h]))
    simp only [rowsAll, startsFormat]
    have := h1.append h2
    simp only [List.append_assoc, List.singleton_append] at this ⊢
    exact this
end

theorem tops_false (m : Lens) (gs : List Group) (ls : List Nat) (hls : ls = [] ∨ ls = [0]) :
    topFormat ⟨m, 0, ls⟩ false gs = startsFormat ⟨m, 0, []⟩ false gs := by
  induction gs generalizing ls with
  | nil => simp [topFormat, startsFormat]
  | cons g gs ih =>
    have hw : (⟨m, 0, ls⟩ : Ctx).withLineDepth = ⟨m, 0, [0]⟩ := by
      rcases hls with rfl | rfl <;> simp [Ctx.withLineDepth]
    have hw0 : (⟨m, 0, []⟩ : Ctx).withLineDepth = ⟨m, 0, [0]⟩ := by simp [Ctx.withLineDepth]
    simp only [topFormat, startsFormat, Bool.false_eq_true, if_false, hw, hw0]
    rw [ih [0] (Or.inr rfl)]
    have : bars (indent m 0) (⟨m, 0, [0]⟩ : Ctx).lineIndents = [] := by
      simp [Ctx.lineIndents, sortInts, insertInt, bars]
    rw [this]
    simp

theorem tops (m : Lens) (gs : List Group) : topFormat ⟨m, 0, []⟩ true gs = startsFormat ⟨m, 0, []⟩ true gs := by
  cases gs with
  | nil => simp [topFormat, startsFormat]
  | cons g gs =>
    simp only [topFormat, startsFormat, if_true]
    rw [tops_false m gs [] (Or.inl rfl)]
    have : bars (indent m 0) (⟨m, 0, []⟩ : Ctx).lineIndents = [] := by simp [Ctx.lineIndents, sortInts, bars]
    rw [this]
    simp

theorem format_many {gs : List Group} (h : 2 ≤ gs.length) :
    format gs = startsFormat ⟨setMaxAll 1 gs [(0, 0)], 0, []⟩ true gs := by
  unfold format
  rw [← tops]
  match gs, h with
  | _ :: _ :: _, _ => rfl

/-- With two or more groups, the text is the picture of the tree: a row for every definition, in order, with its name
before the corner in the column of the one that waits for it, joined by bars. -/
theorem C97_picture_partial (gs : List Group) (hn : Names gs) (h2 : 2 ≤ gs.length) :
    ∃ X : Nat → Nat, Picture X (rowsAll 0 [] true gs) (format gs) := by
  have hnamed := namedAll_of gs hn
  rw [format_many h2]
  exact ⟨_, picture_all gs ⟨setMaxAll 1 gs [(0, 0)], 0, []⟩ true (full_setMaxAll gs hnamed)
    ⟨List.Pairwise.nil, by simp⟩ (setMaxAll_fits gs 1 _ hnamed) hn⟩

mutual
theorem rows_names (g : Group) (e : Nat) (th : List Nat) (f : Bool) : (g.rows e th f).map Row.name = g.names := by
  cases g with
  | mk starts name => simp [Group.rows, Group.names, rowsAll_names starts]
theorem rowsAll_names (gs : List Group) (e : Nat) (th : List Nat) (f : Bool) :
    (rowsAll e th f gs).map Row.name = namesAll gs := by
  cases gs with
  | nil => simp [rowsAll, namesAll]
  | cons g gs => simp [rowsAll, namesAll, rows_names g, rowsAll_names gs]
end

theorem getLast?_append_ne {α : Type} (l : List α) {l' : List α} (h : l' ≠ []) :
    (l ++ l').getLast? = l'.getLast? := by
  rw [List.getLast?_append]
  cases hl : l'.getLast? with
  | none => exact absurd (List.getLast?_eq_none_iff.1 hl) h
  | some a => rfl

theorem Picture.last {X : Nat → Nat} {rs : List Row} {t : Text} (h : Picture X rs t) (hne : rs ≠ []) :
    t.getLast? = some '\n' := by
  induction h with
  | nil => exact absurd rfl hne
  | @cons r rs line text hd hl hp ih =>
    cases rs with
    | nil => cases hp; simp
    | cons r' rs =>
      have := ih (by simp)
      rw [getLast?_append_ne _ (by simp)]
      cases text with
      | nil => simp at this
      | cons a text => simpa using this

theorem rowsAll_ne {gs : List Group} (h : gs ≠ []) (e : Nat) (th : List Nat) (f : Bool) : rowsAll e th f gs ≠ [] := by
  cases gs with
  | nil => exact absurd rfl h
  | cons g gs =>
    cases g with
    | mk s n => simp [rowsAll, Group.rows]

/-- The comment of the generated code shows the tree exactly when there are two or more groups. -/
theorem C97_shown (gs : List Group) (hn : Names gs) :
    dependencyGraph gs = if 2 ≤ gs.length then format gs else [] := by
  unfold dependencyGraph
  by_cases h2 : 2 ≤ gs.length
  · rw [if_pos h2]
    obtain ⟨X, hp⟩ := C97_picture_partial gs hn h2
    have hne : gs ≠ [] := by intro h; rw [h] at h2; simp at h2
    rw [if_pos (hp.last (rowsAll_ne hne _ _ _))]
  · rw [if_neg h2]
    match gs, h2, hn with
    | _ :: _ :: _, h2, _ => simp at h2
    | [], _, _ => rfl
    | [.mk s n], _, hn =>
      have hnn : isName n = true := hn n (by simp [namesAll, Group.names])
      have hlast : (format [.mk s n]).getLast? = n.getLast? := by
        simp only [format, Group.treeFormat, endText]
        rw [getLast?_append_ne _ (by simp [isName_ne hnn]),
          getLast?_append_ne _ (by simp [isName_ne hnn]),
          getLast?_append_ne _ (isName_ne hnn)]
      rw [hlast, if_neg]
      intro h
      exact no_char hnn '\n' (by decide) (List.mem_of_getLast? h)

/-! ### The picture determines the tree -/

mutual
def Group.sig (e : Nat) : Group → List (Text × Nat)
  | .mk starts name => sigAll (e + 1) starts ++ [(name, e)]
def sigAll (e : Nat) : List Group → List (Text × Nat)
  | [] => []
  | g :: gs => g.sig e ++ sigAll e gs
end

mutual
theorem rows_sig (g : Group) (e : Nat) (th : List Nat) (f : Bool) :
    (g.rows e th f).map (fun r => (r.name, r.depth)) = g.sig e := by
  cases g with
  | mk starts name => simp [Group.rows, Group.sig, rowsAll_sig starts]
theorem rowsAll_sig (gs : List Group) (e : Nat) (th : List Nat) (f : Bool) :
    (rowsAll e th f gs).map (fun r => (r.name, r.depth)) = sigAll e gs := by
  cases gs with
  | nil => simp [rowsAll, sigAll]
  | cons g gs => simp [rowsAll, sigAll, rows_sig g, rowsAll_sig gs]
end

mutual
theorem sig_ge (g : Group) (e : Nat) : ∀ p ∈ g.sig e, e ≤ p.2 := by
  cases g with
  | mk starts name =>
    intro p hp
    simp only [Group.sig, List.mem_append, List.mem_singleton] at hp
    rcases hp with hp | rfl
    · have := sigAll_ge starts (e + 1) p hp; omega
    · exact Nat.le_refl _
theorem sigAll_ge (gs : List Group) (e : Nat) : ∀ p ∈ sigAll e gs, e ≤ p.2 := by
  cases gs with
  | nil => simp [sigAll]
  | cons g gs =>
    intro p hp
    simp only [sigAll, List.mem_append] at hp
    rcases hp with hp | hp
    · exact sig_ge g e p hp
    · exact sigAll_ge gs e p hp
end

theorem split_unique {e : Nat} {a a' b b' : List (Text × Nat)} {n n' : Text} (ha : ∀ p ∈ a, e + 1 ≤ p.2)
    (ha' : ∀ p ∈ a', e + 1 ≤ p.2) (h : a ++ (n, e) :: b = a' ++ (n', e) :: b') : a = a' ∧ n = n' ∧ b = b' := by
  induction a generalizing a' with
  | nil =>
    cases a' with
    | nil =>
      simp only [List.nil_append, List.cons.injEq, Prod.mk.injEq, and_true] at h
      exact ⟨rfl, h⟩
    | cons q a' =>
      simp only [List.nil_append, List.cons_append, List.cons.injEq] at h
      have := ha' q (by simp)
      rw [← h.1] at this
      simp only at this
      omega
  | cons p a ih =>
    cases a' with
    | nil =>
      simp only [List.nil_append, List.cons_append, List.cons.injEq] at h
      have := ha p (by simp)
      rw [h.1] at this
      simp only at this
      omega
    | cons q a' =>
      simp only [List.cons_append, List.cons.injEq] at h
      obtain ⟨h1, h2, h3⟩ := ih (a' := a') (fun p hp => ha p (by simp [hp])) (fun p hp => ha' p (by simp [hp])) h.2
      exact ⟨by rw [h.1, h1], h2, h3⟩

mutual
theorem sig_inj (g g' : Group) (e : Nat) (h : g.sig e = g'.sig e) : g = g' := by
  cases g with
  | mk s n =>
    cases g' with
    | mk s' n' =>
      simp only [Group.sig] at h
      obtain ⟨h1, h2, _⟩ := split_unique (sigAll_ge s (e + 1)) (sigAll_ge s' (e + 1)) h
      rw [sigAll_inj s s' (e + 1) h1, h2]
theorem sigAll_inj (gs gs' : List Group) (e : Nat) (h : sigAll e gs = sigAll e gs') : gs = gs' := by
  cases gs with
  | nil =>
    cases gs' with
    | nil => rfl
    | cons g' gs' => cases g'; simp [sigAll, Group.sig] at h
  | cons g gs =>
    cases gs' with
    | nil => cases g; simp [sigAll, Group.sig] at h
    | cons g' gs' =>
      cases g with
      | mk s n =>
        cases g' with
        | mk s' n' =>
          simp only [sigAll, Group.sig, List.append_assoc, List.singleton_append] at h
          obtain ⟨h1, h2, h3⟩ := split_unique (sigAll_ge s (e + 1)) (sigAll_ge s' (e + 1)) h
          rw [sigAll_inj s s' (e + 1) h1, h2, sigAll_inj gs gs' e h3]
end

mutual
/-- Every depth between that of the one that waits and the depth of a row is the depth of a row. -/
theorem sig_between (g : Group) (e : Nat) : ∀ p ∈ g.sig e, ∀ k, e ≤ k → k ≤ p.2 → ∃ q ∈ g.sig e, q.2 = k := by
  cases g with
  | mk starts name =>
    intro p hp k hk hk'
    simp only [Group.sig, List.mem_append, List.mem_singleton] at hp ⊢
    by_cases he : k = e
    · exact ⟨(name, e), Or.inr rfl, he.symm⟩
    rcases hp with hp | rfl
    · obtain ⟨q, hq, hqk⟩ := sigAll_between starts (e + 1) p hp k (by omega) hk'
      exact ⟨q, Or.inl hq, hqk⟩
    · simp only at hk'; omega
theorem sigAll_between (gs : List Group) (e : Nat) :
    ∀ p ∈ sigAll e gs, ∀ k, e ≤ k → k ≤ p.2 → ∃ q ∈ sigAll e gs, q.2 = k := by
  cases gs with
  | nil => simp [sigAll]
  | cons g gs =>
    intro p hp k hk hk'
    simp only [sigAll, List.mem_append] at hp ⊢
    rcases hp with hp | hp
    · obtain ⟨q, hq, hqk⟩ := sig_between g e p hp k hk hk'; exact ⟨q, Or.inl hq, hqk⟩
    · obtain ⟨q, hq, hqk⟩ := sigAll_between gs e p hp k hk hk'; exact ⟨q, Or.inr hq, hqk⟩
end

/-- Two lines with the same text have their corner in the same column, and the same name. -/
theorem drawn_unique {X X' : Nat → Nat} {r r' : Row} {line : Text} (h : Drawn X r line) (h' : Drawn X' r' line)
    (hn : isName r.name = true) (hn' : isName r'.name = true) :
    X r.depth = X' r'.depth ∧ r.name = r'.name ∧ r.first = r'.first := by
  -- the column of the dash is that of the first dash
  have key : ∀ {X X' : Nat → Nat} {r r' : Row}, Drawn X r line → Drawn X' r' line → isName r'.name = true →
      X' r'.depth ≤ X r.depth := by
    intro X X' r r' h h' hn'
    have hd := h.dash.2
    have hf := h.fits
    have hf' := h'.fits
    have ht := h'.name
    rcases Nat.lt_or_ge (X r.depth - 1) (X' r'.depth - 2) with hlt | hge
    · have hm : (line.take (X' r'.depth - 2))[X r.depth - 1]? = some '─' := by
        rw [List.getElem?_take_of_lt hlt]; exact hd
      rw [ht] at hm
      rcases List.mem_append.1 (List.mem_of_getElem? hm) with hm | hm
      · exact absurd (List.eq_of_mem_replicate hm) (by decide)
      · exact absurd hm (no_char hn' '─' (by decide))
    · rcases Nat.lt_or_ge (X r.depth - 1) (X' r'.depth - 1) with hlt | hge
      · have h2 := h'.dash.1
        rw [show X' r'.depth - 2 = X r.depth - 1 by omega, hd] at h2
        exact absurd h2 (by decide)
      · omega
  have hX : X r.depth = X' r'.depth := Nat.le_antisymm (key h' h hn) (key h h' hn')
  refine ⟨hX, ?_, ?_⟩
  · have h1 := h.name
    have h2 := h'.name
    rw [← hX, h1] at h2
    -- drop the spaces
    have hdrop : ∀ (k : Nat) (n : Text), isName n = true →
        (List.replicate k ' ' ++ n).filter (fun c => decide (c ≠ ' ')) = n := by
      intro k n hn
      rw [List.filter_append, List.filter_replicate_of_neg (by decide), List.nil_append]
      rw [List.filter_eq_self]
      intro c hc
      have := no_char hn ' ' (by decide)
      simp only [ne_eq, decide_not, Bool.not_eq_true', decide_eq_false_iff_not]
      intro he
      rw [he] at hc
      exact this hc
    have := congrArg (List.filter fun c => decide (c ≠ ' ')) h2
    rw [hdrop _ _ hn, hdrop _ _ hn'] at this
    exact this
  · have h1 := h.corner
    have h2 := h'.corner
    rw [← hX, h1] at h2
    cases hr : r.first <;> cases hr' : r'.first <;> rw [hr, hr'] at h2 <;> first | rfl | exact absurd h2 (by decide)

theorem line_unique {l l' t t' : Text} (h : '\n' ∉ l) (h' : '\n' ∉ l') (he : l ++ '\n' :: t = l' ++ '\n' :: t') :
    l = l' ∧ t = t' := by
  induction l generalizing l' with
  | nil =>
    cases l' with
    | nil => simpa using he
    | cons c l' =>
      simp only [List.nil_append, List.cons_append, List.cons.injEq] at he
      exact absurd (by rw [he.1]; simp) h'
  | cons c l ih =>
    cases l' with
    | nil =>
      simp only [List.nil_append, List.cons_append, List.cons.injEq] at he
      exact absurd (by rw [← he.1]; simp) h
    | cons c' l' =>
      simp only [List.cons_append, List.cons.injEq] at he
      simp only [List.mem_cons, not_or] at h h'
      obtain ⟨h1, h2⟩ := ih h.2 h'.2 he.2
      exact ⟨by rw [he.1, h1], h2⟩

/-- Two pictures of the same text have rows with the same names and columns. -/
theorem picture_unique {X X' : Nat → Nat} {rs rs' : List Row} {t : Text} (h : Picture X rs t) (h' : Picture X' rs' t)
    (hn : ∀ r ∈ rs, isName r.name = true) (hn' : ∀ r ∈ rs', isName r.name = true) :
    rs.map (fun r => (r.name, X r.depth)) = rs'.map (fun r => (r.name, X' r.depth)) := by
  induction h generalizing rs' with
  | nil =>
    cases rs' with
    | nil => rfl
    | cons r rs' =>
      generalize ht : ([] : Text) = t at h'
      cases h' with
      | cons _ _ _ => simp at ht
  | @cons r rs line text hd hl hp ih =>
    generalize ht : line ++ '\n' :: text = t at h'
    cases h' with
    | nil => simp at ht
    | @cons r' rs' line' text' hd' hl' hp' =>
      obtain ⟨rfl, rfl⟩ := line_unique hl hl' ht
      obtain ⟨h1, h2, _⟩ := drawn_unique hd hd' (hn r (by simp)) (hn' r' (by simp))
      rw [List.map_cons, List.map_cons, h1, h2,
        ih hp' (fun r hr => hn r (by simp [hr])) (fun r hr => hn' r (by simp [hr]))]

/-- Every row fits. -/
theorem Picture.fits {X : Nat → Nat} {rs : List Row} {t : Text} (h : Picture X rs t) :
    ∀ r ∈ rs, X (r.depth + 1) < X r.depth := by
  induction h with
  | nil => simp
  | cons hd _ _ ih =>
    intro r hr
    rcases List.mem_cons.1 hr with rfl | hr
    · have := hd.fits; omega
    · exact ih r hr

/-- The columns of the depths of a tree, from left to right, are those of the deepest first. -/
theorem anti {X : Nat → Nat} {ds : List Nat} (hx : ∀ d ∈ ds, X (d + 1) < X d)
    (hb : ∀ d ∈ ds, ∀ k, k ≤ d → k ∈ ds) {i j : Nat} (hij : i < j) (hj : j ∈ ds) : X j < X i := by
  induction j with
  | zero => omega
  | succ j ih =>
    have hj' := hb _ hj j (by omega)
    have := hx j hj'
    by_cases h : i = j
    · subst h; exact this
    · have := ih (by omega) hj'; omega

theorem depth_unique {X X' : Nat → Nat} {ds ds' : List Nat} (hx : ∀ d ∈ ds, X (d + 1) < X d)
    (hx' : ∀ d ∈ ds', X' (d + 1) < X' d) (hb : ∀ d ∈ ds, ∀ k, k ≤ d → k ∈ ds)
    (hb' : ∀ d ∈ ds', ∀ k, k ≤ d → k ∈ ds') (h : ds.map X = ds'.map X') : ds = ds' := by
  have to : ∀ d ∈ ds, ∃ k ∈ ds', X' k = X d := by
    intro d hd
    have : X d ∈ ds'.map X' := by rw [← h]; exact List.mem_map.2 ⟨d, hd, rfl⟩
    exact List.mem_map.1 this
  have fro : ∀ d ∈ ds', ∃ k ∈ ds, X k = X' d := by
    intro d hd
    have : X' d ∈ ds.map X := by rw [h]; exact List.mem_map.2 ⟨d, hd, rfl⟩
    exact List.mem_map.1 this
  have main : ∀ n, ∀ d, d < n → d ∈ ds → d ∈ ds' ∧ X d = X' d := by
    intro n
    induction n with
    | zero => intro d h; omega
    | succ n ih =>
      intro d hdn hd
      obtain ⟨k, hk, hkx⟩ := to d hd
      have hkd : d ≤ k := by
        rcases Nat.lt_or_ge k d with hlt | hge
        · have h1 := ih k (by omega) (hb d hd k (by omega))
          have h2 := anti hx hb hlt hd
          omega
        · exact hge
      have hd' := hb' k hk d hkd
      refine ⟨hd', ?_⟩
      obtain ⟨j, hj, hjx⟩ := fro d hd'
      have hjd : d ≤ j := by
        rcases Nat.lt_or_ge j d with hlt | hge
        · have h1 := ih j (by omega) hj
          have h2 := anti hx' hb' hlt hd'
          omega
        · exact hge
      have h1 : X j ≤ X d := by
        rcases Nat.lt_or_ge d j with hlt | hge
        · exact Nat.le_of_lt (anti hx hb hlt hj)
        · rw [show j = d by omega]; exact Nat.le_refl _
      have h2 : X' k ≤ X' d := by
        rcases Nat.lt_or_ge d k with hlt | hge
        · exact Nat.le_of_lt (anti hx' hb' hlt hk)
        · rw [show k = d by omega]; exact Nat.le_refl _
      omega
  have inj : ∀ i ∈ ds', ∀ j ∈ ds', X' i = X' j → i = j := by
    intro i hi j hj hij
    rcases Nat.lt_trichotomy i j with hlt | heq | hgt
    · have := anti hx' hb' hlt hj; omega
    · exact heq
    · have := anti hx' hb' hgt hi; omega
  have m : ∀ d ∈ ds, d ∈ ds' ∧ X d = X' d := fun d hd => main (d + 1) d (by omega) hd
  -- pointwise
  apply List.ext_getElem?
  intro i
  have hi := congrArg (fun l => l[i]?) h
  simp only [List.getElem?_map] at hi
  cases h1 : ds[i]? with
  | none =>
    rw [h1] at hi
    cases h2 : ds'[i]? with
    | none => rfl
    | some y => rw [h2] at hi; simp at hi
  | some x =>
    rw [h1] at hi
    cases h2 : ds'[i]? with
    | none => rw [h2] at hi; simp at hi
    | some y =>
      rw [h2] at hi
      simp only [Option.map_some, Option.some.injEq] at hi
      have hx1 := m x (List.mem_of_getElem? h1)
      rw [inj x hx1.1 y (List.mem_of_getElem? h2) (by omega)]

/-- The tree can be read back from the picture: two sets of dependencies with the same text are the same. -/
theorem C97_determines_partial (gs gs' : List Group) (hn : Names gs) (hn' : Names gs') (h2 : 2 ≤ gs.length)
    (h2' : 2 ≤ gs'.length) (h : format gs = format gs') : gs = gs' := by
  obtain ⟨X, hp⟩ := C97_picture_partial gs hn h2
  obtain ⟨X', hp'⟩ := C97_picture_partial gs' hn' h2'
  rw [h] at hp
  have nm : ∀ {gs : List Group}, Names gs → ∀ r ∈ rowsAll 0 [] true gs, isName r.name = true := by
    intro gs hn r hr
    apply hn
    rw [← rowsAll_names gs 0 [] true]
    exact List.mem_map.2 ⟨r, hr, rfl⟩
  have hu := picture_unique hp hp' (nm hn) (nm hn')
  have dep : ∀ gs : List Group, (rowsAll 0 [] true gs).map Row.depth = (sigAll 0 gs).map (·.2) := by
    intro gs
    rw [← rowsAll_sig gs 0 [] true]
    simp
  have bet : ∀ gs : List Group, ∀ d ∈ (rowsAll 0 [] true gs).map Row.depth, ∀ k, k ≤ d →
      k ∈ (rowsAll 0 [] true gs).map Row.depth := by
    intro gs d hd k hk
    rw [dep gs] at hd ⊢
    obtain ⟨p, hp, rfl⟩ := List.mem_map.1 hd
    obtain ⟨q, hq, hqk⟩ := sigAll_between gs 0 p hp k (Nat.zero_le _) hk
    exact List.mem_map.2 ⟨q, hq, hqk⟩
  have hcols : ((rowsAll 0 [] true gs).map Row.depth).map X = ((rowsAll 0 [] true gs').map Row.depth).map X' := by
    have := congrArg (List.map Prod.snd) hu
    rw [List.map_map, List.map_map] at this
    rw [List.map_map, List.map_map]
    exact this
  have hdep := depth_unique
    (fun d hd => by obtain ⟨r, hr, rfl⟩ := List.mem_map.1 hd; exact hp.fits r hr)
    (fun d hd => by obtain ⟨r, hr, rfl⟩ := List.mem_map.1 hd; exact hp'.fits r hr) (bet gs) (bet gs') hcols
  have hnames : namesAll gs = namesAll gs' := by
    have := congrArg (List.map Prod.fst) hu
    rw [List.map_map, List.map_map] at this
    rw [← rowsAll_names gs 0 [] true, ← rowsAll_names gs' 0 [] true]
    exact this
  apply sigAll_inj gs gs' 0
  have h1 : (sigAll 0 gs).map (·.2) = (sigAll 0 gs').map (·.2) := by rw [← dep, ← dep]; exact hdep
  have fst : ∀ gs : List Group, (sigAll 0 gs).map (·.1) = namesAll gs := by
    intro gs
    rw [← rowsAll_sig gs 0 [] true, ← rowsAll_names gs 0 [] true]
    simp
  have h0 : (sigAll 0 gs).map (·.1) = (sigAll 0 gs').map (·.1) := by rw [fst, fst]; exact hnames
  have zip : ∀ l : List (Text × Nat), l = (l.map (·.1)).zip (l.map (·.2)) := by
    intro l
    induction l with
    | nil => rfl
    | cons a l ih => rw [List.map_cons, List.map_cons, List.zip_cons_cons, ← ih]
  rw [zip (sigAll 0 gs), zip (sigAll 0 gs'), h0, h1]

/-- The full claim fails for a chain: `a` is waited for by `bb`, and nothing is shown. -/
theorem C97_single_false : ∃ gs : List Group, Names gs ∧ 2 ≤ (namesAll gs).length ∧ dependencyGraph gs = [] :=
  ⟨[.mk [.mk [] ['a']] ['b', 'b']], by decide +kernel, by decide, by decide +kernel⟩

/-- The hypotheses are met: `res` waits for `a` and `bc`, which waits for `x`; beside it stands `y`. -/
example : Names [.mk [.mk [] ['a'], .mk [.mk [] ['x']] ['b', 'c']] ['r', 'e', 's'], .mk [] ['y']] ∧
    format [.mk [.mk [] ['a'], .mk [.mk [] ['x']] ['b', 'c']] ['r', 'e', 's'], .mk [] ['y']] =
      [' ', ' ', ' ', ' ', 'a', ' ', '─', '┐', '\n',
       'x', ' ', '─', '┐', ' ', ' ', ' ', '│', '\n',
       ' ', ' ', ' ', 'b', 'c', ' ', '─', '┤', '\n',
       ' ', ' ', ' ', ' ', ' ', ' ', ' ', 'r', 'e', 's', ' ', '─', '┐', '\n',
       ' ', ' ', ' ', ' ', ' ', ' ', ' ', ' ', ' ', 'y', ' ', '─', '┤', '\n'] := by
  decide +kernel

end Verif.Tree
