import Verif.SemTok.Spec

/-! # C110: the editor reads the tokens of the file -/

namespace Verif.SemTok

theorem sub32_le {a b : Nat} (ha : a < W) (h : b ≤ a) : sub32 a b = a - b := by
  unfold sub32
  have : a + W - b = (a - b) + W := by omega
  rw [this, Nat.add_mod_right, Nat.mod_eq_of_lt (by omega)]

theorem sub32_lt {a b : Nat} (hb : b < W) (h : a < b) : sub32 a b = a + W - b := by
  unfold sub32
  rw [Nat.mod_eq_of_lt (by omega)]

/-- The positions that are read are those of the tokens exactly if the tokens are in order. -/
theorem read_rows (types mods : List String) : ∀ (ts : List Tok) (t : Tok), t.Sane → (∀ x ∈ ts, x.Sane) →
    ((read types mods (t.line - 1, t.col - 1) (rows types mods (t.line, t.col) ts)).map (fun r => (r.line + 1, r.col + 1)) =
      ts.map (fun x => (x.line, x.col)) ↔ InOrder (t :: ts))
  | [], t, _, _ => by simp [rows, read, InOrder]
  | b :: ts, t, ht, hs => by
    have hb := hs b (by simp)
    have ih := read_rows types mods ts b hb (fun x hx => hs x (by simp [hx]))
    obtain ⟨h1, h2, h3, h4⟩ := ht
    obtain ⟨g1, g2, g3, g4⟩ := hb
    simp only [rows, read, List.map_cons, List.cons.injEq, InOrder]
    unfold calcLineAndCol le
    by_cases hl : b.line = t.line
    · by_cases hc : t.col ≤ b.col
      · have e1 : t.col - 1 + sub32 b.col t.col = b.col - 1 := by rw [sub32_le g4 hc]; omega
        simp only [hl, if_pos, e1]
        rw [hl] at ih
        have : b.col - 1 + 1 = b.col := by omega
        have h5 : t.line - 1 + 1 = t.line := by omega
        simp only [this, h5, ih]
        simp [hc]
      · have hd := sub32_lt h4 (Nat.lt_of_not_le hc)
        simp only [hl, if_pos, hd]
        constructor
        · intro h
          exfalso
          have := h.1
          simp only [Prod.mk.injEq] at this
          unfold W at *
          omega
        · intro h
          exfalso
          omega
    · simp only [if_neg hl]
      by_cases hlt : t.line < b.line
      · have hd := sub32_le g2 (Nat.le_of_lt hlt)
        have hne : b.line - t.line ≠ 0 := by omega
        have e1 : t.line - 1 + (b.line - t.line) = b.line - 1 := by omega
        have e2 : sub32 b.col 1 = b.col - 1 := sub32_le g4 g3
        simp only [hd, if_neg hne, e1, e2, ih]
        have e3 : b.line - 1 + 1 = b.line := by omega
        have e4 : b.col - 1 + 1 = b.col := by omega
        simp [e3, e4, hlt]
      · have hgt : b.line < t.line := by omega
        have hd := sub32_lt h2 hgt
        have hne : b.line + W - t.line ≠ 0 := by omega
        simp only [hd, if_neg hne]
        constructor
        · intro h
          exfalso
          have := h.1
          simp only [Prod.mk.injEq] at this
          unfold W at *
          omega
        · intro h
          exfalso
          omega

/-! ## The legend -/

theorem index_fold (n : String) : ∀ (names : List String) (k : Nat) (r : Option Nat), names.Nodup →
    (names.zipIdx k).foldl (fun r e => if e.1 = n then some e.2 else r) r =
      if n ∈ names then some (k + names.idxOf n) else r
  | [], k, r, _ => by simp
  | a :: names, k, r, h => by
    rw [List.nodup_cons] at h
    rw [List.zipIdx_cons, List.foldl_cons, index_fold n names (k + 1) _ h.2]
    by_cases hn : a = n
    · subst hn
      simp [h.1]
    · have hn' : n ≠ a := fun h => hn h.symm
      by_cases hm : n ∈ names
      · have hb : (a == n) = false := by simpa using hn
        simp [hm, List.idxOf_cons, hb]
        omega
      · simp [hm, hn, hn']

theorem index_nodup {names : List String} (h : names.Nodup) (n : String) :
    index names n = if n ∈ names then some (names.idxOf n) else none := by
  unfold index
  rw [index_fold n names 0 none h]
  simp

theorem modNum_bit {mods : List String} (h : mods.Nodup) (hl : mods.length ≤ 32) (m : String) {i : Nat} (hi : i < mods.length) :
    (modNum mods m).testBit i = true ↔ mods[i]? = some m := by
  unfold modNum
  rw [index_nodup h]
  have hW : W = 2 ^ 32 := rfl
  by_cases hm : m ∈ mods
  · rw [if_pos hm]
    have hlt := List.idxOf_lt_length_of_mem hm
    simp only
    rw [Nat.mod_eq_of_lt (by rw [hW]; exact Nat.pow_lt_pow_right (by omega) (by omega)), Nat.testBit_two_pow]
    constructor
    · intro he
      have he := of_decide_eq_true he
      subst he
      rw [List.getElem?_eq_getElem hlt, List.getElem_idxOf hlt]
    · intro he
      rw [List.getElem?_eq_getElem hi, Option.some.injEq] at he
      subst he
      exact decide_eq_true (h.idxOf_getElem i hi)
  · rw [if_neg hm]
    simp only [Nat.zero_testBit, Bool.false_eq_true, false_iff]
    intro he
    exact hm (List.mem_of_getElem? he)

theorem modBits_bit {mods : List String} (h : mods.Nodup) (hl : mods.length ≤ 32) {i : Nat} (hi : i < mods.length) :
    ∀ (ms : List String) (b : Nat), (ms.foldl (fun b m => b ||| modNum mods m) b).testBit i = true ↔
      b.testBit i = true ∨ ∃ m ∈ ms, mods[i]? = some m
  | [], b => by simp
  | m :: ms, b => by
    rw [List.foldl_cons, modBits_bit h hl hi ms, Nat.testBit_or, Bool.or_eq_true, modNum_bit h hl m hi]
    constructor
    · rintro ((h1 | h1) | ⟨x, hx, h2⟩)
      · exact .inl h1
      · exact .inr ⟨m, by simp, h1⟩
      · exact .inr ⟨x, by simp [hx], h2⟩
    · rintro (h1 | ⟨x, hx, h2⟩)
      · exact .inl (.inl h1)
      · rcases List.mem_cons.1 hx with rfl | hx
        · exact .inl (.inr h2)
        · exact .inr ⟨x, hx, h2⟩

/-! ## Properties -/

/-- The editor reads the tokens at their positions exactly if every token starts at or after the start of the one before. -/
theorem C110_positions (types mods : List String) (ts : List Terminal)
    (hs : ∀ t ∈ ts.flatMap (fun t => t.comments.flatMap commentToks ++ t.toks), t.Sane) :
    (read types mods (0, 0) (data types mods ts)).map (fun r => (r.line + 1, r.col + 1)) =
      (ts.flatMap fun t => t.comments.flatMap commentToks ++ t.toks).map (fun t => (t.line, t.col)) ↔
    InOrder (ts.flatMap fun t => t.comments.flatMap commentToks ++ t.toks) := by
  unfold data
  revert hs
  generalize (ts.flatMap fun t => t.comments.flatMap commentToks ++ t.toks) = l
  intro hs
  have key := read_rows types mods l ⟨1, 1, 0, "", []⟩ (by simp [Tok.Sane, W]) hs
  simp only [Nat.sub_self] at key
  rw [key]
  cases l with
  | nil => simp [InOrder]
  | cons b l =>
    obtain ⟨h1, _, h3, _⟩ := hs b (by simp)
    simp only [InOrder, le]
    constructor
    · exact fun h => h.2
    · intro h
      refine ⟨?_, h⟩
      omega

/-- The editor reads the length of every token, its type, if it said that it knows the type, and those of its modifiers it knows. -/
theorem C110_legend_partial (types mods : List String) (ht : types.Nodup) (hm : mods.Nodup) (hl : mods.length ≤ 32) :
    ∀ (ts : List Tok) (p q : Nat × Nat) (i : Nat) (t : Tok) (r : Read), ts[i]? = some t →
      (read types mods p (rows types mods q ts))[i]? = some r →
      r.len = t.len ∧ (t.type ∈ types → r.type = some t.type) ∧ ∀ m, m ∈ r.mods ↔ m ∈ mods ∧ m ∈ t.mods
  | [], _, _, _, _, _, h, _ => by simp at h
  | a :: ts, p, (l, c), 0, t, r, h, hr => by
    simp only [List.getElem?_cons_zero, Option.some.injEq] at h
    subst h
    simp only [rows, read, List.getElem?_cons_zero, Option.some.injEq] at hr
    subst hr
    refine ⟨rfl, fun hmem => ?_, fun m => ?_⟩
    · simp only [typeNum, index_nodup ht, if_pos hmem, Option.getD_some]
      rw [List.getElem?_eq_getElem (List.idxOf_lt_length_of_mem hmem), List.getElem_idxOf]
    · simp only [readMods, List.mem_map, List.mem_filter]
      constructor
      · rintro ⟨⟨x, j⟩, ⟨hz, hb⟩, rfl⟩
        have hj := List.mk_mem_zipIdx_iff_getElem?.1 hz
        have hjl : j < mods.length := by
          rw [List.getElem?_eq_some_iff] at hj; exact hj.1
        unfold modBits at hb
        rw [modBits_bit hm hl hjl] at hb
        rcases hb with hb | ⟨y, hy, he⟩
        · simp at hb
        · rw [hj, Option.some.injEq] at he
          exact ⟨List.mem_of_getElem? hj, he ▸ hy⟩
      · rintro ⟨h1, h2⟩
        obtain ⟨j, hjl, hj⟩ := List.getElem_of_mem h1
        have hj' : mods[j]? = some m := by rw [List.getElem?_eq_getElem hjl, hj]
        refine ⟨(m, j), ⟨List.mk_mem_zipIdx_iff_getElem?.2 hj', ?_⟩, rfl⟩
        unfold modBits
        rw [modBits_bit hm hl hjl]
        exact .inr ⟨m, h2, hj'⟩
  | a :: ts, p, (l, c), i + 1, t, r, h, hr => by
    simp only [rows, read, List.getElem?_cons_succ] at h hr
    exact C110_legend_partial types mods ht hm hl ts _ _ i t r h hr

theorem dropWhile_quote {l : List Nat} (h : l.head? ≠ some quote) : l.dropWhile (· = quote) = l := by
  cases l with
  | nil => rfl
  | cons a l =>
    rw [List.dropWhile_cons_of_neg]
    intro he
    exact h (by simp [of_decide_eq_true he])

theorem trim_quoted {name : List Nat} (h1 : name.head? ≠ some quote) (h2 : name.getLast? ≠ some quote) :
    trim (quote :: (name ++ [quote])) = name := by
  unfold trim
  have e1 : (quote :: (name ++ [quote])).dropWhile (· = quote) = (name ++ [quote]).dropWhile (· = quote) := by simp
  rw [e1]
  cases name with
  | nil => rfl
  | cons a l =>
    have ha : a ≠ quote := fun h => h1 (by simp [h])
    rw [List.cons_append, List.dropWhile_cons_of_neg (by simpa using ha), ← List.cons_append, List.reverse_append]
    have e2 : ([quote].reverse ++ (a :: l).reverse).dropWhile (· = quote) = ((a :: l).reverse).dropWhile (· = quote) := by simp
    rw [e2, dropWhile_quote (by rw [List.head?_reverse]; exact h2), List.reverse_reverse]

/-- The tokens of a name in quotation marks are the marks and the name, each where it is written. -/
theorem C110_name (line col : Nat) (name : List Nat) (type : String) (mods : List String) (h1 : name.head? ≠ some quote)
    (h2 : name.getLast? ≠ some quote) :
    quoted line col (quote :: (name ++ [quote])) type mods =
      [⟨line, col, 1, "string", []⟩, ⟨line, col + 1, name.length, type, mods⟩, ⟨line, col + 1 + name.length, 1, "string", []⟩] := by
  unfold quoted
  rw [trim_quoted h1 h2]
  simp only [List.length_cons, List.length_append, List.length_nil]
  have : col + (name.length + (0 + 1) + 1) - 1 = col + 1 + name.length := by omega
  rw [this]

/-- The tokens of a value of which only the first token is known are in order exactly if this token has two characters. -/
theorem C110_name_order_partial (line col : Nat) (text : List Nat) (type : String) (mods : List String) :
    InOrder (quoted line col text type mods) ↔ 2 ≤ text.length := by
  simp only [quoted, InOrder, le, and_true, true_and]
  constructor
  · intro h; omega
  · intro h
    exact ⟨.inr (by omega), .inr (by omega)⟩

/-- For `enum: {…}`, and for a list of aliases, the last token is before the one before it. -/
theorem C110_brace_false (line col b : Nat) (type : String) (mods : List String) : ¬ InOrder (quoted line col [b] type mods) := by
  rw [C110_name_order_partial]
  simp

/-- What the editor reads for `enum: {…}` is more than four thousand million columns to the right. -/
theorem C110_enum_false :
    (read ["string", "enumMember"] [] (0, 0) (data ["string", "enumMember"] [] [⟨[], quoted 3 11 [123] "enumMember" []⟩])).map
      (fun r => (r.line, r.col)) = [(2, 10), (2, 11), (2, 4294967306)] := by decide

/-! ## Expressions -/

theorem inOrder_iff : ∀ (ts : List Tok), InOrder ts ↔ ts.Pairwise fun a b => le (a.line, a.col) (b.line, b.col)
  | [] => by simp [InOrder]
  | [a] => by simp [InOrder]
  | a :: b :: ts => by
    rw [InOrder, inOrder_iff (b :: ts), List.pairwise_cons (a := a)]
    constructor
    · rintro ⟨h1, h2⟩
      refine ⟨fun x hx => ?_, h2⟩
      rcases List.mem_cons.1 hx with rfl | hx
      · exact h1
      · have := (List.pairwise_cons.1 h2).1 x hx
        unfold le at *
        omega
    · rintro ⟨h1, h2⟩
      exact ⟨h1 b (by simp), h2⟩

theorem celLit_order (s : StrLit) (remain toks : List CelTok) (ht : 2 ≤ s.text.length)
    (hs : toks.Pairwise fun a b => a.col ≤ b.col) (hc : ∀ t ∈ toks, 1 ≤ t.col ∧ t.col + s.col < W) :
    (celLit s remain toks).Pairwise (fun a b => le (a.line, a.col) (b.line, b.col)) ∧
      ∀ t ∈ celLit s remain toks, t.line = s.line ∧ s.col ≤ t.col ∧ t.col ≤ s.end := by
  have hend : s.col + 1 ≤ s.end := by unfold StrLit.end; omega
  have hat : ∀ t ∈ toks, (t.at s).col = t.col + s.col := fun t h => by
    unfold CelTok.at add32
    exact Nat.mod_eq_of_lt (hc t h).2
  -- what is between the marks
  have hmid : ∀ t ∈ (if toks = [] then [(⟨s.line, s.col + 1, (trim s.text).length, "string", []⟩ : Tok)]
      else (toks.map (·.at s)).filter (·.col ≤ s.end)), t.line = s.line ∧ s.col + 1 ≤ t.col ∧ t.col ≤ s.end := by
    intro t h
    split at h
    · simp only [List.mem_singleton] at h
      subst h
      exact ⟨rfl, Nat.le_refl _, hend⟩
    · obtain ⟨h1, h2⟩ := List.mem_filter.1 h
      obtain ⟨x, hx, rfl⟩ := List.mem_map.1 h1
      refine ⟨rfl, ?_, of_decide_eq_true h2⟩
      rw [hat x hx]
      have := (hc x hx).1
      omega
  have hmidp : (if toks = [] then [(⟨s.line, s.col + 1, (trim s.text).length, "string", []⟩ : Tok)]
      else (toks.map (·.at s)).filter (·.col ≤ s.end)).Pairwise (fun a b => le (a.line, a.col) (b.line, b.col)) := by
    split
    · exact List.pairwise_singleton _ _
    · refine List.Pairwise.filter _ (List.pairwise_map.2 ?_)
      refine hs.imp_of_mem fun {a b} ha hb h => ?_
      refine .inr ⟨rfl, ?_⟩
      rw [hat a ha, hat b hb]
      omega
  have hrem : ∀ t ∈ remain.map (fun t => (⟨s.line, s.col + 1, t.len, t.type, t.mods⟩ : Tok)), t.line = s.line ∧ t.col = s.col + 1 := by
    intro t h
    obtain ⟨x, _, rfl⟩ := List.mem_map.1 h
    exact ⟨rfl, rfl⟩
  constructor
  · unfold celLit
    rw [List.pairwise_cons, List.pairwise_append, List.pairwise_append]
    refine ⟨?_, ?_, ⟨hmidp, List.pairwise_singleton _ _, ?_⟩, ?_⟩
    · intro t h
      simp only [List.mem_append, List.mem_singleton] at h
      rcases h with h | h | h
      · obtain ⟨h1, h2⟩ := hrem t h
        exact .inr ⟨h1.symm, by simp only [h2]; omega⟩
      · obtain ⟨h1, h2, _⟩ := hmid t h
        exact .inr ⟨h1.symm, by simp only; omega⟩
      · subst h
        exact .inr ⟨rfl, by simp only; omega⟩
    · exact List.pairwise_map.2 (List.pairwise_of_forall fun _ _ => .inr ⟨rfl, Nat.le_refl _⟩)
    · intro a ha b hb
      simp only [List.mem_singleton] at hb
      subst hb
      obtain ⟨h1, _, h3⟩ := hmid a ha
      exact .inr ⟨h1, h3⟩
    · intro a ha b hb
      obtain ⟨h1, h2⟩ := hrem a ha
      simp only [List.mem_append, List.mem_singleton] at hb
      rcases hb with hb | hb
      · obtain ⟨h3, h4, _⟩ := hmid b hb
        exact .inr ⟨h1.trans h3.symm, by simp only [h2]; exact h4⟩
      · subst hb
        exact .inr ⟨h1, by simp only [h2]; exact hend⟩
  · intro t h
    unfold celLit at h
    simp only [List.mem_cons, List.mem_append, List.not_mem_nil, or_false] at h
    rcases h with h | h | h | h
    · subst h
      exact ⟨rfl, Nat.le_refl _, by simp only; omega⟩
    · obtain ⟨h1, h2⟩ := hrem t h
      exact ⟨h1, by omega, by omega⟩
    · obtain ⟨h1, h2, h3⟩ := hmid t h
      exact ⟨h1, by omega, h3⟩
    · subst h
      exact ⟨rfl, by simp only; omega, Nat.le_refl _⟩

/-- The tokens of an expression, also if it is written as several literals, are in order in each literal and lie in it. -/
theorem C110_expression_partial (cel : Nat → List CelTok) (hs : ∀ i, (cel i).Pairwise fun a b => a.col ≤ b.col) :
    ∀ (lits : List StrLit) (idx : Nat) (remain : List CelTok), (∀ s ∈ lits, 2 ≤ s.text.length) →
      (∀ s ∈ lits, ∀ i, ∀ t ∈ cel i, 1 ≤ t.col ∧ t.col + s.col < W) → ∀ (j : Nat) (s : StrLit) (ts : List Tok), lits[j]? = some s →
      (celLits cel idx remain lits)[j]? = some ts →
      InOrder ts ∧ ∀ t ∈ ts, t.line = s.line ∧ s.col ≤ t.col ∧ t.col ≤ s.end
  | [], _, _, _, _, _, _, _, h, _ => by simp at h
  | a :: lits, idx, remain, hlen, hc, 0, s, ts, h, hts => by
    simp only [List.getElem?_cons_zero, Option.some.injEq] at h
    subst h
    simp only [celLits, List.getElem?_cons_zero, Option.some.injEq] at hts
    subst hts
    obtain ⟨h1, h2⟩ := celLit_order a remain (cel (idx + 1)) (hlen a (by simp)) (hs _) (fun t ht => hc a (by simp) _ t ht)
    exact ⟨(inOrder_iff _).2 h1, h2⟩
  | a :: lits, idx, remain, hlen, hc, j + 1, s, ts, h, hts => by
    simp only [celLits, List.getElem?_cons_succ] at h hts
    exact C110_expression_partial cel hs lits (idx + 1) _ (fun s hs => hlen s (by simp [hs])) (fun s hs => hc s (by simp [hs])) j s ts h hts

/-- A token of line `j` of an expression is at its column of literal `j`, behind the mark, if it starts in the literal. -/
theorem C110_expression_column (cel : Nat → List CelTok) (t : CelTok) :
    ∀ (lits : List StrLit) (idx : Nat) (remain : List CelTok) (j : Nat) (s : StrLit) (ts : List Tok), lits[j]? = some s →
      (celLits cel idx remain lits)[j]? = some ts → t ∈ cel (idx + 1 + j) → t.col + s.col < W → t.col + s.col ≤ s.end →
      ⟨s.line, s.col + t.col, t.len, t.type, t.mods⟩ ∈ ts
  | [], _, _, _, _, _, h, _, _, _, _ => by simp at h
  | a :: lits, idx, remain, 0, s, ts, h, hts, ht, hw, he => by
    simp only [List.getElem?_cons_zero, Option.some.injEq] at h
    subst h
    simp only [celLits, List.getElem?_cons_zero, Option.some.injEq] at hts
    subst hts
    unfold celLit
    have hne : cel (idx + 1) ≠ [] := fun h0 => by rw [Nat.add_zero, h0] at ht; cases ht
    rw [if_neg hne]
    have hat : t.at a = ⟨a.line, a.col + t.col, t.len, t.type, t.mods⟩ := by
      unfold CelTok.at add32
      rw [Nat.mod_eq_of_lt hw, Nat.add_comm]
    refine List.mem_cons_of_mem _ (List.mem_append_right _ (List.mem_append_left _ (List.mem_filter.2 ⟨?_, ?_⟩)))
    · exact List.mem_map.2 ⟨t, ht, hat⟩
    · simp only [decide_eq_true_eq]
      omega
  | a :: lits, idx, remain, j + 1, s, ts, h, hts, ht, hw, he => by
    simp only [celLits, List.getElem?_cons_succ] at h hts
    exact C110_expression_column cel t lits (idx + 1) _ j s ts h hts (by rw [show idx + 1 + 1 + j = idx + 1 + (j + 1) from by omega]; exact ht)
      hw he

/-- The column of a call is that of its function, if its name ends right before the parenthesis, -/
theorem C110_call_partial (start len : Nat) (h : start + len + 1 < W) : callCol (start + len) len = start + 1 := by
  unfold callCol
  rw [sub32_le h (by omega)]
  omega

/-- The call of a function whose parenthesis starts a line is at the far right: the column of the parenthesis is 0 there. -/
theorem C110_call_false : callCol 0 5 = 4294967292 := by decide

/-! ## Files -/

theorem le_rfl (a : Nat × Nat) : le a a := .inr ⟨rfl, Nat.le_refl _⟩

theorem le_trans {a b c : Nat × Nat} (h : le a b) (g : le b c) : le a c := by unfold le at *; omega

theorem commentToks_mem {c : Comment} {x : Tok} (h : x ∈ commentToks c) :
    le (c.line, c.col) (x.line, x.col) ∧ le (x.line, x.col) c.last := by
  unfold commentToks at h
  obtain ⟨⟨n, i⟩, hi, rfl⟩ := List.mem_map.1 h
  have hj := List.mk_mem_zipIdx_iff_getElem?.1 hi
  have hlt := (List.getElem?_eq_some_iff.1 hj).1
  unfold le Comment.last
  simp only
  omega

theorem zipIdx_order : ∀ (l : List Nat) (k : Nat), (l.zipIdx k).Pairwise fun a b => a.2 < b.2
  | [], _ => by simp
  | a :: l, k => by
    rw [List.zipIdx_cons, List.pairwise_cons]
    refine ⟨fun x hx => ?_, zipIdx_order l (k + 1)⟩
    have := List.le_snd_of_mem_zipIdx hx
    simp only
    omega

theorem commentToks_order (c : Comment) : (commentToks c).Pairwise fun a b => le (a.line, a.col) (b.line, b.col) := by
  unfold commentToks
  refine List.pairwise_map.2 ((zipIdx_order c.lens 0).imp fun h => .inl ?_)
  simp only
  omega

theorem comments_order : ∀ (cs : List Comment) (p q : Nat × Nat), CommentsFrom p cs q →
    (cs.flatMap commentToks).Pairwise (fun a b => le (a.line, a.col) (b.line, b.col)) ∧ le p q ∧
      ∀ x ∈ cs.flatMap commentToks, le p (x.line, x.col) ∧ le (x.line, x.col) q
  | _, _, _, .nil => by simp [le_rfl]
  | _, _, _, .cons (c := c) (cs := cs) h1 hne h2 => by
    obtain ⟨i1, i2, i3⟩ := comments_order cs _ _ h2
    have hl : le (c.line, c.col) c.last := by
      unfold le Comment.last
      have : c.lens.length ≠ 0 := fun h => hne (List.length_eq_zero_iff.1 h)
      simp only
      omega
    rw [List.flatMap_cons, List.pairwise_append]
    refine ⟨⟨commentToks_order c, i1, fun a ha b hb => le_trans (commentToks_mem ha).2 (i3 b hb).1⟩,
      le_trans h1 (le_trans hl i2), fun x hx => ?_⟩
    rcases List.mem_append.1 hx with hx | hx
    · exact ⟨le_trans h1 (commentToks_mem hx).1, le_trans (commentToks_mem hx).2 i2⟩
    · exact ⟨le_trans h1 (le_trans hl (i3 x hx).1), (i3 x hx).2⟩

theorem follows_order : ∀ (ts : List Terminal) (p : Nat × Nat), Follows p ts →
    (ts.flatMap fun t => t.comments.flatMap commentToks ++ t.toks).Pairwise (fun a b => le (a.line, a.col) (b.line, b.col)) ∧
      ∀ x ∈ (ts.flatMap fun t => t.comments.flatMap commentToks ++ t.toks), le p (x.line, x.col)
  | _, _, .nil => by simp
  | _, _, .cons (t := t) (ts := ts) hc ho hqr hx hts => by
    obtain ⟨ih1, ih2⟩ := follows_order ts _ hts
    obtain ⟨c1, c2, c3⟩ := comments_order _ _ _ hc
    rw [List.flatMap_cons, List.pairwise_append, List.pairwise_append]
    refine ⟨⟨⟨c1, (inOrder_iff _).1 ho, fun a ha b hb => le_trans (c3 a ha).2 (hx b hb).1⟩, ih1, fun a ha b hb => ?_⟩, fun x h => ?_⟩
    · rcases List.mem_append.1 ha with ha | ha
      · exact le_trans (le_trans (c3 a ha).2 hqr) (ih2 b hb)
      · exact le_trans (hx a ha).2 (ih2 b hb)
    · rcases List.mem_append.1 h with h | h
      · rcases List.mem_append.1 h with h | h
        · exact (c3 x h).1
        · exact le_trans c2 (hx x h).1
      · exact le_trans (le_trans c2 hqr) (ih2 x h)

/-- If comments and terminals follow one another and the tokens of each terminal are in order, the editor reads all of them where they
are. -/
theorem C110_file_partial (types mods : List String) (ts : List Terminal) (h : Follows (1, 1) ts)
    (hs : ∀ t ∈ ts.flatMap (fun t => t.comments.flatMap commentToks ++ t.toks), t.Sane) :
    (read types mods (0, 0) (data types mods ts)).map (fun r => (r.line + 1, r.col + 1)) =
      (ts.flatMap fun t => t.comments.flatMap commentToks ++ t.toks).map (fun t => (t.line, t.col)) :=
  (C110_positions types mods ts hs).2 ((inOrder_iff _).2 (follows_order ts _ h).1)

/-- A comment of two lines that starts at column 9, and a word at column 4 of its last line: the editor reads the word more than four
thousand million columns to the right. -/
theorem C110_comment_false :
    (read ["comment", "keyword"] [] (0, 0)
      (data ["comment", "keyword"] [] [⟨[⟨1, 9, [4, 2]⟩], [⟨2, 4, 7, "keyword", []⟩]⟩])).map (fun r => (r.line, r.col)) =
      [(0, 8), (1, 8), (1, 4294967299)] := by decide

/-- A type that the editor does not know is read as the first type it knows. -/
theorem C110_legend_false (types mods : List String) (a : String) (p q : Nat × Nat) (t : Tok) (h : t.type ∉ a :: types)
    (hn : (a :: types).Nodup) : ((read (a :: types) mods p (rows (a :: types) mods q [t])).map (·.type)) = [some a] := by
  obtain ⟨l, c⟩ := q
  simp only [rows, read, typeNum, index_nodup hn, if_neg h, List.map_cons, List.map_nil]
  rfl

/-- The name of a text in single quotation marks is read with the marks, so that it overlaps the mark after it. -/
theorem C110_single_false : ¬ NoOverlap (quoted 3 11 [39, 97, 39] "variable" []) := by
  simp [quoted, NoOverlap, trim, quote]

/-- A text in quotation marks has three tokens that do not overlap. -/
theorem C110_name_apart (line col : Nat) (name : List Nat) (type : String) (mods : List String) (h1 : name.head? ≠ some quote)
    (h2 : name.getLast? ≠ some quote) : NoOverlap (quoted line col (quote :: (name ++ [quote])) type mods) := by
  rw [C110_name line col name type mods h1 h2]
  simp [NoOverlap]

/-! ## Names -/

open SrcLoc (Val Id)

theorem expectedFields_noname : ∀ (fs : List (String × Val)) (c : Bool), (∀ e ∈ fs, e.1 ≠ "name") →
    expectedFields c fs = expectedFields false fs
  | [], _, _ => by simp only [expectedFields]
  | (k, v) :: fs, c, h => by
    have hk : k ≠ "name" := h (k, v) (by simp)
    simp only [expectedFields, if_neg hk, expectedFields_noname fs c (fun e he => h e (by simp [he]))]

theorem names_bound : ∀ (n : Nat),
    (∀ v : Val, sizeOf v < n → ∀ c, NameFirst c v → (names c v).2 = expected c v ∧ (c = false → (names c v).1 = false)) ∧
    (∀ fs : List (String × Val), sizeOf fs < n → (∀ e ∈ fs, NameFirst (e.1 = "message") e.2) →
      (namesFields false fs).2 = expectedFields false fs ∧ (namesFields false fs).1 = false) ∧
    (∀ vs : List Val, sizeOf vs < n → (∀ v ∈ vs, NameFirst false v) →
      (namesList false vs).2 = expectedList false vs ∧ (namesList false vs).1 = false)
  | 0 => ⟨fun _ h => by omega, fun _ h => by omega, fun _ h => by omega⟩
  | n + 1 => by
    obtain ⟨i1, i2, i3⟩ := names_bound n
    refine ⟨?_, ?_, ?_⟩
    · intro v hv c hnf
      cases hnf with
      | leaf g1 g2 =>
        cases v with
        | msg i fs => exact absurd rfl (g1 i fs)
        | arr i vs => exact absurd rfl (g2 i vs)
        | _ => exact ⟨by simp only [names, expected], fun hc => by simp only [names, hc]⟩
      | arr g =>
        rename_i i vs
        have := i3 vs (by simp at hv; omega) g
        simp only [names, expected]
        exact ⟨this.1, fun _ => this.2⟩
      | msg g =>
        rename_i i fs
        have := i2 fs (by simp at hv; omega) g
        simp only [names, expected]
        exact ⟨this.1, fun _ => this.2⟩
      | message g1 g2 =>
        rename_i i w fs
        have := i2 fs (by simp at hv; omega) g1
        simp only [names, expected, namesFields, expectedFields]
        simp only [show ("name" = "message") = False from by simp, if_false, if_true, expectedFields_noname fs true g2, this.1,
          List.singleton_append, true_and]
        intro h
        cases h
    · intro fs hf hall
      cases fs with
      | nil => simp only [namesFields, expectedFields, and_self]
      | cons e fs =>
        obtain ⟨k, v⟩ := e
        have hrest := i2 fs (by simp at hf; omega) (fun e he => hall e (by simp [he]))
        have hv := i1 v (by simp at hf; omega) _ (hall (k, v) (by simp))
        simp only [namesFields, expectedFields]
        by_cases hm : k = "message"
        · simp only [hm, decide_true] at hv
          simp only [hm, if_true, hv.1, hrest.1, hrest.2, and_self]
        · simp only [hm, decide_false] at hv
          simp only [if_neg hm]
          by_cases hn : k = "name"
          · simp only [if_pos hn, hrest.1, hrest.2, List.singleton_append, and_self]
          · simp only [if_neg hn]
            by_cases hk : k ∈ ["by", "inline", "src", "alias", "method", "enum", "field"]
            · simp only [if_pos hk, hrest.1, hrest.2, List.nil_append, and_self]
            · simp only [if_neg hk, hv.1, hv.2 trivial, hrest.1, hrest.2, and_self]
    · intro vs hf hall
      cases vs with
      | nil => simp only [namesList, expectedList, and_self]
      | cons v vs =>
        have hrest := i3 vs (by simp at hf; omega) (fun e he => hall e (by simp [he]))
        have hv := i1 v (by simp at hf; omega) _ (hall v (by simp))
        simp only [namesList, expectedList, hv.1, hv.2 rfl, hrest.1, hrest.2, and_self]

/-- If the name of every message expression is written before its arguments, exactly the names of messages are shown as types. -/
theorem C110_names_partial (v : Val) (h : NameFirst false v) : (names false v).2 = expected false v :=
  ((names_bound (sizeOf v + 1)).1 v (by omega) false h).1

/-- If the arguments are written before the name, an argument is shown as a type and the message as a variable: `0` is the name of the
argument and `1` that of the message. -/
theorem C110_names_false :
    let v := Val.msg 9 [("message", .msg 8 [("args", .arr 7 [.msg 6 [("name", .str 0 ['x'])]]), ("name", .str 1 ['M'])])]
    (names false v).2 = [(0, true), (1, false)] ∧ expected false v = [(0, false), (1, true)] := by
  refine ⟨?_, ?_⟩
  · simp only [names, namesFields, namesList]; rfl
  · simp only [expected, expectedFields, expectedList]; rfl

/-- So is every message but the first of a list of messages, as in the details of an error. -/
theorem C110_details_false :
    let v := Val.msg 9 [("message", .arr 8 [.msg 7 [("name", .str 0 ['A'])], .msg 6 [("name", .str 1 ['B'])]])]
    (names false v).2 = [(0, true), (1, false)] ∧ expected false v = [(0, true), (1, true)] := by
  refine ⟨?_, ?_⟩
  · simp only [names, namesFields, namesList]; rfl
  · simp only [expected, expectedFields, expectedList]; rfl

/-! ## Examples -/

/-- `package` after a comment, and the text `"user"` as three tokens: where the editor reads them, and what it says about them. -/
example : read ["comment", "keyword", "string", "type"] ["declaration", "defaultLibrary"] (0, 0)
    (data ["comment", "keyword", "string", "type"] ["declaration", "defaultLibrary"]
      [⟨[⟨1, 1, [7]⟩], [⟨2, 1, 7, "keyword", []⟩]⟩, ⟨[], quoted 2 9 [34, 117, 115, 101, 114, 34] "type" ["defaultLibrary"]⟩]) =
    [⟨0, 0, 7, some "comment", []⟩, ⟨1, 0, 7, some "keyword", []⟩, ⟨1, 8, 1, some "string", []⟩,
     ⟨1, 9, 4, some "type", ["defaultLibrary"]⟩, ⟨1, 13, 1, some "string", []⟩] := by decide

/-- This file meets the hypothesis of `C110_file_partial`. -/
example : Follows (1, 1) [⟨[⟨1, 1, [7]⟩], [⟨2, 1, 7, "keyword", []⟩]⟩,
    ⟨[], quoted 2 9 [34, 117, 115, 101, 114, 34] "type" ["defaultLibrary"]⟩] := by
  refine .cons (q := (1, 1)) (r := (2, 8)) (.cons (by simp [le]) (by simp) (by simpa [Comment.last] using .nil)) (by simp [InOrder])
    (by simp [le]) (by simp [le]) ?_
  exact .cons (q := (2, 8)) (r := (2, 14)) .nil (by rw [C110_name_order_partial]; decide) (by simp [le])
    (by simp [quoted, le]) .nil

/-- `"a.f(" "b)"`, an expression in two literals. -/
example : celLits (fun i => if i = 1 then [⟨1, 1, "variable", []⟩, ⟨3, 1, "method", []⟩, ⟨9, 1, "variable", []⟩] else []) 0 []
      [⟨3, 10, [34, 97, 46, 102, 40, 34]⟩, ⟨4, 10, [34, 98, 41, 34]⟩] =
    [[⟨3, 10, 1, "string", []⟩, ⟨3, 11, 1, "variable", []⟩, ⟨3, 13, 1, "method", []⟩, ⟨3, 15, 1, "string", []⟩],
     [⟨4, 10, 1, "string", []⟩, ⟨4, 11, 1, "variable", []⟩, ⟨4, 11, 2, "string", []⟩, ⟨4, 13, 1, "string", []⟩]] := by decide

/-- A definition of a message with arguments, the name first. -/
example : NameFirst false (.msg 9 [("name", .str 5 ['d']), ("message", .msg 8 [("name", .str 1 ['M']),
    ("args", .arr 7 [.msg 6 [("name", .str 0 ['x'])]])])]) := by
  refine .msg fun e he => ?_
  simp only [List.mem_cons, List.not_mem_nil, or_false] at he
  rcases he with rfl | rfl
  · exact .leaf (by simp) (by simp)
  · have h : decide (("message", Val.msg 8 [("name", .str 1 ['M']), ("args", .arr 7 [.msg 6 [("name", .str 0 ['x'])]])]).1 = "message") =
      true := by decide
    rw [h]
    refine .message (fun e he => ?_) (by simp)
    simp only [List.mem_cons, List.not_mem_nil, or_false] at he
    subst he
    refine .arr fun v hv => ?_
    simp only [List.mem_cons, List.not_mem_nil, or_false] at hv
    subst hv
    refine .msg fun e he => ?_
    simp only [List.mem_cons, List.not_mem_nil, or_false] at he
    subst he
    exact .leaf (by simp) (by simp)

end Verif.SemTok
