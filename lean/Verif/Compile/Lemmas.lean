import Verif.Compile.Model

/-! # Lemmas about paths and linked files -/

namespace Verif.Compile

/-- A part of a clean absolute path. -/
def Good (s : Text) : Prop := s ≠ [] ∧ '/' ∉ s ∧ s ≠ ['.'] ∧ s ≠ ['.', '.']

theorem split_ne_nil : ∀ t, split t ≠ []
  | [] => by simp [split]
  | c :: cs => by
    unfold split
    split
    · simp
    · split <;> simp

theorem split_cons_ne {c : Char} (hc : c ≠ '/') (cs : Text) :
    ∃ s ss, split cs = s :: ss ∧ split (c :: cs) = (c :: s) :: ss := by
  cases h : split cs with
  | nil => exact absurd h (split_ne_nil cs)
  | cons s ss => exact ⟨s, ss, rfl, by rw [split, if_neg hc, h]⟩

theorem split_append (b : Text) : ∀ a, split (a ++ '/' :: b) = split a ++ split b
  | [] => by simp [split]
  | c :: cs => by
    by_cases hc : c = '/'
    · subst hc
      rw [List.cons_append]
      simp [split, split_append b cs]
    · obtain ⟨s, ss, h1, h2⟩ := split_cons_ne hc cs
      obtain ⟨s', ss', h3, h4⟩ := split_cons_ne hc (cs ++ '/' :: b)
      rw [List.cons_append, h4, h2]
      rw [split_append b cs, h1] at h3
      cases h3
      rfl

theorem split_noslash : ∀ t, ∀ s ∈ split t, '/' ∉ s
  | [], s, hs => by simp [split] at hs; simp [hs]
  | c :: cs, s, hs => by
    by_cases hc : c = '/'
    · rw [split, if_pos hc] at hs
      rcases List.mem_cons.1 hs with rfl | hs
      · simp
      · exact split_noslash cs s hs
    · obtain ⟨s', ss, h1, h2⟩ := split_cons_ne hc cs
      rw [h2] at hs
      rcases List.mem_cons.1 hs with rfl | hs
      · have := split_noslash cs s' (by rw [h1]; simp)
        intro hm
        rcases List.mem_cons.1 hm with h | h
        · exact hc h.symm
        · exact this h
      · exact split_noslash cs s (by rw [h1]; simp [hs])

theorem split_single : ∀ s, '/' ∉ s → split s = [s]
  | [], _ => rfl
  | c :: cs, h => by
    have hc : c ≠ '/' := fun e => h (by simp [e])
    obtain ⟨s, ss, h1, h2⟩ := split_cons_ne hc cs
    rw [split_single cs fun hm => h (List.mem_cons_of_mem _ hm)] at h1
    cases h1
    exact h2

theorem split_slashed : ∀ ps : List Text, (∀ s ∈ ps, '/' ∉ s) → ps ≠ [] → split (slashed ps) = ps
  | [], _, h => absurd rfl h
  | [p], h, _ => split_single p (h p (by simp))
  | p :: q :: ps, h, _ => by
    rw [slashed, split_append, split_single p (h p (by simp)),
      split_slashed (q :: ps) (fun s hs => h s (List.mem_cons_of_mem _ hs)) (by simp)]
    · rfl
    · simp

theorem push_good {stack : List Text} {seg : Text} (hs : ∀ s ∈ stack, Good s) (hseg : '/' ∉ seg) :
    ∀ s ∈ push true stack seg, Good s := by
  unfold push
  split
  · exact hs
  · rename_i h1
    rw [not_or] at h1
    split
    · cases stack with
      | nil => simp
      | cons t ts =>
        have ht := hs t (by simp)
        simp only
        rw [if_neg ht.2.2.2]
        exact fun s h => hs s (List.mem_cons_of_mem _ h)
    · rename_i h2
      intro s h
      rcases List.mem_cons.1 h with rfl | h
      · exact ⟨h1.1, hseg, h1.2, h2⟩
      · exact hs s h

theorem foldl_push_good : ∀ (segs stack : List Text), (∀ s ∈ stack, Good s) → (∀ s ∈ segs, '/' ∉ s) →
    ∀ s ∈ segs.foldl (push true) stack, Good s
  | [], _, h, _ => h
  | s :: ss, stack, h, hs => by
    rw [List.foldl_cons]
    exact foldl_push_good ss _ (push_good h (hs s (by simp))) fun x hx => hs x (List.mem_cons_of_mem _ hx)

theorem parse_good {t : Text} (h : isAbs t = true) : ∀ s ∈ (parse t).parts, Good s := by
  intro s hs
  unfold parse at hs
  rw [h] at hs
  exact foldl_push_good (split t) [] (by simp) (split_noslash t) s (List.mem_reverse.1 hs)

theorem push_of_good {r : Bool} {stack : List Text} {seg : Text} (h : Good seg) : push r stack seg = seg :: stack := by
  unfold push
  rw [if_neg (fun h' => h'.elim h.1 h.2.2.1), if_neg h.2.2.2]

theorem foldl_goods (r : Bool) : ∀ (segs stack : List Text), (∀ s ∈ segs, Good s) →
    segs.foldl (push r) stack = segs.reverse ++ stack
  | [], _, _ => rfl
  | s :: ss, stack, h => by
    rw [List.foldl_cons, push_of_good (h s (by simp)), foldl_goods r ss _ fun x hx => h x (List.mem_cons_of_mem _ hx)]
    simp

theorem foldl_dots : ∀ (k : Nat) (stack : List Text), (∀ s ∈ stack, Good s) →
    (List.replicate k ['.', '.']).foldl (push true) stack = stack.drop k
  | 0, _, _ => rfl
  | k + 1, [], h => by
    rw [List.replicate_succ, List.foldl_cons]
    have : push true [] ['.', '.'] = [] := by simp [push]
    rw [this, foldl_dots k [] h]; simp
  | k + 1, t :: ts, h => by
    rw [List.replicate_succ, List.foldl_cons]
    have : push true (t :: ts) ['.', '.'] = ts := by simp [push, (h t (by simp)).2.2.2]
    rw [this, foldl_dots k ts fun s hs => h s (List.mem_cons_of_mem _ hs)]; simp

theorem text_rooted (ps : List Text) : (Path.mk true ps).text = '/' :: slashed ps := rfl

theorem parse_text {ps : List Text} (h : ∀ s ∈ ps, Good s) : parse (Path.mk true ps).text = ⟨true, ps⟩ := by
  have ha : isAbs ('/' :: slashed ps) = true := rfl
  rw [text_rooted]
  unfold parse
  rw [ha, split, if_pos rfl, List.foldl_cons]
  have : push true [] [] = [] := by simp [push]
  rw [this]
  by_cases hp : ps = []
  · subst hp; simp [slashed, split, push]
  · rw [split_slashed ps (fun s hs => (h s hs).2.1) hp, foldl_goods true ps [] h]
    simp

theorem clean_text {ps : List Text} (h : ∀ s ∈ ps, Good s) : clean (Path.mk true ps).text = (Path.mk true ps).text := by
  unfold clean; rw [parse_text h]

theorem isAbs_text (ps : List Text) : isAbs (Path.mk true ps).text = true := rfl

theorem isAbs_append {a : Text} (b : Text) (h : isAbs a = true) : isAbs (a ++ b) = true := by
  cases a with
  | nil => simp [isAbs] at h
  | cons c cs => exact h

theorem parse_append {a : Text} (b : Text) (h : isAbs a = true) :
    parse (a ++ '/' :: b) = ⟨true, ((split b).foldl (push true) (parse a).parts.reverse).reverse⟩ := by
  unfold parse
  rw [isAbs_append _ h, h, split_append, List.foldl_append]
  simp

theorem relParts_back : ∀ (b t c : List Text), (∀ s ∈ c, Good s) → (∀ s ∈ b, Good s) → (∀ s ∈ t, Good s) →
    (relParts b t).foldl (push true) (c ++ b).reverse = (c ++ t).reverse
  | [], t, c, _, _, ht => by
    rw [relParts, foldl_goods true t _ ht]
    simp
  | b :: bs, [], c, hc, hb, _ => by
    rw [relParts.eq_def]
    simp only
    rw [foldl_dots _ _ ?_]
    · rw [List.reverse_append, List.drop_append_of_le_length (by simp)]
      simp
    · intro s hs
      rw [List.mem_reverse, List.mem_append] at hs
      rcases hs with h | h
      · exact hc s h
      · exact hb s h
  | b :: bs, t :: ts, c, hc, hb, ht => by
    rw [relParts]
    split
    · rename_i h
      subst h
      have := relParts_back bs ts (c ++ [b]) (fun s hs => by
        rcases List.mem_append.1 hs with h | h
        · exact hc s h
        · exact hb s (by simp at h; simp [h])) (fun s hs => hb s (List.mem_cons_of_mem _ hs))
        (fun s hs => ht s (List.mem_cons_of_mem _ hs))
      simpa using this
    · rw [List.foldl_append, foldl_dots _ _ ?_, foldl_goods true _ _ ht]
      · rw [List.reverse_append, List.drop_append_of_le_length (by simp)]
        have : List.drop (bs.length + 1) (b :: bs).reverse = [] := by simp
        rw [this]
        simp
      · intro s hs
        rw [List.mem_reverse, List.mem_append] at hs
        rcases hs with h | h
        · exact hc s h
        · exact hb s h

theorem relParts_noslash : ∀ b t : List Text, (∀ s ∈ t, '/' ∉ s) → ∀ s ∈ relParts b t, '/' ∉ s
  | [], t, h => by rw [relParts]; exact h
  | b :: bs, [], _ => by
    intro s hs
    rw [relParts.eq_def] at hs
    simp only at hs
    rw [(List.mem_replicate.1 hs).2]; decide
  | b :: bs, t :: ts, h => by
    intro s hs
    rw [relParts] at hs
    split at hs
    · exact relParts_noslash bs ts (fun s hs => h s (List.mem_cons_of_mem _ hs)) s hs
    · rcases List.mem_append.1 hs with h1 | h1
      · rw [(List.mem_replicate.1 h1).2]; decide
      · exact h s h1

theorem relParts_prefix : ∀ b t : List Text, b <+: t → relParts b t = t.drop b.length
  | [], t, _ => by simp [relParts]
  | b :: bs, t, h => by
    obtain ⟨r, rfl⟩ := h
    rw [List.cons_append, relParts, if_pos rfl, relParts_prefix bs _ ⟨r, rfl⟩]
    simp

theorem relParts_dots : ∀ b t : List Text, ¬b <+: t → ∃ r, relParts b t = ['.', '.'] :: r
  | [], t, h => absurd (List.nil_prefix) h
  | b :: bs, [], _ => ⟨List.replicate bs.length ['.', '.'], by rw [relParts.eq_def]; rfl⟩
  | b :: bs, t :: ts, h => by
    rw [relParts]
    split
    · rename_i he
      subst he
      exact relParts_dots bs ts fun hp => h (by
        obtain ⟨r, rfl⟩ := hp
        exact ⟨r, rfl⟩)
    · exact ⟨_, rfl⟩

/-- The result of `Rel` leads back to the file. -/
theorem parse_rel {a b : Text} (ha : isAbs a = true) (hb : isAbs b = true) :
    parse (a ++ '/' :: rel a b) = ⟨true, (parse b).parts⟩ := by
  rw [parse_append _ ha]
  have hga := parse_good ha
  have hgb := parse_good hb
  have key := relParts_back (parse a).parts (parse b).parts [] (by simp) hga hgb
  simp only [List.nil_append] at key
  have hs := relParts_noslash (parse a).parts (parse b).parts fun s h => (hgb s h).2.1
  have : (split (rel a b)).foldl (push true) (parse a).parts.reverse = (parse b).parts.reverse := by
    unfold rel
    by_cases h : relParts (parse a).parts (parse b).parts = []
    · rw [h] at key ⊢
      have : split (Path.text ⟨false, []⟩) = [['.']] := by decide
      rw [this, ← key]
      rfl
    · have : (Path.mk false (relParts (parse a).parts (parse b).parts)).text =
          slashed (relParts (parse a).parts (parse b).parts) := by simp [Path.text, h]
      rw [this, split_slashed _ hs h, key]
  rw [this]
  simp

theorem rel_ne_nil (a b : Text) (hb : isAbs b = true) : rel a b ≠ [] := by
  unfold rel Path.text
  have hgb := parse_good hb
  simp only [Bool.false_eq_true, if_false]
  split
  · simp
  · rename_i h
    intro he
    have h2 := split_slashed _ (relParts_noslash (parse a).parts (parse b).parts fun s h => (hgb s h).2.1) h
    rw [he] at h2
    have h3 : relParts (parse a).parts (parse b).parts = [[]] := by rw [← h2]; rfl
    by_cases hp : (parse a).parts <+: (parse b).parts
    · rw [relParts_prefix _ _ hp] at h3
      have : ([] : Text) ∈ (parse b).parts := List.mem_of_mem_drop (by rw [h3]; simp)
      exact (hgb _ this).1 rfl
    · obtain ⟨r, hr⟩ := relParts_dots _ _ hp
      rw [hr] at h3
      cases h3

theorem ne_nil_of_isAbs {a : Text} (h : isAbs a = true) : a ≠ [] := by
  rintro rfl; cases h

/-- The import path and the name, joined, are the file. -/
theorem join_rel {a b : Text} (ha : isAbs a = true) (hb : isAbs b = true) : join a (rel a b) = clean b := by
  unfold join
  rw [if_neg (ne_nil_of_isAbs ha), if_neg (rel_ne_nil a b hb)]
  unfold clean
  rw [parse_rel ha hb]
  have : (parse b).rooted = true := hb
  unfold Path.text
  rw [this]

theorem isAbs_clean {t : Text} (h : isAbs t = true) : isAbs (clean t) = true := by
  unfold clean Path.text parse
  simp [h]
  rfl

theorem isAbs_join {a : Text} (b : Text) (h : isAbs a = true) : isAbs (join a b) = true := by
  unfold join
  rw [if_neg (ne_nil_of_isAbs h)]
  split
  · exact isAbs_clean h
  · exact isAbs_clean (isAbs_append _ h)

theorem isAbs_toAbs {cwd : Text} (hw : isAbs cwd = true) (t : Text) : isAbs (toAbs cwd t) = true := by
  unfold toAbs
  split
  · assumption
  · unfold abs
    split
    · rename_i h1 h2; exact absurd h2 h1
    · exact isAbs_join t hw

theorem clean_clean {t : Text} (h : isAbs t = true) : clean (clean t) = clean t := by
  have hr : (parse t).rooted = true := h
  have hp : parse t = ⟨true, (parse t).parts⟩ := by
    cases hq : parse t with
    | mk r ps => rw [hq] at hr; simp at hr; simp [hr]
  have h1 : clean t = (Path.mk true (parse t).parts).text := by
    show (parse t).text = _
    exact congrArg Path.text hp
  show (parse (clean t)).text = clean t
  rw [h1, parse_text (parse_good h)]

/-! ## Texts of clean paths -/

theorem slashed_append (a b : List Text) (ha : a ≠ []) (hb : b ≠ []) :
    slashed (a ++ b) = slashed a ++ '/' :: slashed b := by
  induction a with
  | nil => exact absurd rfl ha
  | cons p ps ih =>
    cases ps with
    | nil => cases b with
      | nil => exact absurd rfl hb
      | cons q qs => simp [slashed]
    | cons q qs =>
      have := ih (by simp)
      rw [List.cons_append, List.cons_append, slashed, ← List.cons_append, this]
      · simp [slashed]
      · simp

/-- A directory is a prefix of the texts of the files below it. -/
theorem prefix_of_parts {a b : List Text} (h : a <+: b) : (Path.mk true a).text <+: (Path.mk true b).text := by
  obtain ⟨c, rfl⟩ := h
  rw [text_rooted, text_rooted]
  by_cases ha : a = []
  · subst ha; exact ⟨slashed c, by simp [slashed]⟩
  · by_cases hc : c = []
    · subst hc; simp
    · rw [slashed_append a c ha hc]; exact ⟨'/' :: slashed c, by simp⟩

/-! ## Linked files -/

mutual
theorem mem_descriptors (f : Linked) : f.name ∈ descriptors f := by
  cases f with
  | mk n is => simp [descriptors, Linked.name]
end

theorem descriptorsL_mem {f : Linked} : ∀ {fs : List Linked}, f ∈ fs → ∀ n ∈ descriptors f, n ∈ descriptorsL fs
  | g :: gs, h, n, hn => by
    rw [descriptorsL, List.mem_append]
    rcases List.mem_cons.1 h with rfl | h
    · exact .inl hn
    · exact .inr (descriptorsL_mem h n hn)

theorem addFile_mem (l : List Text) : ∀ acc n, n ∈ l.foldl addFile acc ↔ n ∈ acc ∨ n ∈ l := by
  induction l with
  | nil => simp
  | cons a l ih =>
    intro acc n
    rw [List.foldl_cons, ih]
    unfold addFile
    split
    · rename_i h
      constructor
      · rintro (h1 | h1)
        · exact .inl h1
        · exact .inr (List.mem_cons_of_mem _ h1)
      · rintro (h1 | h1)
        · exact .inl h1
        · rcases List.mem_cons.1 h1 with rfl | h1
          · exact .inl h
          · exact .inr h1
    · simp [or_assoc]

theorem addFile_nodup (l : List Text) : ∀ acc : List Text, acc.Nodup → (l.foldl addFile acc).Nodup := by
  induction l with
  | nil => exact fun _ h => h
  | cons a l ih =>
    intro acc h
    rw [List.foldl_cons]
    refine ih _ ?_
    unfold addFile
    split
    · exact h
    · rename_i hn
      rw [List.nodup_append]
      refine ⟨h, by simp, ?_⟩
      intro x hx y hy
      simp at hy; subst hy
      rintro rfl; exact hn hx

/-- Every name comes after those it needs. -/
def Ordered (needs : Text → Text → Prop) (l : List Text) : Prop :=
  ∀ pre n post, l = pre ++ n :: post → ∀ m, needs n m → m ∈ pre

theorem ordered_append {needs : Text → Text → Prop} {a b : List Text} (ha : Ordered needs a) (hb : Ordered needs b) :
    Ordered needs (a ++ b) := by
  intro pre n post h m hm
  rcases List.append_eq_append_iff.1 h with ⟨c, h1, h2⟩ | ⟨c, h1, h2⟩
  · subst h1
    exact List.mem_append_right _ (hb c n post h2 m hm)
  · cases c with
    | nil =>
      simp at h1 h2
      subst h1
      have := hb [] n post h2.symm m hm
      cases this
    | cons d ds =>
      rw [List.cons_append, List.cons.injEq] at h2
      obtain ⟨rfl, rfl⟩ := h2
      exact ha pre n ds h1 m hm

theorem addFile_ordered {needs : Text → Text → Prop} (l : List Text) (h : Ordered needs l) :
    Ordered needs (l.foldl addFile []) := by
  suffices hs : ∀ (done todo : List Text) (acc : List Text), l = done ++ todo → (∀ n, n ∈ acc ↔ n ∈ done) →
      Ordered needs acc → Ordered needs (todo.foldl addFile acc) from
    hs [] l [] rfl (by simp) (by intro pre n post he; simp at he)
  intro done todo
  induction todo generalizing done with
  | nil => exact fun _ _ _ h => h
  | cons a todo ih =>
    intro acc hl hm ho
    rw [List.foldl_cons]
    refine ih (done ++ [a]) _ (by simp [hl]) ?_ ?_
    · intro n
      unfold addFile
      split
      · rename_i ha
        rw [hm, List.mem_append]
        constructor
        · exact .inl
        · rintro (h1 | h1)
          · exact h1
          · simp at h1; subst h1; exact (hm _).1 ha
      · rw [List.mem_append, List.mem_append, hm]
    · unfold addFile
      split
      · exact ho
      · intro pre n post he m hn
        rcases List.append_eq_append_iff.1 he with ⟨c, h1, h2⟩ | ⟨c, h1, h2⟩
        · subst h1
          cases c with
          | nil =>
            simp at h2
            obtain ⟨rfl, rfl⟩ := h2
            have := h done a todo hl m hn
            simpa using (hm m).2 this
          | cons d ds => simp at h2
        · cases c with
          | nil =>
            simp at h1 h2
            obtain ⟨rfl, rfl⟩ := h2
            subst h1
            exact (hm m).2 (h done n todo hl m hn)
          | cons d ds =>
            rw [List.cons_append, List.cons.injEq] at h2
            obtain ⟨rfl, rfl⟩ := h2
            exact ho pre n ds h1 m hn

end Verif.Compile
