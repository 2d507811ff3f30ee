import Verif.Embed.Model

/-! # Helper lemmas for `Verif.Embed.Props` -/

namespace Verif.Embed

/-! ## Reading strings -/

/-- What may stand between backquotes. -/
def rawChar (c : Char) : Bool := !(c = '`' || c = '\r' || illegal c)

/-- What may stand between quotes. -/
def strChar (c : Char) : Bool := !(c = '"' || c = '\\' || c = '\n' || illegal c)

theorem rawChar_iff {c : Char} : rawChar c = true ↔ c ≠ '`' ∧ c ≠ '\r' ∧ illegal c = false := by
  simp [rawChar, and_assoc]

theorem strChar_iff {c : Char} :
    strChar c = true ↔ c ≠ '"' ∧ c ≠ '\\' ∧ c ≠ '\n' ∧ illegal c = false := by
  simp [strChar, and_assoc]

theorem readRaw_clean (e r : Text) (h : ∀ c ∈ e, rawChar c = true) :
    readRaw (e ++ '`' :: r) = some (e, r) := by
  induction e with
  | nil => simp [readRaw]
  | cons c e ih =>
    have hc := rawChar_iff.1 (h c (List.mem_cons_self ..))
    have ih := ih (fun x hx => h x (List.mem_cons_of_mem _ hx))
    simp [readRaw, hc, ih, push]

theorem push_eq {c : Char} {o : Option (Text × Text)} {v r : Text} (h : push c o = some (v, r)) :
    ∃ w, o = some (w, r) ∧ v = c :: w := by
  unfold push at h
  split at h
  · cases h
  · simp only [Option.some.injEq, Prod.mk.injEq] at h
    rename_i w rest
    exact ⟨w, by rw [h.2], h.1.symm⟩

theorem readRaw_body (t v r : Text) (h : readRaw t = some (v, r)) :
    ∃ body, t = body ++ '`' :: r ∧ (∀ c ∈ body, c ≠ '`' ∧ illegal c = false) ∧
      v = body.filter (fun c => c ≠ '\r') := by
  induction t generalizing v with
  | nil => simp [readRaw] at h
  | cons c cs ih =>
    rw [readRaw] at h
    split at h
    · rename_i hc
      simp only [Option.some.injEq, Prod.mk.injEq] at h
      exact ⟨[], by simp [hc, h.2], by simp, by simp [← h.1]⟩
    · rename_i hc
      split at h
      · cases h
      · rename_i hi
        split at h
        · rename_i hr
          obtain ⟨b, e1, e2, e3⟩ := ih v h
          refine ⟨c :: b, by simp [e1], ?_, by simp [e3, hr]⟩
          intro x hx
          rcases List.mem_cons.1 hx with rfl | hx
          · exact ⟨hc, by simpa using hi⟩
          · exact e2 x hx
        · rename_i hr
          obtain ⟨w, hw, hv⟩ := push_eq h
          obtain ⟨b, e1, e2, e3⟩ := ih w hw
          refine ⟨c :: b, by simp [e1], ?_, by simp [e3, hr, hv]⟩
          intro x hx
          rcases List.mem_cons.1 hx with rfl | hx
          · exact ⟨hc, by simpa using hi⟩
          · exact e2 x hx

theorem readRaw_length (t v r : Text) (h : readRaw t = some (v, r)) :
    v.length + r.length + 1 ≤ t.length := by
  obtain ⟨b, e1, _, e3⟩ := readRaw_body t v r h
  have := List.length_filter_le (fun c : Char => decide (c ≠ '\r')) b
  subst e1 e3
  simp only [List.length_append, List.length_cons]
  omega

theorem readStr_length (a : At) (t v r : Text) (h : readStr a t = some (v, r)) :
    v.length + r.length + 1 ≤ t.length := by
  induction t generalizing a v with
  | nil => cases a <;> simp [readStr] at h
  | cons c cs ih =>
    cases a with
    | plain =>
      simp only [readStr] at h
      repeat' split at h
      all_goals first
        | cases h; done
        | (obtain ⟨w, hw, hv⟩ := push_eq h
           have := ih _ _ hw
           simp [hv]; omega)
        | (have := ih _ _ h; simp; omega)
        | (simp only [Option.some.injEq, Prod.mk.injEq] at h; simp [← h.1, ← h.2])
    | esc =>
      simp only [readStr] at h
      repeat' split at h
      all_goals first
        | cases h; done
        | (obtain ⟨w, hw, hv⟩ := push_eq h
           have := ih _ _ hw
           simp [hv]; omega)
        | (have := ih _ _ h; simp; omega)
    | num base left acc top =>
      simp only [readStr] at h
      repeat' split at h
      all_goals first
        | cases h; done
        | (obtain ⟨w, hw, hv⟩ := push_eq h
           have := ih _ _ hw
           simp [hv]; omega)
        | (have := ih _ _ h; simp; omega)

theorem readStr_clean (e r : Text) (h : ∀ c ∈ e, strChar c = true) :
    readStr .plain (e ++ '"' :: r) = some (e, r) := by
  induction e with
  | nil => simp [readStr]
  | cons c e ih =>
    have hc := strChar_iff.1 (h c (List.mem_cons_self ..))
    have ih := ih (fun x hx => h x (List.mem_cons_of_mem _ hx))
    simp [readStr, hc, ih, push]

theorem readStr_only (e r : Text) (h : readStr .plain (e ++ '"' :: r) = some (e, r)) :
    ∀ c ∈ e, strChar c = true := by
  induction e with
  | nil => simp
  | cons c e ih =>
    rw [List.cons_append, readStr] at h
    split at h
    · simp at h
    · split at h
      · cases h
      · split at h
        · cases h
        · split at h
          · have := readStr_length _ _ _ _ h
            simp only [List.length_append, List.length_cons] at this
            omega
          · rename_i h1 h2 h3 h4
            obtain ⟨w, hw, hv⟩ := push_eq h
            cases hv
            intro x hx
            rcases List.mem_cons.1 hx with rfl | hx
            · exact strChar_iff.2 ⟨h1, h4, h2, by simpa using h3⟩
            · exact ih hw x hx

theorem skip_length (t : Text) : (skip t).length ≤ t.length := by
  induction t with
  | nil => simp [skip]
  | cons c cs ih =>
    rw [skip]
    split
    · simp; omega
    · simp

theorem readLit_length (t v r : Text) (h : readLit t = some (v, r)) :
    v.length + r.length + 2 ≤ t.length := by
  cases t with
  | nil => simp [readLit] at h
  | cons c cs =>
    rw [readLit] at h
    split at h
    · have := readRaw_length _ _ _ h; simp; omega
    · split at h
      · have := readStr_length _ _ _ _ h; simp; omega
      · cases h

theorem readConst_length (n : Nat) (t v r : Text) (h : readConst n t = some (v, r)) :
    v.length + r.length + 2 ≤ t.length ∧
      (readLit t = some (v, r) ∨ v.length + r.length + 5 ≤ t.length) := by
  induction n generalizing t v r with
  | zero => simp [readConst] at h
  | succ n ih =>
    rw [readConst] at h
    cases h1 : readLit t with
    | none => rw [h1] at h; cases h
    | some p =>
      obtain ⟨v1, r1⟩ := p
      have hl := readLit_length _ _ _ h1
      rw [h1] at h
      simp only at h
      have hs := skip_length r1
      cases h2 : skip r1 with
      | nil =>
        rw [h2] at h
        simp only [Option.some.injEq, Prod.mk.injEq] at h
        rw [← h.1, ← h.2]
        exact ⟨hl, .inl rfl⟩
      | cons c r' =>
        rw [h2] at h hs
        simp only at h
        split at h
        · cases h3 : readConst n (skip r') with
          | none => rw [h3] at h; cases h
          | some q =>
            obtain ⟨w, r2⟩ := q
            rw [h3] at h
            simp only [Option.some.injEq, Prod.mk.injEq] at h
            have := (ih _ _ _ h3).1
            have hs' := skip_length r'
            rw [← h.1, ← h.2]
            simp only [List.length_cons] at hs
            simp only [List.length_append]
            constructor
            · omega
            · right; omega
        · simp only [Option.some.injEq, Prod.mk.injEq] at h
          rw [← h.1, ← h.2]
          exact ⟨hl, .inl rfl⟩

/-! ## Comments -/

theorem readLine_clean (t r : Text) (h : ∀ c ∈ t, c ≠ '\n' ∧ illegal c = false) :
    readLine (t ++ '\n' :: r) = some ('\n' :: r) := by
  induction t with
  | nil => simp [readLine]
  | cons c t ih =>
    have hc := h c (List.mem_cons_self ..)
    have ih := ih (fun x hx => h x (List.mem_cons_of_mem _ hx))
    simp [readLine, hc, ih]

/-- Does the text contain the end of a comment? -/
def closes : Text → Bool
  | [] => false
  | c :: cs => (c = '*' ∧ cs.head? = some '/') || closes cs

theorem closes_iff (t : Text) : closes t = true ↔ HasClose t := by
  induction t with
  | nil =>
    simp only [closes, HasClose]
    constructor
    · intro h; cases h
    · rintro ⟨a, b, h⟩
      cases a <;> simp at h
  | cons c cs ih =>
    simp only [closes, Bool.or_eq_true, decide_eq_true_eq, ih]
    constructor
    · rintro (⟨rfl, h⟩ | ⟨a, b, h⟩)
      · cases cs with
        | nil => simp at h
        | cons d cs => simp at h; subst h; exact ⟨[], cs, rfl⟩
      · exact ⟨c :: a, b, by simp [h]⟩
    · rintro ⟨a, b, h⟩
      cases a with
      | nil => simp at h; left; simp [h.1, h.2]
      | cons d a => simp at h; right; exact ⟨a, b, h.2⟩

theorem readBlock_clean (t r : Text) (h : closes t = false) (hl : t.getLast? ≠ some '*')
    (hi : ∀ c ∈ t, illegal c = false) : readBlock (t ++ '*' :: '/' :: r) = some r := by
  induction t with
  | nil => simp [readBlock]
  | cons c t ih =>
    simp only [closes, Bool.or_eq_false_iff] at h
    have hc := hi c (List.mem_cons_self ..)
    rw [List.cons_append, readBlock]
    have hne : ¬ (c = '*' ∧ (t ++ '*' :: '/' :: r).head? = some '/') := by
      rintro ⟨rfl, hh⟩
      cases t with
      | nil => simp at hh
      | cons d t => simp at hh; simp [hh] at h
    rw [if_neg hne, hc]
    refine ih h.2 ?_ (fun x hx => hi x (List.mem_cons_of_mem _ hx))
    intro hh
    apply hl
    cases t with
    | nil => simp at hh
    | cons d t => rw [List.getLast?_cons_cons]; exact hh

theorem readBlock_length (t r : Text) (h : readBlock t = some r) : r.length + 2 ≤ t.length := by
  induction t with
  | nil => simp [readBlock] at h
  | cons c t ih =>
    rw [readBlock] at h
    split at h
    · rename_i hc
      cases t with
      | nil => simp at hc
      | cons d t => simp at h; simp [h]
    · split at h
      · cases h
      · have := ih h; simp; omega

theorem readBlock_only (t r : Text) (h : readBlock (t ++ '*' :: '/' :: r) = some r) :
    closes t = false := by
  induction t with
  | nil => rfl
  | cons c t ih =>
    rw [List.cons_append, readBlock] at h
    split at h
    · rename_i hc
      have : (t ++ '*' :: '/' :: r).tail.length = r.length := by simpa using congrArg (Option.map List.length) h
      simp at this
      omega
    · split at h
      · cases h
      · rename_i hne _
        have := ih h
        simp only [closes, this, Bool.or_false, decide_eq_false_iff_not]
        rintro ⟨rfl, hh⟩
        cases t with
        | nil => simp at hh
        | cons d t => simp at hh hne; exact hne hh

theorem closes_append (a b : Text) (h : ¬ (a.getLast? = some '*' ∧ b.head? = some '/')) :
    closes (a ++ b) = (closes a || closes b) := by
  induction a with
  | nil => simp [closes]
  | cons c a ih =>
    cases a with
    | nil =>
      simp only [List.getLast?_singleton, Option.some.injEq] at h
      simp only [List.cons_append, List.nil_append, closes]
      simp [h]
    | cons d a =>
      rw [List.getLast?_cons_cons] at h
      have := ih h
      rw [List.cons_append, closes, this]
      simp [closes, Bool.or_assoc]

/-! ## What is seen of a file -/

theorem Scans.unique {t : Text} {a b : List Tok} (h1 : Scans t a) (h2 : Scans t b) : a = b := by
  induction h1 generalizing b with
  | nil => cases h2; rfl
  | char hc _ ih =>
    cases h2 with
    | char _ h => rw [ih h]
    | raw => simp [plainChar] at hc
    | str => simp [plainChar] at hc
    | line => simp [plainChar] at hc
    | block => simp [plainChar] at hc
  | raw hr _ ih =>
    cases h2 with
    | char hc _ => simp [plainChar] at hc
    | raw hr' h => rw [hr] at hr'; cases hr'; rw [ih h]
  | str hr _ ih =>
    cases h2 with
    | char hc _ => simp [plainChar] at hc
    | str hr' h => rw [hr] at hr'; cases hr'; rw [ih h]
  | line hr _ ih =>
    cases h2 with
    | char hc _ => simp [plainChar] at hc
    | line hr' h => rw [hr] at hr'; cases hr'; exact ih h
  | block hr _ ih =>
    cases h2 with
    | char hc _ => simp [plainChar] at hc
    | block hr' h => rw [hr] at hr'; cases hr'; exact ih h

theorem Scans.codes (t : Text) (h : ∀ c ∈ t, plainChar c = true) {r : Text} {ts : List Tok}
    (hr : Scans r ts) : Scans (t ++ r) (t.map Tok.code ++ ts) := by
  induction t with
  | nil => exact hr
  | cons c t ih =>
    exact .char (h c (List.mem_cons_self ..)) (ih (fun x hx => h x (List.mem_cons_of_mem _ hx)))

theorem fields_codes (t : Text) (back : Text) (ts : List Tok) :
    fields back (t.map Tok.code ++ ts) = fields (t.reverse ++ back) ts := by
  induction t generalizing back with
  | nil => rfl
  | cons c t ih => simp [fields, ih]

/-- What a part may be so that the compiler sees it as meant. -/
def Good : Piece → Prop
  | .code t => ∀ c ∈ t, plainChar c = true
  | .raw t => ∀ c ∈ t, rawChar c = true
  | .quoted t => ∀ c ∈ t, strChar c = true
  | .comment t => t = [] ∨ ∃ u, t = '/' :: '/' :: u ∧ ∀ c ∈ u, c ≠ '\n' ∧ illegal c = false
  | .block t => closes t = false ∧ t.getLast? ≠ some '*' ∧ ∀ c ∈ t, illegal c = false

/-- What is meant by a part. -/
def Piece.toks : Piece → List Tok
  | .code t => t.map Tok.code
  | .raw t => [.str t]
  | .quoted t => [.str t]
  | .comment _ => [.code '\n']
  | .block _ => []

theorem scans_piece (p : Piece) (hg : Good p) {r : Text} {ts : List Tok} (h : Scans r ts) :
    Scans (p.text ++ r) (p.toks ++ ts) := by
  cases p with
  | code t => exact Scans.codes t hg h
  | raw t =>
    refine .raw ?_ h
    simpa using readRaw_clean t r hg
  | quoted t =>
    refine .str ?_ h
    simpa using readStr_clean t r hg
  | comment t =>
    rcases hg with rfl | ⟨u, rfl, hu⟩
    · exact .char (by decide) h
    · refine .line (r := '\n' :: r) ?_ (.char (by decide) h)
      simpa using readLine_clean u r hu
  | block t =>
    refine .block (r := r) ?_ h
    simpa using readBlock_clean t r hg.1 hg.2.1 hg.2.2

theorem scans_render (ps : List Piece) (h : ∀ p ∈ ps, Good p) :
    Scans (render ps) (ps.flatMap Piece.toks) := by
  induction ps with
  | nil => exact .nil
  | cons p ps ih =>
    simp only [render, List.flatMap_cons]
    exact scans_piece p (h p (List.mem_cons_self ..)) (ih (fun q hq => h q (List.mem_cons_of_mem _ hq)))

end Verif.Embed
