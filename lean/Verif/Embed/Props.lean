import Verif.Embed.Format

/-!
# C104: texts of options reach the server unchanged

Every expression of an option is written into the generated Go file between backquotes, the locale
of a localized message between quotes, and definitions are repeated in comments. The theorems say
when the compiler reads the same text back, and that a comment ends where it is meant to end.
-/

namespace Verif.Embed

/-- ASCII as `strconv.IsPrint` has it, for the examples. -/
def ascii (c : Char) : Bool := 32 ≤ c.toNat && c.toNat ≤ 126

theorem ascii_printable : Printable ascii := by
  refine ⟨by decide, by decide, by decide, by decide, ?_⟩
  intro c h
  simp only [illegal, Bool.or_eq_true, beq_iff_eq] at h
  simp only [ascii, Bool.and_eq_false_iff, decide_eq_false_iff_not]
  omega

/-! ## Expressions -/

/-- An expression between backquotes is read as the expression if and only if it has no backquote, no
carriage return and no character that Go files cannot have. (`n` bounds the number of literals joined by
`+` that are read.) -/
theorem C104_expression (e rest : Text) (n : Nat) :
    readConst (n + 1) ((Piece.raw e).text ++ ',' :: rest) = some (e, ',' :: rest) ↔
      ∀ c ∈ e, c ≠ '`' ∧ c ≠ '\r' ∧ illegal c = false := by
  have ht : (Piece.raw e).text ++ ',' :: rest = '`' :: (e ++ '`' :: ',' :: rest) := by
    simp [Piece.text]
  rw [ht]
  constructor
  · intro h
    have hl := (readConst_length _ _ _ _ h).2
    simp only [List.length_cons, List.length_append] at hl
    rcases hl with hl | hl
    · rw [readLit, if_pos rfl] at hl
      obtain ⟨b, e1, e2, e3⟩ := readRaw_body _ _ _ hl
      have hb : e = b := List.append_cancel_right e1
      subst hb
      intro c hc
      refine ⟨(e2 c hc).1, ?_, (e2 c hc).2⟩
      have := e3 ▸ hc
      simpa using (List.mem_filter.1 this).2
    · omega
  · intro h
    have hr := readRaw_clean e (',' :: rest) (fun c hc => rawChar_iff.2 (h c hc))
    rw [readConst, readLit, if_pos rfl, hr]
    simp [skip]

example : readConst 3 ((Piece.raw t!"req.id + \"\\n'\"").text ++ t!", CacheIndex: 1") =
    some (t!"req.id + \"\\n'\"", t!", CacheIndex: 1") :=
  (C104_expression _ _ 2).2 (by decide)

/-- A backquote can change an expression without any message: the string `'a` + backquote + `+` + backquote +
`b'` of CEL becomes `'ab'`. -/
theorem C104_expression_changed_false : ∃ e : Text, ∃ rest : Text, e = t!"'a`+`b'" ∧
    readConst 2 ((Piece.raw e).text ++ ',' :: rest) = some (t!"'ab'", ',' :: rest) ∧
    readConst 2 ((Piece.raw e).text ++ ',' :: rest) ≠ some (e, ',' :: rest) :=
  ⟨_, [], rfl, by decide, by decide⟩

/-- Carriage returns disappear from an expression without any message. -/
theorem C104_carriage_return_false : ∃ e : Text, ∃ rest : Text, e = t!"'''a\rb'''" ∧
    readConst 1 ((Piece.raw e).text ++ ',' :: rest) = some (t!"'''ab'''", ',' :: rest) :=
  ⟨_, [], rfl, by decide⟩

/-- With the CEL string of a single backquote there is no Go file at all. -/
theorem C104_backquote_false : ∃ e : Text, e = t!"'`'" ∧
    ∀ ts, ¬ Scans (render [.code t!"Expr: ", .raw e, .code t!","]) ts := by
  refine ⟨_, rfl, ?_⟩
  intro ts h
  have h : Scans (t!"Expr: `'`'`,") ts := h
  have strip : ∀ (c : Char) (cs : Text) (ts : List Tok), plainChar c = true → Scans (c :: cs) ts → ∃ ts', Scans cs ts' := by
    intro c cs ts hc h
    cases h with
    | char _ h => exact ⟨_, h⟩
    | raw => simp [plainChar] at hc
    | str => simp [plainChar] at hc
    | line => simp [plainChar] at hc
    | block => simp [plainChar] at hc
  obtain ⟨_, h⟩ := strip _ _ _ (by decide) h
  obtain ⟨_, h⟩ := strip _ _ _ (by decide) h
  obtain ⟨_, h⟩ := strip _ _ _ (by decide) h
  obtain ⟨_, h⟩ := strip _ _ _ (by decide) h
  obtain ⟨_, h⟩ := strip _ _ _ (by decide) h
  obtain ⟨_, h⟩ := strip _ _ _ (by decide) h
  cases h with
  | char hc _ => exact absurd hc (by decide)
  | raw hr h =>
    have : readRaw t!"'`'`," = some (t!"'", t!"'`,") := by decide
    rw [this] at hr
    cases hr
    cases h with
    | char hc _ => exact absurd hc (by decide)

/-! ## Locales -/

/-- A locale between quotes is read as the locale if and only if it has no quote, backslash, line break or
illegal character. -/
theorem C104_locale (l rest : Text) :
    readLit ((Piece.quoted l).text ++ rest) = some (l, rest) ↔
      ∀ c ∈ l, c ≠ '"' ∧ c ≠ '\\' ∧ c ≠ '\n' ∧ illegal c = false := by
  have ht : (Piece.quoted l).text ++ rest = '"' :: (l ++ '"' :: rest) := by simp [Piece.text]
  rw [ht, readLit, if_neg (by decide), if_pos rfl]
  constructor
  · intro h c hc
    exact strChar_iff.1 (readStr_only l rest h c hc)
  · intro h
    exact readStr_clean l rest (fun c hc => strChar_iff.2 (h c hc))

example : readLit ((Piece.quoted t!"en-US").text ++ t!",") = some (t!"en-US", t!",") :=
  (C104_locale _ _).2 (by decide)

/-- A backslash in a locale can change it without any message. -/
theorem C104_locale_false : ∃ l rest : Text, l = t!"en\\u002dUS" ∧
    readLit ((Piece.quoted l).text ++ rest) = some (t!"en-US", rest) :=
  ⟨_, [], rfl, by decide⟩

/-! ## Quoted strings in comments and tags -/

/-- `%q` is read back as the string, whatever it is. -/
theorem C104_quoted (ip : Char → Bool) (hp : Printable ip) (s rest : Text) :
    readLit (quote ip s ++ rest) = some (s, rest) := by
  have := readStr_quote ip hp s rest
  simpa [readLit, quote] using this

example : readLit (quote ascii t!"a\"\n`é\x00" ++ t!",") = some (t!"a\"\n`é\x00", t!",") :=
  C104_quoted ascii ascii_printable _ _

/-! ## Comments -/

theorem lineComment (u : Text) (r : Text) (ts : List Tok) (h : ∀ c ∈ u, c ≠ '\n' ∧ illegal c = false) :
    Scans ('/' :: '/' :: (u ++ '\n' :: r)) ts ↔ Scans ('\n' :: r) ts := by
  have hl := readLine_clean u r h
  constructor
  · intro hs
    cases hs with
    | char hc _ => simp [plainChar] at hc
    | line hr h' => rw [hl] at hr; cases hr; exact h'
  · intro hs
    exact .line hl hs

theorem quote_line (ip : Char → Bool) (hp : Printable ip) (s : Text) :
    ∀ c ∈ quote ip s, c ≠ '\n' ∧ illegal c = false := fun c hc =>
  let h := quote_chars ip hp s c hc
  ⟨h.1, h.2.2.1⟩

theorem lit_line {t : Text} (h : t.all (fun c => c ≠ '\n' && !illegal c) = true) :
    ∀ c ∈ t, c ≠ '\n' ∧ illegal c = false := by
  intro c hc
  simpa using List.all_eq_true.1 h c hc

theorem app_line {a b : Text} (ha : ∀ c ∈ a, c ≠ '\n' ∧ illegal c = false)
    (hb : ∀ c ∈ b, c ≠ '\n' ∧ illegal c = false) : ∀ c ∈ a ++ b, c ≠ '\n' ∧ illegal c = false := by
  intro c hc
  rcases List.mem_append.1 hc with h | h
  · exact ha c h
  · exact hb c h

theorem valueFormat_line (ip : Char → Bool) (hp : Printable ip) (v : Bool × Text) :
    ∀ c ∈ valueFormat ip v, c ≠ '\n' ∧ illegal c = false := by
  obtain ⟨b, e⟩ := v
  cases b
  · exact app_line (a := t!"by: ") (lit_line (by decide)) (quote_line ip hp e)
  · exact app_line (a := t!"inline: ") (lit_line (by decide)) (quote_line ip hp e)

theorem argElems_line (ip : Char → Bool) (hp : Printable ip) (rq : Bool) (a : Arg) :
    ∀ t ∈ argElems ip rq a, ∀ c ∈ t, c ≠ '\n' ∧ illegal c = false := by
  intro t ht
  simp only [argElems, List.mem_append] at ht
  rcases ht with (ht | ht) | ht
  · split at ht
    · simp only [List.mem_cons, List.not_mem_nil, or_false] at ht
      subst ht
      cases rq
      · exact app_line (a := t!"name: ") (lit_line (by decide)) (quote_line ip hp _)
      · exact app_line (a := t!"field: ") (lit_line (by decide)) (quote_line ip hp _)
    · cases ht
  · split at ht
    · simp only [List.mem_cons, List.not_mem_nil, or_false] at ht
      subst ht
      exact valueFormat_line ip hp _
    · cases ht
  · split at ht
    · simp only [List.mem_cons, List.not_mem_nil, or_false] at ht
      subst ht
      exact app_line (a := t!"if: ") (lit_line (by decide)) (quote_line ip hp _)
    · cases ht

theorem join_line {sep : Text} (hs : ∀ c ∈ sep, c ≠ '\n' ∧ illegal c = false) (l : List Text)
    (h : ∀ t ∈ l, ∀ c ∈ t, c ≠ '\n' ∧ illegal c = false) : ∀ c ∈ join sep l, c ≠ '\n' ∧ illegal c = false := by
  induction l with
  | nil => intro c hc; cases hc
  | cons a l ih =>
    cases l with
    | nil => exact h a (List.mem_cons_self ..)
    | cons b l =>
      exact app_line (app_line (h a (List.mem_cons_self ..)) hs)
        (ih (fun t ht => h t (List.mem_cons_of_mem _ ht)))

theorem argComment_form (ip : Char → Bool) (hp : Printable ip) (rq : Bool) (a : Arg) :
    argComment ip rq a = [] ∨ ∃ u, argComment ip rq a = '/' :: '/' :: u ∧ ∀ c ∈ u, c ≠ '\n' ∧ illegal c = false := by
  have hl : ∀ c ∈ argFormat ip rq a, c ≠ '\n' ∧ illegal c = false := by
    unfold argFormat
    split
    · intro c hc; cases hc
    · exact app_line (app_line (a := t!"{ ") (lit_line (by decide))
        (join_line (lit_line (by decide)) _ (argElems_line ip hp rq a))) (b := t!" }") (lit_line (by decide))
  unfold argComment
  split
  · exact .inl rfl
  · exact .inr ⟨' ' :: argFormat ip rq a, rfl, app_line (a := t!" ") (lit_line (by decide)) hl⟩

theorem replaceColon_mem (t : Text) : ∀ c ∈ replaceColon t, c ∈ t ∨ c = ' ' ∨ c = '=' := by
  induction t with
  | nil => intro c hc; cases hc
  | cons d t ih =>
    intro c hc
    rw [replaceColon] at hc
    split at hc
    · simp only [List.mem_cons] at hc
      rcases hc with rfl | rfl | hc
      · exact .inr (.inl rfl)
      · exact .inr (.inr rfl)
      · exact .inl (List.mem_cons_of_mem _ hc)
    · rcases List.mem_cons.1 hc with rfl | hc
      · exact .inl (List.mem_cons_self ..)
      · rcases ih c hc with h | h
        · exact .inl (List.mem_cons_of_mem _ h)
        · exact .inr h

/-- The comment at an argument of a request or message ends at the end of its line, whatever the strings of the
argument are: the code after it is seen as it is. -/
theorem C104_argument_comment (ip : Char → Bool) (hp : Printable ip) (rq : Bool) (a : Arg) (r : Text)
    (ts : List Tok) : Scans (argComment ip rq a ++ '\n' :: r) ts ↔ Scans ('\n' :: r) ts := by
  rcases argComment_form ip hp rq a with h | ⟨u, h, hu⟩
  · rw [h]; exact Iff.rfl
  · rw [h]; exact lineComment u r ts hu

/-- The same for the comment at a field, which shows its rule. -/
theorem C104_field_comment (ip : Char → Bool) (hp : Printable ip) (f : FieldFmt) (r : Text) (ts : List Tok) :
    Scans (fieldFormat ip f ++ '\n' :: r) ts ↔ Scans ('\n' :: r) ts := by
  cases f with
  | custom => exact lineComment t!" (grpc.federation.field).custom_resolver = true" r ts (lit_line (by decide))
  | value v =>
    refine lineComment (t!" (grpc.federation.field)." ++ replaceColon (valueFormat ip v)) r ts
      (app_line (lit_line (by decide)) ?_)
    intro c hc
    rcases replaceColon_mem _ c hc with h | rfl | rfl
    · exact valueFormat_line ip hp v c h
    · decide
    · decide
  | alias_ n =>
    exact lineComment (t!" (grpc.federation.field).alias = " ++ quote ip n) r ts
      (app_line (lit_line (by decide)) (quote_line ip hp n))
  | none => exact Iff.rfl

/-- The same for the comment at an autobound field. -/
theorem C104_autobind_comment (ip : Char → Bool) (hp : Printable ip) (name r : Text) (ts : List Tok) :
    Scans (autobindComment ip name ++ '\n' :: r) ts ↔ Scans ('\n' :: r) ts := by
  have := lineComment (t!" { name: " ++ quote ip name ++ t!", autobind: true }") r ts
    (app_line (app_line (lit_line (by decide)) (quote_line ip hp name)) (lit_line (by decide)))
  simpa [autobindComment] using this

example : Scans (argComment ascii true ⟨t!"id", some (false, t!"'a\nb'"), none⟩ ++ t!"\nx")
    [.code '\n', .code 'x'] :=
  (C104_argument_comment ascii ascii_printable true _ _ _).2
    (.char (by decide) (.char (by decide) .nil))

/-- The strings of an argument. -/
def Arg.strings (a : Arg) : List Text := a.name :: (a.value.map Prod.snd).toList ++ a.cond.toList

/-- The strings of a message definition. -/
def MsgFmt.strings (m : MsgFmt) : List Text := m.name.toList ++ m.args.flatMap Arg.strings

/-- The strings of an error: conditions of details are repeated in comments, their entries are not. -/
def ErrFmt.strings (e : ErrFmt) : List Text :=
  e.cond.toList ++ e.message.toList ++ e.details.map DetailFmt.cond

/-- The strings of the expression of a definition. -/
def Expr.strings : Expr → List Text
  | .by_ e => [e]
  | .call m r => m.toList ++ (r.getD []).flatMap Arg.strings
  | .message m => m.strings
  | .enum n b => n.toList ++ b.toList
  | .map i b m => (i.map fun i => i.1 :: i.2.toList).getD [] ++ b.toList ++ (m.map MsgFmt.strings).getD []
  | .validation n e => n :: (e.map ErrFmt.strings).getD []
  | .none => []

/-- All strings of a definition that its comment shows. -/
def DefFmt.strings (d : DefFmt) : List Text := d.name :: d.cond.toList ++ d.expr.strings

theorem any_toList (o : Option Text) : o.toList.any closes = closesO o := by cases o <;> simp [closesO]

theorem any_arg (a : Arg) : a.strings.any closes = closesArg a := by
  simp only [Arg.strings, closesArg, List.cons_append, List.any_cons, List.any_append, any_toList]

theorem any_args (l : List Arg) : (l.flatMap Arg.strings).any closes = closesArgs l := by
  induction l with
  | nil => rfl
  | cons a l ih => simp only [List.flatMap_cons, List.any_append, any_arg, ih]; rfl

theorem any_msg (m : MsgFmt) : m.strings.any closes = closesMsg m := by
  simp only [MsgFmt.strings, closesMsg, List.any_append, any_toList, any_args]

theorem any_err (e : ErrFmt) : e.strings.any closes = closesErr e := by
  simp only [ErrFmt.strings, closesErr, List.any_append, any_toList, List.any_map, Bool.or_assoc]
  rfl

theorem any_expr (e : Expr) : e.strings.any closes = closesExpr e := by
  cases e with
  | by_ e => simp [Expr.strings, closesExpr]
  | call m r =>
    cases r <;> simp only [Expr.strings, closesExpr, List.any_append, any_toList, Option.getD_none, Option.getD_some, any_args]
    rfl
  | message m => exact any_msg m
  | enum n b => simp only [Expr.strings, closesExpr, List.any_append, any_toList]
  | map i b m =>
    cases i <;> cases m <;>
      simp only [Expr.strings, closesExpr, List.any_append, any_toList, Option.map_none, Option.map_some,
        Option.getD_none, Option.getD_some, any_msg, List.any_nil, List.any_cons, Bool.or_assoc, Bool.false_or, Bool.or_false]
  | validation n e =>
    cases e <;> simp only [Expr.strings, closesExpr, List.any_cons, Option.map_none, Option.map_some,
        Option.getD_none, Option.getD_some, any_err, List.any_nil]
  | none => rfl

theorem any_def (d : DefFmt) : d.strings.any closes = closesDef d := by
  simp only [DefFmt.strings, closesDef, List.cons_append, List.any_cons, List.any_append, any_toList, any_expr]

theorem closesDef_false (d : DefFmt) : closesDef d = false ↔ ∀ s ∈ d.strings, ¬ HasClose s := by
  rw [← any_def, List.any_eq_false]
  constructor
  · intro h s hs hc
    exact h s hs ((closes_iff s).2 hc)
  · intro h s hs hc
    exact h s hs ((closes_iff s).1 hc)

/-- The comment in front of the code of a definition ends where it is meant to end if and only if none of the
strings of the definition contains `*/`. -/
theorem C104_definition_comment (ip : Char → Bool) (hp : Printable ip) (d : DefFmt) (r : Text) :
    readBlock (t!"\n" ++ defFormat ip d ++ t!"\n" ++ '*' :: '/' :: r) = some r ↔
      ∀ s ∈ d.strings, ¬ HasClose s := by
  have hn : Shows t!"\n" false := .lit (by decide)
  have hs : Shows (t!"\n" ++ defFormat ip d ++ t!"\n") (closesDef d) := by
    simpa using (hn.append (Shows.defFormat hp d)).append hn
  rw [← closesDef_false, ← hs.eq]
  constructor
  · exact readBlock_only _ r
  · intro h
    exact readBlock_clean _ r h hs.last hs.ill

/-- A call with a request, for the examples. -/
def exampleDef : DefFmt :=
  ⟨t!"res", some t!"$.id != ''", true,
    .call (some t!"post.PostService/GetPost") (some [⟨t!"id", some (false, t!"$.id"), none⟩, ⟨t!"opt", some (false, t!"'x'"), some t!"$.opt"⟩])⟩

example : readBlock (t!"\n" ++ defFormat ascii exampleDef ++ t!"\n" ++ t!"*/\ndef_res := ") = some t!"\ndef_res := " :=
  (C104_definition_comment ascii ascii_printable exampleDef _).2 (by
    intro s hs hc
    rw [← closes_iff] at hc
    revert s
    decide)

/-- `by: "'*/*'"` ends its comment early: the compiler sees the rest of the string as code. -/
theorem C104_definition_comment_false : ∃ d : DefFmt, d = ⟨t!"accept", none, false, .by_ t!"'*/*'"⟩ ∧
    ∀ r, readBlock (t!"\n" ++ defFormat ascii d ++ t!"\n" ++ '*' :: '/' :: r) =
      some (t!"*'\"\n}\n*/" ++ r) := by
  refine ⟨_, rfl, ?_⟩
  intro r
  rfl

/-! ## Whole files -/

/-- The parts of a file do not disturb each other: if every part is fine by itself, the compiler sees exactly the
strings and the code that are meant, in order, and nothing of the comments. -/
theorem C104_file_partial (ps : List Piece) (h : ∀ p ∈ ps, Good p) (ts : List Tok) :
    Scans (render ps) ts ↔ ts = ps.flatMap Piece.toks := by
  constructor
  · intro hs
    exact hs.unique (scans_render ps h)
  · rintro rfl
    exact scans_render ps h

example : Scans (render [.block t!" a ` \" ", .code t!"x := ", .raw t!"\"/*", .comment t!"// '", .quoted t!"`"])
    [.code 'x', .code ' ', .code ':', .code '=', .code ' ', .str t!"\"/*", .code '\n', .str t!"`"] := by
  refine (C104_file_partial _ ?_ _).2 rfl
  intro p hp
  simp only [List.mem_cons, List.not_mem_nil, or_false] at hp
  rcases hp with rfl | rfl | rfl | rfl | rfl
  · exact ⟨by decide, by decide, by decide⟩
  · intro c; revert c; decide
  · intro c; revert c; decide
  · exact .inr ⟨_, rfl, by decide⟩
  · intro c; revert c; decide

/-- Texts that are fine between backquotes. -/
def Clean (e : Text) : Prop := ∀ c ∈ e, c ≠ '`' ∧ c ≠ '\r' ∧ illegal c = false

/-- Texts that are fine between quotes. -/
def CleanLocale (l : Text) : Prop := ∀ c ∈ l, c ≠ '"' ∧ c ≠ '\\' ∧ c ≠ '\n' ∧ illegal c = false

theorem Clean.good {e : Text} (h : Clean e) : Good (.raw e) := fun c hc => rawChar_iff.2 (h c hc)

theorem CleanLocale.good {e : Text} (h : CleanLocale e) : Good (.quoted e) := fun c hc => strChar_iff.2 (h c hc)

theorem good_code {t : Text} (h : t.all plainChar = true) : Good (.code t) := List.all_eq_true.1 h

/-- The name of a definition: letters, digits and `_`. -/
def Ident (k : Text) : Prop := ∀ c ∈ k, identChar c = true

theorem ident_facts (c : Char) (h : identChar c = true) : plainChar c = true ∧ rawChar c = true := by
  have hc : c.toNat = 95 ∨ (48 ≤ c.toNat ∧ c.toNat ≤ 122 ∧ c.toNat ≠ 96) := by
    simp only [identChar, Char.isAlphanum, Char.isAlpha, Char.isUpper, Char.isLower, Char.isDigit, Bool.or_eq_true,
      Bool.and_eq_true, decide_eq_true_eq, beq_iff_eq] at h
    rcases h with ((⟨h1, h2⟩ | ⟨h1, h2⟩) | ⟨h1, h2⟩) | rfl
    · have h1' : 65 ≤ c.toNat := h1
      have h2' : c.toNat ≤ 90 := h2
      omega
    · have h1' : 97 ≤ c.toNat := h1
      have h2' : c.toNat ≤ 122 := h2
      omega
    · have h1' : 48 ≤ c.toNat := h1
      have h2' : c.toNat ≤ 57 := h2
      omega
    · exact .inl rfl
  have ne : ∀ d : Char, d.toNat < 48 ∨ d.toNat = 96 → c ≠ d := by
    rintro d hd rfl
    omega
  have hi : illegal c = false := by
    simp only [illegal, Bool.or_eq_false_iff, beq_eq_false_iff_ne]
    omega
  refine ⟨?_, rawChar_iff.2 ⟨ne _ (by decide), ne _ (by decide), hi⟩⟩
  simp [plainChar, ne '`' (by decide), ne '"' (by decide), ne '\'' (by decide), ne '/' (by decide), hi]

/-- The strings that the server gets of a definition with `by` are its condition, its name and its expression, if these
are fine between backquotes and no string of the definition contains `*/`. -/
theorem C104_definition_partial (ip : Char → Bool) (hp : Printable ip) (d : DefFmt) (key e : Text)
    (hk : Ident key) (he : d.expr = .by_ e) (h1 : Clean e) (h2 : ∀ c, d.cond = some c → Clean c)
    (h3 : ∀ s ∈ d.strings, ¬ HasClose s) :
    ∃ ts, Scans (render (declDef ip d key)) ts ∧
      fields [] ts = (match d.cond with
        | some c => [(t!"If", c)]
        | none => []) ++ [(t!"Name", key), (t!"By", e)] := by
  have hn : Shows t!"\n" false := .lit (by decide)
  have hs : Shows (t!"\n" ++ defFormat ip d ++ t!"\n") (closesDef d) := by
    simpa using (hn.append (Shows.defFormat hp d)).append hn
  have hb : Good (.block (t!"\n" ++ defFormat ip d ++ t!"\n")) :=
    ⟨hs.eq.trans ((closesDef_false d).2 h3), hs.last, hs.ill⟩
  have hcode : Good (.code (t!"\ndef_" ++ key ++ t!" := func(ctx context.Context) error {\n\treturn grpcfed.EvalDef(ctx, value, grpcfed.Def[any, *localValueType]{")) := by
    intro c hc
    rcases List.mem_append.1 hc with hc | hc
    · rcases List.mem_append.1 hc with hc | hc
      · exact good_code (t := t!"\ndef_") (by decide) c hc
      · exact (ident_facts c (hk c hc)).1
    · exact good_code (t := t!" := func(ctx context.Context) error {\n\treturn grpcfed.EvalDef(ctx, value, grpcfed.Def[any, *localValueType]{") (by decide) c hc
  have hkey : Good (.raw key) := fun c hc => (ident_facts c (hk c hc)).2
  have hgood : ∀ p ∈ declDef ip d key, Good p := by
    intro p hp
    simp only [declDef, he, List.mem_append] at hp
    rcases hp with (((hp | hp) | hp) | hp) | hp
    · simp only [List.mem_cons, List.not_mem_nil, or_false] at hp
      rcases hp with rfl | rfl
      · exact hb
      · exact hcode
    · cases hc : d.cond with
      | none => rw [hc] at hp; cases hp
      | some c =>
        rw [hc] at hp
        simp only [List.mem_cons, List.not_mem_nil, or_false] at hp
        rcases hp with rfl | rfl | rfl
        · exact good_code (by decide)
        · exact (h2 c hc).good
        · exact good_code (by decide)
    · simp only [List.mem_cons, List.not_mem_nil, or_false] at hp
      rcases hp with rfl | rfl | rfl
      · exact good_code (by decide)
      · exact hkey
      · exact good_code (by decide)
    · simp only [List.mem_cons, List.not_mem_nil, or_false] at hp
      rcases hp with rfl | rfl | rfl
      · exact good_code (by decide)
      · exact h1.good
      · exact good_code (by decide)
    · simp only [List.mem_cons, List.not_mem_nil, or_false] at hp
      rcases hp with rfl
      exact good_code (by decide)
  refine ⟨_, scans_render _ hgood, ?_⟩
  cases hc : d.cond with
  | none =>
    simp only [declDef, he, hc, List.flatMap_cons, List.flatMap_append, List.flatMap_nil, Piece.toks,
      List.cons_append, List.nil_append, List.append_nil, fields_codes]
    rfl
  | some c =>
    simp only [declDef, he, hc, List.flatMap_cons, List.flatMap_append, List.flatMap_nil, Piece.toks,
      List.cons_append, List.nil_append, List.append_nil, fields_codes]
    rfl

example : ∃ ts, Scans (render (declDef ascii ⟨t!"x", some t!"a > 1", false, .by_ t!"'/' + \"\\n\""⟩ t!"x")) ts ∧
    fields [] ts = [(t!"If", t!"a > 1"), (t!"Name", t!"x"), (t!"By", t!"'/' + \"\\n\"")] := by
  refine C104_definition_partial ascii ascii_printable _ _ _ (by intro c; revert c; decide) rfl (by intro c; revert c; decide) ?_ ?_
  · intro c h
    cases h
    intro c; revert c; decide
  · intro s hs hc
    rw [← closes_iff] at hc
    revert s
    decide

/-- The parts `ps` give the strings `S` to the named fields, wherever they stand. -/
def Gives (ps : List Piece) (S : List (Text × Text)) : Prop :=
  ∀ back ts, ∃ back', fields back (ps.flatMap Piece.toks ++ ts) = S ++ fields back' ts

theorem Gives.nil : Gives [] [] := fun back _ => ⟨back, rfl⟩

theorem Gives.append {a b : List Piece} {S T : List (Text × Text)} (ha : Gives a S) (hb : Gives b T) :
    Gives (a ++ b) (S ++ T) := by
  intro back ts
  obtain ⟨b1, h1⟩ := ha back (b.flatMap Piece.toks ++ ts)
  obtain ⟨b2, h2⟩ := hb b1 ts
  exact ⟨b2, by rw [List.flatMap_append, List.append_assoc, h1, h2, List.append_assoc]⟩

theorem Gives.code (t : Text) : Gives [.code t] [] := fun back ts =>
  ⟨t.reverse ++ back, by simp [Piece.toks, fields_codes]⟩

theorem Gives.flatMap {α : Type} (l : List α) {f : α → List Piece} {g : α → List (Text × Text)}
    (h : ∀ a ∈ l, Gives (f a) (g a)) : Gives (l.flatMap f) (l.flatMap g) := by
  induction l with
  | nil => exact .nil
  | cons a l ih =>
    exact .append (h a (List.mem_cons_self ..)) (ih (fun b hb => h b (List.mem_cons_of_mem _ hb)))

theorem Gives.done {ps : List Piece} {S : List (Text × Text)} (h : Gives ps S) :
    fields [] (ps.flatMap Piece.toks) = S := by
  obtain ⟨b, hb⟩ := h [] []
  simpa [fields] using hb

/-! ## Arguments -/

/-- The strings that the server gets for an argument are its condition and its expression, whatever is in its comment, if
they are fine between backquotes. -/
theorem C104_argument_partial (ip : Char → Bool) (hp : Printable ip) (rq : Bool) (a : Arg) (b : Bool) (e : Text)
    (hv : a.value = some (b, e)) (h1 : Clean e) (h2 : ∀ c, a.cond = some c → Clean c) :
    ∃ ts, Scans (render (setArgument ip rq a)) ts ∧
      fields [] ts = a.cond.toList.map (fun c => (t!"Expr", c)) ++ [(t!"Expr", e)] := by
  have hc := argComment_form ip hp rq a
  cases hcond : a.cond with
  | none =>
    refine ⟨_, scans_render _ ?_, ?_⟩
    · intro p hp
      simp only [setArgument, hv, hcond, List.mem_cons, List.not_mem_nil, or_false] at hp
      rcases hp with rfl | rfl | rfl | rfl | rfl
      · exact good_code (by decide)
      · exact hc
      · exact good_code (by decide)
      · exact h1.good
      · exact good_code (by decide)
    · simp only [setArgument, hv, hcond, List.flatMap_cons, List.flatMap_nil, Piece.toks,
        List.cons_append, List.nil_append, fields_codes]
      rfl
  | some c =>
    refine ⟨_, scans_render _ ?_, ?_⟩
    · intro p hp
      simp only [setArgument, hv, hcond, List.mem_cons, List.not_mem_nil, or_false] at hp
      rcases hp with rfl | rfl | rfl | rfl | rfl | rfl | rfl
      · exact good_code (by decide)
      · exact hc
      · exact good_code (by decide)
      · exact (h2 c hcond).good
      · exact good_code (by decide)
      · exact h1.good
      · exact good_code (by decide)
    · simp only [setArgument, hv, hcond, List.flatMap_cons, List.flatMap_nil, Piece.toks,
        List.cons_append, List.nil_append, fields_codes]
      rfl

example : ∃ ts, Scans (render (setArgument ascii true ⟨t!"id", some (false, t!"'*/'"), some t!"a\n&& b"⟩)) ts ∧
    fields [] ts = [(t!"Expr", t!"a\n&& b"), (t!"Expr", t!"'*/'")] := by
  refine C104_argument_partial ascii ascii_printable true _ false _ rfl (by intro c; revert c; decide) ?_
  intro c h
  cases h
  intro c; revert c; decide

/-! ## Details of errors -/

/-- The strings of a detail as written, by the names that the server has for them. A detail without condition is always
added. -/
def DetailOpt.strings (d : DetailOpt) : List (Text × Text) :=
  [(t!"Expr", if d.cond = [] then t!"true" else d.cond)] ++
  d.bys.map (fun e => (t!"Expr", e)) ++
  d.preconditions.flatMap (fun f => f.flatMap (fun v =>
    [(t!"Type", v.type), (t!"Subject", v.subject), (t!"Desc", v.description)])) ++
  d.badRequests.flatMap (fun f => f.flatMap (fun v => [(t!"Field", v.field), (t!"Desc", v.description)])) ++
  d.localized.flatMap (fun m => [(t!"Locale", m.locale), (t!"Message", m.message)])

/-- All texts of a detail are fine. -/
structure DetailOpt.Fine (d : DetailOpt) : Prop where
  cond : Clean d.cond
  bys : ∀ e ∈ d.bys, Clean e
  pres : ∀ f ∈ d.preconditions, ∀ v ∈ f, Clean v.type ∧ Clean v.subject ∧ Clean v.description
  bads : ∀ f ∈ d.badRequests, ∀ v ∈ f, Clean v.field ∧ Clean v.description
  locs : ∀ m ∈ d.localized, CleanLocale m.locale ∧ Clean m.message

theorem resolvePre_mem (f : List PreOpt) (v : PreRes) (h : v ∈ resolvePreViolations f) :
    ∃ o ∈ f, v = { typ := o.type, subj := o.subject, desc := o.description } := by
  induction f with
  | nil => cases h
  | cons o f ih =>
    rcases List.mem_cons.1 h with rfl | h
    · exact ⟨o, List.mem_cons_self .., rfl⟩
    · obtain ⟨o', h1, h2⟩ := ih h
      exact ⟨o', List.mem_cons_of_mem _ h1, h2⟩

theorem resolveBad_mem (f : List BadOpt) (v : BadRes) (h : v ∈ resolveBadViolations f) :
    ∃ o ∈ f, v = { fld := o.field, desc := o.description } := by
  induction f with
  | nil => cases h
  | cons o f ih =>
    rcases List.mem_cons.1 h with rfl | h
    · exact ⟨o, List.mem_cons_self .., rfl⟩
    · obtain ⟨o', h1, h2⟩ := ih h
      exact ⟨o', List.mem_cons_of_mem _ h1, h2⟩

theorem resolveLoc_mem (f : List LocOpt) (v : LocRes) (h : v ∈ resolveLocalized f) :
    ∃ o ∈ f, v = { loc := o.locale, msg := o.message } := by
  induction f with
  | nil => cases h
  | cons o f ih =>
    rcases List.mem_cons.1 h with rfl | h
    · exact ⟨o, List.mem_cons_self .., rfl⟩
    · obtain ⟨o', h1, h2⟩ := ih h
      exact ⟨o', List.mem_cons_of_mem _ h1, h2⟩

theorem Gives.pre (f : List PreOpt) : Gives (preText (resolvePreViolations f))
    (f.flatMap (fun v => [(t!"Type", v.type), (t!"Subject", v.subject), (t!"Desc", v.description)])) := by
  have hv : Gives ((resolvePreViolations f).flatMap (fun v =>
      [.code t!"\n\t{\n\t\tType:    ", .raw v.typ, .code t!",\n\t\tSubject: ", .raw v.subj,
       .code t!",\n\t\tDesc:    ", .raw v.desc, .code t!",\n\t},"]))
      (f.flatMap (fun v => [(t!"Type", v.type), (t!"Subject", v.subject), (t!"Desc", v.description)])) := by
    induction f with
    | nil => exact .nil
    | cons o f ih =>
      rw [resolvePreViolations, List.flatMap_cons, List.flatMap_cons]
      refine .append ?_ ih
      intro back ts
      exact ⟨_, rfl⟩
  simpa [preText] using ((Gives.code _).append hv).append (Gives.code _)

theorem Gives.bad (f : List BadOpt) : Gives (badText (resolveBadViolations f))
    (f.flatMap (fun v => [(t!"Field", v.field), (t!"Desc", v.description)])) := by
  have hv : Gives ((resolveBadViolations f).flatMap (fun v =>
      [.code t!"\n\t{\n\t\tField: ", .raw v.fld, .code t!",\n\t\tDesc:  ", .raw v.desc, .code t!",\n\t},"]))
      (f.flatMap (fun v => [(t!"Field", v.field), (t!"Desc", v.description)])) := by
    induction f with
    | nil => exact .nil
    | cons o f ih =>
      rw [resolveBadViolations, List.flatMap_cons, List.flatMap_cons]
      refine .append ?_ ih
      intro back ts
      exact ⟨_, rfl⟩
  simpa [badText] using ((Gives.code _).append hv).append (Gives.code _)

theorem Gives.loc (l : List LocOpt) : Gives ((resolveLocalized l).flatMap locText)
    (l.flatMap (fun m => [(t!"Locale", m.locale), (t!"Message", m.message)])) := by
  induction l with
  | nil => exact .nil
  | cons o l ih =>
    rw [resolveLocalized, List.flatMap_cons, List.flatMap_cons]
    refine .append ?_ ih
    intro back ts
    exact ⟨_, rfl⟩

/-- The strings that the server gets for a detail of an error are those written in the option, each for what it was written
for and in the order written, if they are fine between backquotes (locales: between quotes). -/
theorem C104_details_partial (d : DetailOpt) (h : d.Fine) :
    ∃ ts, Scans (render (detailText (resolveDetail d))) ts ∧ fields [] ts = d.strings := by
  refine ⟨_, scans_render _ ?_, ?_⟩
  · intro p hp
    simp only [detailText, resolveDetail, List.mem_append] at hp
    rcases hp with ((((hp | hp) | hp) | hp) | hp) | hp
    · simp only [List.mem_cons, List.not_mem_nil, or_false] at hp
      rcases hp with rfl | rfl | rfl
      · exact good_code (by decide)
      · unfold resolveIf
        split
        · intro c; revert c; decide
        · exact h.cond.good
      · exact good_code (by decide)
    · obtain ⟨e, he, hp⟩ := List.mem_flatMap.1 hp
      simp only [byText, List.mem_cons, List.not_mem_nil, or_false] at hp
      rcases hp with rfl | rfl | rfl
      · exact good_code (by decide)
      · exact (h.bys e he).good
      · exact good_code (by decide)
    · obtain ⟨f, hf, hp⟩ := List.mem_flatMap.1 hp
      obtain ⟨f', hf', rfl⟩ := List.mem_map.1 hf
      simp only [preText, List.mem_append, List.mem_flatMap, List.mem_cons, List.not_mem_nil, or_false] at hp
      rcases hp with (rfl | ⟨v, hv, hp⟩) | rfl
      · exact good_code (by decide)
      · obtain ⟨o, ho, rfl⟩ := resolvePre_mem f' v hv
        have := h.pres f' hf' o ho
        rcases hp with rfl | rfl | rfl | rfl | rfl | rfl | rfl
        · exact good_code (by decide)
        · exact this.1.good
        · exact good_code (by decide)
        · exact this.2.1.good
        · exact good_code (by decide)
        · exact this.2.2.good
        · exact good_code (by decide)
      · exact good_code (by decide)
    · obtain ⟨f, hf, hp⟩ := List.mem_flatMap.1 hp
      obtain ⟨f', hf', rfl⟩ := List.mem_map.1 hf
      simp only [badText, List.mem_append, List.mem_flatMap, List.mem_cons, List.not_mem_nil, or_false] at hp
      rcases hp with (rfl | ⟨v, hv, hp⟩) | rfl
      · exact good_code (by decide)
      · obtain ⟨o, ho, rfl⟩ := resolveBad_mem f' v hv
        have := h.bads f' hf' o ho
        rcases hp with rfl | rfl | rfl | rfl | rfl
        · exact good_code (by decide)
        · exact this.1.good
        · exact good_code (by decide)
        · exact this.2.good
        · exact good_code (by decide)
      · exact good_code (by decide)
    · obtain ⟨m, hm, hp⟩ := List.mem_flatMap.1 hp
      obtain ⟨o, ho, rfl⟩ := resolveLoc_mem d.localized m hm
      have := h.locs o ho
      simp only [locText, List.mem_cons, List.not_mem_nil, or_false] at hp
      rcases hp with rfl | rfl | rfl | rfl | rfl
      · exact good_code (by decide)
      · exact this.1.good
      · exact good_code (by decide)
      · exact this.2.good
      · exact good_code (by decide)
    · simp only [List.mem_cons, List.not_mem_nil, or_false] at hp
      rcases hp with rfl
      exact good_code (by decide)
  · apply Gives.done
    have h0 : Gives
        [.code t!"\nif err := grpcfed.If(ctx, &grpcfed.IfParam[*localValueType]{\n\tValue: value,\n\tExpr: ", .raw (resolveIf d.cond),
         .code t!",\n\tBody: func(value *localValueType) error {"] [(t!"Expr", if d.cond = [] then t!"true" else d.cond)] := by
      intro back ts
      exact ⟨_, rfl⟩
    have h1 : Gives (d.bys.flatMap byText) (d.bys.flatMap (fun e => [(t!"Expr", e)])) := by
      refine .flatMap _ (fun e _ => ?_)
      intro back ts
      exact ⟨_, rfl⟩
    have h2 : Gives ((d.preconditions.map resolvePreViolations).flatMap preText)
        (d.preconditions.flatMap (fun f => f.flatMap (fun v =>
          [(t!"Type", v.type), (t!"Subject", v.subject), (t!"Desc", v.description)]))) := by
      rw [List.flatMap_map]
      exact .flatMap _ (fun f _ => Gives.pre f)
    have h3 : Gives ((d.badRequests.map resolveBadViolations).flatMap badText)
        (d.badRequests.flatMap (fun f => f.flatMap (fun v => [(t!"Field", v.field), (t!"Desc", v.description)]))) := by
      rw [List.flatMap_map]
      exact .flatMap _ (fun f _ => Gives.bad f)
    have hm : d.bys.map (fun e => (t!"Expr", e)) = d.bys.flatMap (fun e => [(t!"Expr", e)]) := by
      induction d.bys with
      | nil => rfl
      | cons a l ih => simp [ih]
    have := ((((h0.append h1).append h2).append h3).append (Gives.loc d.localized)).append
      (Gives.code t!"\n\t\treturn nil\n\t},\n}); err != nil {\n\treturn err\n}")
    rw [List.append_nil] at this
    simpa only [detailText, resolveDetail, DetailOpt.strings, hm] using this

example : ∃ ts, Scans (render (detailText (resolveDetail
      ⟨[], [t!"m"], [[⟨t!"'T'", t!"'S'", t!"'D'"⟩]], [[⟨t!"'f'", t!"'g'"⟩, ⟨t!"'h'", t!"'i'"⟩]], [⟨t!"en-US", t!"'msg'"⟩]⟩))) ts ∧
    fields [] ts = [(t!"Expr", t!"true"), (t!"Expr", t!"m"), (t!"Type", t!"'T'"), (t!"Subject", t!"'S'"), (t!"Desc", t!"'D'"),
      (t!"Field", t!"'f'"), (t!"Desc", t!"'g'"), (t!"Field", t!"'h'"), (t!"Desc", t!"'i'"), (t!"Locale", t!"en-US"), (t!"Message", t!"'msg'")] := by
  refine C104_details_partial _ ⟨?_, ?_, ?_, ?_, ?_⟩
  · intro c; revert c; decide
  · intro e he c; revert c e; decide
  · unfold Clean; decide
  · unfold Clean; decide
  · unfold Clean CleanLocale; decide

end Verif.Embed
