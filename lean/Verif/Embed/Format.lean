import Verif.Embed.Lemmas

/-! # Helper lemmas about quoted strings and formatted definitions -/

namespace Verif.Embed

/-- The facts about `strconv.IsPrint` of Go that matter: `*` and `/` are printable, line breaks,
carriage returns, NUL and byte order marks are not. -/
structure Printable (ip : Char → Bool) : Prop where
  star : ip '*' = true
  slash : ip '/' = true
  nl : ip '\n' = false
  cr : ip '\r' = false
  ill : ∀ c, illegal c = true → ip c = false

/-- The characters of escapes. -/
def escChars : Text := t!"\\abfnrtvxuU0123456789cde"

theorem esc_facts : ∀ c ∈ escChars, c ≠ '*' ∧ c ≠ '/' ∧ c ≠ '\n' ∧ c ≠ '\r' ∧ c ≠ '`' ∧ illegal c = false := by
  decide

theorem hexDigit_mem (d : Nat) (h : d < 16) : hexDigit d ∈ escChars := by
  have : ∀ d : Fin 16, hexDigit d.val ∈ escChars := by decide
  exact this ⟨d, h⟩

theorem hex_mem (n v : Nat) : ∀ c ∈ hex n v, c ∈ escChars := by
  induction n with
  | zero => intro c h; simp [hex] at h
  | succ n ih =>
    intro c h
    rw [hex] at h
    rcases List.mem_cons.1 h with rfl | h
    · exact hexDigit_mem _ (Nat.mod_lt _ (by decide))
    · exact ih c h

theorem quoteChar_mem (ip : Char → Bool) (c x : Char) (h : x ∈ quoteChar ip c) :
    (x = c ∧ (ip c = true ∨ c = '"' ∨ c = '\\')) ∨ x ∈ escChars := by
  unfold quoteChar at h
  split at h
  · rename_i hc
    simp only [List.mem_cons, List.not_mem_nil, or_false] at h
    rcases h with rfl | rfl
    · right; decide
    · left; exact ⟨rfl, .inr hc⟩
  · split at h
    · rename_i hp
      simp only [List.mem_cons, List.not_mem_nil, or_false] at h
      exact .inl ⟨h, .inl hp⟩
    · right
      repeat' split at h
      all_goals first
        | (revert x; decide)
        | (simp only [List.mem_cons] at h
           rcases h with rfl | rfl | h
           · decide
           · decide
           · exact hex_mem _ _ _ h)

theorem quoteChar_ne (ip : Char → Bool) (c : Char) : quoteChar ip c ≠ [] := by
  unfold quoteChar
  repeat' split
  all_goals simp

theorem quoteChar_head (ip : Char → Bool) (hp : Printable ip) (c : Char) (t : Text) :
    (quoteChar ip c ++ t).head? = some '/' ↔ c = '/' := by
  constructor
  · intro h
    have hm : '/' ∈ quoteChar ip c := by
      cases hq : quoteChar ip c with
      | nil => exact absurd hq (quoteChar_ne ip c)
      | cons d l => rw [hq] at h; simp at h; simp [h]
    rcases quoteChar_mem ip c _ hm with ⟨h, _⟩ | h
    · exact h.symm
    · exact absurd rfl (esc_facts _ h).2.1
  · rintro rfl
    simp [quoteChar, hp.slash]

theorem closes_nostar (a b : Text) (h : '*' ∉ a) : closes (a ++ b) = closes b := by
  induction a with
  | nil => rfl
  | cons c a ih =>
    simp only [List.mem_cons, not_or] at h
    rw [List.cons_append, closes, ih h.2]
    simp [Ne.symm h.1]

theorem closes_quoteBody (ip : Char → Bool) (hp : Printable ip) (s : Text) :
    closes (s.flatMap (quoteChar ip) ++ ['"']) = closes s := by
  induction s with
  | nil => rfl
  | cons c s ih =>
    rw [List.flatMap_cons, List.append_assoc]
    by_cases hc : c = '*'
    · subst hc
      have hq : quoteChar ip '*' = ['*'] := by simp [quoteChar, hp.star]
      rw [hq, List.cons_append, List.nil_append, closes, ih, closes]
      congr 1
      cases s with
      | nil => rfl
      | cons d s =>
        rw [List.flatMap_cons, List.append_assoc]
        have := quoteChar_head ip hp d (s.flatMap (quoteChar ip) ++ ['"'])
        simp only [this, List.head?_cons, Option.some.injEq]
    · rw [closes_nostar, ih, closes]
      · simp [hc]
      · intro hm
        rcases quoteChar_mem ip c _ hm with ⟨h, _⟩ | h
        · exact hc h.symm
        · exact absurd rfl (esc_facts _ h).1

/-- No character of a quoted string is illegal, a line break or a carriage return; backquotes stay. -/
theorem quote_chars (ip : Char → Bool) (hp : Printable ip) (s : Text) (x : Char) (h : x ∈ quote ip s) :
    x ≠ '\n' ∧ x ≠ '\r' ∧ illegal x = false ∧ (x = '`' → '`' ∈ s) := by
  have key : ∀ c ∈ s, x ∈ quoteChar ip c → x ≠ '\n' ∧ x ≠ '\r' ∧ illegal x = false ∧ (x = '`' → '`' ∈ s) := by
    intro c hc hx
    rcases quoteChar_mem ip c x hx with ⟨rfl, hx⟩ | hx
    · refine ⟨?_, ?_, ?_, fun e => e ▸ hc⟩
      · rintro rfl
        rcases hx with hx | hx | hx
        · rw [hp.nl] at hx; cases hx
        · exact absurd hx (by decide)
        · exact absurd hx (by decide)
      · rintro rfl
        rcases hx with hx | hx | hx
        · rw [hp.cr] at hx; cases hx
        · exact absurd hx (by decide)
        · exact absurd hx (by decide)
      · rcases hx with hx | rfl | rfl
        · cases hi : illegal x with
          | false => rfl
          | true => rw [hp.ill x hi] at hx; cases hx
        · decide
        · decide
    · have := esc_facts x hx
      exact ⟨this.2.2.1, this.2.2.2.1, this.2.2.2.2.2, fun e => absurd e this.2.2.2.2.1⟩
  simp only [quote, List.mem_cons, List.mem_append, List.mem_flatMap, List.not_mem_nil, or_false] at h
  rcases h with rfl | ⟨c, hc, hx⟩ | rfl
  · exact ⟨by decide, by decide, by decide, fun e => absurd e (by decide)⟩
  · exact key c hc hx
  · exact ⟨by decide, by decide, by decide, fun e => absurd e (by decide)⟩

theorem quote_backquote (ip : Char → Bool) (s : Text) (h : ip '`' = true) (hs : '`' ∈ s) : '`' ∈ quote ip s := by
  simp only [quote, List.mem_cons, List.mem_append, List.mem_flatMap]
  right; left
  exact ⟨'`', hs, by simp [quoteChar, h]⟩

/-! ## Reading a quoted string back -/

theorem digit_hexDigit (d : Nat) (h : d < 16) : digit 16 (hexDigit d) = some d := by
  have : ∀ d : Fin 16, digit 16 (hexDigit d.val) = some d.val := by decide
  exact this ⟨d, h⟩

theorem readStr_hex (n : Nat) (hn : 1 ≤ n) (v acc top : Nat) (t : Text)
    (h1 : acc * 16 ^ n + v % 16 ^ n < top) (h2 : (acc * 16 ^ n + v % 16 ^ n).isValidChar) :
    readStr (.num 16 n acc top) (hex n v ++ t) =
      push (Char.ofNat (acc * 16 ^ n + v % 16 ^ n)) (readStr .plain t) := by
  induction n generalizing acc with
  | zero => omega
  | succ n ih =>
    have hd := digit_hexDigit (v / 16 ^ n % 16) (Nat.mod_lt _ (by decide))
    have hm : v % 16 ^ (n + 1) = v % 16 ^ n + 16 ^ n * (v / 16 ^ n % 16) := by
      rw [Nat.pow_succ, Nat.mod_mul]
    rw [hex, List.cons_append, readStr, hd]
    simp only
    by_cases h0 : n = 0
    · subst h0
      have e : acc * 16 ^ (0 + 1) + v % 16 ^ (0 + 1) = acc * 16 + v / 16 ^ 0 % 16 := by simp
      rw [e] at h1 h2 ⊢
      rw [if_pos rfl, if_pos ⟨h1, h2⟩]
      rfl
    · have e : (acc * 16 + v / 16 ^ n % 16) * 16 ^ n + v % 16 ^ n =
          acc * 16 ^ (n + 1) + v % 16 ^ (n + 1) := by
        rw [hm, Nat.pow_succ, Nat.add_mul, Nat.mul_assoc, Nat.mul_comm 16 (16 ^ n),
          Nat.mul_comm (v / 16 ^ n % 16)]
        omega
      rw [if_neg (by omega)]
      have := ih (by omega) (acc * 16 + v / 16 ^ n % 16) (by rw [e]; exact h1) (by rw [e]; exact h2)
      rw [e] at this
      simpa using this

theorem readStr_quoteChar (ip : Char → Bool) (hp : Printable ip) (c : Char) (t : Text) :
    readStr .plain (quoteChar ip c ++ t) = push c (readStr .plain t) := by
  have hv : c.toNat.isValidChar := c.valid
  have ho : Char.ofNat c.toNat = c := Char.ofNat_toNat c
  have hlt : c.toNat < 0x110000 := by
    rcases hv with h | h <;> omega
  have byNat : ∀ d : Char, c.toNat = d.toNat → c = d := by
    intro d h
    rw [← Char.ofNat_toNat c, ← Char.ofNat_toNat d, h]
  unfold quoteChar
  split
  · rename_i hc
    rcases hc with rfl | rfl <;> simp [readStr, illegal, letter]
  · rename_i hc
    simp only [not_or] at hc
    split
    · rename_i hpr
      have h1 : c ≠ '\n' := by rintro rfl; rw [hp.nl] at hpr; cases hpr
      have h2 : illegal c = false := by
        cases hi : illegal c with
        | false => rfl
        | true => rw [hp.ill c hi] at hpr; cases hpr
      simp [readStr, hc, h1, h2]
    · repeat' split
      all_goals first
        | (rename_i hn
           have := byNat (Char.ofNat 7) hn; subst this
           simp [readStr, illegal, letter]; done)
        | (rename_i hn
           have := byNat (Char.ofNat 8) hn; subst this
           simp [readStr, illegal, letter]; done)
        | (rename_i hn
           have := byNat (Char.ofNat 12) hn; subst this
           simp [readStr, illegal, letter]; done)
        | (rename_i hn
           have := byNat '\n' hn; subst this
           simp [readStr, illegal, letter]; done)
        | (rename_i hn
           have := byNat '\r' hn; subst this
           simp [readStr, illegal, letter]; done)
        | (rename_i hn
           have := byNat '\t' hn; subst this
           simp [readStr, illegal, letter]; done)
        | (rename_i hn
           have := byNat (Char.ofNat 11) hn; subst this
           simp [readStr, illegal, letter]; done)
        | (have e : 0 * 16 ^ 2 + c.toNat % 16 ^ 2 = c.toNat := by omega
           have := readStr_hex 2 (by omega) c.toNat 0 128 t (by omega) (by rw [e]; exact hv)
           rw [e, ho] at this
           simp [readStr, illegal, letter, this]; done)
        | (have e : 0 * 16 ^ 4 + c.toNat % 16 ^ 4 = c.toNat := by omega
           have := readStr_hex 4 (by omega) c.toNat 0 0x110000 t (by omega) (by rw [e]; exact hv)
           rw [e, ho] at this
           simp [readStr, illegal, letter, this]; done)
        | (have e : 0 * 16 ^ 8 + c.toNat % 16 ^ 8 = c.toNat := by omega
           have := readStr_hex 8 (by omega) c.toNat 0 0x110000 t (by omega) (by rw [e]; exact hv)
           rw [e, ho] at this
           simp [readStr, illegal, letter, this]; done)

theorem readStr_quote (ip : Char → Bool) (hp : Printable ip) (s t : Text) :
    readStr .plain (s.flatMap (quoteChar ip) ++ '"' :: t) = some (s, t) := by
  induction s with
  | nil => simp [readStr]
  | cons c s ih =>
    rw [List.flatMap_cons, List.append_assoc, readStr_quoteChar ip hp, ih]
    rfl

/-! ## Formatted definitions -/

/-- `t` does not start with `/` or end with `*`, has no illegal characters, and contains `*/` if and
only if `b`. -/
structure Shows (t : Text) (b : Bool) : Prop where
  head : t.head? ≠ some '/'
  last : t.getLast? ≠ some '*'
  ill : ∀ c ∈ t, illegal c = false
  eq : closes t = b

theorem Shows.append {a b : Text} {x y : Bool} (ha : Shows a x) (hb : Shows b y) : Shows (a ++ b) (x || y) := by
  refine ⟨?_, ?_, ?_, ?_⟩
  · cases a with
    | nil => exact hb.head
    | cons c a => exact ha.head
  · cases b with
    | nil => rw [List.append_nil]; exact ha.last
    | cons c b =>
      have h := hb.last
      rw [List.getLast?_append, List.getLast?_cons] at *
      simpa using h
  · intro c hc
    rcases List.mem_append.1 hc with h | h
    · exact ha.ill c h
    · exact hb.ill c h
  · rw [closes_append a b (fun h => ha.last h.1), ha.eq, hb.eq]

theorem Shows.nil : Shows [] false := ⟨by simp, by simp, by simp, rfl⟩

/-- Text without `*`, `/` and illegal characters. -/
def lit (t : Text) : Bool := t.all (fun c => c ≠ '*' && c ≠ '/' && !illegal c)

theorem Shows.lit {t : Text} (h : lit t = true) : Shows t false := by
  simp only [Embed.lit, List.all_eq_true, Bool.and_eq_true, decide_eq_true_eq, Bool.not_eq_true'] at h
  refine ⟨?_, ?_, fun c hc => (h c hc).2, ?_⟩
  · cases t with
    | nil => simp
    | cons c t => simpa using (h c (List.mem_cons_self ..)).1.2
  · intro hl
    exact (h '*' (List.mem_of_getLast? hl)).1.1 rfl
  · have := closes_nostar t [] (fun hm => (h '*' hm).1.1 rfl)
    rwa [List.append_nil] at this

theorem Shows.quote {ip : Char → Bool} (hp : Printable ip) (s : Text) : Shows (quote ip s) (closes s) := by
  refine ⟨by simp [Embed.quote], ?_, fun c hc => (quote_chars ip hp s c hc).2.2.1, ?_⟩
  · rw [Embed.quote, ← List.cons_append, List.getLast?_append]
    simp
  · rw [Embed.quote, closes, closes_quoteBody ip hp]
    rfl

/-- The same for lists of texts that will be joined. -/
inductive ShowsL : List Text → Bool → Prop
  | nil : ShowsL [] false
  | cons {t : Text} {l : List Text} {x y : Bool} : Shows t x → ShowsL l y → ShowsL (t :: l) (x || y)

theorem ShowsL.append {l m : List Text} {x y : Bool} (h : ShowsL l x) (h' : ShowsL m y) :
    ShowsL (l ++ m) (x || y) := by
  induction h with
  | nil => simpa using h'
  | cons h1 _ ih => rw [Bool.or_assoc]; exact .cons h1 ih

theorem ShowsL.one {t : Text} {x : Bool} (h : Shows t x) : ShowsL [t] x := by
  simpa using ShowsL.cons h .nil

theorem ShowsL.join {sep : Text} (hs : Shows sep false) {l : List Text} {x : Bool} (h : ShowsL l x) :
    Shows (join sep l) x := by
  induction h with
  | nil => exact .nil
  | @cons t l x y h1 h2 ih =>
    cases l with
    | nil => cases h2; simpa [Embed.join] using h1
    | cons u l =>
      simpa [Embed.join] using (h1.append hs).append ih

theorem ShowsL.map {l : List Text} {x : Bool} (h : ShowsL l x) {p : Text} (hp : Shows p false) :
    ShowsL (l.map (p ++ ·)) x := by
  induction h with
  | nil => exact .nil
  | cons h1 _ ih => exact .cons (by simpa using hp.append h1) ih

theorem Shows.indent (n : Nat) : Shows (indent [] n) false := by
  apply Shows.lit
  simp only [Embed.indent, Embed.lit, List.nil_append, List.all_eq_true]
  intro c hc
  rw [(List.mem_replicate.1 hc).2]
  decide

theorem Shows.block {ind head : Text} (hi : Shows ind false) (hh : Embed.lit head = true) {l : List Text} {x : Bool}
    (h : ShowsL l x) : Shows (block ind head l) x := by
  have hn : Shows t!"\n" false := Shows.lit (by decide)
  have := ((((hi.append (Shows.lit hh)).append (Shows.lit (t := t!" {\n") (by decide))).append
    (h.join hn)).append hn).append hi |>.append (Shows.lit (t := t!"}") (by decide))
  simpa [Embed.block] using this

theorem Shows.blockIf {ind head : Text} (hi : Shows ind false) (hh : Embed.lit head = true) {l : List Text} {x : Bool}
    (h : ShowsL l x) : Shows (blockIf ind head l) x := by
  unfold Embed.blockIf
  split
  · rename_i e
    subst e
    cases h
    exact .nil
  · exact .block hi hh h

theorem Shows.line {ip : Char → Bool} (hp : Printable ip) (n : Nat) {key : Text} (hk : Embed.lit key = true) (s : Text) :
    Shows (line ip n key s) (closes s) := by
  have := (((Shows.indent n).append (Shows.lit hk)).append (Shows.lit (t := t!": ") (by decide))).append
    (Shows.quote hp s)
  simpa [Embed.line] using this

/-- Whether an optional string contains `*/`. -/
def closesO : Option Text → Bool
  | none => false
  | some s => closes s

theorem ShowsL.lineIf {ip : Char → Bool} (hp : Printable ip) (n : Nat) {key : Text} (hk : lit key = true)
    (o : Option Text) : ShowsL (lineIf ip n key o) (closesO o) := by
  cases o with
  | none => exact .nil
  | some s => exact .one (.line hp n hk s)

theorem ShowsL.nameIf {ip : Char → Bool} (hp : Printable ip) (n : Nat) {key : Text} (hk : lit key = true)
    (s : Text) : ShowsL (if s = [] then [] else [line ip n key s]) (closes s) := by
  split
  · rename_i e; subst e; exact .nil
  · exact .one (.line hp n hk s)

/-- Whether the strings of an argument contain `*/`. -/
def closesArg (a : Arg) : Bool := closes a.name || (closesO (a.value.map Prod.snd) || closesO a.cond)

theorem ShowsL.argElems {ip : Char → Bool} (hp : Printable ip) (rq : Bool) (a : Arg) :
    ShowsL (argElems ip rq a) (closesArg a) := by
  unfold Embed.argElems closesArg
  rw [← Bool.or_assoc]
  refine .append (.append ?_ ?_) ?_
  · by_cases e : a.name = []
    · rw [e]; exact .nil
    · rw [if_pos e]
      refine .one ?_
      cases rq
      · simpa using (Shows.lit (t := t!"name: ") (by decide)).append (Shows.quote hp a.name)
      · simpa using (Shows.lit (t := t!"field: ") (by decide)).append (Shows.quote hp a.name)
  · cases a.value with
    | none => exact .nil
    | some v =>
      obtain ⟨b, e⟩ := v
      refine .one ?_
      cases b
      · simpa [valueFormat, closesO] using (Shows.lit (t := t!"by: ") (by decide)).append (Shows.quote hp e)
      · simpa [valueFormat, closesO] using (Shows.lit (t := t!"inline: ") (by decide)).append (Shows.quote hp e)
  · cases a.cond with
    | none => exact .nil
    | some e =>
      refine .one ?_
      simpa [closesO] using (Shows.lit (t := t!"if: ") (by decide)).append (Shows.quote hp e)

theorem Shows.argFormat {ip : Char → Bool} (hp : Printable ip) (rq : Bool) (a : Arg) :
    Shows (argFormat ip rq a) (closesArg a) := by
  have h := ShowsL.argElems hp rq a
  unfold Embed.argFormat
  split
  · rename_i e
    rw [e] at h
    generalize closesArg a = b at h
    cases h
    exact .nil
  · have := ((Shows.lit (t := t!"{ ") (by decide)).append
      (h.join (sep := t!", ") (Shows.lit (by decide)))).append (Shows.lit (t := t!" }") (by decide))
    simpa using this

/-- Whether the strings of arguments contain `*/`. -/
def closesArgs (l : List Arg) : Bool := l.any closesArg

theorem ShowsL.args {ip : Char → Bool} (hp : Printable ip) (rq : Bool) (l : List Arg) :
    ShowsL ((l.map (argFormat ip rq)).filter (fun t => t ≠ [])) (closesArgs l) := by
  induction l with
  | nil => exact .nil
  | cons a l ih =>
    have ha := Shows.argFormat hp rq a
    rw [List.map_cons, List.filter_cons]
    by_cases e : argFormat ip rq a = []
    · rw [e] at ha ⊢
      have hc := ha.eq
      simp only [closes] at hc
      simp only [closesArgs, List.any_cons, ← hc, Bool.false_or]
      simpa [closesArgs] using ih
    · simp only [ne_eq, e, not_false_eq_true, decide_true, if_true]
      exact .cons ha ih

theorem Shows.argsFormat {ip : Char → Bool} (hp : Printable ip) (rq : Bool) {key : Text} (hk : Embed.lit key = true)
    (n : Nat) (l : List Arg) : Shows (argsFormat ip rq key n l) (closesArgs l) := by
  have h := ShowsL.args hp rq l
  unfold Embed.argsFormat
  split
  · rename_i e
    rw [e] at h
    generalize closesArgs l = b at h
    cases h
    exact .nil
  · rename_i a e
    rw [e] at h
    generalize closesArgs l = b at h
    cases h with
    | cons h1 h2 =>
      cases h2
      simpa using (((Shows.indent n).append (Shows.lit hk)).append (Shows.lit (t := t!" ") (by decide))).append h1
  · have hj := (h.map (Shows.indent (n + 1))).join (sep := t!",\n") (Shows.lit (by decide))
    simpa using (((((Shows.indent n).append (Shows.lit hk)).append (Shows.lit (t := t!": [\n") (by decide))).append hj).append
      (Shows.lit (t := t!"\n") (by decide))).append (Shows.indent n) |>.append (Shows.lit (t := t!"]") (by decide))

theorem ShowsL.elemIf {t : Text} {x : Bool} (h : Shows t x) : ShowsL (elemIf t) x := by
  unfold Embed.elemIf
  split
  · rename_i e
    subst e
    have := h.eq
    simp only [closes] at this
    subst this
    exact .nil
  · exact .one h

/-- Whether the strings of a message definition contain `*/`. -/
def closesMsg (m : MsgFmt) : Bool := closesO m.name || closesArgs m.args

theorem Shows.msgFormat {ip : Char → Bool} (hp : Printable ip) (n : Nat) (m : MsgFmt) :
    Shows (msgFormat ip n m) (closesMsg m) := by
  have h := (ShowsL.lineIf hp (n + 1) (key := t!"name") (by decide) m.name).append
    (ShowsL.elemIf (Shows.argsFormat hp false (key := t!"args") (by decide) (n + 1) m.args))
  unfold Embed.msgFormat
  rw [closesMsg]
  split
  · rename_i e
    rw [e] at h
    generalize (closesO m.name || closesArgs m.args) = b at h
    cases h
    exact .nil
  · exact .block (.indent n) (by decide) h

theorem Shows.codeFormat (c : Option (Fin 17)) : Shows (codeFormat c) false := by
  cases c with
  | none => exact ⟨by decide, by decide, by decide, by decide⟩
  | some c =>
    apply Shows.lit
    revert c
    decide

theorem ShowsL.replicate {t : Text} (h : Shows t false) (n : Nat) : ShowsL (List.replicate n t) false := by
  induction n with
  | zero => exact .nil
  | succ n ih => rw [List.replicate_succ]; simpa using ShowsL.cons h ih

theorem ShowsL.countFormat (n : Nat) {name : Text} (hn : lit name = true) (k : Nat) :
    ShowsL (countFormat n name k) false := by
  unfold Embed.countFormat
  split
  · exact .nil
  · exact .one (by simpa using ((Shows.indent n).append (Shows.lit hn)).append (Shows.lit (t := t!" {...}") (by decide)))
  · refine .one ?_
    have hr : Shows (Embed.indent [] (n + 1) ++ t!"{...}") false := by
      simpa using (Shows.indent (n + 1)).append (Shows.lit (t := t!"{...}") (by decide))
    have hj := (ShowsL.replicate hr k).join (sep := t!",\n") (Shows.lit (by decide))
    simpa using (((((Shows.indent n).append (Shows.lit hn)).append (Shows.lit (t := t!": [\n") (by decide))).append hj).append
      (Shows.lit (t := t!"\n") (by decide))).append (Shows.indent n) |>.append (Shows.lit (t := t!"]") (by decide))

theorem Shows.detailFormat {ip : Char → Bool} (hp : Printable ip) (n : Nat) (d : DetailFmt) :
    Shows (detailFormat ip n d) (closes d.cond) := by
  have h := ShowsL.cons (Shows.line hp (n + 1) (key := t!"if") (by decide) d.cond)
    ((((ShowsL.countFormat (n + 1) (name := t!"message") (by decide) d.messages).append
      (ShowsL.countFormat (n + 1) (name := t!"precondition_failure") (by decide) d.preconditions)).append
      (ShowsL.countFormat (n + 1) (name := t!"bad_request") (by decide) d.badRequests)).append
      (ShowsL.countFormat (n + 1) (name := t!"localized_message") (by decide) d.localized))
  simpa [Embed.detailFormat] using h.join (sep := t!"\n") (Shows.lit (by decide))

theorem ShowsL.details {ip : Char → Bool} (hp : Printable ip) (n : Nat) (l : List DetailFmt) :
    ShowsL (l.map fun d => indent [] (n + 1) ++ t!"{\n" ++ detailFormat ip (n + 1) d ++ t!"\n" ++
      indent [] (n + 1) ++ t!"}") (l.any (fun d => closes d.cond)) := by
  induction l with
  | nil => exact .nil
  | cons d l ih =>
    refine .cons ?_ ih
    simpa using (((((Shows.indent (n + 1)).append (Shows.lit (t := t!"{\n") (by decide))).append
      (Shows.detailFormat hp (n + 1) d)).append (Shows.lit (t := t!"\n") (by decide))).append
      (Shows.indent (n + 1))).append (Shows.lit (t := t!"}") (by decide))

theorem Shows.detailsFormat {ip : Char → Bool} (hp : Printable ip) (n : Nat) (l : List DetailFmt) :
    Shows (detailsFormat ip n l) (l.any (fun d => closes d.cond)) := by
  unfold Embed.detailsFormat
  split
  · rename_i d
    simpa using (((((Shows.indent n).append (Shows.lit (t := t!"details {\n") (by decide))).append
      (Shows.detailFormat hp n d)).append (Shows.lit (t := t!"\n") (by decide))).append
      (Shows.indent n)).append (Shows.lit (t := t!"}") (by decide))
  · have hj := (ShowsL.details hp n l).join (sep := t!",\n") (Shows.lit (by decide))
    simpa using (((((Shows.indent n).append (Shows.lit (t := t!"details: [\n") (by decide))).append hj).append
      (Shows.lit (t := t!"\n") (by decide))).append (Shows.indent n)).append (Shows.lit (t := t!"]") (by decide))

/-- Whether the shown strings of an error contain `*/`. -/
def closesErr (e : ErrFmt) : Bool :=
  closesO e.cond || (closesO e.message || e.details.any (fun d => closes d.cond))

theorem Shows.errFormat {ip : Char → Bool} (hp : Printable ip) (n : Nat) (e : ErrFmt) :
    Shows (errFormat ip n e) (closesErr e) := by
  have hc : Shows (Embed.indent [] (n + 1) ++ t!"code: " ++ Embed.codeFormat e.code) false := by
    simpa using ((Shows.indent (n + 1)).append (Shows.lit (t := t!"code: ") (by decide))).append (Shows.codeFormat e.code)
  have hd : ShowsL (if e.details = [] then [] else [Embed.detailsFormat ip (n + 1) e.details])
      (e.details.any (fun d => closes d.cond)) := by
    split
    · rename_i h; rw [h]; exact .nil
    · exact .one (.detailsFormat hp _ _)
  have h := ShowsL.cons hc (((ShowsL.lineIf hp (n + 1) (key := t!"if") (by decide) e.cond).append
    (ShowsL.lineIf hp (n + 1) (key := t!"message") (by decide) e.message)).append hd)
  have := Shows.block (Shows.indent n) (head := t!"error") (by decide) h
  simpa [Embed.errFormat, closesErr, Bool.or_assoc] using this

/-- Whether the shown strings of an expression contain `*/`. -/
def closesExpr : Expr → Bool
  | .by_ e => closes e
  | .call m r => closesO m || (match r with
      | some l => closesArgs l
      | none => false)
  | .message m => closesMsg m
  | .enum n b => closesO n || closesO b
  | .map i b m => (match i with
      | some i => closes i.1 || closesO i.2
      | none => false) || (closesO b || (match m with
      | some m => closesMsg m
      | none => false))
  | .validation n e => closes n || (match e with
      | some e => closesErr e
      | none => false)
  | .none => false

theorem Shows.iterFormat {ip : Char → Bool} (hp : Printable ip) (n : Nat) (i : Text × Option Text) :
    Shows (iterFormat ip n i) (closes i.1 || closesO i.2) :=
  .blockIf (.indent n) (by decide)
    ((ShowsL.nameIf hp (n + 1) (by decide) i.1).append (ShowsL.lineIf hp (n + 1) (by decide) i.2))

theorem Shows.exprFormat {ip : Char → Bool} (hp : Printable ip) (n : Nat) (e : Expr) :
    Shows (exprFormat ip n e) (closesExpr e) := by
  cases e with
  | by_ e => exact .line hp n (by decide) e
  | call m r =>
    refine .blockIf (.indent n) (by decide) (.append (.lineIf hp (n + 1) (by decide) m) ?_)
    cases r with
    | none => exact .nil
    | some l => exact .elemIf (.argsFormat hp true (by decide) (n + 1) l)
  | message m => exact .msgFormat hp n m
  | enum nm b =>
    exact .blockIf (.indent n) (by decide) (.append (.lineIf hp (n + 1) (by decide) nm) (.lineIf hp (n + 1) (by decide) b))
  | map i b m =>
    simp only [closesExpr, ← Bool.or_assoc]
    refine .blockIf (.indent n) (by decide) (.append (.append ?_ (.lineIf hp (n + 1) (by decide) b)) ?_)
    · cases i with
      | none => exact .nil
      | some i => exact .one (.iterFormat hp (n + 1) i)
    · cases m with
      | none => exact .nil
      | some m => exact .one (.msgFormat hp (n + 1) m)
  | validation nm e =>
    refine .block (.indent n) (by decide) (.append (.nameIf hp (n + 1) (by decide) nm) ?_)
    cases e with
    | none => exact .nil
    | some e => exact .one (.errFormat hp (n + 1) e)
  | none => exact .nil

/-- Whether the shown strings of a definition contain `*/`. -/
def closesDef (d : DefFmt) : Bool := closes d.name || (closesO d.cond || closesExpr d.expr)

theorem Shows.defFormat {ip : Char → Bool} (hp : Printable ip) (d : DefFmt) :
    Shows (defFormat ip d) (closesDef d) := by
  have ha : ShowsL (if d.autobind then [Embed.indent [] 1 ++ t!"autobind: true"] else []) false := by
    split
    · exact .one (.lit (by decide))
    · exact .nil
  have h := (((ShowsL.nameIf hp 1 (key := t!"name") (by decide) d.name).append
    (ShowsL.lineIf hp 1 (key := t!"if") (by decide) d.cond)).append ha).append
    (.one (Shows.exprFormat hp 1 d.expr))
  have := Shows.block .nil (head := t!"def") (by decide) h
  simpa [Embed.defFormat, closesDef, Bool.or_assoc] using this

end Verif.Embed
