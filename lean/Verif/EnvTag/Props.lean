import Verif.Embed.Props
import Verif.EnvTag.Model

/-!
# C105: environment variables are read as their options say
-/

namespace Verif.EnvTag

open Verif.Embed

/-! ## Helper lemmas: capital letters -/

theorem toUpper_idem (c : Char) : c.toUpper.toUpper = c.toUpper := by
  have key : ∀ c : Char, c.toUpper = c ∨ (65 ≤ c.toUpper.toNat ∧ c.toUpper.toNat ≤ 90) := by
    intro c
    unfold Char.toUpper
    split
    · rename_i h
      right
      have h1 : 97 ≤ c.val.toNat := h.1
      have h2 : c.val.toNat ≤ 122 := h.2
      have : (c.val + ('A'.val - 'a'.val)).toNat = c.val.toNat - 32 := by
        have e : ('A'.val - 'a'.val : UInt32) = 4294967264 := by decide
        rw [e, UInt32.toNat_add]
        have : (4294967264 : UInt32).toNat = 4294967264 := rfl
        omega
      simp only [Char.toNat]
      omega
    · exact .inl rfl
  have fix : ∀ c : Char, c.toNat ≤ 90 → c.toUpper = c := by
    intro c h
    unfold Char.toUpper
    split
    · rename_i h'
      have h1 : 97 ≤ c.toNat := h'.1
      omega
    · rfl
  rcases key c with h | ⟨_, h⟩
  · rw [h]; exact h
  · exact fix _ h

theorem upper_idem (t : Text) : upper (upper t) = upper t := by
  simp [upper, List.map_map, Function.comp_def, toUpper_idem]

theorem upper_nil (t : Text) : upper t = [] ↔ t = [] := by simp [upper]

/-! ## Helper lemmas: tags -/

/-- A pair of a tag, as text. -/
def pairText (key body : Text) : Text := key ++ ':' :: '"' :: (body ++ ['"'])

/-- A pair that is read as `v`. -/
structure PairOK (key body v : Text) : Prop where
  ne : key ≠ []
  key : ∀ c ∈ key, keyChar c = true ∧ c ≠ ' '
  read : ∀ t, readStr .plain (body ++ '"' :: t) = some (v, t)
  after : ∀ t, afterQuote false (body ++ '"' :: t) = some t

theorem takeWhile_key (key : Text) (h : ∀ c ∈ key, keyChar c = true) (r : Text) :
    (key ++ ':' :: r).takeWhile keyChar = key ∧ (key ++ ':' :: r).dropWhile keyChar = ':' :: r := by
  induction key with
  | nil => exact ⟨by simp [keyChar], by simp [keyChar]⟩
  | cons c k ih =>
    have hc := h c (List.mem_cons_self ..)
    have ih := ih (fun x hx => h x (List.mem_cons_of_mem _ hx))
    simp [hc, ih]

theorem tagGet_nil (n : Nat) (name : Text) : tagGet n [] name = [] := by
  cases n <;> simp [tagGet]

theorem tagGet_space (n : Nat) (t name : Text) : tagGet n (' ' :: t) name = tagGet n t name := by
  cases n <;> simp [tagGet]

theorem tagGet_pair {key body v : Text} (h : PairOK key body v) (n : Nat) (r name : Text) :
    tagGet (n + 1) (pairText key body ++ r) name = if key = name then v else tagGet n r name := by
  have hd : (pairText key body ++ r).dropWhile (fun c => c == ' ') = key ++ ':' :: '"' :: (body ++ '"' :: r) := by
    obtain ⟨c, k, hk⟩ := List.exists_cons_of_ne_nil h.ne
    have hc := (h.key c (by simp [hk])).2
    simp [pairText, hk, hc]
  have ht := takeWhile_key key (fun c hc => (h.key c hc).1) ('"' :: (body ++ '"' :: r))
  rw [tagGet]
  simp only [hd, ht.1, ht.2, h.ne, h.read, h.after, if_false]

/-- The value of a key in a list of pairs. -/
def look (name : Text) : List (Text × Text × Text) → Text
  | [] => []
  | (k, _, v) :: ps => if k = name then v else look name ps

theorem tagGet_join (ps : List (Text × Text × Text)) (h : ∀ p ∈ ps, PairOK p.1 p.2.1 p.2.2) (n : Nat) (hn : ps.length ≤ n)
    (name : Text) : tagGet n (join t!" " (ps.map fun p => pairText p.1 p.2.1)) name = look name ps := by
  induction ps generalizing n with
  | nil => exact tagGet_nil n name
  | cons p ps ih =>
    obtain ⟨k, b, v⟩ := p
    obtain ⟨n, rfl⟩ : ∃ m, n = m + 1 := ⟨n - 1, by simp at hn; omega⟩
    have hp := h _ (List.mem_cons_self ..)
    have ih := ih (fun p hp => h p (List.mem_cons_of_mem _ hp)) n (by simpa using hn)
    cases ps with
    | nil =>
      have := tagGet_pair hp n [] name
      rw [tagGet_nil] at this
      simpa [join, look] using this
    | cons q ps =>
      simp only [List.map_cons] at ih ⊢
      rw [join, List.append_assoc, tagGet_pair hp, List.cons_append, List.nil_append, tagGet_space, ih]
      rfl

theorem join_length (l : List Text) (h : ∀ t ∈ l, t ≠ []) : l.length ≤ (join t!" " l).length := by
  induction l with
  | nil => simp [join]
  | cons a l ih =>
    have ha : 1 ≤ a.length := List.length_pos_iff.2 (h a (List.mem_cons_self ..))
    have ih := ih (fun t ht => h t (List.mem_cons_of_mem _ ht))
    cases l with
    | nil => simpa [join] using ha
    | cons b l => simp only [join, List.length_append, List.length_cons] at ih ⊢; omega

theorem get_join (ps : List (Text × Text × Text)) (h : ∀ p ∈ ps, PairOK p.1 p.2.1 p.2.2) (name : Text) :
    get (join t!" " (ps.map fun p => pairText p.1 p.2.1)) name = look name ps := by
  refine tagGet_join ps h _ ?_ name
  have := join_length (ps.map fun p => pairText p.1 p.2.1) (by
    intro t ht
    obtain ⟨p, _, rfl⟩ := List.mem_map.1 ht
    simp [pairText])
  simpa using this

theorem esc_plain : ∀ c ∈ t!"abfnrtvxuU0123456789cdef", c ≠ '"' ∧ c ≠ '\\' := by decide

theorem afterQuote_plain (a t : Text) (h : ∀ c ∈ a, c ≠ '"' ∧ c ≠ '\\') : afterQuote false (a ++ t) = afterQuote false t := by
  induction a with
  | nil => rfl
  | cons c a ih =>
    have hc := h c (List.mem_cons_self ..)
    rw [List.cons_append, afterQuote, if_neg hc.1, if_neg hc.2]
    exact ih (fun x hx => h x (List.mem_cons_of_mem _ hx))

theorem hex_plain (n v : Nat) : ∀ c ∈ hex n v, c ≠ '"' ∧ c ≠ '\\' := by
  have hd : ∀ d : Fin 16, hexDigit d.val ≠ '"' ∧ hexDigit d.val ≠ '\\' := by decide
  induction n with
  | zero => intro c h; simp [hex] at h
  | succ n ih =>
    intro c h
    rw [hex] at h
    rcases List.mem_cons.1 h with rfl | h
    · exact hd ⟨v / 16 ^ n % 16, Nat.mod_lt _ (by decide)⟩
    · exact ih c h

theorem afterQuote_quoteChar (ip : Char → Bool) (c : Char) (t : Text) :
    afterQuote false (quoteChar ip c ++ t) = afterQuote false t := by
  have esc : ∀ (x : Char) (a : Text), (∀ c ∈ a, c ≠ '"' ∧ c ≠ '\\') → afterQuote false ('\\' :: x :: a ++ t) = afterQuote false t := by
    intro x a ha
    rw [List.cons_append, List.cons_append, afterQuote, if_neg (by decide), if_pos rfl, afterQuote]
    exact afterQuote_plain a t ha
  have no : ∀ c ∈ ([] : Text), c ≠ '"' ∧ c ≠ '\\' := by simp
  unfold quoteChar
  split
  · exact esc c [] no
  · rename_i hc
    simp only [not_or] at hc
    split
    · exact afterQuote_plain [c] t (by simpa using hc)
    repeat' split
    all_goals first
      | exact esc _ [] no
      | exact esc _ _ (hex_plain _ _)

theorem afterQuote_quote (ip : Char → Bool) (s t : Text) :
    afterQuote false (s.flatMap (quoteChar ip) ++ '"' :: t) = some t := by
  induction s with
  | nil => simp [afterQuote]
  | cons c s ih => rw [List.flatMap_cons, List.append_assoc, afterQuote_quoteChar, ih]

theorem pair_quote (ip : Char → Bool) (hp : Printable ip) (key s : Text) (h1 : key ≠ [])
    (h2 : ∀ c ∈ key, keyChar c = true ∧ c ≠ ' ') : PairOK key (s.flatMap (quoteChar ip)) s :=
  ⟨h1, h2, readStr_quote ip hp s, afterQuote_quote ip s⟩

theorem pair_true (key : Text) (h1 : key ≠ []) (h2 : ∀ c ∈ key, keyChar c = true ∧ c ≠ ' ') :
    PairOK key t!"true" t!"true" :=
  ⟨h1, h2, fun t => readStr_clean t!"true" t (by decide), fun t => by
    rw [afterQuote_plain t!"true" _ (by decide)]; simp [afterQuote]⟩

/-- The pairs of the tag. -/
def pairs (ip : Char → Bool) (name : Text) (o : VarOpt) : List (Text × Text × Text) :=
  [(t!"envconfig", (keyName name o).flatMap (quoteChar ip), keyName name o)] ++
  (if o.fallback ≠ [] then [(t!"default", o.fallback.flatMap (quoteChar ip), o.fallback)] else []) ++
  (if o.required then [(t!"required", t!"true", t!"true")] else []) ++
  (if o.ignored then [(t!"ignored", t!"true", t!"true")] else [])

theorem tag_pairs (ip : Char → Bool) (name : Text) (o : Option VarOpt) :
    tag ip name o = join t!" " ((pairs ip name (o.getD .none)).map fun p => pairText p.1 p.2.1) := by
  cases o with
  | none => simp [tag, pairs, VarOpt.none, join, pairText, quote, keyName]
  | some o =>
    obtain ⟨a, f, r, i⟩ := o
    have hk : (if a ≠ [] then a else upper name) = keyName name ⟨a, f, r, i⟩ := by
      unfold keyName
      by_cases h : a = [] <;> simp [h]
    simp only [tag, Option.getD_some, hk]
    congr 1
    by_cases hf : f = [] <;> cases r <;> cases i <;> simp [pairs, hf, pairText, quote]

theorem pairs_ok (ip : Char → Bool) (hp : Printable ip) (name : Text) (o : VarOpt) :
    ∀ p ∈ pairs ip name o, PairOK p.1 p.2.1 p.2.2 := by
  intro p h
  simp only [pairs, List.mem_append] at h
  rcases h with ((h | h) | h) | h
  · simp only [List.mem_cons, List.not_mem_nil, or_false] at h
    subst h
    exact pair_quote ip hp t!"envconfig" _ (by decide) (by decide)
  · split at h
    · simp only [List.mem_cons, List.not_mem_nil, or_false] at h
      subst h
      exact pair_quote ip hp t!"default" _ (by decide) (by decide)
    · cases h
  · split at h
    · simp only [List.mem_cons, List.not_mem_nil, or_false] at h
      subst h
      exact pair_true _ (by decide) (by decide)
    · cases h
  · split at h
    · simp only [List.mem_cons, List.not_mem_nil, or_false] at h
      subst h
      exact pair_true _ (by decide) (by decide)
    · cases h

theorem get_tag (ip : Char → Bool) (hp : Printable ip) (name : Text) (o : Option VarOpt) (key : Text) :
    get (tag ip name o) key = look key (pairs ip name (o.getD .none)) := by
  rw [tag_pairs]
  exact get_join _ (pairs_ok ip hp name _) key

/-! ## Acceptance -/

theorem resolveVars_ok {T : Type} (valid : Text → Bool) (ds : List (VarDef T)) (vs : List (Var T)) :
    resolveVars valid ds = (vs, []) ↔
      vs.map (fun v => (v.name, some v.type, v.option)) = ds.map (fun d => (d.name, d.type, d.option)) ∧
      ∀ d ∈ ds, d.name ≠ [] ∧ valid d.name = true := by
  induction ds generalizing vs with
  | nil =>
    cases vs <;> simp [resolveVars]
  | cons d ds ih =>
    rw [resolveVars]
    cases hr : resolveVars valid ds with
    | mk ws es =>
      rw [hr] at ih
      simp only [resolveVar]
      by_cases hn : d.name = []
      · simp [hn]
      by_cases hv : valid d.name = false
      · simp [hn, hv]
      · have hv' : valid d.name = true := by simpa using hv
        cases ht : d.type with
        | none =>
          simp only [hn, hv, if_false]
          constructor
          · intro h; simp at h
          · rintro ⟨h, _⟩
            cases vs with
            | nil => simp at h
            | cons v vs => simp [ht] at h
        | some t =>
          simp only [hn, hv, if_false, Prod.mk.injEq]
          constructor
          · rintro ⟨rfl, rfl⟩
            have := (ih ws).1 rfl
            simp [ht, this.1, hn, hv']
            exact this.2
          · rintro ⟨h, h'⟩
            cases vs with
            | nil => simp at h
            | cons v vs =>
              simp only [List.map_cons, List.cons.injEq, Prod.mk.injEq, ht, Option.some.injEq] at h
              obtain ⟨⟨h1, h2, h3⟩, h4⟩ := h
              have := (ih vs).2 ⟨h4, fun d hd => h' d (List.mem_cons_of_mem _ hd)⟩
              simp only [Prod.mk.injEq] at this
              obtain ⟨rfl, rfl⟩ := this
              cases v
              simp_all

/-- `env` is accepted exactly if it names a message and nothing else, or lists variables that all have a valid name and a
type; the server then has the fields of the message, or the variables in the order in which they are listed. -/
theorem C105_accepted {T : Type} (valid : Text → Bool) (fieldsOf : Text → Option (List (Var T))) (d : EnvDef T)
    (vs : List (Var T)) :
    resolveEnv valid fieldsOf d = (vs, []) ↔
      (d.message ≠ [] ∧ d.vars = [] ∧ fieldsOf d.message = some vs) ∨
      (d.message = [] ∧
        vs.map (fun v => (v.name, some v.type, v.option)) = d.vars.map (fun e => (e.name, e.type, e.option)) ∧
        ∀ e ∈ d.vars, e.name ≠ [] ∧ valid e.name = true) := by
  unfold resolveEnv
  by_cases hm : d.message = []
  · simp [hm, resolveVars_ok]
  · by_cases hv : d.vars = []
    · simp only [hm, hv, ne_eq, not_false_eq_true, not_true_eq_false, and_false, if_false, if_true, true_and, false_and,
        or_false]
      cases fieldsOf d.message <;> simp
    · simp [hm, hv]

example : resolveEnv (T := Nat) (fun _ => true) (fun _ => none) ⟨[], [⟨t!"foo", some 1, none⟩, ⟨t!"bar", some 2, none⟩]⟩ =
    ([⟨t!"foo", 1, none⟩, ⟨t!"bar", 2, none⟩], []) :=
  (C105_accepted _ _ _ _).2 (.inr ⟨rfl, rfl, by simp⟩)

/-- A variable listed twice is accepted; the struct then has a field twice. -/
theorem C105_twice_false : ∃ d : EnvDef Nat, ∃ vs : List (Var Nat),
    resolveEnv (fun _ => true) (fun _ => none) d = (vs, []) ∧ ¬ (vs.map Var.name).Nodup :=
  ⟨⟨[], [⟨t!"foo", some 1, none⟩, ⟨t!"foo", some 2, none⟩]⟩, [⟨t!"foo", 1, none⟩, ⟨t!"foo", 2, none⟩], rfl, by decide⟩

/-! ## The file -/

theorem tag_clean (ip : Char → Bool) (hp : Printable ip) (name : Text) (o : VarOpt) (hk : '`' ∉ keyName name o)
    (hf : '`' ∉ o.fallback) (so : Option VarOpt) (hso : so.getD .none = o) : Clean (tag ip name so) := by
  have lit : ∀ t : Text, t.all rawChar = true → Clean t := fun t h c hc => rawChar_iff.1 (List.all_eq_true.1 h c hc)
  have q : ∀ s : Text, '`' ∉ s → Clean (quote ip s) := by
    intro s hs c hc
    have := quote_chars ip hp s c hc
    exact ⟨fun h => hs (this.2.2.2 h), this.2.1, this.2.2.1⟩
  have app : ∀ a b : Text, Clean a → Clean b → Clean (a ++ b) := by
    intro a b ha hb c hc
    rcases List.mem_append.1 hc with h | h
    · exact ha c h
    · exact hb c h
  have hj : ∀ l : List Text, (∀ t ∈ l, Clean t) → Clean (join t!" " l) := by
    intro l
    induction l with
    | nil => intro _ c hc; cases hc
    | cons a l ih =>
      intro h
      cases l with
      | nil => exact h a (List.mem_cons_self ..)
      | cons b l =>
        exact app _ _ (app _ _ (h a (List.mem_cons_self ..)) (lit _ (by decide)))
          (ih (fun t ht => h t (List.mem_cons_of_mem _ ht)))
  rw [tag_pairs, hso]
  apply hj
  intro t ht
  obtain ⟨p, hm, rfl⟩ := List.mem_map.1 ht
  simp only [pairs, List.mem_append] at hm
  rcases hm with ((h | h) | h) | h
  · simp only [List.mem_cons, List.not_mem_nil, or_false] at h
    subst h
    exact app t!"envconfig:" _ (lit _ (by decide)) (q _ hk)
  · split at h
    · simp only [List.mem_cons, List.not_mem_nil, or_false] at h
      subst h
      exact app t!"default:" _ (lit _ (by decide)) (q _ hf)
    · cases h
  · split at h
    · simp only [List.mem_cons, List.not_mem_nil, or_false] at h
      subst h
      exact lit _ (by decide)
    · cases h
  · split at h
    · simp only [List.mem_cons, List.not_mem_nil, or_false] at h
      subst h
      exact lit _ (by decide)
    · cases h

/-- The Go compiler reads the field of a variable as a name, a type and the tag, unless there is a backquote in the alternate
name or the default. -/
theorem C105_tag_partial (ip : Char → Bool) (hp : Printable ip) (goName goType name : Text) (o : Option VarOpt)
    (h1 : ∀ c ∈ goName ++ goType, plainChar c = true)
    (h2 : '`' ∉ keyName name (o.getD .none)) (h3 : '`' ∉ (o.getD .none).fallback) (ts : List Tok) :
    Scans (render (fieldText ip goName goType name o)) ts ↔
      ts = (t!"\n\t" ++ goName ++ t!" " ++ goType ++ t!" ").map Tok.code ++ [.str (tag ip name o)] := by
  have := C104_file_partial (fieldText ip goName goType name o) (by
    intro p hp'
    simp only [fieldText, List.mem_cons, List.not_mem_nil, or_false] at hp'
    rcases hp' with rfl | rfl
    · intro c hc
      simp only [List.mem_append] at hc
      rcases hc with (((hc | hc) | hc) | hc) | hc
      · revert c; decide
      · exact h1 c (by simp [hc])
      · revert c; decide
      · exact h1 c (by simp [hc])
      · revert c; decide
    · exact (tag_clean ip hp name _ h2 h3 o rfl).good) ts
  rw [this]
  simp [fieldText, Piece.toks]

/-- A default with a backquote: the file has no meaning for Go. -/
theorem C105_backquote_false : ∃ o : VarOpt, o.fallback = t!"`" ∧
    ∀ ts, ¬ Scans (render (fieldText ascii t!"Foo" t!"string" t!"foo" (some o))) ts := by
  refine ⟨⟨[], t!"`", false, false⟩, rfl, ?_⟩
  intro ts h
  have h : Scans (t!"\n\tFoo string " ++ '`' :: t!"envconfig:\"FOO\" default:\"`\"`") ts := h
  have one : ∀ (c : Char) (cs : Text) (ts : List Tok), plainChar c = true → Scans (c :: cs) ts → ∃ ts', Scans cs ts' := by
    intro c cs ts hc h
    cases h with
    | char _ h => exact ⟨_, h⟩
    | raw => simp [plainChar] at hc
    | str => simp [plainChar] at hc
    | line => simp [plainChar] at hc
    | block => simp [plainChar] at hc
  have strip : ∀ (a cs : Text) (ts : List Tok), a.all plainChar = true → Scans (a ++ cs) ts → ∃ ts', Scans cs ts' := by
    intro a
    induction a with
    | nil => intro cs ts _ h; exact ⟨_, h⟩
    | cons c a ih =>
      intro cs ts hc h
      simp only [List.all_cons, Bool.and_eq_true] at hc
      obtain ⟨_, h⟩ := one c (a ++ cs) ts hc.1 h
      exact ih _ _ hc.2 h
  obtain ⟨_, h⟩ := strip _ _ _ (by decide) h
  cases h with
  | char hc _ => simp [plainChar] at hc
  | raw hr h =>
    have e : readRaw t!"envconfig:\"FOO\" default:\"`\"`" = some (t!"envconfig:\"FOO\" default:\"", t!"\"`") := by decide
    rw [e] at hr
    cases hr
    cases h with
    | char hc _ => simp [plainChar] at hc
    | str hr _ =>
      have e : readStr .plain t!"`" = none := by decide
      rw [e] at hr
      cases hr

/-! ## Starting the server -/

/-- When the server starts, a variable is ignored if its option says so; otherwise it gets the value of the environment
variable with the alternate name, or its own name in capital letters; if there is none, the default; if there is none either,
the server does not start if the variable is required, and it keeps its zero value if not. Alternate names have no small letters
here, and required variables no default. -/
theorem C105_variable_partial (ip : Char → Bool) (hp : Printable ip) (goName name : Text) (o : Option VarOpt)
    (env : Text → Option Text) (hn : name ≠ []) (ha : upper (o.getD .none).alternate = (o.getD .none).alternate)
    (hr : (o.getD .none).required = true → (o.getD .none).fallback = []) :
    process goName (tag ip name o) env = want name (o.getD .none) env := by
  have g := get_tag ip hp name o
  generalize (o.getD .none) = v at g ha hr
  have hne : keyName name v ≠ [] := by
    unfold keyName
    split
    · exact fun h => hn ((upper_nil _).1 h)
    · assumption
  have hu : upper (keyName name v) = keyName name v := by
    unfold keyName
    split
    · exact upper_idem _
    · exact ha
  have g1 : get (tag ip name o) t!"envconfig" = keyName name v := by rw [g]; rfl
  have g2 : get (tag ip name o) t!"default" = v.fallback := by
    rw [g]
    by_cases hf : v.fallback = [] <;> cases h1 : v.required <;> cases h2 : v.ignored <;> simp [pairs, look, hf, h1, h2]
  have g3 : isTrue (get (tag ip name o) t!"required") = v.required := by
    rw [g]
    by_cases hf : v.fallback = [] <;> cases h1 : v.required <;> cases h2 : v.ignored <;> simp [pairs, look, hf, h1, h2, isTrue]
  have g4 : isTrue (get (tag ip name o) t!"ignored") = v.ignored := by
    rw [g]
    by_cases hf : v.fallback = [] <;> cases h1 : v.required <;> cases h2 : v.ignored <;> simp [pairs, look, hf, h1, h2, isTrue]
  simp only [process, want, g1, g2, g3, g4, hu, hne, ne_eq, not_false_eq_true, if_true]
  cases v.ignored with
  | true => rfl
  | false =>
    cases he : env (keyName name v) with
    | some x => rfl
    | none =>
      cases hq : v.required with
      | false => simp
      | true => simp [hr hq]

example : process t!"Foo" (tag ascii t!"foo" (some ⟨t!"BAR", t!"a\"b", false, false⟩)) (fun _ => none) = .set t!"a\"b" :=
  C105_variable_partial ascii ascii_printable _ _ _ _ (by decide) (by decide) (by decide)

/-- An alternate name with small letters is never read: the name in capital letters is. -/
theorem C105_alternate_false : ∃ o : VarOpt, ∃ env : Text → Option Text, o.alternate = t!"db_url" ∧
    want t!"foo" o env = .set t!"x" ∧ process t!"Foo" (tag ascii t!"foo" (some o)) env = .set t!"y" :=
  ⟨⟨t!"db_url", [], false, false⟩, fun k => if k = t!"db_url" then some t!"x" else if k = t!"DB_URL" then some t!"y" else none,
    rfl, by decide, by decide⟩

/-- A required variable that does not exist is no error if it has a default. -/
theorem C105_required_false : ∃ o : VarOpt, ∃ env : Text → Option Text, o.required = true ∧
    want t!"foo" o env = .missing ∧ process t!"Foo" (tag ascii t!"foo" (some o)) env = .set t!"x" :=
  ⟨⟨[], t!"x", true, false⟩, fun _ => none, rfl, by decide, by decide⟩

/-- The struct of the server. -/
def structOf {V : Type} (ip : Char → Bool) (ds : List (Decl V)) : List (Text × Text × (Text → Option V)) :=
  ds.map fun d => (d.goName, tag ip d.name d.option, d.parse)

/-- The server starts exactly if all variables can be given values, and with these values. -/
theorem C105_start_partial {V : Type} (ip : Char → Bool) (hp : Printable ip) (env : Text → Option Text) (ds : List (Decl V))
    (hn : ∀ d ∈ ds, d.name ≠ [])
    (ha : ∀ d ∈ ds, upper (d.option.getD .none).alternate = (d.option.getD .none).alternate)
    (hr : ∀ d ∈ ds, (d.option.getD .none).required = true → (d.option.getD .none).fallback = []) (vs : List (Option V)) :
    load env (structOf ip ds) = .ok vs ↔ Values env ds vs := by
  induction ds generalizing vs with
  | nil =>
    simp only [structOf, List.map_nil, load, Except.ok.injEq]
    constructor
    · rintro rfl; exact .nil
    · intro h; cases h; rfl
  | cons d ds ih =>
    have ih := ih (fun d hd => hn d (List.mem_cons_of_mem _ hd)) (fun d hd => ha d (List.mem_cons_of_mem _ hd))
      (fun d hd => hr d (List.mem_cons_of_mem _ hd))
    have hw := C105_variable_partial ip hp d.goName d.name d.option env (hn d (List.mem_cons_self ..))
      (ha d (List.mem_cons_self ..)) (hr d (List.mem_cons_self ..))
    have e : structOf ip (d :: ds) = (d.goName, tag ip d.name d.option, d.parse) :: structOf ip ds := rfl
    rw [e, load, hw]
    generalize structOf ip ds = l at ih
    cases hw : want d.name (d.option.getD .none) env with
    | missing =>
      constructor
      · intro h; simp at h
      · intro h
        cases h with
        | keep h _ => rw [hw] at h; cases h
        | set h _ _ => rw [hw] at h; cases h
    | keep =>
      constructor
      · intro h
        cases hl : load env l with
        | error e => simp [hl] at h
        | ok ws =>
          simp only [hl, Except.ok.injEq] at h
          subst h
          exact .keep hw ((ih ws).1 hl)
      · intro h
        cases h with
        | keep _ h => simp [(ih _).2 h]
        | set h _ _ => rw [hw] at h; cases h
    | set t =>
      constructor
      · intro h
        cases hv : d.parse t with
        | none => simp [hv] at h
        | some v =>
          cases hl : load env l with
          | error e => simp [hv, hl] at h
          | ok ws =>
            simp only [hv, hl, Except.ok.injEq] at h
            subst h
            exact .set hw hv ((ih ws).1 hl)
      · intro h
        cases h with
        | keep h _ => rw [hw] at h; cases h
        | set h hv h' =>
          rw [hw] at h
          cases h
          simp [hv, (ih _).2 h']

/-- Two variables for the example. -/
def exampleDecls : List (Decl Nat) :=
  [⟨t!"foo", t!"Foo", some ⟨[], t!"abc", false, false⟩, fun t => some t.length⟩,
   ⟨t!"bar", t!"Bar", some ⟨t!"X", [], true, false⟩, fun t => some t.length⟩]

example : load (fun k => if k = t!"X" then some t!"12345" else none) (structOf ascii exampleDecls) = .ok [some 3, some 5] :=
  (C105_start_partial ascii ascii_printable _ exampleDecls (by decide) (by decide) (by decide) _).2
    (.set (t := t!"abc") (by decide) rfl (.set (t := t!"12345") (by decide) rfl .nil))

end Verif.EnvTag
