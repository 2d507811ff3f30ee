import Verif.CelStr.Model

/-!
# C94: functions of the string library are those of Go

The documentation of the functions (`docs/cel/strings.md`) describes Go's functions of the same names.
-/

namespace Verif.CelStr

/-! ## Specification -/

/-- Types of parameters of Go's functions. -/
inductive Kind where
  | string | bytes | int | uint | bool | float | strings | complex | byte | rune
deriving DecidableEq

/-- The parameters of Go's functions, from the documentation of the packages. -/
def sig (f : String) : Option (List Kind) :=
  if f ∈ ["strings.ToLower", "strings.ToTitle", "strings.ToUpper", "strings.TrimSpace", "strings.Fields", "cases.Title",
    "strconv.Atoi", "strconv.CanBackquote", "strconv.ParseBool", "strconv.Quote", "strconv.QuoteToASCII",
    "strconv.QuoteToGraphic", "strconv.QuotedPrefix", "strconv.Unquote"] then some [.string]
  else if f ∈ ["String.Compare", "strings.Contains", "strings.ContainsAny", "strings.Count", "strings.Cut",
    "strings.CutPrefix", "strings.CutSuffix", "strings.EqualFold", "strings.HasPrefix", "strings.HasSuffix",
    "strings.Index", "strings.IndexAny", "strings.LastIndex", "strings.LastIndexAny", "strings.Split",
    "strings.SplitAfter", "strings.ToValidUTF8", "strings.Trim", "strings.TrimLeft", "strings.TrimPrefix",
    "strings.TrimRight", "strings.TrimSuffix"] then some [.string, .string]
  else if f ∈ ["strings.ContainsRune", "strings.IndexRune"] then some [.string, .rune]
  else if f ∈ ["strings.IndexByte", "strings.LastIndexByte", "strconv.UnquoteChar"] then some [.string, .byte]
  else if f = "strings.Join" then some [.strings, .string]
  else if f ∈ ["strings.Repeat", "strconv.ParseComplex", "strconv.ParseFloat"] then some [.string, .int]
  else if f = "strings.Replace" then some [.string, .string, .string, .int]
  else if f = "strings.ReplaceAll" then some [.string, .string, .string]
  else if f ∈ ["strings.SplitAfterN", "strings.SplitN"] then some [.string, .string, .int]
  else if f = "strconv.AppendBool" then some [.bytes, .bool]
  else if f = "strconv.AppendFloat" then some [.bytes, .float, .byte, .int, .int]
  else if f = "strconv.AppendInt" then some [.bytes, .int, .int]
  else if f = "strconv.AppendUint" then some [.bytes, .uint, .int]
  else if f ∈ ["strconv.AppendQuote", "strconv.AppendQuoteToASCII", "strconv.AppendQuoteToGraphic"] then
    some [.bytes, .string]
  else if f ∈ ["strconv.AppendQuoteRune", "strconv.AppendQuoteRuneToASCII", "strconv.AppendQuoteRuneToGraphic"] then
    some [.bytes, .rune]
  else if f = "strconv.FormatBool" then some [.bool]
  else if f = "strconv.FormatComplex" then some [.complex, .byte, .int, .int]
  else if f = "strconv.FormatFloat" then some [.float, .byte, .int, .int]
  else if f = "strconv.FormatInt" then some [.int, .int]
  else if f = "strconv.FormatUint" then some [.uint, .int]
  else if f ∈ ["strconv.IsGraphic", "strconv.IsPrint", "strconv.QuoteRune", "strconv.QuoteRuneToASCII",
    "strconv.QuoteRuneToGraphic"] then some [.rune]
  else if f = "strconv.Itoa" then some [.int]
  else if f ∈ ["strconv.ParseInt", "strconv.ParseUint"] then some [.string, .int, .int]
  else none

/-- A character in UTF-8. -/
def utf8 (r : Nat) : Bytes :=
  if r < 0x80 then [r]
  else if r < 0x800 then [0xC0 + r / 64, 0x80 + r % 64]
  else if r < 0x10000 then [0xE0 + r / 4096, 0x80 + r / 64 % 64, 0x80 + r % 64]
  else [0xF0 + r / 262144, 0x80 + r / 4096 % 64, 0x80 + r / 64 % 64, 0x80 + r % 64]

/-- The argument of a Go function that a value stands for: a text of one character for that character, a text or bytes of
length one for that byte, two numbers for a complex number. -/
inductive Stands : Kind → Val → GoVal → Prop
  | string (b) : Stands .string (.str b) (.str b)
  | bytes (b) : Stands .bytes (.bytes b) (.bytes b)
  | text (b) : Stands .bytes (.str b) (.bytes b)
  | int (i) : Stands .int (.int i) (.int i)
  | uint (n) : Stands .uint (.uint n) (.uint n)
  | bool (b) : Stands .bool (.bool b) (.bool b)
  | float (d) : Stands .float (.double d) (.float d)
  | strings (l) : Stands .strings (.strs l) (.strs l)
  | complex (a b) : Stands .complex (.doubles [a, b]) (.complex a b)
  | byte (x) : Stands .byte (.str [x]) (.byte x)
  | byteOfBytes (x) : Stands .byte (.bytes [x]) (.byte x)
  | code (i) (h : 0 ≤ i ∧ i ≤ 0x10FFFF) : Stands .rune (.int i) (.rune i)
  | char (r : Nat) (h : r ≤ 0x10FFFF) : Stands .rune (.str (utf8 r)) (.rune r)
  | runeOfByte (x) : Stands .rune (.bytes [x]) (.rune x)

inductive StandAll : List Kind → List Val → List GoVal → Prop
  | nil : StandAll [] [] []
  | cons {k v g ks vs gs} (h : Stands k v g) (t : StandAll ks vs gs) : StandAll (k :: ks) (v :: vs) (g :: gs)

/-- What the documentation promises for a call of the Go function `f`. -/
def promised (go : String → List GoVal → Res) (f : String) (gs : List GoVal) (drop : Bool) : Answer :=
  match go f gs with
  | .ok l => .vals (if drop then l.dropLast else l)
  | .err text => .error text
  | .panic => .internal

/-- Where a byte or a character is expected: not bytes, and as a text only a character of ASCII. -/
def Plain : Kind → Val → Prop
  | .byte, .bytes _ => False
  | .rune, .bytes _ => False
  | .rune, .str b => ∀ x ∈ b, x < 128
  | _, _ => True

/-- The type of the value is the one the overload declares. -/
def Typed : Conv → Val → Prop
  | .str, .str _ => True
  | .bytes, .bytes _ => True
  | .bytesOfStr, .str _ => True
  | .int, .int _ => True
  | .uint, .uint _ => True
  | .bool, .bool _ => True
  | .float, .double _ => True
  | .strs, .strs _ => True
  | .complex, .doubles _ => True
  | .runeOfInt, .int _ => True
  | .byteOfStr, .str _ => True
  | .runeOfStr, .str _ => True
  | .byteOfBytes, .bytes _ => True
  | .runeOfBytes, .bytes _ => True
  | _, _ => False

inductive TypedAll : List Conv → List Val → Prop
  | nil : TypedAll [] []
  | cons {c v cs vs} (h : Typed c v) (t : TypedAll cs vs) : TypedAll (c :: cs) (v :: vs)

inductive PlainAll : List Kind → List Val → Prop
  | nil : PlainAll [] []
  | cons {k v ks vs} (h : Plain k v) (t : PlainAll ks vs) : PlainAll (k :: ks) (v :: vs)

/-! ## Lemmas -/

/-- The conversion for a parameter. -/
def fits : Conv → Kind → Bool
  | .str, .string => true
  | .bytes, .bytes => true
  | .bytesOfStr, .bytes => true
  | .int, .int => true
  | .uint, .uint => true
  | .bool, .bool => true
  | .float, .float => true
  | .strs, .strings => true
  | .complex, .complex => true
  | .runeOfInt, .rune => true
  | .byteOfStr, .byte => true
  | .runeOfStr, .rune => true
  | .byteOfBytes, .byte => true
  | .runeOfBytes, .rune => true
  | _, _ => false

def fitAll : List Conv → List Kind → Bool
  | [], [] => true
  | c :: cs, k :: ks => fits c k && fitAll cs ks
  | _, _ => false

theorem table : ∀ f ∈ fns, ∃ ks, sig f.go = some ks ∧ fitAll f.convs ks = true := by
  have h : fns.all (fun f => match sig f.go with | some ks => fitAll f.convs ks | none => false) = true := by decide +kernel
  intro f hf
  have := List.all_eq_true.mp h f hf
  split at this
  · next ks hk => exact ⟨ks, hk, this⟩
  · cases this

theorem utf8_plain {r : Nat} (h : ∀ x ∈ utf8 r, x < 128) : utf8 r = [r] := by
  unfold utf8 at h ⊢
  split at h
  · next hr => rw [if_pos hr]
  · split at h
    · have := h (0xC0 + r / 64) (by simp); omega
    · split at h
      · have := h (0xE0 + r / 4096) (by simp); omega
      · have := h (0xF0 + r / 262144) (by simp); omega

theorem apply_stands {c : Conv} {k : Kind} {v : Val} {g : GoVal} (hf : fits c k = true) (ht : Typed c v)
    (hp : Plain k v) (hs : Stands k v g) : c.apply v = some g := by
  cases hs <;> cases c <;> simp [fits, Typed, Plain] at hf ht hp <;> try rfl
  · next i h =>
    simp only [Conv.apply, toRune]
    have : i % 4294967296 = i := by omega
    rw [this, if_pos (by omega)]
  · next r h =>
    rw [utf8_plain hp]
    rfl

theorem convert_stands : ∀ {cs : List Conv} {ks : List Kind} {vs : List Val} {gs : List GoVal}, fitAll cs ks = true →
    TypedAll cs vs → PlainAll ks vs → StandAll ks vs gs → convert cs vs = some gs
  | [], [], _, _, _, .nil, .nil, .nil => rfl
  | c :: cs, k :: ks, _, _, hf, .cons ht tt, .cons hp tp, .cons hs ts => by
    simp only [fitAll, Bool.and_eq_true] at hf
    simp only [convert, apply_stands hf.1 ht hp hs, convert_stands hf.2 tt tp ts, Option.map_some]
  | [], _ :: _, _, _, hf, _, _, _ => by simp [fitAll] at hf
  | _ :: _, [], _, _, hf, _, _, _ => by simp [fitAll] at hf

theorem sprintf_plain : ∀ (s : List Char), '%' ∉ s → sprintf s = s
  | [], _ => rfl
  | c :: s, h => by
    have hc : c ≠ '%' := fun hc => h (by simp [hc])
    have ih := sprintf_plain s (fun hm => h (List.mem_cons_of_mem _ hm))
    unfold sprintf
    split
    · next heq => cases heq
    · next heq => cases heq; exact absurd rfl hc
    · next heq => cases heq; exact absurd rfl hc
    · next heq => cases heq; exact absurd rfl hc
    · next heq => cases heq; rw [ih]

/-! ## Properties -/

/-- Every function calls a function of Go that has the documented parameters, and gives its result, if bytes and characters
are given as texts of ASCII and the text of an error has no percent sign.  Missing for the full property: `C94_char_false`,
`C94_bytes_false` and `C94_error_false`. -/
theorem C94_go_partial (go : String → List GoVal → Res) {f : Fn} (hf : f ∈ fns) :
    ∃ ks, sig f.go = some ks ∧ ∀ (vs : List Val) (gs : List GoVal), TypedAll f.convs vs → StandAll ks vs gs →
      PlainAll ks vs → (∀ text, go f.go gs = .err text → '%' ∉ text) →
      f.call go vs = promised go f.go gs (f.out = .dropLast) := by
  obtain ⟨ks, hk, hfit⟩ := table f hf
  refine ⟨ks, hk, ?_⟩
  intro vs gs ht hs hp he
  simp only [Fn.call, convert_stands hfit ht hp hs, promised]
  cases hg : go f.go gs with
  | panic => rfl
  | err text => simp only [sprintf_plain text (he text hg)]
  | ok l => cases f.out <;> simp

/-- The functions of the documentation, `docs/cel/strings.md` lines 24-97. -/
def documented : List String := ["clone", "compare", "contains", "containsAny", "containsRune", "count", "cut", "cutPrefix",
  "cutSuffix", "equalFold", "fields", "hasPrefix", "hasSuffix", "index", "indexAny", "indexByte", "indexRune", "join",
  "lastIndex", "lastIndexAny", "lastIndexByte", "repeat", "replace", "replaceAll", "split", "splitAfter", "splitAfterN",
  "splitN", "title", "toLower", "toTitle", "toUpper", "toValidUTF8", "trim", "trimLeft", "trimPrefix", "trimRight",
  "trimSpace", "trimSuffix", "appendBool", "appendFloat", "appendInt", "appendQuote", "appendQuoteRune",
  "appendQuoteRuneToASCII", "appendQuoteRuneToGraphic", "appendQuoteToASCII", "appendUint", "atoi", "canBackquote",
  "formatBool", "formatComplex", "formatFloat", "formatInt", "formatUint", "isGraphic", "isPrint", "itoa", "parseBool",
  "parseComplex", "parseFloat", "parseInt", "parseUint", "quote", "quoteRune", "quoteRuneToGraphic", "quoteToASCII",
  "quoteToGraphic", "quotedPrefix", "unquote", "unquoteChar"]

/-- `containsAny` is `ContainsAny` in Go. -/
def capital : List Char → List Char
  | c :: s => c.toUpper :: s
  | [] => []

/-- Every documented function but `clone` is there, and calls the Go function of its name in the package `strings` or
`strconv`, but for `compare` and `title`. -/
theorem C94_names : (∀ n ∈ documented, n = "clone" ∨ ∃ f ∈ fns, f.name = n) ∧
    ∀ f ∈ fns, f.name = "compare" ∨ f.name = "title" ∨
      (f.go.toList = "strings.".toList ++ capital f.name.toList ∧ f.out = (if f.name ∈ ["cut", "cutPrefix", "cutSuffix"]
        then .dropLast else .all)) ∨
      f.go.toList = "strconv.".toList ++ capital f.name.toList ∧ f.out = .all := by
  constructor
  · have h : documented.all (fun n => n = "clone" || fns.any fun f => f.name = n) = true := by decide +kernel
    intro n hn
    have := List.all_eq_true.mp h n hn
    simp only [Bool.or_eq_true, decide_eq_true_eq, List.any_eq_true] at this
    exact this
  · decide +kernel

theorem clash {c d : Conv} {v : Val} (h : (c = .bytes ∧ d = .bytesOfStr ∨ c = .byteOfBytes ∧ d = .byteOfStr) ∨
    c = .runeOfBytes ∧ d = .runeOfStr) (h1 : Typed c v) (h2 : Typed d v) : False := by
  rcases h with (⟨rfl, rfl⟩ | ⟨rfl, rfl⟩) | ⟨rfl, rfl⟩ <;> cases v <;> first | exact h1 | exact h2

/-- The overloads of a function differ in the type of an argument, so each call means one of them. -/
theorem C94_overloads : fns.Pairwise fun f g => f.name = g.name →
    ∀ vs, TypedAll f.convs vs → TypedAll g.convs vs → False := by
  have key : fns.Pairwise fun f g => f.name = g.name → (f.convs.zip g.convs).any (fun p =>
      (p.1 = .bytes && p.2 = .bytesOfStr) || (p.1 = .byteOfBytes && p.2 = .byteOfStr) ||
      (p.1 = .runeOfBytes && p.2 = .runeOfStr)) = true := by
    decide +kernel
  refine key.imp ?_
  intro f g h hn vs ht hg
  have := h hn
  generalize f.convs = a at *
  generalize g.convs = b at *
  clear h hn key
  induction ht generalizing b with
  | nil => simp at this
  | cons h1 _ ih =>
    cases hg with
    | cons h2 t2 =>
      simp only [List.zip_cons_cons, List.any_cons, Bool.or_eq_true] at this
      rcases this with this | this
      · simp only [Bool.and_eq_true, decide_eq_true_eq] at this
        exact clash this h1 h2
      · exact ih _ t2 this

/-! ### The arguments that are not what they stand for -/

/-- Exactly the characters of ASCII are passed on as they are, and `Ã` by chance: of any other character, its first byte in
UTF-8. -/
theorem C94_char (r : Nat) : Conv.runeOfStr.apply (.str (utf8 r)) = some (.rune r) ↔ r < 128 ∨ r = 0xC3 := by
  unfold utf8
  by_cases h : r < 0x80
  · rw [if_pos h]
    simp only [Conv.apply, true_iff]
    exact .inl h
  · rw [if_neg h]
    split
    · simp only [Conv.apply, Option.some.injEq, GoVal.rune.injEq]; omega
    · split
      · simp only [Conv.apply, Option.some.injEq, GoVal.rune.injEq]; omega
      · simp only [Conv.apply, Option.some.injEq, GoVal.rune.injEq]; omega

/-- The code points are passed on as they are, for all numbers of 32 bits. -/
theorem C94_code (i : Int) : Conv.runeOfInt.apply (.int i) = some (.rune i) ↔ -2147483648 ≤ i ∧ i < 2147483648 := by
  simp only [Conv.apply, toRune, Option.some.injEq, GoVal.rune.injEq]
  split <;> omega

/-- `quoteRune("é")` quotes another character. -/
theorem C94_char_false : ∃ f ∈ fns, f.name = "quoteRune" ∧ ∃ (vs : List Val) (gs : List GoVal),
    StandAll [.rune] vs gs ∧ sig f.go = some [.rune] ∧ TypedAll f.convs vs ∧
    ∃ go, f.call go vs ≠ promised go f.go gs false := by
  refine ⟨⟨"quoteRune", "strconv.QuoteRune", [.runeOfStr], .all⟩, by decide +kernel, rfl, [.str (utf8 0xE9)],
    [.rune 0xE9], .cons (.char 0xE9 (by decide)) .nil, by decide +kernel, .cons trivial .nil, ?_⟩
  exact ⟨fun _ gs => .ok gs, by decide +kernel⟩

/-- `containsRune(s, 2^32 + 97)` searches for `a`. -/
theorem C94_code_false : ∃ f ∈ fns, f.name = "containsRune" ∧ ∀ go s,
    f.call go [.str s, .int (4294967296 + 97)] = f.call go [.str s, .int 97] :=
  ⟨⟨"containsRune", "strings.ContainsRune", [.str, .runeOfInt], .all⟩, by decide +kernel, rfl, fun _ _ => rfl⟩

/-- The overloads for bytes of `indexByte`, `lastIndexByte`, `isGraphic` and `isPrint` always fail. -/
theorem C94_bytes_false : (∀ f ∈ fns, .byteOfBytes ∈ f.convs ∨ .runeOfBytes ∈ f.convs →
      ∀ go vs, f.call go vs = .internal) ∧
    ∀ n ∈ ["indexByte", "lastIndexByte", "isGraphic", "isPrint"], ∃ f ∈ fns, f.name = n ∧
      (.byteOfBytes ∈ f.convs ∨ .runeOfBytes ∈ f.convs) := by
  constructor
  · intro f _ h go vs
    have : convert f.convs vs = none := by
      generalize f.convs = cs at h
      induction cs generalizing vs with
      | nil => simp at h
      | cons c cs ih =>
        cases vs with
        | nil => rfl
        | cons v vs =>
          simp only [convert]
          by_cases hc : c = .byteOfBytes ∨ c = .runeOfBytes
          · have : c.apply v = none := by rcases hc with rfl | rfl <;> cases v <;> rfl
            rw [this]
          · have h' : Conv.byteOfBytes ∈ cs ∨ Conv.runeOfBytes ∈ cs := by
              rcases h with h | h
              · rcases List.mem_cons.mp h with e | e
                · exact absurd (Or.inl e.symm) hc
                · exact .inl e
              · rcases List.mem_cons.mp h with e | e
                · exact absurd (Or.inr e.symm) hc
                · exact .inr e
            rw [ih vs h']
            cases c.apply v <;> rfl
    simp only [Fn.call, this]
  · decide +kernel

/-- An empty text for a character, and a list of less than two numbers for a complex number, give an internal error, whatever
Go's functions do. -/
theorem C94_empty_false (go : String → List GoVal → Res) : ∀ f ∈ fns, ∀ (cs cs' : List Conv) (vs vs' : List Val) (c : Conv),
    f.convs = cs ++ c :: cs' → cs.length = vs.length → (c = .byteOfStr ∨ c = .runeOfStr) →
    f.call go (vs ++ .str [] :: vs') = .internal := by
  intro f _ cs cs' vs vs' c hcs hl hc
  have : convert f.convs (vs ++ .str [] :: vs') = none := by
    rw [hcs]
    clear hcs
    induction cs generalizing vs with
    | nil =>
      cases vs with
      | nil => rcases hc with rfl | rfl <;> rfl
      | cons => simp at hl
    | cons d cs ih =>
      cases vs with
      | nil => simp at hl
      | cons v vs =>
        simp only [List.cons_append, convert]
        rw [ih vs (by simpa using hl)]
        cases d.apply v <;> rfl
  simp only [Fn.call, this]

theorem sprintf_cons {c : Char} {s : List Char} (hc : c ≠ '%') : sprintf (c :: s) = c :: sprintf s := by
  conv => lhs; unfold sprintf
  split
  · next h => cases h
  · next h => cases h; exact absurd rfl hc
  · next h => cases h; exact absurd rfl hc
  · next h => cases h; exact absurd rfl hc
  · next h => cases h; rfl

theorem sprintf_last : sprintf ['%'] = ['%', '!', '(', 'N', 'O', 'V', 'E', 'R', 'B', ')'] := by decide +kernel

theorem sprintf_two (t : List Char) : sprintf ('%' :: '%' :: t) = '%' :: sprintf t := rfl

def missing : List Char := ['(', 'M', 'I', 'S', 'S', 'I', 'N', 'G', ')']

theorem sprintf_verb {d : Char} (t : List Char) (hd : d ≠ '%') :
    sprintf ('%' :: d :: t) = '%' :: '!' :: d :: (missing ++ sprintf t) := by
  have h1 : "%!".toList = ['%', '!'] := by decide +kernel
  have h2 : "(MISSING)".toList = missing := by decide +kernel
  conv => lhs; unfold sprintf
  split
  · next h => cases h
  · next h => cases h
  · next h => cases h; exact absurd rfl hd
  · next h => cases h; rw [h1, h2]; rfl
  · next h1 h2 h => cases h; exact (h2 _ _ rfl rfl).elim

theorem sprintf_append : ∀ {p : List Char} (s : List Char), '%' ∉ p → sprintf (p ++ s) = p ++ sprintf s
  | [], _, _ => rfl
  | c :: p, s, h => by
    rw [List.cons_append, sprintf_cons (fun e => h (by simp [e])),
      sprintf_append s (fun hm => h (List.mem_cons_of_mem _ hm)), List.cons_append]

theorem replicate_shift (c : Char) (t : List Char) : ∀ k, List.replicate k c ++ c :: t = List.replicate (k + 1) c ++ t
  | 0 => rfl
  | k + 1 => by
    rw [List.replicate_succ, List.cons_append, replicate_shift c t k]
    rfl

theorem sprintf_nil (k : Nat) : sprintf [] ≠ List.replicate (k + 1) '%' ++ [] := by
  have : sprintf [] = [] := rfl
  rw [this, List.replicate_succ]
  exact fun h => by cases h

theorem sprintf_signs (n : Nat) : ∀ (s : List Char) (k : Nat), s.length ≤ n →
    sprintf s ≠ List.replicate (k + 1) '%' ++ s := by
  induction n with
  | zero =>
    intro s k hn
    have : s = [] := by simpa using hn
    subst this
    exact sprintf_nil k
  | succ n ih =>
   intro s k hn h
   cases s with
   | nil => exact sprintf_nil k h
   | cons c s =>
    by_cases hc : c = '%'
    · subst hc
      cases s with
      | nil =>
        rw [sprintf_last, List.replicate_succ, List.cons_append] at h
        have h' := (List.cons.inj h).2
        cases k with
        | zero => exact absurd (List.cons.inj h').1 (by decide)
        | succ k => rw [List.replicate_succ] at h'; exact absurd (List.cons.inj h').1 (by decide)
      | cons d t =>
        by_cases hd : d = '%'
        · subst hd
          rw [sprintf_two, List.replicate_succ, List.cons_append] at h
          have h' := (List.cons.inj h).2
          refine ih t (k + 1) (by simp at hn; omega) ?_
          rw [h']
          rw [replicate_shift, replicate_shift]
        · rw [sprintf_verb t hd, List.replicate_succ, List.cons_append] at h
          have h' := (List.cons.inj h).2
          cases k with
          | zero => exact absurd (List.cons.inj h').1 (by decide)
          | succ k => rw [List.replicate_succ] at h'; exact absurd (List.cons.inj h').1 (by decide)
    · rw [sprintf_cons hc, List.replicate_succ, List.cons_append] at h
      exact hc (List.cons.inj h).1

theorem sprintf_missing : ∀ (n : Nat) (s : List Char), s.length ≤ n → s ≠ '!' :: missing ++ sprintf s
  | 0, s, hn, h => by
    have : s = [] := by simpa using hn
    subst this
    exact absurd h (by decide +kernel)
  | n + 1, s, hn, h => by
    have h1 : sprintf s = '!' :: missing ++ sprintf (sprintf s) := by
      conv => lhs; rw [h]
      exact sprintf_append _ (by decide +kernel)
    refine sprintf_missing n (sprintf s) ?_ h1
    have h2 := congrArg List.length h
    have h3 : ('!' :: missing).length = 10 := rfl
    rw [List.length_append, h3] at h2
    omega

/-- The message of an error is the text Go gives exactly if it has no percent sign. -/
theorem C94_error (text : List Char) : sprintf text = text ↔ '%' ∉ text := by
    refine ⟨?_, sprintf_plain text⟩
    induction text with
    | nil => simp
    | cons c s ih =>
      intro h
      by_cases hc : c = '%'
      · exfalso
        subst hc
        cases s with
        | nil => rw [sprintf_last] at h; exact absurd (List.cons.inj h).2 (by decide)
        | cons d t =>
          by_cases hd : d = '%'
          · subst hd
            rw [sprintf_two] at h
            exact sprintf_signs t.length t 0 (Nat.le_refl _) (List.cons.inj h).2
          · rw [sprintf_verb t hd] at h
            have h1 := (List.cons.inj h).2
            have h2 : '!' = d := (List.cons.inj h1).1
            have h3 := (List.cons.inj h1).2
            subst h2
            exact sprintf_missing t.length t (Nat.le_refl _) h3.symm
      · rw [sprintf_cons hc] at h
        have := ih (List.cons.inj h).2
        simp only [List.mem_cons, not_or]
        exact ⟨fun e => hc e.symm, this⟩

/-- `atoi("5%")`: Go says `parsing "5%": invalid syntax`. -/
theorem C94_error_false : ∃ f ∈ fns, f.name = "atoi" ∧ ∀ go : String → List GoVal → Res, ∀ v,
    go "strconv.Atoi" [.str v] = .err "strconv.Atoi: parsing \"5%\": invalid syntax".toList →
    f.call go [.str v] = .error "strconv.Atoi: parsing \"5%!\"(MISSING): invalid syntax".toList := by
  refine ⟨⟨"atoi", "strconv.Atoi", [.str], .all⟩, by decide +kernel, rfl, ?_⟩
  intro go v h
  simp only [Fn.call, convert, Conv.apply, Option.map_some, h]
  decide +kernel

/-- A function that meets the hypotheses: `appendFloat("x", 1.5, "f", 2, 64)`. -/
example : ∃ f ∈ fns, f.name = "appendFloat" ∧ sig f.go = some [.bytes, .float, .byte, .int, .int] ∧
    TypedAll f.convs [.str [120], .double 15, .str [102], .int 2, .int 64] ∧
    StandAll [.bytes, .float, .byte, .int, .int] [.str [120], .double 15, .str [102], .int 2, .int 64]
      [.bytes [120], .float 15, .byte 102, .int 2, .int 64] ∧
    PlainAll [.bytes, .float, .byte, .int, .int] [.str [120], .double 15, .str [102], .int 2, .int 64] :=
  ⟨⟨"appendFloat", "strconv.AppendFloat", [.bytesOfStr, .float, .byteOfStr, .int, .int], .all⟩, by decide +kernel, rfl,
    by decide +kernel,
    .cons trivial (.cons trivial (.cons trivial (.cons trivial (.cons trivial .nil)))),
    .cons (.text _) (.cons (.float _) (.cons (.byte _) (.cons (.int _) (.cons (.int _) .nil)))),
    .cons trivial (.cons trivial (.cons trivial (.cons trivial (.cons trivial .nil))))⟩

/-! ## Appending -/

/-- A program of appends: each takes an earlier value or copies a text first.  The values so far are the slices. -/
inductive Step where
  /-- `append…(values[i], …)` -/
  | onBytes (i : Nat) (text : Bytes)
  /-- a new value: a literal, or the text overload, without spare room -/
  | fresh (b : Bytes)

/-- Runs the steps, giving the values. -/
def run (spare : Nat → Nat) : List Step → Heap → List Slice → Heap × List Slice
  | [], h, vs => (h, vs)
  | .onBytes i text :: ss, h, vs =>
    match vs[i]? with
    | none => run spare ss h vs
    | some s => let r := append spare h s text; run spare ss r.1 (vs ++ [r.2])
  | .fresh b :: ss, h, vs =>
    run spare ss ⟨h.next + 1, fun j => if j = h.next then b else h.arrays j⟩ (vs ++ [⟨h.next, b.length⟩])

/-- What the values should be. -/
def meant : List Step → List Bytes → List Bytes
  | [], vs => vs
  | .onBytes i text :: ss, vs =>
    match vs[i]? with
    | none => meant ss vs
    | some b => meant ss (vs ++ [b ++ text])
  | .fresh b :: ss, vs => meant ss (vs ++ [b])

/-- Which values are appended to. -/
def bases (ss : List Step) : List Nat := ss.filterMap fun s => match s with | .onBytes i _ => some i | .fresh _ => none

/-- Nothing is known to be wrong: the values are what they should be, lie in their arrays, and no value in the same array as
one that may still be appended to is longer. -/
structure Inv (h : Heap) (vs : List Slice) (ms : List Bytes) (used : List Nat) : Prop where
  vals : vs.map h.bytes = ms
  lies : ∀ s ∈ vs, s.arr < h.next ∧ s.len ≤ (h.arrays s.arr).length
  tip : ∀ (i j : Nat) (s t : Slice), vs[i]? = some s → vs[j]? = some t → s.arr = t.arr → i ∉ used → i ≠ j →
    j ∈ used ∧ t.len ≤ s.len
  small : ∀ i ∈ used, i < vs.length

theorem bytes_len {h : Heap} {s : Slice} (hs : s.len ≤ (h.arrays s.arr).length) : (h.bytes s).length = s.len := by
  simp [Heap.bytes]; omega

theorem getElem?_snoc {α : Type} {l : List α} {x y : α} {i : Nat} (h : (l ++ [x])[i]? = some y) :
    l[i]? = some y ∨ i = l.length ∧ y = x := by
  rw [List.getElem?_append] at h
  split at h
  · exact .inl h
  · next hi =>
    have : i = l.length := by
      have := (List.getElem?_eq_some_iff.mp h).1
      simp at this; omega
    subst this
    simp at h
    exact .inr ⟨rfl, h.symm⟩

theorem Inv.fresh {h : Heap} {vs : List Slice} {ms : List Bytes} {used : List Nat} (inv : Inv h vs ms used) (b : Bytes) :
    Inv ⟨h.next + 1, fun j => if j = h.next then b else h.arrays j⟩ (vs ++ [⟨h.next, b.length⟩]) (ms ++ [b]) used := by
  obtain ⟨h1, h2, h3, h4⟩ := inv
  have hne : ∀ s ∈ vs, s.arr ≠ h.next := fun s hs => by have := (h2 s hs).1; omega
  refine ⟨?_, ?_, ?_, ?_⟩
  · rw [List.map_append, ← h1]
    congr 1
    · refine List.map_congr_left fun s hs => ?_
      simp only [Heap.bytes, if_neg (hne s hs)]
    · simp [Heap.bytes]
  · intro s hs
    rcases List.mem_append.mp hs with hs | hs
    · have := h2 s hs
      simp only [if_neg (hne s hs)]
      omega
    · simp only [List.mem_singleton] at hs
      subst hs
      simp
  · intro i j s t hi hj ha hu hij
    rcases getElem?_snoc hi with hi' | ⟨hi', rfl⟩ <;> rcases getElem?_snoc hj with hj' | ⟨hj', rfl⟩
    · exact h3 i j s t hi' hj' ha hu hij
    · exact absurd ha (hne s (List.mem_of_getElem? hi'))
    · exact absurd ha.symm (hne t (List.mem_of_getElem? hj'))
    · omega
  · intro i hi
    have := h4 i hi
    simp; omega

theorem Inv.append {h : Heap} {vs : List Slice} {ms : List Bytes} {used : List Nat} (inv : Inv h vs ms used)
    (spare : Nat → Nat) {i : Nat} {s : Slice} (hi : vs[i]? = some s) (hu : i ∉ used) (text : Bytes) :
    Inv (append spare h s text).1 (vs ++ [(append spare h s text).2]) (ms ++ [h.bytes s ++ text]) (i :: used) := by
  obtain ⟨h1, h2, h3, h4⟩ := inv
  have hs := h2 s (List.mem_of_getElem? hi)
  have hlen := bytes_len hs.2
  have htip : ∀ t ∈ vs, t.arr = s.arr → t.len ≤ s.len := by
    intro t ht ha
    obtain ⟨j, hj⟩ := List.getElem?_of_mem ht
    by_cases hij : i = j
    · subst hij
      rw [hi] at hj
      cases hj
      exact Nat.le_refl _
    · exact (h3 i j s t hi hj ha.symm hu hij).2
  have take_take : ∀ (a : Bytes) (n : Nat) (r : Bytes), n ≤ s.len → s.len ≤ a.length →
      (a.take s.len ++ r).take n = a.take n := by
    intro a n r hn ha
    rw [List.take_append_of_le_length (by simp; omega), List.take_take, Nat.min_eq_left hn]
  unfold CelStr.append
  by_cases hfit : s.len + text.length ≤ (h.arrays s.arr).length
  · simp only [if_pos hfit]
    refine ⟨?_, ?_, ?_, ?_⟩
    · rw [List.map_append, ← h1]
      congr 1
      · refine List.map_congr_left fun t ht => ?_
        simp only [Heap.bytes]
        by_cases ha : t.arr = s.arr
        · rw [if_pos ha, List.append_assoc, take_take _ _ _ (htip t ht ha) hs.2, ha]
        · rw [if_neg ha]
      · simp only [Heap.bytes, List.map_cons, List.map_nil, if_pos]
        rw [List.take_append_of_le_length (by simp; omega), List.take_of_length_le (by simp; omega)]
    · intro t ht
      have hl : ∀ n, ((h.arrays s.arr).take s.len ++ text ++ (h.arrays s.arr).drop (s.len + text.length)).length =
          (h.arrays s.arr).length + 0 * n := by
        intro n; simp; omega
      rcases List.mem_append.mp ht with ht | ht
      · have := h2 t ht
        refine ⟨this.1, ?_⟩
        by_cases ha : t.arr = s.arr
        · simp only [if_pos ha]
          rw [hl 0, ← ha]
          omega
        · simp only [if_neg ha]
          exact this.2
      · simp only [List.mem_singleton] at ht
        subst ht
        refine ⟨hs.1, ?_⟩
        simp only [if_pos]
        rw [hl 0]
        omega
    · intro a b t u hta htb he hnu hab
      simp only [List.mem_cons, not_or] at hnu
      rcases getElem?_snoc hta with ha' | ⟨ha', rfl⟩ <;> rcases getElem?_snoc htb with hb' | ⟨hb', rfl⟩
      · have := h3 a b t u ha' hb' he hnu.2 hab
        exact ⟨List.mem_cons_of_mem _ this.1, this.2⟩
      · exact absurd (h3 a i t s ha' hi he hnu.2 hnu.1).1 hu
      · have hle := htip u (List.mem_of_getElem? hb') he.symm
        refine ⟨?_, by simp only; omega⟩
        by_cases hbi : i = b
        · exact hbi ▸ List.mem_cons_self
        · exact List.mem_cons_of_mem _ (h3 i b s u hi hb' he hu hbi).1
      · omega
    · intro j hj
      rcases List.mem_cons.mp hj with rfl | hj
      · have := (List.getElem?_eq_some_iff.mp hi).1
        simp; omega
      · have := h4 j hj
        simp; omega
  · simp only [if_neg hfit]
    have hne : ∀ s ∈ vs, s.arr ≠ h.next := fun s hs => by have := (h2 s hs).1; omega
    refine ⟨?_, ?_, ?_, ?_⟩
    · rw [List.map_append, ← h1]
      congr 1
      · refine List.map_congr_left fun t ht => ?_
        simp only [Heap.bytes, if_neg (hne t ht)]
      · simp only [Heap.bytes, List.map_cons, List.map_nil, if_pos]
        rw [List.take_append_of_le_length (by simp; omega), List.take_of_length_le (by simp; omega)]
    · intro t ht
      rcases List.mem_append.mp ht with ht | ht
      · have := h2 t ht
        simp only [if_neg (hne t ht)]
        omega
      · simp only [List.mem_singleton] at ht
        subst ht
        simp
        omega
    · intro a b t u hta htb he hnu hab
      simp only [List.mem_cons, not_or] at hnu
      rcases getElem?_snoc hta with ha' | ⟨ha', rfl⟩ <;> rcases getElem?_snoc htb with hb' | ⟨hb', rfl⟩
      · have := h3 a b t u ha' hb' he hnu.2 hab
        exact ⟨List.mem_cons_of_mem _ this.1, this.2⟩
      · exact absurd he (hne t (List.mem_of_getElem? ha'))
      · exact absurd he.symm (hne u (List.mem_of_getElem? hb'))
      · omega
    · intro j hj
      rcases List.mem_cons.mp hj with rfl | hj
      · have := (List.getElem?_eq_some_iff.mp hi).1
        simp; omega
      · have := h4 j hj
        simp; omega

theorem run_inv (spare : Nat → Nat) : ∀ (ss : List Step) (h : Heap) (vs : List Slice) (ms : List Bytes) (used : List Nat),
    Inv h vs ms used → (bases ss).Nodup → (∀ i ∈ bases ss, i ∉ used) →
    (run spare ss h vs).2.map (run spare ss h vs).1.bytes = meant ss ms
  | [], h, vs, ms, used, inv, _, _ => inv.vals
  | .fresh b :: ss, h, vs, ms, used, inv, hn, hu => by
    simp only [run, meant]
    exact run_inv spare ss _ _ _ used (inv.fresh b) hn hu
  | .onBytes i text :: ss, h, vs, ms, used, inv, hn, hu => by
    have hb : bases (.onBytes i text :: ss) = i :: bases ss := rfl
    rw [hb] at hn hu
    rw [List.nodup_cons] at hn
    simp only [run, meant]
    have hm : ms[i]? = (vs[i]?).map h.bytes := by rw [← inv.vals, List.getElem?_map]
    cases hv : vs[i]? with
    | none =>
      rw [hm, hv]
      exact run_inv spare ss h vs ms used inv hn.2 (fun j hj => hu j (List.mem_cons_of_mem _ hj))
    | some s =>
      rw [hm, hv]
      simp only [Option.map_some]
      refine run_inv spare ss _ _ _ (i :: used) (inv.append spare hv (hu i List.mem_cons_self) text) hn.2 ?_
      intro j hj hju
      rcases List.mem_cons.mp hju with rfl | hju
      · exact hn.1 hj
      · exact hu j (List.mem_cons_of_mem _ hj) hju

/-- Bytes keep their value, and appending gives the bytes followed by the text, if no value is appended to twice.  Missing for
the full property: `C94_append_false`. -/
theorem C94_append_partial (spare : Nat → Nat) (ss : List Step) (h : (bases ss).Nodup) :
    (run spare ss ⟨0, fun _ => []⟩ []).2.map (run spare ss ⟨0, fun _ => []⟩ []).1.bytes = meant ss [] :=
  run_inv spare ss _ _ _ [] ⟨rfl, by simp, by simp, by simp⟩ h (by simp)

/-- Three appends, each to the value before. -/
example : (bases [.fresh [1], .onBytes 0 [2], .onBytes 1 [3, 4], .fresh [9], .onBytes 3 [5]]).Nodup := by decide

/-- `b = appendInt(b"", 1, 10)`, `x = appendInt(b, 2, 10)`, `y = appendInt(b, 3, 10)`: then `x` is `"13"`. -/
theorem C94_append_false : ∃ (ss : List Step), meant ss [] = [[], [49], [49, 50], [49, 51]] ∧
    ∀ spare : Nat → Nat, spare 1 = 7 →
      (run spare ss ⟨0, fun _ => []⟩ []).2.map (run spare ss ⟨0, fun _ => []⟩ []).1.bytes =
        [[], [49], [49, 51], [49, 51]] := by
  refine ⟨[.fresh [], .onBytes 0 [49], .onBytes 1 [50], .onBytes 1 [51]], rfl, ?_⟩
  intro spare h
  simp [run, append, Heap.bytes, h]

end Verif.CelStr
