/-!
# How Go reads a file

The part of the lexical rules of Go that decides which strings a generated file contains (the
definition of Go, sections "Comments" and "String literals"; `go/scanner` and the scanner of the
compiler follow it). Nothing here refers to the generator.
-/

namespace Verif.Embed

abbrev Text := List Char

/-- Characters that no Go file may contain: NUL, and a byte order mark after the start. -/
def illegal (c : Char) : Bool := c.toNat == 0 || c.toNat == 0xFEFF

/-- `v` in front of the string that was read. -/
def push (c : Char) (r : Option (Text × Text)) : Option (Text × Text) :=
  match r with
  | none => none
  | some (v, rest) => some (c :: v, rest)

/-- A raw string after its opening backquote: the value and what follows. There are no escapes;
carriage returns are dropped from the value. -/
def readRaw : Text → Option (Text × Text)
  | [] => none
  | c :: cs =>
    if c = '`' then some ([], cs)
    else if illegal c then none
    else if c = '\r' then readRaw cs
    else push c (readRaw cs)

/-- Where the reader of an interpreted string is: between characters, after a backslash, or in an
escape with `left` digits to come, of which the value so far is `acc`; `top` is the bound of the
value. -/
inductive At where
  | plain
  | esc
  | num (base left acc top : Nat)
deriving DecidableEq, Repr

/-- Escapes of one letter. -/
def letter (c : Char) : Option Char :=
  if c = 'a' then some (Char.ofNat 7)
  else if c = 'b' then some (Char.ofNat 8)
  else if c = 'f' then some (Char.ofNat 12)
  else if c = 'n' then some '\n'
  else if c = 'r' then some '\r'
  else if c = 't' then some '\t'
  else if c = 'v' then some (Char.ofNat 11)
  else if c = '\\' then some '\\'
  else if c = '"' then some '"'
  else none

/-- The value of a digit. -/
def digit (base : Nat) (c : Char) : Option Nat :=
  let n := c.toNat
  let d := if 48 ≤ n ∧ n ≤ 57 then n - 48
    else if 97 ≤ n ∧ n ≤ 102 then n - 87
    else if 65 ≤ n ∧ n ≤ 70 then n - 55
    else 16
  if d < base then some d else none

/-- An interpreted string after its opening quote. Escapes that stand for single bytes above 127 are
not followed: the result is `none`, as for errors. -/
def readStr : At → Text → Option (Text × Text)
  | _, [] => none
  | .plain, c :: cs =>
    if c = '"' then some ([], cs)
    else if c = '\n' then none
    else if illegal c then none
    else if c = '\\' then readStr .esc cs
    else push c (readStr .plain cs)
  | .esc, c :: cs =>
    match letter c with
    | some d => push d (readStr .plain cs)
    | none =>
      if c = 'x' then readStr (.num 16 2 0 128) cs
      else if c = 'u' then readStr (.num 16 4 0 0x110000) cs
      else if c = 'U' then readStr (.num 16 8 0 0x110000) cs
      else match digit 8 c with
        | some d => readStr (.num 8 2 d 128) cs
        | none => none
  | .num base left acc top, c :: cs =>
    match digit base c with
    | none => none
    | some d =>
      if left = 1 then
        if acc * base + d < top ∧ (acc * base + d).isValidChar then
          push (Char.ofNat (acc * base + d)) (readStr .plain cs)
        else none
      else readStr (.num base (left - 1) (acc * base + d) top) cs

/-- A comment after `/*`: what follows it. -/
def readBlock : Text → Option Text
  | [] => none
  | c :: cs =>
    if c = '*' ∧ cs.head? = some '/' then some cs.tail
    else if illegal c then none
    else readBlock cs

/-- A comment after `//`: it ends before the end of the line. -/
def readLine : Text → Option Text
  | [] => some []
  | c :: cs =>
    if c = '\n' then some (c :: cs)
    else if illegal c then none
    else readLine cs

/-- One string literal. -/
def readLit : Text → Option (Text × Text)
  | [] => none
  | c :: cs =>
    if c = '`' then readRaw cs
    else if c = '"' then readStr .plain cs
    else none

/-- Blanks in front. -/
def skip : Text → Text
  | [] => []
  | c :: cs => if c = ' ' ∨ c = '\t' ∨ c = '\n' then skip cs else c :: cs

/-- The value of a field in a composite literal that is given by string literals joined with `+`;
`n` bounds the number of literals. -/
def readConst : Nat → Text → Option (Text × Text)
  | 0, _ => none
  | n + 1, t =>
    match readLit t with
    | none => none
    | some (v, r) =>
      match skip r with
      | [] => some (v, r)
      | c :: r' =>
        if c = '+' then
          match readConst n (skip r') with
          | none => none
          | some (w, r'') => some (v ++ w, r'')
        else some (v, r)

/-- What the compiler sees of a file: strings, and the other characters one by one. -/
inductive Tok where
  | code (c : Char)
  | str (v : Text)
deriving DecidableEq, Repr

/-- Characters of code outside of strings and comments. (Character literals and divisions are left out:
the templates do not write any.) -/
def plainChar (c : Char) : Bool :=
  !(c = '`' || c = '"' || c = '\'' || c = '/' || illegal c)

/-- What the compiler sees of a text. -/
inductive Scans : Text → List Tok → Prop
  | nil : Scans [] []
  | char {c : Char} {cs : Text} {ts : List Tok} : plainChar c = true → Scans cs ts →
      Scans (c :: cs) (.code c :: ts)
  | raw {cs v r : Text} {ts : List Tok} : readRaw cs = some (v, r) → Scans r ts →
      Scans ('`' :: cs) (.str v :: ts)
  | str {cs v r : Text} {ts : List Tok} : readStr .plain cs = some (v, r) → Scans r ts →
      Scans ('"' :: cs) (.str v :: ts)
  | line {cs r : Text} {ts : List Tok} : readLine cs = some r → Scans r ts →
      Scans ('/' :: '/' :: cs) ts
  | block {cs r : Text} {ts : List Tok} : readBlock cs = some r → Scans r ts →
      Scans ('/' :: '*' :: cs) ts

/-- Letters, digits and `_`. -/
def identChar (c : Char) : Bool := c.isAlphanum || c == '_'

/-- The name of the field in front of a string, from the code before it read backwards. -/
def keyOf (back : Text) : Text :=
  match back.dropWhile (fun c => c == ' ' || c == '\t') with
  | ':' :: r => (r.takeWhile identChar).reverse
  | _ => []

/-- The strings of a file with the names of the fields that they are given to. -/
def fields : Text → List Tok → List (Text × Text)
  | _, [] => []
  | back, .code c :: ts => fields (c :: back) ts
  | back, .str v :: ts => (keyOf back, v) :: fields [] ts

/-- `s` contains `*/`. -/
def HasClose (s : Text) : Prop := ∃ a b, s = a ++ '*' :: '/' :: b

end Verif.Embed
