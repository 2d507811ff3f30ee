import Verif.SrcLoc.Model

/-!
# Semantic tokens

Models `lsp/server/semantic_tokens.go` and the legend of `lsp/server/general.go`: how the tokens of a file are computed for the strings
of options and sent to the editor. Numbers are those of `uint32`; texts are lists of bytes. The parser and the positions of tokens are
parameters, as are the tokens of identifiers, keywords and numbers.
-/

namespace Verif.SemTok

/-- The number of values of `uint32`. -/
def W : Nat := 4294967296

/-- Subtraction of `uint32`. -/
def sub32 (a b : Nat) : Nat := (a + W - b) % W

/-- Addition of `uint32`. -/
def add32 (a b : Nat) : Nat := (a + b) % W

/-- `SemanticToken`, `lsp/server/semantic_tokens.go` lines 29-35, with the length of its text. -/
structure Tok where
  line : Nat
  col : Nat
  len : Nat
  type : String
  mods : List String
deriving DecidableEq, Repr

/-! ## The legend -/

/-- The last index of a name. -/
def index (names : List String) (n : String) : Option Nat :=
  names.zipIdx.foldl (fun r e => if e.1 = n then some e.2 else r) none

/-- `tokenTypeMap`, `lsp/server/general.go` lines 15-18; what is not in the map is 0. -/
def typeNum (types : List String) (t : String) : Nat := (index types t).getD 0

/-- `tokenModifierMap`, `lsp/server/general.go` lines 19-22: `1 << uint32(idx)` as `uint32`. -/
def modNum (mods : List String) (m : String) : Nat :=
  match index mods m with
  | some i => (2 ^ i) % W
  | none => 0

/-- `lsp/server/semantic_tokens.go` lines 252-255. -/
def modBits (mods : List String) (ms : List String) : Nat := ms.foldl (fun b m => b ||| modNum mods m) 0

/-! ## What is sent -/

/-- Five numbers of the data. -/
structure Row where
  dLine : Nat
  dCol : Nat
  len : Nat
  type : Nat
  mods : Nat
deriving DecidableEq, Repr

/-- `calcLineAndCol`, `lsp/server/semantic_tokens.go` lines 266-271. -/
def calcLineAndCol (pos : Nat × Nat) (line col : Nat) : Nat × Nat :=
  if pos.1 = line then (0, sub32 pos.2 col) else (sub32 pos.1 line, sub32 pos.2 1)

/-- The loops of `SemanticTokens`, `lsp/server/semantic_tokens.go` lines 187-263, over all comments and tokens of the file. -/
def rows (types mods : List String) : (Nat × Nat) → List Tok → List Row
  | _, [] => []
  | (line, col), t :: ts =>
    let d := calcLineAndCol (t.line, t.col) line col
    ⟨d.1, d.2, t.len, typeNum types t.type, modBits mods t.mods⟩ :: rows types mods (t.line, t.col) ts

/-- A comment: where it starts and the lengths of its lines. -/
structure Comment where
  line : Nat
  col : Nat
  lens : List Nat

/-- The lines of a comment, `lsp/server/semantic_tokens.go` lines 200-214: all at the column at which the comment starts. -/
def commentToks (c : Comment) : List Tok := c.lens.zipIdx.map fun x => ⟨c.line + x.2, c.col, x.1, "comment", []⟩

/-- A terminal node: the comments before it and its tokens. -/
structure Terminal where
  comments : List Comment
  toks : List Tok

/-- `SemanticTokens`, `lsp/server/semantic_tokens.go` lines 187-263. -/
def data (types mods : List String) (ts : List Terminal) : List Row :=
  rows types mods (1, 1) (ts.flatMap fun t => t.comments.flatMap commentToks ++ t.toks)

/-! ## Strings of options -/

/-- The byte of a quotation mark. -/
def quote : Nat := 34

/-- `strings.Trim(text, "\"")`. -/
def trim (text : List Nat) : List Nat := ((text.dropWhile (· = quote)).reverse.dropWhile (· = quote)).reverse

/-- `setNameToken`, `setMethodToken`, `setEnumToken`, `setFieldToken` and `setAliasToken`, `lsp/server/semantic_tokens.go` lines
354-389, 391-420, 422-451, 453-479 and 494-520: a quotation mark, the name and a quotation mark. -/
def quoted (line col : Nat) (text : List Nat) (type : String) (mods : List String) : List Tok :=
  [⟨line, col, 1, "string", []⟩, ⟨line, col + 1, (trim text).length, type, mods⟩, ⟨line, col + text.length - 1, 1, "string", []⟩]

/-- A token of an expression: its column in its line, starting with 1. -/
structure CelTok where
  col : Nat
  len : Nat
  type : String
  mods : List String
deriving DecidableEq, Repr

/-- The column of a call, `lsp/server/semantic_tokens.go` lines 637 and 648; `paren` is the column of the parenthesis, starting with
0, and `len` the length of the name of the function. -/
def callCol (paren len : Nat) : Nat := sub32 (paren + 1) len

/-- A string literal: where it starts and its text. -/
structure StrLit where
  line : Nat
  col : Nat
  text : List Nat

/-- The column of the last character of a literal, `lsp/server/semantic_tokens.go` line 577. -/
def StrLit.end (s : StrLit) : Nat := s.col + s.text.length - 1

/-- A token of an expression in the literal of its line, `lsp/server/semantic_tokens.go` lines 587-588. -/
def CelTok.at (t : CelTok) (s : StrLit) : Tok := ⟨s.line, add32 t.col s.col, t.len, t.type, t.mods⟩

/-- The tokens of an expression in one of its literals, `lsp/server/semantic_tokens.go` lines 559-604; `remain` are tokens that were
behind the end of the literal before. -/
def celLit (s : StrLit) (remain toks : List CelTok) : List Tok :=
  ⟨s.line, s.col, 1, "string", []⟩ ::
  (remain.map (fun t => (⟨s.line, s.col + 1, t.len, t.type, t.mods⟩ : Tok)) ++
   ((if toks = [] then [⟨s.line, s.col + 1, (trim s.text).length, "string", []⟩]
     else (toks.map (·.at s)).filter (·.col ≤ s.end)) ++
   [⟨s.line, s.end, 1, "string", []⟩]))

/-- The loop of `setCELSemanticTokens`, `lsp/server/semantic_tokens.go` lines 553-605; `cel` gives the tokens of a line of the
expression, sorted by column (lines 625-629). -/
def celLits (cel : Nat → List CelTok) : Nat → List CelTok → List StrLit → List (List Tok)
  | _, _, [] => []
  | idx, remain, s :: ss =>
    celLit s remain (cel (idx + 1)) :: celLits cel (idx + 1) ((cel (idx + 1)).filter fun t => !((t.at s).col ≤ s.end)) ss

/-! ## Names -/

open SrcLoc (Val Id)

mutual
/-- `setFederationOptionTokens` for names, `lsp/server/semantic_tokens.go` lines 308-352, 357-360 and 388: which of them are types. The
flag of the context (lines 284-306) is shared by a literal and what is in it, but for what is in a field `message`, and is reset by
each name; the result is the flag after it and the names. -/
def names : Bool → Val → Bool × List (Id × Bool)
  | c, .msg _ fs => namesFields c fs
  | c, .arr _ vs => namesList c vs
  | c, _ => (c, [])
def namesFields : Bool → List (String × Val) → Bool × List (Id × Bool)
  | c, [] => (c, [])
  | c, (k, v) :: fs =>
    if k = "message" then
      let r := names true v
      let s := namesFields c fs
      (s.1, r.2 ++ s.2)
    else if k = "name" then
      let s := namesFields false fs
      (s.1, (v.id, c) :: s.2)
    else if k ∈ ["by", "inline", "src", "alias", "method", "enum", "field"] then namesFields c fs
    else
      let r := names c v
      let s := namesFields r.1 fs
      (s.1, r.2 ++ s.2)
def namesList : Bool → List Val → Bool × List (Id × Bool)
  | c, [] => (c, [])
  | c, v :: vs =>
    let r := names c v
    let s := namesList r.1 vs
    (s.1, r.2 ++ s.2)
end

end Verif.SemTok
