import Verif.SemTok.Model

/-! # Specification: how an editor reads semantic tokens, by the language server protocol -/

namespace Verif.SemTok

/-- A token as the editor reads it: line and column start with 0. -/
structure Read where
  line : Nat
  col : Nat
  len : Nat
  type : Option String
  mods : List String
deriving DecidableEq, Repr

/-- The modifiers of a number: bit `i` is modifier `i` of the legend. -/
def readMods (mods : List String) (n : Nat) : List String := (mods.zipIdx.filter fun m => n.testBit m.2).map Prod.fst

/-- The editor adds up the numbers: a token is in the line of the token before, its column relative to that one, or in a later line. -/
def read (types mods : List String) : (Nat × Nat) → List Row → List Read
  | _, [] => []
  | (line, col), r :: rs =>
    let p := if r.dLine = 0 then (line, col + r.dCol) else (line + r.dLine, r.dCol)
    ⟨p.1, p.2, r.len, types[r.type]?, readMods mods r.mods⟩ :: read types mods p rs

/-- A position is not after another one. -/
def le (a b : Nat × Nat) : Prop := a.1 < b.1 ∨ a.1 = b.1 ∧ a.2 ≤ b.2

/-- Every token starts at or after the start of the one before. -/
def InOrder : List Tok → Prop
  | [] => True
  | [_] => True
  | a :: b :: ts => le (a.line, a.col) (b.line, b.col) ∧ InOrder (b :: ts)

/-- No token starts before the end of the one before in its line. -/
def NoOverlap : List Tok → Prop
  | [] => True
  | [_] => True
  | a :: b :: ts => (a.line = b.line → a.col + a.len ≤ b.col) ∧ NoOverlap (b :: ts)

/-- A position as the compiler counts. -/
def Tok.Sane (t : Tok) : Prop := 1 ≤ t.line ∧ t.line < W ∧ 1 ≤ t.col ∧ t.col < W

/-- Where the last token of a comment is. -/
def Comment.last (c : Comment) : Nat × Nat := (c.line + c.lens.length - 1, c.col)

/-- Comments follow one another, from one position to another. -/
inductive CommentsFrom : Nat × Nat → List Comment → Nat × Nat → Prop
  | nil {p : Nat × Nat} : CommentsFrom p [] p
  | cons {p q : Nat × Nat} {c : Comment} {cs : List Comment} : le p (c.line, c.col) → c.lens ≠ [] → CommentsFrom c.last cs q →
    CommentsFrom p (c :: cs) q

/-- The terminals of a file follow one another: first the comments before a terminal, then what is in it. -/
inductive Follows : Nat × Nat → List Terminal → Prop
  | nil {p : Nat × Nat} : Follows p []
  | cons {p q r : Nat × Nat} {t : Terminal} {ts : List Terminal} : CommentsFrom p t.comments q → InOrder t.toks → le q r →
    (∀ x ∈ t.toks, le q (x.line, x.col) ∧ le (x.line, x.col) r) → Follows r ts → Follows p (t :: ts)

open SrcLoc (Val Id)

mutual
/-- What a name in an option is: the name of a message if it is directly in a field `message`, else that of a variable. -/
def expected : Bool → Val → List (Id × Bool)
  | c, .msg _ fs => expectedFields c fs
  | c, .arr _ vs => expectedList c vs
  | _, _ => []
def expectedFields : Bool → List (String × Val) → List (Id × Bool)
  | _, [] => []
  | c, (k, v) :: fs =>
    (if k = "message" then expected true v
     else if k = "name" then [(v.id, c)]
     else if k ∈ ["by", "inline", "src", "alias", "method", "enum", "field"] then []
     else expected false v) ++ expectedFields c fs
def expectedList : Bool → List Val → List (Id × Bool)
  | _, [] => []
  | c, v :: vs => expected c v ++ expectedList c vs
end

/-- In a message expression the name is written before the arguments. -/
inductive NameFirst : Bool → Val → Prop
  | leaf {c : Bool} {v : Val} : (∀ i fs, v ≠ .msg i fs) → (∀ i vs, v ≠ .arr i vs) → NameFirst c v
  | arr {i : Id} {vs : List Val} : (∀ v ∈ vs, NameFirst false v) → NameFirst false (.arr i vs)
  | msg {i : Id} {fs : List (String × Val)} : (∀ e ∈ fs, NameFirst (e.1 = "message") e.2) → NameFirst false (.msg i fs)
  | message {i : Id} {w : Val} {fs : List (String × Val)} : (∀ e ∈ fs, NameFirst (e.1 = "message") e.2) → (∀ e ∈ fs, e.1 ≠ "name") →
    NameFirst true (.msg i (("name", w) :: fs))

end Verif.SemTok
