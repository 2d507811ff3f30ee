import Verif.Defn.Target
import Verif.Offer.Props

/-! # C90: the name that is searched, and the links that the editor gets

`definitionWithLink`, `definition`, `toLocationLinks` and `toLocation` of `lsp/server/definition.go`. -/

namespace Verif.Defn.Target

open SrcLoc FindPos

/-! ## Model -/

/-- The text of the node that is searched, `lsp/server/definition.go` lines 62, 70, 85, 103 and 114: the raw text for types of fields,
otherwise the text without its quotation marks; `none` is the error of `strconv.Unquote`.  Escape sequences are left out, as in
`Offer.unquote`. -/
def nameOf (s : Search) (raw : Text) : Option Text :=
  match s with
  | .fieldType _ => some raw
  | _ => Offer.unquote raw

/-- The last argument of `toLocationLinks`, `lsp/server/definition.go` lines 68, 79, 100, 112 and 123. -/
def quoted : Search → Bool
  | .fieldType _ => false
  | _ => true

/-- Conversion to `uint32`. -/
def u32 (i : Int) : Nat := (i % 2 ^ 32).toNat

/-- `protocol.Range`: lines and characters from zero. -/
structure Range where
  startLine : Nat
  startChar : Nat
  endLine : Nat
  endChar : Nat
deriving DecidableEq

/-- `protocol.Location`; files are left abstract. -/
structure Location (F : Type) where
  file : F
  range : Range

/-- `protocol.LocationLink`. -/
structure Link (F : Type) where
  origin : Range
  file : F
  range : Range
  selection : Range

/-- `toLocation`, `lsp/server/definition.go` lines 251-271. -/
def toLocation {F : Type} (file : F) (p : Span) : List (Location F) :=
  [⟨file, ⟨u32 (u32 p.start.line - 1), u32 (u32 p.start.col - 1), u32 (u32 p.end.line - 1), u32 (u32 p.end.col - 1)⟩⟩]

/-- `toLocationLinks`, `lsp/server/definition.go` lines 221-249. -/
def toLocationLinks {F : Type} (p : Span) (locs : List (Location F)) (isQuoted : Bool) : List (Link F) :=
  locs.map fun l =>
    let startCol := u32 (p.start.col - 1)
    let endCol := u32 (p.end.col - 1)
    let startCol := if isQuoted then u32 (startCol + 1) else startCol
    let endCol := if isQuoted then u32 (endCol - 1) else endCol
    ⟨⟨u32 (u32 p.start.line - 1), startCol, u32 (u32 p.end.line - 1), endCol⟩, l.file, l.range, l.range⟩

/-- `definition`, `lsp/server/definition.go` lines 22-35, from the links. -/
def definition {F : Type} (links : List (Link F)) : List (Location F) := links.map fun l => ⟨l.file, l.range⟩

/-! ## Specification -/

/-- The part of a text that a range selects, for a range in one line: the characters from its start to before its end. -/
def Selects (lines : List Text) (r : Range) (t : Text) : Prop :=
  r.startLine = r.endLine ∧ ∃ l, lines[r.startLine]? = some l ∧ (l.drop r.startChar).take (r.endChar - r.startChar) = t ∧
    r.startChar ≤ r.endChar ∧ r.endChar ≤ l.length

/-- A text is written at a span of lines and columns that are counted from one. -/
def Written (lines : List Text) (p : Span) (t : Text) : Prop :=
  p.start.line = p.end.line ∧ 1 ≤ p.start.line ∧ 1 ≤ p.start.col ∧ p.end.col = p.start.col + t.length ∧
    ∃ pre post, lines[p.start.line - 1]? = some (pre ++ t ++ post) ∧ pre.length = p.start.col - 1

/-- Lines and columns fit into 32 bits. -/
def Fits (p : Span) : Prop := p.start.line < 2 ^ 32 ∧ p.end.line < 2 ^ 32 ∧ p.start.col < 2 ^ 32 ∧ p.end.col < 2 ^ 32

/-! ## Properties -/

theorem u32_of {i : Int} (n : Nat) (h : i = n) (hn : n < 2 ^ 32) : u32 i = n := by
  subst h
  unfold u32
  omega

theorem u32_pred {n : Nat} (h1 : 1 ≤ n) (h : n < 2 ^ 32) : u32 (u32 n - 1) = n - 1 := by
  rw [u32_of n rfl h, u32_of (n - 1) (by omega) (by omega)]

/-- C90: the name that is searched is what is written between the quotation marks, or the type of the field as it is written. -/
theorem C90_name_partial (s : Search) (name : Text) (h : '"' ∉ name) :
    nameOf s (if quoted s then '"' :: (name ++ ['"']) else name) = some name := by
  cases s <;> simp [nameOf, quoted, Offer.unquote_double h]

/-- C90, false of the code: for a name in single quotation marks, which proto allows, there is an error and nothing is found, if it is longer
than one character. -/
theorem C90_single_quotes_false (s : Search) (hs : quoted s = true) (a b : Char) (name : Text) :
    nameOf s ('\'' :: (a :: b :: name ++ ['\''])) = none := by
  have : Offer.unquote ('\'' :: (a :: b :: name ++ ['\''])) = none := by
    unfold Offer.unquote
    split
    · rename_i h
      cases name <;> simp at h
    · rename_i h
      simp at h
    · rfl
  cases s <;> first | exact this | cases hs

/-- C90: every link selects, in the text where the editor asked, exactly the name: without its quotation marks, or the type as written. -/
theorem C90_selects {F : Type} (lines : List Text) (p : Span) (s : Search) (name : Text) (q : Char)
    (hw : Written lines p (if quoted s then q :: (name ++ [q]) else name)) (hf : Fits p) (locs : List (Location F)) (k : Link F)
    (hk : k ∈ toLocationLinks p locs (quoted s)) : Selects lines k.origin name := by
  obtain ⟨l, _, rfl⟩ := List.mem_map.1 hk
  obtain ⟨hl, h1, hc, hlen, pre, post, hline, hpre⟩ := hw
  obtain ⟨f1, f2, f3, f4⟩ := hf
  have hline' : lines[u32 (u32 p.start.line - 1)]? = some (pre ++ (if quoted s then q :: (name ++ [q]) else name) ++ post) := by
    rw [u32_pred h1 f1]; exact hline
  have hs : u32 (p.start.col - 1) = p.start.col - 1 := u32_of _ (by omega) (by omega)
  have he : u32 (p.end.col - 1) = p.end.col - 1 := u32_of _ (by omega) (by omega)
  refine ⟨by simp only [hl], _, hline', ?_⟩
  cases hq : quoted s with
  | false =>
    simp only [hq, Bool.false_eq_true, if_false] at hlen ⊢
    rw [hs, he, ← hpre]
    refine ⟨?_, by omega, by simp; omega⟩
    rw [show p.end.col - 1 - pre.length = name.length by omega, List.append_assoc, List.drop_left, List.take_left]
  | true =>
    simp only [hq, if_true, List.length_cons, List.length_append, List.length_nil] at hlen ⊢
    have hs2 : u32 ((p.start.col - 1 : Nat) + 1) = p.start.col - 1 + 1 := u32_of _ (by omega) (by omega)
    have he2 : u32 ((p.end.col - 1 : Nat) - 1) = p.end.col - 1 - 1 := u32_of _ (by omega) (by omega)
    rw [hs, he, hs2, he2, ← hpre]
    refine ⟨?_, by omega, by simp; omega⟩
    rw [show p.end.col - 1 - 1 - (pre.length + 1) = name.length by omega]
    have : pre ++ (q :: (name ++ [q])) ++ post = (pre ++ [q]) ++ (name ++ ([q] ++ post)) := by simp
    rw [this, show pre.length + 1 = (pre ++ [q]).length by simp, List.drop_left, List.take_left]

/-- C90: there is one link for each place that was found, in their order, and it leads there; an editor without links gets the same places. -/
theorem C90_links {F : Type} (p : Span) (locs : List (Location F)) (b : Bool) :
    (toLocationLinks p locs b).map (fun k => (k.file, k.range)) = locs.map (fun l => (l.file, l.range)) ∧
    (∀ k ∈ toLocationLinks p locs b, k.selection = k.range) ∧ definition (toLocationLinks p locs b) = locs := by
  refine ⟨by simp [toLocationLinks], fun k hk => ?_, ?_⟩
  · obtain ⟨l, _, rfl⟩ := List.mem_map.1 hk
    rfl
  · simp only [definition, toLocationLinks, List.map_map]
    exact List.map_id _

/-- C90: the place of a declaration selects what is written there. -/
theorem C90_place {F : Type} (lines : List Text) (file : F) (p : Span) (t : Text) (hw : Written lines p t) (hf : Fits p) :
    ∃ r, toLocation file p = [⟨file, r⟩] ∧ Selects lines r t := by
  refine ⟨_, rfl, ?_⟩
  obtain ⟨hl, h1, hc, hlen, pre, post, hline, hpre⟩ := hw
  obtain ⟨f1, f2, f3, f4⟩ := hf
  refine ⟨by simp only [hl], _, by rw [u32_pred h1 f1]; exact hline, ?_⟩
  simp only [u32_pred hc f3, u32_pred (show 1 ≤ p.end.col by omega) f4, ← hpre]
  refine ⟨?_, by omega, by simp; omega⟩
  rw [show p.end.col - 1 - pre.length = t.length by omega, List.append_assoc, List.drop_left, List.take_left]

/-! ## Example: `  name: "Post"` in the second line -/

example : ∀ k ∈ toLocationLinks ⟨⟨2, 9⟩, ⟨2, 15⟩⟩ [(⟨(), ⟨3, 8, 3, 12⟩⟩ : Location Unit)] (quoted .messageName),
    Selects ["message {".toList, "  name: \"Post\"".toList] k.origin "Post".toList :=
  C90_selects _ _ .messageName _ '"' ⟨rfl, by decide, by decide, rfl, "  name: ".toList, [], rfl, rfl⟩
    ⟨by decide, by decide, by decide, by decide⟩ _

end Verif.Defn.Target
