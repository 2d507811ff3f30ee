import Verif.AutoName.Model

/-! # Messages in which the generated names are known to differ -/

namespace Verif.AutoName

mutual

/-- How many variables of a list of definitions have no name written by the user, at any depth. -/
def defsUnnamed (msgs : Bool) : List Def → Nat
  | [] => 0
  | .mk n errors :: ds => (if n = [] then 1 else 0) + entriesUnnamed msgs errors + defsUnnamed msgs ds

def entriesUnnamed (msgs : Bool) : List Entry → Nat
  | [] => 0
  | .mk defs details :: es => defsUnnamed msgs defs + detailsUnnamed msgs details + entriesUnnamed msgs es

def detailsUnnamed (msgs : Bool) : List Detail → Nat
  | [] => 0
  | .mk defs messages :: ds =>
    defsUnnamed msgs defs + (if msgs then messages else 0) + detailsUnnamed msgs ds

end

def Def.errors : Def → List Entry
  | .mk _ es => es

def Entry.defs : Entry → List Def
  | .mk ds _ => ds

def Entry.details : Entry → List Detail
  | .mk _ ds => ds

def Detail.defs : Detail → List Def
  | .mk ds _ => ds

/-- The error entries of these definitions have no unnamed variables. -/
def Shallow (msgs : Bool) (ds : List Def) : Prop := ∀ d ∈ ds, entriesUnnamed msgs d.errors = 0

/-- All unnamed variables in the error entries of a definition are in one entry, and not in error entries
inside of it. -/
def OneEntry (msgs : Bool) (es : List Entry) : Prop :=
  (es.filter fun e => entriesUnnamed msgs [e] ≠ 0).length ≤ 1 ∧
  ∀ e ∈ es, Shallow msgs e.defs ∧ ∀ t ∈ e.details, Shallow msgs t.defs

/-- Each definition of the message has unnamed variables in at most one of its error entries, and at most
one oneof field has unnamed variables, none of them in error entries. -/
def Simple (msgs : Bool) (m : Msg) : Prop :=
  (∀ d ∈ m.defs, OneEntry msgs d.errors) ∧
  (m.oneofs.filter fun ds => defsUnnamed msgs ds ≠ 0).length ≤ 1 ∧ ∀ ds ∈ m.oneofs, Shallow msgs ds

/-- A letter or a digit. -/
def Letter (c : Char) : Prop := ('a' ≤ c ∧ c ≤ 'z') ∨ ('A' ≤ c ∧ c ≤ 'Z')
def Digit (c : Char) : Prop := '0' ≤ c ∧ c ≤ '9'

/-- A name that may be written for a variable: a letter, then letters, digits and underscores, but not `error`. -/
def Allowed (n : Name) : Prop :=
  (∃ c cs, n = c :: cs ∧ Letter c ∧ ∀ d ∈ cs, Letter d ∨ Digit d ∨ d = '_') ∧ n ≠ "error".toList

/-- The words that the grammar of CEL does not allow as identifiers (the language definition of CEL, section "Syntax"). -/
def celWords : List Name :=
  ["true", "false", "null", "in", "as", "break", "const", "continue", "else", "for", "function", "if", "import", "let",
    "loop", "package", "namespace", "return", "var", "void", "while"].map (·.toList)

/-- An identifier of CEL. -/
def Identifier (n : Name) : Prop :=
  (∃ c cs, n = c :: cs ∧ (Letter c ∨ c = '_') ∧ ∀ d ∈ cs, Letter d ∨ Digit d ∨ d = '_') ∧ n ∉ celWords

end Verif.AutoName
