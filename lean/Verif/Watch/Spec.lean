import Verif.Watch.Model

/-! # What the generated files should be -/

namespace Verif.Watch

/-- The text a list of files leaves at a name: the last one counts. -/
def lastText (n : Name) (files : List (Name × Text)) : Option Text :=
  files.foldl (fun t f => if f.1 = n then some f.2 else t) none

/-- The generated files are exactly those that the current proto files generate. -/
def Current (gen : Gen) (st : St) : Prop :=
  ∀ n t, st.out n = some t ↔ ∃ p, st.fs p ≠ none ∧ lastText n (filesOf (gen st.fs p).1) = some t

/-- Generating from a proto file depends on no other proto file. -/
def Independent (gen : Gen) : Prop := ∀ fs fs' p, fs p = fs' p → gen fs p = gen fs' p

/-- Generating succeeds for every existing file. -/
def Succeeds (gen : Gen) : Prop := ∀ fs p, fs p ≠ none → (gen fs p).2 = true

/-- `p` generates a file named `n` in some state in which generating succeeds. -/
def Generates (gen : Gen) (p : Path) (n : Name) : Prop :=
  ∃ fs t, fs p ≠ none ∧ (gen fs p).2 = true ∧ (n, t) ∈ filesOf (gen fs p).1

/-- Different proto files generate files with different names. -/
def Separate (gen : Gen) : Prop := ∀ p q n, Generates gen p n → Generates gen q n → p = q

/-- The names of the files a proto file generates do not depend on its content. -/
def FixedNames (gen : Gen) : Prop :=
  ∀ p n, Generates gen p n → ∀ fs, fs p ≠ none → (gen fs p).2 = true → ∃ t, (n, t) ∈ filesOf (gen fs p).1

/-- Proto files that generate a file of the same name agree on its text. -/
def Agree (gen : Gen) (fs : Fs) : Prop := ∀ p q n t u, fs p ≠ none → fs q ≠ none →
  lastText n (filesOf (gen fs p).1) = some t → lastText n (filesOf (gen fs q).1) = some u → t = u

/-- Only removals go unnoticed. -/
def Noticed (as : List Act) : Prop := ∀ a ∈ as, a.event = none → a.content = none

end Verif.Watch
