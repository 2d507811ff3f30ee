import Verif.CelRand.Model

/-!
# C96: random numbers depend on the seed
-/

namespace Verif.CelRand

variable {σ Op : Type}

/-! ## Specification -/

/-- The results of taking numbers one after the other, from a state. -/
def expected (G : Gen σ Op) : σ → List Op → List Out
  | _, [] => []
  | s, op :: ops => (match (G.take op s).1 with | some n => .number n | none => .error) :: expected G (G.take op s).2 ops

/-- Whether the value at position `i` is the source `a` or a generator made of it. -/
def Is (vs : List Out) (i a : Nat) : Prop := vs[i]? = some (.object a)

instance (vs : List Out) (i a : Nat) : Decidable (Is vs i a) := inferInstanceAs (Decidable (_ = _))

/-- The numbers taken from the source `a`, with the functions called. -/
def taken (G : Gen σ Op) (a : Nat) : List (Cmd Op) → Heap σ → List Out → List (Op × Out)
  | [], _, _ => []
  | c :: cs, h, vs =>
    let r := step G h vs c
    let l := taken G a cs r.1 (vs ++ [r.2])
    match c with
    | .take i op => if Is vs i a then (op, r.2) :: l else l
    | _ => l

/-- The source is neither seeded again nor compared. -/
def Quiet (G : Gen σ Op) (a : Nat) : List (Cmd Op) → Heap σ → List Out → Prop
  | [], _, _ => True
  | c :: cs, h, vs =>
    (match c with
    | .seed i _ => ¬ Is vs i a
    | .eqSource i j => ¬ Is vs i a ∧ ¬ Is vs j a
    | .eqRand i j => ¬ Is vs i a ∧ ¬ Is vs j a
    | _ => True) ∧
    let r := step G h vs c
    Quiet G a cs r.1 (vs ++ [r.2])

/-! ## Lemmas -/

theorem set_other {h : Heap σ} {i a : Nat} {s : σ} (hn : i ≠ a) : (h.set i s).state a = h.state a := by
  simp only [Heap.set]
  rw [if_neg (fun e => hn e.symm)]

theorem set_same {h : Heap σ} {a : Nat} {s : σ} : (h.set a s).state a = s := by simp [Heap.set]

theorem equal_next (G : Gen σ Op) (op : Op) (h : Heap σ) (i j : Nat) : (equal G op h i j).1.next = h.next := rfl

theorem equal_state (G : Gen σ Op) (op : Op) (h : Heap σ) {i j a : Nat} (hi : i ≠ a) (hj : j ≠ a) :
    (equal G op h i j).1.state a = h.state a := by
  simp only [equal]
  rw [set_other hj, set_other hi]

theorem step_next (G : Gen σ Op) (h : Heap σ) (vs : List Out) (c : Cmd Op) : h.next ≤ (step G h vs c).1.next := by
  cases c <;> simp only [step]
  · simp
  all_goals (repeat' split) <;> simp [Heap.set, equal]

theorem step_quiet (G : Gen σ Op) (h : Heap σ) (vs : List Out) (c : Cmd Op) (a : Nat) (ha : a < h.next)
    (hc : match c with
      | .seed i _ => ¬ Is vs i a
      | .eqSource i j => ¬ Is vs i a ∧ ¬ Is vs j a
      | .eqRand i j => ¬ Is vs i a ∧ ¬ Is vs j a
      | .take i _ => ¬ Is vs i a
      | _ => True) : (step G h vs c).1.state a = h.state a := by
  have ne : ∀ {i b : Nat}, vs[i]? = some (.object b) → ¬ Is vs i a → b ≠ a := by
    rintro i b h1 h2 rfl
    exact h2 h1
  cases c with
  | newSource n =>
    simp only [step]
    rw [if_neg (by omega)]
  | new i => simp only [step]; split <;> rfl
  | take i op =>
    simp only [step]
    split
    · next b hb => exact set_other (ne hb hc)
    · rfl
  | seed i n =>
    simp only [step]
    split
    · next b hb => exact set_other (ne hb hc)
    · rfl
  | eqSource i j =>
    simp only [step]
    split
    · next b d hb hd => exact equal_state G _ h (ne hb hc.1) (ne hd hc.2)
    · rfl
  | eqRand i j =>
    simp only [step]
    split
    · next b d hb hd => exact equal_state G _ h (ne hb hc.1) (ne hd hc.2)
    · rfl

/-! ## Properties -/

/-- The numbers taken from a source, directly or by the generators made of it, are those of its state, in the order they are
taken, whatever else is evaluated in between.  Missing for the full property: comparing it, see `C96_compare_false`. -/
theorem C96_taken_partial (G : Gen σ Op) (a : Nat) : ∀ (cs : List (Cmd Op)) (h : Heap σ) (vs : List Out), a < h.next →
    Quiet G a cs h vs → (taken G a cs h vs).map (·.2) = expected G (h.state a) ((taken G a cs h vs).map (·.1))
  | [], _, _, _, _ => rfl
  | c :: cs, h, vs, ha, hq => by
    have ih := C96_taken_partial G a cs (step G h vs c).1 (vs ++ [(step G h vs c).2])
      (Nat.lt_of_lt_of_le ha (step_next G h vs c)) hq.2
    have hs := step_quiet G h vs c a ha
    cases c with
    | take i op =>
      simp only [taken]
      by_cases hi : Is vs i a
      · rw [if_pos hi]
        have hi' : vs[i]? = some (.object a) := hi
        have h1 : (step G h vs (.take i op)).1.state a = (G.take op (h.state a)).2 := by
          simp only [step, hi', set_same]
        rw [h1] at ih
        simp only [List.map_cons, expected, ih]
        congr 1
        simp only [step, hi']
        rfl
      · rw [if_neg hi]
        rw [hs hi] at ih
        exact ih
    | newSource n => simp only [taken]; rw [hs trivial] at ih; exact ih
    | new i => simp only [taken]; rw [hs trivial] at ih; exact ih
    | seed i n => simp only [taken]; rw [hs hq.1] at ih; exact ih
    | eqSource i j => simp only [taken]; rw [hs hq.1] at ih; exact ih
    | eqRand i j => simp only [taken]; rw [hs hq.1] at ih; exact ih

/-- So the numbers of a new source depend only on the seed and on the functions called. -/
theorem C96_seed_partial (G : Gen σ Op) (n : Int) (cs : List (Cmd Op)) (h : Heap σ) (vs : List Out)
    (hq : Quiet G h.next cs (step G h vs (.newSource n)).1 (vs ++ [.object h.next])) :
    (taken G h.next cs (step G h vs (.newSource n)).1 (vs ++ [.object h.next])).map (·.2) =
      expected G (G.seed n) ((taken G h.next cs (step G h vs (.newSource n)).1 (vs ++ [.object h.next])).map (·.1)) := by
  have := C96_taken_partial G h.next cs (step G h vs (.newSource n)).1 (vs ++ [.object h.next])
    (by simp [step]) hq
  simpa [step] using this

/-- `seed` starts the numbers of the seed again. -/
theorem C96_reseed (G : Gen σ Op) (h : Heap σ) (vs : List Out) (i a : Nat) (n : Int) (hi : Is vs i a) :
    (step G h vs (.seed i n)).1.state a = G.seed n := by
  have hi' : vs[i]? = some (.object a) := hi
  simp only [step, hi', set_same]

/-- Two sources are equal if their next numbers are, and then both have moved on. -/
theorem C96_equal (G : Gen σ Op) (h : Heap σ) {a b : Nat} (hab : a ≠ b) (op : Op) :
    (equal G op h a b).2 = .bool ((G.take op (h.state a)).1 = (G.take op (h.state b)).1) ∧
    (equal G op h a b).1.state a = (G.take op (h.state a)).2 ∧
    (equal G op h a b).1.state b = (G.take op (h.state b)).2 := by
  have hb : (h.set a (G.take op (h.state a)).2).state b = h.state b := set_other hab
  simp only [equal, hb, set_same, true_and, and_true]
  rw [set_other (Ne.symm hab), set_same]

/-- Two new sources of the same seed are equal. -/
theorem C96_equal_seed (G : Gen σ Op) (h : Heap σ) {a b : Nat} (hab : a ≠ b) (op : Op)
    (hs : h.state a = h.state b) : (equal G op h a b).2 = .bool true := by
  rw [(C96_equal G h hab op).1, hs]
  simp

/-- The argument of `int31n` is the one given, for numbers of 32 bits. -/
theorem C96_int31n (n : Int) : int31nArg n = n ↔ -2147483648 ≤ n ∧ n < 2147483648 := by
  unfold int31nArg
  split <;> omega

/-! ## Where the full property fails -/

/-- A generator whose numbers are 0, 1, 2, ... -/
private def counter : Gen Nat Unit where
  seed n := n.toNat
  take _ s := (some s, s + 1)
  int63 := ()
  int := ()

/-- The hypotheses are met: a source and a generator made of it, with numbers taken from both. -/
example : Quiet counter 0 [.new 0, .take 0 (), .newSource 9, .take 1 (), .take 4 ()] ⟨1, fun _ => 5⟩ [.object 0] ∧
    (taken counter 0 [.new 0, .take 0 (), .newSource 9, .take 1 (), .take 4 ()] ⟨1, fun _ => 5⟩ [.object 0]).map (·.2) =
      [.number 5, .number 6] := by
  refine ⟨?_, by decide⟩
  simp [Quiet]

/-- A source is equal to itself only if its next two numbers are equal. -/
theorem C96_self_false : (∀ (G : Gen σ Op) (h : Heap σ) (a : Nat) (op : Op), (equal G op h a a).2 =
      .bool ((G.take op (h.state a)).1 = (G.take op (G.take op (h.state a)).2).1)) ∧
    (run counter [.newSource 3, .eqSource 0 0] ⟨0, fun _ => 0⟩ []).2 = [.object 0, .bool false] := by
  constructor
  · intro G h a op
    simp only [equal, set_same]
  · decide

/-- Comparing two sources changes the numbers taken from them later. -/
theorem C96_compare_false :
    (run counter [.newSource 3, .newSource 4, .take 0 ()] ⟨0, fun _ => 0⟩ []).2.getLast? = some (.number 3) ∧
    (run counter [.newSource 3, .newSource 4, .eqSource 0 1, .take 0 ()] ⟨0, fun _ => 0⟩ []).2.getLast? = some (.number 4) := by
  decide

/-- `int31n(2^32 + 5)` is `int31n(5)`. -/
theorem C96_int31n_false : int31nArg (4294967296 + 5) = 5 := by decide

end Verif.CelRand
