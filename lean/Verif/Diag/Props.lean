import Verif.Diag.Model

/-! # C87: every problem is shown -/

namespace Verif.Diag

variable {Λ : Type}

/-! ## Specification -/

/-- The errors found in the files, except the one of `RegisterFiles`: resolving ends after errors of the
packages and imports, and the steps after the options are only done for services. -/
def foundErrors (r : Run Λ) : List (Item Λ) :=
  if r.pkgErrs ≠ [] then r.pkgErrs
  else if r.register.isSome then []
  else r.ruleErrs ++ if r.hasService then r.restErrs else []

def foundWarnings (r : Run Λ) : List (Item Λ) :=
  if r.pkgErrs = [] ∧ r.register = none ∧ r.hasService = true then r.warnings else []

/-- Something is wrong with the files. -/
def Wrong (r : Run Λ) : Prop := foundErrors r ≠ [] ∨ (r.pkgErrs = [] ∧ r.register.isSome = true)

/-- The text occurs in another one. -/
def Occurs (a b : Text) : Prop := ∃ x y, b = x ++ a ++ y

/-- The order of positions in a file. -/
def PosLe (a b : Pos) : Prop := a.line < b.line ∨ a.line = b.line ∧ a.col ≤ b.col

/-- What is shown for a problem: its kind, file and message, and its place if the file can be found and has the
option. -/
structure Shows (find : Text → Option (Src Λ)) (warning : Bool) (i : Item Λ) (o : Out) : Prop where
  kind : o.isWarning = warning
  path : o.path = i.file
  msg : o.msg = i.msg
  place : ∀ s a b, find i.file = some s → s.node i.loc = some (a, b) → o.start = a ∧ o.stop = b
  noPlace : (∀ s a b, find i.file = some s → s.node i.loc ≠ some (a, b)) → o.start = ⟨0, 0⟩ ∧ o.sourceLine = []

/-! ## Lemmas -/

theorem insertBy_perm (key : Out → Nat) (x : Out) : ∀ l, (insertBy key x l).Perm (x :: l)
  | [] => .refl _
  | y :: ys => by
    unfold insertBy
    split
    · exact ((insertBy_perm key x ys).cons y).trans (.swap _ _ _)
    · exact .refl _

theorem stableSort_perm (key : Out → Nat) : ∀ l, (stableSort key l).Perm l
  | [] => .refl _
  | x :: l => (insertBy_perm key x _).trans ((stableSort_perm key l).cons x)

theorem insertBy_pairwise (key : Out → Nat) (R : Out → Out → Prop) (x : Out) :
    ∀ l, (∀ y ∈ l, R x y) → l.Pairwise (fun a b => key a < key b ∨ key a = key b ∧ R a b) →
      (insertBy key x l).Pairwise (fun a b => key a < key b ∨ key a = key b ∧ R a b)
  | [], _, _ => by simp [insertBy]
  | y :: ys, hx, h => by
    rw [List.pairwise_cons] at h
    unfold insertBy
    split
    · rename_i hlt
      rw [List.pairwise_cons]
      refine ⟨fun z hz => ?_, insertBy_pairwise key R x ys (fun z hz => hx z (.tail _ hz)) h.2⟩
      rcases List.mem_cons.1 ((insertBy_perm key x ys).mem_iff.1 hz) with rfl | hz
      · exact .inl hlt
      · exact h.1 z hz
    · rename_i hge
      rw [List.pairwise_cons, List.pairwise_cons]
      refine ⟨fun z hz => ?_, h⟩
      have hxy : key x < key y ∨ key x = key y := by omega
      rcases List.mem_cons.1 hz with rfl | hz
      · exact hxy.imp_right fun e => ⟨e, hx _ (.head _)⟩
      · rcases h.1 z hz with h1 | h1
        · exact .inl (by omega)
        · rcases hxy with e | e
          · exact .inl (by omega)
          · exact .inr ⟨by omega, hx z (.tail _ hz)⟩

theorem stableSort_pairwise (key : Out → Nat) (R : Out → Out → Prop) :
    ∀ l, l.Pairwise R → (stableSort key l).Pairwise (fun a b => key a < key b ∨ key a = key b ∧ R a b)
  | [], _ => .nil
  | x :: l, h => by
    rw [List.pairwise_cons] at h
    exact insertBy_pairwise key R x _ (fun y hy => h.1 y ((stableSort_perm key l).mem_iff.1 hy))
      (stableSort_pairwise key R l h.2)

theorem insertBy_filter (key : Out → Nat) (p : Out → Bool) (hp : ∀ a b, p a = true → p b = true → key a = key b)
    (x : Out) : ∀ l, (insertBy key x l).filter p = (x :: l).filter p
  | [] => rfl
  | y :: ys => by
    unfold insertBy
    split
    · rename_i hlt
      rw [List.filter_cons, insertBy_filter key p hp x ys]
      by_cases h1 : p x = true <;> by_cases h2 : p y = true
      · exact absurd (hp _ _ h1 h2) (by omega)
      all_goals simp [h1, h2]
    · rfl

theorem stableSort_filter (key : Out → Nat) (p : Out → Bool)
    (hp : ∀ a b, p a = true → p b = true → key a = key b) : ∀ l, (stableSort key l).filter p = l.filter p
  | [] => rfl
  | x :: l => by
    show (insertBy key x (stableSort key l)).filter p = _
    rw [insertBy_filter key p hp, List.filter_cons, List.filter_cons, stableSort_filter key p hp l]

theorem toOut_shows (find : Text → Option (Src Λ)) (w : Bool) (i : Item Λ) : Shows find w i (toOut find w i) := by
  unfold toOut
  cases hf : find i.file with
  | none => exact ⟨rfl, rfl, rfl, fun s a b h => (by rw [hf] at h; exact absurd h (by simp)), fun _ => ⟨rfl, rfl⟩⟩
  | some s =>
    cases hn : s.node i.loc with
    | none =>
      simp only [hn]
      refine ⟨rfl, rfl, rfl, fun s' a b h h' => ?_, fun _ => ⟨rfl, rfl⟩⟩
      rw [hf] at h; cases h; rw [hn] at h'; exact absurd h' (by simp)
    | some ab =>
      simp only [hn]
      refine ⟨rfl, rfl, rfl, fun s' a b h h' => ?_, fun h => absurd hn (h s _ _ hf)⟩
      rw [hf] at h; cases h; rw [hn] at h'; cases h'; exact ⟨rfl, rfl⟩

/-- The problems in the order in which they were found. -/
def unsorted (find : Text → Option (Src Λ)) (r : Run Λ) : List Out :=
  (foundWarnings r).map (toOut find true) ++ (foundErrors r).map (toOut find false)

theorem individual_build (l : List (Item Λ)) : individual (build l) = l := by
  unfold build individual
  split <;> simp_all

theorem toOuts_resolve (find : Text → Option (Src Λ)) (r : Run Λ) :
    toOuts find (resolve r) =
      stableSort (fun o => o.start.line) (stableSort (fun o => o.start.col) (unsorted find r)) := by
  unfold toOuts
  congr 2
  unfold resolve unsorted foundWarnings foundErrors
  by_cases hp : r.pkgErrs = []
  · cases hr : r.register with
    | some m => simp [build, hp, individual]
    | none =>
      cases hs : r.hasService
      · have := individual_build r.ruleErrs
        simp [build, hp] at this ⊢
        exact congrArg _ (by simpa using this)
      · have := individual_build (r.ruleErrs ++ r.restErrs)
        simp [build, hp] at this ⊢
        simp [this]
  · simp [build, hp, individual]

theorem existsError_iff : ∀ l, existsError l = true ↔ ∃ o ∈ l, o.isWarning = false
  | [] => by simp [existsError]
  | o :: os => by
    unfold existsError
    cases h : o.isWarning
    · simp [h]
    · simp [h, existsError_iff os]

theorem existsError_toOuts (find : Text → Option (Src Λ)) (r : Run Λ) :
    existsError (toOuts find (resolve r)) = true ↔ foundErrors r ≠ [] := by
  rw [toOuts_resolve, existsError_iff]
  have hm : ∀ o, o ∈ stableSort (fun o => o.start.line) (stableSort (fun o => o.start.col) (unsorted find r)) ↔
      o ∈ unsorted find r := fun o => ((stableSort_perm _ _).trans (stableSort_perm _ _)).mem_iff
  simp only [hm]
  unfold unsorted
  constructor
  · rintro ⟨o, ho, hw⟩ h
    rw [h] at ho
    simp only [List.map_nil, List.append_nil, List.mem_map] at ho
    obtain ⟨i, _, rfl⟩ := ho
    rw [(toOut_shows find true i).kind] at hw
    cases hw
  · intro h
    obtain ⟨e, he⟩ := List.exists_mem_of_ne_nil _ h
    exact ⟨toOut find false e, List.mem_append_right _ (List.mem_map_of_mem he), (toOut_shows find false e).kind⟩

/-! ## Problems -/

/-- C87: the validator shows each error and each warning that was found, once, with its kind, file, place and
message, and nothing else, in the order of their places; those at the same place are in the order in which they
were found.  Missing for the full property: errors of the registration of files, see `C87_cycle_false`. -/
theorem C87_shown_partial (find : Text → Option (Src Λ)) (r : Run Λ) :
    ∃ ws es : List Out,
      ws.length = (foundWarnings r).length ∧ es.length = (foundErrors r).length ∧
      (∀ (k : Nat) i o, (foundWarnings r)[k]? = some i → ws[k]? = some o → Shows find true i o) ∧
      (∀ (k : Nat) i o, (foundErrors r)[k]? = some i → es[k]? = some o → Shows find false i o) ∧
      (validate find .ok r).Perm (ws ++ es) ∧
      (validate find .ok r).Pairwise (fun a b => PosLe a.start b.start) ∧
      ∀ p : Pos, (validate find .ok r).filter (fun o => decide (o.start = p)) =
        (ws ++ es).filter fun o => decide (o.start = p) := by
  refine ⟨(foundWarnings r).map (toOut find true), (foundErrors r).map (toOut find false), by simp, by simp,
    ?_, ?_, ?_, ?_, ?_⟩
  · intro k i o h1 h2
    rw [List.getElem?_map, h1] at h2
    cases h2; exact toOut_shows find true i
  · intro k i o h1 h2
    rw [List.getElem?_map, h1] at h2
    cases h2; exact toOut_shows find false i
  · show (toOuts find (resolve r)).Perm _
    rw [toOuts_resolve]
    exact (stableSort_perm _ _).trans (stableSort_perm _ _)
  · show (toOuts find (resolve r)).Pairwise _
    rw [toOuts_resolve]
    have h0 : (unsorted find r).Pairwise fun _ _ => True := List.pairwise_of_forall fun _ _ => trivial
    have h1 := stableSort_pairwise (fun o => o.start.col) _ _ h0
    have h2 := stableSort_pairwise (fun o => o.start.line) _ _ h1
    refine h2.imp fun {a b} h => ?_
    rcases h with h | ⟨h0, h | h⟩
    · exact .inl h
    · exact .inr ⟨h0, Nat.le_of_lt h⟩
    · exact .inr ⟨h0, Nat.le_of_eq h.1⟩
  · intro p
    show (toOuts find (resolve r)).filter _ = _
    rw [toOuts_resolve, stableSort_filter, stableSort_filter]
    · rfl
    · intro a b ha hb; rw [of_decide_eq_true ha, of_decide_eq_true hb]
    · intro a b ha hb; rw [of_decide_eq_true ha, of_decide_eq_true hb]

/-! ## The linter -/

/-- A file of the linter that is not correct. -/
def BadArg : Arg Λ → Prop
  | .unreadable => True
  | .file .ok r => Wrong r
  | .file _ _ => True

/-- C87: errors of the compiler are all shown, in order and with their places; an error without any is shown by its
text. -/
theorem C87_compiler (find : Text → Option (Src Λ)) (msg : Text) (ps : List (Pos × Text)) (r : Run Λ) :
    (ps ≠ [] → (validate find (.failed msg ps) r).map (fun o => (o.start, o.msg)) = ps) ∧
    (ps = [] → (validate find (.failed msg ps) r).map (fun o => o.msg) = [msg]) ∧
    ∀ o ∈ validate find (.failed msg ps) r, o.isWarning = false ∧ o.stop = o.start := by
  refine ⟨fun h => ?_, fun h => ?_, ?_⟩
  · simp [validate, compilerOuts, h, Function.comp_def]
  · simp [validate, compilerOuts, h]
  · intro o ho
    unfold validate compilerOuts at ho
    by_cases h : ps = []
    · simp [h] at ho; subst ho; exact ⟨rfl, rfl⟩
    · simp only [h, if_false, List.mem_map] at ho
      obtain ⟨e, _, rfl⟩ := ho
      exact ⟨rfl, rfl⟩

/-- Everything wrong with the file is reported with a place: no error of the registration, no unknown error of
the compiler. -/
def Reported : Arg Λ → Prop
  | .unreadable => True
  | .file .ok r => r.pkgErrs ≠ [] ∨ r.register = none
  | .file (.failed _ _) _ => True
  | .file (.other _) _ => False

theorem validate_failed (find : Text → Option (Src Λ)) (m : Text) (ps : List (Pos × Text)) (r : Run Λ) :
    existsError (validate find (.failed m ps) r) = true ∧ validate find (.failed m ps) r ≠ [] := by
  cases ps with
  | nil => exact ⟨rfl, by simp [validate, compilerOuts]⟩
  | cons p ps => exact ⟨by simp [validate, compilerOuts, existsError], by simp [validate, compilerOuts]⟩

theorem existsError_nil_of (l : List Out) (h : existsError l = true) : l ≠ [] := by
  rintro rfl; cases h

/-- C87: the linter ends with the exit code 1 exactly if one of the files can not be read, or an error is shown
for one of them; otherwise with 0. -/
theorem lint_exit (find : Text → Option (Src Λ)) (args : List (Arg Λ)) : ∀ e : Bool,
    ((lint find e args).1 = 1 ∨ (lint find e args).1 = 0) ∧
    ((lint find e args).1 = 1 ↔ e = true ∨ ∃ a ∈ args, match a with
      | .unreadable => True
      | .file c r => existsError (validate find c r) = true) := by
  induction args with
  | nil => intro e; cases e <;> simp [lint]
  | cons a args ih =>
    intro e
    cases a with
    | unreadable => simp [lint]
    | file c r =>
      unfold lint
      by_cases hv : validate find c r = []
      · rw [if_pos hv]
        have hx : existsError (validate find c r) ≠ true := by rw [hv]; simp [existsError]
        refine ⟨(ih e).1, ?_⟩
        rw [(ih e).2]
        simp [hx]
      · rw [if_neg hv]
        refine ⟨(ih _).1, ?_⟩
        show (lint find (e || existsError (validate find c r)) args).1 = 1 ↔ _
        rw [(ih _).2]
        simp [or_assoc]

/-- C87: the linter ends with the exit code 1 exactly if one of its files is not correct, whatever else it shows.
Missing: errors that are not reported with a place. -/
theorem C87_exit_partial (find : Text → Option (Src Λ)) (args : List (Arg Λ)) (h : ∀ a ∈ args, Reported a) :
    (lint find false args).1 = 1 ↔ ∃ a ∈ args, BadArg a := by
  rw [(lint_exit find args false).2]
  simp only [Bool.false_eq_true, false_or]
  constructor
  · rintro ⟨a, ha, hx⟩
    refine ⟨a, ha, ?_⟩
    cases a with
    | unreadable => trivial
    | file c r =>
      cases c with
      | ok => exact .inl ((existsError_toOuts find r).1 hx)
      | failed m ps => trivial
      | other m => trivial
  · rintro ⟨a, ha, hx⟩
    refine ⟨a, ha, ?_⟩
    have hr := h a ha
    cases a with
    | unreadable => trivial
    | file c r =>
      cases c with
      | ok =>
        rcases hx with hx | hx
        · exact (existsError_toOuts find r).2 hx
        · rcases hr with hr | hr
          · exact absurd hx.1 hr
          · rw [hr] at hx; cases hx.2
      | failed m ps => exact (validate_failed find m ps r).1
      | other m => exact hr.elim

/-- C87: what the linter prints: the problems of each file up to the first file that can not be read. -/
theorem C87_printed (find : Text → Option (Src Λ)) : ∀ (args : List (Arg Λ)) (e : Bool),
    (lint find e args).2 =
      ((args.takeWhile fun a => match a with | .unreadable => false | _ => true).filterMap fun a =>
        match a with
        | .unreadable => none
        | .file c r => if validate find c r = [] then none else some (format (validate find c r)))
  | [], _ => rfl
  | .unreadable :: _, _ => rfl
  | .file c r :: args, e => by
    unfold lint
    by_cases hv : validate find c r = []
    · rw [if_pos hv, C87_printed find args e]; simp [hv]
    · rw [if_neg hv]
      simp only [C87_printed find args, List.takeWhile_cons, List.filterMap_cons, if_neg hv, if_true]

/-! ## A cycle of imports -/

/-- Two files that import each other by the `grpc.federation.file` option. -/
def twoFiles : ImportGraph.Sys where
  imports := fun f => if f = 0 then [1] else if f = 1 then [0] else []
  compile := fun f => some [f]

/-- C87 is false of the code: two files that import each other by the option give no error while their imports are
read, and an error when they are registered, whatever the order; then the linter prints nothing and ends with 0,
and the protoc plugin panics, whatever other errors the files have. -/
theorem C87_cycle_false :
    ∃ st imp, ImportGraph.importRec twoFiles 3 ⟨fun _ => [], []⟩ [0] = some (st, imp) ∧ st.errors = [] ∧
      ∀ («show» : ImportGraph.Name → Text) (order : List ImportGraph.Name), order = [0, 1] ∨ order = [1, 0] →
      ∀ (Λ : Type) (find : Text → Option (Src Λ)) (r : Run Λ), r.pkgErrs = [] →
        r.register = cycleError «show» st.deps (ImportGraph.allFiles [0] imp) order →
        Wrong r ∧ lint find false [.file .ok r] = (0, []) ∧ protoc find r = .panic := by
  refine ⟨_, _, rfl, rfl, ?_⟩
  intro sh order ho Λ find r hp hr
  have hc : r.register.isSome = true := by
    rw [hr]; rcases ho with rfl | rfl <;> rfl
  have hfe : foundErrors r = [] := by simp [foundErrors, hp, hc]
  have hv : toOuts find (resolve r) = [] := by
    rw [toOuts_resolve]
    have : unsorted find r = [] := by
      have hfw : foundWarnings r = [] := by
        unfold foundWarnings
        rw [if_neg]
        rintro ⟨-, h, -⟩
        rw [h] at hc; cases hc
      simp [unsorted, hfe, hfw]
    rw [this]; rfl
  refine ⟨.inr ⟨hp, hc⟩, ?_, ?_⟩
  · have : validate find .ok r = [] := hv
    simp [lint, this]
  · have hres : (resolve r).1 = none := by
      obtain ⟨m, hm⟩ := Option.isSome_iff_exists.1 hc
      simp [resolve, build, hp, hm]
    unfold protoc
    rw [hv, hres]
    rfl

/-! ## The protoc plugin and the generator -/

theorem occurs_flatMap {α : Type} (f : α → Text) {a : Text} {x : α} {l : List α} (hx : x ∈ l) (h : Occurs a (f x)) :
    Occurs a (l.flatMap f) := by
  obtain ⟨u, v, rfl⟩ := List.append_of_mem hx
  obtain ⟨s, t, hst⟩ := h
  exact ⟨u.flatMap f ++ s, t ++ v.flatMap f, by simp [hst, List.append_assoc]⟩

theorem occurs_left (a b : Text) : Occurs a (a ++ b) := ⟨[], b, by simp⟩
theorem occurs_right (a b : Text) : Occurs b (a ++ b) := ⟨a, [], by simp⟩
theorem Occurs.append_left {a b : Text} (h : Occurs a b) (c : Text) : Occurs a (c ++ b) := by
  obtain ⟨x, y, rfl⟩ := h; exact ⟨c ++ x, y, by simp⟩
theorem Occurs.append_right {a b : Text} (h : Occurs a b) (c : Text) : Occurs a (b ++ c) := by
  obtain ⟨x, y, rfl⟩ := h; exact ⟨x, y ++ c, by simp⟩

theorem headline_occurs (o : Out) : Occurs o.msg (headline o) := by
  have h : Occurs o.msg (if o.isWarning then "[WARN] ".toList ++ o.msg else o.msg) := by
    split
    · exact occurs_right _ _
    · exact ⟨[], [], by simp⟩
  unfold headline
  simp only
  split
  · exact h
  · split
    · exact h.append_left _
    · exact h.append_left _

/-- C87: the message of every problem is in the text that is printed. -/
theorem C87_text (outs : List Out) (o : Out) (h : o ∈ outs) : Occurs o.msg (format outs) := by
  refine occurs_flatMap _ h (occurs_flatMap (x := headline o) _ ?_ ((headline_occurs o).append_right _))
  unfold rows
  split <;> simp

/-- C87: a problem is one line, or three if its source is known: the line itself and the one with the caret. -/
theorem C87_rows (o : Out) :
    (rows o).head? = some (headline o) ∧
    (o.path ≠ [] → o.sourceLine ≠ [] → (rows o).tail = [(toString o.start.line).toList ++ ":  ".toList ++ o.sourceLine, caretRow o]) ∧
    (o.sourceLine = [] → (rows o).tail = []) ∧ (o.path = [] → (rows o).tail = []) := by
  unfold rows
  split <;> rename_i h
  · refine ⟨rfl, fun h1 h2 => ?_, fun _ => rfl, fun _ => rfl⟩
    rcases h with h | h
    · exact absurd h h1
    · exact absurd h h2
  · simp only [not_or] at h
    refine ⟨rfl, fun _ _ => ?_, fun h1 => absurd h1 h.2, fun h1 => absurd h1 h.1⟩
    have : sourceRow o = (toString o.start.line).toList ++ ":  ".toList ++ o.sourceLine := by
      unfold sourceRow header num
      simp [toString]
    rw [← this]
    rfl

/-- The first line for a problem, for the three kinds of places. -/
theorem headline_eq (o : Out) :
    headline o =
      (if o.path = [] then [] else
        if o.start.line = 0 then o.path ++ ": ".toList
        else o.path ++ ":".toList ++ num o.start.line ++ ":".toList ++ num o.start.col ++ ": ".toList) ++
      ((if o.isWarning then "[WARN] ".toList else []) ++ o.msg) := by
  unfold headline
  simp only
  split <;> split <;> (try split) <;> simp

/-- C87: if the source is shown, the caret is below the character of the column. -/
theorem C87_caret (o : Out) (c : Char) (hc : 0 < o.start.col) (hs : o.sourceLine[o.start.col - 1]? = some c) :
    ∃ k : Nat, (caretRow o)[k]? = some '^' ∧ (∀ j : Nat, j < k → (caretRow o)[j]? = some ' ') ∧ (sourceRow o)[k]? = some c := by
  refine ⟨(header o).length + o.start.col, ?_, fun j hj => ?_, ?_⟩
  · unfold caretRow
    rw [List.getElem?_append_right (by simp)]
    simp
  · unfold caretRow
    rw [List.getElem?_append_left (by simpa using hj)]
    simp [hj]
  · unfold sourceRow
    rw [List.getElem?_append_right (by simp; omega)]
    rw [← hs]
    congr 1
    simp
    omega

/-- C87: the plugin of protoc ends with the generated files exactly if nothing is wrong, with an error that has the
messages of all errors if errors were found, and otherwise it panics.  Missing for the full property: the panic. -/
theorem C87_protoc_partial (find : Text → Option (Src Λ)) (r : Run Λ) :
    ((∃ fs, protoc find r = .generated fs) ↔ ¬Wrong r) ∧
    (foundErrors r ≠ [] → ∃ t, protoc find r = .error t ∧ ∀ e ∈ foundErrors r, Occurs e.msg t) ∧
    (protoc find r = .panic ↔ r.pkgErrs = [] ∧ r.register.isSome = true) := by
  have herr : foundErrors r ≠ [] → ∃ t, protoc find r = .error t ∧ ∀ e ∈ foundErrors r, Occurs e.msg t := by
    intro h
    refine ⟨format (toOuts find (resolve r)), ?_, ?_⟩
    · unfold protoc
      rw [if_pos ((existsError_toOuts find r).2 h)]
    · intro e he
      have hm : toOut find false e ∈ toOuts find (resolve r) := by
        rw [toOuts_resolve, ((stableSort_perm _ _).trans (stableSort_perm _ _)).mem_iff]
        exact List.mem_append_right _ (List.mem_map_of_mem he)
      have := C87_text _ _ hm
      rwa [(toOut_shows find false e).msg] at this
  by_cases h : foundErrors r = []
  · have hx : ¬existsError (toOuts find (resolve r)) = true := fun hh => (existsError_toOuts find r).1 hh h
    have hp : r.pkgErrs = [] := by
      by_cases hp : r.pkgErrs = []
      · exact hp
      · unfold foundErrors at h; rw [if_pos hp] at h; exact absurd h hp
    cases hr : r.register with
    | some m =>
      have hpr : protoc find r = .panic := by
        unfold protoc; rw [if_neg hx]; simp [resolve, build, hp, hr]
      refine ⟨⟨?_, fun hw => absurd (Or.inr ⟨hp, by simp [hr]⟩) hw⟩, herr, ?_⟩
      · rintro ⟨fs, hfs⟩; rw [hpr] at hfs; cases hfs
      · simp [hpr, hp]
    | none =>
      have hpr : ∃ fs, protoc find r = .generated fs := by
        unfold protoc; rw [if_neg hx]
        cases hs : r.hasService <;> simp [resolve, build, hp, hr, hs]
      refine ⟨⟨fun _ => ?_, fun _ => hpr⟩, herr, ?_⟩
      · rintro (hw | hw)
        · exact hw h
        · rw [hr] at hw; cases hw.2
      · obtain ⟨fs, hfs⟩ := hpr
        simp [hfs]
  · obtain ⟨t, ht, hocc⟩ := herr h
    refine ⟨⟨?_, fun hw => absurd (Or.inl h) hw⟩, herr, ?_⟩
    · rintro ⟨fs, hfs⟩; rw [ht] at hfs; cases hfs
    · rw [ht]
      refine ⟨fun hh => (by cases hh), fun hh => ?_⟩
      have : foundErrors r = [] := by simp [foundErrors, hh.1, hh.2]
      exact absurd this h

/-- C87: the generator ends with the generated files exactly if the file compiles and nothing is wrong; otherwise
with an error, never with a panic. -/
theorem C87_generator (find : Text → Option (Src Λ)) (c : Compiled) (r : Run Λ) :
    ((∃ fs, generate find c r = .generated fs) ↔ c = .ok ∧ ¬Wrong r) ∧ generate find c r ≠ .panic := by
  cases c with
  | failed m ps =>
    unfold generate
    rw [if_pos (validate_failed find m ps r).1]
    simp
  | other m =>
    unfold generate validate
    simp [existsError]
  | ok =>
    unfold generate
    show ((∃ fs, (if existsError (toOuts find (resolve r)) = true then _ else _) = _) ↔ _) ∧
      (if existsError (toOuts find (resolve r)) = true then _ else _) ≠ _
    by_cases h : foundErrors r = []
    · have hx : ¬existsError (toOuts find (resolve r)) = true := fun hh => (existsError_toOuts find r).1 hh h
      rw [if_neg hx]
      have hp : r.pkgErrs = [] := by
        by_cases hp : r.pkgErrs = []
        · exact hp
        · unfold foundErrors at h; rw [if_pos hp] at h; exact absurd h hp
      cases hr : r.register with
      | some m =>
        have : Wrong r := .inr ⟨hp, by simp [hr]⟩
        simp [resolve, build, hp, hr, this]
      | none =>
        have hw : ¬Wrong r := by
          rintro (hw | hw)
          · exact hw h
          · rw [hr] at hw; cases hw.2
        unfold foundErrors at h
        cases hs : r.hasService
        · have he : r.ruleErrs = [] := by simpa [hp, hr, hs] using h
          simp [resolve, build, hp, hr, hs, hw, he]
        · have he : r.ruleErrs = [] ∧ r.restErrs = [] := by simpa [hp, hr, hs] using h
          simp [resolve, build, hp, hr, hs, hw, he]
    · rw [if_pos ((existsError_toOuts find r).2 h)]
      have : Wrong r := .inl h
      simp [this]

/-! ## The file of the place -/

/-- C87: the file of a problem is looked up by its path, then below the import paths in order; it is not found only
if it is nowhere. -/
theorem C87_file (disk : Disk Λ) (paths : List Text) (path : Text) :
    (∀ s, disk [] path = some s → getFile disk paths path = some s) ∧
    (∀ (k : Nat) p s, disk [] path = none → (∀ j : Nat, j < k → ∀ q, paths[j]? = some q → disk q path = none) →
      paths[k]? = some p → disk p path = some s → getFile disk paths path = some s) ∧
    (getFile disk paths path = none ↔ disk [] path = none ∧ ∀ p ∈ paths, disk p path = none) := by
  unfold getFile
  refine ⟨fun s h => by simp [h], ?_, by simp [List.findSome?_eq_none_iff]⟩
  intro k p s h0 hj hk hp
  rw [List.findSome?_cons, h0]
  simp only
  induction paths generalizing k with
  | nil => simp at hk
  | cons q qs ih =>
    cases k with
    | zero =>
      simp only [List.getElem?_cons_zero, Option.some.injEq] at hk
      subst hk
      rw [List.findSome?_cons, hp]
    | succ k =>
      rw [List.findSome?_cons, hj 0 (Nat.succ_pos _) q (by simp)]
      exact ih k (fun j hj' => by
        intro q' hq'
        exact hj (j + 1) (Nat.succ_lt_succ hj') q' (by simpa using hq')) (by simpa using hk)

/-! ## The line of the source -/

/-- C87: the line that is shown is the one of the place, unless it is the last one of the file. -/
theorem C87_source_line_partial (find : Text → Option (Src Λ)) (w : Bool) (i : Item Λ) (s : Src Λ) (a b : Pos)
    (t : Text) (hs : find i.file = some s) (hn : s.node i.loc = some (a, b)) (ha : 0 < a.line)
    (ht : s.lines[a.line - 1]? = some t) (hl : a.line ≠ s.lines.length) : (toOut find w i).sourceLine = t := by
  have hlt : a.line - 1 < s.lines.length := (List.getElem?_eq_some_iff.1 ht).1
  have : s.lines.length > a.line ∧ a.line > 0 := by omega
  simp [toOut, hs, hn, sourceLine, this, List.getD, ht]

/-- C87 is false of the code for the last line: it is never shown. -/
theorem C87_last_line_false (find : Text → Option (Src Λ)) (w : Bool) (i : Item Λ) (s : Src Λ) (a b : Pos)
    (hs : find i.file = some s) (hn : s.node i.loc = some (a, b)) (hl : a.line = s.lines.length) :
    (toOut find w i).sourceLine = [] := by
  simp [toOut, hs, hn, sourceLine, hl]

/-! ## The language server -/

/-- C87: each problem becomes a diagnostic with its message and kind; a place with a line and a column is given
counted from zero.  Missing: problems without a place, and problems of other files. -/
theorem C87_diagnostics_partial (doc : Text) (outs : List Out) :
    (diagnostics doc outs).map (fun d => (d.msg, d.isError)) = outs.map (fun o => (o.msg, !o.isWarning)) ∧
    ∀ (k : Nat) o d, outs[k]? = some o → (diagnostics doc outs)[k]? = some d →
      (∀ p : Pos, p = o.start ∨ p = o.stop → 0 < p.line ∧ 0 < p.col ∧ p.line < 2 ^ 32 ∧ p.col < 2 ^ 32) →
      d.start.line.toNat + 1 = o.start.line ∧ d.start.character.toNat + 1 = o.start.col ∧
      d.stop.line.toNat + 1 = o.stop.line ∧ d.stop.character.toNat + 1 = o.stop.col := by
  refine ⟨by simp [diagnostics, Function.comp_def], ?_⟩
  intro k o d ho hd hp
  obtain ⟨h1, h2, h3, h4⟩ := hp _ (.inl rfl)
  obtain ⟨g1, g2, g3, g4⟩ := hp _ (.inr rfl)
  unfold diagnostics at hd
  rw [List.getElem?_map, ho] at hd
  cases hd
  have conv : ∀ n : Nat, 0 < n → n < 2 ^ 32 → (UInt32.ofNat n - 1).toNat + 1 = n := by
    intro n hn hlt
    have hle : (1 : UInt32) ≤ UInt32.ofNat n := by
      rw [UInt32.le_iff_toNat_le, UInt32.toNat_ofNat]
      simp; omega
    rw [UInt32.toNat_sub_of_le _ _ hle, UInt32.toNat_ofNat]
    simp; omega
  exact ⟨conv _ h1 h3, conv _ h2 h4, conv _ g1 g3, conv _ g2 g4⟩

/-- C87 is false of the code for problems without a place: they are put on line 4294967296. -/
theorem C87_no_place_false (doc : Text) (find : Text → Option (Src Λ)) (w : Bool) (i : Item Λ)
    (h : find i.file = none) :
    (diagnostics doc [toOut find w i]).map (fun d => d.start) = [⟨4294967295, 4294967295⟩] := by
  simp [diagnostics, toOut, h, lspPos]
  decide

/-- C87 is false of the code for problems of other files: they are shown in the document that is edited, at a place
that belongs to the other file. -/
theorem C87_other_file_false : ∃ (doc : Text) (find : Text → Option (Src Unit)) (r : Run Unit),
    (∀ e ∈ foundErrors r, e.file ≠ doc) ∧
    (diagnostics doc (validate find .ok r)).map (fun d => (d.doc, d.start)) = [(doc, ⟨1, 3⟩)] := by
  let e : Item Unit := ⟨"b".toList, (), "m".toList⟩
  refine ⟨"a".toList, fun _ => some ⟨[[], []], fun _ => some (⟨2, 4⟩, ⟨2, 5⟩)⟩,
    ⟨[], none, [e], true, [], [], []⟩, ?_, ?_⟩
  · intro x hx
    simp [foundErrors] at hx
    subst hx; decide
  · decide

/-! ## Examples -/

/-- A run with a warning on line 2 and an error on line 1. -/
def exRun : Run Nat where
  pkgErrs := []
  register := none
  ruleErrs := [⟨"a".toList, 1, "bad".toList⟩]
  hasService := true
  restErrs := []
  warnings := [⟨"a".toList, 2, "unused".toList⟩]
  files := ["a".toList]

def exFind : Text → Option (Src Nat) := fun _ =>
  some ⟨["abc".toList, "def".toList, []], fun k => some (⟨k, 2⟩, ⟨k, 3⟩)⟩

example : validate exFind .ok exRun =
    [⟨false, "a".toList, ⟨1, 2⟩, ⟨1, 3⟩, "bad".toList, "abc".toList⟩,
     ⟨true, "a".toList, ⟨2, 2⟩, ⟨2, 3⟩, "unused".toList, "def".toList⟩] := by decide

example : lint exFind false [.file .ok exRun] =
    (1, ["a:1:2: bad\n1:  abc\n     ^\na:2:2: [WARN] unused\n2:  def\n     ^\n".toList]) := by decide +kernel

example : Reported (.file .ok exRun : Arg Nat) ∧ BadArg (.file .ok exRun : Arg Nat) :=
  ⟨.inr rfl, .inl (by simp [foundErrors, exRun])⟩

example : (toOut exFind false ⟨"a".toList, 3, []⟩).sourceLine = [] ∧
    (toOut exFind false ⟨"a".toList, 2, []⟩).sourceLine = "def".toList := by decide

example : getFile (fun p f => if p = "i".toList ∧ f = "a".toList then some (⟨[], fun _ => none⟩ : Src Nat) else none)
    ["h".toList, "i".toList] "a".toList ≠ none := by
  simp [C87_file]

example : protoc exFind { exRun with ruleErrs := [] } = .generated ["a".toList] := by decide

end Verif.Diag
