import Verif.Refs.Lemmas
import Verif.Exec.Props

/-!
# C09: the names a definition reads are recorded as its references

`VarDef.reads` (in `Spec.lean`) lists the sites from the code templates; `VarDef.refs` is
`ReferenceNames()`.  The property is false for five sites and for a map iterator that shadows a
definition; it is proved for everything else.
-/

namespace Verif.Refs

open Verif.Graph Verif.Exec

/-- C09 (partial: definitions that use none of the five sites listed at `VarDef.plain`).  Every
variable a definition reads is one of its reference names.  `__ARG__` is the message argument, not
a definition; `""` is not a name. -/
theorem C09_reads_recorded_partial (d : VarDef) (hp : d.plain = true) (n : String) (h0 : n ≠ "")
    (ha : n ≠ argName) (h : d.reads n) : n ∈ d.refs :=
  def_complete h hp h0 ha

/-- C09: an expression never refers to a definition through the message argument or a nameless
reference. -/
theorem C09_argument_not_recorded (c : Cel) : argName ∉ c.refs ∧ "" ∉ c.refs := by
  constructor <;> simp [Cel.refs]

/-- C09, the other way round (partial: names that are not those of macros or iterators inside of the definition): what is
recorded is read, so that a definition waits for no other one without need. -/
theorem C09_recorded_read_partial (d : VarDef) (n : String) (h : n ∈ d.refs) (hb : ¬ d.binds n) : d.reads n :=
  (def_sound d n h).resolve_right hb

/-- C09 (partial, same restriction; and the name must not be hidden by the map iterator).  If
definition `b` reads a name that an earlier definition `a` declares, and no declaration in between
hides it, then in every execution `a` has been evaluated successfully before `b` starts. -/
theorem C09_reads_ordered_partial (defs : List VarDef) (hs : NoSelfRef (defs.map VarDef.toDef))
    (gs : List Grp) (hgs : setup (defs.map VarDef.toDef) = .groups gs) (ext : Bool) (s : Sys)
    (hr : Reach gs ext s) (a b : Nat) (na : String) (ca : Option Cel) (ea : Expr) (db : VarDef)
    (hda : defs[a]? = some (.mk na ca ea)) (hdb : defs[b]? = some db) (hab : a < b)
    (hp : db.plain = true) (h0 : na ≠ "") (harg : na ≠ argName) (hi : na ≠ db.toDef.iter)
    (hread : db.reads na)
    (hhide : ∀ c dc, a < c → c ≤ b → defs[c]? = some dc → dc.toDef.name ≠ na)
    (post pre : List Event) (f : Nat) (hlog : s.g.log = post ++ Event.start b f :: pre) :
    ∃ f', Event.fin a f' none ∈ pre := by
  have href : na ∈ db.toDef.refs := by
    have := C09_reads_recorded_partial db hp na h0 harg hread
    cases db; exact this
  refine C01_references_first _ hs gs hgs ext s hr post pre b f hlog a
    ⟨_, db.toDef, by rw [List.getElem?_map, hda]; rfl, by rw [List.getElem?_map, hdb]; rfl,
      Nat.le_of_lt hab, h0, href, hi, ?_⟩
  intro c dc h1 h2 h3
  rw [List.getElem?_map] at h3
  obtain ⟨dc', h4, rfl⟩ := Option.map_eq_some_iff.mp h3
  exact hhide c dc' h1 h2 h4

/-- A definition whose call has an error entry with a detail that reads `a`. -/
def sampleCall : VarDef :=
  .mk "b" none (.call [⟨.ident "x", none⟩] none
    [.mk none [.mk "m" (some (.ident "y")) (.by .lit)] none none
      [.mk none [] [] [] [[(.lit, .app [.ident "a"], .lit)]] [] []]])

example : sampleCall.plain = true ∧ sampleCall.reads "a" ∧ sampleCall.reads "y" ∧
    sampleCall.refs = ["x", "y", "a"] := by
  refine ⟨by decide, ?_, ?_, by decide⟩
  · refine .expr (.error (List.mem_singleton.mpr rfl) (.details (List.mem_singleton.mpr rfl)
      (.precond (List.mem_singleton.mpr rfl) (List.mem_singleton.mpr rfl) (x := .app [.ident "a"])
        (by simp) (.app (List.mem_singleton.mpr rfl) (.ident _)))))
  · exact .expr (.error (List.mem_singleton.mpr rfl) (.defs (List.mem_singleton.mpr rfl)
      (.cond (.ident _))))

/-- `a` and `sampleCall` meet the hypotheses of `C09_reads_ordered_partial`, and a state in which
`b` has started is reachable. -/
example : ∃ gs s f pre post, NoSelfRef ([VarDef.mk "a" none (.by .lit), sampleCall].map VarDef.toDef) ∧
    setup ([VarDef.mk "a" none (.by .lit), sampleCall].map VarDef.toDef) = .groups gs ∧
    Reach gs false s ∧ s.g.log = post ++ Event.start 1 f :: pre ∧ sampleCall.toDef.iter = "" := by
  obtain ⟨g', p', h, hlog⟩ : ∃ g' p', run false
      [([0], .go), ([0], .go), ([0], .finish none), ([0], .go), ([0], .go), ([], .go),
        ([], .go), ([], .go)] .init (startAll [.seq (.seq0 0) 1]) = some (g', p') ∧
      g'.log = [.start 1 1, .fin 0 0 none, .start 0 0] := ⟨_, _, rfl, rfl⟩
  exact ⟨_, ⟨g', p', false⟩, 1, _, [], by decide, rfl, run_sound .init h, hlog, rfl⟩

/-! ## The sites that are not recorded -/

/-- `d`, declared after a definition `a`, reads `a`, and yet the plan lets `d` start while `a` has
not been evaluated. -/
def Unordered (d : VarDef) : Prop :=
  d.reads "a" ∧ ∃ gs s f, setup ([VarDef.mk "a" none (.by .lit), d].map VarDef.toDef) = .groups gs ∧
    Reach gs false s ∧ Event.start 1 f ∈ s.g.log ∧ ∀ f' r, Event.fin 0 f' r ∉ s.g.log

/-- The schedule: the second goroutine looks into the cache, misses and starts. -/
theorem unordered_of {d : VarDef} (h : d.reads "a")
    (hp : setup ([VarDef.mk "a" none (.by .lit), d].map VarDef.toDef) = .groups [.seq0 0, .seq0 1]) :
    Unordered d := by
  obtain ⟨g', p', hrun, hlog⟩ : ∃ g' p', run false [([1], .go), ([1], .go)] .init
      (startAll [.seq0 0, .seq0 1]) = some (g', p') ∧ g'.log = [.start 1 0] := ⟨_, _, rfl, rfl⟩
  refine ⟨h, _, ⟨g', p', false⟩, 0, hp, run_sound .init hrun, ?_, ?_⟩
  · show Event.start 1 0 ∈ g'.log
    rw [hlog]; simp
  · show ∀ f' r, Event.fin 0 f' r ∉ g'.log
    rw [hlog]; simp

/-- C09 is false: the `if` of a request argument is not recorded. -/
theorem C09_request_if_false : Unordered (.mk "b" none (.call [⟨.lit, some (.ident "a")⟩] none [])) :=
  unordered_of (.expr (.argIf (List.mem_singleton.mpr rfl) rfl (.ident _))) rfl

/-- C09 is false: the `if` of a retry policy is not recorded. -/
theorem C09_retry_if_false : Unordered (.mk "b" none (.call [] (some (.ident "a")) [])) :=
  unordered_of (.expr (.retryIf (.ident _))) rfl

/-- C09 is false: the enum expression of a map is not recorded. -/
theorem C09_map_enum_false : ¬ ∀ d : VarDef, ∀ n, n ≠ "" → n ≠ argName → d.reads n → n ∈ d.refs := by
  intro h
  have := h (.mk "b" none (.map "i" "" (.enum (.ident "a")))) "a" (by decide) (by decide)
    (.expr (.body (List.mem_singleton.mpr rfl) (.ident _) (by decide)))
  exact absurd this (by decide)

/-- … and neither is ordered: a map over another source reads `a` in its enum expression. -/
theorem C09_map_enum_unordered_false :
    ∃ d : VarDef, d.reads "a" ∧
      setup ([VarDef.mk "xs" none (.by .lit), .mk "a" none (.by .lit), d].map VarDef.toDef) =
        .groups [.seq0 1, .seq (.seq0 0) 2] :=
  ⟨.mk "b" none (.map "i" "xs" (.enum (.ident "a"))),
    .expr (.body (List.mem_singleton.mpr rfl) (.ident _) (by decide)), rfl⟩

/-- C09 is false: the `message` of an error entry is not recorded. -/
theorem C09_error_message_false :
    Unordered (.mk "b" none (.call [] none [.mk none [] (some (.ident "a")) none []])) :=
  unordered_of (.expr (.error (List.mem_singleton.mpr rfl) (.message (.ident _)))) rfl

/-- … neither for a validation. -/
theorem C09_validation_message_false :
    ∃ d : VarDef, d.reads "a" ∧ d.toDef.isValidation = true ∧ "a" ∉ d.refs ∧ Unordered d :=
  ⟨.mk "b" none (.validation (.mk none [] (some (.ident "a")) none [])),
    .expr (.validation (.message (.ident _))), rfl, by decide,
    unordered_of (.expr (.validation (.message (.ident _)))) rfl⟩

/-- C09 is false: the response of `ignore_and_response` is not recorded. -/
theorem C09_ignore_and_response_false :
    Unordered (.mk "b" none (.call [] none [.mk none [] none (some (.ident "a")) []])) :=
  unordered_of (.expr (.error (List.mem_singleton.mpr rfl) (.ignoreResp (.ident _)))) rfl

/-- C09 is false: a map whose iterator has the name of its source does not wait for the source
(`resolver/graph.go` lines 347-350 skip the iterator's name). -/
theorem C09_iterator_hides_source_false :
    Unordered (.mk "b" none (.map "a" "a" (.by (.ident "a")))) :=
  unordered_of (.expr .source) rfl

/-! ## Names that are recorded although nothing outside is read -/

/-- A comprehension variable is recorded as a reference: a definition `x` whose own macro variable
is also called `x` reads no variable at all, but counts as referencing itself, and then the whole
definition list resolves to no plan at all (see C08). -/
theorem C09_macro_variable_recorded :
    ∃ d : VarDef, (∀ n, ¬ d.reads n) ∧ ¬ NoSelfRef [d.toDef] ∧
      setup [d.toDef] = setup [⟨"x", ["x"], "", false⟩] := by
  refine ⟨.mk "x" none (.by (.comp "x" "r" .lit .lit .lit (.app [.ident "x"]) .lit)), ?_, by decide, rfl⟩
  intro n h
  cases h with
  | expr h => cases h with
    | «by» h => cases h with
      | range h => cases h
      | init h => cases h
      | cond h _ _ => cases h
      | step h h1 h2 => cases h with
        | app hc h =>
          simp only [List.mem_singleton] at hc
          subst hc
          cases h
          exact h1 rfl
      | result h _ => cases h

end Verif.Refs
