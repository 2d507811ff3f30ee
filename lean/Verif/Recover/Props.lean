import Verif.Recover.Model

/-! # C67 and C78: recovered panics and logs of errors -/

namespace Verif.Recover

/-! ## Specification -/

/-- A text without line breaks. -/
def OneLine (t : Text) : Prop := '\n' ∉ t

/-- Lines separated by line breaks. -/
def unlines : List Text → Text
  | [] => []
  | [l] => l
  | l :: ls => l ++ '\n' :: unlines ls

/-- A line without a tab at its beginning. -/
def untab (l : Text) : Text := if l.head? = some '\t' then l.tail else l

/-- A stack trace as it is shown: its lines that are not empty, each without a tab at its beginning. -/
def shown (ls : List Text) : List Text := (ls.filter (fun l => !l.isEmpty)).map untab

/-- A stack trace: a line for the goroutine and the lines of the calls. -/
structure Trace where
  goroutine : Text
  calls : List Text

/-- All lines of a trace are lines, and there is a call. -/
structure Trace.Wf (t : Trace) : Prop where
  goroutine : OneLine t.goroutine
  calls : ∀ l ∈ t.calls, OneLine l
  some_call : t.calls ≠ []

def Trace.text (t : Trace) : Text := unlines (t.goroutine :: t.calls)

/-! ## Lemmas -/

theorem splitLines_ne (s : Text) : splitLines s ≠ [] := by
  cases s with
  | nil => simp [splitLines]
  | cons c s => rw [splitLines]; split <;> simp

theorem splitLines_cons (s : Text) : (splitLines s).headD [] :: (splitLines s).tail = splitLines s := by
  cases h : splitLines s with
  | nil => exact absurd h (splitLines_ne s)
  | cons l ls => rfl

theorem splitLines_append (a b : Text) : splitLines (a ++ '\n' :: b) = splitLines a ++ splitLines b := by
  induction a with
  | nil => simp [splitLines]
  | cons c a ih =>
    rw [List.cons_append, splitLines, splitLines]
    by_cases hc : c = '\n'
    · rw [if_pos hc, if_pos hc, ih]
      rfl
    · rw [if_neg hc, if_neg hc, ih]
      cases h : splitLines a with
      | nil => exact absurd h (splitLines_ne a)
      | cons l ls => rfl

theorem splitLines_one (t : Text) (h : OneLine t) : splitLines t = [t] := by
  induction t with
  | nil => rfl
  | cons c t ih =>
    have hc : c ≠ '\n' := fun e => h (by simp [e])
    have ht : OneLine t := fun e => h (List.mem_cons_of_mem _ e)
    rw [splitLines, if_neg hc, ih ht]
    rfl

theorem splitLines_unlines (ls : List Text) (h : ∀ l ∈ ls, OneLine l) (hn : ls ≠ []) : splitLines (unlines ls) = ls := by
  induction ls with
  | nil => exact absurd rfl hn
  | cons l ls ih =>
    cases ls with
    | nil => exact splitLines_one l (h l (by simp))
    | cons l' ls =>
      rw [unlines, splitLines_append, splitLines_one l (h l (by simp)), ih (fun x hx => h x (List.mem_cons_of_mem _ hx)) (by simp)]
      · rfl
      · simp

theorem trimTab_eq (l : Text) : trimTab l = untab l := by
  cases l with
  | nil => rfl
  | cons c l =>
    rw [trimTab, untab]
    by_cases h : c = '\t' <;> simp [h]

theorem stackLines_eq (ls : List Text) : stackLines ls = shown ls := by
  unfold stackLines shown
  have h1 : trimTab = untab := funext trimTab_eq
  have h2 : (fun l : Text => decide (l ≠ [])) = fun l => !l.isEmpty := by
    funext l; cases l <;> rfl
  rw [h1, h2]

theorem dropFirstLine_eq (h r : Text) (hh : OneLine h) : dropFirstLine (h ++ '\n' :: r) = r := by
  rw [dropFirstLine, if_pos (by simp)]
  induction h with
  | nil => simp
  | cons c h ih =>
    have hc : c ≠ '\n' := fun e => hh (by simp [e])
    rw [List.cons_append, List.dropWhile_cons]
    simp only [hc, ne_eq, not_false_eq_true, decide_true, if_true]
    exact ih fun e => hh (List.mem_cons_of_mem _ e)

theorem drop_trace (t : Trace) (h : t.Wf) : splitLines (dropFirstLine t.text) = t.calls := by
  obtain ⟨g, cs⟩ := t
  cases cs with
  | nil => exact absurd rfl h.some_call
  | cons c cs =>
    have : Trace.text ⟨g, c :: cs⟩ = g ++ '\n' :: unlines (c :: cs) := by
      rw [Trace.text, unlines]; simp
    rw [this, dropFirstLine_eq _ _ h.goroutine, splitLines_unlines _ h.calls (by simp)]

theorem trace_lines (t : Trace) (h : t.Wf) : splitLines t.text = t.goroutine :: t.calls := by
  refine splitLines_unlines _ ?_ (by simp)
  intro l hl
  rcases List.mem_cons.mp hl with rfl | hl
  · exact h.goroutine
  · exact h.calls l hl

theorem surround_flights (ts : List Trace) (h : ∀ t ∈ ts, t.Wf) : ∀ (text : Text), ∃ text',
    surround (ts.map fun t => .flight t.text) (.panic text) = .panic text' ∧ (ts = [] → text' = text) ∧
    splitLines text' = splitLines text ++ ts.flatMap fun t => [] :: t.calls := by
  induction ts with
  | nil => exact fun text => ⟨text, rfl, fun _ => rfl, by simp⟩
  | cons t ts ih =>
    intro text
    obtain ⟨text', h1, -, h2⟩ := ih (fun t ht => h t (List.mem_cons_of_mem _ ht))
      (text ++ '\n' :: '\n' :: dropFirstLine t.text)
    refine ⟨text', h1, by simp, ?_⟩
    rw [h2, splitLines_append]
    have : splitLines ('\n' :: dropFirstLine t.text) = [] :: t.calls := by
      rw [splitLines, if_pos rfl, drop_trace t (h t (by simp))]
    rw [this]
    simp

theorem surround_done (fs : List Frame) (o : Outcome) (h : ∀ t, o ≠ .panic t) : surround fs o = o := by
  induction fs with
  | nil => rfl
  | cons f fs ih =>
    have : frame f o = o := by
      cases o with
      | panic t => exact absurd rfl (h t)
      | _ => rfl
    rw [surround, List.foldl_cons, this]
    exact ih

theorem shown_append (a b : List Text) : shown (a ++ b) = shown a ++ shown b := by simp [shown]

theorem shown_flat (ts : List Trace) : shown (ts.flatMap fun t => [] :: t.calls) = shown (ts.flatMap Trace.calls) := by
  induction ts with
  | nil => rfl
  | cons t ts ih =>
    rw [List.flatMap_cons, List.flatMap_cons, shown_append, shown_append, ih]
    rfl

/-- C67: a panic with a text of one line becomes an error with exactly this text, however many calls of
singleflight and of recovering functions are around it, and the error has the stack trace: the one seen by the
recovering function, or if the panic went through singleflight, those seen there. -/
theorem C67_panic_partial (text : Text) (ht : OneLine text) (flights : List Trace) (hf : ∀ t ∈ flights, t.Wf) (own : Trace)
    (ho : own.Wf) (outer : List Frame) :
    surround (flights.map (fun t => .flight t.text) ++ .guard own.text :: outer) (.panic text) =
      .recovered ⟨text, if flights = [] then shown (own.goroutine :: own.calls) else shown (flights.flatMap Trace.calls)⟩ := by
  obtain ⟨text', h1, h2, h3⟩ := surround_flights flights hf text
  have h0 : surround (flights.map (fun t => .flight t.text) ++ .guard own.text :: outer) (.panic text) =
      surround outer (.recovered (recoverError text' own.text)) := by
    rw [surround, List.foldl_append]
    have : List.foldl (fun o f => frame f o) (.panic text) (flights.map fun t => .flight t.text) = .panic text' := h1
    rw [this]
    rfl
  rw [h0, surround_done _ _ (by simp)]
  congr 1
  rw [splitLines_one text ht] at h3
  cases flights with
  | nil =>
    simp only [List.flatMap_nil, List.append_nil] at h3
    have h2 := h2 rfl
    subst h2
    rw [recoverError, h3]
    simp [stackLines_eq, trace_lines own ho]
  | cons t ts =>
    rw [recoverError, h3]
    simp only [List.flatMap_cons, List.cons_append, List.nil_append, List.length_cons, List.headD_cons, List.tail_cons]
    rw [if_neg (by omega), if_neg (by simp), stackLines_eq]
    congr 1
    have := shown_flat (t :: ts)
    simpa only [List.flatMap_cons, List.cons_append, List.nil_append] using this

/-- C67: no panic leaves a recovering function, and results and errors are left as they are. -/
theorem C67_no_panic (inner outer : List Frame) (stack : Text) (o : Outcome) :
    (∀ t, surround (inner ++ .guard stack :: outer) o ≠ .panic t) ∧
    ((∀ t, o ≠ .panic t) → surround (inner ++ .guard stack :: outer) o = o) := by
  refine ⟨?_, fun h => surround_done _ _ h⟩
  have h0 : surround (inner ++ .guard stack :: outer) o = surround outer (frame (.guard stack) (surround inner o)) := by
    rw [surround, List.foldl_append]
    rfl
  have h1 : ∀ t, frame (.guard stack) (surround inner o) ≠ .panic t := by
    intro t
    cases surround inner o <;> simp [frame]
  rw [h0, surround_done _ _ h1]
  exact h1

/-- Two calls of singleflight inside of a goroutine of an error group, inside of the generated method. -/
example : surround [.flight ['g', ':', '\n', 'f', '(', ')', '\n', '\t', 'x', '\n'], .flight ['h', '\n', '\t', 'y'],
      .guard ['i', '\n', 'z'], .guard ['j', '\n', 'z']] (.panic ['n', 'i', 'l']) =
    .recovered ⟨['n', 'i', 'l'], [['f', '(', ')'], ['x'], ['y']]⟩ := by decide

example : Trace.Wf ⟨['g', ':'], [['f', '(', ')'], ['\t', 'x'], []]⟩ :=
  ⟨by unfold OneLine; decide, by unfold OneLine; decide, by decide⟩

/-- The full claim fails for texts of several lines: only the first line is the message of the error, and the
stack trace is missing; the other lines are shown in its place. A line break at the end suffices. -/
theorem C67_panic_false : ∃ (text : Text) (own : Trace), own.Wf ∧
    surround [.guard own.text] (.panic text) = .recovered ⟨['a'], []⟩ ∧ text ≠ ['a'] ∧
    shown (own.goroutine :: own.calls) ≠ [] :=
  ⟨['a', '\n'], ⟨['g'], [['f']]⟩, ⟨by unfold OneLine; decide, by unfold OneLine; decide, by decide⟩, by decide, by decide, by decide⟩

/-! ## Logs -/

theorem numbered_get (ts : List Text) : ∀ (n i : Nat), (numbered n ts)[i]? = (ts[i]?).map fun t => (n + i + 1, t) := by
  induction ts with
  | nil => intro n i; simp [numbered]
  | cons t ts ih =>
    intro n i
    rw [numbered]
    cases i with
    | zero => simp
    | succ i =>
      rw [List.getElem?_cons_succ, List.getElem?_cons_succ, ih]
      congr 1
      funext x
      congr 1
      omega

/-- An error without status and attributes inside. -/
inductive Bare : Err → Prop
  | plain t : Bare (.plain t)
  | recovered e : Bare (.recovered e)
  | wrap t {e} : Bare e → Bare (.wrap t e)

/-- `Wraps e r`: the error is a recovered panic, or wraps one. -/
inductive Wraps (r : Recovered) : Err → Prop
  | self : Wraps r (.recovered r)
  | attrs {e} (l as) : Wraps r e → Wraps r (.withAttrs e l as)
  | wrap t {e} : Wraps r e → Wraps r (.wrap t e)

theorem Bare.status {st : Nat → Text → Text} {e : Err} (h : Bare e) : e.status? st = none := by
  induction h with
  | plain => rfl
  | recovered => rfl
  | wrap t _ ih => simp [Err.status?, ih]

theorem Wraps.recovered {r : Recovered} {e : Err} (h : Wraps r e) : e.recovered? = some r := by
  induction h with
  | self => rfl
  | attrs l as _ ih => simpa [Err.recovered?] using ih
  | wrap t _ ih => simpa [Err.recovered?] using ih

/-- C67: a recovered panic is logged as an error with its message and all lines of its stack, numbered from
one, unless it has got attributes on its way. -/
theorem C67_logged_partial (st : Nat → Text → Text) (r : Recovered) (e : Err) (hb : Bare e) (hw : Wraps r e) :
    (outputErrorLog st e).level = .error ∧ (outputErrorLog st e).message = r.message ∧
    ∀ i, (outputErrorLog st e).stack[i]? = (r.stack[i]?).map fun t => (i + 1, t) := by
  rw [outputErrorLog, hb.status, hw.recovered]
  refine ⟨rfl, rfl, fun i => ?_⟩
  simp only []
  rw [numbered_get]
  simp

example : Bare (.wrap ['w'] (.recovered ⟨['m'], [['s']]⟩)) ∧ Wraps ⟨['m'], [['s']]⟩ (.wrap ['w'] (.recovered ⟨['m'], [['s']]⟩)) :=
  ⟨.wrap _ (.recovered _), .wrap _ .self⟩

/-- The full claim fails: a panic during a call with a timeout is recovered by `WithTimeout`, and the error
handler of the call adds attributes to it; it is logged without its stack. -/
theorem C67_logged_false : ∃ (r : Recovered) (e : Err), Wraps r e ∧ r.stack ≠ [] ∧
    ∀ st, (outputErrorLog st e).stack = [] ∧ (outputErrorLog st e).message ≠ r.message :=
  ⟨⟨['m'], [['s']]⟩, .withAttrs (.recovered ⟨['m'], [['s']]⟩) .error [], .attrs _ _ .self, by simp,
    fun st => ⟨rfl, by simp [outputErrorLog, Err.status?, Err.text, recoveredPrefix]⟩⟩

/-- The status of an error: that of the innermost one, whatever wraps it. -/
inductive HasCode : Err → Nat → Prop
  | status c t : HasCode (.status c t) c
  | attrs {e c} (l as) : HasCode e c → HasCode (.withAttrs e l as) c
  | wrap t {e c} : HasCode e c → HasCode (.wrap t e) c

theorem HasCode.status? {st : Nat → Text → Text} {e : Err} {c : Nat} (h : HasCode e c) :
    ∃ t, e.status? st = some (c, t) := by
  induction h with
  | status c t => exact ⟨t, rfl⟩
  | attrs l as _ ih =>
    obtain ⟨t, ih⟩ := ih
    exact ⟨t, by simp [Err.status?, ih]⟩
  | wrap t _ ih =>
    obtain ⟨t', ih⟩ := ih
    exact ⟨t, by simp [Err.status?, ih]⟩

/-- An error without a status has code unknown (2) if it has log attributes. -/
theorem unknown_status {st : Nat → Text → Text} : ∀ {e : Err}, (∀ c, ¬ HasCode e c) →
    ∀ s, e.status? st = some s → s.1 = 2
  | .plain _, _, _, h => by simp [Err.status?] at h
  | .recovered _, _, _, h => by simp [Err.status?] at h
  | .status c t, hc, _, _ => absurd (.status c t) (hc c)
  | .withAttrs e l as, hc, s, h => by
    simp only [Err.status?, Option.some.injEq] at h
    cases he : e.status? st with
    | none => rw [he] at h; rw [← h]; rfl
    | some s' =>
      rw [he] at h
      rw [← h]
      exact unknown_status (fun c h' => hc c (.attrs l as h')) s' he
  | .wrap t e, hc, s, h => by
    simp only [Err.status?, Option.map_eq_some_iff] at h
    obtain ⟨s', he, rfl⟩ := h
    exact unknown_status (fun c h' => hc c (.wrap t h')) s' he

/-- C78: an error with a log level and attributes is logged with exactly these, also if it is wrapped; and with
the code of its status if it has one, else with the code unknown. -/
theorem C78_level (st : Nat → Text → Text) (e : Err) (l : Level) (as : List Nat) (ts : List Text) :
    (outputErrorLog st (ts.foldr .wrap (.withAttrs e l as))).level = l ∧
    (outputErrorLog st (ts.foldr .wrap (.withAttrs e l as))).attrs = as ∧
    (∀ c, HasCode e c → (outputErrorLog st (ts.foldr .wrap (.withAttrs e l as))).code = some c) ∧
    ((∀ c, ¬ HasCode e c) →
      (outputErrorLog st (ts.foldr .wrap (.withAttrs e l as))).code = some 2) := by
  have h1 : ∀ ts : List Text, Err.attrs? (ts.foldr .wrap (.withAttrs e l as)) = some (l, as) := by
    intro ts
    induction ts with
    | nil => rfl
    | cons t ts ih => simpa [Err.attrs?] using ih
  have h2 : ∃ s, Err.status? st (ts.foldr .wrap (.withAttrs e l as)) = some s := by
    induction ts with
    | nil => exact ⟨_, rfl⟩
    | cons t ts ih =>
      obtain ⟨s, hs⟩ := ih
      exact ⟨_, by simp [Err.status?, hs]; rfl⟩
  obtain ⟨s, hs⟩ := h2
  rw [outputErrorLog, hs]
  simp only [h1, Option.getD_some, true_and]
  constructor
  · intro c hc
    have : HasCode (ts.foldr .wrap (.withAttrs e l as)) c := by
      clear hs h1
      induction ts with
      | nil => exact .attrs l as hc
      | cons t ts ih => exact .wrap t ih
    obtain ⟨t, ht⟩ := this.status? (st := st)
    rw [hs, Option.some.injEq] at ht
    rw [ht]
  · intro hc
    rw [unknown_status (e := ts.foldr .wrap (.withAttrs e l as)) ?_ s hs]
    intro c
    clear hs h1
    induction ts with
    | nil => intro h; cases h with | attrs _ _ h => exact hc c h
    | cons t ts ih => intro h; cases h with | wrap _ h => exact ih h

/-- An error without attributes. -/
inductive NoAttrs : Err → Prop
  | plain t : NoAttrs (.plain t)
  | status c t : NoAttrs (.status c t)
  | recovered e : NoAttrs (.recovered e)
  | wrap t {e} : NoAttrs e → NoAttrs (.wrap t e)

/-- C78: any other error is logged as an error, with the code of its status if it has one, else without. -/
theorem C78_default (st : Nat → Text → Text) (e : Err) (h : NoAttrs e) :
    (outputErrorLog st e).level = .error ∧ (outputErrorLog st e).attrs = [] ∧
    ∀ c, (outputErrorLog st e).code = some c ↔ HasCode e c := by
  have h1 : e.attrs? = none := by
    induction h with
    | wrap t _ ih => simpa [Err.attrs?] using ih
    | _ => rfl
  have h2 : ∀ c, (∃ t, e.status? st = some (c, t)) → HasCode e c := by
    intro c
    induction h with
    | plain => simp [Err.status?]
    | recovered => simp [Err.status?]
    | status c' t =>
      rintro ⟨t', ht⟩
      simp only [Err.status?, Option.some.injEq, Prod.mk.injEq] at ht
      exact ht.1 ▸ .status c' t
    | @wrap t e _ ih =>
      rintro ⟨t', ht⟩
      simp only [Err.status?, Option.map_eq_some_iff] at ht
      obtain ⟨⟨c', t''⟩, ht, he⟩ := ht
      simp only [Prod.mk.injEq] at he
      exact .wrap t (ih (by cases e <;> simp_all [Err.attrs?]) ⟨t'', by rw [ht, he.1]⟩)
  cases hs : e.status? st with
  | some s =>
    rw [outputErrorLog, hs]
    simp only [h1, Option.getD_none, true_and]
    intro c
    rw [Option.some.injEq]
    constructor
    · rintro rfl
      exact h2 _ ⟨s.2, hs⟩
    · intro hc
      obtain ⟨t, ht⟩ := hc.status? (st := st)
      rw [hs, Option.some.injEq] at ht
      rw [ht]
  | none =>
    have hno : ∀ c, ¬ HasCode e c := by
      intro c hc
      obtain ⟨t, ht⟩ := hc.status? (st := st)
      rw [hs] at ht
      simp at ht
    rw [outputErrorLog, hs]
    cases hr : e.recovered? with
    | some r => simp [hno]
    | none => simp [hno]

/-- What an error says: its own text if it wraps another one, else the text of the status or the plain text;
log attributes do not change it. -/
inductive Says : Err → Text → Prop
  | plain t : Says (.plain t) t
  | status c t : Says (.status c t) t
  | attrs {e t} (l as) : Says e t → Says (.withAttrs e l as) t
  | wrap t e : Says (.wrap t e) t

/-- C78: the message of the log is what the error says, for all errors that are not recovered panics. -/
theorem C78_message (st : Nat → Text → Text) (e : Err) (t : Text) (h : Says e t) (hr : ∀ r, ¬ Wraps r e) :
    (outputErrorLog st e).message = t := by
  have hrec : ∀ e : Err, (∀ r, ¬ Wraps r e) → e.recovered? = none := by
    intro e
    induction e with
    | plain => exact fun _ => rfl
    | status => exact fun _ => rfl
    | recovered r => exact fun h => absurd .self (h r)
    | withAttrs e l as ih => exact fun h => ih fun r hw => h r (.attrs l as hw)
    | wrap t e ih => exact fun h => ih fun r hw => h r (.wrap t hw)
  have key : (e.status? st = none → e.text st = t) ∧ ∀ s, e.status? st = some s → s.2 = t := by
    clear hr
    induction h with
    | plain t => exact ⟨fun _ => rfl, by simp [Err.status?]⟩
    | status c t => simp [Err.status?]
    | @attrs e t l as h ih =>
      refine ⟨by simp [Err.status?], ?_⟩
      intro s hs
      simp only [Err.status?, Option.some.injEq] at hs
      subst hs
      cases hs : e.status? st with
      | none => exact ih.1 hs
      | some s => exact ih.2 s hs
    | wrap t e =>
      refine ⟨fun _ => rfl, ?_⟩
      intro s hs
      simp only [Err.status?, Option.map_eq_some_iff] at hs
      obtain ⟨s', -, rfl⟩ := hs
      rfl
  cases hs : e.status? st with
  | some s =>
    rw [outputErrorLog, hs]
    exact key.2 s hs
  | none =>
    rw [outputErrorLog, hs, hrec e hr]
    exact key.1 hs

/-- A not found error of a call whose error entry asks for a warning. -/
example (st : Nat → Text → Text) : outputErrorLog st (.withAttrs (.status 5 ['n', 'o']) .warn [1, 2]) =
    ⟨.warn, ['n', 'o'], [1, 2], some 5, []⟩ := rfl

end Verif.Recover
