import Verif.MsgOnce.Props

/-!
# The resolution of the types of plugins

`resolveMessage` builds locations on its way.  For the types a plugin exports (`resolver/resolver.go` line 853) and for names in options
it is given a builder made by `ToLazyMessageBuilder`, whose function makes a new, empty message each time it is called
(`source/location_builder.go` lines 828-837).  What is under it is then nil.
-/

namespace Verif.MsgOnce

/-- A `MessageBuilder`: one from `NewMessageBuilder` or `LocationBuilder.WithMessage` (`source/location_builder.go` lines 80-89), whose
function finds its message; one from `ToLazyMessageBuilder` (lines 828-837); and one made from that by `WithMessage` (lines 762-772), whose
function takes `NestedMessage` of a new message and gives nil. -/
inductive Builder where
  | proper | lazy | inner
deriving DecidableEq

/-- `MessageBuilder.WithMessage`, `source/location_builder.go` lines 762-772: `b.message(root)` must not be nil. -/
def Builder.withMessage : Builder → Option Builder
  | .proper => some .proper
  | .lazy => some .inner
  | .inner => none

/-- `WithEnum`, `WithField` and `WithOneof`, `source/location_builder.go` lines 774-796 and 810-820, write to `b.message(root)`; the
result is whether there is a message to write to. -/
def Builder.writes : Builder → Bool
  | .inner => false
  | _ => true

/-- The outcome of a call: a result, a panic, or more depth is needed. -/
inductive Out (α : Type) where
  | ok (a : α) | panic | more

/-- The loop over nested messages, `resolver/resolver.go` lines 1150-1157; the builder is made before each call (line 1151). -/
def eachB (f : Builder → Name → St → Out (Option Nat × St)) (b : Builder) : List Name → St → Out (List Nat × St)
  | [], st => .ok ([], st)
  | n :: ns, st =>
    match b.withMessage with
    | none => .panic
    | some b' =>
      match f b' n st with
      | .panic => .panic
      | .more => .more
      | .ok (r, st1) =>
        match eachB f b ns st1 with
        | .panic => .panic
        | .more => .more
        | .ok (rs, st2) => .ok (r.toList ++ rs, st2)

/-- The loop over fields, `resolver/resolver.go` lines 3277-3283: `builder.WithField` for each field, and a new builder for the message
of its type (line 3345). -/
def fieldsB (f : Builder → Name → St → Out (Option Nat × St)) : List Name → St → Out (List Nat × St)
  | [], st => .ok ([], st)
  | n :: ns, st =>
    match f .proper n st with
    | .panic => .panic
    | .more => .more
    | .ok (r, st1) =>
      match fieldsB f ns st1 with
      | .panic => .panic
      | .more => .more
      | .ok (rs, st2) => .ok (r.toList ++ rs, st2)

/-- `resolveMessage`, `resolver/resolver.go` lines 1129-1189, with its builder.  `content n` is whether the message has enums (lines
1158-1165), oneofs (lines 1181-1185) or fields of any type (lines 3277-3283). -/
def resolveB (ds : Decls) (content : Name → Bool) : Nat → Builder → Name → St → Out (Option Nat × St)
  | 0, _, _, _ => .more
  | fuel + 1, b, n, st =>
    match st.cache n with
    | some i => .ok (some i, st)
    | none =>
      match ds n with
      | none => .ok (none, st)
      | some d =>
        match eachB (resolveB ds content fuel) b d.nested st with
        | .panic => .panic
        | .more => .more
        | .ok (ns, st1) =>
          if content n && !b.writes then .panic else
          let id := st1.heap.length
          match fieldsB (resolveB ds content fuel) d.fields
              ⟨st1.heap ++ [⟨n, ns, []⟩], fun x => if x = n then some id else st1.cache x⟩ with
          | .panic => .panic
          | .more => .more
          | .ok (fs, st2) => .ok (some id, ⟨st2.heap.set id ⟨n, ns, fs⟩, st2.cache⟩)

/-- A result, if there is no panic. -/
def toOut {α : Type} : Option α → Out α
  | some a => .ok a
  | none => .more

theorem eachB_proper {f : Builder → Name → St → Out (Option Nat × St)} {g : Name → St → Option (Option Nat × St)}
    (h : ∀ n st, f .proper n st = toOut (g n st)) : ∀ (ns : List Name) (st : St), eachB f .proper ns st = toOut (each g ns st)
  | [], st => rfl
  | n :: ns, st => by
    simp only [eachB, Builder.withMessage, each, h n st]
    cases h1 : g n st with
    | none => simp only [toOut]
    | some p =>
      simp only [toOut]
      rw [eachB_proper h ns p.2]
      cases h2 : each g ns p.2 with
      | none => simp only [toOut]
      | some q => simp only [toOut]

theorem fieldsB_eq {f : Builder → Name → St → Out (Option Nat × St)} {g : Name → St → Option (Option Nat × St)}
    (h : ∀ n st, f .proper n st = toOut (g n st)) : ∀ (ns : List Name) (st : St), fieldsB f ns st = toOut (each g ns st)
  | [], st => rfl
  | n :: ns, st => by
    simp only [fieldsB, each, h n st]
    cases h1 : g n st with
    | none => simp only [toOut]
    | some p =>
      simp only [toOut]
      rw [fieldsB_eq h ns p.2]
      cases h2 : each g ns p.2 with
      | none => simp only [toOut]
      | some q => simp only [toOut]

theorem resolveB_proper (ds : Decls) (content : Name → Bool) : ∀ (fuel : Nat) (n : Name) (st : St),
    resolveB ds content fuel .proper n st = toOut (resolve ds fuel n st)
  | 0, _, _ => rfl
  | fuel + 1, n, st => by
    simp only [resolveB, resolve]
    cases hc : st.cache n with
    | some i => rfl
    | none =>
      simp only
      cases hd : ds n with
      | none => rfl
      | some d =>
        simp only [eachB_proper (resolveB_proper ds content fuel)]
        cases h1 : each (resolve ds fuel) d.nested st with
        | none => rfl
        | some p =>
          simp only [toOut, Builder.writes, Bool.not_true, Bool.and_false, Bool.false_eq_true, if_false,
            fieldsB_eq (resolveB_proper ds content fuel)]
          cases h2 : each (resolve ds fuel) d.fields
              ⟨p.2.heap ++ [⟨n, p.1, []⟩], fun x => if x = n then some p.2.heap.length else p.2.cache x⟩ with
          | none => rfl
          | some q => rfl

/-- A message that has to be resolved and has a nested message or content. -/
def Full (ds : Decls) (content : Name → Bool) (m : Name) : Prop := ∃ d, ds m = some d ∧ (d.nested ≠ [] ∨ content m = true)

theorem resolveB_inner {ds : Decls} {content : Name → Bool} (hf : ∀ n d, ds n = some d → d.fields ≠ [] → content n = true)
    (fuel : Nat) (n : Name) (st : St) (hc : st.cache n = none) :
    (Full ds content n → resolveB ds content (fuel + 1) .inner n st = .panic) ∧
    (¬ Full ds content n → ∃ r st', resolveB ds content (fuel + 1) .inner n st = .ok (r, st') ∧ ∀ x, x ≠ n → st'.cache x = st.cache x) := by
  simp only [resolveB, hc]
  cases hd : ds n with
  | none => exact ⟨fun ⟨d, h, _⟩ => (by rw [hd] at h; cases h), fun _ => ⟨none, st, rfl, fun _ _ => rfl⟩⟩
  | some d =>
    simp only
    cases hn : d.nested with
    | cons m ms =>
      refine ⟨fun _ => ?_, fun h => absurd ⟨d, hd, .inl (by rw [hn]; simp)⟩ h⟩
      simp only [eachB, Builder.withMessage]
    | nil =>
      simp only [eachB, Builder.writes, Bool.not_false, Bool.and_true]
      constructor
      · rintro ⟨d', h, hor⟩
        rw [hd, Option.some.injEq] at h
        subst h
        rcases hor with hor | hor
        · exact absurd hn hor
        · rw [if_pos hor]
      · intro h
        have hcn : ¬ content n = true := fun hc => h ⟨d, hd, .inr hc⟩
        have hfn : d.fields = [] := Classical.byContradiction fun hne => hcn (hf n d hd hne)
        rw [if_neg hcn, hfn]
        simp only [fieldsB]
        refine ⟨_, _, rfl, fun x hx => ?_⟩
        simp only [if_neg hx]

/-- The nested messages of the exported type: a panic exactly if one that is not resolved yet has a field, an enum, a oneof or a nested
message. -/
theorem eachB_lazy {ds : Decls} {content : Name → Bool} (hf : ∀ n d, ds n = some d → d.fields ≠ [] → content n = true) (fuel : Nat) :
    ∀ (ns : List Name) (st : St), ns.Nodup →
      (eachB (resolveB ds content (fuel + 1)) .lazy ns st = .panic ↔ ∃ m ∈ ns, st.cache m = none ∧ Full ds content m) ∧
      eachB (resolveB ds content (fuel + 1)) .lazy ns st ≠ .more
  | [], st, _ => by simp [eachB]
  | n :: ns, st, hnd => by
    rw [List.nodup_cons] at hnd
    simp only [eachB, Builder.withMessage]
    cases hc : st.cache n with
    | some i =>
      have he : resolveB ds content (fuel + 1) .inner n st = .ok (some i, st) := by simp only [resolveB, hc]
      rw [he]
      obtain ⟨ih1, ih2⟩ := eachB_lazy hf fuel ns st hnd.2
      simp only
      have : (∃ m ∈ n :: ns, st.cache m = none ∧ Full ds content m) ↔ ∃ m ∈ ns, st.cache m = none ∧ Full ds content m := by
        constructor
        · rintro ⟨m, hm, h1, h2⟩
          rcases List.mem_cons.1 hm with rfl | hm
          · rw [hc] at h1; cases h1
          · exact ⟨m, hm, h1, h2⟩
        · rintro ⟨m, hm, h⟩
          exact ⟨m, by simp [hm], h⟩
      rw [this, ← ih1]
      cases h2 : eachB (resolveB ds content (fuel + 1)) .lazy ns st with
      | panic => simp
      | more => exact absurd h2 ih2
      | ok q => simp
    | none =>
      obtain ⟨h1, h2⟩ := resolveB_inner hf fuel n st hc
      by_cases hfull : Full ds content n
      · rw [h1 hfull]
        exact ⟨⟨fun _ => ⟨n, by simp, hc, hfull⟩, fun _ => rfl⟩, fun h => by cases h⟩
      · obtain ⟨r, st', he, hst⟩ := h2 hfull
        rw [he]
        obtain ⟨ih1, ih2⟩ := eachB_lazy hf fuel ns st' hnd.2
        simp only
        have : (∃ m ∈ n :: ns, st.cache m = none ∧ Full ds content m) ↔ ∃ m ∈ ns, st'.cache m = none ∧ Full ds content m := by
          constructor
          · rintro ⟨m, hm, g1, g2⟩
            rcases List.mem_cons.1 hm with rfl | hm
            · exact absurd g2 hfull
            · exact ⟨m, hm, (by rw [hst m (fun he => hnd.1 (he ▸ hm))]; exact g1), g2⟩
          · rintro ⟨m, hm, g1, g2⟩
            exact ⟨m, by simp [hm], (by rw [← hst m (fun he => hnd.1 (he ▸ hm))]; exact g1), g2⟩
        rw [this, ← ih1]
        cases h2 : eachB (resolveB ds content (fuel + 1)) .lazy ns st' with
        | panic => simp
        | more => exact absurd h2 ih2
        | ok q => simp

theorem toOut_panic {α : Type} (o : Option α) : toOut o ≠ .panic := by cases o <;> simp [toOut]

/-- Messages of files, of methods and of fields are resolved without a panic; the type that a plugin exports makes the resolver panic
exactly if it is not resolved yet and has a nested message, for instance that of a map field, that is not resolved yet and has a field,
an enum, a oneof or a nested message. -/
theorem C111_panics_partial (ds : Decls) (content : Name → Bool) (hf : ∀ n d, ds n = some d → d.fields ≠ [] → content n = true)
    (hn : ∀ n d, ds n = some d → d.nested.Nodup) (fuel : Nat) (n : Name) (st : St) :
    (resolveB ds content (fuel + 2) .proper n st ≠ .panic) ∧
    (resolveB ds content (fuel + 2) .lazy n st = .panic ↔
      st.cache n = none ∧ ∃ d, ds n = some d ∧ ∃ m ∈ d.nested, st.cache m = none ∧ Full ds content m) := by
  refine ⟨by rw [resolveB_proper]; exact toOut_panic _, ?_⟩
  rw [resolveB]
  cases hc : st.cache n with
  | some i => simp
  | none =>
    simp only [true_and]
    cases hd : ds n with
    | none => simp
    | some d =>
      simp only [Option.some.injEq, exists_eq_left']
      obtain ⟨h1, h2⟩ := eachB_lazy hf fuel d.nested st (hn n d hd)
      rw [← h1]
      cases he : eachB (resolveB ds content (fuel + 1)) .lazy d.nested st with
      | panic => simp
      | more => exact absurd he h2
      | ok q =>
        simp only [Builder.writes, Bool.not_true, Bool.and_false, Bool.false_eq_true, if_false, reduceCtorEq, iff_false]
        have hp := fieldsB_eq (resolveB_proper ds content (fuel + 1)) d.fields
          ⟨q.2.heap ++ [⟨n, q.1, []⟩], fun x => if x = n then some q.2.heap.length else q.2.cache x⟩
        rw [hp]
        cases each (resolve ds (fuel + 1)) d.fields
          ⟨q.2.heap ++ [⟨n, q.1, []⟩], fun x => if x = n then some q.2.heap.length else q.2.cache x⟩ with
        | none => simp [toOut]
        | some t => simp [toOut]

/-- `types: [{name: "Regexp" …}]` of a plugin for `message Regexp { map<string, string> groups = 1; }`: the resolver panics. -/
theorem C111_panic_false (fuel : Nat) :
    resolveB (fun n => if n = ["Regexp"] then some ⟨[["Regexp", "GroupsEntry"]], [["Regexp", "GroupsEntry"]]⟩
      else if n = ["Regexp", "GroupsEntry"] then some ⟨[], []⟩ else none) (fun _ => true) (fuel + 2) .lazy ["Regexp"] .empty = .panic := by
  simp [resolveB, St.empty, eachB, Builder.withMessage, Builder.writes]

/-- A plugin with a function that has the message as a parameter resolves it before, and does not panic. -/
example (fuel : Nat) (st : St) (i : Nat) (h : st.cache ["Regexp"] = some i) (ds : Decls) :
    resolveB ds (fun _ => true) (fuel + 1) .lazy ["Regexp"] st = .ok (some i, st) := by
  simp only [resolveB, h]

end Verif.MsgOnce
