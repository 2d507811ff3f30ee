import Verif.Method.Model
import Verif.MsgArgs.Props

/-! # Properties of methods (C98) -/

namespace Verif.Method
open Verif.GoNames Verif.MsgArgs

/-! ### Specification -/

/-- The message the value is made of: that of the option `response`, else the response. -/
def Decl.madeOf (d : Decl) : Nat :=
  match d.respOpt with
  | some (some m) => m
  | _ => d.response

/-- What a method answers: the message is resolved with the fields of the request as arguments, and converted to the
response if it is another one, all of it within the timeout. -/
def answer {V E : Type} (R : Runtime V E) (d : Decl) (req : List (Name × V)) : Except E V :=
  let dollar : Name → Option V := fun x => req.lookup x
  let made := match d.respOpt with
    | some (some m) => (R.resolve m dollar).bind (R.cast m d.response)
    | _ => R.resolve d.response dollar
  match d.timeout with
  | some (some t) => R.withTimeout t made
  | _ => made

/-- No other method makes its value of the same message, but with another request, and no message builds it. -/
def Own (S : Schema) (d : Decl) : Prop :=
  S.built d.madeOf = none ∧ ∀ p ∈ S.methods, p.2.madeOf = d.madeOf → p.2.request = d.request

/-- The names of the fields of the request, and of the variables of the message, are told apart in Go. -/
def Apart (S : Schema) (d : Decl) : Prop :=
  (((S.msgs d.madeOf).vars ++ (S.msgs d.request).fields.map fun f => (f.name, f.ty)).map
    fun f => toPublicGoVariable f.1).Nodup

/-! ### Lemmas -/

theorem fed_madeOf (msgs : Nat → Msg) (d : Decl) : (resolveRule msgs d).1.fedResponse = d.madeOf := by
  unfold Method.fedResponse Decl.madeOf resolveRule resolveResponse
  cases d.respOpt with
  | none => rfl
  | some o => cases o <;> rfl

theorem mem_resolved {S : Schema} {b : Bool} {d : Decl} (h : (b, d) ∈ S.methods) :
    (resolveRule S.msgs d).1 ∈ S.resolved := List.mem_map.2 ⟨(b, d), h, rfl⟩

theorem lookup_own {S : Schema} {b : Bool} {d : Decl} (h : (b, d) ∈ S.methods) (ho : Own S d) {order : List Method}
    (hp : order.Perm S.resolved) : lookupRequest order d.madeOf = some d.request := by
  unfold lookupRequest
  cases hf : order.find? (fun m => m.fedResponse == d.madeOf) with
  | none =>
    have := List.find?_eq_none.1 hf _ (hp.mem_iff.2 (mem_resolved h))
    rw [fed_madeOf] at this
    simp at this
  | some m =>
    have hm := hp.mem_iff.1 (List.mem_of_find?_eq_some hf)
    have he := List.find?_some hf
    simp only [beq_iff_eq] at he
    obtain ⟨p, hp', rfl⟩ := List.mem_map.1 hm
    rw [fed_madeOf] at he
    simp only [Option.map_some]
    exact congrArg some (ho.2 p hp' he)

theorem argFields_own {S : Schema} {b : Bool} {d : Decl} (h : (b, d) ∈ S.methods) (ho : Own S d) {order : List Method}
    (hp : order.Perm S.resolved) : argFields S order d.madeOf = (S.msgs d.request).fields := by
  unfold argFields
  rw [ho.1, lookup_own h ho hp]

theorem errs_nil {S : Schema} (h : S.errs = []) {b : Bool} {d : Decl} (hd : (b, d) ∈ S.methods) :
    (resolveRule S.msgs d).2 = [] := by
  unfold Schema.errs at h
  have h1 := (List.append_eq_nil_iff.1 h).1
  exact List.flatMap_eq_nil_iff.1 h1 (b, d) hd

theorem lookup_of_mem {l : List (Name × Types.Ty)} (hn : (l.map (·.1)).Nodup) {p : Name × Types.Ty} (hp : p ∈ l) :
    l.lookup p.1 = some p.2 := by
  induction l with
  | nil => simp at hp
  | cons q l ih =>
    rw [List.map_cons, List.nodup_cons] at hn
    obtain ⟨a, b⟩ := q
    rw [List.lookup_cons]
    rcases List.mem_cons.1 hp with rfl | hp
    · simp
    · have : p.1 ≠ a := fun e => hn.1 (by rw [← e]; exact List.mem_map.2 ⟨p, hp, rfl⟩)
      rw [beq_eq_false_iff_ne.2 this]
      exact ih hn.2 hp

/-! ### Properties -/

/-- Whatever the order in which the map of methods is walked, a method whose message is its own gets the fields of its
request as arguments. -/
theorem C98_arguments_partial (S : Schema) (b : Bool) (d : Decl) (h : (b, d) ∈ S.methods) (ho : Own S d)
    (order : List Method) (hp : order.Perm S.resolved) :
    argFields S order d.madeOf = (S.msgs d.request).fields := argFields_own h ho hp

/-- The generated method compiles and answers with the message made of the request, within the timeout and converted to the
response (partial: not both options, and the message is the method's own). -/
theorem C98_answer_partial {V E : Type} (R : Runtime V E) (S : Schema) (hacc : S.errs = []) (b : Bool) (d : Decl)
    (h : (b, d) ∈ S.methods) (ho : Own S d) (hap : Apart S d) (hone : d.timeout = none ∨ d.respOpt = none)
    (order : List Method) (hp : order.Perm S.resolved) (req : List (Name × V))
    (hreq : req.map (·.1) = (S.msgs d.request).fields.map (·.name)) :
    compiles S order (resolveRule S.msgs d).1 = true ∧ run R S order (resolveRule S.msgs d).1 req = answer R d req := by
  have he := errs_nil hacc h
  have hnd : (((S.msgs d.request).fields.map (·.name)).map toPublicGoVariable).Nodup := by
    unfold Apart at hap
    rw [List.map_append] at hap
    have := (List.nodup_append.1 hap).2.1
    rw [List.map_map] at this ⊢
    exact this
  have hdollar : argument S order (resolveRule S.msgs d).1 req = fun x => req.lookup x := by
    unfold argument
    rw [fed_madeOf, argFields_own h ho hp, ← hreq]
    refine (dollar_passed req _ ?_ fun _ _ => rfl).trans rfl
    rw [← hreq, List.map_map] at hnd
    exact hnd
  refine ⟨?_, ?_⟩
  · unfold compiles
    simp only [Bool.and_eq_true, decide_eq_true_eq, List.all_eq_true]
    refine ⟨⟨?_, ?_⟩, ?_⟩
    · unfold body
      simp only [fed_madeOf]
      simp only [resolveRule, resolveTimeout, resolveResponse, Decl.madeOf] at he ⊢
      rcases hone with h1 | h1
      · rw [h1]
        cases hr : d.respOpt with
        | none => rfl
        | some o =>
          cases o with
          | none => rw [hr] at he; simp at he
          | some r => rfl
      · rw [h1]
        cases ht : d.timeout with
        | none => rfl
        | some o =>
          cases o with
          | none => rw [ht] at he; simp at he
          | some t => rfl
    · intro p hp'
      obtain ⟨f, hf, rfl⟩ := List.mem_map.1 hp'
      unfold argStruct
      rw [fed_madeOf, argFields_own h ho hp]
      exact lookup_of_mem (C65_struct_once _ _) (C65_struct_partial _ _ hap (f.name, f.ty)
        (List.mem_append_right _ (List.mem_map.2 ⟨f, hf, rfl⟩)))
    · unfold literal
      rw [List.map_map]
      rw [List.map_map] at hnd
      exact hnd
  · unfold run body
    rw [hdollar]
    simp only [fed_madeOf]
    unfold answer
    simp only [resolveRule, resolveTimeout, resolveResponse, Decl.madeOf] at he ⊢
    rcases hone with h1 | h1
    · rw [h1]
      cases hr : d.respOpt with
      | none => rfl
      | some o =>
        cases o with
        | none => rfl
        | some r => rfl
    · rw [h1]
      cases ht : d.timeout with
      | none => rfl
      | some o =>
        cases o with
        | none => rfl
        | some t => rfl

/-- The message a method of a federation service is made of has the message option. -/
theorem C98_option (S : Schema) (hacc : S.errs = []) (d : Decl) (h : (true, d) ∈ S.methods) :
    (S.msgs d.madeOf).hasRule = true := by
  unfold Schema.errs at hacc
  have h2 := List.flatMap_eq_nil_iff.1 (List.append_eq_nil_iff.1 hacc).2 (true, d) (List.mem_filter.2 ⟨h, rfl⟩)
  unfold responseErrs at h2
  rw [fed_madeOf] at h2
  split at h2
  · assumption
  · simp at h2

/-- A message of the option `response` is accepted exactly if every field of the response is a field of it with a type that
is not different by kind. -/
theorem C98_fields_partial (msgs : Nat → Msg) (d : Decl) (m : Nat) (hr : d.respOpt = some (some m)) :
    (resolveResponse msgs d).2 = [] ↔ ∀ f ∈ (msgs d.response).fields,
      ∃ g, (msgs m).fields.find? (fun g => g.name == f.name) = some g ∧ Types.isDifferent g.ty f.ty = false := by
  unfold resolveResponse
  rw [hr]
  have hnil : notFound (msgs m) (msgs d.response) = [] ↔ ∀ f ∈ (msgs d.response).fields,
      ∃ g, (msgs m).fields.find? (fun g => g.name == f.name) = some g ∧ Types.isDifferent g.ty f.ty = false := by
    unfold notFound
    rw [List.map_eq_nil_iff, List.filter_eq_nil_iff]
    constructor
    · intro h f hf
      have := h f hf
      cases hg : (msgs m).fields.find? (fun g => g.name == f.name) with
      | none => rw [hg] at this; simp at this
      | some g =>
        rw [hg] at this
        exact ⟨g, rfl, by simpa using this⟩
    · intro h f hf
      obtain ⟨g, hg, hd⟩ := h f hf
      rw [hg]
      simp [hd]
  simp only
  split
  · rename_i hne
    constructor
    · intro h; simp at h
    · intro h; exact absurd (hnil.2 h) hne
  · rename_i he
    exact ⟨fun _ => hnil.1 (by simpa using he), fun _ => rfl⟩

/-- A timeout that is no duration is rejected. -/
theorem C98_timeout (S : Schema) (hacc : S.errs = []) (b : Bool) (d : Decl) (h : (b, d) ∈ S.methods) :
    d.timeout ≠ some none ∧ d.respOpt ≠ some none := by
  have he := errs_nil hacc h
  simp only [resolveRule, List.append_eq_nil_iff] at he
  constructor
  · intro e; have := he.1; unfold resolveTimeout at this; rw [e] at this; simp at this
  · intro e; have := he.2; unfold resolveResponse at this; rw [e] at this; simp at this

/-! ### What the code gets wrong -/

def strTy : Types.Ty := .scalar .string false
def idField : Field := ⟨['i', 'd'], strTy⟩
def nameField : Field := ⟨['n', 'a', 'm', 'e'], strTy⟩

/-- A method with both options does not compile, as soon as the message of the option is not the response itself. -/
theorem C98_both_never (S : Schema) (d : Decl) (t : Int) (m : Nat) (ht : d.timeout = some (some t))
    (hr : d.respOpt = some (some m)) (hne : m ≠ d.response) (order : List Method) :
    compiles S order (resolveRule S.msgs d).1 = false := by
  unfold compiles
  have : (body (resolveRule S.msgs d).1).returns = m := by
    unfold body
    simp only [fed_madeOf]
    simp only [resolveRule, resolveTimeout, ht, Body.returns, Decl.madeOf, hr]
  have hne' : ¬ (body (resolveRule S.msgs d).1).returns = (resolveRule S.msgs d).1.decl.response := by
    rw [this]; exact hne
  rw [decide_eq_false hne']
  simp

theorem compiles_congr {S : Schema} {o o' : List Method} {m : Method}
    (h : argFields S o m.fedResponse = argFields S o' m.fedResponse) : compiles S o m = compiles S o' m := by
  unfold compiles argStruct
  rw [h]

/-- Messages: 0 the request with `id`, 1 the response with `id`, 2 a message with option and `id`, 3 a request with `name`. -/
def witMsgs : Nat → Msg := fun n =>
  match n with
  | 0 => ⟨[idField], false, []⟩
  | 1 => ⟨[idField], true, []⟩
  | 2 => ⟨[idField], true, []⟩
  | 3 => ⟨[nameField], false, []⟩
  | 4 => ⟨[⟨['i', 'd'], .scalar .string true⟩], true, []⟩
  | _ => ⟨[], false, []⟩

/-- Both options are accepted, and the code does not compile. -/
theorem C98_both_false : ∃ S : Schema, S.errs = [] ∧ ∃ d, (true, d) ∈ S.methods ∧ Own S d ∧ Apart S d ∧
    ∀ order, compiles S order (resolveRule S.msgs d).1 = false :=
  let d : Decl := ⟨"Get", 0, 1, some (some 1000), some (some 2), false⟩
  ⟨⟨witMsgs, [(true, d)], fun _ => none⟩, by decide, d, by decide, by unfold Own; decide, by unfold Apart; decide,
    fun order => C98_both_never _ d 1000 2 rfl rfl (by decide) order⟩

/-- Two methods with the same response and different requests are accepted.  The order of the walk decides about the
arguments, and whichever it is, the code of one of the two does not compile. -/
theorem C98_requests_false : ∃ S : Schema, S.errs = [] ∧ S.resolved.Nodup ∧
    (∃ o o' : List Method, o.Perm S.resolved ∧ o'.Perm S.resolved ∧ argFields S o 1 ≠ argFields S o' 1) ∧
    ∀ o : List Method, o.Perm S.resolved → ∃ m ∈ S.resolved, compiles S o m = false := by
  let d : Decl := ⟨"Get", 0, 1, none, none, false⟩
  let e : Decl := ⟨"Find", 3, 1, none, none, false⟩
  refine ⟨⟨witMsgs, [(true, d), (true, e)], fun _ => none⟩, by decide, by decide, ?_, ?_⟩
  · exact ⟨[⟨d, none, none⟩, ⟨e, none, none⟩], [⟨e, none, none⟩, ⟨d, none, none⟩], List.Perm.refl _,
      List.Perm.swap _ _ _, by decide⟩
  · intro o ho
    have hlen : o.length = 2 := ho.length_eq
    have hmem : ∀ m ∈ o, m = ⟨d, none, none⟩ ∨ m = ⟨e, none, none⟩ := by
      intro m hm
      have := ho.mem_iff.1 hm
      simpa [Schema.resolved, resolveRule, resolveTimeout, resolveResponse, d, e] using this
    match o, hlen, hmem with
    | x :: rest, _, hmem =>
      rcases hmem x (by simp) with rfl | rfl
      · refine ⟨⟨e, none, none⟩, by decide, ?_⟩
        have hl : lookupRequest (⟨d, none, none⟩ :: rest) 1 = some 0 := by
          unfold lookupRequest
          rw [List.find?_cons_of_pos (by decide)]
          rfl
        have ha : argFields ⟨witMsgs, [(true, d), (true, e)], fun _ => none⟩ (⟨d, none, none⟩ :: rest) 1 = [idField] := by
          unfold argFields
          simp only [hl]
          rfl
        rw [compiles_congr (o' := [⟨d, none, none⟩]) (ha.trans (by decide))]
        decide
      · refine ⟨⟨d, none, none⟩, by decide, ?_⟩
        have hl : lookupRequest (⟨e, none, none⟩ :: rest) 1 = some 3 := by
          unfold lookupRequest
          rw [List.find?_cons_of_pos (by decide)]
          rfl
        have ha : argFields ⟨witMsgs, [(true, d), (true, e)], fun _ => none⟩ (⟨e, none, none⟩ :: rest) 1 = [nameField] := by
          unfold argFields
          simp only [hl]
          rfl
        rw [compiles_congr (o' := [⟨e, none, none⟩]) (ha.trans (by decide))]
        decide

/-- A response that another message builds too has the arguments of that one; the method does not compile. -/
theorem C98_built_false : ∃ S : Schema, S.errs = [] ∧ ∃ d, (true, d) ∈ S.methods ∧
    ∀ order, compiles S order (resolveRule S.msgs d).1 = false := by
  let d : Decl := ⟨"Get", 0, 1, none, none, false⟩
  refine ⟨⟨witMsgs, [(true, d)], fun n => if n = 1 then some [nameField] else none⟩, by decide, d, by decide, fun order => ?_⟩
  have he : compiles ⟨witMsgs, [(true, d)], fun n => if n = 1 then some [nameField] else none⟩ order (resolveRule witMsgs d).1 =
      compiles ⟨witMsgs, [(true, d)], fun n => if n = 1 then some [nameField] else none⟩ [] (resolveRule witMsgs d).1 := rfl
  exact he.trans (by decide)

/-- The fields of the message of the option need not have the types of those of the response: a list is accepted for a
single value. -/
theorem C98_types_false : ∃ S : Schema, S.errs = [] ∧ ∃ d m, (true, d) ∈ S.methods ∧ d.respOpt = some (some m) ∧
    (S.msgs m).fields ≠ (S.msgs d.response).fields ∧
    (S.msgs m).fields.map (fun f => Types.repeated f.ty) ≠ (S.msgs d.response).fields.map (fun f => Types.repeated f.ty) :=
  let d : Decl := ⟨"Get", 0, 1, none, some (some 4), false⟩
  ⟨⟨witMsgs, [(true, d)], fun _ => none⟩, by decide, d, 4, by decide, rfl, by decide, by decide⟩

/-- A method with a stream is accepted, but its function has the signature of one without. -/
theorem C98_streaming_false : ∃ S : Schema, S.errs = [] ∧ ∃ d, (true, d) ∈ S.methods ∧
    implements (resolveRule S.msgs d).1 = false :=
  let d : Decl := ⟨"Get", 0, 1, none, none, true⟩
  ⟨⟨witMsgs, [(true, d)], fun _ => none⟩, by decide, d, by decide, rfl⟩

/-- The hypotheses are met: a method with a response option beside one with a timeout. -/
example :
    let d : Decl := ⟨"Get", 0, 1, none, some (some 2), false⟩
    let e : Decl := ⟨"Find", 3, 1, some (some 5), none, false⟩
    let S : Schema := ⟨witMsgs, [(true, d), (true, e)], fun _ => none⟩
    S.errs = [] ∧ Own S d ∧ Own S e ∧ Apart S d ∧ Apart S e := by
  unfold Own Apart
  decide

end Verif.Method
