import Verif.GenRefs.Lemmas

/-! # C68: everything the generated code of a service refers to is declared -/

namespace Verif.GenRefs

open Verif.Graph (Walk)

/-! ## Reachability -/

theorem Reaches.trans {msgs : List Msg} {a b c : Nat} (h : Reaches msgs a b) (h' : Reaches msgs b c) :
    Reaches msgs a c := by
  induction h' with
  | refl => exact h
  | step _ h1 h2 ih => exact .step ih h1 h2

theorem reaches_of_walk {msgs : List Msg} {a b : Nat} (h : Walk (AllGraph.children (toAll msgs)) a b) :
    Reaches msgs a b := by
  induction h with
  | edge h => obtain ⟨_, _, d, h1, h2⟩ := children_iff.mp h; exact .step .refl h1 h2
  | cons h _ ih =>
    obtain ⟨_, _, d, h1, h2⟩ := children_iff.mp h
    exact Reaches.trans (.step .refl h1 h2) ih

theorem walk_of_reaches {msgs : List Msg} {a b : Nat} (h : Reaches msgs a b)
    (ho : ∀ m, Reaches msgs a m → (getMsg msgs m).option = true) :
    a = b ∨ Walk (AllGraph.children (toAll msgs)) a b := by
  induction h with
  | refl => exact Or.inl rfl
  | step h h1 h2 ih =>
    have e : _ ∈ AllGraph.children (toAll msgs) _ :=
      children_iff.mpr ⟨ho _ h, ho _ (.step h h1 h2), _, h1, h2⟩
    rcases ih with rfl | ih
    · exact Or.inr (.edge e)
    · exact Or.inr (ih.snoc e)

theorem mem_messages {msgs : List Msg} {s : Service} {m : Nat} :
    m ∈ messages msgs s ↔ ∃ r, AllGraph.IsRoot (toAll msgs) r ∧ s.hasMessage r = true ∧
      (r = m ∨ Walk (AllGraph.children (toAll msgs)) r m) := by
  unfold messages childMessages
  simp only [List.mem_flatMap, AllGraph.mem_roots]
  constructor
  · rintro ⟨r, hr, h⟩
    by_cases hm : s.hasMessage r = true
    · rw [if_pos hm] at h
      obtain ⟨b, h1, h2⟩ := gather_sound h
      simp at h2; subst h2
      exact ⟨r, hr, hm, h1⟩
    · rw [if_neg hm] at h; simp at h
  · rintro ⟨r, hr, hm, h⟩
    refine ⟨r, hr, ?_⟩
    rw [if_pos hm]
    exact gather_complete children_lt h (by simp)

theorem hasMessage_iff {s : Service} {m : Nat} :
    s.hasMessage m = true ↔ Entry s m ∨ ∃ mtd ∈ s.methods, mtd.request = m := by
  unfold Service.hasMessage Entry
  simp only [Bool.or_eq_true, List.any_eq_true, beq_iff_eq, List.contains_iff_mem]
  constructor
  · rintro (⟨mtd, h1, h2 | h2⟩ | h)
    · exact Or.inr ⟨mtd, h1, h2⟩
    · exact Or.inl (Or.inl ⟨mtd, h1, h2⟩)
    · exact Or.inl (Or.inr h)
  · rintro ((⟨mtd, h1, h2⟩ | h) | ⟨mtd, h1, h2⟩)
    · exact Or.inl ⟨mtd, h1, Or.inr h2⟩
    · exact Or.inr h
    · exact Or.inl ⟨mtd, h1, Or.inl h2⟩

theorem used_of_messages {msgs : List Msg} {s : Service} (hq : PlainRequests msgs s) {m : Nat}
    (h : m ∈ messages msgs s) : Used msgs s m := by
  obtain ⟨r, ⟨⟨defs, h1⟩, _⟩, h2, h3⟩ := mem_messages.mp h
  have ho := toAll_option h1
  have he : Entry s r := by
    rcases hasMessage_iff.mp h2 with h2 | ⟨mtd, h4, h5⟩
    · exact h2
    · have := hq mtd h4; rw [h5, ho] at this; cases this
  refine ⟨r, he, ?_⟩
  rcases h3 with rfl | h3
  · exact .refl
  · exact reaches_of_walk h3

theorem mem_resolvers {msgs : List Msg} {s : Service} {m : Nat} :
    m ∈ resolvers msgs s ↔ m ∈ messages msgs s ∧ (getMsg msgs m).hasRule = true := by
  unfold resolvers; simp

theorem used_of_resolvers {msgs : List Msg} {s : Service} (hq : PlainRequests msgs s) {m : Nat}
    (h : m ∈ resolvers msgs s) : Used msgs s m := used_of_messages hq (mem_resolvers.mp h).1

/-! ## Message resolver functions -/

/-- C68, resolver functions (partial: only if every message the service starts from can be reached
from one of them that no message resolves): every resolver function that is called is generated. -/
theorem C68_resolvers_partial (msgs : List Msg) (s : Service) (hr : Resolvable msgs s)
    (hq : PlainRequests msgs s)
    (hentry : ∀ e, Entry s e → ∃ e', Entry s e' ∧ Unused msgs e' ∧ Reaches msgs e' e)
    (t : Nat) (h : CallsResolver msgs s t) : t ∈ resolvers msgs s := by
  have key : ∀ e, Entry s e → e ∈ resolvers msgs s := by
    intro e he
    obtain ⟨e', h1, h2, h3⟩ := hentry e he
    have ho : ∀ m, Reaches msgs e' m → (getMsg msgs m).option = true :=
      fun m hm => option_of_hasRule (hr m ⟨e', h1, hm⟩)
    refine mem_resolvers.mpr ⟨mem_messages.mpr ⟨e', ⟨⟨_, (getMsg_option (ho e' .refl)).2⟩, ?_⟩,
      hasMessage_iff.mpr (Or.inl h1), walk_of_reaches h3 ho⟩, hasRule_iff.mpr (hr e ⟨e', h1, h3⟩)⟩
    intro a ha
    obtain ⟨h4, _, d, h5, h6⟩ := depends_iff.mp ha
    exact h2 a d h4 h5 h6
  cases h with
  | method h => exact key _ (Or.inl ⟨_, h, rfl⟩)
  | var h => exact key _ (Or.inr h)
  | inside h1 h2 h3 =>
    obtain ⟨e, he, hm⟩ := used_of_resolvers hq h1
    have ht := hr _ ⟨e, he, .step hm h2 h3⟩
    have hm' := hr _ ⟨e, he, hm⟩
    obtain ⟨r, h4, h5, h6⟩ := mem_messages.mp (mem_resolvers.mp h1).1
    have e : _ ∈ AllGraph.children (toAll msgs) _ :=
      children_iff.mpr ⟨option_of_hasRule hm', option_of_hasRule ht, _, h2, h3⟩
    refine mem_resolvers.mpr ⟨mem_messages.mpr ⟨r, h4, h5, Or.inr ?_⟩, hasRule_iff.mpr ht⟩
    rcases h6 with rfl | h6
    · exact .edge e
    · exact h6.snoc e

/-! ## Clients -/

theorem node_of_mem {msgs : List Msg} {m : Nat} {d : Def} (h : d ∈ allDefs (getMsg msgs m)) :
    ∃ n ∈ nodes msgs m, nodeDef msgs n = d := by
  obtain ⟨i, hi, rfl⟩ := List.getElem_of_mem h
  refine ⟨(m, i), ?_, ?_⟩
  · unfold nodes; simp [hi]
  · unfold nodeDef; simp [List.getElem?_eq_getElem hi]

theorem not_inside_nil {d : Def} : ¬ Inside d [] := by
  intro h; cases h with
  | here h => simp at h
  | call h => simp at h
  | validation h => simp at h

/-- Error entries are at most one level deep in the definitions of a message, and none in those of its
oneof fields; a validation may resolve messages at any depth. -/
def Flat (m : Msg) : Prop :=
  (∀ d ∈ m.defs, ∀ d' ∈ d.handlerDefs, Plain d') ∧ ∀ d ∈ m.oneof, Plain d

theorem plain_inside_call {d : Def} (hp : Plain d) {ds : List Def} (hd : d ∈ ds) {s k h} 
    (hi : Inside (.call s k h) [d]) : (.call s k h) ∈ ds := by
  cases hi with
  | here h1 => simp at h1; rw [h1]; exact hd
  | call h1 h2 =>
    simp at h1; subst h1; simp only [Plain] at hp; subst hp
    exact absurd h2 not_inside_nil
  | validation h1 h2 =>
    simp at h1; subst h1; simp only [Plain] at hp
    exact absurd h2 (hp _ _ _)

theorem inside_split {d : Def} {ds : List Def} (h : Inside d ds) : ∃ d0 ∈ ds, Inside d [d0] := by
  cases h with
  | here h => exact ⟨_, h, .here (by simp)⟩
  | call h h' => exact ⟨_, h, .call (List.mem_singleton.mpr rfl) h'⟩
  | validation h h' => exact ⟨_, h, .validation (List.mem_singleton.mpr rfl) h'⟩

theorem inside_handler {d d0 : Def} (h : Inside d [d0]) : d = d0 ∨ Inside d d0.handlerDefs := by
  cases h with
  | here h => exact Or.inl (by simpa using h)
  | call h h' => rw [← List.mem_singleton.mp h]; exact Or.inr h'
  | validation h h' => rw [← List.mem_singleton.mp h]; exact Or.inr h'

theorem flat_call {m : Msg} (ho : m.option = true) (hf : Flat m) {s k h}
    (hi : Inside (.call s k h) (m.defs ++ m.oneof)) : (.call s k h) ∈ allDefs m := by
  unfold allDefs; rw [if_pos ho]
  obtain ⟨d0, hd0, hi0⟩ := inside_split hi
  rcases List.mem_append.mp hd0 with hd0 | hd0
  · rcases inside_handler hi0 with rfl | hi1
    · simp [hd0]
    · obtain ⟨d1, hd1, hi2⟩ := inside_split hi1
      have hp := hf.1 d0 hd0 d1 hd1
      have : (Def.call s k h) ∈ d0.handlerDefs := plain_inside_call hp hd1 hi2
      simp only [List.mem_append, List.mem_flatMap]
      exact Or.inl (Or.inr ⟨d0, hd0, this⟩)
  · have : (Def.call s k h) ∈ m.oneof := plain_inside_call (hf.2 d0 hd0) hd0 hi0
    simp [this]

/-- A message that the code resolves is resolved by a definition that is not a call. -/
theorem flat_resolves {m : Msg} (ho : m.option = true) (hf : Flat m) {d : Def} {t : Nat}
    (hi : Inside d (m.defs ++ m.oneof)) (hr : Resolves d t) :
    ∃ d' ∈ allDefs m, (∀ s k h, d' ≠ .call s k h) ∧ t ∈ messageExprs d' := by
  unfold allDefs; rw [if_pos ho]
  obtain ⟨d0, hd0, hi0⟩ := inside_split hi
  have nc : ∀ d', (∀ s k h, d' ≠ .call s k h) → Inside d [d'] → t ∈ messageExprs d' :=
    fun d' _ h => (messageExprs_iff d').mpr ⟨d, h, hr⟩
  have pl : ∀ d', Plain d' → Inside d [d'] → (∀ s k h, d' ≠ .call s k h) := by
    intro d' hp h s k hh e
    subst e
    simp only [Plain] at hp; subst hp
    cases h with
    | here h => simp at h; subst h; rcases hr with hr | hr <;> cases hr
    | call h1 h2 => simp at h1; obtain ⟨_, _, rfl⟩ := h1; exact not_inside_nil h2
    | validation h1 => simp at h1
  rcases List.mem_append.mp hd0 with hd0 | hd0
  · by_cases hc : ∀ s k h, d0 ≠ .call s k h
    · exact ⟨d0, by simp [hd0], hc, nc d0 hc hi0⟩
    · rcases inside_handler hi0 with rfl | hi1
      · exfalso; apply hc; intro s k h e; subst e; rcases hr with hr | hr <;> cases hr
      · obtain ⟨d1, hd1, hi2⟩ := inside_split hi1
        have hp := pl d1 (hf.1 d0 hd0 d1 hd1) hi2
        refine ⟨d1, ?_, hp, nc d1 hp hi2⟩
        simp only [List.mem_append, List.mem_flatMap]
        exact Or.inl (Or.inr ⟨d0, hd0, hd1⟩)
  · have hp := pl d0 (hf.2 d0 hd0) hi0
    exact ⟨d0, by simp [hd0], hp, nc d0 hp hi0⟩

/-- A used message is reached from the response of a method. -/
theorem used_from_method {msgs : List Msg} {s : Service} (hv : VarsCovered msgs s) {m : Nat}
    (h : Used msgs s m) : ∃ mtd ∈ s.methods, Reaches msgs mtd.federationResponse m := by
  obtain ⟨e, he, hm⟩ := h
  rcases he with ⟨mtd, h1, rfl⟩ | he
  · exact ⟨mtd, h1, hm⟩
  · obtain ⟨mtd, h1, h2⟩ := hv e he
    exact ⟨mtd, h1, h2.trans hm⟩

/-- C68, clients (partial: only without the `response` method option, if service variables use no
message that the methods do not use, and if error entries are at most one level deep): every client
that is used is part of the client set. -/
theorem C68_clients_partial (msgs : List Msg) (s : Service) (hr : Resolvable msgs s)
    (hq : PlainRequests msgs s) (hv : VarsCovered msgs s) (hc : ∀ mtd ∈ s.methods, mtd.custom = none)
    (hf : ∀ m, Used msgs s m → Flat (getMsg msgs m)) (c : Nat) (h : UsesClient msgs s c) :
    c ∈ useServices msgs s := by
  obtain ⟨m, hm, k, hh, hcode⟩ := h
  have hu := used_of_resolvers hq hm
  obtain ⟨mtd, hmtd, hreach⟩ := used_from_method hv hu
  unfold useServices
  refine List.mem_flatMap.mpr ⟨mtd, hmtd, ?_⟩
  have hfr : mtd.federationResponse = mtd.response := by
    unfold Method.federationResponse; rw [hc mtd hmtd]; rfl
  obtain ⟨vis, h1, h2⟩ := dependServices_spec msgs mtd.response
  have huse : ∀ x, Reaches msgs mtd.federationResponse x → Used msgs s x :=
    fun x hx => ⟨_, Or.inl ⟨mtd, hmtd, rfl⟩, hx⟩
  have hall : ∀ x, Reaches msgs mtd.federationResponse x → ∀ n ∈ nodes msgs x, n ∈ vis := by
    intro x hx
    induction hx with
    | refl => rw [hfr]; exact h1
    | @step y d t hy hd ht ih =>
      obtain ⟨d', h3, h4, h5⟩ := flat_resolves (option_of_hasRule (hr y (huse y hy))) (hf y (huse y hy)) hd ht
      obtain ⟨n, h6, h7⟩ := node_of_mem h3
      intro n' hn'
      refine (h2 n (ih n h6)).2 n' ?_
      unfold nodeSucc
      rw [h7]
      cases d' with
      | call a b c => exact absurd rfl (h4 a b c)
      | _ => exact List.mem_flatMap.mpr ⟨t, h5, hn'⟩
  have := flat_call (option_of_hasRule (hr m hu)) (hf m hu) hcode
  obtain ⟨n, h6, h7⟩ := node_of_mem this
  refine (h2 n (hall m hreach n h6)).1 c ?_
  unfold nodeServices; rw [h7]; simp

/-! ## Method constants -/

/-- C68, constants (partial: only if service variables use no message that the methods do not use, if
the error entries of calls have no definitions and those of validations no calls, and for method names
that are Go names already): every method constant that is used is declared. -/
theorem C68_constants_partial (msgs : List Msg) (s : Service) (hr : Resolvable msgs s)
    (hq : PlainRequests msgs s) (hv : VarsCovered msgs s)
    (hf : ∀ m, Used msgs s m → ∀ d ∈ (getMsg msgs m).defs ++ (getMsg msgs m).oneof, Plain d)
    (hn : ∀ m, Used msgs s m → ∀ c k h, CodeOf msgs m (.call c k h) → GoNames.toPublicGoVariable k = k)
    (c : Nat) (name : Name) (h : UsesConstant msgs s c name) : (c, name) ∈ constants msgs s := by
  obtain ⟨m, hm, k, hh, hcode, rfl⟩ := h
  have hu := used_of_resolvers hq hm
  rw [hn m hu _ _ _ hcode]
  obtain ⟨mtd, hmtd, hreach⟩ := used_from_method hv hu
  unfold constants
  refine List.mem_flatMap.mpr ⟨mtd, hmtd, ?_⟩
  have huse : ∀ x, Reaches msgs mtd.federationResponse x → Used msgs s x :=
    fun x hx => ⟨_, Or.inl ⟨mtd, hmtd, rfl⟩, hx⟩
  have htop : ∀ x, Reaches msgs mtd.federationResponse x →
      topDefs (getMsg msgs x) = (getMsg msgs x).defs ++ (getMsg msgs x).oneof := by
    intro x hx; unfold topDefs; rw [if_pos (option_of_hasRule (hr x (huse x hx)))]
  have hwalk : ∀ x, Reaches msgs mtd.federationResponse x → mtd.federationResponse = x ∨
      Walk (fun m => (methodSucc (topDefs (getMsg msgs m))).filter fun t => decide (t < msgs.length))
        mtd.federationResponse x := by
    intro x hx
    induction hx with
    | refl => exact Or.inl rfl
    | @step y d t hy hd ht ih =>
      have ht' : t < msgs.length := (getMsg_option (option_of_hasRule (hr t (huse t (.step hy hd ht))))).1
      obtain ⟨d0, hd0, hi0⟩ := inside_split hd
      have hp := hf y (huse y hy) d0 hd0
      have hedge : t ∈ (methodSucc (topDefs (getMsg msgs y))).filter fun t => decide (t < msgs.length) := by
        rw [htop y hy]
        simp only [List.mem_filter, decide_eq_true_eq]
        refine ⟨List.mem_flatMap.mpr ⟨d0, hd0, ?_⟩, ht'⟩
        have hex := (messageExprs_iff d0).mpr ⟨d, hi0, ht⟩
        cases d0 with
        | call a b hh =>
          simp only [Plain] at hp; subst hp
          simp [messageExprs, messageExprsL] at hex
        | _ => exact hex
      rcases ih with ih | ih
      · rw [ih]; exact Or.inr (.edge hedge)
      · exact Or.inr (ih.snoc hedge)
  have hown : (c, k) ∈ ownMethods (topDefs (getMsg msgs m)) := by
    rw [htop m hreach]
    obtain ⟨d0, hd0, hi0⟩ := inside_split hcode
    have := plain_inside_call (hf m hu d0 hd0) hd0 hi0
    exact List.mem_flatMap.mpr ⟨_, this, by simp⟩
  have := gather_complete (own := fun m => ownMethods (topDefs (getMsg msgs m)))
    (succ := fun m => (methodSucc (topDefs (getMsg msgs m))).filter fun t => decide (t < msgs.length))
    (N := msgs.length) (fun a b h => by simpa using (List.mem_filter.mp h).2) (hwalk m hreach) hown
  exact gather_mono (fun a b h => (List.mem_filter.mp h).1) this

/-! ## Custom resolvers -/

/-- C68, custom resolvers (partial: only if service variables use no message that the methods do not
use, and if the definitions of oneof fields resolve no message): every custom resolver that is called
is a method of the resolver interface. -/
theorem C68_custom_resolvers_partial (msgs : List Msg) (s : Service) (hr : Resolvable msgs s)
    (hq : PlainRequests msgs s) (hv : VarsCovered msgs s)
    (hf : ∀ m, Used msgs s m → ∀ d t, Inside d (getMsg msgs m).oneof → ¬ Resolves d t)
    (c : Custom) (h : UsesCustom msgs s c) : c ∈ customResolvers msgs s := by
  obtain ⟨m, hm, hc⟩ := h
  have hu := used_of_resolvers hq hm
  obtain ⟨mtd, hmtd, hreach⟩ := used_from_method hv hu
  unfold customResolvers
  refine List.mem_flatMap.mpr ⟨mtd, hmtd, ?_⟩
  have huse : ∀ x, Reaches msgs mtd.federationResponse x → Used msgs s x :=
    fun x hx => ⟨_, Or.inl ⟨mtd, hmtd, rfl⟩, hx⟩
  have hwalk : ∀ x, Reaches msgs mtd.federationResponse x → mtd.federationResponse = x ∨
      Walk (fun m => (messageExprsL (getMsg msgs m).defs).filter fun t => decide (t < msgs.length))
        mtd.federationResponse x := by
    intro x hx
    induction hx with
    | refl => exact Or.inl rfl
    | @step y d t hy hd ht ih =>
      have ht' : t < msgs.length := (getMsg_option (option_of_hasRule (hr t (huse t (.step hy hd ht))))).1
      obtain ⟨d0, hd0, hi0⟩ := inside_split hd
      have hedge : t ∈ (messageExprsL (getMsg msgs y).defs).filter fun t => decide (t < msgs.length) := by
        simp only [List.mem_filter, decide_eq_true_eq]
        refine ⟨?_, ht'⟩
        rcases List.mem_append.mp hd0 with hd0 | hd0
        · exact (messageExprsL_iff _).mpr ⟨d, inside_mono hi0 (by simpa using hd0), ht⟩
        · exact absurd ht (hf y (huse y hy) d t (inside_mono hi0 (by simpa using hd0)))
      rcases ih with ih | ih
      · rw [ih]; exact Or.inr (.edge hedge)
      · exact Or.inr (ih.snoc hedge)
  have hown : c ∈ ownCustom msgs m := by
    unfold ownCustom
    rcases hc with ⟨rfl, h1⟩ | ⟨f, h1, rfl⟩
    · rw [option_of_hasRule (hr m hu), h1]; simp
    · simp [h1]
  have := gather_complete (own := ownCustom msgs)
    (succ := fun m => (messageExprsL (getMsg msgs m).defs).filter fun t => decide (t < msgs.length))
    (N := msgs.length) (fun a b h => by simpa using (List.mem_filter.mp h).2) (hwalk m hreach) hown
  exact gather_mono (fun a b h => (List.mem_filter.mp h).1) this

/-! ## Concrete services -/

/-- To see which messages a service uses it suffices to find a list that has the messages it starts
from and with a message those that its code resolves. -/
theorem used_mem {msgs : List Msg} {s : Service} (l : List Nat)
    (h0 : ∀ mtd ∈ s.methods, mtd.federationResponse ∈ l) (h1 : ∀ v ∈ s.vars, v ∈ l)
    (h2 : ∀ m ∈ l, ∀ t ∈ messageExprsL ((getMsg msgs m).defs ++ (getMsg msgs m).oneof), t ∈ l)
    {m : Nat} (h : Used msgs s m) : m ∈ l := by
  obtain ⟨e, he, hm⟩ := h
  induction hm with
  | refl =>
    rcases he with ⟨mtd, h3, rfl⟩ | he
    · exact h0 mtd h3
    · exact h1 e he
  | step _ h3 h4 ih => exact h2 _ ih _ ((messageExprsL_iff _).mpr ⟨_, h3, h4⟩)

theorem resolvable_of {msgs : List Msg} {s : Service} (l : List Nat)
    (h0 : ∀ mtd ∈ s.methods, mtd.federationResponse ∈ l) (h1 : ∀ v ∈ s.vars, v ∈ l)
    (h2 : ∀ m ∈ l, ∀ t ∈ messageExprsL ((getMsg msgs m).defs ++ (getMsg msgs m).oneof), t ∈ l)
    (h3 : ∀ m ∈ l, (getMsg msgs m).hasRule = true) : Resolvable msgs s :=
  fun m hm => hasRule_iff.mp (h3 m (used_mem l h0 h1 h2 hm))

/-- A message with definitions. -/
def withDefs (ds : List Def) : Msg := ⟨true, ds, [], false, [], true⟩
/-- A message without the message option. -/
def request : Msg := ⟨false, [], [], false, [], false⟩

def get : Name := "Get".toList

/-- A response that calls a service with an error entry that resolves a message, which has a custom
field, and a map over a message that calls another service. -/
def sample : List Msg :=
  [request, withDefs [.call 7 get [.message 2, .call 9 get []], .map 3, .validation [.message 2]],
    ⟨true, [.other], [], true, [4], false⟩, withDefs [.call 8 get []]]

def sampleService : Service := ⟨[⟨0, 1, none⟩], [3]⟩

theorem sample_used {m : Nat} (h : Used sample sampleService m) : m = 1 ∨ m = 2 ∨ m = 3 := by
  have := used_mem [1, 2, 3] (by decide) (by decide) (by decide) h
  simpa using this

theorem noCall_nil : NoCall [] := fun _ _ _ h => not_inside_nil h

theorem noCall_message (m : Nat) : NoCall [.message m] := by
  intro s k h hi
  cases hi with
  | here h => simp at h
  | call h => simp at h
  | validation h => simp at h

theorem sample_flat (m : Nat) (h : Used sample sampleService m) : Flat (getMsg sample m) := by
  rcases sample_used h with rfl | rfl | rfl
  · refine ⟨fun d hd d' hd' => ?_, fun d hd => by simp [getMsg, sample, withDefs] at hd⟩
    simp only [getMsg, sample, withDefs, List.getElem?_cons_succ, List.getElem?_cons_zero,
      Option.getD_some, List.mem_cons, List.not_mem_nil, or_false] at hd
    rcases hd with rfl | rfl | rfl
    · simp only [Def.handlerDefs, List.mem_cons, List.not_mem_nil, or_false] at hd'
      rcases hd' with rfl | rfl
      · exact trivial
      · exact rfl
    · simp [Def.handlerDefs] at hd'
    · simp only [Def.handlerDefs, List.mem_cons, List.not_mem_nil, or_false] at hd'
      subst hd'; exact trivial
  · refine ⟨fun d hd d' hd' => ?_, fun d hd => by simp [getMsg, sample] at hd⟩
    simp [getMsg, sample] at hd; subst hd; simp [Def.handlerDefs] at hd'
  · refine ⟨fun d hd d' hd' => ?_, fun d hd => by simp [getMsg, sample, withDefs] at hd⟩
    simp [getMsg, sample, withDefs] at hd; subst hd; simp [Def.handlerDefs] at hd'

/-- Message 3 is used by the response. -/
theorem sample_covered : VarsCovered sample sampleService := by
  intro v hv
  simp [sampleService] at hv; subst hv
  exact ⟨_, List.mem_singleton.mpr rfl, .step (d := .map 3) .refl (.here (List.mem_cons_of_mem _ (List.mem_cons_self ..))) (Or.inr rfl)⟩

theorem sample_unused : Unused sample 1 := by
  intro a d ho hc hr
  have h := (messageExprsL_iff _).mpr ⟨d, hc, hr⟩
  match a, h, ho with
  | 0, _, ho => simp [getMsg, sample, request] at ho
  | 1, h, _ => revert h; decide
  | 2, h, _ => revert h; decide
  | 3, h, _ => revert h; decide
  | n + 4, _, ho => simp [getMsg, sample, noMsg] at ho

/-- The sample meets the hypotheses of the theorems about resolver functions, clients and custom
resolvers, and the answers are as expected. -/
example : Resolvable sample sampleService ∧ PlainRequests sample sampleService ∧
    VarsCovered sample sampleService ∧ (∀ m, Used sample sampleService m → Flat (getMsg sample m)) ∧
    (∀ e, Entry sampleService e → ∃ e', Entry sampleService e' ∧ Unused sample e' ∧ Reaches sample e' e) ∧
    resolvers sample sampleService = [1, 2, 3] ∧ useServices sample sampleService = [7, 8, 9] ∧
    customResolvers sample sampleService = [(2, none), (2, some 4), (2, none), (2, some 4)] := by
  refine ⟨resolvable_of [1, 2, 3] (by decide) (by decide) (by decide) (by decide),
    by unfold PlainRequests; decide, sample_covered, sample_flat, fun e he => ?_, by decide, by decide, by decide⟩
  refine ⟨1, Or.inl ⟨_, List.mem_singleton.mpr rfl, rfl⟩, sample_unused, ?_⟩
  rcases he with ⟨mtd, h1, rfl⟩ | h1
  · simp [sampleService] at h1; subst h1; exact .refl
  · obtain ⟨mtd, h2, h3⟩ := sample_covered e h1
    simp [sampleService] at h2; subst h2; exact h3

/-- The theorems applied to the sample. -/
example : UsesClient sample sampleService 9 ∧ 9 ∈ useServices sample sampleService := by
  have hu : UsesClient sample sampleService 9 :=
    ⟨1, by decide, get, [], .call (s := 7) (k := get) (h := [.message 2, .call 9 get []])
      (List.mem_cons_self ..) (.here (by simp))⟩
  exact ⟨hu, C68_clients_partial sample sampleService
    (resolvable_of [1, 2, 3] (by decide) (by decide) (by decide) (by decide))
    (by unfold PlainRequests; decide) sample_covered (by decide) sample_flat 9 hu⟩

/-- A service that calls from its response and from a message the response maps over; the hypotheses
of `C68_constants_partial` hold. -/
def constSample : List Msg := [request, withDefs [.call 7 get [], .map 2], withDefs [.call 8 "ListAll".toList []]]

example : constants constSample ⟨[⟨0, 1, none⟩], []⟩ = [(7, get), (8, "ListAll".toList)] ∧
    Resolvable constSample ⟨[⟨0, 1, none⟩], []⟩ ∧
    GoNames.toPublicGoVariable get = get ∧
    GoNames.toPublicGoVariable "ListAll".toList = "ListAll".toList :=
  ⟨by decide, resolvable_of [1, 2] (by decide) (by decide) (by decide) (by decide), by decide, by decide⟩

/-! ## What is missing -/

/-- C68 is false for resolver functions: a message that a method returns and that another message
resolves has no resolver function in a service that only returns it. -/
theorem C68_resolvers_false : ∃ msgs s, Resolvable msgs s ∧ PlainRequests msgs s ∧
    ∃ t, CallsResolver msgs s t ∧ t ∉ resolvers msgs s :=
  ⟨[request, withDefs [], withDefs [.message 1]], ⟨[⟨0, 1, none⟩], []⟩,
    resolvable_of [1] (by decide) (by decide) (by decide) (by decide), by unfold PlainRequests; decide,
    1, .method (mtd := ⟨0, 1, none⟩) (by simp), by decide⟩

/-- C68 is false for clients, in four ways: a method with the `response` option, a message only a
service variable uses, a call inside the error entries of a call inside error entries, and a call
inside the error entries of a call of a oneof field. -/
theorem C68_clients_false :
    (∃ msgs s c, s.vars = [] ∧ Resolvable msgs s ∧ UsesClient msgs s c ∧ c ∉ useServices msgs s) ∧
    (∃ msgs s c, (∀ mtd ∈ s.methods, mtd.custom = none) ∧ Resolvable msgs s ∧ UsesClient msgs s c ∧
      c ∉ useServices msgs s) ∧
    (∃ msgs s c, s.vars = [] ∧ (∀ mtd ∈ s.methods, mtd.custom = none) ∧ (∀ m ∈ msgs, m.oneof = []) ∧
      Resolvable msgs s ∧ UsesClient msgs s c ∧ c ∉ useServices msgs s) ∧
    (∃ msgs s c, s.vars = [] ∧ (∀ mtd ∈ s.methods, mtd.custom = none) ∧ (∀ m ∈ msgs, m.defs = []) ∧
      Resolvable msgs s ∧ UsesClient msgs s c ∧ c ∉ useServices msgs s) := by
  refine ⟨⟨[request, request, withDefs [.call 7 get []]], ⟨[⟨0, 1, some 2⟩], []⟩, 7, rfl,
      resolvable_of [2] (by decide) (by decide) (by decide) (by decide),
      ⟨2, by decide, get, [], .here (List.mem_cons_self ..)⟩, by decide⟩,
    ⟨[request, withDefs [], withDefs [.call 7 get []]], ⟨[⟨0, 1, none⟩], [2]⟩, 7, by decide,
      resolvable_of [1, 2] (by decide) (by decide) (by decide) (by decide),
      ⟨2, by decide, get, [], .here (List.mem_cons_self ..)⟩, by decide⟩,
    ⟨[request, withDefs [.call 5 get [.call 6 get [.call 7 get []]]]], ⟨[⟨0, 1, none⟩], []⟩, 7, rfl, by decide,
      by simp [request, withDefs],
      resolvable_of [1] (by decide) (by decide) (by decide) (by decide),
      ⟨1, by decide, get, [], .call (List.mem_cons_self ..) (.call (List.mem_cons_self ..) (.here (by simp)))⟩,
      by decide⟩,
    ⟨[request, ⟨true, [], [.call 5 get [.call 7 get []]], false, [], true⟩], ⟨[⟨0, 1, none⟩], []⟩, 7, rfl, by decide,
      by simp [request],
      resolvable_of [1] (by decide) (by decide) (by decide) (by decide),
      ⟨1, by decide, get, [], .call (List.mem_cons_self ..) (.here (by simp))⟩, by decide⟩⟩

/-- C68 is false for method constants: a message that only an error entry resolves and that calls a
method, and a method whose name is not written like a Go name. -/
theorem C68_constants_false :
    (∃ msgs s c name, Resolvable msgs s ∧ PlainRequests msgs s ∧ UsesConstant msgs s c name ∧
      (∀ m ∈ msgs, Flat m) ∧ GoNames.toPublicGoVariable name = name ∧ (c, name) ∉ constants msgs s) ∧
    (∃ msgs s c name, Resolvable msgs s ∧ PlainRequests msgs s ∧ UsesConstant msgs s c name ∧
      (∀ m ∈ msgs, ∀ d ∈ m.defs ++ m.oneof, Plain d) ∧ (c, name) ∉ constants msgs s) := by
  refine ⟨⟨[request, withDefs [.call 7 get [.message 2]], withDefs [.call 8 get []]], ⟨[⟨0, 1, none⟩], []⟩, 8, get,
      resolvable_of [1, 2] (by decide) (by decide) (by decide) (by decide), by unfold PlainRequests; decide,
      ⟨2, by decide, get, [], .here (List.mem_cons_self ..), by decide⟩, ?_, by decide, by decide⟩,
    ⟨[request, withDefs [.call 7 "getPost".toList []]], ⟨[⟨0, 1, none⟩], []⟩, 7, "GetPost".toList,
      resolvable_of [1] (by decide) (by decide) (by decide) (by decide), by unfold PlainRequests; decide,
      ⟨1, by decide, "getPost".toList, [], .here (List.mem_cons_self ..), by decide⟩, ?_, by decide⟩⟩
  · intro m hm
    simp only [List.mem_cons, List.not_mem_nil, or_false] at hm
    rcases hm with rfl | rfl | rfl <;>
      refine ⟨fun d hd d' hd' => ?_, fun d hd => by simp [request, withDefs] at hd⟩ <;>
      simp [request, withDefs] at hd <;> subst hd <;> simp [Def.handlerDefs] at hd' <;> subst hd' <;> exact trivial
  · intro m hm d hd
    simp only [List.mem_cons, List.not_mem_nil, or_false] at hm
    rcases hm with rfl | rfl <;> simp [request, withDefs] at hd <;> subst hd <;> exact rfl

/-- C68 is false for custom resolvers: a message with a custom resolver that only a definition of a
oneof field resolves. -/
theorem C68_custom_resolvers_false : ∃ msgs s c, Resolvable msgs s ∧ PlainRequests msgs s ∧ s.vars = [] ∧
    UsesCustom msgs s c ∧ c ∉ customResolvers msgs s :=
  ⟨[request, ⟨true, [], [.message 2], false, [], true⟩, ⟨true, [], [], true, [], false⟩], ⟨[⟨0, 1, none⟩], []⟩,
    (2, none), resolvable_of [1, 2] (by decide) (by decide) (by decide) (by decide),
    by unfold PlainRequests; decide, rfl, ⟨2, by decide, Or.inl ⟨rfl, rfl⟩⟩, by decide⟩

/-! ## C69: every definition is evaluated -/

theorem mem_planned {m : Msg} {d : Def} : d ∈ planned m ↔ m.option = true ∧
    (d ∈ m.defs ∨ (∃ d0 ∈ m.defs, d ∈ d0.handlerDefs) ∨ d ∈ m.oneof) := by
  unfold planned
  by_cases ho : m.option = true
  · simp only [ho, if_true, List.mem_append, List.mem_flatMap, true_and, or_assoc]
    refine or_congr Iff.rfl (or_congr ?_ Iff.rfl)
    refine ⟨fun ⟨d0, h1, h2⟩ => ⟨d0, h1, ?_⟩, fun ⟨d0, h1, h2⟩ => ⟨d0, h1, ?_⟩⟩
    · cases d0 <;> first | exact h2 | simp at h2
    · cases d0 <;> first | exact h2 | simp [Def.handlerDefs] at h2
  · simp [ho]

/-- C69 (partial: only if the definitions of error entries have no error entries with definitions
themselves, and those of oneof fields have none at all): every definition of a message is part of an
evaluation plan. -/
theorem C69_planned_partial (m : Msg) (ho : m.option = true)
    (h1 : ∀ d ∈ m.defs, ∀ d' ∈ d.handlerDefs, d'.handlerDefs = [])
    (h2 : ∀ d ∈ m.oneof, d.handlerDefs = []) (d : Def) (h : Inside d (m.defs ++ m.oneof)) :
    d ∈ planned m := by
  refine mem_planned.mpr ⟨ho, ?_⟩
  obtain ⟨d0, hd0, hi⟩ := inside_split h
  rcases inside_handler hi with rfl | hi
  · rcases List.mem_append.mp hd0 with h | h
    · exact Or.inl h
    · exact Or.inr (Or.inr h)
  · rcases List.mem_append.mp hd0 with hm | hm
    · obtain ⟨d1, hd1, hi1⟩ := inside_split hi
      rcases inside_handler hi1 with rfl | hi1
      · exact Or.inr (Or.inl ⟨d0, hm, hd1⟩)
      · rw [h1 d0 hm d1 hd1] at hi1; exact absurd hi1 not_inside_nil
    · rw [h2 d0 hm] at hi; exact absurd hi not_inside_nil

/-- C69, converse: only definitions of the message are part of a plan. -/
theorem C69_only (m : Msg) (d : Def) (h : d ∈ planned m) : Inside d (m.defs ++ m.oneof) := by
  obtain ⟨_, h | ⟨d0, h1, h2⟩ | h⟩ := mem_planned.mp h
  · exact .here (List.mem_append_left _ h)
  · cases d0 with
    | call s k hs => exact .call (List.mem_append_left _ h1) (.here h2)
    | validation hs => exact .validation (List.mem_append_left _ h1) (.here h2)
    | message _ => simp [Def.handlerDefs] at h2
    | map _ => simp [Def.handlerDefs] at h2
    | other => simp [Def.handlerDefs] at h2
  · exact .here (List.mem_append_right _ h)

/-- A message with a call that has an error entry with a definition: the hypotheses hold. -/
example : Def.message 3 ∈ planned (withDefs [.call 7 get [.message 3], .other]) :=
  C69_planned_partial _ rfl
    (by
      intro d hd d' hd'
      simp [withDefs] at hd
      rcases hd with rfl | rfl <;> simp [Def.handlerDefs] at hd'
      subst hd'; rfl)
    (by simp [withDefs]) _ (.call (List.mem_cons_self ..) (.here (List.mem_cons_self ..)))

/-- C69 is false in two ways: a definition in the error entries of a call inside error entries, and a
definition in the error entries of a call of a oneof field, are not part of any plan. -/
theorem C69_planned_false :
    (∃ (m : Msg) (d : Def), m.option = true ∧ m.oneof = [] ∧ Inside d (m.defs ++ m.oneof) ∧ d ∉ planned m) ∧
    (∃ (m : Msg) (d : Def), m.option = true ∧ m.defs = [] ∧ Inside d (m.defs ++ m.oneof) ∧ d ∉ planned m) := by
  refine ⟨⟨withDefs [.call 5 get [.call 6 get [.message 3]]], .message 3, rfl, rfl,
      .call (List.mem_cons_self ..) (.call (List.mem_cons_self ..) (.here (List.mem_cons_self ..))), ?_⟩,
    ⟨⟨true, [], [.call 5 get [.message 3]], false, [], true⟩, .message 3, rfl, rfl,
      .call (List.mem_cons_self ..) (.here (List.mem_cons_self ..)), ?_⟩⟩ <;>
  simp [planned, withDefs]

end Verif.GenRefs
