import Verif.AutoName.Lemmas

/-! # C66: names of variables -/

namespace Verif.AutoName

theorem alpha_iff (c : Char) : c.isAlpha = true ↔ Letter c := by
  simp [Char.isAlpha, Char.isUpper, Char.isLower, Letter, Char.le_def]
  exact or_comm

theorem digit_iff (c : Char) : c.isDigit = true ↔ Digit c := by
  simp [Char.isDigit, Digit, Char.le_def]

/-- The check accepts exactly the names that are allowed. -/
theorem valid_iff (n : Name) : validName n = true ↔ Allowed n := by
  cases n with
  | nil => simp [validName, Allowed]
  | cons c cs =>
    simp only [validName, Allowed, Bool.and_eq_true, List.all_eq_true, Bool.or_eq_true, beq_iff_eq, bne_iff_ne,
      alpha_iff, digit_iff, or_assoc, List.cons.injEq]
    constructor
    · rintro ⟨⟨h1, h2⟩, h3⟩
      exact ⟨⟨c, cs, ⟨rfl, rfl⟩, h1, h2⟩, h3⟩
    · rintro ⟨⟨_, _, ⟨rfl, rfl⟩, h1, h2⟩, h3⟩
      exact ⟨⟨h1, h2⟩, h3⟩

/-- What the user relies on: the names written in a message are allowed and differ. -/
def Proper (m : Msg) : Prop := (∀ n ∈ userNames m, Allowed n) ∧ (userNames m).Nodup

/-- C66, accepted messages (partial: without the variables of detail messages): no two variables of an
accepted message have the same name, whether written by the user or generated. -/
theorem C66_distinct_partial (m : Msg) (h : accepted m = true) : (names false m).Nodup := by
  unfold accepted at h
  rw [Bool.and_eq_true, List.all_eq_true] at h
  exact ((noDuplicate_iff (names_ne_nil h.1)).mp h.2).1

/-- C66, accepted messages (partial: for `Simple` messages): all variables have different names, also those
of detail messages. -/
theorem C66_messages_partial (m : Msg) (hs : Simple true m) (h : accepted m = true) : (names true m).Nodup := by
  have hv : ∀ n ∈ userNames m, validName n = true := by
    unfold accepted at h
    rw [Bool.and_eq_true, List.all_eq_true] at h
    exact h.1
  refine nodup_parts (names_gen hs hv) ?_
  rw [names_user hv, ← names_user (msgs := false) hv]
  exact (C66_distinct_partial m h).sublist List.filter_sublist

/-- C66, acceptance (partial: for `Simple` messages): a message whose names are valid and differ is
accepted, however many of its definitions have no name. -/
theorem C66_accept_partial (m : Msg) (hs : Simple false m) (hp : Proper m) : accepted m = true := by
  have hv : ∀ n ∈ userNames m, validName n = true := fun n hn => (valid_iff n).2 (hp.1 n hn)
  unfold accepted
  rw [Bool.and_eq_true, List.all_eq_true]
  refine ⟨hv, (noDuplicate_iff (names_ne_nil hv)).mpr ⟨nodup_parts (names_gen hs hv) ?_, by simp⟩⟩
  rw [names_user hv]
  exact hp.2

/-- The other direction holds for every message. -/
theorem C66_reject (m : Msg) (h : accepted m = true) : Proper m := by
  have hv : ∀ n ∈ userNames m, validName n = true := by
    unfold accepted at h
    rw [Bool.and_eq_true, List.all_eq_true] at h
    exact h.1
  refine ⟨fun n hn => (valid_iff n).1 (hv n hn), ?_⟩
  rw [← names_user (msgs := false) hv]
  exact (C66_distinct_partial m h).sublist List.filter_sublist

/-- C66, use of variables (partial: for names that are no words of CEL): a variable with an accepted name can be written in an
expression. -/
theorem C66_usable_partial (m : Msg) (h : accepted m = true) (n : Name) (hn : n ∈ userNames m) :
    Identifier n ↔ n ∉ celWords := by
  obtain ⟨⟨c, cs, h1, h2, h3⟩, _⟩ := (C66_reject m h).1 n hn
  exact ⟨fun hi => hi.2, fun hw => ⟨⟨c, cs, h1, .inl h2, h3⟩, hw⟩⟩

/-- C66 fails for words of CEL: a definition `def { name: "in" … }` is accepted, and no expression can refer to it. -/
theorem C66_word_false : accepted ⟨[.mk "in".toList []], []⟩ = true ∧ ¬ Identifier "in".toList := by
  refine ⟨?_, fun h => h.2 (by decide)⟩
  simp [accepted, names, defsNames, entriesNames, userNames, defsUser, entriesUser, resolved, noDuplicate, validName]

/-- Two calls; the first has an entry with two unnamed definitions and a detail with one, and an entry with
a named definition. -/
def sample : Msg :=
  ⟨[.mk ['a'] [.mk [.mk [] [], .mk [] []] [.mk [.mk [] []] 2], .mk [.mk ['e'] []] []],
    .mk [] [.mk [.mk [] []] []]], [[.mk [] [], .mk ['b'] []], [.mk ['c'] []]]⟩

example : Simple true sample ∧ Simple false sample ∧ Proper sample := by
  refine ⟨?_, ?_, ?_⟩
  · simp [Simple, sample, OneEntry, Shallow, Def.errors, Entry.defs, Entry.details, Detail.defs, entriesUnnamed,
      defsUnnamed, detailsUnnamed]
  · simp [Simple, sample, OneEntry, Shallow, Def.errors, Entry.defs, Entry.details, Detail.defs, entriesUnnamed,
      defsUnnamed, detailsUnnamed]
  · simp [Proper, sample, userNames, defsUser, entriesUser, detailsUser, ← valid_iff, validName]

/-- C66 fails for two error entries of a call that each have an unnamed definition: the message is
rejected. -/
theorem C66_entries_false : ¬ ∀ m, Proper m → accepted m = true := by
  intro h
  have := h ⟨[.mk ['a'] [.mk [.mk [] []] [], .mk [.mk [] []] []]], []⟩
    (by simp [Proper, userNames, defsUser, entriesUser, detailsUser, ← valid_iff, validName])
  simp [accepted, names, defsNames, entriesNames, detailsNames, userNames, defsUser, entriesUser, detailsUser,
    validName, resolved, noDuplicate, errorName] at this

/-- C66 fails for two oneof fields that each have an unnamed definition, also without error entries. -/
theorem C66_oneofs_false : ¬ ∀ m, Proper m → (∀ d ∈ m.defs, d.errors = []) →
    (∀ ds ∈ m.oneofs, ∀ d ∈ ds, d.errors = []) → accepted m = true := by
  intro h
  have := h ⟨[], [[.mk [] []], [.mk [] []]]⟩ (by simp [Proper, userNames, defsUser, entriesUser])
    (by simp) (by simp [Def.errors])
  simp [accepted, names, defsNames, entriesNames, userNames, defsUser, entriesUser, resolved, noDuplicate,
    oneofName] at this

/-- C66 fails for an unnamed definition in an error entry of a call that is itself in an error entry. -/
theorem C66_nested_false : ¬ ∀ m, Proper m → (∀ d ∈ m.defs, d.errors.length ≤ 1) → m.oneofs = [] →
    accepted m = true := by
  intro h
  have := h ⟨[.mk ['a'] [.mk [.mk ['b'] [.mk [.mk [] []] []], .mk [] []] []], .mk ['c'] [.mk [.mk [] []] []],
      .mk ['d'] [.mk [.mk ['e'] [], .mk ['f'] [.mk [.mk [] []] []]] []]], []⟩
    (by simp [Proper, userNames, defsUser, entriesUser, detailsUser, ← valid_iff, validName]) (by simp [Def.errors]) rfl
  simp [accepted, names, defsNames, entriesNames, detailsNames, userNames, defsUser, entriesUser, detailsUser,
    validName, resolved, noDuplicate, errorName] at this

/-- C66 fails for detail messages in different error entries: the message is accepted although two of its
variables, for different messages, have the same name. -/
theorem C66_messages_false : ¬ ∀ m, accepted m = true → (names true m).Nodup := by
  intro h
  have := h ⟨[.mk ['a'] [.mk [] [.mk [] 1], .mk [] [.mk [] 1]]], []⟩
    (by simp [accepted, names, defsNames, entriesNames, detailsNames, userNames, defsUser, entriesUser,
      detailsUser, validName, resolved, noDuplicate])
  simp [names, defsNames, entriesNames, detailsNames] at this

/-! ## Calling `Resolve` again -/

mutual

theorem defsAfter_named (auto : Nat → Name) (i : Nat) : ∀ ds : List Def,
    (∀ n ∈ defsUser ds, validName n = true) → defsUnnamed false ds = 0 → defsAfter auto i ds = ds
  | [], _, _ => by simp [defsAfter]
  | .mk n errors :: ds, h, h0 => by
    rw [defsUser] at h
    rw [defsUnnamed] at h0
    have hn : n ≠ [] := by intro e; simp [e] at h0
    have hv := h n (by simp [hn])
    rw [defsAfter, entriesAfter_named i errors (fun n hn => h n (by simp [hn])) (by omega),
      defsAfter_named auto (i + 1) ds (fun n hn => h n (by simp [hn])) (by omega)]
    simp [resolved, hn, hv]

theorem entriesAfter_named (d : Nat) : ∀ es : List Entry,
    (∀ n ∈ entriesUser es, validName n = true) → entriesUnnamed false es = 0 → entriesAfter d es = es
  | [], _, _ => by simp [entriesAfter]
  | .mk defs details :: es, h, h0 => by
    rw [entriesUser] at h
    rw [entriesUnnamed] at h0
    rw [entriesAfter, defsAfter_named _ 0 defs (fun n hn => h n (by simp [hn])) (by omega),
      detailsAfter_named d 0 details (fun n hn => h n (by simp [hn])) (by omega),
      entriesAfter_named d es (fun n hn => h n (by simp [hn])) (by omega)]

theorem detailsAfter_named (d e : Nat) : ∀ ds : List Detail,
    (∀ n ∈ detailsUser ds, validName n = true) → detailsUnnamed false ds = 0 → detailsAfter d e ds = ds
  | [], _, _ => by simp [detailsAfter]
  | .mk defs messages :: ds, h, h0 => by
    rw [detailsUser] at h
    rw [detailsUnnamed] at h0
    simp only [Bool.false_eq_true, if_false] at h0
    rw [detailsAfter, defsAfter_named _ 0 defs (fun n hn => h n (by simp [hn])) (by omega),
      detailsAfter_named d (e + 1) ds (fun n hn => h n (by simp [hn])) (by omega)]

end

/-- C66, calling `Resolve` again on a resolver (partial: if every definition has a name): the outcome is the
same. -/
theorem C66_again_partial (m : Msg) (h : accepted m = true) (h0 : defsUnnamed false m.defs = 0)
    (h1 : ∀ ds ∈ m.oneofs, defsUnnamed false ds = 0) : after m = m := by
  have hv : ∀ n ∈ userNames m, validName n = true := fun n hn => (valid_iff n).2 ((C66_reject m h).1 n hn)
  have h2 : defsAfter defName 0 m.defs = m.defs :=
    defsAfter_named _ 0 _ (fun n hn => hv n (by simp [userNames, hn])) h0
  have h3 : m.oneofs.map (defsAfter oneofName 0) = m.oneofs := by
    conv => rhs; rw [← List.map_id m.oneofs]
    apply List.map_congr_left
    intro ds hds
    exact defsAfter_named _ 0 _
      (fun n hn => hv n (List.mem_append_right _ (List.mem_flatMap.mpr ⟨ds, hds, hn⟩))) (h1 ds hds)
  obtain ⟨defs, oneofs⟩ := m
  simp only at h2 h3
  simp [after, h2, h3]

/-- C66 fails when `Resolve` is called again on a resolver with an unnamed definition: the generated name is
rejected as invalid.  (Options from the `compiler` package are not affected: they are copied when read; nor
is another resolver for the same descriptors.) -/
theorem C66_again_false : ¬ ∀ m, accepted m = true → accepted (after m) = true := by
  intro h
  have := h ⟨[.mk [] []], []⟩
    (by simp [accepted, names, defsNames, entriesNames, userNames, defsUser, entriesUser, resolved, noDuplicate,
      defName])
  simp [accepted, after, defsAfter, userNames, defsUser, entriesAfter, resolved, defName, validName,
    Char.isAlpha, Char.isUpper, Char.isLower] at this

end Verif.AutoName
