import Verif.ErrH.Spec

namespace Verif.ErrH

variable {V X D R E α β : Type}

theorem runDefs_ok (d : Option (V → Except X V)) (v v' : V) :
    runDefs d v = .ok v' ↔ DefsGive d v v' := by
  cases d with
  | none =>
    simp only [runDefs]
    constructor
    · intro h; injection h with h; subst h; exact .none v
    · intro h; cases h; rfl
  | some f =>
    simp only [runDefs]
    exact ⟨.some, fun h => by cases h; assumption⟩

theorem runDefs_error (d : Option (V → Except X V)) (v : V) :
    (∃ x, runDefs d v = .error x) ↔ DefsFail d v := by
  cases d with
  | none => simp [runDefs, DefsFail]
  | some f => simp [runDefs, DefsFail]

theorem kept_filterMap (f : α → Option β) (l : List α) (out : List β)
    (gives : α → β → Prop) (nothing : α → Prop)
    (h1 : ∀ a b, gives a b ↔ f a = some b) (h2 : ∀ a, nothing a ↔ f a = none) :
    Kept gives nothing l out ↔ l.filterMap f = out := by
  constructor
  · intro h
    induction h with
    | nil => rfl
    | keep hg _ ih => rw [List.filterMap_cons, (h1 _ _).mp hg, ih]
    | skip hn _ ih => rw [List.filterMap_cons, (h2 _).mp hn, ih]
  · intro h
    subst h
    induction l with
    | nil => exact .nil
    | cons a l ih =>
      rw [List.filterMap_cons]
      cases hf : f a with
      | none => exact .skip ((h2 a).mpr hf) ih
      | some b => exact .keep ((h1 a b).mpr hf) ih

theorem except_not_ok {x : Except X α} (h : ∀ a, x ≠ .ok a) : ∃ e, x = .error e := by
  cases x with
  | ok a => exact absurd rfl (h a)
  | error e => exact ⟨e, rfl⟩

theorem preViolation_some (v : V) (p : PreViolation V X) (o : String × String × String) :
    PreOk v p o ↔ preViolation v p = some o := by
  obtain ⟨a, b, c⟩ := o
  unfold PreOk preViolation
  cases p.typ v <;> cases p.subject v <;> cases p.desc v <;> simp

theorem preViolation_none (v : V) (p : PreViolation V X) : PreBad v p ↔ preViolation v p = none := by
  unfold PreBad
  cases h : preViolation v p with
  | none =>
    simp only [iff_true]
    intro o ho
    rw [preViolation_some, h] at ho
    cases ho
  | some o =>
    simp only [reduceCtorEq, iff_false]
    intro hn
    exact hn o ((preViolation_some v p o).mpr h)

theorem badViolation_some (v : V) (p : BadViolation V X) (o : String × String) :
    BadOk v p o ↔ badViolation v p = some o := by
  obtain ⟨a, b⟩ := o
  unfold BadOk badViolation
  cases p.field v <;> cases p.desc v <;> simp

theorem badViolation_none (v : V) (p : BadViolation V X) : BadBad v p ↔ badViolation v p = none := by
  unfold BadBad
  cases h : badViolation v p with
  | none =>
    simp only [iff_true]
    intro o ho
    rw [badViolation_some, h] at ho
    cases ho
  | some o =>
    simp only [reduceCtorEq, iff_false]
    intro hn
    exact hn o ((badViolation_some v p o).mpr h)

theorem kept_pre (v : V) (vs : List (PreViolation V X)) (l : List (String × String × String)) :
    Kept (PreOk v) (PreBad v) vs l ↔ vs.filterMap (preViolation v) = l :=
  kept_filterMap _ _ _ _ _ (preViolation_some v) (preViolation_none v)

theorem kept_bad (v : V) (vs : List (BadViolation V X)) (l : List (String × String)) :
    Kept (BadOk v) (BadBad v) vs l ↔ vs.filterMap (badViolation v) = l :=
  kept_filterMap _ _ _ _ _ (badViolation_some v) (badViolation_none v)

theorem contributes_iff (v : V) (d : DetailRule V X D) (out : List (Detail D)) :
    Contributes v d out ↔ detailItems v d = out := by
  have k2 : ∀ l₂, Kept (fun b o => ∃ x, b v = .ok (some x) ∧ o = .custom x)
      (fun b => ∀ x, b v ≠ .ok (some x)) d.byExprs l₂ ↔ d.byExprs.filterMap (byDetail v) = l₂ := by
    intro l₂
    apply kept_filterMap
    · intro b o
      unfold byDetail
      cases hb : b v with
      | error e => simp
      | ok x => cases x <;> simp [eq_comm]
    · intro b
      unfold byDetail
      cases hb : b v with
      | error e => simp
      | ok x => cases x <;> simp
  have k1 : ∀ l₁, Kept (fun m o => ∃ x, m v = .ok x ∧ o = .custom x) (fun m => ∀ x, m v ≠ .ok x)
      d.msgs l₁ ↔ d.msgs.filterMap (customMessage v) = l₁ := by
    intro l₁
    apply kept_filterMap
    · intro b o
      unfold customMessage
      cases hb : b v <;> simp [eq_comm]
    · intro b
      unfold customMessage
      cases hb : b v <;> simp
  have k3 : ∀ l₃, Kept (fun vs o => ∃ l, l ≠ [] ∧ o = .precondition l ∧ Kept (PreOk v) (PreBad v) vs l)
      (fun vs => Kept (PreOk v) (PreBad v) vs []) d.preconditions l₃ ↔
      d.preconditions.filterMap (preconditionFailure (D := D) v) = l₃ := by
    intro l₃
    apply kept_filterMap
    · intro vs o
      simp only [kept_pre]
      unfold preconditionFailure
      cases hl : vs.filterMap (preViolation v) <;> simp [eq_comm]
    · intro vs
      simp only [kept_pre]
      unfold preconditionFailure
      cases hl : vs.filterMap (preViolation v) <;> simp
  have k4 : ∀ l₄, Kept (fun vs o => ∃ l, l ≠ [] ∧ o = .badRequest l ∧ Kept (BadOk v) (BadBad v) vs l)
      (fun vs => Kept (BadOk v) (BadBad v) vs []) d.badRequests l₄ ↔
      d.badRequests.filterMap (badRequest (D := D) v) = l₄ := by
    intro l₄
    apply kept_filterMap
    · intro vs o
      simp only [kept_bad]
      unfold badRequest
      cases hl : vs.filterMap (badViolation v) <;> simp [eq_comm]
    · intro vs
      simp only [kept_bad]
      unfold badRequest
      cases hl : vs.filterMap (badViolation v) <;> simp
  have k5 : ∀ l₅, Kept (fun l o => ∃ m, l.2 v = .ok m ∧ o = .localized l.1 m) (fun l => ∀ m, l.2 v ≠ .ok m)
      d.localized l₅ ↔ d.localized.filterMap (detailItems.localizedMessageAt (D := D) v) = l₅ := by
    intro l₅
    apply kept_filterMap
    · intro b o
      unfold detailItems.localizedMessageAt localizedMessage
      cases hb : b.2 v <;> simp [eq_comm]
    · intro b
      unfold detailItems.localizedMessageAt localizedMessage
      cases hb : b.2 v <;> simp
  unfold Contributes
  simp only [k1, k2, k3, k4, k5]
  unfold detailItems
  constructor
  · rintro ⟨l₁, l₂, l₃, l₄, l₅, rfl, h0, h1, rfl, rfl, rfl, rfl⟩
    cases hm : d.msgSet with
    | none => simp [h0 hm]
    | some f => simp [← h1 (by simp [hm])]
  · intro h
    subst h
    refine ⟨_, _, _, _, _, rfl, ?_, ?_, rfl, rfl, rfl, rfl⟩
    · intro hm; simp [hm]
    · intro hm
      cases hm' : d.msgSet with
      | none => exact absurd hm' hm
      | some f => rfl

theorem runDetails_ok (ds : List (DetailRule V X D)) : ∀ (v : V) (acc out : List (Detail D)),
    (∃ v', runDetails ds v acc = .ok (v', out)) ↔ ∃ o, DetailsGive ds v o ∧ out = acc ++ o := by
  induction ds with
  | nil =>
    intro v acc out
    simp only [runDetails]
    constructor
    · rintro ⟨v', h⟩
      injection h with h; injection h with h1 h2
      exact ⟨[], .nil v, by simp [h2]⟩
    · rintro ⟨o, h, rfl⟩
      cases h
      exact ⟨v, by simp⟩
  | cons d ds ih =>
    intro v acc out
    simp only [runDetails, runDetail]
    constructor
    · rintro ⟨v', h⟩
      cases h1 : runDefs d.defs v with
      | error x => rw [h1] at h; cases h
      | ok v1 =>
        rw [h1] at h
        simp only at h
        have h1' := (runDefs_ok _ _ _).mp h1
        cases h2 : d.cond v1 with
        | error x => rw [h2] at h; cases h
        | ok b =>
          cases b with
          | false =>
            rw [h2] at h
            obtain ⟨o, ho, he⟩ := (ih v1 acc out).mp ⟨v', h⟩
            exact ⟨o, .off h1' h2 ho, he⟩
          | true =>
            rw [h2] at h
            simp only at h
            cases h3 : runDefs d.msgSet v1 with
            | error x => rw [h3] at h; cases h
            | ok v2 =>
              rw [h3] at h
              obtain ⟨o, ho, he⟩ := (ih v2 _ out).mp ⟨v', h⟩
              refine ⟨detailItems v2 d ++ o, .on h1' h2 ((runDefs_ok _ _ _).mp h3) ((contributes_iff _ _ _).mpr rfl) ho, ?_⟩
              rw [he, List.append_assoc]
    · rintro ⟨o, h, rfl⟩
      cases h with
      | off h1 h2 h3 =>
        rw [(runDefs_ok _ _ _).mpr h1]
        simp only [h2]
        exact (ih _ acc _).mpr ⟨o, h3, rfl⟩
      | on h1 h2 h3 h4 h5 =>
        rw [(runDefs_ok _ _ _).mpr h1]
        simp only [h2, (runDefs_ok _ _ _).mpr h3]
        rw [(contributes_iff _ _ _).mp h4]
        exact (ih _ _ _).mpr ⟨_, h5, by rw [List.append_assoc]⟩

theorem attached_iff (ty : Types D) (code : Nat) (msg : String) (ds : List (Detail D)) (s : Status D) :
    statusWithDetails ty code msg ds = s ↔ Attached ty code ds s ∧ s.msg = msg := by
  unfold statusWithDetails Attached
  obtain ⟨c, m, l⟩ := s
  by_cases hc : code = okCode
  · simp only [hc, if_true, Status.mk.injEq, ne_eq, not_true_eq_false, false_and, false_implies,
      not_false_eq_true, true_implies, true_and]
    constructor
    · rintro ⟨h1, h2, h3⟩; exact ⟨⟨h1.symm, h3.symm⟩, h2.symm⟩
    · rintro ⟨⟨h1, h3⟩, h2⟩; exact ⟨h1.symm, h2.symm, h3.symm⟩
  · by_cases hp : ds.all ty.packable = true
    · have hp' : ∀ d ∈ ds, ty.packable d = true := by simpa using hp
      simp only [hc, hp, if_true, if_false, Status.mk.injEq]
      constructor
      · rintro ⟨h1, h2, h3⟩
        exact ⟨⟨h1.symm, fun _ => h3.symm, fun h => absurd ⟨hc, hp'⟩ h⟩, h2.symm⟩
      · rintro ⟨⟨h1, h3, _⟩, h2⟩
        exact ⟨h1.symm, h2.symm, (h3 ⟨hc, hp'⟩).symm⟩
    · have hp' : ¬ ∀ d ∈ ds, ty.packable d = true := by simpa using hp
      simp only [hc, hp, if_false, Bool.false_eq_true, Status.mk.injEq]
      constructor
      · rintro ⟨h1, h2, h3⟩
        exact ⟨⟨h1.symm, fun h => absurd h.2 hp', fun _ => h3.symm⟩, h2.symm⟩
      · rintro ⟨⟨h1, _, h3⟩, h2⟩
        exact ⟨h1.symm, h2.symm, (h3 (fun h => hp' h.2)).symm⟩

theorem entryBody_status (ty : Types D) (st : Option (Status D)) (e : Entry V X D R) (ret r : Option R)
    (v : V) (s : Status D) (hi : ¬ Ignoring e) :
    entryBody ty (defaults ty st) e ret v = .ok (s, r) ↔ EntryStatus ty st e v s ∧ r = ret := by
  have hi1 : e.ignore = false := by
    cases h : e.ignore with
    | false => rfl
    | true => exact absurd (Or.inl h) hi
  have hi2 : e.ignoreAndResponse = none := by
    cases h : e.ignoreAndResponse with
    | none => rfl
    | some f => exact absurd (Or.inr (by simp [h])) hi
  have hmsg : ∀ m, errorMessage e.message (defaults ty st) v = .ok m ↔ MessageIs st e v m := by
    intro m
    unfold errorMessage defaults MessageIs
    cases e.message with
    | some f => exact Iff.rfl
    | none =>
      cases st with
      | none => simp [eq_comm]
      | some o =>
        by_cases ho : o.msg = ""
        · simp [ho, eq_comm]
        · simp [ho, eq_comm]
  have hcode : ∀ code : Nat, CodeIs st e code ↔ code = e.code.getD (defaults ty st).code := by
    intro code
    unfold defaults CodeIs
    cases e.code <;> cases st <;> simp
  have hdd : ∀ ds : List (Detail D), OriginalDetails ty st ds ↔ ds = (defaults ty st).details := by
    intro ds
    unfold defaults OriginalDetails
    cases st <;> simp
  unfold EntryStatus
  simp only [hcode, hdd]
  rw [← hmsg s.msg]
  unfold entryBody
  simp only [hi1, hi2, Bool.false_eq_true, if_false]
  cases hm : errorMessage e.message (defaults ty st) v with
  | error x => simp
  | ok msg =>
    simp only [Except.ok.injEq]
    cases hds : e.details with
    | nil =>
      simp only [ne_eq, not_true_eq_false, false_implies, true_implies, true_and, Except.ok.injEq,
        Prod.mk.injEq, attached_iff]
      constructor
      · rintro ⟨⟨h1, h2⟩, h3⟩
        exact ⟨⟨h2.symm, _, _, rfl, rfl, h1⟩, h3.symm⟩
      · rintro ⟨⟨h2, c, ds, rfl, rfl, h1⟩, h3⟩
        exact ⟨⟨h1, h2.symm⟩, h3.symm⟩
    | cons d ds =>
      simp only [ne_eq, reduceCtorEq, not_false_eq_true, true_implies, false_implies, true_and]
      constructor
      · intro h
        cases hr : runDetails (d :: ds) v [] with
        | error x => rw [hr] at h; cases h
        | ok p =>
          obtain ⟨v', l⟩ := p
          rw [hr] at h
          simp only [Except.ok.injEq, Prod.mk.injEq, attached_iff] at h
          obtain ⟨o, ho, he⟩ := (runDetails_ok (d :: ds) v [] l).mp ⟨v', hr⟩
          rw [List.nil_append] at he
          subst he
          exact ⟨⟨h.1.2.symm, _, _, rfl, ho, h.1.1⟩, h.2.symm⟩
      · rintro ⟨⟨h2, c, l, rfl, ho, h1⟩, h3⟩
        obtain ⟨v', hr⟩ := (runDetails_ok (d :: ds) v [] l).mpr ⟨l, ho, rfl⟩
        rw [hr]
        simp only [Except.ok.injEq, Prod.mk.injEq, attached_iff]
        exact ⟨⟨h1, h2.symm⟩, h3.symm⟩

theorem entriesLoop_noMatch (ty : Types D) (dflt : Defaults D) (ret : Option R)
    (pre post : List (Entry V X D R)) (v v' : V) (h : NoMatch pre v v') :
    entriesLoop ty dflt ret (pre ++ post) v = entriesLoop ty dflt ret post v' := by
  induction h with
  | nil v => rfl
  | cons h1 h2 _ ih =>
    rw [List.cons_append]
    simp only [entriesLoop, (runDefs_ok _ _ _).mpr h1, h2]
    exact ih

theorem entriesLoop_first (ty : Types D) (dflt : Defaults D) (ret : Option R)
    (es : List (Entry V X D R)) (v v' : V) (e : Entry V X D R) (h : FirstMatch es v e v') :
    entriesLoop ty dflt ret es v = match entryBody ty dflt e ret v' with
      | .error x => .error x
      | .ok (s, r) => .ok (some (s, e.level), r) := by
  obtain ⟨pre, post, v₁, rfl, h1, h2, h3⟩ := h
  rw [entriesLoop_noMatch ty dflt ret pre (e :: post) v v₁ h1]
  simp only [entriesLoop, (runDefs_ok _ _ _).mpr h2, h3]
  cases entryBody ty dflt e ret v' <;> rfl

/-- An entry before any match cannot be evaluated. -/
def EntryFails (es : List (Entry V X D R)) (v : V) : Prop :=
  ∃ pre e post v₁, es = pre ++ e :: post ∧ NoMatch pre v v₁ ∧
    (DefsFail e.defs v₁ ∨ ∃ v₂ x, DefsGive e.defs v₁ v₂ ∧ e.cond v₂ = .error x)

theorem trichotomy (es : List (Entry V X D R)) : ∀ v : V,
    (∃ v', NoMatch es v v') ∨ (∃ e v', FirstMatch es v e v') ∨ EntryFails es v := by
  induction es with
  | nil => intro v; exact Or.inl ⟨v, .nil v⟩
  | cons e es ih =>
    intro v
    cases h1 : runDefs e.defs v with
    | error x => exact Or.inr (Or.inr ⟨[], e, es, v, rfl, .nil v, Or.inl ((runDefs_error _ _).mp ⟨x, h1⟩)⟩)
    | ok v1 =>
      have h1' := (runDefs_ok _ _ _).mp h1
      cases h2 : e.cond v1 with
      | error x => exact Or.inr (Or.inr ⟨[], e, es, v, rfl, .nil v, Or.inr ⟨v1, x, h1', h2⟩⟩)
      | ok b =>
        cases b with
        | true => exact Or.inr (Or.inl ⟨e, v1, [], es, v, rfl, .nil v, h1', h2⟩)
        | false =>
          rcases ih v1 with ⟨v', h⟩ | ⟨e', v', pre, post, v₁, rfl, h3, h4⟩ | ⟨pre, e', post, v₁, rfl, h3, h4⟩
          · exact Or.inl ⟨v', .cons h1' h2 h⟩
          · exact Or.inr (Or.inl ⟨e', v', e :: pre, post, v₁, rfl, .cons h1' h2 h3, h4⟩)
          · exact Or.inr (Or.inr ⟨e :: pre, e', post, v₁, rfl, .cons h1' h2 h3, h4⟩)

theorem entriesLoop_none (ty : Types D) (dflt : Defaults D) (ret : Option R)
    (es : List (Entry V X D R)) (v v' : V) (h : NoMatch es v v') :
    entriesLoop ty dflt ret es v = .ok (none, ret) := by
  have := entriesLoop_noMatch ty dflt ret es [] v v' h
  rw [List.append_nil] at this
  rw [this]; rfl

theorem entriesLoop_fails (ty : Types D) (dflt : Defaults D) (ret : Option R)
    (es : List (Entry V X D R)) (v : V) (h : EntryFails es v) :
    ∃ x, entriesLoop ty dflt ret es v = .error x := by
  obtain ⟨pre, e, post, v₁, rfl, h1, h2⟩ := h
  rw [entriesLoop_noMatch ty dflt ret pre (e :: post) v v₁ h1]
  simp only [entriesLoop]
  rcases h2 with h2 | ⟨v₂, x, h2, h3⟩
  · obtain ⟨x, hx⟩ := (runDefs_error _ _).mpr h2
    rw [hx]; exact ⟨x, rfl⟩
  · rw [(runDefs_ok _ _ _).mpr h2]
    simp only [h3]; exact ⟨x, rfl⟩

end Verif.ErrH
