import Verif.SharedEnv.Model

/-! # C41: messages see exactly the variables all their services share; C59 -/

namespace Verif.SharedEnv

/-! ## Specification -/

inductive Has : Fields → Name → Ty → Prop
  | here {n t r} : Has (.cons n t r) n t
  | there {n t r n' t'} : Has r n' t' → Has (.cons n t r) n' t'

/-- What a type is at one place, names of messages and enums aside. -/
inductive Leaf where
  | scalar (kind : Nat) (repeated : Bool)
  | enum (repeated : Bool)
  | msg (repeated : Bool)

def leaf : Ty → Leaf
  | .scalar k r => .scalar k r
  | .enum _ r => .enum r
  | .msg _ r _ => .msg r

/-- Following the fields `p` one finds `k`. -/
inductive Path : Ty → List Name → Leaf → Prop
  | here {t} : Path t [] (leaf t)
  | field {m r fs n t p k} : Has fs n t → Path t p k → Path (.msg m r fs) (n :: p) k

/-- Two types are alike if they have the same fields with the same kinds, at all depths. -/
def Alike (a b : Ty) : Prop := ∀ p k, Path a p k ↔ Path b p k

mutual
/-- Fields of a message have different names. -/
def Ty.wf : Ty → Prop
  | .msg _ _ fs => fs.wf
  | _ => True
def Fields.wf : Fields → Prop
  | .nil => True
  | .cons n t r => (∀ t', ¬ Has r n t') ∧ t.wf ∧ r.wf
end

/-! ## Lemmas on types -/

theorem has_last (fs : Fields) (hw : fs.wf) (n : Name) (t : Ty) : Has fs n t ↔ fs.last n = some t := by
  match fs with
  | .nil => constructor
            · intro h; cases h
            · intro h; cases h
  | .cons m u r =>
    simp only [Fields.wf] at hw
    have ih := has_last r hw.2.2 n
    simp only [Fields.last]
    constructor
    · intro h
      cases h with
      | here =>
        cases hl : r.last n with
        | some t' => exact absurd ((ih t').mpr hl) (hw.1 t')
        | none => simp
      | there h => rw [(ih t).mp h]
    · intro h
      cases hl : r.last n with
      | some t' => rw [hl] at h; cases h; exact .there ((ih t).mpr hl)
      | none =>
        rw [hl] at h
        simp only at h
        split at h
        · rename_i he; cases h; cases he; exact .here
        · cases h

theorem has_wf (fs : Fields) (hw : fs.wf) (n : Name) (t : Ty) (h : Has fs n t) : t.wf := by
  induction h with
  | here => simp only [Fields.wf] at hw; exact hw.2.1
  | there _ ih => simp only [Fields.wf] at hw; exact ih hw.2.2

theorem has_unique (fs : Fields) (hw : fs.wf) (n : Name) (t t' : Ty) (h : Has fs n t) (h' : Has fs n t') : t = t' := by
  rw [has_last fs hw] at h h'
  rw [h] at h'; exact Option.some.inj h'

/-- Names of fields. -/
def Fields.names : Fields → List Name
  | .nil => []
  | .cons n _ r => n :: r.names

theorem mem_names (fs : Fields) (n : Name) : n ∈ fs.names ↔ ∃ t, Has fs n t := by
  match fs with
  | .nil => simp only [Fields.names, List.not_mem_nil, false_iff]; rintro ⟨t, h⟩; cases h
  | .cons m u r =>
    have ih := mem_names r n
    simp only [Fields.names, List.mem_cons, ih]
    constructor
    · rintro (rfl | ⟨t, h⟩)
      · exact ⟨u, .here⟩
      · exact ⟨t, .there h⟩
    · rintro ⟨t, h⟩
      cases h with
      | here => exact Or.inl rfl
      | there h => exact Or.inr ⟨t, h⟩

theorem names_nodup (fs : Fields) (hw : fs.wf) : fs.names.Nodup := by
  match fs with
  | .nil => simp [Fields.names]
  | .cons m u r =>
    simp only [Fields.wf] at hw
    simp only [Fields.names, List.nodup_cons, mem_names]
    exact ⟨fun ⟨t, h⟩ => hw.1 t h, names_nodup r hw.2.2⟩

theorem names_length (fs : Fields) : fs.names.length = fs.length := by
  match fs with
  | .nil => rfl
  | .cons m u r => simp [Fields.names, Fields.length, names_length r]

theorem subset_of_length {l m : List Name} (hl : l.Nodup) (hlen : m.length ≤ l.length) (hs : ∀ x ∈ l, x ∈ m) :
    ∀ x ∈ m, x ∈ l := by
  intro x hx
  induction l generalizing m with
  | nil => cases m with
    | nil => cases hx
    | cons _ _ => simp at hlen
  | cons a l ih =>
    rw [List.nodup_cons] at hl
    have ha := hs a (by simp)
    by_cases hxa : x = a
    · simp [hxa]
    · simp only [List.mem_cons, hxa, false_or]
      apply ih (m := m.erase a) hl.2
      · rw [List.length_erase_of_mem ha]; simp only [List.length_cons] at hlen; omega
      · intro y hy
        have hya : y ≠ a := fun h => hl.1 (h ▸ hy)
        exact (List.mem_erase_of_ne hya).mpr (hs y (by simp [hy]))
      · exact (List.mem_erase_of_ne hxa).mpr hx

theorem length_le_of_subset {l m : List Name} (hl : l.Nodup) (hs : ∀ x ∈ l, x ∈ m) : l.length ≤ m.length := by
  induction l generalizing m with
  | nil => simp
  | cons a l ih =>
    rw [List.nodup_cons] at hl
    have ha := hs a (by simp)
    have := ih (m := m.erase a) hl.2 (fun y hy => by
      have hya : y ≠ a := fun h => hl.1 (h ▸ hy)
      exact (List.mem_erase_of_ne hya).mpr (hs y (by simp [hy])))
    rw [List.length_erase_of_mem ha] at this
    have : 0 < m.length := List.length_pos_of_mem ha
    simp only [List.length_cons]; omega

theorem path_nil {t k} (h : Path t [] k) : k = leaf t := by cases h; rfl

theorem alike_leaf {a b} (h : Alike a b) : leaf a = leaf b := path_nil ((h [] (leaf a)).mp .here)

theorem alike_fields {m r fs m' r' fs'} (hw : fs.wf) (hw' : fs'.wf) (h : Alike (.msg m r fs) (.msg m' r' fs')) (n : Name) :
    (∀ t, Has fs n t → ∃ t', Has fs' n t' ∧ Alike t t') ∧ (∀ t', Has fs' n t' → ∃ t, Has fs n t ∧ Alike t t') := by
  have step : ∀ {m r fs m' r' fs'}, Fields.wf fs → Fields.wf fs' → Alike (.msg m r fs) (.msg m' r' fs') →
      ∀ t, Has fs n t → ∃ t', Has fs' n t' ∧ ∀ p k, Path t p k → Path t' p k := by
    intro m r fs m' r' fs' hw hw' h t ht
    have h0 := (h [n] (leaf t)).mp (.field ht .here)
    cases h0 with
    | @field _ _ _ _ t' _ _ hf _ =>
      refine ⟨t', hf, ?_⟩
      intro p k hp
      have := (h (n :: p) k).mp (.field ht hp)
      cases this with
      | field hf' hp' => rw [has_unique fs' hw' n _ _ hf hf']; exact hp'
  have hsym : Alike (.msg m' r' fs') (.msg m r fs) := fun p k => (h p k).symm
  constructor
  · intro t ht
    obtain ⟨t', ht', h1⟩ := step hw hw' h t ht
    obtain ⟨t2, ht2, h2⟩ := step hw' hw hsym t' ht'
    have := has_unique fs hw n _ _ ht ht2
    subst this
    exact ⟨t', ht', fun p k => ⟨h1 p k, h2 p k⟩⟩
  · intro t' ht'
    obtain ⟨t, ht, h1⟩ := step hw' hw hsym t' ht'
    obtain ⟨t2, ht2, h2⟩ := step hw hw' h t ht
    have := has_unique fs' hw' n _ _ ht' ht2
    subst this
    exact ⟨t, ht, fun p k => ⟨h2 p k, h1 p k⟩⟩

theorem alike_of_fields {m r fs m' r' fs'} (hr : r = r')
    (h1 : ∀ n t, Has fs n t → ∃ t', Has fs' n t' ∧ Alike t t')
    (h2 : ∀ n t', Has fs' n t' → ∃ t, Has fs n t ∧ Alike t t') : Alike (.msg m r fs) (.msg m' r' fs') := by
  intro p k
  constructor
  · intro h
    cases h with
    | here => rw [show leaf (.msg m r fs) = leaf (.msg m' r' fs') by simp [leaf, hr]]; exact .here
    | field hf hp => obtain ⟨t', ht', ha⟩ := h1 _ _ hf; exact .field ht' ((ha _ _).mp hp)
  · intro h
    cases h with
    | here => rw [show leaf (.msg m' r' fs') = leaf (.msg m r fs) by simp [leaf, hr]]; exact .here
    | field hf hp => obtain ⟨t, ht, ha⟩ := h2 _ _ hf; exact .field ht ((ha _ _).mpr hp)

theorem alike_of_leaf {a b : Ty} (h : leaf a = leaf b) (ha : ∀ r, leaf a ≠ .msg r) : Alike a b := by
  intro p k
  constructor
  · intro hp
    cases hp with
    | here => rw [h]; exact .here
    | field _ _ => exact absurd rfl (ha _)
  · intro hp
    cases hp with
    | here => rw [← h]; exact .here
    | field _ _ => exact absurd h (ha _)

mutual
theorem same_iff : ∀ (b a : Ty), a.wf → b.wf → (same a b = true ↔ Alike a b)
  | .scalar k r, a, ha, hb => by
    constructor
    · intro h
      cases a with
      | scalar k' r' => simp [same] at h; obtain ⟨rfl, rfl⟩ := h; exact fun _ _ => Iff.rfl
      | enum _ _ => simp [same] at h
      | msg _ _ _ => simp [same] at h
    · intro h
      have := alike_leaf h
      cases a <;> simp [leaf] at this
      obtain ⟨rfl, rfl⟩ := this
      simp [same]
  | .enum n r, a, ha, hb => by
    constructor
    · intro h
      cases a with
      | enum n' r' => simp [same] at h; subst h; exact alike_of_leaf rfl (by simp [leaf])
      | scalar _ _ => simp [same] at h
      | msg _ _ _ => simp [same] at h
    · intro h
      have := alike_leaf h
      cases a <;> simp [leaf] at this
      subst this
      simp [same]
  | .msg m r fs, a, ha, hb => by
    simp only [Ty.wf] at hb
    cases a with
    | scalar _ _ => constructor
                    · intro h; simp [same] at h
                    · intro h; have := alike_leaf h; simp [leaf] at this
    | enum _ _ => constructor
                  · intro h; simp [same] at h
                  · intro h; have := alike_leaf h; simp [leaf] at this
    | msg m' r' ls =>
      simp only [Ty.wf] at ha
      have hf := sameFields_iff fs ls ha hb
      simp only [same, Bool.and_eq_true, beq_iff_eq]
      constructor
      · rintro ⟨⟨h1, h2⟩, h3⟩
        have h3' := hf.mp h3
        refine alike_of_fields h1 ?_ ?_
        · intro n t ht
          have hsub : ∀ x ∈ fs.names, x ∈ ls.names := by
            intro x hx
            obtain ⟨u, hu⟩ := (mem_names fs x).mp hx
            obtain ⟨v, hv, _⟩ := h3' x u hu
            exact (mem_names ls x).mpr ⟨v, hv⟩
          have hn := subset_of_length (names_nodup fs hb) (by rw [names_length, names_length]; omega) hsub n
            ((mem_names ls n).mpr ⟨t, ht⟩)
          obtain ⟨u, hu⟩ := (mem_names fs n).mp hn
          obtain ⟨v, hv, hal⟩ := h3' n u hu
          rw [has_unique ls ha n _ _ ht hv]
          exact ⟨u, hu, hal⟩
        · intro n t' ht'
          exact h3' n t' ht'
      · intro h
        have hr : r' = r := by have := alike_leaf h; simpa [leaf] using this
        have hfl := alike_fields ha hb h
        refine ⟨⟨hr, ?_⟩, hf.mpr ?_⟩
        · have s1 : ∀ x ∈ fs.names, x ∈ ls.names := by
            intro x hx
            obtain ⟨u, hu⟩ := (mem_names fs x).mp hx
            obtain ⟨v, hv, _⟩ := (hfl x).2 u hu
            exact (mem_names ls x).mpr ⟨v, hv⟩
          have s2 : ∀ x ∈ ls.names, x ∈ fs.names := by
            intro x hx
            obtain ⟨u, hu⟩ := (mem_names ls x).mp hx
            obtain ⟨v, hv, _⟩ := (hfl x).1 u hu
            exact (mem_names fs x).mpr ⟨v, hv⟩
          have l1 := length_le_of_subset (names_nodup fs hb) s1
          have l2 := length_le_of_subset (names_nodup ls ha) s2
          rw [names_length, names_length] at l1 l2
          omega
        · intro n t' ht'
          exact (hfl n).2 t' ht'
theorem sameFields_iff : ∀ (fs ls : Fields), ls.wf → fs.wf →
    (sameFields ls fs = true ↔ ∀ n t, Has fs n t → ∃ t', Has ls n t' ∧ Alike t' t)
  | .nil, ls, hl, hf => by
    constructor
    · intro _ n t h; cases h
    · intro _; rw [sameFields]
  | .cons n t rest, ls, hl, hf => by
    simp only [Fields.wf] at hf
    have ih := sameFields_iff rest ls hl hf.2.2
    rw [sameFields, Bool.and_eq_true, ih]
    constructor
    · rintro ⟨h1, h2⟩ n' t' h
      cases h with
      | here =>
        cases hx : ls.last n with
        | none => rw [hx] at h1; cases h1
        | some lt =>
          rw [hx] at h1
          have hlt := (has_last ls hl n lt).mpr hx
          exact ⟨lt, hlt, (same_iff t lt (has_wf ls hl n lt hlt) hf.2.1).mp h1⟩
      | there h => exact h2 _ _ h
    · intro h
      refine ⟨?_, fun n' t' h' => h n' t' (.there h')⟩
      obtain ⟨lt, hlt, hal⟩ := h n t .here
      rw [(has_last ls hl n lt).mp hlt]
      exact (same_iff t lt (has_wf ls hl n lt hlt) hf.2.1).mpr hal
end

/-- C41: types are compared by their fields and kinds at all depths. -/
theorem C41_same_type (a b : Ty) (ha : a.wf) (hb : b.wf) : same a b = true ↔ Alike a b := same_iff b a ha hb

/-- C41 is false of the code for enums: two different enums are not told apart. -/
theorem C41_enum_false : same (.enum "A" false) (.enum "B" false) = true := by simp [same]

/-! ## Variables -/

/-- The service has a variable `n` of type `t` (the last declaration counts). -/
def Defines {T} (vs : Vars T) (n : Name) (t : T) : Prop :=
  ∃ pre post, vs = pre ++ (n, t) :: post ∧ ∀ v ∈ post, v.1 ≠ n

theorem lookup_iff {T} (vs : Vars T) (n : Name) (t : T) : lookup vs n = some t ↔ Defines vs n t := by
  unfold lookup Defines
  rw [Option.map_eq_some_iff]
  constructor
  · rintro ⟨⟨m, u⟩, h, rfl⟩
    rw [List.find?_eq_some_iff_append] at h
    obtain ⟨h1, as, bs, h2, h3⟩ := h
    simp only [beq_iff_eq] at h1
    subst h1
    refine ⟨bs.reverse, as.reverse, ?_, ?_⟩
    · have := congrArg List.reverse h2
      simpa using this
    · intro v hv
      have := h3 v (by simpa using hv)
      simpa using this
  · rintro ⟨pre, post, rfl, hp⟩
    refine ⟨(n, t), ?_, rfl⟩
    rw [List.find?_eq_some_iff_append]
    refine ⟨by simp, post.reverse, pre.reverse, by simp, ?_⟩
    intro v hv
    have := hp v (by simpa using hv)
    simpa using this

theorem defines_unique {T} (vs : Vars T) (n : Name) (t t' : T) (h : Defines vs n t) (h' : Defines vs n t') : t = t' := by
  rw [← lookup_iff] at h h'
  rw [h] at h'; exact Option.some.inj h'

theorem typesOf_some {T} (svcs : List (Vars T)) (n : Name) (ts : List T) (h : typesOf svcs n = some ts) :
    ts.length = svcs.length ∧ (∀ s ∈ svcs, ∃ t ∈ ts, Defines s n t) ∧ (∀ t ∈ ts, ∃ s ∈ svcs, Defines s n t) := by
  induction svcs generalizing ts with
  | nil => simp only [typesOf] at h; cases h; simp
  | cons s rest ih =>
    simp only [typesOf] at h
    cases hl : lookup s n with
    | none => rw [hl] at h; cases h
    | some t =>
      rw [hl] at h
      simp only at h
      cases hr : typesOf rest n with
      | none => rw [hr] at h; cases h
      | some us =>
        rw [hr] at h
        simp only [Option.map_some, Option.some.injEq] at h
        subst h
        obtain ⟨h1, h2, h3⟩ := ih us hr
        have hd := (lookup_iff s n t).mp hl
        refine ⟨by simp [h1], ?_, ?_⟩
        · intro x hx
          rcases List.mem_cons.mp hx with rfl | hx
          · exact ⟨t, by simp, hd⟩
          · obtain ⟨u, hu, hd'⟩ := h2 x hx; exact ⟨u, by simp [hu], hd'⟩
        · intro x hx
          rcases List.mem_cons.mp hx with rfl | hx
          · exact ⟨s, by simp, hd⟩
          · obtain ⟨u, hu, hd'⟩ := h3 x hx; exact ⟨u, by simp [hu], hd'⟩

theorem typesOf_none {T} (svcs : List (Vars T)) (n : Name) (h : typesOf svcs n = none) :
    ∃ s ∈ svcs, ∀ t, ¬ Defines s n t := by
  induction svcs with
  | nil => cases h
  | cons s rest ih =>
    simp only [typesOf] at h
    cases hl : lookup s n with
    | none =>
      refine ⟨s, by simp, ?_⟩
      intro t ht
      rw [← lookup_iff, hl] at ht; cases ht
    | some t =>
      rw [hl] at h
      simp only [Option.map_eq_none_iff] at h
      obtain ⟨x, hx, hd⟩ := ih h
      exact ⟨x, by simp [hx], hd⟩

theorem build_vars {T} (same : T → T → Bool) (svcs : List (Vars T)) (names : List Name) (n : Name) (t : T) :
    (n, t) ∈ (build same svcs names).1 ↔ n ∈ names ∧ ∃ ts, typesOf svcs n = some (t :: ts) := by
  induction names with
  | nil => simp [build]
  | cons m ms ih =>
    simp only [build]
    cases hty : typesOf svcs m with
    | none =>
      simp only
      rw [ih]
      constructor
      · rintro ⟨h1, h2⟩; exact ⟨by simp [h1], h2⟩
      · rintro ⟨h1, ts, h2⟩
        rcases List.mem_cons.mp h1 with rfl | h1
        · rw [hty] at h2; cases h2
        · exact ⟨h1, ts, h2⟩
    | some l =>
      cases l with
      | nil =>
        simp only
        rw [ih]
        constructor
        · rintro ⟨h1, h2⟩; exact ⟨by simp [h1], h2⟩
        · rintro ⟨h1, ts, h2⟩
          rcases List.mem_cons.mp h1 with rfl | h1
          · rw [hty] at h2; cases h2
          · exact ⟨h1, ts, h2⟩
      | cons u us =>
        simp only [List.mem_cons, Prod.mk.injEq, ih]
        constructor
        · rintro (⟨rfl, rfl⟩ | ⟨h1, h2⟩)
          · exact ⟨Or.inl rfl, us, hty⟩
          · exact ⟨Or.inr h1, h2⟩
        · rintro ⟨rfl | h1, ts, h2⟩
          · rw [hty] at h2; cases h2; exact Or.inl ⟨rfl, rfl⟩
          · exact Or.inr ⟨h1, ts, h2⟩

theorem build_errs {T} (same : T → T → Bool) (svcs : List (Vars T)) (names : List Name) (n : Name) :
    n ∈ (build same svcs names).2 ↔ n ∈ names ∧ ∃ t ts, typesOf svcs n = some (t :: ts) ∧ ∃ u ∈ ts, same t u = false := by
  induction names with
  | nil => simp [build]
  | cons m ms ih =>
    simp only [build]
    cases hty : typesOf svcs m with
    | none =>
      simp only
      rw [ih]
      constructor
      · rintro ⟨h1, h2⟩; exact ⟨by simp [h1], h2⟩
      · rintro ⟨h1, t, ts, h2, h3⟩
        rcases List.mem_cons.mp h1 with rfl | h1
        · rw [hty] at h2; cases h2
        · exact ⟨h1, t, ts, h2, h3⟩
    | some l =>
      cases l with
      | nil =>
        simp only
        rw [ih]
        constructor
        · rintro ⟨h1, h2⟩; exact ⟨by simp [h1], h2⟩
        · rintro ⟨h1, t, ts, h2, h3⟩
          rcases List.mem_cons.mp h1 with rfl | h1
          · rw [hty] at h2; cases h2
          · exact ⟨h1, t, ts, h2, h3⟩
      | cons u us =>
        simp only
        have hany : (us.any (fun x => !same u x)) = true ↔ ∃ x ∈ us, same u x = false := by simp
        constructor
        · intro h
          split at h
          · rename_i ha
            rcases List.mem_cons.mp h with rfl | h
            · exact ⟨by simp, u, us, hty, hany.mp ha⟩
            · obtain ⟨h1, h2⟩ := ih.mp h; exact ⟨by simp [h1], h2⟩
          · obtain ⟨h1, h2⟩ := ih.mp h; exact ⟨by simp [h1], h2⟩
        · rintro ⟨h1, t, ts, h2, h3⟩
          rcases List.mem_cons.mp h1 with rfl | h1
          · rw [hty] at h2; cases h2
            rw [if_pos (hany.mpr h3)]; simp
          · have := ih.mpr ⟨h1, t, ts, h2, h3⟩
            split
            · simp [this]
            · exact this

/-- The names of all variables of all services, in any order. -/
def AllNames {T} (svcs : List (Vars T)) (names : List Name) : Prop :=
  ∀ n, n ∈ names ↔ ∃ s ∈ svcs, ∃ t, Defines s n t

/-- C41: a message can use a variable exactly if every service that uses the message defines it. -/
theorem C41_shared {T} (same : T → T → Bool) (svcs : List (Vars T)) (hne : svcs ≠ []) (names : List Name)
    (hn : AllNames svcs names) (n : Name) :
    (∃ t, (n, t) ∈ (build same svcs names).1) ↔ ∀ s ∈ svcs, ∃ t, Defines s n t := by
  constructor
  · rintro ⟨t, h⟩ s hs
    obtain ⟨_, ts, h⟩ := (build_vars _ _ _ _ _).mp h
    obtain ⟨u, _, hd⟩ := (typesOf_some svcs n _ h).2.1 s hs
    exact ⟨u, hd⟩
  · intro h
    cases hty : typesOf svcs n with
    | none =>
      obtain ⟨s, hs, hd⟩ := typesOf_none svcs n hty
      obtain ⟨t, ht⟩ := h s hs
      exact absurd ht (hd t)
    | some l =>
      cases l with
      | nil =>
        have := (typesOf_some svcs n _ hty).1
        cases svcs with
        | nil => exact absurd rfl hne
        | cons _ _ => simp at this
      | cons t ts =>
        refine ⟨t, (build_vars _ _ _ _ _).mpr ⟨?_, ts, hty⟩⟩
        cases svcs with
        | nil => exact absurd rfl hne
        | cons s rest => exact (hn n).mpr ⟨s, by simp, h s (by simp)⟩

/-- C41: a schema is rejected exactly if a variable all services define has different types in two of
them. -/
theorem C41_rejected_iff (svcs : List (Vars Ty)) (names : List Name) (hn : AllNames svcs names)
    (hwf : ∀ s ∈ svcs, ∀ v ∈ s, v.2.wf) (n : Name) :
    n ∈ (build same svcs names).2 ↔
      (∀ s ∈ svcs, ∃ t, Defines s n t) ∧ ∃ s ∈ svcs, ∃ s' ∈ svcs, ∃ t t', Defines s n t ∧ Defines s' n t' ∧ ¬ Alike t t' := by
  have hdw : ∀ s ∈ svcs, ∀ t, Defines s n t → t.wf := by
    rintro s hs t ⟨pre, post, rfl, _⟩
    exact hwf _ hs (n, t) (by simp)
  rw [build_errs]
  constructor
  · rintro ⟨_, t, ts, hty, u, hu, hsame⟩
    obtain ⟨_, h2, h3⟩ := typesOf_some svcs n _ hty
    refine ⟨fun s hs => by obtain ⟨x, _, hd⟩ := h2 s hs; exact ⟨x, hd⟩, ?_⟩
    obtain ⟨s, hs, hd⟩ := h3 t (by simp)
    obtain ⟨s', hs', hd'⟩ := h3 u (by simp [hu])
    refine ⟨s, hs, s', hs', t, u, hd, hd', ?_⟩
    intro hal
    rw [(same_iff u t (hdw s hs t hd) (hdw s' hs' u hd')).mpr hal] at hsame
    cases hsame
  · rintro ⟨hall, s, hs, s', hs', t, t', hd, hd', hna⟩
    cases hty : typesOf svcs n with
    | none =>
      obtain ⟨x, hx, hdx⟩ := typesOf_none svcs n hty
      obtain ⟨y, hy⟩ := hall x hx
      exact absurd hy (hdx y)
    | some l =>
      obtain ⟨h1, h2, h3⟩ := typesOf_some svcs n _ hty
      cases l with
      | nil => obtain ⟨x, hx, _⟩ := h2 s hs; cases hx
      | cons a l =>
        refine ⟨(hn n).mpr ⟨s, hs, t, hd⟩, a, l, rfl, ?_⟩
        obtain ⟨sa, hsa, hda⟩ := h3 a (by simp)
        have hwa := hdw sa hsa a hda
        have find : ∀ s ∈ svcs, ∀ t, Defines s n t → t ∈ a :: l := by
          intro s hs t hd
          obtain ⟨x, hx, hdx⟩ := h2 s hs
          rw [defines_unique s n t x hd hdx]; exact hx
        have nal : ∀ s ∈ svcs, ∀ t, Defines s n t → ¬ Alike a t → ∃ u ∈ l, same a u = false := by
          intro s hs t hd hna
          rcases List.mem_cons.mp (find s hs t hd) with rfl | hm
          · exact absurd (fun p k => Iff.rfl) hna
          · refine ⟨t, hm, ?_⟩
            cases hc : same a t with
            | false => rfl
            | true => exact absurd ((same_iff t a hwa (hdw s hs t hd)).mp hc) hna
        by_cases h1a : Alike a t
        · refine nal s' hs' t' hd' ?_
          intro h2a
          exact hna (fun p k => ((h1a p k).symm).trans (h2a p k))
        · exact nal s hs t hd h1a

/-- C41: if the schema is accepted, the type of a visible variable is the one every service declares. -/
theorem C41_type (svcs : List (Vars Ty)) (names : List Name) (hn : AllNames svcs names)
    (hwf : ∀ s ∈ svcs, ∀ v ∈ s, v.2.wf) (hok : (build same svcs names).2 = []) (n : Name) (t : Ty)
    (h : (n, t) ∈ (build same svcs names).1) (s : Vars Ty) (hs : s ∈ svcs) : ∃ t', Defines s n t' ∧ Alike t t' := by
  obtain ⟨hnm, ts, hty⟩ := (build_vars _ _ _ _ _).mp h
  obtain ⟨_, h2, h3⟩ := typesOf_some svcs n _ hty
  obtain ⟨u, hu, hd⟩ := h2 s hs
  refine ⟨u, hd, ?_⟩
  obtain ⟨s0, hs0, hd0⟩ := h3 t (by simp)
  by_cases hal : Alike t u
  · exact hal
  · exfalso
    have := (C41_rejected_iff svcs names hn hwf n).mpr
      ⟨fun x hx => by obtain ⟨y, _, hy⟩ := h2 x hx; exact ⟨y, hy⟩, s0, hs0, s, hs, t, u, hd0, hd, hal⟩
    rw [hok] at this; cases this

/-- C41: neither the errors nor the visible names depend on the order in which services and names are
visited. -/
theorem C41_order_independent (svcs svcs' : List (Vars Ty)) (names names' : List Name)
    (hs : ∀ s, s ∈ svcs ↔ s ∈ svcs') (hn : AllNames svcs names) (hn' : AllNames svcs' names')
    (hwf : ∀ s ∈ svcs, ∀ v ∈ s, v.2.wf) (n : Name) :
    (n ∈ (build same svcs names).2 ↔ n ∈ (build same svcs' names').2) ∧
    ((∃ t, (n, t) ∈ (build same svcs names).1) ↔ ∃ t, (n, t) ∈ (build same svcs' names').1) := by
  have hwf' : ∀ s ∈ svcs', ∀ v ∈ s, v.2.wf := fun s h => hwf s ((hs s).mpr h)
  constructor
  · rw [C41_rejected_iff svcs names hn hwf, C41_rejected_iff svcs' names' hn' hwf']
    simp only [hs]
  · by_cases hne : svcs = []
    · have hne' : svcs' = [] := by
        cases svcs' with
        | nil => rfl
        | cons x _ => subst hne; exact absurd ((hs x).mpr (by simp)) (by simp)
      subst hne; subst hne'
      simp [build_vars, typesOf]
    · have hne' : svcs' ≠ [] := by
        rintro rfl
        cases svcs with
        | nil => exact hne rfl
        | cons x _ => exact absurd ((hs x).mp (by simp)) (by simp)
      rw [C41_shared same svcs hne names hn, C41_shared same svcs' hne' names' hn']
      simp only [hs]

/-- C41 for service variables: those with name and type are shared in the same way. -/
theorem C41_service_variables {T} (same : T → T → Bool) (svcs : List (List (SvcVar T))) (hne : svcs ≠ []) (names : List Name)
    (hn : AllNames (svcs.map usable) names) (n : Name) :
    (∃ t, (n, t) ∈ (buildVars same svcs names).1) ↔ n ≠ "" ∧ ∀ s ∈ svcs, ∃ v ∈ s, v.name = n ∧ v.ty.isSome = true := by
  unfold buildVars
  rw [C41_shared same _ (by simpa using hne) names hn]
  have key : ∀ s : List (SvcVar T), (∃ t, Defines (usable s) n t) ↔ n ≠ "" ∧ ∃ v ∈ s, v.name = n ∧ v.ty.isSome = true := by
    intro s
    have : (∃ t, Defines (usable s) n t) ↔ ∃ t, (n, t) ∈ usable s := by
      constructor
      · rintro ⟨t, pre, post, h, _⟩; exact ⟨t, by rw [h]; simp⟩
      · intro h
        generalize usable s = l at h
        induction l with
        | nil => obtain ⟨t, h⟩ := h; cases h
        | cons x l ih =>
          by_cases hl : ∃ t, (n, t) ∈ l
          · obtain ⟨t, pre, post, h1, h2⟩ := ih hl
            exact ⟨t, x :: pre, post, by simp [h1], h2⟩
          · obtain ⟨t, h⟩ := h
            rcases List.mem_cons.mp h with rfl | h
            · refine ⟨t, [], l, rfl, ?_⟩
              rintro ⟨m, u⟩ hv rfl
              exact hl ⟨u, hv⟩
            · exact absurd ⟨t, h⟩ hl
    rw [this]
    unfold usable
    simp only [List.mem_filterMap]
    constructor
    · rintro ⟨t, v, hv, h⟩
      split at h
      · cases h
      · rename_i he
        rw [Option.map_eq_some_iff] at h
        obtain ⟨u, hu, h⟩ := h
        simp only [Prod.mk.injEq] at h
        obtain ⟨h1, h2⟩ := h
        subst h1
        exact ⟨he, v, hv, rfl, by rw [hu]; rfl⟩
    · rintro ⟨he, v, hv, rfl, hty⟩
      obtain ⟨t, ht⟩ := Option.isSome_iff_exists.mp hty
      exact ⟨t, v, hv, by rw [if_neg he, ht]; rfl⟩
  constructor
  · intro h
    have h0 : n ≠ "" := by
      cases svcs with
      | nil => exact absurd rfl hne
      | cons s _ => exact ((key s).mp (h (usable s) (by simp))).1
    exact ⟨h0, fun s hs => ((key s).mp (h (usable s) (List.mem_map_of_mem hs))).2⟩
  · rintro ⟨h0, h⟩ s hs
    obtain ⟨x, hx, rfl⟩ := List.mem_map.mp hs
    exact (key x).mpr ⟨h0, h x hx⟩

/-- Two services that share `a` and disagree on `b`. -/
def exSvcs : List (Vars Ty) :=
  [[("a", .scalar 9 false), ("b", .scalar 3 false), ("c", .scalar 1 false)], [("b", .scalar 9 false), ("a", .scalar 9 false)]]

example : (build same exSvcs ["c", "a", "b"]).1.map (·.1) = ["a", "b"] ∧ (build same exSvcs ["c", "a", "b"]).2 = ["b"] := by
  decide

example : ∀ n ∈ ["c", "a", "b"], ∃ s ∈ exSvcs, (lookup s n).isSome = true := by decide

/-! ## C59: recursive types -/

/-- The messages of the schema do not contain themselves: every field of message type refers to a
message of smaller rank. -/
def NonRecursive (G : Graph) (rank : Name → Nat) : Prop :=
  ∀ m, ∀ f ∈ G m, ∀ m' r, f.2 = .msg m' r → rank m' < rank m

def gRank (rank : Name → Nat) : GTy → Nat
  | .scalar _ _ => 0
  | .msg m _ => rank m + 1

/-- C59 (partial: types without recursion): comparing two types ends. -/
theorem C59_terminates_partial (G : Graph) (rank : Name → Nat) (h : NonRecursive G rank) (l r : GTy) (fuel : Nat)
    (hf : gRank rank l < fuel) : (sameG G fuel l r).isSome = true := by
  induction fuel generalizing l r with
  | zero => omega
  | succ fuel ih =>
    cases l with
    | scalar k a => cases r <;> simp [sameG]
    | msg m a =>
      cases r with
      | scalar _ _ => simp [sameG]
      | msg m' a' =>
        simp only [sameG]
        split
        · rfl
        · generalize G m' = rs
          induction rs with
          | nil => rfl
          | cons f rest ihr =>
            obtain ⟨n, t⟩ := f
            simp only [sameG.loop]
            cases hl : lookup (G m) n with
            | none => rfl
            | some lt =>
              simp only
              have hmem : (n, lt) ∈ G m := by
                obtain ⟨pre, post, he, _⟩ := (lookup_iff (G m) n lt).mp hl
                rw [he]; simp
              have hrank : gRank rank lt < fuel := by
                cases hlt : lt with
                | scalar _ _ => simp only [gRank] at hf ⊢; omega
                | msg m2 r2 =>
                  have := h m (n, lt) hmem m2 r2 hlt
                  simp only [gRank] at hf ⊢
                  omega
              have := ih lt t hrank
              cases hs : sameG G fuel lt t with
              | none => rw [hs] at this; cases this
              | some b => cases b
                          · rfl
                          · exact ihr

/-- A schema with `message Tree { string name = 1; Tree child = 2; }`. -/
def treeGraph : Graph := fun m => if m = "Tree" then [("name", .scalar 9 false), ("child", .msg "Tree" false)] else []

/-- C59 is false of the code for recursive messages: comparing such a type with itself never ends. -/
theorem C59_terminates_false (fuel : Nat) : sameG treeGraph fuel (.msg "Tree" false) (.msg "Tree" false) = none := by
  induction fuel with
  | zero => rfl
  | succ fuel ih =>
    have hT : treeGraph "Tree" = [("name", .scalar 9 false), ("child", .msg "Tree" false)] := rfl
    have h1 : lookup [("name", GTy.scalar 9 false), ("child", GTy.msg "Tree" false)] "name" = some (.scalar 9 false) := by decide
    have h2 : lookup [("name", GTy.scalar 9 false), ("child", GTy.msg "Tree" false)] "child" = some (.msg "Tree" false) := by decide
    simp only [sameG, hT, sameG.loop, h1, h2, ih]
    cases fuel with
    | zero => rfl
    | succ fuel => simp [sameG]

example : sameG (fun m => if m = "A" then [("x", .scalar 3 true), ("b", .msg "B" false)] else if m = "B" then [("y", .scalar 9 false)] else [])
    3 (.msg "A" false) (.msg "A" false) = some true := by decide

end Verif.SharedEnv
