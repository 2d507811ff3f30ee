import Verif.Field.Model

/-! # C27, C38, C46, C57: field rules and oneofs -/

namespace Verif.Field

/-! ## C38: one value source -/

/-- C38: a value is accepted exactly if one source is given; the value is that source's expression
(a custom resolver or an alias has none). -/
theorem C38_exactly_one (cr : Option Bool) (al b i : Option Expr) :
    ((∃ v, resolveValue cr al b i = .ok v) ↔ [cr.isSome, al.isSome, b.isSome, i.isSome].count true = 1) ∧
    (∀ v, resolveValue cr al b i = .ok v → ∀ e, v = some e ↔ (b = some e ∨ i = some e)) := by
  cases cr <;> cases al <;> cases b <;> cases i <;> simp [resolveValue]
  all_goals (intro v h e; subst h; simp)

/-- C38: no source and several sources are told apart. -/
theorem C38_errors (cr : Option Bool) (al b i : Option Expr) :
    (resolveValue cr al b i = .error .noValue ↔ [cr.isSome, al.isSome, b.isSome, i.isSome].count true = 0) ∧
    (resolveValue cr al b i = .error .multipleValues ↔ 2 ≤ [cr.isSome, al.isSome, b.isSome, i.isSome].count true) := by
  cases cr <;> cases al <;> cases b <;> cases i <;> simp [resolveValue]

/-- The errors about value sources. -/
def valueErr (e : Err) : Prop := e = .noValue ∨ e = .multipleValues

theorem alias_errs {Ty} (diff : Ty → Ty → Bool) (f : FieldDef Ty) (n : Name) (t : List (Name × Ty)) (e : Err)
    (he : e ∈ (resolveAlias diff f n t).2) : ¬ valueErr e := by
  simp only [resolveAlias] at he
  split at he
  · simp at he; subst he; simp [valueErr]
  · split at he
    · simp at he; subst he; simp [valueErr]
    · cases he

theorem rule_errs {Ty} (diff : Ty → Ty → Bool) (m : Option (MsgOpt Ty)) (f : FieldDef Ty)
    (o : FieldOpt) (ho : f.opt = some o) (h1 : o.oneof = none) (h2 : o.env = false) (e : Err) (he : valueErr e) :
    e ∈ (resolveFieldRule diff m f).2 ↔ resolveValue o.customResolver o.alias o.by none = .error e := by
  unfold resolveFieldRule
  rw [ho]
  simp only [h1, h2, resolveOneof, Bool.not_false, Option.isNone_none, Bool.and_self, if_true]
  cases hv : resolveValue o.customResolver o.alias o.by none with
  | error e' =>
    simp only [List.nil_append, List.mem_singleton, Except.error.injEq]
    exact eq_comm
  | ok v =>
    simp only [List.nil_append, List.mem_append, reduceCtorEq, iff_false, not_or]
    refine ⟨?_, ?_⟩
    · intro h
      have : e = .aliasWithoutMessageAlias := by
        generalize (decide (o.alias.getD "" ≠ "") && _) = c at h
        cases c <;> simp at h
        exact h
      subst this; simp [valueErr] at he
    · intro h
      cases m with
      | none => cases h
      | some m =>
        simp only [List.mem_flatMap, List.mem_map] at h
        obtain ⟨_, ⟨t, _, rfl⟩, hx⟩ := h
        exact alias_errs _ _ _ _ _ hx he

/-- C38 (partial: without `oneof` and `env`): the option of a field is rejected for lack of a value
exactly if it has none of `custom_resolver`, `alias` and `by`, and as ambiguous exactly if it has more
than one. -/
theorem C38_field_option_partial {Ty} (diff : Ty → Ty → Bool) (m : Option (MsgOpt Ty)) (f : FieldDef Ty)
    (o : FieldOpt) (ho : f.opt = some o) (h1 : o.oneof = none) (h2 : o.env = false) :
    (.noValue ∈ (resolveFieldRule diff m f).2 ↔ o.customResolver = none ∧ o.alias = none ∧ o.by = none) ∧
    (.multipleValues ∈ (resolveFieldRule diff m f).2 ↔
      2 ≤ [o.customResolver.isSome, o.alias.isSome, o.by.isSome].count true) := by
  rw [rule_errs diff m f o ho h1 h2 _ (Or.inl rfl), rule_errs diff m f o ho h1 h2 _ (Or.inr rfl),
    (C38_errors _ _ _ _).1, (C38_errors _ _ _ _).2]
  cases o.customResolver <;> cases o.alias <;> cases o.by <;> simp

example : resolveValue none none (some "x") none = .ok (some "x") := rfl
example : (resolveFieldRule (fun (_ _ : Nat) => false) none
    { name := "f", ty := 0, opt := some { «by» := some "x", customResolver := some true } }).2 = [.multipleValues] := rfl

/-- C38 is false of the code for options with `oneof`: `by` beside it is accepted and ignored. -/
theorem C38_oneof_and_by_false : ∃ (f : FieldDef Nat) (o : FieldOpt), f.opt = some o ∧ o.by = some "x" ∧
    o.oneof.isSome = true ∧
    ∃ r, resolveMessage (fun _ _ => false) none [] [f] = ([⟨f.name, f.ty, f.oneof, some r⟩], []) ∧ r.value = none :=
  ⟨{ name := "f", ty := 0, oneof := some "o", opt := some { «by» := some "x", oneof := some ⟨.default true, "y"⟩ } },
    _, rfl, rfl, rfl, _, rfl, rfl⟩

/-- C38 is false of the code for `custom_resolver: false`: it counts as the value source, and the
field is accepted but never set. -/
theorem C38_disabled_custom_resolver_false : ∃ (f : FieldDef Nat) (o : FieldOpt), f.opt = some o ∧
    o = { customResolver := some false } ∧
    ∃ fs, resolveMessage (fun _ _ => false) none [] [f] = (fs, []) ∧ returnFields [] fs = [] :=
  ⟨{ name := "f", ty := 0, opt := some { customResolver := some false } }, _, rfl, rfl, _, rfl, rfl⟩

/-! ## C46: validation of oneofs -/

/-- The oneof rule of a field. -/
def Field.oneofRule {Ty} (f : Field Ty) : Option OneofRule := f.rule.bind (·.oneof)

theorem validate_cons {Ty} (f : Field Ty) (fs : List (Field Ty)) (u : Bool) :
    validateOneofs (f :: fs) u = (match f.oneofRule with
      | none => validateOneofs fs u
      | some o => (if o.default && u then [.multipleDefaults] else []) ++
        (if !o.default && o.cond.isNone then [.noCondition] else []) ++
        (if o.by.isNone then [.noBy] else []) ++ validateOneofs fs (u || o.default)) := by
  unfold Field.oneofRule
  rw [validateOneofs]
  cases f.rule with
  | none => rfl
  | some r => cases h : r.oneof with
    | none => simp [h]
    | some o => simp [h]

/-- What is checked, written out: condition or default, value, and one default at most. -/
def OneofsOk {Ty} (fs : List (Field Ty)) : Prop :=
  (∀ f ∈ fs, ∀ o, f.oneofRule = some o → (o.default = true ∨ o.cond.isSome = true) ∧ o.by.isSome = true) ∧
  (∀ (i j : Nat) f g o o', fs[i]? = some f → fs[j]? = some g → f.oneofRule = some o → g.oneofRule = some o' →
    o.default = true → o'.default = true → i = j)

theorem validate_nil {Ty} (fs : List (Field Ty)) (u : Bool) :
    validateOneofs fs u = [] ↔ OneofsOk fs ∧ (u = true → ∀ f ∈ fs, ∀ o, f.oneofRule = some o → o.default = false) := by
  induction fs generalizing u with
  | nil => simp [validateOneofs, OneofsOk]
  | cons f fs ih =>
    rw [validate_cons]
    cases hr : f.oneofRule with
    | none =>
      simp only
      rw [ih u]
      constructor
      · rintro ⟨⟨h1, h2⟩, h3⟩
        refine ⟨⟨?_, ?_⟩, ?_⟩
        · intro g hg o ho
          rcases List.mem_cons.mp hg with rfl | hg
          · rw [hr] at ho; cases ho
          · exact h1 g hg o ho
        · intro i j a b o o' hi hj ho ho' hd hd'
          cases i with
          | zero => simp at hi; subst hi; rw [hr] at ho; cases ho
          | succ i => cases j with
            | zero => simp at hj; subst hj; rw [hr] at ho'; cases ho'
            | succ j => rw [h2 i j a b o o' (by simpa using hi) (by simpa using hj) ho ho' hd hd']
        · intro hu g hg o ho
          rcases List.mem_cons.mp hg with rfl | hg
          · rw [hr] at ho; cases ho
          · exact h3 hu g hg o ho
      · rintro ⟨⟨h1, h2⟩, h3⟩
        refine ⟨⟨fun g hg => h1 g (by simp [hg]), ?_⟩, fun hu g hg => h3 hu g (by simp [hg])⟩
        intro i j a b o o' hi hj ho ho' hd hd'
        have := h2 (i + 1) (j + 1) a b o o' (by simpa using hi) (by simpa using hj) ho ho' hd hd'
        omega
    | some o =>
      simp only [List.append_eq_nil_iff]
      rw [ih]
      constructor
      · rintro ⟨⟨⟨h1, h2⟩, h3⟩, ⟨h4, h5⟩, h6⟩
        have hself : (o.default = true ∨ o.cond.isSome = true) ∧ o.by.isSome = true := by
          refine ⟨?_, ?_⟩
          · cases hd : o.default with
            | true => exact Or.inl rfl
            | false => rw [hd] at h2; cases hc : o.cond <;> simp [hc] at h2 ⊢
          · cases hb : o.by <;> simp [hb] at h3 ⊢
        refine ⟨⟨?_, ?_⟩, ?_⟩
        · intro g hg p hp
          rcases List.mem_cons.mp hg with rfl | hg
          · rw [hr] at hp; cases hp; exact hself
          · exact h4 g hg p hp
        · intro i j a b p q hi hj hp hq hd hd'
          cases i with
          | zero =>
            simp at hi; subst hi
            rw [hr] at hp; cases hp
            cases j with
            | zero => rfl
            | succ j =>
              have := h6 (by simp [hd]) b (List.mem_of_getElem? (by simpa using hj)) q hq
              rw [this] at hd'; cases hd'
          | succ i =>
            cases j with
            | zero =>
              simp at hj; subst hj
              rw [hr] at hq; cases hq
              have := h6 (by simp [hd']) a (List.mem_of_getElem? (by simpa using hi)) p hp
              rw [this] at hd; cases hd
            | succ j => rw [h5 i j a b p q (by simpa using hi) (by simpa using hj) hp hq hd hd']
        · intro hu g hg p hp
          rcases List.mem_cons.mp hg with rfl | hg
          · rw [hr] at hp; cases hp
            cases hd : o.default with
            | false => rfl
            | true => rw [hd, hu] at h1; simp at h1
          · exact h6 (by simp [hu]) g hg p hp
      · rintro ⟨⟨h1, h2⟩, h3⟩
        have hs := h1 f (by simp) o hr
        refine ⟨⟨⟨?_, ?_⟩, ?_⟩, ⟨fun g hg => h1 g (by simp [hg]), ?_⟩, ?_⟩
        · cases u with
          | false => simp
          | true => rw [h3 rfl f (by simp) o hr]; simp
        · rcases hs.1 with h | h
          · simp [h]
          · cases hc : o.cond with
            | none => rw [hc] at h; cases h
            | some _ => simp
        · cases hb : o.by with
          | none => rw [hb] at hs; simp at hs
          | some _ => simp
        · intro i j a b p q hi hj hp hq hd hd'
          have := h2 (i + 1) (j + 1) a b p q (by simpa using hi) (by simpa using hj) hp hq hd hd'
          omega
        · intro hu g hg p hp
          cases hud : u with
          | true => exact h3 hud g (by simp [hg]) p hp
          | false =>
            rw [hud] at hu
            simp only [Bool.false_or] at hu
            cases hpd : p.default with
            | false => rfl
            | true =>
              obtain ⟨j, hj⟩ := List.getElem?_of_mem hg
              have := h2 0 (j + 1) f g o p (by simp) (by simpa using hj) hr hp hu hpd
              omega

theorem autoBind_oneofRule {Ty} (diff : Ty → Ty → Bool) (defs : List (Def Ty)) (f : Field Ty) :
    (autoBindField diff defs f).1.oneofRule = f.oneofRule ∧ (autoBindField diff defs f).1.name = f.name ∧
    (autoBindField diff defs f).1.oneof = f.oneof ∧
    (f.rule.isSome = true → (autoBindField diff defs f).1 = f) := by
  unfold autoBindField
  cases hr : f.rule with
  | some r => simp
  | none =>
    simp only
    cases candidates defs f.name with
    | nil => simp
    | cons c cs =>
      cases cs with
      | nil => simp only; split <;> simp [Field.oneofRule, hr]
      | cons _ _ => simp

/-- Acceptance implies that the checks of the fields and of the oneofs found nothing, and that the
final fields are the resolved ones, possibly bound automatically. -/
theorem resolveMessage_nil {Ty} (diff : Ty → Ty → Bool) (m : Option (MsgOpt Ty)) (defs : List (Def Ty))
    (fds : List (FieldDef Ty)) (fs : List (Field Ty)) (h : resolveMessage diff m defs fds = (fs, [])) :
    (∀ f ∈ fds, (resolveFieldRule diff m f).2 = []) ∧ validateOneofs (fds.map (resolveField diff m)) false = [] ∧
    ((fs = fds.map (resolveField diff m) ∧ m = none ∧ ∀ f ∈ fs, f.rule = none) ∨
     ((∀ f ∈ fs, f.rule.isSome = true) ∧
      ((fs = fds.map (resolveField diff m) ∧ ∃ m', m = some m' ∧ m'.customResolver = true) ∨
       (fs = fds.map (fun f => (autoBindField diff defs (resolveField diff m f)).1) ∧
        (∀ f ∈ fds, (autoBindField diff defs (resolveField diff m f)).2 = []) ∧
        ∀ m', m = some m' → m'.customResolver = false)))) := by
  have hval : ∀ l : List (Field Ty), validateFields l = [] → ∀ f ∈ l, f.rule.isSome = true := by
    intro l hl f hf
    simp only [validateFields, List.flatMap_eq_nil_iff] at hl
    have := hl f hf
    cases hr : f.rule with
    | some _ => rfl
    | none => rw [hr] at this; simp at this
  unfold resolveMessage at h
  simp only at h
  cases hm : (m.isSome || (fds.map (resolveField diff m)).any (fun f => f.rule.isSome)) with
  | false =>
    rw [hm] at h
    simp only [Bool.not_false, if_true, Prod.mk.injEq, List.append_eq_nil_iff] at h
    obtain ⟨hfs, he1, he2⟩ := h
    rw [List.flatMap_eq_nil_iff] at he1
    refine ⟨he1, he2, Or.inl ⟨hfs.symm, ?_, ?_⟩⟩
    · cases m with
      | none => rfl
      | some _ => simp at hm
    · intro f hf
      rw [← hfs] at hf
      simp only [Bool.or_eq_false_iff] at hm
      have := List.any_eq_false.mp hm.2 f hf
      cases hr : f.rule with
      | none => rfl
      | some _ => rw [hr] at this; simp at this
  | true =>
    rw [hm] at h
    simp only [Bool.not_true, Bool.false_eq_true, if_false, Prod.mk.injEq, List.append_eq_nil_iff] at h
    obtain ⟨hfs, ⟨⟨he1, he2⟩, he3⟩, he4⟩ := h
    rw [List.flatMap_eq_nil_iff] at he1
    refine ⟨he1, he2, Or.inr ⟨?_, ?_⟩⟩
    · intro f hf; exact hval _ he4 f (hfs ▸ hf)
    · clear hm he4
      cases m with
      | none =>
        right
        simp only [Bool.false_eq_true, if_false, List.map_map] at hfs he3
        refine ⟨hfs.symm, ?_, fun m' h => by cases h⟩
        rw [List.flatMap_eq_nil_iff] at he3
        intro f hf
        exact he3 _ (List.mem_map.mpr ⟨f, hf, rfl⟩)
      | some m' =>
        cases hc : m'.customResolver with
        | true =>
          left
          simp only [hc, if_true, List.map_map] at hfs
          exact ⟨hfs.symm, m', rfl, hc⟩
        | false =>
          right
          simp only [hc, Bool.false_eq_true, if_false, List.map_map] at hfs he3
          refine ⟨hfs.symm, ?_, fun m'' h => by cases h; exact hc⟩
          rw [List.flatMap_eq_nil_iff] at he3
          intro f hf
          exact he3 _ (List.mem_map.mpr ⟨f, hf, rfl⟩)

theorem oneofRule_final {Ty} (diff : Ty → Ty → Bool) (m : Option (MsgOpt Ty)) (defs : List (Def Ty))
    (fds : List (FieldDef Ty)) (fs : List (Field Ty)) (h : resolveMessage diff m defs fds = (fs, [])) :
    fs.map (fun f => (f.name, f.oneof, f.oneofRule)) =
      (fds.map (resolveField diff m)).map (fun f => (f.name, f.oneof, f.oneofRule)) := by
  obtain ⟨_, _, h3⟩ := resolveMessage_nil _ _ _ _ _ h
  rcases h3 with ⟨h, _⟩ | ⟨_, ⟨h, _⟩ | ⟨h, _⟩⟩
  · rw [h]
  · rw [h]
  · rw [h]
    simp only [List.map_map]
    apply List.map_congr_left
    intro f _
    simp only [Function.comp]
    obtain ⟨h1, h2, h3, _⟩ := autoBind_oneofRule diff defs (resolveField diff m f)
    rw [h1, h2, h3]

theorem oneof_member {Ty} (diff : Ty → Ty → Bool) (m : Option (MsgOpt Ty)) (f : FieldDef Ty) (o : OneofRule)
    (h : (resolveField diff m f).oneofRule = some o) : f.oneof.isSome = true := by
  simp only [Field.oneofRule, resolveField, resolveFieldRule] at h
  cases ho : f.opt with
  | none =>
    rw [ho] at h
    simp only at h
    cases m with
    | none => simp at h
    | some m =>
      simp only at h
      split at h
      · simp at h
      · split at h <;> simp at h
  | some op =>
    rw [ho] at h
    simp only at h
    cases hoo : op.oneof with
    | none =>
      rw [hoo] at h
      simp only [resolveOneof] at h
      split at h <;> simp at h
    | some oo =>
      cases hf : f.oneof with
      | some _ => rfl
      | none =>
        have hro : resolveOneof f (some oo) = (none, [.oneofOutside]) := by simp [resolveOneof, hf]
        rw [hoo, hro] at h
        simp only at h
        split at h <;> simp at h

/-- C46. In an accepted message every field with a oneof rule is a member of a oneof, is the default
or has a condition, and has a value; no oneof has two defaults. -/
theorem C46_accepted {Ty} (diff : Ty → Ty → Bool) (m : Option (MsgOpt Ty)) (defs : List (Def Ty))
    (fds : List (FieldDef Ty)) (fs : List (Field Ty)) (h : resolveMessage diff m defs fds = (fs, [])) :
    (∀ f ∈ fs, ∀ o, f.oneofRule = some o →
      f.oneof.isSome = true ∧ (o.default = true ∨ o.cond.isSome = true) ∧ o.by.isSome = true) ∧
    (∀ (i j : Nat) f g o o', fs[i]? = some f → fs[j]? = some g → f.oneof = g.oneof →
      f.oneofRule = some o → g.oneofRule = some o' → o.default = true → o'.default = true → i = j) := by
  have hfin := oneofRule_final _ _ _ _ _ h
  have ⟨h1, h2⟩ := ((validate_nil _ _).mp (resolveMessage_nil _ _ _ _ _ h).2.1).1
  have tr : ∀ (i : Nat) f, fs[i]? = some f → ∃ fd g, fds[i]? = some fd ∧ g = resolveField diff m fd ∧
      (fds.map (resolveField diff m))[i]? = some g ∧ g.oneof = f.oneof ∧ g.oneofRule = f.oneofRule := by
    intro i f hf
    have := congrArg (fun l => l[i]?) hfin
    simp only [List.getElem?_map, hf, Option.map_some, Option.map_map] at this
    cases hfd : fds[i]? with
    | none => rw [hfd] at this; cases this
    | some fd =>
      rw [hfd] at this
      simp only [Option.map_some, Option.some.injEq, Function.comp, Prod.mk.injEq] at this
      exact ⟨fd, _, rfl, rfl, by simp [hfd], this.2.1.symm, this.2.2.symm⟩
  refine ⟨?_, ?_⟩
  · intro f hf o ho
    obtain ⟨i, hi⟩ := List.getElem?_of_mem hf
    obtain ⟨fd, g, hfd, hg, hgi, hgo, hgr⟩ := tr i f hi
    rw [← hgr] at ho
    refine ⟨?_, h1 g (List.mem_of_getElem? hgi) o ho⟩
    rw [← hgo, hg]
    subst hg
    exact oneof_member diff m fd o ho
  · intro i j f g o o' hi hj _ ho ho' hd hd'
    obtain ⟨_, f', _, _, hf', _, hr⟩ := tr i f hi
    obtain ⟨_, g', _, _, hg', _, hr'⟩ := tr j g hj
    exact h2 i j f' g' o o' hf' hg' (hr.trans ho) (hr'.trans ho') hd hd'

/-- C46, converse: fields that satisfy the rules with at most one default in the message raise no
error about oneofs. -/
theorem C46_no_spurious_partial {Ty} (fs : List (Field Ty)) (h : OneofsOk fs) : validateOneofs fs false = [] :=
  (validate_nil fs false).mpr ⟨h, fun h => by cases h⟩

/-- C46 is false of the code in the other direction: a message with two oneofs, each with one
default, is rejected although "default can only be specified once per oneof". -/
theorem C46_two_oneofs_rejected_false : ∃ fds : List (FieldDef Nat),
    fds.map (·.oneof) = [some "a", some "b"] ∧ (∀ f ∈ fds, f.opt = some { oneof := some ⟨.default true, "x"⟩ }) ∧
    (resolveMessage (fun _ _ => false) none [] fds).2 = [.multipleDefaults] :=
  ⟨[{ name := "f", ty := 0, oneof := some "a", opt := some { oneof := some ⟨.default true, "x"⟩ } },
    { name := "g", ty := 0, oneof := some "b", opt := some { oneof := some ⟨.default true, "x"⟩ } }], rfl, by simp, rfl⟩

/-- An accepted message with a oneof of three members, the default in the middle. -/
def exMsg : List (FieldDef Nat) :=
  [{ name := "a", ty := 0, oneof := some "o", opt := some { oneof := some ⟨.ifExpr "p", "x"⟩ } },
   { name := "b", ty := 0, oneof := some "o", opt := some { oneof := some ⟨.default true, "y"⟩ } },
   { name := "c", ty := 0, oneof := some "o", opt := some { oneof := some ⟨.ifExpr "q", "z"⟩ } }]

example : ∃ fs, resolveMessage (fun (_ _ : Nat) => false) none [] exMsg = (fs, []) ∧
    returnFields ["o"] fs = [.oneof "o" [.rule "a" ⟨some "p", false, some "x"⟩, .rule "c" ⟨some "q", false, some "z"⟩]
      (some ("b", ⟨none, true, some "y"⟩))] := ⟨_, rfl, rfl⟩

/-! ## C27: the first true case -/

/-- The members of a oneof, all with oneof rules: `rule m` is the rule of `m`. -/
def RuleMembers {Ty} (ms : List (Field Ty)) (rule : Field Ty → OneofRule) : Prop :=
  ∀ m ∈ ms, ∃ r, m.rule = some r ∧ r.autoBind = none ∧ r.oneof = some (rule m)

/-- What the generated code does for a oneof with members `ms`. -/
def run {Ty E V} (s : Sem E V) (ms : List (Field Ty)) : Except E (Option (Name × V)) :=
  runOneof s (ms.filterMap oneofCase) (oneofDefault ms none)

/-- The condition of a member. -/
def condOf {Ty E V} (s : Sem E V) (rule : Field Ty → OneofRule) (m : Field Ty) : Except E Bool :=
  s.cond ((rule m).cond.getD "")

theorem cases_eq {Ty} (ms : List (Field Ty)) (rule : Field Ty → OneofRule) (h : RuleMembers ms rule) :
    ms.filterMap oneofCase = (ms.filter (fun m => !(rule m).default)).map (fun m => .rule m.name (rule m)) := by
  induction ms with
  | nil => rfl
  | cons m ms ih =>
    obtain ⟨r, h1, h2, h3⟩ := h m (by simp)
    have := ih (fun x hx => h x (by simp [hx]))
    cases hd : (rule m).default with
    | true => rw [List.filterMap_cons_none (by simp [oneofCase, h1, h2, h3, hd])]; simp [this, hd]
    | false =>
      rw [List.filterMap_cons_some (b := .rule m.name (rule m)) (by simp [oneofCase, h1, h2, h3, hd])]
      simp [this, hd]

theorem default_none {Ty} (ms : List (Field Ty)) (rule : Field Ty → OneofRule) (h : RuleMembers ms rule)
    (acc) (hn : ∀ m ∈ ms, (rule m).default = false) : oneofDefault ms acc = acc := by
  induction ms generalizing acc with
  | nil => rfl
  | cons m ms ih =>
    obtain ⟨r, h1, h2, h3⟩ := h m (by simp)
    simp only [oneofDefault, h1, h2, h3, hn m (by simp), Bool.false_eq_true, if_false]
    exact ih (fun x hx => h x (by simp [hx])) acc (fun x hx => hn x (by simp [hx]))

theorem default_some {Ty} (pre post : List (Field Ty)) (d : Field Ty) (rule : Field Ty → OneofRule)
    (h : RuleMembers (pre ++ d :: post) rule) (acc) (hd : (rule d).default = true)
    (hn : ∀ m ∈ post, (rule m).default = false) :
    oneofDefault (pre ++ d :: post) acc = some (d.name, rule d) := by
  induction pre generalizing acc with
  | nil =>
    obtain ⟨r, h1, h2, h3⟩ := h d (by simp)
    simp only [List.nil_append, oneofDefault, h1, h2, h3, hd, if_true]
    exact default_none post rule (fun x hx => h x (by simp [hx])) _ hn
  | cons m pre ih =>
    obtain ⟨r, h1, h2, h3⟩ := h m (by simp)
    simp only [List.cons_append, oneofDefault]
    exact ih (fun x hx => h x (by simp only [List.cons_append, List.mem_cons]; exact Or.inr hx)) _

theorem evalConds_ok {Ty E V} (s : Sem E V) (rule : Field Ty → OneofRule) (b : Field Ty → Bool)
    (ms : List (Field Ty)) (h : ∀ m ∈ ms, condOf s rule m = .ok (b m)) :
    evalConds s (ms.map (fun m => .rule m.name (rule m))) = .ok (ms.map (fun m => (.rule m.name (rule m), b m))) := by
  induction ms with
  | nil => rfl
  | cons m ms ih =>
    have hm := h m (by simp)
    unfold condOf at hm
    simp only [List.map_cons, evalConds, hm, ih (fun x hx => h x (by simp [hx]))]

theorem evalConds_error {Ty E V} (s : Sem E V) (rule : Field Ty → OneofRule) (b : Field Ty → Bool)
    (pre post : List (Field Ty)) (m : Field Ty) (e : E) (h : ∀ x ∈ pre, condOf s rule x = .ok (b x))
    (he : condOf s rule m = .error e) :
    evalConds s ((pre ++ m :: post).map (fun m => .rule m.name (rule m))) = .error e := by
  induction pre with
  | nil =>
    unfold condOf at he
    simp only [List.nil_append, List.map_cons, evalConds, he]
  | cons x pre ih =>
    have hx := h x (by simp)
    unfold condOf at hx
    simp only [List.cons_append, List.map_cons, evalConds, hx, ih (fun y hy => h y (by simp [hy]))]

/-- C27: if every condition evaluates, the first member in declaration order (defaults aside) whose
condition is true is set, to its value; if its value fails the request fails. -/
theorem C27_first_true {Ty E V} (s : Sem E V) (ms : List (Field Ty)) (rule : Field Ty → OneofRule)
    (h : RuleMembers ms rule) (b : Field Ty → Bool)
    (hev : ∀ m ∈ ms, (rule m).default = false → condOf s rule m = .ok (b m))
    (pre post : List (Field Ty)) (m : Field Ty) (hms : ms = pre ++ m :: post)
    (hpre : ∀ x ∈ pre, (rule x).default = true ∨ b x = false) (hd : (rule m).default = false) (hb : b m = true) :
    run s ms = match s.body m.name (rule m) with
      | .error e => .error e
      | .ok v => .ok (some (m.name, v)) := by
  unfold run runOneof
  rw [cases_eq ms rule h, evalConds_ok s rule b _ (fun x hx => by
    simp only [List.mem_filter, Bool.not_eq_true'] at hx
    exact hev x hx.1 hx.2)]
  simp only
  have hf : ((ms.filter (fun m => !(rule m).default)).map (fun m => (Case.rule m.name (rule m), b m))).find?
      (fun p => p.2) = some (.rule m.name (rule m), true) := by
    rw [hms, List.filter_append, List.map_append, List.find?_append]
    have : ((pre.filter (fun m => !(rule m).default)).map (fun m => (Case.rule m.name (rule m), b m))).find?
      (fun p => p.2) = none := by
      rw [List.find?_eq_none]
      intro p hp
      obtain ⟨x, hx, rfl⟩ := List.mem_map.mp hp
      simp only [List.mem_filter, Bool.not_eq_true'] at hx
      rcases hpre x hx.1 with h | h
      · rw [h] at hx; simp at hx
      · simp [h]
    rw [this, List.filter_cons]
    simp [hd, hb]
  rw [hf]
  simp only [runCase]
  cases s.body m.name (rule m) <;> rfl

/-- C27: if every condition is false the default is set. -/
theorem C27_default {Ty E V} (s : Sem E V) (ms : List (Field Ty)) (rule : Field Ty → OneofRule)
    (h : RuleMembers ms rule) (hev : ∀ m ∈ ms, (rule m).default = false → condOf s rule m = .ok false)
    (pre post : List (Field Ty)) (d : Field Ty) (hms : ms = pre ++ d :: post) (hd : (rule d).default = true)
    (huniq : ∀ m ∈ pre ++ post, (rule m).default = false) :
    run s ms = match s.body d.name (rule d) with
      | .error e => .error e
      | .ok v => .ok (some (d.name, v)) := by
  unfold run runOneof
  rw [cases_eq ms rule h, evalConds_ok s rule (fun _ => false) _ (fun x hx => by
    simp only [List.mem_filter, Bool.not_eq_true'] at hx
    exact hev x hx.1 hx.2)]
  simp only
  have hf : ((ms.filter (fun m => !(rule m).default)).map (fun m => (Case.rule m.name (rule m), false))).find?
      (fun p => p.2) = none := by
    rw [List.find?_eq_none]
    intro p hp
    obtain ⟨x, hx, rfl⟩ := List.mem_map.mp hp
    simp
  rw [hf, hms, default_some pre post d rule (hms ▸ h) none hd (fun m hm => huniq m (by simp [hm]))]
  simp only [runCase]
  cases s.body d.name (rule d) <;> rfl

/-- C27: if every condition is false and there is no default, the oneof stays unset. -/
theorem C27_unset {Ty E V} (s : Sem E V) (ms : List (Field Ty)) (rule : Field Ty → OneofRule)
    (h : RuleMembers ms rule) (hev : ∀ m ∈ ms, condOf s rule m = .ok false)
    (hd : ∀ m ∈ ms, (rule m).default = false) : run s ms = .ok none := by
  unfold run runOneof
  rw [cases_eq ms rule h, evalConds_ok s rule (fun _ => false) _ (fun x hx => by
    simp only [List.mem_filter] at hx
    exact hev x hx.1)]
  simp only
  have hf : ((ms.filter (fun m => !(rule m).default)).map (fun m => (Case.rule m.name (rule m), false))).find?
      (fun p => p.2) = none := by
    rw [List.find?_eq_none]
    intro p hp
    obtain ⟨x, hx, rfl⟩ := List.mem_map.mp hp
    simp
  rw [hf, default_none ms rule h none hd]

/-- C27: if some condition fails, the request fails with the error of the first failing one; no
member is set, even if an earlier condition is true. -/
theorem C27_condition_error {Ty E V} (s : Sem E V) (ms : List (Field Ty)) (rule : Field Ty → OneofRule)
    (h : RuleMembers ms rule) (b : Field Ty → Bool) (pre post : List (Field Ty)) (m : Field Ty) (e : E)
    (hms : ms = pre ++ m :: post) (hpre : ∀ x ∈ pre, (rule x).default = false → condOf s rule x = .ok (b x))
    (hd : (rule m).default = false) (he : condOf s rule m = .error e) : run s ms = .error e := by
  unfold run runOneof
  rw [cases_eq ms rule h, hms, List.filter_append, List.filter_cons, if_pos (by simp [hd]),
    evalConds_error s rule b _ _ m e (fun x hx => by
      simp only [List.mem_filter, Bool.not_eq_true'] at hx
      exact hpre x hx.1 hx.2) he]

/-- A oneof with members `a`, `b` (default) and `c`; `c`'s condition is true. -/
example : ∃ fs, resolveMessage (fun (_ _ : Nat) => false) none [] exMsg = (fs, []) ∧
    RuleMembers (members fs "o") (fun m => (m.oneofRule.getD ⟨none, false, none⟩)) ∧
    run (⟨fun e => .ok (e == "q"), fun n _ => .ok n, fun _ _ => none⟩ : Sem String String) (members fs "o") = .ok (some ("c", "c")) ∧
    run (⟨fun _ => .ok false, fun n _ => .ok n, fun _ _ => none⟩ : Sem String String) (members fs "o") = .ok (some ("b", "b")) ∧
    run (⟨fun e => if e = "q" then .error "bad" else .ok true, fun n _ => .ok n, fun _ _ => none⟩ : Sem String String) (members fs "o") = .error "bad" := by
  refine ⟨_, rfl, ?_, rfl, rfl, rfl⟩
  intro m hm
  have : m ∈ [(⟨"a", 0, some "o", some { oneof := some ⟨some "p", false, some "x"⟩ }⟩ : Field Nat),
    ⟨"b", 0, some "o", some { oneof := some ⟨none, true, some "y"⟩ }⟩,
    ⟨"c", 0, some "o", some { oneof := some ⟨some "q", false, some "z"⟩ }⟩] := hm
  simp only [List.mem_cons, List.not_mem_nil, or_false] at this
  rcases this with rfl | rfl | rfl <;> exact ⟨_, rfl, rfl, rfl⟩

/-- C27 is false of the code for oneofs that mix autobound members with oneof rules: such a message is
accepted but the generated code does not compile. -/
theorem C27_mixed_autobind_false : ∃ (fds : List (FieldDef Nat)) (defs : List (Def Nat)) (fs : List (Field Nat)),
    resolveMessage (fun _ _ => false) none defs fds = (fs, []) ∧
    compiles ((members fs "o").filterMap oneofCase) (oneofDefault (members fs "o") none) = false :=
  ⟨[{ name := "a", ty := 0, oneof := some "o", opt := some { oneof := some ⟨.ifExpr "p", "x"⟩ } },
    { name := "b", ty := 0, oneof := some "o" }], [⟨"d", true, some [("b", 0)]⟩], _, rfl, rfl⟩

/-- Oneofs with rules only always compile in this respect. -/
theorem C27_rules_compile {Ty} (ms : List (Field Ty)) (rule : Field Ty → OneofRule) (h : RuleMembers ms rule) :
    compiles (ms.filterMap oneofCase) (oneofDefault ms none) = true := by
  rw [cases_eq ms rule h]
  unfold compiles
  have : ((ms.filter (fun m => !(rule m).default)).map (fun m => Case.rule m.name (rule m))).any (fun c => match c with
    | .rule _ _ => false
    | .auto _ _ => true) = false := by
    rw [List.any_eq_false]
    intro c hc
    obtain ⟨m, _, rfl⟩ := List.mem_map.mp hc
    simp
  simp

/-! ## C57: every field of an accepted message is set -/

/-- The generated statement sets field `n`. -/
def Sets (n : Name) : Return → Prop
  | .custom f => f = n
  | .cel f _ => f = n
  | .auto f _ => f = n
  | .oneof _ cases default => (∃ c ∈ cases, match c with
      | .auto f _ => f = n
      | .rule f _ => f = n) ∨ ∃ r, default = some (n, r)

theorem final_field {Ty} (diff : Ty → Ty → Bool) (m : Option (MsgOpt Ty)) (defs : List (Def Ty))
    (fds : List (FieldDef Ty)) (fs : List (Field Ty)) (h : resolveMessage diff m defs fds = (fs, []))
    (fd : FieldDef Ty) (hfd : fd ∈ fds) (hr : (resolveField diff m fd).rule.isSome = true) :
    resolveField diff m fd ∈ fs := by
  obtain ⟨_, _, h3⟩ := resolveMessage_nil _ _ _ _ _ h
  rcases h3 with ⟨h, _⟩ | ⟨_, ⟨h, _⟩ | ⟨h, _⟩⟩
  · rw [h]; exact List.mem_map.mpr ⟨fd, hfd, rfl⟩
  · rw [h]; exact List.mem_map.mpr ⟨fd, hfd, rfl⟩
  · rw [h]
    exact List.mem_map.mpr ⟨fd, hfd, (autoBind_oneofRule diff defs _).2.2.2 hr⟩

/-- C57 (partial: fields outside oneofs), `by`: the field is set to the value of the expression. -/
theorem C57_by_partial {Ty} (diff : Ty → Ty → Bool) (m : Option (MsgOpt Ty)) (defs : List (Def Ty))
    (fds : List (FieldDef Ty)) (fs : List (Field Ty)) (h : resolveMessage diff m defs fds = (fs, []))
    (fd : FieldDef Ty) (hfd : fd ∈ fds) (hout : fd.oneof = none) (o : FieldOpt) (ho : fd.opt = some o)
    (h2 : o.env = false) (e : Expr) (hby : o.by = some e) (oneofs : List Name) :
    .cel fd.name e ∈ returnFields oneofs fs := by
  obtain ⟨he, _, _⟩ := resolveMessage_nil _ _ _ _ _ h
  have hef := he fd hfd
  have h1 : o.oneof = none := by
    cases hoo : o.oneof with
    | none => rfl
    | some oo =>
      exfalso
      unfold resolveFieldRule at hef
      rw [ho] at hef
      simp only [hoo, resolveOneof, hout, Option.isNone_none, if_true] at hef
      split at hef <;> simp at hef
  have hrule : ∃ r, (resolveField diff m fd).rule = some r ∧ r.value = some e ∧ r.customResolver = false := by
    simp only [resolveField, resolveFieldRule] at hef ⊢
    rw [ho] at hef ⊢
    simp only [h1, h2, resolveOneof, Option.isNone_none, Bool.not_false, Bool.and_self, if_true] at hef ⊢
    cases hv : resolveValue o.customResolver o.alias o.by none with
    | error x => rw [hv] at hef; simp at hef
    | ok v =>
      simp only [Option.some.injEq, exists_eq_left']
      have := ((C38_exactly_one o.customResolver o.alias o.by none).2 v hv e).mpr (Or.inl hby)
      refine ⟨this, ?_⟩
      have := (C38_exactly_one o.customResolver o.alias o.by none).1.mp ⟨v, hv⟩
      cases hc : o.customResolver with
      | none => rfl
      | some _ => rw [hc, hby] at this; cases ha : o.alias <;> rw [ha] at this <;> simp at this
  obtain ⟨r, hr, hval, hcr⟩ := hrule
  unfold returnFields
  rw [List.mem_append]
  left
  rw [List.mem_filterMap]
  refine ⟨_, final_field _ _ _ _ _ h fd hfd (by rw [hr]; rfl), ?_⟩
  simp only [plainReturn, resolveField, hout] at hr ⊢
  simp [hr, hcr, hval]

/-- C57 (partial: fields outside oneofs), `custom_resolver: true`: the field's resolver is called. -/
theorem C57_custom_resolver_partial {Ty} (diff : Ty → Ty → Bool) (m : Option (MsgOpt Ty)) (defs : List (Def Ty))
    (fds : List (FieldDef Ty)) (fs : List (Field Ty)) (h : resolveMessage diff m defs fds = (fs, []))
    (fd : FieldDef Ty) (hfd : fd ∈ fds) (hout : fd.oneof = none) (o : FieldOpt) (ho : fd.opt = some o)
    (hc : o.customResolver = some true) (oneofs : List Name) : .custom fd.name ∈ returnFields oneofs fs := by
  obtain ⟨he, _, _⟩ := resolveMessage_nil _ _ _ _ _ h
  have hef := he fd hfd
  have hrule : ∃ r, (resolveField diff m fd).rule = some r ∧ r.customResolver = true := by
    simp only [resolveField, resolveFieldRule] at hef ⊢
    rw [ho] at hef ⊢
    simp only at hef ⊢
    generalize (if (resolveOneof fd o.oneof).1.isNone && !o.env then resolveValue o.customResolver o.alias o.by none
      else .ok none) = v at hef ⊢
    cases v with
    | error x => simp at hef
    | ok v => simp [hc]
  obtain ⟨r, hr, hcr⟩ := hrule
  unfold returnFields
  rw [List.mem_append]
  left
  rw [List.mem_filterMap]
  refine ⟨_, final_field _ _ _ _ _ h fd hfd (by rw [hr]; rfl), ?_⟩
  simp only [plainReturn, resolveField, hout] at hr ⊢
  simp [hr, hcr]

/-- C57: a field outside oneofs without option, in a message with rule but without aliases and custom
resolver, is set from the one `autobind` definition that has a field of its name (and compatible
type). -/
theorem C57_autobind {Ty} (diff : Ty → Ty → Bool) (m : MsgOpt Ty) (defs : List (Def Ty))
    (fds : List (FieldDef Ty)) (fs : List (Field Ty)) (h : resolveMessage diff (some m) defs fds = (fs, []))
    (hm : m.customResolver = false) (ha : m.aliases = []) (fd : FieldDef Ty) (hfd : fd ∈ fds)
    (hout : fd.oneof = none) (ho : fd.opt = none) (oneofs : List Name) :
    ∃ d t, candidates defs fd.name = [(d, t)] ∧ diff t fd.ty = false ∧ .auto fd.name d ∈ returnFields oneofs fs := by
  have hnone : (resolveField diff (some m) fd).rule = none := by
    simp [resolveField, resolveFieldRule, ho, hm, ha]
  obtain ⟨_, _, h3⟩ := resolveMessage_nil _ _ _ _ _ h
  rcases h3 with ⟨_, h, _⟩ | ⟨hall, ⟨_, m', h, hc⟩ | ⟨hfs, herr, _⟩⟩
  · cases h
  · cases h; rw [hm] at hc; cases hc
  · have hmem : (autoBindField diff defs (resolveField diff (some m) fd)).1 ∈ fs := by
      rw [hfs]; exact List.mem_map.mpr ⟨fd, hfd, rfl⟩
    have hsome := hall _ hmem
    have he := herr fd hfd
    have hname : (resolveField diff (some m) fd).name = fd.name := rfl
    have hty : (resolveField diff (some m) fd).ty = fd.ty := rfl
    unfold autoBindField at hsome he
    rw [hnone] at hsome he
    simp only [hname, hty] at hsome he
    cases hc : candidates defs fd.name with
    | nil => rw [hc] at hsome; rw [hnone] at hsome; simp at hsome
    | cons c cs =>
      cases cs with
      | cons _ _ => rw [hc] at he; simp at he
      | nil =>
        rw [hc] at hsome
        simp only at hsome
        cases hdif : diff c.2 fd.ty with
        | true => rw [hdif] at hsome; simp [hnone] at hsome
        | false =>
          refine ⟨c.1, c.2, rfl, hdif, ?_⟩
          unfold returnFields
          rw [List.mem_append]
          left
          rw [List.mem_filterMap]
          refine ⟨_, hmem, ?_⟩
          unfold autoBindField
          rw [hnone]
          simp only [hname, hty, hc, hdif]
          simp [plainReturn, resolveField, hout]

/-- What `candidates` means: the autobind definitions whose message has a field of that name. -/
theorem candidates_mem {Ty} (defs : List (Def Ty)) (n d : Name) (t : Ty) :
    (d, t) ∈ candidates defs n ↔ ∃ x ∈ defs, x.name = d ∧ x.autoBind = true ∧ ∃ fs, x.fields = some fs ∧ (n, t) ∈ fs := by
  simp only [candidates, List.mem_flatMap]
  constructor
  · rintro ⟨x, hx, h⟩
    cases ha : x.autoBind with
    | false => rw [ha] at h; simp at h
    | true =>
      rw [ha] at h
      cases hf : x.fields with
      | none => rw [hf] at h; simp at h
      | some fs =>
        rw [hf] at h
        simp only [if_true, List.mem_map, List.mem_filter, beq_iff_eq, Prod.mk.injEq] at h
        obtain ⟨g, ⟨h1, h2⟩, h3, h4⟩ := h
        exact ⟨x, hx, h3, ha, fs, hf, by rw [← h2, ← h4]; exact h1⟩
  · rintro ⟨x, hx, h1, h2, fs, h3, h4⟩
    refine ⟨x, hx, ?_⟩
    simp only [h2, if_true, h3, List.mem_map, List.mem_filter, beq_iff_eq, Prod.mk.injEq]
    exact ⟨(n, t), ⟨h4, rfl⟩, h1, rfl⟩

theorem resolved_not_bound {Ty} (diff : Ty → Ty → Bool) (m : Option (MsgOpt Ty)) (fd : FieldDef Ty) (r : Rule)
    (h : (resolveField diff m fd).rule = some r) : r.autoBind = none := by
  simp only [resolveField, resolveFieldRule] at h
  cases ho : fd.opt with
  | none =>
    rw [ho] at h
    cases m with
    | none => simp at h
    | some m =>
      simp only at h
      split at h
      · simp at h
      · split at h
        · simp at h
        · simp at h; subst h; rfl
  | some o =>
    rw [ho] at h
    simp only at h
    generalize (if (resolveOneof fd o.oneof).1.isNone && !o.env then resolveValue o.customResolver o.alias o.by none
      else .ok none) = v at h
    cases v with
    | error _ => simp at h
    | ok v => simp at h; subst h; rfl

theorem oneofRule_not_bound {Ty} (diff : Ty → Ty → Bool) (m : Option (MsgOpt Ty)) (defs : List (Def Ty))
    (fds : List (FieldDef Ty)) (fs : List (Field Ty)) (h : resolveMessage diff m defs fds = (fs, []))
    (f : Field Ty) (hf : f ∈ fs) (o : OneofRule) (ho : f.oneofRule = some o) (r : Rule) (hr : f.rule = some r) :
    r.autoBind = none := by
  obtain ⟨_, _, h3⟩ := resolveMessage_nil _ _ _ _ _ h
  have base : f ∈ fds.map (resolveField diff m) → r.autoBind = none := by
    intro hm
    obtain ⟨fd, _, rfl⟩ := List.mem_map.mp hm
    exact resolved_not_bound diff m fd r hr
  rcases h3 with ⟨h, _⟩ | ⟨_, ⟨h, _⟩ | ⟨h, _⟩⟩
  · exact base (h ▸ hf)
  · exact base (h ▸ hf)
  · rw [h] at hf
    obtain ⟨fd, hfd, rfl⟩ := List.mem_map.mp hf
    obtain ⟨h1, _, _, h4⟩ := autoBind_oneofRule diff defs (resolveField diff m fd)
    have hs : (resolveField diff m fd).rule.isSome = true := by
      rw [h1] at ho
      unfold Field.oneofRule at ho
      cases hx : (resolveField diff m fd).rule with
      | none => rw [hx] at ho; cases ho
      | some _ => rfl
    rw [h4 hs] at hr
    exact resolved_not_bound diff m fd r hr

/-- C57: a member of a oneof with a oneof rule is a case or the default of its oneof. -/
theorem C57_oneof_member {Ty} (diff : Ty → Ty → Bool) (m : Option (MsgOpt Ty)) (defs : List (Def Ty))
    (fds : List (FieldDef Ty)) (fs : List (Field Ty)) (h : resolveMessage diff m defs fds = (fs, []))
    (f : Field Ty) (hf : f ∈ fs) (o : OneofRule) (ho : f.oneofRule = some o) (on : Name) (hon : f.oneof = some on)
    (oneofs : List Name) (hmem : on ∈ oneofs) :
    ∃ r ∈ returnFields oneofs fs, Sets f.name r := by
  have hfm : f ∈ members fs on := by simp [members, List.mem_filter, hf, hon]
  have hr : ∃ r, f.rule = some r ∧ r.oneof = some o := by
    unfold Field.oneofRule at ho
    cases hr : f.rule with
    | none => rw [hr] at ho; cases ho
    | some r => rw [hr] at ho; exact ⟨r, rfl, ho⟩
  obtain ⟨r, hr, hro⟩ := hr
  have hra := oneofRule_not_bound _ _ _ _ _ h f hf o ho r hr
  refine ⟨_, List.mem_append.mpr (Or.inr (List.mem_map.mpr ⟨on, hmem, rfl⟩)), ?_⟩
  simp only [Sets]
  cases hd : o.default with
  | false =>
    left
    exact ⟨.rule f.name o, List.mem_filterMap.mpr ⟨f, hfm, by simp [oneofCase, hr, hra, hro, hd]⟩, rfl⟩
  | true =>
    right
    -- the default is unique among the members
    have huniq : ∀ g ∈ fs, ∀ o', g.oneof = some on → g.oneofRule = some o' → o'.default = true → g = f := by
      intro g hg o' hgo hgr hgd
      obtain ⟨i, hi⟩ := List.getElem?_of_mem hg
      obtain ⟨j, hj⟩ := List.getElem?_of_mem hf
      have := (C46_accepted _ _ _ _ _ h).2 i j g f o' o hi hj (hgo.trans hon.symm) hgr ho hgd hd
      subst this
      rw [hi] at hj
      exact Option.some.inj hj
    have key : ∀ (l : List (Field Ty)) acc, (∀ g ∈ l, g ∈ fs ∧ g.oneof = some on) →
        (f ∈ l ∨ ∃ r, acc = some (f.name, r)) → ∃ r, oneofDefault l acc = some (f.name, r) := by
      intro l
      induction l with
      | nil => 
        intro acc _ h
        rcases h with h | h
        · cases h
        · exact h
      | cons g l ih =>
        intro acc hl hor
        rw [oneofDefault]
        apply ih _ (fun x hx => hl x (by simp [hx]))
        by_cases hgf : g = f
        · subst hgf
          right
          exact ⟨o, by simp [hr, hra, hro, hd]⟩
        · rcases hor with hor | ⟨r', hacc⟩
          · left
            rcases List.mem_cons.mp hor with h | h
            · exact absurd h.symm hgf
            · exact h
          · right
            cases hgr : g.rule with
            | none => exact ⟨r', by simp [hacc]⟩
            | some gr =>
              cases hga : gr.autoBind with
              | some _ => exact ⟨r', by simp [hga, hacc]⟩
              | none =>
                cases hgo : gr.oneof with
                | none => exact ⟨r', by simp [hga, hgo, hacc]⟩
                | some go =>
                  cases hgd : go.default with
                  | false => exact ⟨r', by simp [hga, hgo, hgd, hacc]⟩
                  | true =>
                    exact absurd (huniq g (hl g (by simp)).1 go (hl g (by simp)).2
                      (by simp [Field.oneofRule, hgr, hgo]) hgd) hgf
    exact key _ none (fun g hg => by
      simp only [members, List.mem_filter, beq_iff_eq] at hg
      exact hg) (Or.inl hfm)

/-- C57 is false of the code for members of oneofs with other rules: `by` and `custom_resolver` are
accepted and ignored, the field is never set. -/
theorem C57_oneof_member_false :
    (∃ (fd : FieldDef Nat) (fs : List (Field Nat)), fd.opt = some { «by» := some "x" } ∧ fd.oneof = some "o" ∧
      resolveMessage (fun _ _ => false) none [] [fd] = (fs, []) ∧ returnFields ["o"] fs = [.oneof "o" [] none]) ∧
    (∃ (fd : FieldDef Nat) (fs : List (Field Nat)), fd.opt = some { customResolver := some true } ∧ fd.oneof = some "o" ∧
      resolveMessage (fun _ _ => false) none [] [fd] = (fs, []) ∧ returnFields ["o"] fs = [.oneof "o" [] none]) :=
  ⟨⟨{ name := "f", ty := 0, oneof := some "o", opt := some { «by» := some "x" } }, _, rfl, rfl, rfl, rfl⟩,
   ⟨{ name := "f", ty := 0, oneof := some "o", opt := some { customResolver := some true } }, _, rfl, rfl, rfl, rfl⟩⟩

/-- C57 is false of the code for messages with an alias: a field is then never set from an `autobind`
definition. -/
theorem C57_alias_autobind_false : ∃ (m : MsgOpt Nat) (defs : List (Def Nat)) (fd : FieldDef Nat) (fs : List (Field Nat)),
    fd.opt = none ∧ candidates defs fd.name = [("d", 0)] ∧
    resolveMessage (fun _ _ => false) (some m) defs [fd] = (fs, []) ∧ returnFields [] fs = [] :=
  ⟨{ aliases := [[("f", 0)]] }, [⟨"d", true, some [("f", 0)]⟩], { name := "f", ty := 0 }, _, rfl, rfl, rfl, rfl⟩

theorem sets_plain {Ty} (f : Field Ty) (r : Return) (h : plainReturn f = some r) (n : Name) (hs : Sets n r) :
    f.name = n ∧ f.oneof = none := by
  unfold plainReturn at h
  cases ho : f.oneof with
  | some _ => rw [ho] at h; simp at h
  | none =>
    rw [ho] at h
    simp only [Option.isSome_none, Bool.false_eq_true, if_false] at h
    split at h
    · cases h
    · split at h
      · cases h; exact ⟨hs, rfl⟩
      · split at h
        · cases h; exact ⟨hs, rfl⟩
        · split at h
          · cases h; exact ⟨hs, rfl⟩
          · cases h

theorem default_member {Ty} (l : List (Field Ty)) (acc) (n : Name) (r : OneofRule)
    (h : oneofDefault l acc = some (n, r)) : acc = some (n, r) ∨ ∃ f ∈ l, f.name = n := by
  induction l generalizing acc with
  | nil => exact Or.inl h
  | cons f l ih =>
    rw [oneofDefault] at h
    rcases ih _ h with h | ⟨g, hg, he⟩
    · split at h
      · exact Or.inl h
      · split at h
        · exact Or.inl h
        · split at h
          · exact Or.inl h
          · split at h
            · simp only [Option.some.injEq, Prod.mk.injEq] at h
              exact Or.inr ⟨f, by simp, h.1⟩
            · exact Or.inl h
    · exact Or.inr ⟨g, by simp [hg], he⟩

theorem sets_oneof {Ty} (fs : List (Field Ty)) (o n : Name)
    (hs : Sets n (.oneof o ((members fs o).filterMap oneofCase) (oneofDefault (members fs o) none))) :
    ∃ f ∈ fs, f.name = n ∧ f.oneof = some o := by
  have mem : ∀ f ∈ members fs o, f ∈ fs ∧ f.oneof = some o := by
    intro f hf
    simpa [members, List.mem_filter] using hf
  rcases hs with ⟨c, hc, hn⟩ | ⟨r, hr⟩
  · obtain ⟨f, hf, hfc⟩ := List.mem_filterMap.mp hc
    refine ⟨f, (mem f hf).1, ?_, (mem f hf).2⟩
    unfold oneofCase at hfc
    split at hfc
    · cases hfc
    · split at hfc
      · cases hfc; exact hn
      · split at hfc
        · cases hfc
        · split at hfc
          · cases hfc
          · cases hfc; exact hn
  · rcases default_member _ _ _ _ hr with h | ⟨f, hf, hn⟩
    · cases h
    · exact ⟨f, (mem f hf).1, hn, (mem f hf).2⟩

/-- C57: no field is set by two statements of the generated code. -/
theorem C57_once {Ty} (fs : List (Field Ty)) (oneofs : List Name) (hn : (fs.map (·.name)).Nodup) (ho : oneofs.Nodup)
    (n : Name) : (returnFields oneofs fs).Pairwise (fun a b => ¬ (Sets n a ∧ Sets n b)) := by
  have huniq : ∀ f ∈ fs, ∀ g ∈ fs, f.name = g.name → f = g := by
    clear ho
    induction fs with
    | nil => intro f hf; cases hf
    | cons x fs ih =>
      rw [List.map_cons, List.nodup_cons] at hn
      intro f hf g hg he
      rcases List.mem_cons.mp hf with h1 | h1
      · rcases List.mem_cons.mp hg with h2 | h2
        · rw [h1, h2]
        · exact absurd (List.mem_map.mpr ⟨g, h2, by rw [← he, h1]⟩) hn.1
      · rcases List.mem_cons.mp hg with h2 | h2
        · exact absurd (List.mem_map.mpr ⟨f, h1, by rw [he, h2]⟩) hn.1
        · exact ih hn.2 f h1 g h2 he
  unfold returnFields
  rw [List.pairwise_append]
  refine ⟨?_, ?_, ?_⟩
  · rw [List.pairwise_filterMap]
    have hp : fs.Pairwise (fun f g => f.name ≠ g.name) := List.pairwise_map.mp hn
    apply hp.imp
    rintro f g hne a ha b hb ⟨h1, h2⟩
    exact hne ((sets_plain f a ha n h1).1.trans (sets_plain g b hb n h2).1.symm)
  · rw [List.pairwise_map]
    apply ho.imp
    rintro o o' hne ⟨h1, h2⟩
    obtain ⟨f, hf, hfn, hfo⟩ := sets_oneof fs o n h1
    obtain ⟨g, hg, hgn, hgo⟩ := sets_oneof fs o' n h2
    rw [huniq f hf g hg (hfn.trans hgn.symm), hgo] at hfo
    exact hne (Option.some.inj hfo).symm
  · rintro a ha b hb ⟨h1, h2⟩
    obtain ⟨f, hf, hfa⟩ := List.mem_filterMap.mp ha
    obtain ⟨o, _, rfl⟩ := List.mem_map.mp hb
    obtain ⟨g, hg, hgn, hgo⟩ := sets_oneof fs o n h2
    obtain ⟨hfn, hfo⟩ := sets_plain f a hfa n h1
    rw [huniq f hf g hg (hfn.trans hgn.symm), hgo] at hfo
    cases hfo

/-- A message with a `by` field, a custom resolver and an autobound field. -/
example : ∃ fs, resolveMessage (fun (a b : Nat) => a != b) (some {})
    [⟨"d", true, some [("c", 1), ("z", 0)]⟩, ⟨"e", false, some [("c", 1)]⟩]
    [{ name := "a", ty := 0, opt := some { «by» := some "x" } },
     { name := "b", ty := 0, opt := some { customResolver := some true } }, { name := "c", ty := 1 }] = (fs, []) ∧
    returnFields [] fs = [.cel "a" "x", .custom "b", .auto "c" "d"] := ⟨_, rfl, rfl⟩

end Verif.Field
