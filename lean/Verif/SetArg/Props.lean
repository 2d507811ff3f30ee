import Verif.SetArg.Lemmas

/-! # Fields of requests and arguments get the values given for them (C102) -/

namespace Verif.SetArg
open Verif.GoNames

variable {V G : Type}

/-- The code for a value of type `frm` for a field `f`. -/
def codeFor (frm : Ty) (f : Field) (expr : Nat) (cond : Option Nat) : Code :=
  ⟨if isScalar frm then goTy f.ty else goTy frm, expr, cond, [⟨toPublicGoVariable f.name, f.oneof.map toPublicGoVariable,
    if isScalar frm ∨ frm = f.ty then .v else .cast (cname frm) (cname f.ty)⟩]⟩

theorem fieldOf_some {fs : List Field} {n : Name} {f : Field} (h : fieldOf fs n = some f) : f ∈ fs ∧ f.name = n := by
  unfold fieldOf at h
  exact ⟨List.mem_of_find?_eq_some h, by simpa using List.find?_some h⟩

theorem argument_request {frm : Ty} {f : Field} {expr : Nat} {cond : Option Nat} (hf : Fits frm f) :
    argument none ⟨f.name, some f.ty, f.oneof, expr, frm, none, cond⟩ = some (codeFor frm f expr cond) := by
  unfold argument argValue codeFor
  rcases hf with hs | ⟨hs, ho⟩
  · cases frm <;> simp [isScalar] at hs <;> simp [isScalar]
  · have hc := requiredCast_shape hs
    by_cases e : frm = f.ty
    · cases hfrm : frm <;> simp only [hfrm] at * <;> (try rw [← e] at hc) <;> simp [isScalar, hc, e.symm]
    · cases hfrm : frm with
      | scalar k r => simp [isScalar]
      | null => simp [isScalar]
      | msg i r => simp only [hfrm] at *; simp [isScalar, hc, e]
      | map k v => simp only [hfrm] at *; simp [isScalar, hc, e]
      | selector r => simp only [hfrm] at *; simp [isScalar, hc, e]
      | enum i r =>
        simp only [hfrm] at *
        have hno : f.oneof = none := by
          cases h : f.oneof with
          | none => rfl
          | some o => exact absurd (ho rfl (by simp [h])) e
        simp [isScalar, hc, e, cnameIn, hno]

theorem runSet_single (E : Env V G) (g : G) (f : Field) (e : Expr) (st : State G) :
    runSets E g [⟨toPublicGoVariable f.name, f.oneof.map toPublicGoVariable, e⟩] st =
      (exprVal E g e).map fun x => puts st [given f x] := by
  simp only [runSets, runSet]
  cases exprVal E g e with
  | none => rfl
  | some x => cases h : f.oneof <;> simp [puts, put, given, h]

/-- The code does to the field what is wanted. -/
theorem does_codeFor (E : Env V G) {frm : Ty} {f : Field} (expr : Nat) (cond : Option Nat) (ht : f.ty ≠ .null) :
    Does E (codeFor frm f expr cond) (match cond with
      | none => (requestValue E frm f.ty expr).map fun x => [given f x]
      | some c => match E.cond c with
        | none => none
        | some false => some []
        | some true => (requestValue E frm f.ty expr).map fun x => [given f x]) := by
  have main : ∀ st, setCELValue E (codeFor frm f expr cond) st = match (requestValue E frm f.ty expr).map fun x => [given f x] with
      | some as => .ok (puts st as)
      | none => .err := by
    intro st
    have hany : (if isScalar frm = true then goTy f.ty else goTy frm) ≠ .any := by
      split
      · exact goTy_any ht
      · rename_i h; exact goTy_any fun e => h (by rw [e]; rfl)
    simp only [setCELValue, codeFor, evalCEL_valueAs E hany, requestValue, runSet_single]
    by_cases hs : isScalar frm = true
    · simp only [hs, if_true, true_or]
      cases valueAs E (goTy f.ty) expr <;> simp [exprVal]
    · simp only [hs, if_false, false_or, Bool.false_eq_true]
      cases valueAs E (goTy frm) expr with
      | none => simp
      | some g =>
        by_cases e : frm = f.ty
        · simp [e, convert, exprVal]
        · simp only [e, if_false, cname, exprVal, convert, Option.bind_some]
          cases E.cast (goTy frm) (goTy f.ty) g <;> rfl
  intro st
  unfold runCode
  have hcond : (codeFor frm f expr cond).cond = cond := rfl
  rw [hcond]
  cases cond with
  | none => exact main st
  | some c =>
    simp only
    cases E.cond c with
    | none => rfl
    | some b => cases b with
      | false => rfl
      | true => exact main st

/-- What is known of an accepted request. -/
theorem accepted_entry {fields : List Field} {es : List Entry} (h : (resolveRequest fields es).1 = []) {e : Entry} (he : e ∈ es) :
    ∃ f, fieldOf fields e.field = some f ∧ (f.oneof.isSome → e.cond.isSome) ∧
      (resolveEntry fields e).2 = ⟨f.name, some f.ty, f.oneof, e.expr, e.frm, none, e.cond⟩ := by
  simp only [resolveRequest, List.flatMap_map, List.flatMap_eq_nil_iff] at h
  have h1 := h e he
  unfold resolveEntry at h1 ⊢
  cases hf : fieldOf fields e.field with
  | none => rw [hf] at h1; simp at h1
  | some f =>
    rw [hf] at h1
    refine ⟨f, rfl, fun ho => ?_, ?_⟩
    · cases hc : e.cond with
      | some c => rfl
      | none => simp [ho, hc] at h1
    · simp [(fieldOf_some hf).2]

/-- Code is generated for every accepted request. -/
theorem C102_request_generated_partial (fields : List Field) (es : List Entry) (h : (resolveRequest fields es).1 = [])
    (hfit : ∀ e ∈ es, ∀ f, fieldOf fields e.field = some f → Fits e.frm f) :
    ∃ cs, arguments none (resolveRequest fields es).2 = some cs := by
  apply arguments_some
  intro a ha
  simp only [resolveRequest, List.map_map, List.mem_map, Function.comp_apply] at ha
  obtain ⟨e, he, rfl⟩ := ha
  obtain ⟨f, hf, _, hr⟩ := accepted_entry h he
  exact ⟨_, by rw [hr]; exact argument_request (hfit e he f hf)⟩

/-- The fields of a request have the last values given for them whose conditions hold, and so do oneofs; no request is made if
an expression fails. -/
theorem C102_request_partial (E : Env V G) (fields : List Field) (es : List Entry) (cs : List Code)
    (h : (resolveRequest fields es).1 = []) (hn : Names fields) (hfit : ∀ e ∈ es, ∀ f, fieldOf fields e.field = some f → Fits e.frm f)
    (hcs : arguments none (resolveRequest fields es).2 = some cs) :
    match allGive (entryGives E fields) es with
    | none => runAll E cs .empty = .err
    | some as => ∃ st, runAll E cs .empty = .ok st ∧
        (∀ f ∈ fields, st.fields (toPublicGoVariable f.name) = lastField f.name as) ∧
        ∀ f ∈ fields, ∀ o, f.oneof = some o →
          st.oneofs (toPublicGoVariable o) = (lastMember o as).map fun (m, x) => (toPublicGoVariable m, x) := by
  have hrun := runAll_does E (entryGives E fields) (fun e => argument none (resolveEntry fields e).2) es cs (by
    intro e he c hc
    obtain ⟨f, hf, _, hr⟩ := accepted_entry h he
    rw [hr, argument_request (hfit e he f hf)] at hc
    cases hc
    have := does_codeFor E (frm := e.frm) e.expr e.cond (hn.typed f (fieldOf_some hf).1)
    unfold entryGives
    rw [hf]
    exact this) (by
    have := arguments_map none _ cs hcs
    simpa [resolveRequest, List.map_map, Function.comp_def] using this) .empty
  have hmem : ∀ (es : List Entry) (as : List (Asg G)), allGive (entryGives E fields) es = some as → ∀ a ∈ as, ∃ f ∈ fields, ∃ x, a = given f x := by
    intro es
    induction es with
    | nil => intro as h a ha; simp only [allGive, Option.some.injEq] at h; subst h; cases ha
    | cons e es ih =>
      intro as h a ha
      simp only [allGive] at h
      cases h1 : entryGives E fields e with
      | none => rw [h1] at h; simp at h
      | some x =>
        cases h2 : allGive (entryGives E fields) es with
        | none => rw [h1, h2] at h; simp at h
        | some xs =>
          rw [h1, h2] at h
          simp only [Option.some.injEq] at h
          subst h
          rcases List.mem_append.1 ha with ha | ha
          · unfold entryGives at h1
            cases hf : fieldOf fields e.field with
            | none => rw [hf] at h1; simp at h1
            | some f =>
              rw [hf] at h1
              have key : ∀ y, (requestValue E e.frm f.ty e.expr).map (fun x => [given f x]) = some y → a ∈ y → ∃ f ∈ fields, ∃ x, a = given f x := by
                intro y hy hay
                obtain ⟨z, _, rfl⟩ := Option.map_eq_some_iff.1 hy
                exact ⟨f, (fieldOf_some hf).1, z, by simpa using hay⟩
              simp only at h1
              split at h1
              · exact key x h1 ha
              · split at h1
                · cases h1
                · simp only [Option.some.injEq] at h1; subst h1; cases ha
                · exact key x h1 ha
          · exact ih xs h2 a ha
  cases hall : allGive (entryGives E fields) es with
  | none => rw [hall] at hrun; exact hrun
  | some as =>
    rw [hall] at hrun
    refine ⟨_, hrun, fun f hf => ?_, fun f hf o ho => ?_⟩
    · rw [fields_puts (fun n => ∃ f ∈ fields, f.name = n) (by
        rintro _ _ ⟨f, hf, rfl⟩ ⟨g, hg, rfl⟩ e; exact hn.goNames f hf g hg e) ⟨f, hf, rfl⟩]
      · simp [State.empty]
      · intro m x hm
        obtain ⟨g, hg, y, e⟩ := hmem es as hall _ hm
        unfold given at e
        split at e
        · cases e; exact ⟨g, hg, rfl⟩
        · cases e
    · rw [oneofs_puts (fun n => ∃ f ∈ fields, f.oneof = some n) (by
        rintro _ _ ⟨f, hf, h1⟩ ⟨g, hg, h2⟩ e; exact hn.oneofs f hf g hg _ _ h1 h2 e) ⟨f, hf, ho⟩]
      · simp [State.empty]
      · intro o' m x hm
        obtain ⟨g, hg, y, e⟩ := hmem es as hall _ hm
        unfold given at e
        split at e
        · cases e
        · rename_i o'' ho''; cases e; exact ⟨g, hg, ho''⟩

/-! ### The code compiles -/

theorem target_found {fields : List Field} (hn : Names fields) {f : Field} (hf : f ∈ fields) (e : Expr) :
    targetTy fields ⟨toPublicGoVariable f.name, f.oneof.map toPublicGoVariable, e⟩ = some (goTy f.ty) := by
  have : fields.find? (fun g => toPublicGoVariable g.name == toPublicGoVariable f.name &&
      g.oneof.map toPublicGoVariable == f.oneof.map toPublicGoVariable) = some f := by
    cases h : fields.find? _ with
    | none =>
      rw [List.find?_eq_none] at h
      exact absurd (h f hf) (by simp)
    | some g =>
      have h1 := List.mem_of_find?_eq_some h
      have h2 := List.find?_some h
      simp only [Bool.and_eq_true, beq_iff_eq] at h2
      have h3 := hn.goNames g h1 f hf h2.1
      have : g = f := by
        have hnd := hn.nodup
        clear h h2
        induction fields with
        | nil => cases hf
        | cons x xs ih =>
          simp only [List.map_cons, List.nodup_cons] at hnd
          rcases List.mem_cons.1 h1 with rfl | hg <;> rcases List.mem_cons.1 hf with rfl | hf'
          · rfl
          · exact absurd (List.mem_map.2 ⟨f, hf', h3.symm⟩) hnd.1
          · exact absurd (List.mem_map.2 ⟨g, hg, h3⟩) hnd.1
          · exact ih ⟨hnd.2, fun a ha => hn.nonempty a (by simp [ha]), fun a ha b hb => hn.goNames a (by simp [ha]) b (by simp [hb]),
              fun a ha b hb => hn.oneofs a (by simp [ha]) b (by simp [hb]), fun a ha => hn.typed a (by simp [ha])⟩ hf' hg hnd.2
      rw [this]
  unfold targetTy
  rw [this]; rfl

theorem cast_found {fns : List (Ty × Ty)} {a b : Ty} (h : (a, b) ∈ fns) (fs : List Field) :
    exprTy fns fs (goTy a) (.cast (cname a) (cname b)) = some (goTy b) := by
  unfold exprTy
  cases hf : fns.find? (fun p => cname p.1 == cname a && cname p.2 == cname b) with
  | none =>
    rw [List.find?_eq_none] at hf
    exact absurd (hf (a, b) h) (by simp)
  | some p =>
    have := List.find?_some hf
    simp only [Bool.and_eq_true, beq_iff_eq, cname, CName.plain.injEq] at this
    simp [hf, this.1, this.2]

theorem requestDecls_mem {fields : List Field} : ∀ (args : List Arg) (ds : List (Ty × Ty)), requestDecls fields args = some ds →
    ∀ a ∈ args, ∀ f, fieldOf fields a.name = some f → ∃ d, declOf a.frm f.ty = some d ∧ ∀ p ∈ d, p ∈ ds := by
  intro args
  induction args with
  | nil => intro ds _ a ha; cases ha
  | cons b args ih =>
    intro ds h a ha f hf
    simp only [requestDecls] at h
    cases h1 : requestDecls fields args with
    | none => rw [h1] at h; simp at h
    | some ds' =>
      rw [h1] at h
      rcases List.mem_cons.1 ha with rfl | ha
      · rw [hf] at h
        simp only at h
        obtain ⟨d, hd, rfl⟩ := Option.map_eq_some_iff.1 h
        exact ⟨d, hd, fun p hp => by simp [hp]⟩
      · obtain ⟨d, hd, hm⟩ := ih ds' h1 a ha f hf
        refine ⟨d, hd, fun p hp => ?_⟩
        cases hb : fieldOf fields b.name with
        | none => rw [hb] at h; simp only [Option.some.injEq] at h; subst h; exact hm p hp
        | some g =>
          rw [hb] at h
          simp only at h
          obtain ⟨d', _, rfl⟩ := Option.map_eq_some_iff.1 h
          simp [hm p hp]

/-- The conversions that an accepted request needs can be declared. -/
theorem C102_request_declared_partial (fields : List Field) (es : List Entry) (h : (resolveRequest fields es).1 = [])
    (hfit : ∀ e ∈ es, ∀ f, fieldOf fields e.field = some f → Fits e.frm f) :
    ∃ ds, requestDecls fields (resolveRequest fields es).2 = some ds := by
  have key : ∀ args : List Arg, (∀ a ∈ args, ∀ f, fieldOf fields a.name = some f → Fits a.frm f) →
      ∃ ds, requestDecls fields args = some ds := by
    intro args
    induction args with
    | nil => exact fun _ => ⟨_, rfl⟩
    | cons a as ih =>
      intro hf
      obtain ⟨ds, hds⟩ := ih fun b hb => hf b (List.mem_cons_of_mem _ hb)
      unfold requestDecls
      rw [hds]
      cases hh : fieldOf fields a.name with
      | none => exact ⟨ds, rfl⟩
      | some f =>
        have : ∃ d, declOf a.frm f.ty = some d := by
          rcases hf a (by simp) f hh with h1 | ⟨h1, _⟩
          · cases hfr : a.frm with
            | scalar k r => cases f.ty <;> exact ⟨_, rfl⟩
            | null => exact ⟨_, rfl⟩
            | _ => rw [hfr] at h1; cases h1
          · exact ⟨_, declOf_shape h1⟩
        obtain ⟨d, hd⟩ := this
        exact ⟨d ++ ds, by simp [hd]⟩
  apply key
  intro a ha f hf
  simp only [resolveRequest, List.map_map, List.mem_map, Function.comp_apply] at ha
  obtain ⟨e, he, rfl⟩ := ha
  obtain ⟨g, hg, _, hr⟩ := accepted_entry h he
  rw [hr] at hf ⊢
  simp only at hf ⊢
  have := (fieldOf_some hg).2
  rw [this] at hf
  exact hfit e he f hf

/-- The code for an accepted request compiles, with the conversions that are declared for it. -/
theorem C102_request_compiles_partial (fields : List Field) (es : List Entry) (cs : List Code) (ds fns : List (Ty × Ty))
    (h : (resolveRequest fields es).1 = []) (hn : Names fields) (hfit : ∀ e ∈ es, ∀ f, fieldOf fields e.field = some f → Fits e.frm f)
    (hcs : arguments none (resolveRequest fields es).2 = some cs) (hds : requestDecls fields (resolveRequest fields es).2 = some ds)
    (hfns : ∀ p ∈ ds, p ∈ fns) : ∀ c ∈ cs, codeOk fns fields [] c = true := by
  intro c hc
  have hm := arguments_map none _ cs hcs
  have : some c ∈ cs.map some := List.mem_map.2 ⟨c, hc, rfl⟩
  rw [← hm] at this
  obtain ⟨a, ha, hac⟩ := List.mem_map.1 this
  have ha' := ha
  simp only [resolveRequest, List.map_map, List.mem_map, Function.comp_apply] at ha'
  obtain ⟨e, he, rfl⟩ := ha'
  obtain ⟨f, hf, _, hr⟩ := accepted_entry h he
  have hfs := fieldOf_some hf
  have hfit' := hfit e he f hf
  rw [hr, argument_request hfit'] at hac
  cases hac
  obtain ⟨d, hd, hsub⟩ := requestDecls_mem _ ds hds _ ha f (by rw [hr]; simpa [hfs.2] using hf)
  rw [hr] at hd
  simp only [codeOk, codeFor, List.all_cons, List.all_nil, Bool.and_true, setOk, target_found hn hfs.1]
  have hne : (toPublicGoVariable f.name).isEmpty = false := by
    have := hn.nonempty f hfs.1
    cases h : toPublicGoVariable f.name with
    | nil => exact absurd h this
    | cons => rfl
  by_cases hs : isScalar e.frm = true
  · simp [hs, exprTy, hne, assignable]
  · by_cases heq : e.frm = f.ty
    · simp [heq, exprTy, hne, assignable]
    · rcases hfit' with h' | ⟨hshape, _⟩
      · exact absurd h' hs
      · rw [declOf_shape hshape, if_neg heq] at hd
        simp only [Option.some.injEq] at hd
        have hin : (e.frm, f.ty) ∈ fns := hfns _ (hsub _ (by rw [← hd]; simp))
        simp [hs, heq, cast_found hin, hne, assignable]

/-! ### Arguments of messages -/

def named (frm to : Ty) (n : Name) (expr : Nat) : Code :=
  ⟨goTy frm, expr, none, [⟨toPublicGoVariable n, none, if frm = to then .v else .cast (cname frm) (cname to)⟩]⟩

def inlined (frm : Ty) (fs : List Field) (expr : Nat) : Code :=
  ⟨goTy frm, expr, none, fs.map fun f => ⟨toPublicGoVariable f.name, none, .get (toPublicGoVariable f.name)⟩⟩

theorem shape_refl {a b : Ty} : sameShape a b = true → sameShape a a = true := by
  induction a generalizing b with
  | map k v ih => intro h; cases b <;> simp [sameShape] at h; simpa [sameShape] using ih h
  | _ => intro h; cases b <;> simp [sameShape] at h <;> simp [sameShape]

theorem shape_map {k k' : LogFn.Kind} {v v' : Ty} : kindOf (.map k v) = kindOf (.map k' v') := rfl

theorem argument_named {msgArg : List Field} {a : Arg} {f : Field} (ho : ∀ f ∈ msgArg, f.oneof = none) (h1 : a.ty = none) (h2 : a.oneof = none)
    (h3 : a.cond = none) (h4 : a.inline = none) (h5 : a.name ≠ []) (h6 : fieldOf msgArg a.name = some f) (h7 : ArgFits a.frm f) :
    argument (some msgArg) a = some (named a.frm f.ty a.name a.expr) := by
  obtain ⟨hs, hk⟩ := h7
  have hrefl : requiredCast a.frm a.frm = some false := by simpa using requiredCast_shape (shape_refl hs)
  have hfo := ho f (fieldOf_some h6).1
  unfold argument argValue named
  simp only [h1, h2, h3, h4, h5, h6, Option.getD_none, ne_eq, not_false_eq_true, if_true, hrefl, Option.map_some, Option.map_none,
    Bool.false_eq_true, if_false]
  cases hfrm : a.frm with
  | null => rw [hfrm] at hs; simp [sameShape] at hs
  | selector r => rw [hfrm] at hs; simp [sameShape] at hs
  | msg i r =>
    rw [hfrm] at hs hk
    cases hf : f.ty <;> simp [sameShape, hf] at hs <;> simp [kindOf, hf] at hk
    simp [hk]
  | map k v =>
    rw [hfrm] at hs hk
    cases hf : f.ty <;> simp [sameShape, hf] at hs <;> simp [kindOf, hf] at hk
    simp [hk]
  | enum i r =>
    rw [hfrm] at hk
    rcases hk with e | hk
    · simp [← e]
    · have : ¬ Ty.enum i r = f.ty := fun e => hk (by rw [e])
      simp [Ne.symm hk, this, cnameIn, hfo]
  | scalar k r =>
    rw [hfrm] at hk
    rcases hk with e | hk
    · simp [← e]
    · have : ¬ Ty.scalar k r = f.ty := fun e => hk (by rw [e])
      simp [Ne.symm hk, this, cnameIn, hfo]

theorem argument_inlined {msgArg : List Field} {a : Arg} {fs : List Field} {i : Nat} (h1 : a.ty = none) (h2 : a.oneof = none) (h3 : a.cond = none)
    (h4 : a.inline = some fs) (h5 : fs ≠ []) (h6 : a.frm = .msg i false) :
    argument (some msgArg) a = some (inlined a.frm fs a.expr) := by
  cases fs with
  | nil => exact absurd rfl h5
  | cons f fs => simp [argument, argValue, h1, h2, h3, h4, h6, requiredCast, inlined]

theorem argument_ok {msgArg : List Field} (ho : ∀ f ∈ msgArg, f.oneof = none) {a : Arg} (ha : ArgOk msgArg a) :
    (∃ f, a.inline = none ∧ fieldOf msgArg a.name = some f ∧ ArgFits a.frm f ∧
      argument (some msgArg) a = some (named a.frm f.ty a.name a.expr)) ∨
    (∃ fs i, a.inline = some fs ∧ a.frm = .msg i false ∧ Names fs ∧ (∀ g ∈ fs, ∃ f, fieldOf msgArg g.name = some f ∧ goTy g.ty = goTy f.ty) ∧
      argument (some msgArg) a = some (inlined a.frm fs a.expr)) := by
  obtain ⟨h1, h2, h3, h⟩ := ha
  cases hi : a.inline with
  | none =>
    rw [hi] at h
    obtain ⟨h5, f, h6, h7⟩ := h
    exact Or.inl ⟨f, rfl, h6, h7, argument_named ho h1 h2 h3 hi h5 h6 h7⟩
  | some fs =>
    rw [hi] at h
    obtain ⟨_, h5, hn, ⟨i, h6⟩, h7⟩ := h
    exact Or.inr ⟨fs, i, rfl, h6, hn, h7, argument_inlined h1 h2 h3 hi h5 h6⟩

/-- Code is generated for all arguments. -/
theorem C102_arguments_generated_partial (msgArg : List Field) (args : List Arg) (ho : ∀ f ∈ msgArg, f.oneof = none)
    (ha : ∀ a ∈ args, ArgOk msgArg a) : ∃ cs, arguments (some msgArg) args = some cs := by
  apply arguments_some
  intro a h
  rcases argument_ok ho (ha a h) with ⟨_, _, _, _, h⟩ | ⟨_, _, _, _, _, _, h⟩ <;> exact ⟨_, h⟩

theorem runSets_get (E : Env V G) (g : G) : ∀ (fs : List Field) (st : State G),
    runSets E g (fs.map fun f => ⟨toPublicGoVariable f.name, none, .get (toPublicGoVariable f.name)⟩) st =
      some (puts st (fs.map fun f => .field f.name (E.get (toPublicGoVariable f.name) g))) := by
  intro fs
  induction fs with
  | nil => intro st; rfl
  | cons f fs ih =>
    intro st
    simp only [List.map_cons, runSets, runSet, exprVal, Option.map_some, puts]
    exact ih _

/-- An argument of a message has the last value given for it, by its name or in an inlined message; the message is not resolved
if an expression fails. -/
theorem C102_arguments_partial (E : Env V G) (msgArg : List Field) (args : List Arg) (cs : List Code) (hn : Names msgArg)
    (ho : ∀ f ∈ msgArg, f.oneof = none) (ha : ∀ a ∈ args, ArgOk msgArg a) (hcs : arguments (some msgArg) args = some cs) :
    match allGive (argGives E msgArg) args with
    | none => runAll E cs .empty = .err
    | some as => ∃ st, runAll E cs .empty = .ok st ∧ ∀ f ∈ msgArg, st.fields (toPublicGoVariable f.name) = lastField f.name as := by
  have hrun := runAll_does E (argGives E msgArg) (argument (some msgArg)) args cs (by
    intro a h c hc st
    rcases argument_ok ho (ha a h) with ⟨f, h1, h2, h3, h4⟩ | ⟨fs, i, h1, h2, _, _, h4⟩
    · rw [h4] at hc
      cases hc
      have hany : goTy a.frm ≠ .any := by
        refine goTy_any fun e => ?_
        have := h3.1
        rw [e] at this
        simp [sameShape] at this
      simp only [runCode, named, setCELValue, evalCEL_valueAs E hany, argGives, h1, h2]
      cases valueAs E (goTy a.frm) a.expr with
      | none => rfl
      | some g =>
        by_cases e : a.frm = f.ty
        · simp [e, convert, runSets, runSet, exprVal, puts, put]
        · simp only [e, if_false, runSets, runSet, cname, exprVal, convert, Option.bind_some]
          cases E.cast (goTy a.frm) (goTy f.ty) g <;> rfl
    · rw [h4] at hc
      cases hc
      have hany : goTy a.frm ≠ .any := goTy_any (by rw [h2]; simp)
      simp only [runCode, inlined, setCELValue, evalCEL_valueAs E hany, argGives, h1]
      cases valueAs E (goTy a.frm) a.expr with
      | none => rfl
      | some g => simp only [runSets_get, Option.map_some]) (arguments_map _ _ cs hcs) .empty
  have hmem : ∀ (l : List Arg) (as : List (Asg G)), (∀ a ∈ l, ArgOk msgArg a) → allGive (argGives E msgArg) l = some as →
      ∀ m x, .field m x ∈ as → ∃ f ∈ msgArg, f.name = m := by
    intro l
    induction l with
    | nil => intro as _ h m x hm; simp only [allGive, Option.some.injEq] at h; subst h; cases hm
    | cons a l ih =>
      intro as hok h m x hm
      simp only [allGive] at h
      cases h1 : argGives E msgArg a with
      | none => rw [h1] at h; simp at h
      | some y =>
        cases h2 : allGive (argGives E msgArg) l with
        | none => rw [h1, h2] at h; simp at h
        | some ys =>
          rw [h1, h2] at h
          simp only [Option.some.injEq] at h
          subst h
          rcases List.mem_append.1 hm with hm | hm
          · rcases argument_ok ho (hok a (by simp)) with ⟨f, h3, h4, _, _⟩ | ⟨fs, i, h3, _, _, h5, _⟩
            · simp only [argGives, h3, h4] at h1
              obtain ⟨z, _, rfl⟩ := Option.map_eq_some_iff.1 h1
              simp only [List.mem_singleton, Asg.field.injEq] at hm
              exact ⟨f, (fieldOf_some h4).1, by rw [(fieldOf_some h4).2, hm.1]⟩
            · simp only [argGives, h3] at h1
              obtain ⟨z, _, rfl⟩ := Option.map_eq_some_iff.1 h1
              obtain ⟨g, hg, e⟩ := List.mem_map.1 hm
              cases e
              obtain ⟨f, hf, _⟩ := h5 g hg
              exact ⟨f, (fieldOf_some hf).1, (fieldOf_some hf).2⟩
          · exact ih ys (fun b hb => hok b (by simp [hb])) h2 m x hm
  cases hall : allGive (argGives E msgArg) args with
  | none => rw [hall] at hrun; exact hrun
  | some as =>
    rw [hall] at hrun
    refine ⟨_, hrun, fun f hf => ?_⟩
    rw [fields_puts (fun n => ∃ f ∈ msgArg, f.name = n) (by
      rintro _ _ ⟨f, hf, rfl⟩ ⟨g, hg, rfl⟩ e; exact hn.goNames f hf g hg e) ⟨f, hf, rfl⟩]
    · simp [State.empty]
    · exact fun m x hm => hmem args as ha hall m x hm

/-- The code for the arguments of a message compiles, with the conversions that are declared for them. -/
theorem C102_arguments_compile_partial (msgArg : List Field) (a : Arg) (c : Code) (ds fns : List (Ty × Ty)) (hn : Names msgArg)
    (ho : ∀ f ∈ msgArg, f.oneof = none) (ha : ArgOk msgArg a) (hc : argument (some msgArg) a = some c)
    (hds : argDecls msgArg a = some ds) (hfns : ∀ p ∈ ds, p ∈ fns) : codeOk fns msgArg (a.inline.getD []) c = true := by
  have hne : ∀ f ∈ msgArg, (toPublicGoVariable f.name).isEmpty = false := by
    intro f hf
    have := hn.nonempty f hf
    cases h : toPublicGoVariable f.name with
    | nil => exact absurd h this
    | cons => rfl
  have htgt : ∀ f ∈ msgArg, ∀ e, targetTy msgArg ⟨toPublicGoVariable f.name, none, e⟩ = some (goTy f.ty) := by
    intro f hf e
    have := target_found hn hf e
    rwa [ho f hf] at this
  rcases argument_ok ho ha with ⟨f, h1, h2, h3, h4⟩ | ⟨fs, i, h1, h2, hnf, h5, h4⟩
  · rw [h4] at hc
    cases hc
    have hfs := fieldOf_some h2
    have hname : a.name ≠ [] := by
      have := ha.2.2.2
      rw [h1] at this
      exact this.1
    simp only [argDecls, ne_eq, hname, not_false_eq_true, if_true, h2] at hds
    simp only [codeOk, named, List.all_cons, List.all_nil, Bool.and_true, setOk, ← hfs.2, htgt f hfs.1, hne f hfs.1]
    by_cases e : a.frm = f.ty
    · simp [e, exprTy, assignable]
    · rw [declOf_shape h3.1, if_neg e] at hds
      simp only [Option.some.injEq] at hds
      have hin : (a.frm, f.ty) ∈ fns := hfns _ (by rw [← hds]; simp)
      simp [e, cast_found hin, assignable]
  · rw [h4] at hc
    cases hc
    simp only [codeOk, inlined, h1, Option.getD_some, List.all_map, List.all_eq_true, Function.comp_apply, setOk, exprTy]
    intro g hg
    obtain ⟨f, hf, hty⟩ := h5 g hg
    have hfs := fieldOf_some hf
    have hget : fs.find? (fun f => toPublicGoVariable f.name == toPublicGoVariable g.name) = some g := by
      have hnd := hnf.nodup
      have hinj := hnf.goNames
      clear h5 h4 h1 hnf
      induction fs with
      | nil => cases hg
      | cons x xs ih =>
        simp only [List.map_cons, List.nodup_cons] at hnd
        rcases List.mem_cons.1 hg with rfl | hg'
        · simp
        · have : ¬ toPublicGoVariable x.name = toPublicGoVariable g.name := fun e =>
            hnd.1 (List.mem_map.2 ⟨g, hg', (hinj x (by simp) g hg e).symm⟩)
          simp only [List.find?_cons, beq_eq_false_iff_ne.2 this]
          exact ih hg' hnd.2 fun a ha b hb => hinj a (by simp [ha]) b (by simp [hb])
    simp only [hget, Option.map_some]
    simp only [← hfs.2, htgt f hfs.1, hne f hfs.1]
    simp [hty, assignable]

/-! ### What is accepted -/

/-- A request is accepted if and only if all the fields it names exist, and those for members of oneofs have a condition. -/
theorem C102_accepted (fields : List Field) (es : List Entry) (hn : (fields.map (·.name)).Nodup) :
    (resolveRequest fields es).1 = [] ↔
      ∀ e ∈ es, ∃ f ∈ fields, f.name = e.field ∧ (f.oneof ≠ none → e.cond ≠ none) := by
  constructor
  · intro h e he
    obtain ⟨f, hf, hc, _⟩ := accepted_entry h he
    refine ⟨f, (fieldOf_some hf).1, (fieldOf_some hf).2, fun ho => ?_⟩
    have := hc (by cases h : f.oneof <;> simp_all)
    intro e; rw [e] at this; cases this
  · intro h
    simp only [resolveRequest, List.flatMap_map, List.flatMap_eq_nil_iff]
    intro e he
    obtain ⟨f, hf, hname, hc⟩ := h e he
    have hfo : fieldOf fields e.field = some f := by
      unfold fieldOf
      rw [← hname]
      clear h he hc
      induction fields with
      | nil => cases hf
      | cons x xs ih =>
        simp only [List.map_cons, List.nodup_cons] at hn
        rcases List.mem_cons.1 hf with rfl | hf'
        · simp
        · have : ¬ x.name = f.name := fun e => hn.1 (List.mem_map.2 ⟨f, hf', e.symm⟩)
          simp only [List.find?_cons, beq_eq_false_iff_ne.2 this]
          exact ih hn.2 hf'
    unfold resolveEntry
    rw [hfo]
    cases ho : f.oneof with
    | none => simp [ho]
    | some o =>
      cases hcond : e.cond with
      | none => exact absurd hcond (hc (by simp [ho]))
      | some c => simp

/-! ### Cases that meet the hypotheses -/

/-- `string name = 1; Status status = 2; oneof kind { int64 num = 3; User user = 4; } repeated Item items = 5;` -/
def exFields : List Field :=
  [⟨['n', 'a', 'm', 'e'], .scalar .string false, none⟩, ⟨['s', 't', 'a', 't', 'u', 's'], .enum 0 false, none⟩,
   ⟨['n', 'u', 'm'], .scalar .int64 false, some ['k', 'i', 'n', 'd']⟩, ⟨['u', 's', 'e', 'r'], .msg 0 false, some ['k', 'i', 'n', 'd']⟩,
   ⟨['i', 't', 'e', 'm', 's'], .msg 1 true, none⟩]

/-- The request names the members of the oneof, with conditions, an enum and a list of messages to be converted, and `name` twice. -/
def exEntries : List Entry :=
  [⟨['n', 'a', 'm', 'e'], 0, .scalar .string false, none⟩, ⟨['s', 't', 'a', 't', 'u', 's'], 1, .enum 7 false, none⟩,
   ⟨['n', 'u', 'm'], 2, .scalar .int32 false, some 0⟩, ⟨['u', 's', 'e', 'r'], 3, .msg 8 false, some 1⟩,
   ⟨['i', 't', 'e', 'm', 's'], 4, .msg 9 true, none⟩, ⟨['n', 'a', 'm', 'e'], 5, .null, some 0⟩]

theorem exNames : Names exFields :=
  ⟨by decide, by decide, by decide, by
    intro f hf g hg o o' h1 h2 _
    have : ∀ f ∈ exFields, f.oneof = none ∨ f.oneof = some ['k', 'i', 'n', 'd'] := by decide
    rcases this f hf with h | h <;> rcases this g hg with h' | h' <;> simp_all, by decide⟩

theorem exFits : ∀ e ∈ exEntries, ∀ f, fieldOf exFields e.field = some f → Fits e.frm f := by
  intro e he f hf
  simp only [exEntries, List.mem_cons, List.not_mem_nil, or_false] at he
  rcases he with rfl | rfl | rfl | rfl | rfl | rfl <;> simp only [Fits] <;> cases hf <;> simp [isScalar, sameShape, kindOf]

example : (resolveRequest exFields exEntries).1 = [] := by decide

/-- The code for the request of the example. -/
def exCodes : List Code := (arguments none (resolveRequest exFields exEntries).2).getD []

example : arguments none (resolveRequest exFields exEntries).2 = some exCodes ∧ exCodes.length = 6 ∧
    requestDecls exFields (resolveRequest exFields exEntries).2 = some [(.enum 7 false, .enum 0 false), (.scalar .int32 false, .scalar .int64 false),
      (.msg 8 false, .msg 0 false), (.msg 9 true, .msg 1 true)] := by decide

/-- Values are numbers; the second condition holds, the first does not; every expression has the value of its number, conversion
adds 100. -/
def exEnv : Env Nat Nat :=
  ⟨fun x => some (.val x), fun c => some (c == 1), fun _ v => some v, id, fun _ => 0, fun _ _ g => some (g + 100), fun _ g => g⟩

/-- The name is the first one given, because the condition of the second does not hold, the oneof is the user. -/
example : (allGive (entryGives exEnv exFields) exEntries).map (fun as => (lastField ['n', 'a', 'm', 'e'] as, lastField ['s', 't', 'a', 't', 'u', 's'] as,
      lastMember ['k', 'i', 'n', 'd'] as, lastField ['i', 't', 'e', 'm', 's'] as)) =
    some (some 0, some 101, some (['u', 's', 'e', 'r'], 103), some 104) := rfl

/-- A message with the arguments `id` (`int64`), `name` and `age` (`uint32`). -/
def exMsgArg : List Field :=
  [⟨['i', 'd'], .scalar .int64 false, none⟩, ⟨['n', 'a', 'm', 'e'], .scalar .string false, none⟩, ⟨['a', 'g', 'e'], .scalar .uint32 false, none⟩]

/-- `id` is given by an enum, `name` and `age` by an inlined message. -/
def exArgs : List Arg :=
  [⟨['i', 'd'], none, none, 0, .enum 0 false, none, none⟩,
   ⟨[], none, none, 1, .msg 0 false, some [⟨['n', 'a', 'm', 'e'], .scalar .string false, none⟩, ⟨['a', 'g', 'e'], .scalar .uint32 false, none⟩], none⟩]

example : Names exMsgArg ∧ (∀ f ∈ exMsgArg, f.oneof = none) ∧ ∀ a ∈ exArgs, ArgOk exMsgArg a := by
  refine ⟨⟨by decide, by decide, by decide, by simp [exMsgArg], by decide⟩, by decide, ?_⟩
  intro a ha
  simp only [exArgs, List.mem_cons, List.not_mem_nil, or_false] at ha
  rcases ha with rfl | rfl
  · exact ⟨rfl, rfl, rfl, by decide, _, rfl, by decide, Or.inr (by decide)⟩
  · refine ⟨rfl, rfl, rfl, rfl, by decide, ⟨by decide, by decide, by decide, by simp, by decide⟩, ⟨0, rfl⟩, ?_⟩
    intro g hg
    simp only [List.mem_cons, List.not_mem_nil, or_false] at hg
    rcases hg with rfl | rfl
    · exact ⟨_, rfl, rfl⟩
    · exact ⟨_, rfl, rfl⟩

example : (allGive (argGives exEnv exMsgArg) exArgs).map (fun as => exMsgArg.map fun f => lastField f.name as) =
    some [some 100, some 1, some 1] := by decide

/-! ### Where the property is false of the code -/

/-- What is generated for one field of a request. -/
def oneField (f : Field) (frm : Ty) : Option Code := argument none (resolveEntry [f] ⟨f.name, 0, frm, some 0⟩).2

def x (t : Ty) : Field := ⟨['x'], t, none⟩

/-- For a member of a oneof that is an enum, a value of an enum with that alias is accepted, but the conversion that is called
is not the one that is declared. -/
theorem C102_oneof_enum_false : let f : Field := ⟨['x'], .enum 0 false, some ['o']⟩
    requestTakes (fun _ _ => false) (fun i j => i == 1 && j == 0) (.enum 1 false) f.ty = true ∧
    requestDecls [f] [(resolveEntry [f] ⟨f.name, 0, .enum 1 false, some 0⟩).2] = some [(.enum 1 false, .enum 0 false)] ∧
    (oneField f (.enum 1 false)).map (codeOk [(.enum 1 false, .enum 0 false)] [f] []) = some false := by decide

/-- The type of `enum.select` is accepted for an enum, but no conversion is declared for it. -/
theorem C102_selector_false : requestTakes (fun _ _ => false) (fun _ _ => false) (.selector false) (.enum 0 false) = true ∧
    declOf (.selector false) (.enum 0 false) = some [] ∧
    ∀ fns : List (Ty × Ty), (∀ p ∈ fns, p.1 ≠ .selector false) → (oneField (x (.enum 0 false)) (.selector false)).map (codeOk fns [x (.enum 0 false)] []) = some false := by
  refine ⟨by decide, by decide, fun fns h => ?_⟩
  have : oneField (x (.enum 0 false)) (.selector false) =
      some ⟨.selector, 0, some 0, [⟨toPublicGoVariable ['x'], none, .cast (.plain .selector) (.plain (.enum 0))⟩]⟩ := by decide
  rw [this]
  simp only [Option.map_some, codeOk, List.all_cons, List.all_nil, Bool.and_true, setOk, exprTy]
  have : fns.find? (fun p => cname p.1 == CName.plain .selector && cname p.2 == CName.plain (.enum 0)) = none := by
    rw [List.find?_eq_none]
    intro p hp
    have := h p hp
    cases hp1 : p.1 with
    | scalar k r => cases r <;> cases k <;> simp [cname, goTy, slices, goKind]
    | msg k r => cases r <;> simp [cname, goTy, slices]
    | enum k r => cases r <;> simp [cname, goTy, slices]
    | map k v => simp [cname, goTy]
    | null => simp [cname, goTy]
    | selector r => cases r with
      | false => exact absurd hp1 this
      | true => simp [cname, goTy, slices]
  rw [this]

/-- A message or a map is accepted for an enum, and crashes the program that reads the files or the one that generates code. -/
theorem C102_enum_crash_false :
    requestTakes (fun _ _ => false) (fun _ _ => false) (.msg 0 false) (.enum 0 false) = true ∧
    requestDecls [x (.enum 0 false)] [(resolveEntry [x (.enum 0 false)] ⟨['x'], 0, .msg 0 false, none⟩).2] = none ∧
    requestTakes (fun _ _ => false) (fun _ _ => false) (.map .string (.msg 0 false)) (.enum 0 false) = true ∧
    oneField (x (.enum 0 false)) (.map .string (.msg 0 false)) = none := by decide

/-- What is generated for one argument of a message. -/
def oneArg (f : Field) (frm : Ty) : Option Code := argument (some [f]) ⟨f.name, none, none, 0, frm, none, none⟩

/-- An argument of a message that is given different messages, different enums, or a list and a single value is accepted, and
the code does not compile whatever conversions there are. -/
theorem C102_argument_types_false (fns : List (Ty × Ty)) :
    (isDifferent (.msg 0 false) (.msg 1 false) = false ∧ (oneArg (x (.msg 0 false)) (.msg 1 false)).map (codeOk fns [x (.msg 0 false)] []) = some false) ∧
    (isDifferent (.enum 0 false) (.enum 1 false) = false ∧ (oneArg (x (.enum 0 false)) (.enum 1 false)).map (codeOk fns [x (.enum 0 false)] []) = some false) ∧
    (isDifferent (.scalar .string true) (.scalar .string false) = false ∧
      (oneArg (x (.scalar .string true)) (.scalar .string false)).map (codeOk fns [x (.scalar .string true)] []) = some false) :=
  ⟨⟨rfl, rfl⟩, ⟨rfl, rfl⟩, rfl, rfl⟩

/-- A number of another kind is accepted for an argument of a message also if it is a field of an inlined message or if the
message is inside a `map`, but in the first case it is not converted and in the second the conversion is not declared. -/
theorem C102_argument_numbers_false (fns : List (Ty × Ty)) :
    isDifferent (.scalar .int64 false) (.scalar .int32 false) = false ∧
    (argument (some [x (.scalar .int64 false)]) ⟨[], none, none, 0, .msg 0 false, some [x (.scalar .int32 false)], none⟩).map
      (codeOk fns [x (.scalar .int64 false)] [x (.scalar .int32 false)]) = some false ∧
    mapArgDecls [x (.scalar .int64 false)] ⟨['x'], none, none, 0, .scalar .int32 false, none, none⟩ = some [] ∧
    (oneArg (x (.scalar .int64 false)) (.scalar .int32 false)).map (codeOk [] [x (.scalar .int64 false)] []) = some false :=
  ⟨rfl, rfl, rfl, rfl⟩

/-- A message without fields cannot be inlined. -/
theorem C102_inline_empty_false (fns : List (Ty × Ty)) (msgArg : List Field) :
    (argument (some msgArg) ⟨[], none, none, 0, .msg 0 false, some [], none⟩).map (codeOk fns msgArg []) = some false := by
  have : argument (some msgArg) ⟨[], none, none, 0, .msg 0 false, some [], none⟩ =
      some ⟨.ptr 0, 0, none, [⟨toPublicGoVariable [], none, .v⟩]⟩ := rfl
  rw [this]
  have hnil : toPublicGoVariable [] = [] := by decide
  simp only [Option.map_some, codeOk, List.all_cons, List.all_nil, Bool.and_true, setOk, exprTy, hnil]
  cases targetTy msgArg _ <;> simp

/-- `null` for an argument of a message is accepted and compiles, and evaluating it panics. -/
theorem C102_null_argument_false : isDifferent .null .null = false ∧
    (oneArg (x .null) .null).map (codeOk [] [x .null] []) = some true ∧
    ∀ (E : Env V G) (c : Code), oneArg (x .null) .null = some c → E.eval 0 = some .null → ∀ st, runCode E c st = .panic := by
  refine ⟨by decide, by decide, fun E c hc h st => ?_⟩
  have : oneArg (x .null) .null = some ⟨.any, 0, none, [⟨toPublicGoVariable ['x'], none, .v⟩]⟩ := by decide
  rw [this] at hc
  cases hc
  simp [runCode, setCELValue, evalCEL, h]

end Verif.SetArg
