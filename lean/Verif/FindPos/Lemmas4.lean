import Verif.FindPos.Lemmas3

/-! # Lemmas: nothing is found in the parts of a file that do not contain the position -/

namespace Verif.FindPos

open SrcLoc

theorem str_calm {α : Type} {at_ : Id → Bool} {v : Val} {x : α} {r : Option α} (hc : Clear at_ v) (h : str at_ v x = some r) :
    r = none := by
  cases v with
  | str i s =>
    have : at_ i = false := hc.id
    simp [str, this] at h
  | _ => simp [str] at h; exact h.symm

theorem found_none {α : Type} {o : Option α} {r : Option α} (ho : o = none) (h : found o = some r) : r = none := by
  subst ho; simp [found] at h

/-- A search whose steps find nothing finds nothing, even if one of them gives up. -/
theorem join_calm {α β : Type} {l : List α} {g : α → Option (Option β)} (h : ∀ x ∈ l, ∀ r, g x = some r → r = none) :
    (l.findSome? g).join = none := by
  cases hs : l.findSome? g with
  | none => rfl
  | some r =>
    obtain ⟨x, hx, hr⟩ := findSome_some hs
    rw [h x hx r hr]; rfl

theorem some_calm {α β : Type} {l : List α} {g : α → Option (Option β)} (h : ∀ x ∈ l, ∀ r, g x = some r → r = none)
    {r : Option β} (hs : l.findSome? g = some r) : r = none := by
  obtain ⟨x, hx, hr⟩ := findSome_some hs
  exact h x hx r hr

theorem argStep_calm {at_ : Id → Bool} {i : Nat} {e : String × Val} (hc : Clear at_ e.2) {r : Option (Nat × ArgPart)}
    (h : argStep at_ i e = some r) : r = none := by
  unfold argStep at h
  repeat' split at h
  all_goals first | exact str_calm hc h | cases h

theorem requestStep_calm {at_ : Id → Bool} {i : Nat} {e : String × Val} (hc : Clear at_ e.2) {r : Option (Nat × RequestPart)}
    (h : requestStep at_ i e = some r) : r = none := by
  unfold requestStep at h
  repeat' split at h
  all_goals first | exact str_calm hc h | cases h

theorem args_calm {at_ : Id → Bool} {v : Val} (hc : Clear at_ v) : findArgs at_ (messages v) = none :=
  join_calm fun _ hx _ hr => some_calm (fun _ he _ hs => argStep_calm
    ((hc.part (Part.ofMessages (mem_of_zip hx))).part (Part.ofField he)) hs) hr

theorem request_calm {at_ : Id → Bool} {v : Val} (hc : Clear at_ v) : findRequest at_ (messages v) = none := by
  refine join_calm fun x hx r hr => ?_
  have hx' := hc.part (Part.ofMessages (mem_of_zip hx))
  unfold requestLit at hr
  split at hr
  · rename_i r' hs
    simp only [Option.some.injEq] at hr
    subst hr
    exact some_calm (fun e he _ hs => requestStep_calm (hx'.part (Part.ofField he)) hs) hs
  · have : at_ x.1.id = false := hx'.id
    simp [this] at hr

theorem message_calm {at_ : Id → Bool} {m : Lit} (d : Nat) (hc : Clear at_ m.val) : findMessageExpr at_ d m = none := by
  unfold findMessageExpr
  split
  · rename_i r hs
    refine some_calm (fun e he r hs => ?_) hs
    have hce := hc.part (Part.ofField he)
    unfold messageStep at hs
    split at hs
    · exact str_calm hce hs
    · split at hs
      · exact found_none (by rw [args_calm hce]; rfl) hs
      · cases hs
  · have : at_ m.id = false := hc.id
    simp [this]

theorem call_calm {at_ : Id → Bool} {m : Lit} (d : Nat) (hc : Clear at_ m.val) : findCall at_ d m = none := by
  unfold findCall
  split
  · rename_i r hs
    refine some_calm (fun e he r hs => ?_) hs
    have hce := hc.part (Part.ofField he)
    unfold callStep at hs
    split at hs
    · exact str_calm hce hs
    · split at hs
      · exact found_none (by rw [request_calm hce]; rfl) hs
      · cases hs
  · have : at_ m.id = false := hc.id
    simp [this]

theorem lit_calm {α : Type} {at_ : Id → Bool} {v : Val} (hc : Clear at_ v) {k : Lit → Option α}
    (hk : ∀ m, Clear at_ m.val → k m = none) {r : Option α} (h : lit v k = some r) : r = none := by
  unfold lit at h
  split at h
  · rename_i m hm
    exact found_none (hk m (by rw [← lit_val hm]; exact hc)) h
  · simp only [Option.some.injEq] at h; exact h.symm

theorem def_calm {at_ : Id → Bool} {v : Val} (hc : Clear at_ v) : findDef at_ (messages v) = none := by
  unfold findDef
  split
  · rename_i r hs
    refine some_calm (fun x hx r hs => some_calm (fun e he r hs => ?_) hs) hs
    have hce := (hc.part (Part.ofMessages (mem_of_zip hx))).part (Part.ofField he)
    unfold defStep at hs
    repeat' split at hs
    all_goals first
      | exact str_calm hce hs
      | exact lit_calm hce (fun m hm => call_calm _ hm) hs
      | exact lit_calm hce (fun m hm => message_calm _ hm) hs
      | cases hs
  · cases hm : messages v with
    | nil => rfl
    | cons m ms =>
      have : at_ m.id = false := (hc.part (Part.ofMessages (m := m) (by rw [hm]; simp))).id
      simp [this]

theorem messageOption_calm {at_ : Id → Bool} {o : Opt} (hc : Clear at_ o.val) : findMessageOption at_ o = none := by
  unfold findMessageOption
  split
  · rename_i i fs hv
    have hn : fs.findSome? (optionStep at_) = none := by
      rw [List.findSome?_eq_none_iff]
      intro e he
      have hce : Clear at_ e.2 := hc.part (by rw [hv]; exact .field he (.refl _))
      unfold optionStep
      split
      · simp [hce.id]
      · split
        · exact def_calm hce
        · rfl
    have hi : at_ i = false := by have := hc.id; rw [hv] at this; exact this
    rw [hn, hi]
    rfl
  · rename_i i s hv
    have hi : at_ i = false := by have := hc.id; rw [hv] at this; exact this
    simp [hi]
  · simp [hc.id]

theorem fieldOption_calm {at_ : Id → Bool} {o : Opt} (hc : Clear at_ o.val) : findFieldOption at_ o = none := by
  unfold findFieldOption
  split
  · rename_i i s hv
    have hi : at_ i = false := by have := hc.id; rw [hv] at this; exact this
    simp [hi]
  · rename_i i fs hv
    refine join_calm fun e he r hr => ?_
    split at hr
    · exact str_calm (hc.part (by rw [hv]; exact .field he (.refl _))) hr
    · cases hr
  · rfl

theorem enumOption_calm {at_ : Id → Bool} {o : Opt} (hc : Clear at_ o.val) : findEnumOption at_ o = false := by
  unfold findEnumOption
  split
  · rename_i i fs hv
    rw [join_calm]
    · rfl
    · intro e he r hr
      split at hr
      · exact str_calm (hc.part (by rw [hv]; exact .field he (.refl _))) hr
      · cases hr
  · rename_i i s hv
    have hi : at_ i = false := by have := hc.id; rw [hv] at this; exact this
    simp [hi]
  · rfl

theorem valueStep_clear {at_ : Id → Bool} {e : String × Val} (hc : Clear at_ e.2) {r : Option ValueOptPart}
    (h : valueStep at_ e = some r) : r = none := by
  unfold valueStep at h
  split at h
  · split at h
    · rename_i i s hv
      have hi : at_ i = false := by have := hc.id; rw [hv] at this; exact this
      simp [hi] at h
    · rename_i i vs hv
      have : (vs.any fun | .str i _ => at_ i | _ => false) = false := by
        rw [List.any_eq_false]
        intro u hu
        have := hc u (by rw [hv]; exact .elem hu (.refl _))
        cases u <;> simp_all [Val.id]
      rw [if_neg (by rw [Bool.not_eq_true]; exact this)] at h
      cases h
    · cases h
  · split at h
    · exact str_calm hc h
    · cases h

theorem valueOption_calm {at_ : Id → Bool} {o : Opt} (hc : Clear at_ o.val) : findValueOption at_ o = none := by
  unfold findValueOption
  split
  · rename_i i fs hv
    exact join_calm fun e he r hr => valueStep_clear (hc.part (by rw [hv]; exact .field he (.refl _))) hr
  · rename_i i s hv
    have hi : at_ i = false := by have := hc.id; rw [hv] at this; exact this
    simp [hi]
  · rfl

theorem methodOption_calm {at_ : Id → Bool} {o : Opt} (hc : Clear at_ o.val) : findMethodOption at_ o = false := by
  unfold findMethodOption
  split
  · rename_i i s hv
    have hi : at_ i = false := by have := hc.id; rw [hv] at this; exact this
    simp [hi]
  · rename_i i fs hv
    rw [join_calm]
    · rfl
    · intro e he r hr
      split at hr
      · exact str_calm (hc.part (by rw [hv]; exact .field he (.refl _))) hr
      · cases hr
  · rfl

theorem envVar_calm {at_ : Id → Bool} {m : Lit} (hc : Clear at_ m.val) : findEnvVar at_ m = false := by
  unfold findEnvVar
  have h1 : at_ m.id = false := hc.id
  rw [h1, Bool.or_false, List.any_eq_false]
  intro e he
  simp [(hc.part (Part.ofField he)).id]

theorem env_calm {at_ : Id → Bool} {m : Lit} (hc : Clear at_ m.val) : findEnv at_ m = false := by
  unfold findEnv
  split
  · rename_i r hs
    obtain ⟨e, he, hr⟩ := findSome_some hs
    have hce := hc.part (Part.ofField he)
    unfold envStep at hr
    split at hr
    · simp [hce.id] at hr
    · split at hr
      · split at hr
        · rename_i x hx
          simp [envVar_calm (at_ := at_) (m := x) (by rw [← lit_val hx]; exact hce)] at hr
        · simp only [Option.some.injEq] at hr; exact hr.symm
      · cases hr
  · exact hc.id

theorem svcOption_calm {at_ : Id → Bool} {o : Opt} (hc : Clear at_ o.val) : findSvcOption at_ o = false := by
  unfold findSvcOption
  split
  · rename_i i fs hv
    have hi : at_ i = false := by have := hc.id; rw [hv] at this; exact this
    split
    · rename_i r hs
      obtain ⟨e, he, hr⟩ := findSome_some hs
      have hce : Clear at_ e.2 := hc.part (by rw [hv]; exact .field he (.refl _))
      unfold svcOptStep at hr
      split at hr
      · split at hr
        · rename_i x hx
          simp [env_calm (at_ := at_) (m := x) (by rw [← lit_val hx]; exact hce)] at hr
        · simp only [Option.some.injEq] at hr; exact hr.symm
      · cases hr
    · exact hi
  · exact hc.id

/-! ## Declarations -/

/-- The position is not in a part of the file. -/
def Quiet (at_ : Id → Bool) : Root → Prop
  | .val v => Clear at_ v
  | .node i => at_ i = false

theorem opts_quiet {at_ : Id → Bool} {os : List Opt} (h : ∀ r ∈ optRoots os, Quiet at_ r) {o : Opt} (ho : o ∈ os) : Clear at_ o.val :=
  h (.val o.val) (List.mem_map.2 ⟨o, ho, rfl⟩)

theorem field_quiet {at_ : Id → Bool} {g : Field} (h : ∀ r ∈ fieldRoots g, Quiet at_ r) : findField at_ g = none := by
  unfold findField
  have h1 : (g.opts.filter (·.named "grpc.federation.field")).findSome? (findFieldOption at_) = none := by
    rw [List.findSome?_eq_none_iff]
    intro o ho
    exact fieldOption_calm (opts_quiet (fun r hr => h r (by simp [fieldRoots, hr])) (List.mem_filter.1 ho).1)
  have h2 : at_ g.typeId = false := h (.node g.typeId) (by simp [fieldRoots])
  rw [h1]
  simp [h2]

theorem enum_quiet {at_ : Id → Bool} {name : String} : ∀ {ds : List EnumDecl} (_ : ∀ r ∈ enumRoots ⟨0, name, ds⟩, Quiet at_ r)
    (k : Option String), findEnum at_ name k ds = none
  | [], _, k => by rw [findEnum]
  | .opt o :: ds, h, k => by
    rw [findEnum, enumOption_calm (h (.val o.val) (by simp [enumRoots])), Bool.and_false]
    exact enum_quiet (fun r hr => h r (by simp only [enumRoots, List.flatMap_cons] at hr ⊢; simp [hr])) k
  | .value v :: ds, h, k => by
    rw [findEnum]
    have h1 : (v.opts.filter (·.named "grpc.federation.enum_value")).findSome? (findValueOption at_) = none := by
      rw [List.findSome?_eq_none_iff]
      intro o ho
      refine valueOption_calm (opts_quiet (fun r hr => h r ?_) (List.mem_filter.1 ho).1)
      simp only [enumRoots, List.flatMap_cons]
      simp [hr]
    rw [h1]
    exact enum_quiet (fun r hr => h r (by simp only [enumRoots, List.flatMap_cons] at hr ⊢; simp [hr])) _

theorem oneof_quiet {at_ : Id → Bool} {ds : List OneofDecl} (h : ∀ r ∈ oneofRoots ds, Quiet at_ r) : findOneof at_ ds = none := by
  unfold findOneof
  rw [List.findSome?_eq_none_iff]
  intro d hd
  cases d with
  | opt o => rfl
  | field g => exact field_quiet fun r hr => h r (List.mem_flatMap.2 ⟨_, hd, hr⟩)

/-- The field that is set after some declarations. -/
def after (maps : Id → Bool) (k : Option String) : List Decl → Option String
  | [] => k
  | .field g :: ds => after maps (if maps g.id then k else some g.name) ds
  | .oneof _ fs :: ds => after maps (lastOf k fs) ds
  | _ :: ds => after maps k ds

theorem bodyRoots_append (a b : List Decl) : bodyRoots (a ++ b) = bodyRoots a ++ bodyRoots b := by
  induction a with
  | nil => simp [bodyRoots]
  | cons d ds ih => cases d <;> simp [bodyRoots, ih]

theorem body_quiet {at_ maps : Id → Bool} : ∀ (m : Nat) (pre : List Decl), sizeOf pre < m → ∀ (path : String × List String)
    (k : Option String) (ds : List Decl), (∀ r ∈ bodyRoots pre, Quiet at_ r) →
    findBody at_ maps path k (pre ++ ds) = findBody at_ maps path (after maps k pre) ds
  | 0, _, h, _, _, _, _ => absurd h (Nat.not_lt_zero _)
  | _ + 1, [], _, path, k, ds, _ => rfl
  | m + 1, d :: pre, hlt, path, k, ds, h => by
    have hlt' : sizeOf d + sizeOf pre < m := by simp only [List.cons.sizeOf_spec] at hlt; omega
    rw [List.cons_append]
    cases d with
    | opt o =>
      rw [findBody, messageOption_calm (h (.val o.val) (by simp [bodyRoots]))]
      simp only [ite_self, after]
      exact body_quiet m pre (by omega) path k ds fun r hr => h r (by simp [bodyRoots, hr])
    | field g =>
      rw [findBody, field_quiet fun r hr => h r (by simp [bodyRoots, hr])]
      simp only [after]
      split
      · exact body_quiet m pre (by omega) path k ds fun r hr => h r (by simp [bodyRoots, hr])
      · exact body_quiet m pre (by omega) path _ ds fun r hr => h r (by simp [bodyRoots, hr])
    | msg i n b =>
      have hb : ∀ k, findBody at_ maps (path.1, path.2 ++ [n]) k b = none := by
        intro k
        have := body_quiet (at_ := at_) (maps := maps) m b (by simp at hlt'; omega) (path.1, path.2 ++ [n]) k []
          fun r hr => h r (by simp [bodyRoots, hr])
        rw [List.append_nil] at this
        rw [this, findBody]
      rw [findBody, hb]
      simp only [after]
      exact body_quiet m pre (by omega) path k ds fun r hr => h r (by simp [bodyRoots, hr])
    | enum e =>
      rw [findBody, enum_quiet fun r hr => h r (by
        simp only [bodyRoots, List.mem_append]; exact .inl hr)]
      simp only [after]
      exact body_quiet m pre (by omega) path k ds fun r hr => h r (by simp [bodyRoots, hr])
    | oneof n fs =>
      rw [findBody, oneof_quiet fun r hr => h r (by simp [bodyRoots, hr])]
      simp only [after]
      exact body_quiet m pre (by omega) path _ ds fun r hr => h r (by simp [bodyRoots, hr])
    | other =>
      rw [findBody]
      simp only [after]
      exact body_quiet m pre (by omega) path k ds fun r hr => h r (by simp [bodyRoots, hr])

theorem svc_quiet {at_ : Id → Bool} {name : String} : ∀ (pre : List SvcDecl), (∀ r ∈ svcRoots ⟨0, name, pre⟩, Quiet at_ r) →
    ∀ (k : Option String) (ds : List SvcDecl), ∃ k', findSvc at_ name k (pre ++ ds) = findSvc at_ name k' ds
  | [], _, k, ds => ⟨k, rfl⟩
  | .opt o :: pre, h, k, ds => by
    obtain ⟨k', hk'⟩ := svc_quiet (at_ := at_) (name := name) pre
      (fun r hr => h r (by simp only [svcRoots, List.flatMap_cons] at hr ⊢; simp [hr])) k ds
    refine ⟨k', ?_⟩
    rw [List.cons_append, findSvc, svcOption_calm (h (.val o.val) (by simp [svcRoots])), Bool.and_false]
    exact hk'
  | .rpc r :: pre, h, k, ds => by
    obtain ⟨k', hk'⟩ := svc_quiet (at_ := at_) (name := name) pre
      (fun r hr => h r (by simp only [svcRoots, List.flatMap_cons] at hr ⊢; simp [hr])) (some r.name) ds
    refine ⟨k', ?_⟩
    rw [List.cons_append, findSvc]
    have h1 : (r.opts.filter (·.named "grpc.federation.method")).any (findMethodOption at_) = false := by
      rw [List.any_eq_false]
      intro o ho
      rw [methodOption_calm (opts_quiet (fun x hx => h x ?_) (List.mem_filter.1 ho).1)]
      · simp
      · simp only [svcRoots, List.flatMap_cons]
        simp [hx]
    rw [h1]
    exact hk'

theorem top_quiet {at_ maps : Id → Bool} {t : Top} (h : ∀ r ∈ topRoots t, Quiet at_ r) : findTop at_ maps t = none := by
  cases t with
  | «import» i n =>
    have : at_ i = false := h (.node i) (by simp [topRoots])
    simp [findTop, this]
  | msg i n b =>
    have := body_quiet (at_ := at_) (maps := maps) _ b (Nat.lt_succ_self _) (n, []) none [] h
    rw [List.append_nil] at this
    rw [findTop, this, findBody]
  | svc s =>
    obtain ⟨k', hk'⟩ := svc_quiet (at_ := at_) (name := s.name) s.decls h none []
    rw [List.append_nil] at hk'
    rw [findTop, hk', findSvc]
    rfl
  | opt o => rfl
  | enum e => rfl
  | other => rfl

end Verif.FindPos
