import Verif.FindPos.Lemmas

/-! # Lemmas: enums, services and messages -/

namespace Verif.FindPos

open SrcLoc

theorem find_nodup {α : Type} (name : α → String) {l : List α} (h : (l.map name).Nodup) {x : α} (hx : x ∈ l) :
    (l.find? fun y => name y = name x) = some x := by
  induction l with
  | nil => cases hx
  | cons a l ih =>
    rw [List.map_cons, List.nodup_cons] at h
    rw [List.find?_cons]
    rcases List.mem_cons.1 hx with rfl | hx
    · simp
    · have : name a ≠ name x := fun heq => h.1 (heq ▸ List.mem_map.2 ⟨x, hx, rfl⟩)
      simp only [this, decide_false]
      exact ih h.2 hx

/-! ## Enums -/

theorem enumInfo_alias (e : Enum) (x : String) {o : Opt} (ho : e.opts.filter (·.named "grpc.federation.enum") = [o]) :
    enumInfo e { name := x, alias := some true } = enumOption o true := by
  have key : ∀ ds : List EnumDecl,
      ((ds.filterMap fun | EnumDecl.opt o => some o | .value _ => none).filter (·.named "grpc.federation.enum")) = [o] →
      ds.findSome? (enumStep { name := x, alias := some true }) = some (enumOption o true) := by
    intro ds
    induction ds with
    | nil => intro h; simp at h
    | cons d ds ih =>
      intro h
      rw [List.findSome?_cons]
      cases d with
      | value v => exact ih h
      | opt q =>
        simp only [List.filterMap_cons] at h
        by_cases hq : q.named "grpc.federation.enum" = true
        · rw [List.filter_cons, if_pos hq] at h
          simp only [List.cons.injEq] at h
          rw [← h.1]
          simp [enumStep, hq]
        · rw [List.filter_cons, if_neg hq] at h
          have : enumStep { name := x, alias := some true } (.opt q) = none := by simp [enumStep, hq]
          rw [this]
          exact ih h
  unfold enumInfo
  rw [key e.decls ho]
  rfl

theorem enumOption_sound {at_ : Id → Bool} {o : Opt} (hv : Once o.val) (h : findEnumOption at_ o = true) :
    ∃ id, enumOption o true = some id ∧ at_ id = true := by
  unfold findEnumOption at h
  unfold enumOption
  cases hval : o.val with
  | msg i fs =>
    rw [hval] at h
    simp only at h
    rw [Option.isSome_iff_exists] at h
    obtain ⟨u, h⟩ := h
    rw [Option.join_eq_some_iff] at h
    obtain ⟨e, he, hs⟩ := findSome_some h
    split at hs
    · rename_i hn
      obtain ⟨_, _, hat⟩ := str_found hs
      refine ⟨e.2.id, ?_, hat⟩
      have := find_once (hv i fs (hval ▸ .refl _)) he hn
      simp only [Bool.true_and]
      rw [this]
    · cases hs
  | str i s =>
    rw [hval] at h
    simp only [Bool.and_eq_true] at h
    exact ⟨i, by simp [h.1], h.2⟩
  | _ => rw [hval] at h; cases h

theorem valueOption_sound {at_ : Id → Bool} {o : Opt} (hv : Once o.val) (hl : ValAt at_ o.val) {p : ValueOptPart}
    (h : findValueOption at_ o = some p) : ∃ id, valueOption o p = some id ∧ at_ id = true := by
  unfold findValueOption at h
  unfold valueOption
  cases hval : o.val with
  | msg i fs =>
    rw [hval] at h hl
    simp only at h
    rw [Option.join_eq_some_iff] at h
    obtain ⟨e, he, hs⟩ := findSome_some h
    have hnod := hv i fs (hval ▸ .refl _)
    have hpe : Part (.msg i fs) e.2 := .field he (.refl _)
    unfold valueStep at hs
    split at hs
    · rename_i hn
      have key : p = .alias ∧ at_ e.2.id = true := by
        cases hev : e.2 with
        | str j s =>
          rw [hev] at hs
          simp only at hs
          split at hs
          · rename_i hat; simp at hs; exact ⟨hs.symm, hat⟩
          · cases hs
        | arr j vs =>
          rw [hev] at hs hpe
          simp only at hs
          split at hs
          · rename_i hat
            simp only [Option.some.injEq] at hs
            rw [List.any_eq_true] at hat
            obtain ⟨u, hu, hat⟩ := hat
            cases u with
            | str k s => exact ⟨hs.symm, hl _ _ hpe (.elem hu (.refl (.str k s))) hat⟩
            | _ => cases hat
          · cases hs
        | _ => rw [hev] at hs; cases hs
      obtain ⟨rfl, hat⟩ := key
      refine ⟨e.2.id, ?_, hat⟩
      simp only [find_once hnod he hn]
    split at hs
    · rename_i hn
      obtain ⟨rfl, _, hat⟩ := str_found hs
      refine ⟨e.2.id, ?_, hat⟩
      simp only [find_once hnod he hn]
    · cases hs
  | str i s =>
    rw [hval] at h
    simp only [Bool.and_eq_true] at h
    split at h
    · rename_i hc
      simp only [Option.some.injEq] at h
      subst h
      exact ⟨i, by simp [hc.1], hc.2⟩
    split at h
    · rename_i hc
      simp only [Option.some.injEq] at h
      subst h
      exact ⟨i, by simp [hc.1], hc.2⟩
    · cases h
  | _ => rw [hval] at h; cases h

theorem enum_sound {at_ : Id → Bool} {e : Enum} (he : TidyEnum e) (hl : ∀ v ∈ e.values, ∀ o ∈ v.opts, ValAt at_ o.val)
    {l : EnumLoc} (h : findEnum at_ e.name none e.decls = some l) :
    l.name = e.name ∧ ∃ id, enumInfo e l = some id ∧ at_ id = true := by
  have key : ∀ (ds pre : List EnumDecl) (k : Option String), e.decls = pre ++ ds →
      (k ≠ none → ∃ v, EnumDecl.value v ∈ pre) → findEnum at_ e.name k ds = some l →
      l.name = e.name ∧ ∃ id, enumInfo e l = some id ∧ at_ id = true := by
    intro ds
    induction ds with
    | nil => intro pre k _ _ h; cases h
    | cons d ds ih =>
      intro pre k hd hk h
      cases d with
      | opt o =>
        rw [findEnum] at h
        have hk0 : k = none := by
          cases k with
          | none => rfl
          | some n => obtain ⟨v, hv⟩ := hk (by simp); exact absurd hv (he.first pre o ds hd v)
        subst hk0
        split at h
        · rename_i hc
          rw [Bool.and_eq_true] at hc
          simp only [Option.map_none, Option.some.injEq] at h
          subst h
          have hmem : o ∈ e.opts := by
            unfold Enum.opts
            rw [hd, List.mem_filterMap]
            exact ⟨.opt o, by simp, rfl⟩
          refine ⟨rfl, ?_⟩
          rw [enumInfo_alias e e.name (one_option he.option hmem hc.1)]
          exact enumOption_sound (he.option.2 o hmem) hc.2
        · refine ih (pre ++ [.opt o]) none (by rw [hd]; simp) (fun hh => absurd rfl hh) h
      | value v =>
        rw [findEnum] at h
        have hmem : v ∈ e.values := by
          unfold Enum.values
          rw [hd, List.mem_filterMap]
          exact ⟨.value v, by simp, rfl⟩
        cases hf : (v.opts.filter (·.named "grpc.federation.enum_value")).findSome? (findValueOption at_) with
        | none =>
          rw [hf] at h
          exact ih (pre ++ [.value v]) (some v.name) (by rw [hd]; simp) (fun _ => ⟨v, by simp⟩) h
        | some p =>
          rw [hf] at h
          simp only [Option.some.injEq] at h
          subst h
          refine ⟨rfl, ?_⟩
          rw [enumInfo_value e e.name _ v (find_nodup EnumVal.name he.values hmem)]
          obtain ⟨o, ho, hs⟩ := findSome_some hf
          rw [List.mem_filter] at ho
          have hoo := he.valueOptions v hmem
          simp only [valueInfo, find_option hoo ho.1 ho.2]
          exact valueOption_sound (hoo.2 o ho.1) (hl v hmem o ho.1) hs
  exact key e.decls [] none rfl (fun hh => absurd rfl hh) h

/-! ## Services -/

theorem env_at {at_ : Id → Bool} {m : Lit} (hm : ValAt at_ m.val) (h : findEnv at_ m = true) : at_ m.id = true := by
  unfold findEnv at h
  cases hl : m.fields.findSome? (envStep at_) with
  | none => rw [hl] at h; exact h
  | some r =>
    rw [hl] at h
    simp only at h
    subst h
    obtain ⟨e, he, hs⟩ := findSome_some hl
    have hpe : Part m.val e.2 := .ofField he
    unfold envStep at hs
    split at hs
    · split at hs
      · rename_i hat; exact hm _ _ (.refl _) hpe hat
      · cases hs
    split at hs
    · cases hx : e.2.lit? with
      | none => rw [hx] at hs; cases hs
      | some x =>
        rw [hx] at hs
        simp only at hs
        have hpx : Part m.val x.val := hpe.trans (.ofLit hx)
        split at hs
        · rename_i hat
          unfold findEnvVar at hat
          rw [Bool.or_eq_true, List.any_eq_true] at hat
          rcases hat with ⟨a, ha, hat⟩ | hat
          · rw [Bool.and_eq_true] at hat
            exact hm _ _ (.refl _) (hpx.trans (.ofField ha)) hat.2
          · exact hm _ _ (.refl _) hpx hat
        · cases hs
    · cases hs

theorem svcOption_at {at_ : Id → Bool} {o : Opt} (hm : ValAt at_ o.val) (h : findSvcOption at_ o = true) :
    at_ o.val.id = true := by
  unfold findSvcOption at h
  cases hval : o.val with
  | msg i fs =>
    rw [hval] at h hm
    simp only at h
    cases hl : fs.findSome? (svcOptStep at_) with
    | none => rw [hl] at h; exact h
    | some r =>
      rw [hl] at h
      simp only at h
      subst h
      obtain ⟨e, he, hs⟩ := findSome_some hl
      have hpe : Part (.msg i fs) e.2 := .field he (.refl _)
      unfold svcOptStep at hs
      split at hs
      · cases hx : e.2.lit? with
        | none => rw [hx] at hs; cases hs
        | some x =>
          rw [hx] at hs
          simp only at hs
          have hpx : Part (.msg i fs) x.val := hpe.trans (.ofLit hx)
          split at hs
          · rename_i hat; exact hm _ _ (.refl _) hpx (env_at (fun a b ha hb => hm a b (hpx.trans ha) hb) hat)
          · cases hs
      · cases hs
  | _ => rw [hval] at h; exact h

theorem methodOption_sound {at_ : Id → Bool} {o : Opt} (hv : Once o.val) (h : findMethodOption at_ o = true) :
    ∃ id, methodOption o .timeout = some id ∧ at_ id = true := by
  unfold findMethodOption at h
  unfold methodOption
  cases hval : o.val with
  | msg i fs =>
    rw [hval] at h
    simp only at h
    rw [Option.isSome_iff_exists] at h
    obtain ⟨u, h⟩ := h
    rw [Option.join_eq_some_iff] at h
    obtain ⟨e, he, hs⟩ := findSome_some h
    split at hs
    · rename_i hn
      obtain ⟨_, hid, hat⟩ := str_found hs
      refine ⟨e.2.id, ?_, hat⟩
      simp only [find_once (hv i fs (hval ▸ .refl _)) he hn]
      exact hid
    · cases hs
  | str i s =>
    rw [hval] at h
    simp only [Bool.and_eq_true] at h
    exact ⟨i, by simp [h.1], h.2⟩
  | _ => rw [hval] at h; cases h

theorem svcInfo_none (s : Service) (x : String) : svcInfo s { name := x } = some s.id := by
  have : ∀ ds : List SvcDecl, ds.findSome? (svcStep { name := x }) = none := by
    intro ds
    induction ds with
    | nil => rfl
    | cons d ds ih => rw [List.findSome?_cons]; cases d <;> exact ih
  rw [svcInfo, this]
  rfl

theorem svc_sound {at_ : Id → Bool} {s : Service} (hs : TidySvc s)
    (hl : ∀ o ∈ s.opts, (at_ o.val.id = true → at_ s.id = true) ∧ ValAt at_ o.val) {l : SvcLoc}
    (h : findSvc at_ s.name none s.decls = some l) : l.name = s.name ∧ ∃ id, svcInfo s l = some id ∧ at_ id = true := by
  have key : ∀ (ds pre : List SvcDecl) (k : Option String), s.decls = pre ++ ds →
      (k ≠ none → ∃ r, SvcDecl.rpc r ∈ pre) → findSvc at_ s.name k ds = some l →
      l.name = s.name ∧ ∃ id, svcInfo s l = some id ∧ at_ id = true := by
    intro ds
    induction ds with
    | nil => intro pre k _ _ h; cases h
    | cons d ds ih =>
      intro pre k hd hk h
      cases d with
      | opt o =>
        rw [findSvc] at h
        have hk0 : k = none := by
          cases k with
          | none => rfl
          | some n => obtain ⟨v, hv⟩ := hk (by simp); exact absurd hv (hs.first pre o ds hd v)
        subst hk0
        split at h
        · rename_i hc
          rw [Bool.and_eq_true] at hc
          simp only [Option.map_none, Option.some.injEq] at h
          subst h
          have hmem : o ∈ s.opts := by
            unfold Service.opts
            rw [hd, List.mem_filterMap]
            exact ⟨.opt o, by simp, rfl⟩
          exact ⟨rfl, s.id, svcInfo_none s _, (hl o hmem).1 (svcOption_at (hl o hmem).2 hc.2)⟩
        · exact ih (pre ++ [.opt o]) none (by rw [hd]; simp) (fun hh => absurd rfl hh) h
      | rpc r =>
        rw [findSvc] at h
        have hmem : r ∈ s.rpcs := by
          unfold Service.rpcs
          rw [hd, List.mem_filterMap]
          exact ⟨.rpc r, by simp, rfl⟩
        split at h
        · rename_i hc
          simp only [Option.some.injEq] at h
          subst h
          rw [List.any_eq_true] at hc
          obtain ⟨o, ho, hat⟩ := hc
          rw [List.mem_filter] at ho
          refine ⟨rfl, ?_⟩
          rw [svcInfo_method s s.name _ r (find_nodup Rpc.name hs.rpcs hmem)]
          have hoo := hs.methodOptions r hmem
          simp only [methodInfo, find_option hoo ho.1 ho.2]
          exact methodOption_sound (hoo.2 o ho.1) hat
        · exact ih (pre ++ [.rpc r]) (some r.name) (by rw [hd]; simp) (fun _ => ⟨r, by simp⟩) h
  exact key s.decls [] none rfl (fun hh => absurd rfl hh) h

/-! ## Messages -/

theorem body_none (body : List Decl) (i : Id) : (body.findSome? (msgStep {} none)).getD (some i) = some i := by
  have : ∀ ds : List Decl, ds.findSome? (msgStep {} none) = none := by
    intro ds
    induction ds with
    | nil => rfl
    | cons d ds ih =>
      rw [List.findSome?_cons]
      cases d with
      | oneof n fs =>
        have : ∀ fs : List OneofDecl, fs.findSome? (oneofStep {}) = none := by
          intro fs
          induction fs with
          | nil => rfl
          | cons d fs ih => rw [List.findSome?_cons]; cases d <;> exact ih
        have h0 : msgStep {} none (.oneof n fs) = none := by
          rw [msgStep, oneofInfo, this]
          rfl
        rw [h0]
        exact ih
      | _ => exact ih
  rw [this]
  rfl

theorem innerMsg_append (m : Id × List Decl) (ns : List String) (n : String) {i : Id} {body : List Decl}
    (h : innerMsg m ns = some (i, body)) : innerMsg m (ns ++ [n]) = nestedMsg body n := by
  induction ns generalizing m with
  | nil =>
    simp only [innerMsg, Option.some.injEq] at h
    subst h
    simp only [List.nil_append, innerMsg]
    cases nestedMsg body n <;> rfl
  | cons a ns ih =>
    simp only [List.cons_append, innerMsg] at h ⊢
    cases hn : nestedMsg m.2 a with
    | none => rw [hn] at h; cases h
    | some x => rw [hn] at h; exact ih x h

theorem message_append {f : List Top} {n : String} {ns : List String} {i : Id} {body : List Decl}
    (h : message f n ns = some (i, body)) (x : String) : message f n (ns ++ [x]) = nestedMsg body x := by
  unfold message at h ⊢
  split at h
  · rename_i m hm
    first | exact innerMsg_append m ns x h | (rw [hm]; exact innerMsg_append m ns x h)
  · cases h

theorem nestedMsg_mem {body : List Decl} (h : (msgNames body).Nodup) {i : Id} {n : String} {b : List Decl}
    (hm : Decl.msg i n b ∈ body) : nestedMsg body n = some (i, b) := by
  unfold nestedMsg
  unfold msgNames at h
  induction body with
  | nil => cases hm
  | cons d ds ih =>
    rw [List.findSome?_cons]
    rcases List.mem_cons.1 hm with rfl | hm'
    · simp
    · have hmem : n ∈ ds.filterMap fun | Decl.msg _ n _ => some n | _ => none := List.mem_filterMap.2 ⟨_, hm', rfl⟩
      cases d with
      | msg j m c =>
        simp only [List.filterMap_cons, List.nodup_cons] at h
        have : m ≠ n := fun heq => h.1 (heq ▸ hmem)
        simp only [if_neg this]
        exact ih h.2 hm'
      | _ => exact ih h hm'

theorem nestedEnum_mem {body : List Decl} (h : (enumNames body).Nodup) {e : Enum} (hm : Decl.enum e ∈ body) :
    nestedEnum body e.name = some e := by
  have hh : ((body.filterMap fun d => match d with | .enum e => some e | _ => none).map Enum.name) = enumNames body := by
    rw [List.map_filterMap]
    unfold enumNames
    congr 1
    funext d
    cases d <;> rfl
  exact find_nodup Enum.name (l := body.filterMap fun d => match d with | .enum e => some e | _ => none) (by rw [hh]; exact h)
    (List.mem_filterMap.2 ⟨_, hm, rfl⟩)

theorem fields_append (a b : List Decl) : fields (a ++ b) = fields a ++ fields b := by simp [fields]

theorem lastOf_none {k : Option String} {ds : List OneofDecl} (h : lastOf k ds ≠ none) :
    k ≠ none ∨ (ds.filterMap fun | .field f => some f | .opt _ => none) ≠ [] := by
  unfold lastOf at h
  induction ds generalizing k with
  | nil => exact .inl h
  | cons d ds ih =>
    rw [List.foldl_cons] at h
    cases d with
    | opt o => exact ih h
    | field f => exact .inr (by simp)

end Verif.FindPos
