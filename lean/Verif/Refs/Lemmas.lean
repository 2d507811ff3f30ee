import Verif.Refs.Spec

/-! # Helper lemmas for `Verif.Refs.Props` -/

namespace Verif.Refs

theorem mem_referenceMaps {c : Cel} {args : List Cel} (h : c ∈ args) {n : String}
    (hn : n ∈ c.referenceMap) : n ∈ Cel.referenceMaps args := by
  induction args with
  | nil => cases h
  | cons a as ih =>
    simp only [Cel.referenceMaps, List.mem_append]
    rcases List.mem_cons.mp h with rfl | h
    · exact Or.inl hn
    · exact Or.inr (ih h)

theorem reads_referenceMap {c : Cel} {n : String} (h : c.reads n) : n ∈ c.referenceMap := by
  induction h with
  | ident n => simp [Cel.referenceMap]
  | app hc _ ih => simp only [Cel.referenceMap]; exact List.mem_cons_of_mem _ (mem_referenceMaps hc ih)
  | range _ ih => simp [Cel.referenceMap, ih]
  | init _ ih => simp [Cel.referenceMap, ih]
  | cond _ _ _ ih => simp [Cel.referenceMap, ih]
  | step _ _ _ ih => simp [Cel.referenceMap, ih]
  | result _ _ ih => simp [Cel.referenceMap, ih]

theorem reads_refs {c : Cel} {n : String} (h : c.reads n) (h0 : n ≠ "") (ha : n ≠ argName) :
    n ∈ c.refs := by
  simp [Cel.refs, reads_referenceMap h, h0, ha]

theorem mem_refsList {c : Cel} {cs : List Cel} (h : c ∈ cs) {n : String} (hn : n ∈ c.refs) :
    n ∈ refsList cs := by
  induction cs with
  | nil => cases h
  | cons a as ih =>
    simp only [refsList, List.mem_append]
    rcases List.mem_cons.mp h with rfl | h
    · exact Or.inl hn
    · exact Or.inr (ih h)

theorem mem_argRefs {a : Arg} {as : List Arg} (h : a ∈ as) {n : String} (hn : n ∈ a.value.refs) :
    n ∈ argRefs as := by
  induction as with
  | nil => cases h
  | cons b bs ih =>
    simp only [argRefs, List.mem_append]
    rcases List.mem_cons.mp h with rfl | h
    · exact Or.inl hn
    · exact Or.inr (ih h)

theorem mem_defRefsL {d : VarDef} {ds : List VarDef} (h : d ∈ ds) {n : String} (hn : n ∈ d.refs) :
    n ∈ VarDef.refsL ds := by
  induction ds with
  | nil => cases h
  | cons b bs ih =>
    simp only [VarDef.refsL, List.mem_append]
    rcases List.mem_cons.mp h with rfl | h
    · exact Or.inl hn
    · exact Or.inr (ih h)

theorem mem_errRefsL {d : GErr} {ds : List GErr} (h : d ∈ ds) {n : String} (hn : n ∈ d.refs) :
    n ∈ GErr.refsL ds := by
  induction ds with
  | nil => cases h
  | cons b bs ih =>
    simp only [GErr.refsL, List.mem_append]
    rcases List.mem_cons.mp h with rfl | h
    · exact Or.inl hn
    · exact Or.inr (ih h)

theorem mem_detailRefsL {d : Detail} {ds : List Detail} (h : d ∈ ds) {n : String} (hn : n ∈ d.refs) :
    n ∈ Detail.refsL ds := by
  induction ds with
  | nil => cases h
  | cons b bs ih =>
    simp only [Detail.refsL, List.mem_append]
    rcases List.mem_cons.mp h with rfl | h
    · exact Or.inl hn
    · exact Or.inr (ih h)

theorem defPlain_of {ds : List VarDef} (h : VarDef.plainL ds = true) {d} (hd : d ∈ ds) :
    d.plain = true := by
  induction ds with
  | nil => cases hd
  | cons b bs ih =>
    simp only [VarDef.plainL, Bool.and_eq_true] at h
    rcases List.mem_cons.mp hd with rfl | hd
    · exact h.1
    · exact ih h.2 hd

theorem errPlain_of {ds : List GErr} (h : GErr.plainL ds = true) {d} (hd : d ∈ ds) :
    d.plain = true := by
  induction ds with
  | nil => cases hd
  | cons b bs ih =>
    simp only [GErr.plainL, Bool.and_eq_true] at h
    rcases List.mem_cons.mp hd with rfl | hd
    · exact h.1
    · exact ih h.2 hd

theorem detailPlain_of {ds : List Detail} (h : Detail.plainL ds = true) {d} (hd : d ∈ ds) :
    d.plain = true := by
  induction ds with
  | nil => cases hd
  | cons b bs ih =>
    simp only [Detail.plainL, Bool.and_eq_true] at h
    rcases List.mem_cons.mp hd with rfl | hd
    · exact h.1
    · exact ih h.2 hd

mutual
theorem def_complete {d : VarDef} {n : String} (h : d.reads n) (hp : d.plain = true) (h0 : n ≠ "")
    (ha : n ≠ argName) : n ∈ d.refs := by
  cases h with
  | cond hc => simp [VarDef.refs, refsOpt, reads_refs hc h0 ha]
  | expr he =>
    simp only [VarDef.refs, List.mem_append]
    exact Or.inr (expr_complete he hp h0 ha)
theorem expr_complete {e : Expr} {n : String} (h : e.reads n) (hp : e.plain = true) (h0 : n ≠ "")
    (ha : n ≠ argName) : n ∈ e.refs := by
  cases h with
  | «by» hc => simp only [Expr.refs]; exact reads_refs hc h0 ha
  | source => simp [Expr.refs, h0]
  | @body i s e c _ hs hc hi =>
    simp only [Expr.refs, List.mem_append]
    refine Or.inr ?_
    cases e with
    | «by» c' =>
      simp only [IterExpr.sites, List.mem_singleton] at hs
      subst hs; exact reads_refs hc h0 ha
    | message args => exact mem_refsList hs (reads_refs hc h0 ha)
    | enum c' => simp [Expr.plain] at hp
  | arg hm hc =>
    simp only [Expr.refs, List.mem_append]
    exact Or.inl (mem_argRefs hm (reads_refs hc h0 ha))
  | argIf hm hi hc =>
    simp only [Expr.plain, Bool.and_eq_true, List.all_eq_true] at hp
    have := hp.1.1 _ hm
    rw [hi] at this; cases this
  | retryIf hc => simp [Expr.plain] at hp
  | error hm he =>
    simp only [Expr.plain, Bool.and_eq_true] at hp
    simp only [Expr.refs, List.mem_append]
    exact Or.inr (mem_errRefsL hm (err_complete he (errPlain_of hp.2 hm) h0 ha))
  | message hm hc => simp only [Expr.refs]; exact mem_refsList hm (reads_refs hc h0 ha)
  | enum hc => simp only [Expr.refs]; exact reads_refs hc h0 ha
  | validation he => simp only [Expr.refs]; exact err_complete he (by simpa [Expr.plain] using hp) h0 ha
theorem err_complete {e : GErr} {n : String} (h : e.reads n) (hp : e.plain = true) (h0 : n ≠ "")
    (ha : n ≠ argName) : n ∈ e.refs := by
  cases h with
  | cond hc => simp [GErr.refs, refsOpt, reads_refs hc h0 ha]
  | defs hm hd =>
    simp only [GErr.plain, Bool.and_eq_true] at hp
    simp only [GErr.refs, List.mem_append]
    exact Or.inl (Or.inr (mem_defRefsL hm (def_complete hd (defPlain_of hp.1.2 hm) h0 ha)))
  | message hc => simp [GErr.plain] at hp
  | ignoreResp hc => simp [GErr.plain] at hp
  | details hm hd =>
    simp only [GErr.plain, Bool.and_eq_true] at hp
    simp only [GErr.refs, List.mem_append]
    exact Or.inr (mem_detailRefsL hm (detail_complete hd (detailPlain_of hp.2 hm) h0 ha))
theorem detail_complete {e : Detail} {n : String} (h : e.reads n) (hp : e.plain = true) (h0 : n ≠ "")
    (ha : n ≠ argName) : n ∈ e.refs := by
  cases h with
  | cond hc => simp [Detail.refs, refsOpt, reads_refs hc h0 ha]
  | defs hm hd =>
    simp only [Detail.plain, Bool.and_eq_true] at hp
    have := mem_defRefsL hm (def_complete hd (defPlain_of hp.1 hm) h0 ha)
    simp [Detail.refs, this]
  | messages hm hd =>
    simp only [Detail.plain, Bool.and_eq_true] at hp
    have := mem_defRefsL hm (def_complete hd (defPlain_of hp.2 hm) h0 ha)
    simp [Detail.refs, this]
  | bys hm hc => simp [Detail.refs, mem_refsList hm (reads_refs hc h0 ha)]
  | @precond _ _ _ _ ps _ _ vs v x _ hm hv hx hc =>
    have : n ∈ precondRefs ps := by
      simp only [precondRefs, List.mem_flatMap]
      refine ⟨vs, hm, v, hv, ?_⟩
      have hr := reads_refs hc h0 ha
      simp only [List.mem_cons, List.not_mem_nil, or_false] at hx
      rcases hx with rfl | rfl | rfl <;> simp [hr]
    simp [Detail.refs, this]
  | @badReq _ _ _ _ _ qs _ vs v x _ hm hv hx hc =>
    have : n ∈ badReqRefs qs := by
      simp only [badReqRefs, List.mem_flatMap]
      refine ⟨vs, hm, v, hv, ?_⟩
      have hr := reads_refs hc h0 ha
      simp only [List.mem_cons, List.not_mem_nil, or_false] at hx
      rcases hx with rfl | rfl <;> simp [hr]
    simp [Detail.refs, this]
  | localized hm hc => simp [Detail.refs, mem_refsList hm (reads_refs hc h0 ha)]
end

/-! ## What is recorded is read or bound -/

mutual
theorem map_sound : (c : Cel) → (n : String) → n ∈ c.referenceMap → n ≠ "" → c.reads n ∨ c.binds n
  | .lit, _, h, _ => by cases h
  | .ident m, n, h, _ => by
    simp only [Cel.referenceMap, List.mem_singleton] at h
    subst h
    exact .inl (.ident _)
  | .app args, n, h, h0 => by
    simp only [Cel.referenceMap, List.mem_cons] at h
    obtain ⟨c, hc, h⟩ := maps_sound args n (h.resolve_left h0) h0
    exact h.elim (fun h => .inl (.app hc h)) (fun h => .inr (.app hc h))
  | .comp i a r x c s e, n, h, h0 => by
    by_cases hi : n = i
    · subst hi; exact .inr .iter
    by_cases ha : n = a
    · subst ha; exact .inr .acc
    simp only [Cel.referenceMap, List.mem_append] at h
    rcases h with (((h | h) | h) | h) | h
    · exact (map_sound r n h h0).elim (fun h => .inl (.range h)) (fun h => .inr (.sub (d := r) (by simp) h))
    · exact (map_sound x n h h0).elim (fun h => .inl (.init h)) (fun h => .inr (.sub (d := x) (by simp) h))
    · exact (map_sound c n h h0).elim (fun h => .inl (.cond h hi ha)) (fun h => .inr (.sub (d := c) (by simp) h))
    · exact (map_sound s n h h0).elim (fun h => .inl (.step h hi ha)) (fun h => .inr (.sub (d := s) (by simp) h))
    · exact (map_sound e n h h0).elim (fun h => .inl (.result h ha)) (fun h => .inr (.sub (d := e) (by simp) h))
theorem maps_sound : (cs : List Cel) → (n : String) → n ∈ Cel.referenceMaps cs → n ≠ "" → ∃ c ∈ cs, c.reads n ∨ c.binds n
  | [], _, h, _ => by cases h
  | c :: cs, n, h, h0 => by
    simp only [Cel.referenceMaps, List.mem_append] at h
    rcases h with h | h
    · exact ⟨c, by simp, map_sound c n h h0⟩
    · obtain ⟨d, hd, h⟩ := maps_sound cs n h h0
      exact ⟨d, by simp [hd], h⟩
end

theorem refs_sound {c : Cel} {n : String} (h : n ∈ c.refs) : c.reads n ∨ c.binds n := by
  simp only [Cel.refs, List.mem_filter, Bool.and_eq_true, decide_eq_true_eq] at h
  exact map_sound c n h.1 h.2.2

theorem refsList_sound {cs : List Cel} {n : String} (h : n ∈ refsList cs) : ∃ c ∈ cs, c.reads n ∨ c.binds n := by
  induction cs with
  | nil => cases h
  | cons c cs ih =>
    simp only [refsList, List.mem_append] at h
    rcases h with h | h
    · exact ⟨c, by simp, refs_sound h⟩
    · obtain ⟨d, hd, h⟩ := ih h
      exact ⟨d, by simp [hd], h⟩

theorem refsOpt_sound {o : Option Cel} {n : String} (h : n ∈ refsOpt o) : ∃ c, o = some c ∧ (c.reads n ∨ c.binds n) := by
  cases o with
  | none => cases h
  | some c => exact ⟨c, rfl, refs_sound h⟩

theorem argRefs_sound {as : List Arg} {n : String} (h : n ∈ argRefs as) : ∃ a ∈ as, a.value.reads n ∨ a.value.binds n := by
  induction as with
  | nil => cases h
  | cons c cs ih =>
    simp only [argRefs, List.mem_append] at h
    rcases h with h | h
    · exact ⟨c, by simp, refs_sound h⟩
    · obtain ⟨d, hd, h⟩ := ih h
      exact ⟨d, by simp [hd], h⟩

mutual
theorem def_sound : (d : VarDef) → (n : String) → n ∈ d.refs → d.reads n ∨ d.binds n
  | .mk name c e, n, h => by
    simp only [VarDef.refs, List.mem_append] at h
    rcases h with h | h
    · obtain ⟨c', rfl, h'⟩ := refsOpt_sound h
      exact h'.elim (fun h => .inl (.cond h)) (fun h => .inr (.cond h))
    · exact (expr_sound e n h).elim (fun h => .inl (.expr h)) (fun h => .inr (.expr h))
theorem expr_sound : (e : Expr) → (n : String) → n ∈ e.refs → e.reads n ∨ e.binds n
  | .by c, n, h => by
    simp only [Expr.refs] at h
    exact (refs_sound h).elim (fun h => .inl (.by h)) (fun h => .inr (.by h))
  | .map i s e, n, h => by
    by_cases hi : n = i
    · subst hi; exact .inr .iter
    simp only [Expr.refs, List.mem_append] at h
    rcases h with (h | h) | h
    · split at h
      · cases h
      · exact absurd (List.mem_singleton.1 h) hi
    · split at h
      · cases h
      · rw [List.mem_singleton.1 h]; exact .inl .source
    · cases e with
      | «by» c =>
        exact (refs_sound h).elim (fun h => .inl (.body (List.mem_singleton.2 rfl) h hi))
          (fun h => .inr (.body (List.mem_singleton.2 rfl) h))
      | message args =>
        obtain ⟨c, hc, h⟩ := refsList_sound h
        exact h.elim (fun h => .inl (.body hc h hi)) (fun h => .inr (.body hc h))
      | enum c => cases h
  | .call as r es, n, h => by
    simp only [Expr.refs, List.mem_append] at h
    rcases h with h | h
    · obtain ⟨a, ha, h⟩ := argRefs_sound h
      exact h.elim (fun h => .inl (.arg ha h)) (fun h => .inr (.arg ha h))
    · obtain ⟨a, ha, h⟩ := errs_sound es n h
      exact h.elim (fun h => .inl (.error ha h)) (fun h => .inr (.error ha h))
  | .message as, n, h => by
    simp only [Expr.refs] at h
    obtain ⟨a, ha, h⟩ := refsList_sound h
    exact h.elim (fun h => .inl (.message ha h)) (fun h => .inr (.message ha h))
  | .enum c, n, h => by
    simp only [Expr.refs] at h
    exact (refs_sound h).elim (fun h => .inl (.enum h)) (fun h => .inr (.enum h))
  | .validation e, n, h => by
    simp only [Expr.refs] at h
    exact (err_sound e n h).elim (fun h => .inl (.validation h)) (fun h => .inr (.validation h))
theorem err_sound : (e : GErr) → (n : String) → n ∈ e.refs → e.reads n ∨ e.binds n
  | .mk c ds m i es, n, h => by
    simp only [GErr.refs, List.mem_append] at h
    rcases h with (h | h) | h
    · obtain ⟨c', rfl, h'⟩ := refsOpt_sound h
      exact h'.elim (fun h => .inl (.cond h)) (fun h => .inr (.cond h))
    · obtain ⟨a, ha, h⟩ := defs_sound ds n h
      exact h.elim (fun h => .inl (.defs ha h)) (fun h => .inr (.defs ha h))
    · obtain ⟨a, ha, h⟩ := details_sound es n h
      exact h.elim (fun h => .inl (.details ha h)) (fun h => .inr (.details ha h))
theorem detail_sound : (e : Detail) → (n : String) → n ∈ e.refs → e.reads n ∨ e.binds n
  | .mk c ds ms bs ps qs ls, n, h => by
    simp only [Detail.refs, List.mem_append] at h
    rcases h with (((((h | h) | h) | h) | h) | h) | h
    · obtain ⟨c', rfl, h'⟩ := refsOpt_sound h
      exact h'.elim (fun h => .inl (.cond h)) (fun h => .inr (.cond h))
    · obtain ⟨a, ha, h⟩ := defs_sound ds n h
      exact h.elim (fun h => .inl (.defs ha h)) (fun h => .inr (.defs ha h))
    · obtain ⟨a, ha, h⟩ := defs_sound ms n h
      exact h.elim (fun h => .inl (.messages ha h)) (fun h => .inr (.messages ha h))
    · obtain ⟨a, ha, h⟩ := refsList_sound h
      exact h.elim (fun h => .inl (.bys ha h)) (fun h => .inr (.bys ha h))
    · simp only [precondRefs, List.mem_flatMap, List.mem_append] at h
      obtain ⟨vs, hvs, v, hv, h⟩ := h
      rcases h with (h | h) | h
      · exact (refs_sound h).elim (fun h => .inl (.precond (x := v.1) hvs hv (by simp) h))
          (fun h => .inr (.precond (x := v.1) hvs hv (by simp) h))
      · exact (refs_sound h).elim (fun h => .inl (.precond (x := v.2.1) hvs hv (by simp) h))
          (fun h => .inr (.precond (x := v.2.1) hvs hv (by simp) h))
      · exact (refs_sound h).elim (fun h => .inl (.precond (x := v.2.2) hvs hv (by simp) h))
          (fun h => .inr (.precond (x := v.2.2) hvs hv (by simp) h))
    · simp only [badReqRefs, List.mem_flatMap, List.mem_append] at h
      obtain ⟨vs, hvs, v, hv, h⟩ := h
      rcases h with h | h
      · exact (refs_sound h).elim (fun h => .inl (.badReq (x := v.1) hvs hv (by simp) h))
          (fun h => .inr (.badReq (x := v.1) hvs hv (by simp) h))
      · exact (refs_sound h).elim (fun h => .inl (.badReq (x := v.2) hvs hv (by simp) h))
          (fun h => .inr (.badReq (x := v.2) hvs hv (by simp) h))
    · obtain ⟨a, ha, h⟩ := refsList_sound h
      exact h.elim (fun h => .inl (.localized ha h)) (fun h => .inr (.localized ha h))
theorem defs_sound : (ds : List VarDef) → (n : String) → n ∈ VarDef.refsL ds → ∃ d ∈ ds, d.reads n ∨ d.binds n
  | [], _, h => by cases h
  | d :: ds, n, h => by
    simp only [VarDef.refsL, List.mem_append] at h
    rcases h with h | h
    · exact ⟨d, by simp, def_sound d n h⟩
    · obtain ⟨e, he, h⟩ := defs_sound ds n h
      exact ⟨e, by simp [he], h⟩
theorem errs_sound : (ds : List GErr) → (n : String) → n ∈ GErr.refsL ds → ∃ d ∈ ds, d.reads n ∨ d.binds n
  | [], _, h => by cases h
  | d :: ds, n, h => by
    simp only [GErr.refsL, List.mem_append] at h
    rcases h with h | h
    · exact ⟨d, by simp, err_sound d n h⟩
    · obtain ⟨e, he, h⟩ := errs_sound ds n h
      exact ⟨e, by simp [he], h⟩
theorem details_sound : (ds : List Detail) → (n : String) → n ∈ Detail.refsL ds → ∃ d ∈ ds, d.reads n ∨ d.binds n
  | [], _, h => by cases h
  | d :: ds, n, h => by
    simp only [Detail.refsL, List.mem_append] at h
    rcases h with h | h
    · exact ⟨d, by simp, detail_sound d n h⟩
    · obtain ⟨e, he, h⟩ := details_sound ds n h
      exact ⟨e, by simp [he], h⟩
end

end Verif.Refs
