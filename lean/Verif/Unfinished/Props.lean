import Verif.Unfinished.Converse

/-!
# C114: a mistake in a file never crashes the tool
-/

namespace Verif.Unfinished

/-! ## Helpers -/

theorem run_some {W : World} {reached : Bool} {m : Msg} {u : Unit} (h : run W reached m = some u) :
    ∃ ds os ds' os', resolveDefs W "_def" [] 0 m.defs = some ds ∧ resolveOneofs W m.oneofs = some os ∧
      ((m.custom || m.customField) = true → useAll ds = some ()) ∧
      (reached = true → ∃ env, celDefs W [] [] ds = some (ds', env) ∧ celOneofs W env os = some os' ∧
        argPass (msgExprs ds' ++ os'.flatMap msgExprs) = some ()) ∧
      (reached = false → ds' = ds ∧ os' = os) ∧
      (m.custom = false → autoBind ds' = some ()) ∧
      byNames (ds' :: (ds'.flatMap defSets ++ os')) = some () := by
  unfold run at h
  cases hd : resolveDefs W "_def" [] 0 m.defs with
  | none => rw [hd] at h; cases h
  | some ds =>
    simp only [hd] at h
    cases ho : resolveOneofs W m.oneofs with
    | none => rw [ho] at h; cases h
    | some os =>
      simp only [ho] at h
      cases hu : (if m.custom || m.customField then useAll ds else some ()) with
      | none => rw [hu] at h; cases h
      | some _ =>
        simp only [hu] at h
        have hu' : (m.custom || m.customField) = true → useAll ds = some () := by
          intro hc
          rw [if_pos hc] at hu
          exact hu
        have last : ∀ ds' os', (match (if m.custom then some () else autoBind ds') with
              | none => none
              | some _ => byNames (ds' :: (ds'.flatMap defSets ++ os'))) = some u →
            (m.custom = false → autoBind ds' = some ()) ∧
              byNames (ds' :: (ds'.flatMap defSets ++ os')) = some () := by
          intro ds' os' h
          cases hb : (if m.custom then some () else autoBind ds') with
          | none => rw [hb] at h; cases h
          | some _ =>
            rw [hb] at h
            refine ⟨fun hc => ?_, h⟩
            rw [hc] at hb
            exact hb
        cases reached with
        | false =>
          simp only [Bool.false_eq_true, if_false] at h
          exact ⟨ds, os, ds, os, rfl, rfl, hu', fun hr => (by cases hr), fun _ => ⟨rfl, rfl⟩, last ds os h⟩
        | true =>
          simp only [if_true] at h
          cases hc : celDefs W [] [] ds with
          | none => rw [hc] at h; cases h
          | some p =>
            obtain ⟨ds', env⟩ := p
            simp only [hc] at h
            cases hco : celOneofs W env os with
            | none => rw [hco] at h; cases h
            | some os' =>
              simp only [hco] at h
              cases ha : argPass (msgExprs ds' ++ os'.flatMap msgExprs) with
              | none => rw [ha] at h; cases h
              | some _ =>
                simp only [ha] at h
                exact ⟨ds, os, ds', os', rfl, rfl, hu', fun _ => ⟨env, hc, hco, ha⟩, fun hr => (by cases hr),
                  last ds' os' h⟩

theorem panics_of {W : World} {reached : Bool} {m : Msg} (h : run W reached m = some () → False) :
    Panics W reached m := by
  unfold Panics
  cases hr : run W reached m with
  | none => rfl
  | some u => exact (h hr).elim

theorem useAll_some {ds : List RDef} (h : useAll ds = some ()) : ∀ d ∈ ds, d.name = "" ∨ d.expr ≠ .nil := by
  induction ds with
  | nil => intro d hd; cases hd
  | cons d' ds ih =>
    obtain ⟨n, c, a, e, t⟩ := d'
    unfold useAll at h
    intro d hd
    by_cases hn : n = ""
    · rw [if_pos hn] at h
      cases List.mem_cons.1 hd with
      | inl x => exact .inl (x ▸ hn)
      | inr x => exact ih h d x
    · rw [if_neg hn] at h
      cases List.mem_cons.1 hd with
      | inl x =>
        subst x
        right
        intro he
        simp only [RDef.expr] at he
        subst he
        cases h
      | inr x =>
        refine ih ?_ d x
        cases e <;> first | exact h | cases h

theorem byName_some {ds : List RDef} (h : byName ds = some ()) :
    ∀ d ∈ ds, d.expr = .nil → condRefs d.cond = [] := by
  induction ds with
  | nil => intro d hd; cases hd
  | cons d' ds ih =>
    obtain ⟨n, c, a, e, t⟩ := d'
    unfold byName at h
    intro d hd he
    cases List.mem_cons.1 hd with
    | inl x =>
      subst x
      simp only [RDef.expr] at he
      subst he
      simp only at h
      by_cases hc : condRefs c = []
      · exact hc
      · rw [if_neg hc] at h; cases h
    | inr x =>
      refine ih ?_ d x he
      cases e with
      | nil =>
        simp only at h
        by_cases hc : condRefs c = []
        · rw [if_pos hc] at h; exact h
        · rw [if_neg hc] at h; cases h
      | _ => exact h

theorem byNames_some {ss : List (List RDef)} (h : byNames ss = some ()) : ∀ s ∈ ss, byName s = some () := by
  induction ss with
  | nil => intro s hs; cases hs
  | cons s' ss ih =>
    simp only [byNames] at h
    cases hb : byName s' with
    | none => rw [hb] at h; cases h
    | some _ =>
      simp only [hb] at h
      intro s hs
      cases List.mem_cons.1 hs with
      | inl x => exact x ▸ hb
      | inr x => exact ih h s x

theorem autoBind_some {ds : List RDef} (h : autoBind ds = some ()) : ∀ d ∈ ds, bound d := by
  intro d hd
  apply Classical.byContradiction
  intro hb
  rw [autoBind_none.2 ⟨d, hd, hb⟩] at h
  cases h

theorem autoBind_of {ds : List RDef} (h : ∀ d ∈ ds, bound d) : autoBind ds = some () := by
  cases hb : autoBind ds with
  | some _ => rfl
  | none =>
    obtain ⟨d, hd, hn⟩ := autoBind_none.1 hb
    exact (hn (h d hd)).elim

theorem okDefs_mem : ∀ (ds : List RDef), okDefs ds → ∀ d ∈ ds, okDef d
  | [], _, d, hd => by cases hd
  | d' :: ds, h, d, hd => by
    cases List.mem_cons.1 hd with
    | inl x => exact x ▸ h.1
    | inr x => exact okDefs_mem ds h.2 d x

/-- The expression and autobind of a resolved definition. -/
theorem resolveDef_parts {W : World} {pre : String} {vars : List String} {i : Nat} {d : Def} {r : RDef}
    (h : resolveDef W pre vars i d = some r) :
    resolveExpr W vars i d.expr = some r.expr ∧ r.autobind = d.autobind ∧ r.ty = none ∧
      r.name = rename W (pre ++ toString i) d.name ∧ r.cond = (if d.cond = "" then none else some ⟨d.cond, none⟩) := by
  obtain ⟨n, c, a, e⟩ := d
  simp only [resolveDef] at h
  cases hr : resolveExpr W vars i e with
  | none => rw [hr] at h; cases h
  | some x =>
    simp only [hr, Option.some.injEq] at h
    subst h
    exact ⟨hr, rfl, rfl, rfl, rfl⟩

theorem celDef_parts {W : World} {env env' : Env} {seen : Seen} {d r : RDef}
    (h : celDef W env seen d = some (r, env')) :
    celExpr W env seen d.expr = some (r.expr, r.ty) ∧ r.autobind = d.autobind ∧
      r.cond = d.cond.map (celVal W env) := by
  obtain ⟨n, c, a, e, t⟩ := d
  simp only [celDef] at h
  cases hr : celExpr W env seen e with
  | none => rw [hr] at h; cases h
  | some p =>
    obtain ⟨x, t'⟩ := p
    simp only [hr, Option.some.injEq, Prod.mk.injEq] at h
    obtain ⟨rfl, rfl⟩ := h
    exact ⟨hr, rfl, rfl⟩

theorem out_kind {W : World} (hs : W.Sound) (env : Env) (e : String) (t : Ty)
    (h : (celVal W env ⟨e, none⟩).out = some t) : t.kind ≠ .message none := by
  unfold celVal at h
  cases hc : W.check env e with
  | none => simp [hc, Val.out] at h
  | some c =>
    obtain ⟨t', refs⟩ := c
    simp only [hc, Val.out, Option.map_some, Option.some.injEq] at h
    subst h
    exact hs env e t' refs hc

theorem msg_kind {W : World} (env : Env) (m : RMsg) (hk : m.message.isSome = true) (t : Ty)
    (h : (celMsg W env m).2 = some t) : t.kind ≠ .message none := by
  simp only [celMsg, Option.some.injEq] at h
  subst h
  cases hm : m.message with
  | none => rw [hm] at hk; cases hk
  | some f => simp

/-- The expression of a map of known messages has a proper type. -/
theorem mapE_kind {W : World} (hs : W.Sound) {e : MapE} {x y : RMapE} {env : Env} {t : Option Ty}
    (hr : resolveMapE W true e = some x)
    (hk : ∀ m, e = .message m → (W.message m.name).isSome = true) (hc : celMapE W env x = some (y, t)) :
    ∀ t', t = some t' → t'.kind ≠ .message none := by
  cases e with
  | missing =>
    simp only [resolveMapE, Option.some.injEq] at hr
    subst hr; cases hc
  | «by» v =>
    simp only [resolveMapE, Option.some.injEq] at hr
    subst hr
    simp only [celMapE, Option.some.injEq, Prod.mk.injEq] at hc
    intro t' ht
    rw [← hc.2] at ht
    exact out_kind hs env v t' ht
  | message m =>
    simp only [resolveMapE, resolveMsg_true, Option.map_some, Option.some.injEq] at hr
    subst hr
    simp only [celMapE, Option.some.injEq, Prod.mk.injEq] at hc
    intro t' ht
    rw [← hc.2] at ht
    exact msg_kind env _ (hk m rfl) t' ht
  | enum v =>
    simp only [resolveMapE, Option.some.injEq] at hr
    subst hr
    simp only [celMapE, Option.some.injEq, Prod.mk.injEq] at hc
    intro t' ht
    rw [← hc.2, Option.some.injEq] at ht
    subst ht
    simp

theorem mapTy_kind {W : World} (hs : W.Sound) {e : MapE} {x : RMapE} {env : Env} {it : String}
    {src : Option String} {y : RExpr} {t : Option Ty}
    (hr : resolveMapE W true e = some x)
    (hk : ∀ m, e = .message m → (W.message m.name).isSome = true)
    (hc : (celMapE W env x).map (mapTy it src) = some (y, t)) :
    ∀ t', t = some t' → t'.kind ≠ .message none := by
  cases hx : celMapE W env x with
  | none => rw [hx] at hc; cases hc
  | some p =>
    obtain ⟨z, tz⟩ := p
    simp only [hx, Option.map_some, mapTy, Option.some.injEq, Prod.mk.injEq] at hc
    intro t' ht
    rw [← hc.2] at ht
    cases tz with
    | none => cases ht
    | some tz =>
      simp only [Option.map_some, Option.some.injEq] at ht
      subst ht
      exact mapE_kind hs hr hk hx tz rfl

/-- The type of a known expression is no missing message. -/
theorem expr_kind {W : World} (hs : W.Sound) {e : Expr} {vars : List String} {i : Nat} {x y : RExpr} {env : Env}
    {seen : Seen} {t : Option Ty} (hr : resolveExpr W vars i e = some x) (hk : known W e = true)
    (hc : celExpr W env seen x = some (y, t)) : ∀ t', t = some t' → t'.kind ≠ .message none := by
  cases e with
  | missing =>
    simp only [resolveExpr, Option.some.injEq] at hr
    subst hr
    simp only [celExpr, Option.some.injEq, Prod.mk.injEq] at hc
    intro t' ht; rw [← hc.2] at ht; cases ht
  | «by» v =>
    simp only [resolveExpr, Option.some.injEq] at hr
    subst hr
    simp only [celExpr, Option.some.injEq, Prod.mk.injEq] at hc
    intro t' ht
    rw [← hc.2] at ht
    exact out_kind hs env v t' ht
  | map it s me =>
    simp only [resolveExpr] at hr
    cases hm : resolveMapE W true me with
    | none => rw [hm] at hr; cases hr
    | some z =>
      simp only [hm, Option.map_some, Option.some.injEq] at hr
      subst hr
      have hk' : ∀ m, me = .message m → (W.message m.name).isSome = true := by
        intro m he; subst he; exact hk
      simp only [celExpr, celMap] at hc
      cases hsrc : (if it = "" then none else resolveSrc vars s) with
      | none =>
        simp only [hsrc] at hc
        exact mapTy_kind hs hm hk' hc
      | some sn =>
        simp only [hsrc] at hc
        cases hf : seen.find sn with
        | none =>
          simp only [hf, Option.some.injEq, Prod.mk.injEq] at hc
          intro t' ht; rw [← hc.2] at ht; cases ht
        | some ts =>
          simp only [hf] at hc
          by_cases hrep : ts.repeated = true
          · rw [if_pos hrep] at hc
            exact mapTy_kind hs hm hk' hc
          · rw [if_neg hrep] at hc
            simp only [Option.some.injEq, Prod.mk.injEq] at hc
            intro t' ht; rw [← hc.2] at ht; cases ht
  | message m =>
    simp only [resolveExpr, resolveMsg_true, Option.map_some, Option.some.injEq] at hr
    subst hr
    simp only [celExpr, Option.some.injEq, Prod.mk.injEq] at hc
    intro t' ht
    rw [← hc.2] at ht
    exact msg_kind env ⟨W.message m.name, m.args.map resolveArg⟩ hk t' ht
  | enum v =>
    simp only [resolveExpr, Option.some.injEq] at hr
    subst hr
    simp only [celExpr, Option.some.injEq, Prod.mk.injEq] at hc
    intro t' ht
    rw [← hc.2, Option.some.injEq] at ht
    subst ht
    simp
  | call mth es =>
    simp only [resolveExpr] at hr
    cases hm : W.method mth with
    | none =>
      simp only [hm, Option.some.injEq] at hr
      subst hr
      simp only [celExpr, Option.some.injEq, Prod.mk.injEq] at hc
      intro t' ht; rw [← hc.2] at ht; cases ht
    | some resp =>
      simp only [hm] at hr
      cases he : resolveErrs W i es with
      | none => rw [he] at hr; cases hr
      | some rs =>
        simp only [he, Option.map_some, Option.some.injEq] at hr
        subst hr
        simp only [celExpr] at hc
        cases hce : celErrs W (("error", errTy) :: env) rs with
        | none => rw [hce] at hc; cases hc
        | some rs' =>
          simp only [hce, Option.some.injEq, Prod.mk.injEq] at hc
          intro t' ht
          rw [← hc.2, Option.some.injEq] at ht
          subst ht
          simp
  | validation e =>
    simp only [resolveExpr] at hr
    cases he : resolveErr W i e with
    | none => rw [he] at hr; cases hr
    | some rs =>
      simp only [he, Option.map_some, Option.some.injEq] at hr
      subst hr
      simp only [celExpr] at hc
      cases hce : celErr W env rs with
      | none => rw [hce] at hc; cases hc
      | some rs' =>
        simp only [hce, Option.some.injEq, Prod.mk.injEq] at hc
        intro t' ht
        rw [← hc.2, Option.some.injEq] at ht
        subst ht
        simp
  | validationEmpty => cases hr

theorem ok_oneofs' (W : World) (os : List (List Def))
    (h : ∀ o ∈ os, ∀ d ∈ allDefs W o, complete d.expr = true) :
    ∃ rs, resolveOneofs W os = some rs ∧ ∀ r ∈ rs, okDefs r := by
  induction os with
  | nil => exact ⟨[], rfl, fun r hr => by cases hr⟩
  | cons o os ih =>
    obtain ⟨r, hr, hok⟩ := ok_defs W "_oneof_def" o [] 0 (h o List.mem_cons_self)
    obtain ⟨rs, hrs, hoks⟩ := ih (fun o' ho' => h o' (List.mem_cons_of_mem _ ho'))
    refine ⟨r :: rs, by simp only [resolveOneofs, hr, hrs], fun x hx => ?_⟩
    cases List.mem_cons.1 hx with
    | inl e => exact e ▸ hok
    | inr e => exact hoks x e

theorem nil_of_okDef {d : RDef} (h : okDef d) : d.expr ≠ .nil := by
  obtain ⟨n, c, a, e, t⟩ := d
  intro he
  simp only [RDef.expr] at he
  subst he
  exact h

/-! ## The property -/

/-- **C114** (the part that holds): if every definition of a message is finished – each has an expression, each map and
validation too, each argument exactly one value, and the automatically bound messages exist – then the resolver
does not panic, whatever else is wrong with the definitions: undefined messages, methods and variables, rejected
expressions, wrong names. -/
theorem C114_partial (W : World) (hs : W.Sound) (reached : Bool) (m : Msg) (h : m.Finished W) :
    ¬ Panics W reached m := by
  obtain ⟨hd, ho, hb⟩ := h
  obtain ⟨ds, hds, okd⟩ := ok_defs W "_def" m.defs [] 0 hd
  obtain ⟨os, hos, oko⟩ := ok_oneofs' W m.oneofs ho
  have hu : (if m.custom || m.customField then useAll ds else some ()) = some () := by
    rw [ok_useAll ds okd]; exact ite_self _
  have fin : ∀ ds' os', okDefs ds' → (∀ o ∈ os', okDefs o) → (∀ d ∈ ds', bound d) →
      (if m.custom then some () else autoBind ds') = some () ∧
        byNames (ds' :: (ds'.flatMap defSets ++ os')) = some () := by
    intro ds' os' h1 h2 h3
    refine ⟨by rw [autoBind_of h3]; exact ite_self _, ?_⟩
    refine byNames_ok _ (fun s hs => ?_)
    cases List.mem_cons.1 hs with
    | inl e => exact e ▸ h1
    | inr hs =>
      cases List.mem_append.1 hs with
      | inl hs =>
        obtain ⟨d, hd', hs⟩ := List.mem_flatMap.1 hs
        exact defSets_ok d (okDefs_mem ds' h1 d hd') s hs
      | inr hs => exact h2 s hs
  unfold Panics run
  simp only [hds, hos, hu]
  cases reached with
  | false =>
    simp only [Bool.false_eq_true, if_false]
    have hbd : ∀ d ∈ ds, bound d := by
      intro d hd' _
      obtain ⟨_, _, _, _, hr⟩ := from_top' W "_def" m.defs [] 0 ds hds d hd'
      refine ⟨nil_of_okDef (okDefs_mem ds okd d hd'), fun t ht => ?_⟩
      rw [(resolveDef_parts hr).2.2.1] at ht; cases ht
    obtain ⟨f1, f2⟩ := fin ds os okd oko hbd
    simp only [f1, f2]
    exact fun h => by cases h
  | true =>
    obtain ⟨ds', env, hc, okd'⟩ := cel_defs W ds [] [] okd
    obtain ⟨os', hco, oko'⟩ := cel_oneofs W env os oko
    have ha : argPass (msgExprs ds' ++ os'.flatMap msgExprs) = some () := by
      refine argPass_ok _ (fun x hx => ?_)
      cases List.mem_append.1 hx with
      | inl hx => exact msgs_ok ds' okd' x hx
      | inr hx =>
        obtain ⟨o, ho', hx⟩ := List.mem_flatMap.1 hx
        exact msgs_ok o (oko' o ho') x hx
    have hbd : ∀ d ∈ ds', bound d := by
      intro r hr' hauto
      refine ⟨nil_of_okDef (okDefs_mem ds' okd' r hr'), ?_⟩
      obtain ⟨d, hd', env1, seen1, env2, hcd⟩ := chk_top' W ds [] [] ds' env hc r hr'
      obtain ⟨d0, hd0, vars, i, hrd⟩ := from_top' W "_def" m.defs [] 0 ds hds d hd'
      have p1 := resolveDef_parts hrd
      have p2 := celDef_parts hcd
      refine expr_kind hs p1.1 (hb d0 hd0 ?_) p2.1
      rw [← p1.2.1, ← p2.2.1]; exact hauto
    simp only [if_true, hc, hco, ha]
    obtain ⟨f1, f2⟩ := fin ds' os' okd' oko' hbd
    simp only [f1, f2]
    exact fun h => by cases h

/-- A world with a message with options, one without, and a method. -/
def demo : World where
  message n := if n = "User" then some ⟨"User", true⟩ else if n = "Plain" then some ⟨"Plain", false⟩ else none
  method n := if n = "Get" then some "GetResponse" else none
  valid n := n ≠ "no"
  check _ e := if e = "x" then some (⟨.other 0, true⟩, ["x"]) else none

theorem demo_sound : demo.Sound := by
  intro env e t refs h
  simp only [demo] at h
  split at h
  · simp only [Option.some.injEq, Prod.mk.injEq] at h
    rw [← h.1]; simp
  · cases h

/-- A message with many mistakes – a name that is not allowed, an unknown message and method, an expression that is
rejected – but without anything missing. -/
def sloppy : Msg where
  custom := false
  customField := true
  defs := [.mk "" "" false (.by "x"), .mk "no" "y" true (.map "it" "nope" (.by "it")),
    .mk "u" "" false (.message ⟨"Nobody", [⟨"a", some "x", none⟩]⟩),
    .mk "c" "x" true (.call "Get" [.mk "" [.mk "d" "" false (.call "None" [])]
      [.mk "z" [] [⟨"User", [⟨"b", none, some "x"⟩]⟩]]]),
    .mk "v" "" false (.validation (.mk "" [] []))]
  oneofs := [[.mk "o" "x" false (.enum "x")]]

example : ¬ Panics demo true sloppy :=
  C114_partial demo demo_sound true sloppy
    ⟨(by simp [sloppy, allDefs, defDefs, exprDefs, errsDefs, errDefs, detailsDefs, detailDefs, Def.expr, complete,
        Arg.given, demo]),
      (by simp [sloppy, allDefs, defDefs, exprDefs, Def.expr, complete]),
      (by simp [sloppy, Def.autobind, Def.expr, known])⟩

/-- A definition of the message: one of its own or of one of its oneof fields, or one inside their error entries. -/
def Msg.Has (W : World) (m : Msg) (d : Def) : Prop :=
  d ∈ allDefs W m.defs ∨ ∃ o ∈ m.oneofs, d ∈ allDefs W o

/-- **C114** (where it fails, 1): a validation without `error`, anywhere, makes the resolver panic. -/
theorem C114_validation_panics (W : World) (reached : Bool) (m : Msg) (d : Def) (hd : m.Has W d)
    (he : d.expr = .validationEmpty) : Panics W reached m := by
  refine panics_of (fun h => ?_)
  obtain ⟨ds, os, _, _, hds, hos, _⟩ := run_some h
  have key : ∀ r, From W d r → False := by
    rintro r ⟨vars, i, hr⟩
    rw [he] at hr
    cases hr
  cases hd with
  | inl hd =>
    obtain ⟨r, _, hf⟩ := from_defs W "_def" m.defs [] 0 ds hds d hd
    exact key r hf
  | inr hd =>
    obtain ⟨o, ho, hd⟩ := hd
    obtain ⟨ro, _, hro⟩ := from_oneofs W m.oneofs os hos o ho
    obtain ⟨r, _, hf⟩ := from_defs W "_oneof_def" o [] 0 ro hro d hd
    exact key r hf

theorem auto_ne (i : Nat) : "_def" ++ toString i ≠ "" := by
  intro h
  have := congrArg String.length h
  simp [String.length_append] at this

/-- **C114** (where it fails, 2): with a custom resolver of the message or of a field, a definition of the message without
expression makes the resolver panic, unless its name is one that is not allowed. -/
theorem C114_custom_panics (W : World) (reached : Bool) (m : Msg) (d : Def) (hd : d ∈ m.defs)
    (hc : m.custom = true ∨ m.customField = true) (he : d.expr = .missing)
    (hn : d.name = "" ∨ W.valid d.name = true) : Panics W reached m := by
  refine panics_of (fun h => ?_)
  obtain ⟨ds, os, _, _, hds, hos, hu, _⟩ := run_some h
  obtain ⟨r, hr, vars, i, hrd⟩ := from_top W "_def" m.defs [] 0 ds hds d hd
  have hu := hu (by simpa using hc)
  obtain ⟨h1, _, _, h4, _⟩ := resolveDef_parts hrd
  rw [he] at h1
  simp only [resolveExpr, Option.some.injEq] at h1
  cases useAll_some hu r hr with
  | inr hne => exact hne h1.symm
  | inl hne =>
    rw [h4] at hne
    unfold rename at hne
    by_cases h0 : d.name = ""
    · rw [if_pos h0] at hne
      exact auto_ne i hne
    · rw [if_neg h0] at hne
      cases hn with
      | inl hn => exact h0 hn
      | inr hn =>
        rw [if_pos hn] at hne
        exact h0 hne

/-- The checked form of a definition that the arguments of the message are resolved for. -/
theorem reached_has {W : World} {m : Msg} {ds ds' : List RDef} {os os' : List (List RDef)} {env : Env} {d : Def}
    (hds : resolveDefs W "_def" [] 0 m.defs = some ds) (hos : resolveOneofs W m.oneofs = some os)
    (hc : celDefs W [] [] ds = some (ds', env)) (hco : celOneofs W env os = some os') (hd : m.Has W d) :
    ∃ vars i x, resolveExpr W vars i d.expr = some x ∧ ∃ r' env1 seen t,
      celExpr W env1 seen x = some (r'.expr, t) ∧ ∀ mm ∈ defMsgs r', mm ∈ msgExprs ds' ++ os'.flatMap msgExprs := by
  cases hd with
  | inl hd =>
    obtain ⟨r, hr, vars, i, hf⟩ := from_defs W "_def" m.defs [] 0 ds hds d hd
    obtain ⟨r', hr', env1, seen, t, hcr⟩ := chk_defs W ds [] [] ds' env hc r hr
    exact ⟨vars, i, r.expr, hf, r', env1, seen, t, hcr,
      fun mm hmm => List.mem_append.2 (.inl (msgs_all ds' r' hr' mm hmm))⟩
  | inr hd =>
    obtain ⟨o, ho, hd⟩ := hd
    obtain ⟨ro, hro', hro⟩ := from_oneofs W m.oneofs os hos o ho
    obtain ⟨r, hr, vars, i, hf⟩ := from_defs W "_oneof_def" o [] 0 ro hro d hd
    obtain ⟨co, hco', env2, hcd⟩ := chk_oneofs W env os os' hco ro hro'
    obtain ⟨r', hr', env1, seen, t, hcr⟩ := chk_defs W ro env [] co env2 hcd r hr
    exact ⟨vars, i, r.expr, hf, r', env1, seen, t, hcr,
      fun mm hmm => List.mem_append.2 (.inr (List.mem_flatMap.2 ⟨co, hco', msgs_all co r' hr' mm hmm⟩))⟩

/-- **C114** (where it fails, 3): a map without expression, anywhere, makes the resolver panic if the name of its iterator
or its source is missing too. -/
theorem C114_map_panics (W : World) (m : Msg) (d : Def) (hd : m.Has W d) (it s : String)
    (he : d.expr = .map it s .missing) (hi : it = "" ∨ s = "") : Panics W true m := by
  refine panics_of (fun h => ?_)
  obtain ⟨ds, os, ds', os', hds, hos, _, hre, _⟩ := run_some h
  obtain ⟨env, hc, hco, _⟩ := hre rfl
  obtain ⟨vars, i, x, hx, r', env1, seen, t, hcx, _⟩ := reached_has hds hos hc hco hd
  rw [he] at hx
  simp only [resolveExpr, resolveMapE, Option.map_some, Option.some.injEq] at hx
  subst hx
  simp only [celExpr, celMap] at hcx
  have : (if it = "" then none else resolveSrc vars s) = none := by
    cases hi with
    | inl h => rw [if_pos h]
    | inr h => rw [resolveSrc, if_pos h]; exact ite_self _
  simp [this, celMapE] at hcx

/-- The message expression of a definition: its own or that of its map. -/
def Expr.message? : Expr → Option MsgE
  | .message m => some m
  | .map _ _ (.message m) => some m
  | _ => none

theorem celMap_message {W : World} {env : Env} {seen : Seen} {it : String} {src : Option String} {m : RMsg} {y : RExpr}
    {t : Option Ty} (h : celMap W env seen it src (.message m) = some (y, t)) :
    ∃ env', y = .map it src (.message m) ∨ y = .map it src (.message (celMsg W env' m).1) := by
  unfold celMap at h
  cases hs : (if it = "" then none else src) with
  | none =>
    simp only [hs, celMapE, Option.map_some, mapTy, Option.some.injEq, Prod.mk.injEq] at h
    exact ⟨env, .inr h.1.symm⟩
  | some s =>
    simp only [hs] at h
    cases hf : seen.find s with
    | none =>
      simp only [hf, Option.some.injEq, Prod.mk.injEq] at h
      exact ⟨env, .inl h.1.symm⟩
    | some ts =>
      simp only [hf] at h
      by_cases hr : ts.repeated = true
      · simp only [hr, if_true, celMapE, Option.map_some, mapTy, Option.some.injEq, Prod.mk.injEq] at h
        exact ⟨_, .inr h.1.symm⟩
      · rw [if_neg hr] at h
        simp only [Option.some.injEq, Prod.mk.injEq] at h
        exact ⟨env, .inl h.1.symm⟩

/-- **C114** (where it fails, 4): an argument without value, or with both `by` and `inline`, makes the resolver panic if the
message it is given to exists and has options. -/
theorem C114_argument_panics (W : World) (m : Msg) (d : Def) (hd : m.Has W d) (e : MsgE) (f : Found) (a : Arg)
    (he : d.expr.message? = some e) (hf : W.message e.name = some f) (hr : f.hasRule = true) (ha : a ∈ e.args)
    (hg : a.byV.isSome = a.inlineV.isSome) : Panics W true m := by
  refine panics_of (fun h => ?_)
  obtain ⟨ds, os, ds', os', hds, hos, _, hre, _⟩ := run_some h
  obtain ⟨env, hc, hco, hap⟩ := hre rfl
  obtain ⟨vars, i, x, hx, r', env1, seen, t, hcx, hmm⟩ := reached_has hds hos hc hco hd
  have hv : (resolveArg a).value = none := by
    have := resolveArg_some a
    rw [Arg.given, hg] at this
    simpa using this
  let m0 : RMsg := ⟨W.message e.name, e.args.map resolveArg⟩
  have bad : ∀ mm, mm ∈ defMsgs r' → (mm = m0 ∨ ∃ env', mm = (celMsg W env' m0).1) → False := by
    intro mm hin hcase
    have hnone : argPass (msgExprs ds' ++ os'.flatMap msgExprs) = none := by
      rw [argPass_none]
      refine ⟨mm, hmm mm hin, f, ?_⟩
      cases hcase with
      | inl h0 =>
        subst h0
        exact ⟨hf, hr, resolveArg a, List.mem_map.2 ⟨a, ha, rfl⟩, hv⟩
      | inr h0 =>
        obtain ⟨env', rfl⟩ := h0
        refine ⟨hf, hr, ⟨(resolveArg a).name, (resolveArg a).value.map (celVal W env')⟩, ?_, by simp only [hv, Option.map_none]⟩
        exact List.mem_map.2 ⟨resolveArg a, List.mem_map.2 ⟨a, ha, rfl⟩, rfl⟩
    rw [hnone] at hap
    cases hap
  obtain ⟨n', c', a', e', t'⟩ := r'
  simp only [RDef.expr] at hcx
  cases hde : d.expr with
  | message m1 =>
    rw [hde] at hx he
    simp only [Expr.message?, Option.some.injEq] at he
    subst he
    simp only [resolveExpr, resolveMsg_true, Option.map_some, Option.some.injEq] at hx
    subst hx
    simp only [celExpr, Option.some.injEq, Prod.mk.injEq] at hcx
    rw [← hcx.1] at bad
    exact bad (celMsg W env1 m0).1 (by simp [defMsgs, exprMsgs, m0]) (.inr ⟨env1, rfl⟩)
  | map it s me =>
    rw [hde] at hx he
    cases me with
    | message m1 =>
      simp only [Expr.message?, Option.some.injEq] at he
      subst he
      simp only [resolveExpr, resolveMapE, resolveMsg_true, Option.map_some, Option.some.injEq] at hx
      subst hx
      simp only [celExpr] at hcx
      obtain ⟨env', hy⟩ := celMap_message hcx
      cases hy with
      | inl hy =>
        subst hy
        exact bad m0 (by simp [defMsgs, exprMsgs, m0]) (.inl rfl)
      | inr hy =>
        subst hy
        exact bad (celMsg W env' m0).1 (by simp [defMsgs, exprMsgs, m0]) (.inr ⟨env', rfl⟩)
    | _ => cases he
  | _ => rw [hde] at he; cases he

/-- **C114** (where it fails, 5): unless the message has a custom resolver, `autobind` of a definition without expression
makes the resolver panic. -/
theorem C114_autobind_panics (W : World) (reached : Bool) (m : Msg) (d : Def) (hd : d ∈ m.defs)
    (hc : m.custom = false) (ha : d.autobind = true) (he : d.expr = .missing) : Panics W reached m := by
  refine panics_of (fun h => ?_)
  obtain ⟨ds, os, ds', os', hds, hos, _, hre, hun, hb, _⟩ := run_some h
  obtain ⟨r, hr, vars, i, hrd⟩ := from_top W "_def" m.defs [] 0 ds hds d hd
  obtain ⟨h1, h2, _⟩ := resolveDef_parts hrd
  rw [he] at h1
  simp only [resolveExpr, Option.some.injEq] at h1
  have hb := autoBind_some (hb hc)
  cases reached with
  | false =>
    obtain ⟨rfl, _⟩ := hun rfl
    exact (hb r hr (by rw [h2, ha])).1 h1.symm
  | true =>
    obtain ⟨env, hcd, _⟩ := hre rfl
    obtain ⟨r', hr', env1, seen1, env2, hc'⟩ := chk_top W ds [] [] ds' env hcd r hr
    obtain ⟨k1, k2, _⟩ := celDef_parts hc'
    rw [← h1] at k1
    simp only [celExpr, Option.some.injEq, Prod.mk.injEq] at k1
    exact (hb r' hr' (by rw [k2, h2, ha])).1 k1.1.symm

/-- **C114** (where it fails, 6): unless the message has a custom resolver, `autobind` of a message that does not exist makes
the resolver panic. -/
theorem C114_autobind_unknown_panics (W : World) (m : Msg) (d : Def) (hd : d ∈ m.defs)
    (hc : m.custom = false) (ha : d.autobind = true) (e : MsgE) (he : d.expr = .message e)
    (hf : W.message e.name = none) : Panics W true m := by
  refine panics_of (fun h => ?_)
  obtain ⟨ds, os, ds', os', hds, hos, _, hre, _, hb, _⟩ := run_some h
  obtain ⟨r, hr, vars, i, hrd⟩ := from_top W "_def" m.defs [] 0 ds hds d hd
  obtain ⟨h1, h2, _⟩ := resolveDef_parts hrd
  rw [he] at h1
  simp only [resolveExpr, resolveMsg_true, Option.map_some, Option.some.injEq] at h1
  have hb := autoBind_some (hb hc)
  obtain ⟨env, hcd, _⟩ := hre rfl
  obtain ⟨r', hr', env1, seen1, env2, hc'⟩ := chk_top W ds [] [] ds' env hcd r hr
  obtain ⟨k1, k2, _⟩ := celDef_parts hc'
  rw [← h1] at k1
  simp only [celExpr, celMsg, Option.some.injEq, Prod.mk.injEq, hf, Option.map_none] at k1
  exact (hb r' hr' (by rw [k2, h2, ha])).2 _ k1.2.symm rfl

/-- **C114** (where it fails, 7): a definition of the message or of a oneof field that has no expression, but a condition that
is accepted and refers to a variable, makes the resolver panic. -/
theorem C114_condition_panics (W : World) (m : Msg) (d : Def) (hd : d ∈ m.defs ∨ ∃ o ∈ m.oneofs, d ∈ o)
    (he : d.expr = .missing) (hc : d.cond ≠ "")
    (hk : ∀ env, ∃ t refs, W.check env d.cond = some (t, refs) ∧ refs ≠ []) : Panics W true m := by
  refine panics_of (fun h => ?_)
  obtain ⟨ds, os, ds', os', hds, hos, _, hre, _, _, hn⟩ := run_some h
  obtain ⟨env, hcd, hco, _⟩ := hre rfl
  have hn := byNames_some hn
  have key : ∀ (pre : String) (vars : List String) (i : Nat) (r r' : RDef) (env1 env2 : Env) (seen : Seen)
      (s : List RDef), resolveDef W pre vars i d = some r → celDef W env1 seen r = some (r', env2) → r' ∈ s →
      byName s = some () → False := by
    intro pre vars i r r' env1 env2 seen s hr hcr hin hs
    obtain ⟨h1, _, _, _, h5⟩ := resolveDef_parts hr
    obtain ⟨k1, _, k3⟩ := celDef_parts hcr
    rw [he] at h1
    simp only [resolveExpr, Option.some.injEq] at h1
    rw [← h1] at k1
    simp only [celExpr, Option.some.injEq, Prod.mk.injEq] at k1
    have := byName_some hs r' hin k1.1.symm
    rw [k3, h5, if_neg hc] at this
    obtain ⟨t, refs, hchk, hne⟩ := hk env1
    simp only [Option.map_some, celVal, hchk, condRefs] at this
    exact hne this
  cases hd with
  | inl hd =>
    obtain ⟨r, hr, vars, i, hrd⟩ := from_top W "_def" m.defs [] 0 ds hds d hd
    obtain ⟨r', hr', env1, seen1, env2, hc'⟩ := chk_top W ds [] [] ds' env hcd r hr
    exact key _ _ _ _ _ _ _ _ ds' hrd hc' hr' (hn ds' List.mem_cons_self)
  | inr hd =>
    obtain ⟨o, ho, hd⟩ := hd
    obtain ⟨ro, hro', hro⟩ := from_oneofs W m.oneofs os hos o ho
    obtain ⟨r, hr, vars, i, hrd⟩ := from_top W "_oneof_def" o [] 0 ro hro d hd
    obtain ⟨co, hco', env2, hcd'⟩ := chk_oneofs W env os os' hco ro hro'
    obtain ⟨r', hr', env1, seen1, env3, hc'⟩ := chk_top W ro env [] co env2 hcd' r hr
    exact key _ _ _ _ _ _ _ _ co hrd hc' hr'
      (hn co (List.mem_cons_of_mem _ (List.mem_append.2 (.inr hco'))))

/-! A case for each. -/

/-- A message with one definition. -/
def single (custom : Bool) (d : Def) : Msg := ⟨custom, false, [d], []⟩

example : Panics demo false (single false (.mk "v" "" false .validationEmpty)) :=
  C114_validation_panics demo false _ (.mk "v" "" false .validationEmpty) (.inl (by simp [single, allDefs, defDefs])) rfl

example : Panics demo false (single true (.mk "v" "" false .missing)) :=
  C114_custom_panics demo false _ (.mk "v" "" false .missing) (by simp [single]) (.inl rfl) rfl (.inr (by simp [demo, Def.name]))

example : Panics demo true (single false (.mk "v" "" false (.map "it" "" .missing))) :=
  C114_map_panics demo _ (.mk "v" "" false (.map "it" "" .missing)) (.inl (by simp [single, allDefs, defDefs]))
    "it" "" rfl (.inr rfl)

/-- The argument may also be inside a detail of an error entry. -/
def inDetail : Msg :=
  single false (.mk "c" "" false (.call "Get" [.mk "" [] [.mk "" [] [⟨"User", [⟨"a", none, none⟩]⟩]]]))

example : Panics demo true inDetail :=
  C114_argument_panics demo _ (.mk "" "" false (.message ⟨"User", [⟨"a", none, none⟩]⟩))
    (.inl (by simp [inDetail, single, allDefs, defDefs, exprDefs, errsDefs, errDefs, detailsDefs, detailDefs, demo]))
    ⟨"User", [⟨"a", none, none⟩]⟩ ⟨"User", true⟩ ⟨"a", none, none⟩ rfl (by simp [demo]) rfl (by simp) rfl

example : Panics demo false (single false (.mk "v" "" true .missing)) :=
  C114_autobind_panics demo false _ (.mk "v" "" true .missing) (by simp [single]) rfl rfl rfl

example : Panics demo true (single false (.mk "v" "" true (.message ⟨"Nobody", []⟩))) :=
  C114_autobind_unknown_panics demo _ (.mk "v" "" true (.message ⟨"Nobody", []⟩)) (by simp [single]) rfl rfl
    ⟨"Nobody", []⟩ rfl (by simp [demo])

example : Panics demo true (single false (.mk "v" "x" false .missing)) :=
  C114_condition_panics demo _ (.mk "v" "x" false .missing) (.inl (by simp [single])) rfl (by simp [Def.cond])
    (fun _ => ⟨⟨.other 0, true⟩, ["x"], by simp [demo, Def.cond], by simp⟩)

/-- **C114** is false as it stands: a validation without `error` is a mistake that crashes the tool. -/
theorem C114_false : ¬ ∀ (W : World) (reached : Bool) (m : Msg), W.Sound → ¬ Panics W reached m := fun h =>
  h demo false _ demo_sound (C114_validation_panics demo false (single false (.mk "v" "" false .validationEmpty))
    (.mk "v" "" false .validationEmpty) (.inl (by simp [single, allDefs, defDefs])) rfl)

end Verif.Unfinished
