import Verif.Unfinished.Spec

/-!
# Finished definitions go through all steps
-/

namespace Verif.Unfinished

/-- The value of every argument is there. -/
def RMsg.ok (m : RMsg) : Prop := ∀ a ∈ m.args, a.value.isSome = true

/-- No part of the expression of a map is nil. -/
def RMapE.ok : RMapE → Prop
  | .nil => False
  | .message m => m.ok
  | _ => True

mutual

/-- No part of the definitions is nil. -/
def okDefs : List RDef → Prop
  | [] => True
  | d :: ds => okDef d ∧ okDefs ds

def okDef : RDef → Prop
  | .mk _ _ _ e _ => okExpr e

def okExpr : RExpr → Prop
  | .nil => False
  | .map _ _ e => e.ok
  | .message m => m.ok
  | .call _ es => okErrs es
  | .validation e => okErr e
  | _ => True

def okErrs : List RErr → Prop
  | [] => True
  | e :: es => okErr e ∧ okErrs es

def okErr : RErr → Prop
  | .mk _ ds dets => okDefs ds ∧ okDetails dets

def okDetails : List RDetail → Prop
  | [] => True
  | d :: ds => okDetail d ∧ okDetails ds

def okDetail : RDetail → Prop
  | .mk _ ds ms => okDefs ds ∧ okDefs ms

end

theorem resolveArg_some (a : Arg) : (resolveArg a).value.isSome = a.given := by
  obtain ⟨n, b, i⟩ := a
  cases b <;> cases i <;> rfl

theorem resolveMsg_true (W : World) (m : MsgE) :
    resolveMsg W true m = some ⟨W.message m.name, m.args.map resolveArg⟩ := by
  unfold resolveMsg
  cases W.message m.name <;> rfl

theorem ok_args (f : Option Found) {args : List Arg} (h : args.all Arg.given = true) :
    RMsg.ok ⟨f, args.map resolveArg⟩ := by
  intro a ha
  obtain ⟨b, hb, rfl⟩ := List.mem_map.1 ha
  rw [resolveArg_some]
  exact List.all_eq_true.1 h b hb

theorem ok_messages (W : World) (pre : String) (ms : List MsgE)
    (h : ∀ m ∈ ms, m.args.all Arg.given = true) :
    ∀ i, ∃ rs, resolveMessages W pre i ms = some rs ∧ okDefs rs := by
  induction ms with
  | nil => intro i; exact ⟨[], rfl, trivial⟩
  | cons m ms ih =>
    intro i
    obtain ⟨rs, hrs, hok⟩ := ih (fun m' hm' => h m' (List.mem_cons_of_mem _ hm')) (i + 1)
    refine ⟨.mk (pre ++ toString i) none false (.message ⟨W.message m.name, m.args.map resolveArg⟩) none :: rs,
      by simp only [resolveMessages, resolveMsg_true, hrs], ?_, hok⟩
    exact ok_args _ (h m List.mem_cons_self)

mutual

theorem ok_defs (W : World) (pre : String) : ∀ (ds : List Def) (vars : List String) (i : Nat),
    (∀ d ∈ allDefs W ds, complete d.expr = true) →
    ∃ rs, resolveDefs W pre vars i ds = some rs ∧ okDefs rs
  | [], _, _, _ => ⟨[], by simp only [resolveDefs], trivial⟩
  | d :: ds, vars, i, h => by
    simp only [allDefs, List.mem_append] at h
    obtain ⟨r, hr, hok⟩ := ok_def W pre d vars i (fun d' hd' => h d' (.inl hd'))
    obtain ⟨rs, hrs, hoks⟩ := ok_defs W pre ds (if hidden r.expr then vars else r.name :: vars) (i + 1)
      (fun d' hd' => h d' (.inr hd'))
    exact ⟨r :: rs, by simp only [resolveDefs, hr, hrs], hok, hoks⟩

theorem ok_def (W : World) (pre : String) : ∀ (d : Def) (vars : List String) (i : Nat),
    (∀ d' ∈ defDefs W d, complete d'.expr = true) →
    ∃ r, resolveDef W pre vars i d = some r ∧ okDef r
  | .mk n c a e, vars, i, h => by
    simp only [defDefs, List.mem_cons] at h
    obtain ⟨r, hr, hok⟩ := ok_expr W e vars i (h _ (.inl rfl)) (fun d' hd' => h d' (.inr hd'))
    exact ⟨.mk (rename W (pre ++ toString i) n) (if c = "" then none else some ⟨c, none⟩) a r none,
      by simp only [resolveDef, hr], hok⟩

theorem ok_expr (W : World) : ∀ (e : Expr) (vars : List String) (i : Nat), complete e = true →
    (∀ d' ∈ exprDefs W e, complete d'.expr = true) →
    ∃ r, resolveExpr W vars i e = some r ∧ okExpr r
  | .missing, _, _, h, _ => by cases h
  | .by x, _, _, _, _ => ⟨.by ⟨x, none⟩, by simp only [resolveExpr], trivial⟩
  | .map it s .missing, _, _, h, _ => by cases h
  | .map it s (.by x), vars, _, _, _ => ⟨.map it (resolveSrc vars s) (.by ⟨x, none⟩), by simp only [resolveExpr, resolveMapE, Option.map_some], trivial⟩
  | .map it s (.enum x), vars, _, _, _ => ⟨.map it (resolveSrc vars s) (.enum ⟨x, none⟩), by simp only [resolveExpr, resolveMapE, Option.map_some], trivial⟩
  | .map it s (.message m), vars, _, h, _ =>
    ⟨.map it (resolveSrc vars s) (.message ⟨W.message m.name, m.args.map resolveArg⟩),
      by simp only [resolveExpr, resolveMapE, resolveMsg_true, Option.map_some], ok_args _ h⟩
  | .message m, _, _, h, _ =>
    ⟨.message ⟨W.message m.name, m.args.map resolveArg⟩,
      by simp only [resolveExpr, resolveMsg_true, Option.map_some], ok_args _ h⟩
  | .enum x, _, _, _, _ => ⟨.enum ⟨x, none⟩, by simp only [resolveExpr], trivial⟩
  | .call m es, _, i, _, h => by
    simp only [resolveExpr]
    cases hm : W.method m with
    | none => exact ⟨.empty, rfl, trivial⟩
    | some resp =>
      simp only [exprDefs, hm, Option.isSome_some, if_true] at h
      obtain ⟨rs, hrs, hok⟩ := ok_errs W es i h
      exact ⟨.call resp rs, by simp only [hrs, Option.map_some], hok⟩
  | .validation e, _, i, _, h => by
    simp only [exprDefs] at h
    obtain ⟨r, hr, hok⟩ := ok_err W e i h
    exact ⟨.validation r, by simp only [resolveExpr, hr, Option.map_some], hok⟩
  | .validationEmpty, _, _, h, _ => by cases h

theorem ok_errs (W : World) : ∀ (es : List Err) (i : Nat),
    (∀ d' ∈ errsDefs W es, complete d'.expr = true) →
    ∃ rs, resolveErrs W i es = some rs ∧ okErrs rs
  | [], _, _ => ⟨[], by simp only [resolveErrs], trivial⟩
  | e :: es, i, h => by
    simp only [errsDefs, List.mem_append] at h
    obtain ⟨r, hr, hok⟩ := ok_err W e i (fun d' hd' => h d' (.inl hd'))
    obtain ⟨rs, hrs, hoks⟩ := ok_errs W es i (fun d' hd' => h d' (.inr hd'))
    exact ⟨r :: rs, by simp only [resolveErrs, hr, hrs], hok, hoks⟩

theorem ok_err (W : World) : ∀ (e : Err) (i : Nat),
    (∀ d' ∈ errDefs W e, complete d'.expr = true) →
    ∃ r, resolveErr W i e = some r ∧ okErr r
  | .mk c ds dets, i, h => by
    simp only [errDefs, List.mem_append] at h
    obtain ⟨rs, hrs, hok⟩ := ok_defs W s!"_def{i}_def" ds [] 0 (fun d' hd' => h d' (.inl hd'))
    obtain ⟨rd, hrd, hokd⟩ := ok_details W dets i 0 (fun d' hd' => h d' (.inr hd'))
    exact ⟨.mk (condOf c) rs rd, by simp only [resolveErr, hrs, hrd, Option.map_some], hok, hokd⟩

theorem ok_details (W : World) : ∀ (dets : List Detail) (i j : Nat),
    (∀ d' ∈ detailsDefs W dets, complete d'.expr = true) →
    ∃ rs, resolveDetails W i j dets = some rs ∧ okDetails rs
  | [], _, _, _ => ⟨[], by simp only [resolveDetails], trivial⟩
  | d :: ds, i, j, h => by
    simp only [detailsDefs, List.mem_append] at h
    obtain ⟨r, hr, hok⟩ := ok_detail W d i j (fun d' hd' => h d' (.inl hd'))
    obtain ⟨rs, hrs, hoks⟩ := ok_details W ds i (j + 1) (fun d' hd' => h d' (.inr hd'))
    exact ⟨r :: rs, by simp only [resolveDetails, hr, hrs], hok, hoks⟩

theorem ok_detail (W : World) : ∀ (d : Detail) (i j : Nat),
    (∀ d' ∈ detailDefs W d, complete d'.expr = true) →
    ∃ r, resolveDetail W i j d = some r ∧ okDetail r
  | .mk c ds ms, i, j, h => by
    simp only [detailDefs, List.mem_append] at h
    obtain ⟨rs, hrs, hok⟩ := ok_defs W s!"_def{i}_err_detail{j}_def" ds [] 0 (fun d' hd' => h d' (.inl hd'))
    obtain ⟨rm, hrm, hokm⟩ := ok_messages W s!"_def{i}_err_detail{j}_msg" ms
      (fun m hm => h _ (.inr (List.mem_map.2 ⟨m, hm, rfl⟩))) 0
    exact ⟨.mk (condOf c) rs rm, by simp only [resolveDetail, hrs, hrm, Option.map_some], hok, hokm⟩

end

theorem ok_oneofs (W : World) (os : List (List Def))
    (h : ∀ o ∈ os, ∀ d ∈ allDefs W o, complete d.expr = true) :
    ∃ rs, resolveOneofs W os = some rs ∧ ∀ r ∈ rs, okDefs r := by
  induction os with
  | nil => exact ⟨[], rfl, fun r hr => by cases hr⟩
  | cons o os ih =>
    obtain ⟨r, hr, hok⟩ := ok_defs W "_oneof_def" o [] 0 (h o List.mem_cons_self)
    obtain ⟨rs, hrs, hoks⟩ := ih (fun o' ho' => h o' (List.mem_cons_of_mem _ ho'))
    refine ⟨r :: rs, by simp only [resolveOneofs, hr, hrs], ?_⟩
    intro x hx
    cases List.mem_cons.1 hx with
    | inl e => exact e ▸ hok
    | inr hx => exact hoks x hx

theorem okDefs_iff : ∀ (ds : List RDef), okDefs ds ↔ ∀ d ∈ ds, okDef d
  | [] => by simp [okDefs]
  | d :: ds => by simp [okDefs, okDefs_iff ds]

theorem ok_useAll (ds : List RDef) (h : okDefs ds) : useAll ds = some () := by
  induction ds with
  | nil => rfl
  | cons d ds ih =>
    obtain ⟨n, c, a, e, t⟩ := d
    simp only [okDefs, okDef] at h
    have ih := ih h.2
    unfold useAll
    split
    · exact ih
    · cases e <;> first | exact ih | exact absurd h.1 (by simp [okExpr])

/-! ## Step 2 -/

theorem celMsg_ok (W : World) (env : Env) {m : RMsg} (h : m.ok) : (celMsg W env m).1.ok := by
  intro a ha
  obtain ⟨b, hb, rfl⟩ := List.mem_map.1 ha
  have := h b hb
  simp only [Option.isSome_map, this]

theorem celMapE_ok (W : World) (env : Env) {e : RMapE} (h : e.ok) :
    ∃ e' t, celMapE W env e = some (e', t) ∧ e'.ok := by
  cases e with
  | nil => exact h.elim
  | «by» v => exact ⟨_, _, rfl, trivial⟩
  | message m => exact ⟨_, _, rfl, celMsg_ok W env h⟩
  | enum v => exact ⟨_, _, rfl, trivial⟩

theorem celMap_ok (W : World) (env : Env) (seen : Seen) (it : String) (src : Option String) {e : RMapE}
    (h : e.ok) : ∃ r t, celMap W env seen it src e = some (r, t) ∧ okExpr r := by
  unfold celMap
  cases (if it = "" then none else src) with
  | none =>
    obtain ⟨e', t, he, hok⟩ := celMapE_ok W env h
    exact ⟨.map it src e', t.map (fun t => ⟨t.kind, true⟩), by simp only [he, Option.map_some, mapTy], hok⟩
  | some s =>
    simp only
    cases seen.find s with
    | none => exact ⟨_, _, rfl, h⟩
    | some t =>
      simp only
      split
      · obtain ⟨e', t, he, hok⟩ := celMapE_ok W ((it, ⟨t.kind, false⟩) :: env) h
        exact ⟨.map it src e', t.map (fun t => ⟨t.kind, true⟩), by simp only [he, Option.map_some, mapTy], hok⟩
      · exact ⟨_, _, rfl, h⟩

mutual

theorem cel_defs (W : World) : ∀ (ds : List RDef) (env : Env) (seen : Seen), okDefs ds →
    ∃ rs env', celDefs W env seen ds = some (rs, env') ∧ okDefs rs
  | [], env, _, _ => ⟨[], env, by simp only [celDefs], trivial⟩
  | d :: ds, env, seen, h => by
    obtain ⟨r, env', hr, hok⟩ := cel_def W d env seen h.1
    obtain ⟨rs, env'', hrs, hoks⟩ := cel_defs W ds env' (if hidden r.expr then seen else (r.name, r.ty) :: seen) h.2
    exact ⟨r :: rs, env'', by simp only [celDefs, hr, hrs], hok, hoks⟩

theorem cel_def (W : World) : ∀ (d : RDef) (env : Env) (seen : Seen), okDef d →
    ∃ r env', celDef W env seen d = some (r, env') ∧ okDef r
  | .mk n c a e t, env, seen, h => by
    obtain ⟨r, t', hr, hok⟩ := cel_expr W e env seen h
    exact ⟨.mk n (c.map (celVal W env)) a r t', extend env n t', by simp only [celDef, hr], hok⟩

theorem cel_expr (W : World) : ∀ (e : RExpr) (env : Env) (seen : Seen), okExpr e →
    ∃ r t, celExpr W env seen e = some (r, t) ∧ okExpr r
  | .nil, _, _, h => by simp [okExpr] at h
  | .empty, _, _, _ => ⟨.empty, none, by simp only [celExpr], trivial⟩
  | .by v, env, _, _ => ⟨.by (celVal W env v), (celVal W env v).out, by simp only [celExpr], trivial⟩
  | .map it src e, env, seen, h => by
    simp only [celExpr]
    exact celMap_ok W env seen it src h
  | .message m, env, _, h => ⟨.message (celMsg W env m).1, (celMsg W env m).2, by simp only [celExpr], celMsg_ok W env h⟩
  | .enum v, env, _, _ => ⟨.enum (celVal W env v), some ⟨.enum, false⟩, by simp only [celExpr], trivial⟩
  | .call resp es, env, _, h => by
    obtain ⟨rs, hrs, hok⟩ := cel_errs W es (("error", errTy) :: env) h
    exact ⟨.call resp rs, some ⟨.message (some resp), false⟩, by simp only [celExpr, hrs], hok⟩
  | .validation e, env, _, h => by
    obtain ⟨r, hr, hok⟩ := cel_err W e env h
    exact ⟨.validation r, some ⟨.bool, false⟩, by simp only [celExpr, hr], hok⟩

theorem cel_errs (W : World) : ∀ (es : List RErr) (env : Env), okErrs es →
    ∃ rs, celErrs W env es = some rs ∧ okErrs rs
  | [], _, _ => ⟨[], by simp only [celErrs], trivial⟩
  | e :: es, env, h => by
    obtain ⟨r, hr, hok⟩ := cel_err W e env h.1
    obtain ⟨rs, hrs, hoks⟩ := cel_errs W es env h.2
    exact ⟨r :: rs, by simp only [celErrs, hr, hrs], hok, hoks⟩

theorem cel_err (W : World) : ∀ (e : RErr) (env : Env), okErr e →
    ∃ r, celErr W env e = some r ∧ okErr r
  | .mk c ds dets, env, h => by
    obtain ⟨rs, env', hrs, hok⟩ := cel_defs W ds env [] h.1
    obtain ⟨rd, hrd, hokd⟩ := cel_details W dets env' h.2
    exact ⟨.mk (celVal W env' c) rs rd, by simp only [celErr, hrs, hrd, Option.map_some], hok, hokd⟩

theorem cel_details (W : World) : ∀ (ds : List RDetail) (env : Env), okDetails ds →
    ∃ rs, celDetails W env ds = some rs ∧ okDetails rs
  | [], _, _ => ⟨[], by simp only [celDetails], trivial⟩
  | d :: ds, env, h => by
    obtain ⟨r, hr, hok⟩ := cel_detail W d env h.1
    obtain ⟨rs, hrs, hoks⟩ := cel_details W ds env h.2
    exact ⟨r :: rs, by simp only [celDetails, hr, hrs], hok, hoks⟩

theorem cel_detail (W : World) : ∀ (d : RDetail) (env : Env), okDetail d →
    ∃ r, celDetail W env d = some r ∧ okDetail r
  | .mk c ds ms, env, h => by
    obtain ⟨rs, env', hrs, hok⟩ := cel_defs W ds env [] h.1
    obtain ⟨rm, env'', hrm, hokm⟩ := cel_defs W ms env' [] h.2
    exact ⟨.mk (celVal W env' c) rs rm, by simp only [celDetail, hrs, hrm], hok, hokm⟩

end

theorem cel_oneofs (W : World) (env : Env) (os : List (List RDef)) (h : ∀ o ∈ os, okDefs o) :
    ∃ rs, celOneofs W env os = some rs ∧ ∀ r ∈ rs, okDefs r := by
  induction os with
  | nil => exact ⟨[], rfl, fun r hr => by cases hr⟩
  | cons o os ih =>
    obtain ⟨r, env', hr, hok⟩ := cel_defs W o env [] (h o List.mem_cons_self)
    obtain ⟨rs, hrs, hoks⟩ := ih (fun o' ho' => h o' (List.mem_cons_of_mem _ ho'))
    refine ⟨r :: rs, by simp only [celOneofs, hr, hrs], ?_⟩
    intro x hx
    cases List.mem_cons.1 hx with
    | inl e => exact e ▸ hok
    | inr hx => exact hoks x hx

/-! ## Step 3 -/

mutual

theorem msgs_ok : ∀ (ds : List RDef), okDefs ds → ∀ m ∈ msgExprs ds, m.ok
  | [], _, m, hm => by simp [msgExprs] at hm
  | d :: ds, h, m, hm => by
    simp only [msgExprs, List.mem_append] at hm
    exact hm.elim (defMsgs_ok d h.1 m) (msgs_ok ds h.2 m)

theorem defMsgs_ok : ∀ (d : RDef), okDef d → ∀ m ∈ defMsgs d, m.ok
  | .mk _ _ _ e _, h, m, hm => exprMsgs_ok e h m (by simpa only [defMsgs] using hm)

theorem exprMsgs_ok : ∀ (e : RExpr), okExpr e → ∀ m ∈ exprMsgs e, m.ok
  | .nil, _, m, hm => by simp [exprMsgs] at hm
  | .empty, _, m, hm => by simp [exprMsgs] at hm
  | .by _, _, m, hm => by simp [exprMsgs] at hm
  | .map _ _ .nil, _, m, hm => by simp [exprMsgs] at hm
  | .map _ _ (.by _), _, m, hm => by simp [exprMsgs] at hm
  | .map _ _ (.enum _), _, m, hm => by simp [exprMsgs] at hm
  | .map _ _ (.message m'), h, m, hm => by
    simp only [exprMsgs, List.mem_singleton] at hm
    exact hm ▸ h
  | .message m', h, m, hm => by
    simp only [exprMsgs, List.mem_singleton] at hm
    exact hm ▸ h
  | .enum _, _, m, hm => by simp [exprMsgs] at hm
  | .call _ es, h, m, hm => errsMsgs_ok es h m (by simpa only [exprMsgs] using hm)
  | .validation e, h, m, hm => errMsgs_ok e h m (by simpa only [exprMsgs] using hm)

theorem errsMsgs_ok : ∀ (es : List RErr), okErrs es → ∀ m ∈ errsMsgs es, m.ok
  | [], _, m, hm => by simp [errsMsgs] at hm
  | e :: es, h, m, hm => by
    simp only [errsMsgs, List.mem_append] at hm
    exact hm.elim (errMsgs_ok e h.1 m) (errsMsgs_ok es h.2 m)

theorem errMsgs_ok : ∀ (e : RErr), okErr e → ∀ m ∈ errMsgs e, m.ok
  | .mk _ ds dets, h, m, hm => by
    simp only [errMsgs, List.mem_append] at hm
    exact hm.elim (msgs_ok ds h.1 m) (detailsMsgs_ok dets h.2 m)

theorem detailsMsgs_ok : ∀ (ds : List RDetail), okDetails ds → ∀ m ∈ detailsMsgs ds, m.ok
  | [], _, m, hm => by simp [detailsMsgs] at hm
  | d :: ds, h, m, hm => by
    simp only [detailsMsgs, List.mem_append] at hm
    exact hm.elim (detailMsgs_ok d h.1 m) (detailsMsgs_ok ds h.2 m)

theorem detailMsgs_ok : ∀ (d : RDetail), okDetail d → ∀ m ∈ detailMsgs d, m.ok
  | .mk _ ds ms, h, m, hm => by
    simp only [detailMsgs, List.mem_append] at hm
    exact hm.elim (msgs_ok ds h.1 m) (msgs_ok ms h.2 m)

end

theorem checkArgs_some {as : List RArg} : checkArgs as = some () ↔ ∀ a ∈ as, a.value.isSome = true := by
  induction as with
  | nil => simp [checkArgs]
  | cons a as ih =>
    unfold checkArgs
    cases hv : a.value with
    | none => simp [hv]
    | some v => simp [hv, ih]

theorem checkArgs_none {as : List RArg} : checkArgs as = none ↔ ∃ a ∈ as, a.value = none := by
  induction as with
  | nil => simp [checkArgs]
  | cons a as ih =>
    unfold checkArgs
    cases hv : a.value with
    | none => simp [hv]
    | some v => simp [hv, ih]

theorem argPass_ok (ms : List RMsg) (h : ∀ m ∈ ms, m.ok) : argPass ms = some () := by
  induction ms with
  | nil => rfl
  | cons m ms ih =>
    have ih := ih (fun m' hm' => h m' (List.mem_cons_of_mem _ hm'))
    unfold argPass
    cases m.message with
    | none => exact ih
    | some f =>
      simp only [checkArgs_some.2 (h m List.mem_cons_self), ih, ite_self]

theorem argPass_none {ms : List RMsg} : argPass ms = none ↔
    ∃ m ∈ ms, ∃ f, m.message = some f ∧ f.hasRule = true ∧ ∃ a ∈ m.args, a.value = none := by
  induction ms with
  | nil => simp [argPass]
  | cons m ms ih =>
    unfold argPass
    cases hm : m.message with
    | none => simp [hm, ih]
    | some f =>
      cases hf : f.hasRule with
      | false => simp [hm, hf, ih]
      | true =>
        simp only [hf, if_true]
        cases hc : checkArgs m.args with
        | none =>
          have := checkArgs_none.1 hc
          simp only [true_iff]
          exact ⟨m, List.mem_cons_self, f, hm, hf, this⟩
        | some u =>
          have hn : ¬ ∃ a ∈ m.args, a.value = none := fun hx => by
            rw [checkArgs_none.2 hx] at hc; cases hc
          simp only [ih, List.mem_cons]
          constructor
          · rintro ⟨m', hm', rest⟩; exact ⟨m', .inr hm', rest⟩
          · rintro ⟨m', rfl | hm', f', h1, h2, h3⟩
            · exact absurd h3 hn
            · exact ⟨m', hm', f', h1, h2, h3⟩

/-! ## Steps 4 and 5 -/

theorem byName_ok (ds : List RDef) (h : okDefs ds) : byName ds = some () := by
  induction ds with
  | nil => rfl
  | cons d ds ih =>
    obtain ⟨n, c, a, e, t⟩ := d
    have ih := ih h.2
    have h1 : okExpr e := h.1
    unfold byName
    cases e <;> first | exact ih | exact absurd h1 (by simp [okExpr])

theorem byNames_ok (ss : List (List RDef)) (h : ∀ s ∈ ss, okDefs s) : byNames ss = some () := by
  induction ss with
  | nil => rfl
  | cons s ss ih =>
    simp only [byNames, byName_ok s (h s List.mem_cons_self)]
    exact ih (fun s' hs' => h s' (List.mem_cons_of_mem _ hs'))

theorem detailSets_ok : ∀ (ds : List RDetail), okDetails ds → ∀ s ∈ detailSets ds, okDefs s
  | [], _, s, hs => by simp [detailSets] at hs
  | .mk _ ds ms :: rest, h, s, hs => by
    simp only [detailSets, List.mem_cons] at hs
    rcases hs with rfl | rfl | hs
    · exact h.1.1
    · exact h.1.2
    · exact detailSets_ok rest h.2 s hs

theorem errSets_ok (e : RErr) (h : okErr e) : ∀ s ∈ errSets e, okDefs s := by
  obtain ⟨c, ds, dets⟩ := e
  intro s hs
  simp only [errSets, List.mem_cons] at hs
  rcases hs with rfl | hs
  · exact h.1
  · exact detailSets_ok dets h.2 s hs

theorem okErrs_mem : ∀ (es : List RErr), okErrs es → ∀ e ∈ es, okErr e
  | [], _, e, he => by cases he
  | e' :: es, h, e, he => by
    cases List.mem_cons.1 he with
    | inl x => exact x ▸ h.1
    | inr x => exact okErrs_mem es h.2 e x

theorem defSets_ok (d : RDef) (h : okDef d) : ∀ s ∈ defSets d, okDefs s := by
  obtain ⟨n, c, a, e, t⟩ := d
  intro s hs
  cases e with
  | call r es =>
    simp only [defSets, List.mem_flatMap] at hs
    obtain ⟨e, he, hs⟩ := hs
    exact errSets_ok e (okErrs_mem es h e he) s hs
  | validation e => exact errSets_ok e h s hs
  | _ => simp [defSets] at hs

/-- The type of an automatically bound definition is no message that was not found. -/
def bound (d : RDef) : Prop :=
  d.autobind = true → d.expr ≠ .nil ∧ ∀ t, d.ty = some t → t.kind ≠ .message none

theorem autoBind_none {ds : List RDef} : autoBind ds = none ↔ ∃ d ∈ ds, ¬ bound d := by
  induction ds with
  | nil => simp [autoBind]
  | cons d ds ih =>
    obtain ⟨n, c, a, e, t⟩ := d
    have key : ∀ (P : Prop), (P ↔ ¬ bound (.mk n c a e t)) →
        ((P ∨ autoBind ds = none) ↔ ∃ d ∈ (RDef.mk n c a e t) :: ds, ¬ bound d) := by
      intro P hP
      rw [ih, hP]
      constructor
      · rintro (h | ⟨d, hd, h⟩)
        · exact ⟨_, List.mem_cons_self, h⟩
        · exact ⟨d, List.mem_cons_of_mem _ hd, h⟩
      · rintro ⟨d, hd, h⟩
        cases List.mem_cons.1 hd with
        | inl x => exact .inl (x ▸ h)
        | inr x => exact .inr ⟨d, x, h⟩
    cases a with
    | false =>
      rw [← key False (by simp [bound, RDef.autobind])]
      simp [autoBind]
    | true =>
      by_cases he : e = .nil
      · subst he
        rw [← key True (by simp [bound, RDef.autobind, RDef.expr])]
        simp [autoBind]
      · cases t with
        | none =>
          rw [← key False (by simp [bound, RDef.autobind, RDef.expr, RDef.ty, he])]
          cases e <;> first | exact absurd rfl he | simp [autoBind]
        | some t =>
          obtain ⟨k, r⟩ := t
          by_cases hk : k = .message none
          · subst hk
            rw [← key True (by simp [bound, RDef.autobind, RDef.expr, RDef.ty, he])]
            cases e <;> first | exact absurd rfl he | simp [autoBind]
          · rw [← key False (by simp [bound, RDef.autobind, RDef.expr, RDef.ty, he, hk])]
            cases k with
            | message o => cases o with
              | none => exact absurd rfl hk
              | some o => cases e <;> first | exact absurd rfl he | simp [autoBind]
            | _ => cases e <;> first | exact absurd rfl he | simp [autoBind]

end Verif.Unfinished
