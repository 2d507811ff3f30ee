import Verif.Unfinished.Lemmas

/-!
# Where unfinished definitions end up
-/

namespace Verif.Unfinished

mutual

/-- All resolved definitions, also those inside error entries. -/
def rAll : List RDef → List RDef
  | [] => []
  | d :: ds => rDef d ++ rAll ds

def rDef : RDef → List RDef
  | .mk n c a e t => .mk n c a e t :: rExpr e

def rExpr : RExpr → List RDef
  | .call _ es => rErrs es
  | .validation e => rErr e
  | _ => []

def rErrs : List RErr → List RDef
  | [] => []
  | e :: es => rErr e ++ rErrs es

def rErr : RErr → List RDef
  | .mk _ ds dets => rAll ds ++ rDetails dets

def rDetails : List RDetail → List RDef
  | [] => []
  | d :: ds => rDetail d ++ rDetails ds

def rDetail : RDetail → List RDef
  | .mk _ ds ms => rAll ds ++ rAll ms

end

/-- The resolved definition comes from the written one. -/
def From (W : World) (d : Def) (r : RDef) : Prop := ∃ vars i, resolveExpr W vars i d.expr = some r.expr

theorem from_messages (W : World) (pre : String) : ∀ (ms : List MsgE) (i : Nat) (rs : List RDef),
    resolveMessages W pre i ms = some rs → ∀ m ∈ ms, ∃ r ∈ rAll rs, From W (.mk "" "" false (.message m)) r
  | [], _, _, _, m, hm => by cases hm
  | m' :: ms, i, rs, h, m, hm => by
    simp only [resolveMessages, resolveMsg_true] at h
    cases hr : resolveMessages W pre (i + 1) ms with
    | none => rw [hr] at h; cases h
    | some rs' =>
      rw [hr] at h
      simp only [Option.some.injEq] at h
      subst h
      cases List.mem_cons.1 hm with
      | inl e =>
        subst e
        refine ⟨.mk (pre ++ toString i) none false (.message ⟨W.message m.name, m.args.map resolveArg⟩) none, ?_, [], 0, ?_⟩
        · simp [rAll, rDef]
        · simp only [Def.expr, resolveExpr, resolveMsg_true, Option.map_some, RDef.expr]
      | inr hm =>
        obtain ⟨r, hr', hf⟩ := from_messages W pre ms (i + 1) rs' hr m hm
        exact ⟨r, by simp only [rAll, List.mem_append]; exact .inr hr', hf⟩

mutual

theorem from_defs (W : World) (pre : String) : ∀ (ds : List Def) (vars : List String) (i : Nat) (rs : List RDef),
    resolveDefs W pre vars i ds = some rs → ∀ d ∈ allDefs W ds, ∃ r ∈ rAll rs, From W d r
  | [], _, _, _, _, d, hd => by simp [allDefs] at hd
  | d' :: ds, vars, i, rs, h, d, hd => by
    simp only [resolveDefs] at h
    cases hr : resolveDef W pre vars i d' with
    | none => rw [hr] at h; cases h
    | some r =>
      rw [hr] at h
      simp only at h
      cases hrs : resolveDefs W pre (if hidden r.expr then vars else r.name :: vars) (i + 1) ds with
      | none => rw [hrs] at h; cases h
      | some rs' =>
        rw [hrs] at h
        simp only [Option.some.injEq] at h
        subst h
        simp only [allDefs, List.mem_append] at hd
        simp only [rAll, List.mem_append]
        cases hd with
        | inl hd =>
          obtain ⟨x, hx, hf⟩ := from_def W pre d' vars i r hr d hd
          exact ⟨x, .inl hx, hf⟩
        | inr hd =>
          obtain ⟨x, hx, hf⟩ := from_defs W pre ds _ (i + 1) rs' hrs d hd
          exact ⟨x, .inr hx, hf⟩
termination_by structural x => x

theorem from_def (W : World) (pre : String) : ∀ (d' : Def) (vars : List String) (i : Nat) (r : RDef),
    resolveDef W pre vars i d' = some r → ∀ d ∈ defDefs W d', ∃ x ∈ rDef r, From W d x
  | .mk n c a e, vars, i, r, h, d, hd => by
    simp only [resolveDef] at h
    cases hr : resolveExpr W vars i e with
    | none => rw [hr] at h; cases h
    | some e' =>
      rw [hr] at h
      simp only [Option.some.injEq] at h
      subst h
      simp only [defDefs, List.mem_cons] at hd
      simp only [rDef, List.mem_cons]
      cases hd with
      | inl hd => exact ⟨_, .inl rfl, vars, i, by rw [hd]; exact hr⟩
      | inr hd =>
        obtain ⟨x, hx, hf⟩ := from_expr W e vars i e' hr d hd
        exact ⟨x, .inr hx, hf⟩
termination_by structural x => x

theorem from_expr (W : World) : ∀ (e : Expr) (vars : List String) (i : Nat) (r : RExpr),
    resolveExpr W vars i e = some r → ∀ d ∈ exprDefs W e, ∃ x ∈ rExpr r, From W d x
  | .missing, _, _, _, _, d, hd => by simp [exprDefs] at hd
  | .by _, _, _, _, _, d, hd => by simp [exprDefs] at hd
  | .map _ _ _, _, _, _, _, d, hd => by simp [exprDefs] at hd
  | .message _, _, _, _, _, d, hd => by simp [exprDefs] at hd
  | .enum _, _, _, _, _, d, hd => by simp [exprDefs] at hd
  | .validationEmpty, _, _, _, _, d, hd => by simp [exprDefs] at hd
  | .call m es, _, i, r, h, d, hd => by
    simp only [resolveExpr] at h
    cases hm : W.method m with
    | none => simp [exprDefs, hm] at hd
    | some resp =>
      simp only [exprDefs, hm, Option.isSome_some, if_true] at hd
      simp only [hm] at h
      cases hr : resolveErrs W i es with
      | none => rw [hr] at h; cases h
      | some rs =>
        simp only [hr, Option.map_some, Option.some.injEq] at h
        subst h
        simpa only [rExpr] using from_errs W es i rs hr d hd
  | .validation e, _, i, r, h, d, hd => by
    simp only [resolveExpr] at h
    simp only [exprDefs] at hd
    cases hr : resolveErr W i e with
    | none => rw [hr] at h; cases h
    | some rs =>
      simp only [hr, Option.map_some, Option.some.injEq] at h
      subst h
      simpa only [rExpr] using from_err W e i rs hr d hd
termination_by structural x => x

theorem from_errs (W : World) : ∀ (es : List Err) (i : Nat) (rs : List RErr),
    resolveErrs W i es = some rs → ∀ d ∈ errsDefs W es, ∃ x ∈ rErrs rs, From W d x
  | [], _, _, _, d, hd => by simp [errsDefs] at hd
  | e :: es, i, rs, h, d, hd => by
    simp only [resolveErrs] at h
    cases hr : resolveErr W i e with
    | none => rw [hr] at h; cases h
    | some r =>
      simp only [hr] at h
      cases hrs : resolveErrs W i es with
      | none => rw [hrs] at h; cases h
      | some rs' =>
        simp only [hrs, Option.some.injEq] at h
        subst h
        simp only [errsDefs, List.mem_append] at hd
        simp only [rErrs, List.mem_append]
        cases hd with
        | inl hd =>
          obtain ⟨x, hx, hf⟩ := from_err W e i r hr d hd
          exact ⟨x, .inl hx, hf⟩
        | inr hd =>
          obtain ⟨x, hx, hf⟩ := from_errs W es i rs' hrs d hd
          exact ⟨x, .inr hx, hf⟩
termination_by structural x => x

theorem from_err (W : World) : ∀ (e : Err) (i : Nat) (r : RErr),
    resolveErr W i e = some r → ∀ d ∈ errDefs W e, ∃ x ∈ rErr r, From W d x
  | .mk c ds dets, i, r, h, d, hd => by
    simp only [resolveErr] at h
    cases hr : resolveDefs W s!"_def{i}_def" [] 0 ds with
    | none => rw [hr] at h; cases h
    | some rs =>
      simp only [hr] at h
      cases hrd : resolveDetails W i 0 dets with
      | none => rw [hrd] at h; cases h
      | some rd =>
        simp only [hrd, Option.map_some, Option.some.injEq] at h
        subst h
        simp only [errDefs, List.mem_append] at hd
        simp only [rErr, List.mem_append]
        cases hd with
        | inl hd =>
          obtain ⟨x, hx, hf⟩ := from_defs W _ ds [] 0 rs hr d hd
          exact ⟨x, .inl hx, hf⟩
        | inr hd =>
          obtain ⟨x, hx, hf⟩ := from_details W dets i 0 rd hrd d hd
          exact ⟨x, .inr hx, hf⟩
termination_by structural x => x

theorem from_details (W : World) : ∀ (dets : List Detail) (i j : Nat) (rs : List RDetail),
    resolveDetails W i j dets = some rs → ∀ d ∈ detailsDefs W dets, ∃ x ∈ rDetails rs, From W d x
  | [], _, _, _, _, d, hd => by simp [detailsDefs] at hd
  | e :: es, i, j, rs, h, d, hd => by
    simp only [resolveDetails] at h
    cases hr : resolveDetail W i j e with
    | none => rw [hr] at h; cases h
    | some r =>
      simp only [hr] at h
      cases hrs : resolveDetails W i (j + 1) es with
      | none => rw [hrs] at h; cases h
      | some rs' =>
        simp only [hrs, Option.some.injEq] at h
        subst h
        simp only [detailsDefs, List.mem_append] at hd
        simp only [rDetails, List.mem_append]
        cases hd with
        | inl hd =>
          obtain ⟨x, hx, hf⟩ := from_detail W e i j r hr d hd
          exact ⟨x, .inl hx, hf⟩
        | inr hd =>
          obtain ⟨x, hx, hf⟩ := from_details W es i (j + 1) rs' hrs d hd
          exact ⟨x, .inr hx, hf⟩
termination_by structural x => x

theorem from_detail (W : World) : ∀ (e : Detail) (i j : Nat) (r : RDetail),
    resolveDetail W i j e = some r → ∀ d ∈ detailDefs W e, ∃ x ∈ rDetail r, From W d x
  | .mk c ds ms, i, j, r, h, d, hd => by
    simp only [resolveDetail] at h
    cases hr : resolveDefs W s!"_def{i}_err_detail{j}_def" [] 0 ds with
    | none => rw [hr] at h; cases h
    | some rs =>
      simp only [hr] at h
      cases hrm : resolveMessages W s!"_def{i}_err_detail{j}_msg" 0 ms with
      | none => rw [hrm] at h; cases h
      | some rm =>
        simp only [hrm, Option.map_some, Option.some.injEq] at h
        subst h
        simp only [detailDefs, List.mem_append, List.mem_map] at hd
        simp only [rDetail, List.mem_append]
        cases hd with
        | inl hd =>
          obtain ⟨x, hx, hf⟩ := from_defs W _ ds [] 0 rs hr d hd
          exact ⟨x, .inl hx, hf⟩
        | inr hd =>
          obtain ⟨m, hm, rfl⟩ := hd
          obtain ⟨x, hx, hf⟩ := from_messages W _ ms 0 rm hrm m hm
          exact ⟨x, .inr hx, hf⟩
termination_by structural x => x

end

theorem from_oneofs (W : World) : ∀ (os : List (List Def)) (rs : List (List RDef)),
    resolveOneofs W os = some rs → ∀ o ∈ os, ∃ r ∈ rs, resolveDefs W "_oneof_def" [] 0 o = some r
  | [], _, _, o, ho => by cases ho
  | o' :: os, rs, h, o, ho => by
    simp only [resolveOneofs] at h
    cases hr : resolveDefs W "_oneof_def" [] 0 o' with
    | none => rw [hr] at h; cases h
    | some r =>
      simp only [hr] at h
      cases hrs : resolveOneofs W os with
      | none => rw [hrs] at h; cases h
      | some rs' =>
        simp only [hrs, Option.some.injEq] at h
        subst h
        cases List.mem_cons.1 ho with
        | inl e => exact ⟨r, List.mem_cons_self, e ▸ hr⟩
        | inr ho =>
          obtain ⟨x, hx, hf⟩ := from_oneofs W os rs' hrs o ho
          exact ⟨x, List.mem_cons_of_mem _ hx, hf⟩

/-- Each definition of the list itself is resolved. -/
theorem from_top (W : World) (pre : String) : ∀ (ds : List Def) (vars : List String) (i : Nat) (rs : List RDef),
    resolveDefs W pre vars i ds = some rs → ∀ d ∈ ds, ∃ r ∈ rs, ∃ vars i, resolveDef W pre vars i d = some r
  | [], _, _, _, _, d, hd => by cases hd
  | d' :: ds, vars, i, rs, h, d, hd => by
    simp only [resolveDefs] at h
    cases hr : resolveDef W pre vars i d' with
    | none => rw [hr] at h; cases h
    | some r =>
      simp only [hr] at h
      cases hrs : resolveDefs W pre (if hidden r.expr then vars else r.name :: vars) (i + 1) ds with
      | none => rw [hrs] at h; cases h
      | some rs' =>
        simp only [hrs, Option.some.injEq] at h
        subst h
        cases List.mem_cons.1 hd with
        | inl e => exact ⟨r, List.mem_cons_self, vars, i, e ▸ hr⟩
        | inr hd =>
          obtain ⟨x, hx, hf⟩ := from_top W pre ds _ (i + 1) rs' hrs d hd
          exact ⟨x, List.mem_cons_of_mem _ hx, hf⟩

/-! ## Step 2 -/

/-- The definition is what checking makes of the other one. -/
def Checked (W : World) (r r' : RDef) : Prop :=
  ∃ env seen t, celExpr W env seen r.expr = some (r'.expr, t)

mutual

theorem chk_defs (W : World) : ∀ (ds : List RDef) (env : Env) (seen : Seen) (rs : List RDef) (env' : Env),
    celDefs W env seen ds = some (rs, env') → ∀ d ∈ rAll ds, ∃ r ∈ rAll rs, Checked W d r
  | [], _, _, _, _, _, d, hd => by simp [rAll] at hd
  | d' :: ds, env, seen, rs, env', h, d, hd => by
    simp only [celDefs] at h
    cases hr : celDef W env seen d' with
    | none => rw [hr] at h; cases h
    | some p =>
      obtain ⟨r, env1⟩ := p
      simp only [hr] at h
      cases hrs : celDefs W env1 (if hidden r.expr then seen else (r.name, r.ty) :: seen) ds with
      | none => rw [hrs] at h; cases h
      | some q =>
        obtain ⟨rs', env2⟩ := q
        simp only [hrs, Option.some.injEq, Prod.mk.injEq] at h
        obtain ⟨rfl, rfl⟩ := h
        simp only [rAll, List.mem_append] at hd ⊢
        cases hd with
        | inl hd =>
          obtain ⟨x, hx, hf⟩ := chk_def W d' env seen r env1 hr d hd
          exact ⟨x, .inl hx, hf⟩
        | inr hd =>
          obtain ⟨x, hx, hf⟩ := chk_defs W ds _ _ rs' _ hrs d hd
          exact ⟨x, .inr hx, hf⟩
termination_by structural x => x

theorem chk_def (W : World) : ∀ (d' : RDef) (env : Env) (seen : Seen) (r : RDef) (env' : Env),
    celDef W env seen d' = some (r, env') → ∀ d ∈ rDef d', ∃ x ∈ rDef r, Checked W d x
  | .mk n c a e t, env, seen, r, env', h, d, hd => by
    simp only [celDef] at h
    cases hr : celExpr W env seen e with
    | none => rw [hr] at h; cases h
    | some p =>
      obtain ⟨e', t'⟩ := p
      simp only [hr, Option.some.injEq, Prod.mk.injEq] at h
      obtain ⟨rfl, rfl⟩ := h
      simp only [rDef, List.mem_cons] at hd ⊢
      cases hd with
      | inl hd => exact ⟨_, .inl rfl, env, seen, t', by rw [hd]; exact hr⟩
      | inr hd =>
        obtain ⟨x, hx, hf⟩ := chk_expr W e env seen e' t' hr d hd
        exact ⟨x, .inr hx, hf⟩
termination_by structural x => x

theorem chk_expr (W : World) : ∀ (e : RExpr) (env : Env) (seen : Seen) (r : RExpr) (t : Option Ty),
    celExpr W env seen e = some (r, t) → ∀ d ∈ rExpr e, ∃ x ∈ rExpr r, Checked W d x
  | .nil, _, _, _, _, _, d, hd => by simp [rExpr] at hd
  | .empty, _, _, _, _, _, d, hd => by simp [rExpr] at hd
  | .by _, _, _, _, _, _, d, hd => by simp [rExpr] at hd
  | .map _ _ _, _, _, _, _, _, d, hd => by simp [rExpr] at hd
  | .message _, _, _, _, _, _, d, hd => by simp [rExpr] at hd
  | .enum _, _, _, _, _, _, d, hd => by simp [rExpr] at hd
  | .call resp es, env, _, r, t, h, d, hd => by
    simp only [celExpr] at h
    simp only [rExpr] at hd
    cases hr : celErrs W (("error", errTy) :: env) es with
    | none => rw [hr] at h; cases h
    | some rs =>
      simp only [hr, Option.some.injEq, Prod.mk.injEq] at h
      obtain ⟨rfl, rfl⟩ := h
      simpa only [rExpr] using chk_errs W es _ rs hr d hd
  | .validation e, env, _, r, t, h, d, hd => by
    simp only [celExpr] at h
    simp only [rExpr] at hd
    cases hr : celErr W env e with
    | none => rw [hr] at h; cases h
    | some rs =>
      simp only [hr, Option.some.injEq, Prod.mk.injEq] at h
      obtain ⟨rfl, rfl⟩ := h
      simpa only [rExpr] using chk_err W e _ rs hr d hd
termination_by structural x => x

theorem chk_errs (W : World) : ∀ (es : List RErr) (env : Env) (rs : List RErr),
    celErrs W env es = some rs → ∀ d ∈ rErrs es, ∃ x ∈ rErrs rs, Checked W d x
  | [], _, _, _, d, hd => by simp [rErrs] at hd
  | e :: es, env, rs, h, d, hd => by
    simp only [celErrs] at h
    cases hr : celErr W env e with
    | none => rw [hr] at h; cases h
    | some r =>
      simp only [hr] at h
      cases hrs : celErrs W env es with
      | none => rw [hrs] at h; cases h
      | some rs' =>
        simp only [hrs, Option.some.injEq] at h
        subst h
        simp only [rErrs, List.mem_append] at hd ⊢
        cases hd with
        | inl hd =>
          obtain ⟨x, hx, hf⟩ := chk_err W e env r hr d hd
          exact ⟨x, .inl hx, hf⟩
        | inr hd =>
          obtain ⟨x, hx, hf⟩ := chk_errs W es env rs' hrs d hd
          exact ⟨x, .inr hx, hf⟩
termination_by structural x => x

theorem chk_err (W : World) : ∀ (e : RErr) (env : Env) (r : RErr),
    celErr W env e = some r → ∀ d ∈ rErr e, ∃ x ∈ rErr r, Checked W d x
  | .mk c ds dets, env, r, h, d, hd => by
    simp only [celErr] at h
    cases hr : celDefs W env [] ds with
    | none => rw [hr] at h; cases h
    | some p =>
      obtain ⟨rs, env1⟩ := p
      simp only [hr] at h
      cases hrd : celDetails W env1 dets with
      | none => rw [hrd] at h; cases h
      | some rd =>
        simp only [hrd, Option.map_some, Option.some.injEq] at h
        subst h
        simp only [rErr, List.mem_append] at hd ⊢
        cases hd with
        | inl hd =>
          obtain ⟨x, hx, hf⟩ := chk_defs W ds env [] rs env1 hr d hd
          exact ⟨x, .inl hx, hf⟩
        | inr hd =>
          obtain ⟨x, hx, hf⟩ := chk_details W dets env1 rd hrd d hd
          exact ⟨x, .inr hx, hf⟩
termination_by structural x => x

theorem chk_details (W : World) : ∀ (es : List RDetail) (env : Env) (rs : List RDetail),
    celDetails W env es = some rs → ∀ d ∈ rDetails es, ∃ x ∈ rDetails rs, Checked W d x
  | [], _, _, _, d, hd => by simp [rDetails] at hd
  | e :: es, env, rs, h, d, hd => by
    simp only [celDetails] at h
    cases hr : celDetail W env e with
    | none => rw [hr] at h; cases h
    | some r =>
      simp only [hr] at h
      cases hrs : celDetails W env es with
      | none => rw [hrs] at h; cases h
      | some rs' =>
        simp only [hrs, Option.some.injEq] at h
        subst h
        simp only [rDetails, List.mem_append] at hd ⊢
        cases hd with
        | inl hd =>
          obtain ⟨x, hx, hf⟩ := chk_detail W e env r hr d hd
          exact ⟨x, .inl hx, hf⟩
        | inr hd =>
          obtain ⟨x, hx, hf⟩ := chk_details W es env rs' hrs d hd
          exact ⟨x, .inr hx, hf⟩
termination_by structural x => x

theorem chk_detail (W : World) : ∀ (e : RDetail) (env : Env) (r : RDetail),
    celDetail W env e = some r → ∀ d ∈ rDetail e, ∃ x ∈ rDetail r, Checked W d x
  | .mk c ds ms, env, r, h, d, hd => by
    simp only [celDetail] at h
    cases hr : celDefs W env [] ds with
    | none => rw [hr] at h; cases h
    | some p =>
      obtain ⟨rs, env1⟩ := p
      simp only [hr] at h
      cases hrm : celDefs W env1 [] ms with
      | none => rw [hrm] at h; cases h
      | some q =>
        obtain ⟨rm, env2⟩ := q
        simp only [hrm, Option.some.injEq] at h
        subst h
        simp only [rDetail, List.mem_append] at hd ⊢
        cases hd with
        | inl hd =>
          obtain ⟨x, hx, hf⟩ := chk_defs W ds env [] rs env1 hr d hd
          exact ⟨x, .inl hx, hf⟩
        | inr hd =>
          obtain ⟨x, hx, hf⟩ := chk_defs W ms env1 [] rm env2 hrm d hd
          exact ⟨x, .inr hx, hf⟩
termination_by structural x => x

end

theorem chk_oneofs (W : World) (env : Env) : ∀ (os rs : List (List RDef)),
    celOneofs W env os = some rs → ∀ o ∈ os, ∃ r ∈ rs, ∃ env', celDefs W env [] o = some (r, env')
  | [], _, _, o, ho => by cases ho
  | o' :: os, rs, h, o, ho => by
    simp only [celOneofs] at h
    cases hr : celDefs W env [] o' with
    | none => rw [hr] at h; cases h
    | some p =>
      obtain ⟨r, env1⟩ := p
      simp only [hr] at h
      cases hrs : celOneofs W env os with
      | none => rw [hrs] at h; cases h
      | some rs' =>
        simp only [hrs, Option.some.injEq] at h
        subst h
        cases List.mem_cons.1 ho with
        | inl e => exact ⟨r, List.mem_cons_self, env1, e ▸ hr⟩
        | inr ho =>
          obtain ⟨x, hx, hf⟩ := chk_oneofs W env os rs' hrs o ho
          exact ⟨x, List.mem_cons_of_mem _ hx, hf⟩

/-- Each definition of the list itself is checked. -/
theorem chk_top (W : World) : ∀ (ds : List RDef) (env : Env) (seen : Seen) (rs : List RDef) (env' : Env),
    celDefs W env seen ds = some (rs, env') →
    ∀ d ∈ ds, ∃ r ∈ rs, ∃ env seen env'', celDef W env seen d = some (r, env'')
  | [], _, _, _, _, _, d, hd => by cases hd
  | d' :: ds, env, seen, rs, env', h, d, hd => by
    simp only [celDefs] at h
    cases hr : celDef W env seen d' with
    | none => rw [hr] at h; cases h
    | some p =>
      obtain ⟨r, env1⟩ := p
      simp only [hr] at h
      cases hrs : celDefs W env1 (if hidden r.expr then seen else (r.name, r.ty) :: seen) ds with
      | none => rw [hrs] at h; cases h
      | some q =>
        obtain ⟨rs', env2⟩ := q
        simp only [hrs, Option.some.injEq, Prod.mk.injEq] at h
        obtain ⟨rfl, rfl⟩ := h
        cases List.mem_cons.1 hd with
        | inl e => exact ⟨r, List.mem_cons_self, env, seen, env1, e ▸ hr⟩
        | inr hd =>
          obtain ⟨x, hx, hf⟩ := chk_top W ds _ _ rs' _ hrs d hd
          exact ⟨x, List.mem_cons_of_mem _ hx, hf⟩

/-- And each checked definition comes from one of the list. -/
theorem chk_top' (W : World) : ∀ (ds : List RDef) (env : Env) (seen : Seen) (rs : List RDef) (env' : Env),
    celDefs W env seen ds = some (rs, env') →
    ∀ r ∈ rs, ∃ d ∈ ds, ∃ env seen env'', celDef W env seen d = some (r, env'')
  | [], _, _, rs, _, h, r, hr => by
    simp only [celDefs, Option.some.injEq, Prod.mk.injEq] at h
    rw [← h.1] at hr; cases hr
  | d' :: ds, env, seen, rs, env', h, x, hx => by
    simp only [celDefs] at h
    cases hr : celDef W env seen d' with
    | none => rw [hr] at h; cases h
    | some p =>
      obtain ⟨r, env1⟩ := p
      simp only [hr] at h
      cases hrs : celDefs W env1 (if hidden r.expr then seen else (r.name, r.ty) :: seen) ds with
      | none => rw [hrs] at h; cases h
      | some q =>
        obtain ⟨rs', env2⟩ := q
        simp only [hrs, Option.some.injEq, Prod.mk.injEq] at h
        obtain ⟨rfl, rfl⟩ := h
        cases List.mem_cons.1 hx with
        | inl e => exact ⟨d', List.mem_cons_self, env, seen, env1, e ▸ hr⟩
        | inr hx =>
          obtain ⟨d, hd, hf⟩ := chk_top' W ds _ _ rs' _ hrs x hx
          exact ⟨d, List.mem_cons_of_mem _ hd, hf⟩

/-- And each resolved definition comes from one of the list. -/
theorem from_top' (W : World) (pre : String) : ∀ (ds : List Def) (vars : List String) (i : Nat) (rs : List RDef),
    resolveDefs W pre vars i ds = some rs → ∀ r ∈ rs, ∃ d ∈ ds, ∃ vars i, resolveDef W pre vars i d = some r
  | [], _, _, rs, h, r, hr => by
    simp only [resolveDefs, Option.some.injEq] at h
    rw [← h] at hr; cases hr
  | d' :: ds, vars, i, rs, h, x, hx => by
    simp only [resolveDefs] at h
    cases hr : resolveDef W pre vars i d' with
    | none => rw [hr] at h; cases h
    | some r =>
      simp only [hr] at h
      cases hrs : resolveDefs W pre (if hidden r.expr then vars else r.name :: vars) (i + 1) ds with
      | none => rw [hrs] at h; cases h
      | some rs' =>
        simp only [hrs, Option.some.injEq] at h
        subst h
        cases List.mem_cons.1 hx with
        | inl e => exact ⟨d', List.mem_cons_self, vars, i, e ▸ hr⟩
        | inr hx =>
          obtain ⟨d, hd, hf⟩ := from_top' W pre ds _ (i + 1) rs' hrs x hx
          exact ⟨d, List.mem_cons_of_mem _ hd, hf⟩

/-! ## Step 3 -/

mutual

theorem msgs_all : ∀ (ds : List RDef), ∀ d ∈ rAll ds, ∀ m ∈ defMsgs d, m ∈ msgExprs ds
  | [], d, hd, _, _ => by simp [rAll] at hd
  | d' :: ds, d, hd, m, hm => by
    simp only [rAll, List.mem_append] at hd
    simp only [msgExprs, List.mem_append]
    exact hd.elim (fun h => .inl (msgs_def d' d h m hm)) (fun h => .inr (msgs_all ds d h m hm))
termination_by structural x => x

theorem msgs_def : ∀ (d' : RDef), ∀ d ∈ rDef d', ∀ m ∈ defMsgs d, m ∈ defMsgs d'
  | .mk n c a e t, d, hd, m, hm => by
    simp only [rDef, List.mem_cons] at hd
    cases hd with
    | inl h => exact h ▸ hm
    | inr h => simpa only [defMsgs] using msgs_expr e d h m hm
termination_by structural x => x

theorem msgs_expr : ∀ (e : RExpr), ∀ d ∈ rExpr e, ∀ m ∈ defMsgs d, m ∈ exprMsgs e
  | .nil, d, hd, _, _ => by simp [rExpr] at hd
  | .empty, d, hd, _, _ => by simp [rExpr] at hd
  | .by _, d, hd, _, _ => by simp [rExpr] at hd
  | .map _ _ _, d, hd, _, _ => by simp [rExpr] at hd
  | .message _, d, hd, _, _ => by simp [rExpr] at hd
  | .enum _, d, hd, _, _ => by simp [rExpr] at hd
  | .call _ es, d, hd, m, hm => by
    simp only [rExpr] at hd
    simpa only [exprMsgs] using msgs_errs es d hd m hm
  | .validation e, d, hd, m, hm => by
    simp only [rExpr] at hd
    simpa only [exprMsgs] using msgs_err e d hd m hm
termination_by structural x => x

theorem msgs_errs : ∀ (es : List RErr), ∀ d ∈ rErrs es, ∀ m ∈ defMsgs d, m ∈ errsMsgs es
  | [], d, hd, _, _ => by simp [rErrs] at hd
  | e :: es, d, hd, m, hm => by
    simp only [rErrs, List.mem_append] at hd
    simp only [errsMsgs, List.mem_append]
    exact hd.elim (fun h => .inl (msgs_err e d h m hm)) (fun h => .inr (msgs_errs es d h m hm))
termination_by structural x => x

theorem msgs_err : ∀ (e : RErr), ∀ d ∈ rErr e, ∀ m ∈ defMsgs d, m ∈ errMsgs e
  | .mk _ ds dets, d, hd, m, hm => by
    simp only [rErr, List.mem_append] at hd
    simp only [errMsgs, List.mem_append]
    exact hd.elim (fun h => .inl (msgs_all ds d h m hm)) (fun h => .inr (msgs_details dets d h m hm))
termination_by structural x => x

theorem msgs_details : ∀ (es : List RDetail), ∀ d ∈ rDetails es, ∀ m ∈ defMsgs d, m ∈ detailsMsgs es
  | [], d, hd, _, _ => by simp [rDetails] at hd
  | e :: es, d, hd, m, hm => by
    simp only [rDetails, List.mem_append] at hd
    simp only [detailsMsgs, List.mem_append]
    exact hd.elim (fun h => .inl (msgs_detail e d h m hm)) (fun h => .inr (msgs_details es d h m hm))
termination_by structural x => x

theorem msgs_detail : ∀ (e : RDetail), ∀ d ∈ rDetail e, ∀ m ∈ defMsgs d, m ∈ detailMsgs e
  | .mk _ ds ms, d, hd, m, hm => by
    simp only [rDetail, List.mem_append] at hd
    simp only [detailMsgs, List.mem_append]
    exact hd.elim (fun h => .inl (msgs_all ds d h m hm)) (fun h => .inr (msgs_all ms d h m hm))
termination_by structural x => x

end

end Verif.Unfinished
