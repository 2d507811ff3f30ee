import Verif.NullCmp.Spec

/-! # C16: comparisons with `null` -/

namespace Verif.NullCmp

theorem asNull_eq (v : Val) : asNull v = nullValue v := by cases v <;> rfl

theorem nullValue_idem (v : Val) : nullValue (nullValue v) = nullValue v := by cases v <;> rfl

theorem castFn_not_eq : isEq castFn = false := by decide

/-- Shape of `lookup`. -/
theorem lookup_spec (fn : String) (args : List Expr) :
    (lookup fn args = none) ∨
    (∃ l r, args = [l, r] ∧ isEq fn = true ∧ isNull l = true ∧ isNull r = false ∧ isWrapped r = false ∧
      lookup fn args = some false) ∨
    (∃ l r, args = [l, r] ∧ isEq fn = true ∧ isNull r = true ∧ isNull l = false ∧ isWrapped l = false ∧
      lookup fn args = some true) := by
  match args with
  | [] => exact Or.inl rfl
  | [_] => exact Or.inl rfl
  | [l, r] =>
    cases h1 : isEq fn with
    | false => exact Or.inl (by simp [lookup, h1])
    | true =>
      cases h2 : isNull l <;> cases h3 : isNull r
      · exact Or.inl (by simp [lookup, h1, h2, h3])
      · cases h4 : isWrapped l
        · exact Or.inr (Or.inr ⟨l, r, rfl, rfl, h3, h2, h4, by simp [lookup, h1, h2, h3, h4]⟩)
        · exact Or.inl (by simp [lookup, h1, h2, h3, h4])
      · cases h4 : isWrapped r
        · exact Or.inr (Or.inl ⟨l, r, rfl, rfl, h2, h3, h4, by simp [lookup, h1, h2, h3, h4]⟩)
        · exact Or.inl (by simp [lookup, h1, h2, h3, h4])
      · exact Or.inl (by simp [lookup, h1, h2, h3])
  | _ :: _ :: _ :: _ => exact Or.inl rfl

theorem isNull_eq {e : Expr} (h : isNull e = true) : e = .null := by
  cases e <;> simp_all [isNull]

theorem isNull_rewrite (e : Expr) : isNull (rewrite e) = isNull e := by
  cases e <;> simp [rewrite, isNull]

theorem isWrapped_rewrite (e : Expr) : isWrapped (rewrite e) = isWrapped e := by
  cases e <;> simp [rewrite, isWrapped]

/-- Evaluating a wrapped operand gives a normalised value. -/
theorem evalNA_wrapped {Env} (S : Sem Env) (k : Bool) {e : Expr} (h : isWrapped e = true) (ρ : Env) :
    nullValue (evalNA S k e ρ) = evalNA S k e ρ := by
  cases e with
  | call fn args =>
    have : fn = castFn := by simpa [isWrapped] using h
    simp only [evalNA, apply, this, if_true]
    exact nullValue_idem _
  | mcall t fn args =>
    have : fn = castFn := by simpa [isWrapped] using h
    simp only [evalNA, apply, this, if_true]
    exact nullValue_idem _
  | _ => simp [isWrapped] at h

/-- Evaluating the wrapped argument list gives the null-aware operand values. -/
theorem wrap_eval {Env} (S : Sem Env) (k : Bool) (fn : String) (args : List Expr) (ρ : Env)
    (ih : evalL S (rewriteL args) ρ = evalNAL S k args ρ) :
    evalL S (wrap (lookup fn args) (rewriteL args)) ρ = nullAware fn args (evalNAL S k args ρ) := by
  rcases lookup_spec fn args with h | ⟨l, r, rfl, h1, h2, h3, h4, h⟩ | ⟨l, r, rfl, h1, h2, h3, h4, h⟩
  · rw [h]
    have hw : wrap none (rewriteL args) = rewriteL args := by simp [wrap]
    rw [hw, ih]
    match args with
    | [] => rfl
    | [_] => rfl
    | [l, r] =>
      simp only [evalNAL, nullAware]
      cases h1 : isEq fn with
      | false => simp
      | true =>
        cases h2 : isNull l <;> cases h3 : isNull r
        · simp
        · have h4 : isWrapped l = true := by
            cases h4 : isWrapped l
            · simp [lookup, h1, h2, h3, h4] at h
            · rfl
          simp [asNull_eq, evalNA_wrapped S k h4]
        · have h4 : isWrapped r = true := by
            cases h4 : isWrapped r
            · simp [lookup, h1, h2, h3, h4] at h
            · rfl
          simp [asNull_eq, evalNA_wrapped S k h4]
        · simp
    | _ :: _ :: _ :: _ => rfl
  · rw [h]
    simp only [rewriteL, evalL, evalNAL, List.cons.injEq, and_true] at ih
    simp [rewriteL, wrap, evalL, evalNAL, nullAware, asNull_eq, h1, h2, h3, eval, apply, ih.1, ih.2]
  · rw [h]
    simp only [rewriteL, evalL, evalNAL, List.cons.injEq, and_true] at ih
    simp [rewriteL, wrap, evalL, evalNAL, nullAware, asNull_eq, h1, h2, h3, eval, apply, ih.1, ih.2]

mutual
theorem rewrite_eval {Env} (S : Sem Env) : ∀ e : Expr, eval S (rewrite e) = evalNA S false e
  | .null => by simp [rewrite, eval, evalNA]
  | .lit _ => by simp [rewrite, eval, evalNA]
  | .ident _ => by simp [rewrite, eval, evalNA]
  | .select e f => by simp [rewrite, eval, evalNA, rewrite_eval S e]
  | .call fn args => by
    simp only [rewrite, eval, evalNA]
    funext ρ
    rw [wrap_eval S false fn args ρ (congrFun (rewriteL_eval S args) ρ)]
  | .mcall t fn args => by
    simp only [rewrite, eval, evalNA, rewrite_eval S t]
    funext ρ
    rw [wrap_eval S false fn args ρ (congrFun (rewriteL_eval S args) ρ)]
  | .list es => by simp [rewrite, eval, evalNA, rewriteL_eval S es]
  | .struct ks vs => by simp [rewrite, eval, evalNA, rewriteL_eval S vs]
  | .comp i a r x c s e => by
    simp [rewrite, eval, evalNA, rewrite_eval S r, rewrite_eval S x, rewrite_eval S c,
      rewrite_eval S s, rewrite_eval S e]
theorem rewriteL_eval {Env} (S : Sem Env) : ∀ es : List Expr,
    evalL S (rewriteL es) = evalNAL S false es
  | [] => by simp [rewriteL, evalL, evalNAL]
  | e :: es => by simp [rewriteL, evalL, evalNAL, rewrite_eval S e, rewriteL_eval S es]
end

mutual
theorem rewrite_same : ∀ e : Expr, comparesNull e = false → rewrite e = e
  | .null, _ => rfl
  | .lit _, _ => rfl
  | .ident _, _ => rfl
  | .select e f, h => by simp [rewrite, rewrite_same e (by simpa [comparesNull] using h)]
  | .call fn args, h => by
    simp only [comparesNull, Bool.or_eq_false_iff] at h
    have hl : lookup fn args = none := lookup_none h.1
    simp [rewrite, hl, wrap, rewriteL_same args h.2]
  | .mcall t fn args, h => by
    simp only [comparesNull, Bool.or_eq_false_iff] at h
    have hl : lookup fn args = none := lookup_none h.1.1
    simp [rewrite, hl, wrap, rewriteL_same args h.2, rewrite_same t h.1.2]
  | .list es, h => by simp [rewrite, rewriteL_same es (by simpa [comparesNull] using h)]
  | .struct ks vs, h => by
    simp only [comparesNull, Bool.or_eq_false_iff] at h
    simp [rewrite, rewriteL_same vs h.2]
  | .comp i a r x c s e, h => by
    simp only [comparesNull, Bool.or_eq_false_iff] at h
    obtain ⟨⟨⟨⟨h1, h2⟩, h3⟩, h4⟩, h5⟩ := h
    simp [rewrite, rewrite_same r h1, rewrite_same x h2, rewrite_same c h3, rewrite_same s h4,
      rewrite_same e h5]
theorem rewriteL_same : ∀ es : List Expr, comparesNullL es = false → rewriteL es = es
  | [], _ => rfl
  | e :: es, h => by
    simp only [comparesNullL, Bool.or_eq_false_iff] at h
    simp [rewriteL, rewrite_same e h.1, rewriteL_same es h.2]
theorem lookup_none {fn : String} {args : List Expr} (h : (isEq fn && args.any isNull) = false) :
    lookup fn args = none := by
  rcases lookup_spec fn args with h' | ⟨l, r, rfl, h1, h2, _⟩ | ⟨l, r, rfl, h1, h2, _⟩
  · exact h'
  · simp [h1, h2] at h
  · simp [h1, h2] at h
end

mutual
theorem evalNA_keys {Env} (S : Sem Env) : ∀ e : Expr, keysPlain e = true → evalNA S false e = evalNA S true e
  | .null, _ => by simp [evalNA]
  | .lit _, _ => by simp [evalNA]
  | .ident _, _ => by simp [evalNA]
  | .select e f, h => by simp [evalNA, evalNA_keys S e (by simpa [keysPlain] using h)]
  | .call fn args, h => by simp [evalNA, evalNAL_keys S args (by simpa [keysPlain] using h)]
  | .mcall t fn args, h => by
    simp only [keysPlain, Bool.and_eq_true] at h
    simp [evalNA, evalNAL_keys S args h.2, evalNA_keys S t h.1]
  | .list es, h => by simp [evalNA, evalNAL_keys S es (by simpa [keysPlain] using h)]
  | .struct ks vs, h => by
    simp only [keysPlain, Bool.and_eq_true, Bool.not_eq_true'] at h
    simp [evalNA, evalNAL_keys S vs h.2, evalNAL_plain S ks h.1]
  | .comp i a r x c s e, h => by
    simp only [keysPlain, Bool.and_eq_true] at h
    obtain ⟨⟨⟨⟨h1, h2⟩, h3⟩, h4⟩, h5⟩ := h
    simp [evalNA, evalNA_keys S r h1, evalNA_keys S x h2, evalNA_keys S c h3, evalNA_keys S s h4,
      evalNA_keys S e h5]
theorem evalNAL_keys {Env} (S : Sem Env) : ∀ es : List Expr, keysPlainL es = true →
    evalNAL S false es = evalNAL S true es
  | [], _ => by simp [evalNAL]
  | e :: es, h => by
    simp only [keysPlainL, Bool.and_eq_true] at h
    simp [evalNAL, evalNA_keys S e h.1, evalNAL_keys S es h.2]
theorem evalNA_plain {Env} (S : Sem Env) : ∀ e : Expr, comparesNull e = false → evalNA S true e = eval S e
  | .null, _ => by simp [evalNA, eval]
  | .lit _, _ => by simp [evalNA, eval]
  | .ident _, _ => by simp [evalNA, eval]
  | .select e f, h => by simp [evalNA, eval, evalNA_plain S e (by simpa [comparesNull] using h)]
  | .call fn args, h => by
    simp only [comparesNull, Bool.or_eq_false_iff] at h
    simp only [evalNA, eval, evalNAL_plain S args h.2]
    funext ρ; rw [nullAware_plain h.1]
  | .mcall t fn args, h => by
    simp only [comparesNull, Bool.or_eq_false_iff] at h
    simp only [evalNA, eval, evalNAL_plain S args h.2, evalNA_plain S t h.1.2]
    funext ρ; rw [nullAware_plain h.1.1]
  | .list es, h => by simp [evalNA, eval, evalNAL_plain S es (by simpa [comparesNull] using h)]
  | .struct ks vs, h => by
    simp only [comparesNull, Bool.or_eq_false_iff] at h
    simp [evalNA, eval, evalNAL_plain S vs h.2, evalNAL_plain S ks h.1]
  | .comp i a r x c s e, h => by
    simp only [comparesNull, Bool.or_eq_false_iff] at h
    obtain ⟨⟨⟨⟨h1, h2⟩, h3⟩, h4⟩, h5⟩ := h
    simp [evalNA, eval, evalNA_plain S r h1, evalNA_plain S x h2, evalNA_plain S c h3,
      evalNA_plain S s h4, evalNA_plain S e h5]
theorem evalNAL_plain {Env} (S : Sem Env) : ∀ es : List Expr, comparesNullL es = false →
    evalNAL S true es = evalL S es
  | [], _ => by simp [evalNAL, evalL]
  | e :: es, h => by
    simp only [comparesNullL, Bool.or_eq_false_iff] at h
    simp [evalNAL, evalL, evalNA_plain S e h.1, evalNAL_plain S es h.2]
theorem nullAware_plain {fn : String} {args : List Expr} {vs : List Val}
    (h : (isEq fn && args.any isNull) = false) : nullAware fn args vs = vs := by
  unfold nullAware
  split
  · rename_i l r a b
    cases h1 : isEq fn
    · simp
    · simp only [h1, Bool.true_and, List.any_cons, List.any_nil, Bool.or_false,
        Bool.or_eq_false_iff] at h
      simp [h.1, h.2]
  · rfl
end

mutual
theorem rewrite_idem : ∀ e : Expr, rewrite (rewrite e) = rewrite e
  | .null => rfl
  | .lit _ => rfl
  | .ident _ => rfl
  | .select e f => by simp [rewrite, rewrite_idem e]
  | .call fn args => by simp only [rewrite]; rw [wrap_idem fn args (rewriteL_idem args)]
  | .mcall t fn args => by
    simp only [rewrite, rewrite_idem t]; rw [wrap_idem fn args (rewriteL_idem args)]
  | .list es => by simp [rewrite, rewriteL_idem es]
  | .struct ks vs => by simp [rewrite, rewriteL_idem vs]
  | .comp i a r x c s e => by
    simp [rewrite, rewrite_idem r, rewrite_idem x, rewrite_idem c, rewrite_idem s, rewrite_idem e]
theorem rewriteL_idem : ∀ es : List Expr, rewriteL (rewriteL es) = rewriteL es
  | [] => rfl
  | e :: es => by simp [rewriteL, rewrite_idem e, rewriteL_idem es]
theorem wrap_idem (fn : String) (args : List Expr) (ih : rewriteL (rewriteL args) = rewriteL args) :
    wrap (lookup fn (wrap (lookup fn args) (rewriteL args)))
      (rewriteL (wrap (lookup fn args) (rewriteL args))) = wrap (lookup fn args) (rewriteL args) := by
  rcases lookup_spec fn args with h | ⟨l, r, rfl, h1, h2, h3, h4, h⟩ | ⟨l, r, rfl, h1, h2, h3, h4, h⟩
  · rw [h]
    have hl : lookup fn (rewriteL args) = none := by
      match args with
      | [] => rfl
      | [_] => rfl
      | [l, r] =>
        simp only [rewriteL, lookup, isNull_rewrite, isWrapped_rewrite]
        exact h
      | _ :: _ :: _ :: _ => rfl
    have hw : wrap none (rewriteL args) = rewriteL args := by simp [wrap]
    rw [hw, hl, ih]
    simp [wrap]
  · rw [h]
    simp only [rewriteL, List.cons.injEq, and_true] at ih
    have : lookup fn [rewrite l, .call castFn [rewrite r]] = none := by
      simp [lookup, h1, isNull, isWrapped]
    simp only [rewriteL, wrap, this, rewrite, ih.1, ih.2]
    simp [lookup]
  · rw [h]
    simp only [rewriteL, List.cons.injEq, and_true] at ih
    have : lookup fn [.call castFn [rewrite l], rewrite r] = none := by
      simp [lookup, h1, isNull, isWrapped]
    simp only [rewriteL, wrap, this, rewrite, ih.1, ih.2]
    simp [lookup]
end

/-! ## The property -/

/-- C16 (partial: no map key compares with `null`). The rewritten expression evaluates, in every
environment and for every meaning of the functions, to the null-aware value of the original one. -/
theorem C16_null_aware_partial {Env} (S : Sem Env) (e : Expr) (hk : keysPlain e = true) (ρ : Env) :
    eval S (rewrite e) ρ = evalNA S true e ρ := by
  rw [rewrite_eval, evalNA_keys S e hk]

/-- C16, without restriction: the exact meaning of the rewritten expression (map keys are evaluated
plainly). -/
theorem C16_exact_meaning {Env} (S : Sem Env) (e : Expr) (ρ : Env) :
    eval S (rewrite e) ρ = evalNA S false e ρ := by
  rw [rewrite_eval]

/-- C16, the comparison itself: `e == null`, `e != null`, `null == e`, `null != e` see `null` when `e`
is a nil message, and the value of `e` otherwise. -/
theorem C16_comparison {Env} (S : Sem Env) (fn : String) (hf : isEq fn = true) (e : Expr)
    (he : isNull e = false) (hk : keysPlain e = true) (ρ : Env) :
    eval S (rewrite (.call fn [e, .null])) ρ = S.fn fn [asNull (evalNA S true e ρ), .null] ∧
    eval S (rewrite (.call fn [.null, e])) ρ = S.fn fn [.null, asNull (evalNA S true e ρ)] := by
  have hfn : fn ≠ castFn := by rintro rfl; rw [castFn_not_eq] at hf; cases hf
  constructor
  · rw [C16_null_aware_partial S _ (by simp [keysPlain, keysPlainL, hk])]
    simp [evalNA, evalNAL, nullAware, apply, hfn, hf, he, show isNull .null = true from rfl]
  · rw [C16_null_aware_partial S _ (by simp [keysPlain, keysPlainL, hk])]
    simp [evalNA, evalNAL, nullAware, apply, hfn, hf, he, show isNull .null = true from rfl]

/-- C16: an expression that compares nothing with `null` is not changed. -/
theorem C16_unchanged (e : Expr) (h : comparesNull e = false) : rewrite e = e := rewrite_same e h

/-- C16: rewriting twice is rewriting once. -/
theorem C16_idempotent (e : Expr) : rewrite (rewrite e) = rewrite e := rewrite_idem e

/-- `u.name == null && [null != f(v)]`, nested comparisons included. -/
def sampleExpr : Expr :=
  .call "_&&_" [.call "_==_" [.select (.ident "u") "name", .null],
    .list [.call "_!=_" [.null, .mcall (.ident "v") "f" [.call "_==_" [.null, .null]]]]]

example : keysPlain sampleExpr = true ∧ comparesNull sampleExpr = true ∧ resolved sampleExpr = true ∧
    rewrite sampleExpr = .call "_&&_"
      [.call "_==_" [.call castFn [.select (.ident "u") "name"], .null],
        .list [.call "_!=_" [.null, .call castFn [.mcall (.ident "v") "f" [.call "_==_" [.null, .null]]]]]] := by
  refine ⟨by decide, by decide, by decide, ?_⟩
  rfl

/-- A semantics in which a nil message is not equal to `null`. -/
def plainSem : Sem (String → Val) where
  var ρ x := ρ x
  sel v _ := v
  fn f vs := match f, vs with
    | "_==_", [a, b] => .other (if a = b then 1 else 0)
    | _, _ => .err 0
  list vs := .other vs.length
  struct ks _ := ks.headD .null
  comp _ _ r _ _ _ _ := r
  lit k := .other k

/-- Without the rewriting, `u == null` is false for a nil message; with it, true. -/
example : eval plainSem (.call "_==_" [.ident "u", .null]) (fun _ => .nilMsg) = .other 0 ∧
    eval plainSem (rewrite (.call "_==_" [.ident "u", .null])) (fun _ => .nilMsg) = .other 1 := by
  refine ⟨?_, ?_⟩
  · simp [eval, evalL, apply, castFn, plainSem]
  · rw [(C16_comparison plainSem "_==_" (by decide) (.ident "u") rfl rfl _).1]
    simp [plainSem, evalNA, asNull]

/-- C16 is false for comparisons in map keys: they are not rewritten. -/
theorem C16_map_key_false :
    ∃ (e : Expr) (ρ : String → Val), eval plainSem (rewrite e) ρ ≠ evalNA plainSem true e ρ := by
  refine ⟨.struct [.call "_==_" [.ident "u", .null]] [.lit 0], fun _ => .nilMsg, ?_⟩
  simp [rewrite, rewriteL, eval, evalL, evalNA, evalNAL, apply, castFn, plainSem, nullAware, isEq,
    isNull, asNull]

/-! ## The whole pipeline -/

mutual
theorem resolved_iff : ∀ e : Expr, resolved e = false → rewrite e = e
  | .null, _ => rfl
  | .lit _, _ => rfl
  | .ident _, _ => rfl
  | .select e f, h => by simp [rewrite, resolved_iff e (by simpa [resolved] using h)]
  | .call fn args, h => by
    simp only [resolved, Bool.or_eq_false_iff] at h
    have hl : lookup fn args = none := by simpa using h.1
    simp [rewrite, hl, wrap, resolvedL_iff args h.2]
  | .mcall t fn args, h => by
    simp only [resolved, Bool.or_eq_false_iff] at h
    have hl : lookup fn args = none := by simpa using h.1.1
    simp [rewrite, hl, wrap, resolvedL_iff args h.1.2, resolved_iff t h.2]
  | .list es, h => by simp [rewrite, resolvedL_iff es (by simpa [resolved] using h)]
  | .struct ks vs, h => by simp [rewrite, resolvedL_iff vs (by simpa [resolved] using h)]
  | .comp i a r x c s e, h => by
    simp only [resolved, Bool.or_eq_false_iff] at h
    obtain ⟨⟨⟨⟨h1, h2⟩, h3⟩, h4⟩, h5⟩ := h
    simp [rewrite, resolved_iff r h1, resolved_iff x h2, resolved_iff c h3, resolved_iff s h4,
      resolved_iff e h5]
theorem resolvedL_iff : ∀ es : List Expr, resolvedL es = false → rewriteL es = es
  | [], _ => rfl
  | e :: es, h => by
    simp only [resolvedL, Bool.or_eq_false_iff] at h
    simp [rewriteL, resolved_iff e h.1, resolvedL_iff es h.2]
end

/-- C16, the executed program: whenever compilation succeeds, what is executed is the rewritten
expression (also when the resolver reports that it changed nothing). -/
theorem C16_executed (e e' : Expr) (h : createAst e = some e') : e' = rewrite e := by
  unfold createAst at h
  split at h
  · split at h
    · exact (Option.some.inj h).symm
    · cases h
  · rename_i hr
    rw [resolved_iff e (by simpa using hr)]
    exact (Option.some.inj h).symm

mutual
theorem printable_rewrite : ∀ e : Expr, printable (rewrite e) = printable e
  | .null => rfl
  | .lit _ => rfl
  | .ident _ => rfl
  | .select e f => by simp [rewrite, printable, printable_rewrite e]
  | .call fn args => by simp [rewrite, printable, printable_wrap fn args (printableL_rewrite args)]
  | .mcall t fn args => by
    simp [rewrite, printable, printable_rewrite t, printable_wrap fn args (printableL_rewrite args)]
  | .list es => by simp [rewrite, printable, printableL_rewrite es]
  | .struct ks vs => by simp [rewrite, printable, printableL_rewrite vs]
  | .comp .. => rfl
theorem printableL_rewrite : ∀ es : List Expr, printableL (rewriteL es) = printableL es
  | [] => rfl
  | e :: es => by simp [rewriteL, printableL, printable_rewrite e, printableL_rewrite es]
theorem printable_wrap (fn : String) (args : List Expr)
    (ih : printableL (rewriteL args) = printableL args) :
    printableL (wrap (lookup fn args) (rewriteL args)) = printableL args := by
  rw [← ih]
  rcases lookup_spec fn args with h | ⟨l, r, rfl, _, _, _, _, h⟩ | ⟨l, r, rfl, _, _, _, _, h⟩ <;>
    rw [h] <;> simp [wrap, rewriteL, printableL, printable]
end

/-- C16 (partial: expressions without a macro).  An accepted expression without comprehension is
always executed, null-aware. -/
theorem C16_executable_partial (e : Expr) (h : printable e = true) : createAst e = some (rewrite e) := by
  unfold createAst
  split
  · simp [printable_rewrite, h]
  · rename_i hr
    rw [resolved_iff e (by simpa using hr)]

/-- C16 is false for expressions that contain both a macro and a comparison with `null`: evaluating
them always fails, although each alone is fine. -/
theorem C16_macro_false :
    ∃ e₁ e₂ : Expr, createAst e₁ ≠ none ∧ createAst e₂ ≠ none ∧ createAst (.call "_&&_" [e₁, e₂]) = none := by
  refine ⟨.comp "x" "r" (.ident "xs") (.lit 0) (.lit 1) (.ident "x") (.ident "r"),
    .call "_!=_" [.ident "u", .null], ?_, ?_, ?_⟩ <;>
  simp [createAst, resolved, resolvedL, lookup, isEq, isNull, isWrapped, rewrite, rewriteL, wrap, printable,
    printableL]

end Verif.NullCmp
