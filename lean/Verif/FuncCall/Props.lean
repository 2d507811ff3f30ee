import Verif.FuncCall.Model

/-! # Properties of calls of library and plugin functions -/

namespace Verif.FuncCall

/-! ## Helpers -/

theorem mem_candidates {c q n : QName} : n ∈ candidates c q ↔ ∃ p, p <+: c ∧ n = p ++ q := by
  simp only [candidates, List.mem_map, List.mem_reverse, List.mem_range]
  constructor
  · rintro ⟨k, _, rfl⟩
    exact ⟨c.take k, List.take_prefix k c, rfl⟩
  · rintro ⟨p, hp, rfl⟩
    refine ⟨p.length, ?_, ?_⟩
    · have := hp.length_le; omega
    · rw [List.prefix_iff_eq_take] at hp
      rw [← hp]

theorem lookup_some {ds : List Decl} {c q n : QName} (h : lookup ds c q = some n) :
    (∃ d ∈ ds, d.name = n) ∧ ∃ p, p <+: c ∧ n = p ++ q := by
  unfold lookup at h
  have h1 := List.find?_some h
  have h2 := List.mem_of_find?_eq_some h
  simp only [List.any_eq_true, beq_iff_eq] at h1
  exact ⟨h1, mem_candidates.mp h2⟩

theorem short_of_name {d : Decl} {p : QName} {f : String} (h : d.name = p ++ [f]) : d.short = f := by
  unfold Decl.name at h
  have := congrArg List.getLast? h
  simpa using this

theorem pkg_of_name {d : Decl} {p : QName} {f : String} (h : d.name = p ++ [f]) : d.pkg = p := by
  have hs := short_of_name h
  unfold Decl.name at h
  rw [hs] at h
  exact List.append_cancel_right h

theorem has_iff {ds : List Decl} {n : QName} {m b : Bool} :
    has ds n m b = true ↔ ∃ d ∈ ds, d.name = n ∧ d.method = m ∧ d.bound = b := by
  unfold has
  simp [List.any_eq_true, and_assoc]

theorem lookup_congr {ds ds' : List Decl} (h : ds.map (·.name) = ds'.map (·.name)) (c q : QName) :
    lookup ds c q = lookup ds' c q := by
  unfold lookup
  have : ∀ n, ds.any (·.name == n) = ds'.any (·.name == n) := by
    intro n
    have e1 : ∀ l : List Decl, l.any (·.name == n) = (l.map (·.name)).any (· == n) := by
      intro l; simp [List.any_map, Function.comp_def]
    rw [e1, e1, h]
  simp only [this]

theorem expandCall_not_chain (ds : List Decl) (t : Expr) (f : String) (args : List Expr) :
    qualified? (expandCall ds t f args) = none ∧ selectorName (expandCall ds t f args) = [] ∧
      ∀ x, expandCall ds t f args ≠ .ident x := by
  unfold expandCall
  split <;> simp [qualified?, selectorName]

theorem qualified_expand (ds : List Decl) : ∀ e : Expr, qualified? (expand ds e) = qualified? e
  | .lit _ => rfl
  | .ident _ => rfl
  | .select e f => by simp only [expand, qualified?, qualified_expand ds e]
  | .member t f args => by
    simp only [expand, (expandCall_not_chain ds _ f _).1, qualified?]
  | .global _ _ => rfl

theorem selectorName_expand (ds : List Decl) : ∀ e : Expr, selectorName (expand ds e) = selectorName e
  | .lit _ => rfl
  | .ident _ => rfl
  | .select e f => by simp only [expand, selectorName, selectorName_expand ds e]
  | .member t f args => by
    simp only [expand, (expandCall_not_chain ds _ f _).2.1, selectorName]
  | .global _ _ => rfl

theorem selectorName_of_qualified : ∀ {e : Expr} {q : QName}, qualified? e = some q → selectorName e = q
  | .ident x, q, h => by simpa [qualified?, selectorName] using h
  | .select e f, q, h => by
    simp only [qualified?, Option.map_eq_some_iff] at h
    obtain ⟨q', h1, rfl⟩ := h
    simp [selectorName, selectorName_of_qualified h1]
  | .lit _, _, h => by simp [qualified?] at h
  | .member .., _, h => by simp [qualified?] at h
  | .global .., _, h => by simp [qualified?] at h

theorem qualified_ne_nil : ∀ {e : Expr} {q : QName}, qualified? e = some q → q ≠ []
  | .ident x, q, h => by simp [qualified?] at h; simp [← h]
  | .select e f, q, h => by
    simp only [qualified?, Option.map_eq_some_iff] at h
    obtain ⟨q', _, rfl⟩ := h
    simp
  | .lit _, _, h => by simp [qualified?] at h
  | .member .., _, h => by simp [qualified?] at h
  | .global .., _, h => by simp [qualified?] at h

theorem startsCtx_expand (ds : List Decl) (args : List Expr) :
    startsCtx (expandList ds args) = startsCtx args := by
  cases args with
  | nil => rfl
  | cons e es =>
    cases e with
    | member t f as =>
      simp only [expandList, expand]
      have := (expandCall_not_chain ds (expand ds t) f (expandList ds as)).2.2
      unfold startsCtx
      split
      · next x l h => simp only [List.cons.injEq] at h; exact absurd h.1 (this x)
      · rfl
    | _ => rfl

theorem startsCtx_withCtx (args : List Expr) : startsCtx (withCtx args) = true := by
  unfold withCtx
  split
  · assumption
  · simp [startsCtx]

theorem macroOf_mem {ds : List Decl} {f : String} {m : Bool} (h : macroOf ds f = some m) :
    ∃ d ∈ ds, d.bound = true ∧ d.short = f ∧ d.method = m := by
  unfold macroOf at h
  simp only [Option.map_eq_some_iff] at h
  obtain ⟨d, h1, h2⟩ := h
  have h3 := List.find?_some h1
  have h4 := List.mem_of_find?_eq_some h1
  simp at h3 h4
  exact ⟨d, h4, h3.1, h3.2, h2⟩

theorem macroOf_none {ds : List Decl} {f : String} (h : macroOf ds f = none) :
    ∀ d ∈ ds, d.bound = true → d.short ≠ f := by
  unfold macroOf at h
  simp at h
  intro d hd hb
  exact h d hd hb

/-! ## Specification -/

/-- The last declaration of the short name that is bound to the context is a method. -/
def LastIsMethod (ds : List Decl) (f : String) : Prop :=
  ∃ l d r, ds = l ++ d :: r ∧ d.bound = true ∧ d.short = f ∧ d.method = true ∧
    ∀ d' ∈ r, d'.bound = true → d'.short ≠ f

theorem macroOf_method {ds : List Decl} {f : String} :
    macroOf ds f = some true ↔ LastIsMethod ds f := by
  unfold macroOf LastIsMethod
  simp only [Option.map_eq_some_iff]
  constructor
  · rintro ⟨d, h, hm⟩
    rw [List.find?_eq_some_iff_append] at h
    obtain ⟨hp, as, bs, he, ha⟩ := h
    simp only [Bool.and_eq_true, beq_iff_eq] at hp
    refine ⟨bs.reverse, d, as.reverse, ?_, hp.1, hp.2, hm, ?_⟩
    · have := congrArg List.reverse he
      simpa using this
    · intro d' hd' hb he'
      have := ha d' (by simpa using hd')
      simp [hb, he'] at this
  · rintro ⟨l, d, r, rfl, hb, hs, hm, hr⟩
    refine ⟨d, ?_, hm⟩
    rw [List.find?_eq_some_iff_append]
    refine ⟨by simp [hb, hs], r.reverse, l.reverse, by simp, ?_⟩
    intro d' hd'
    have hd'' : d' ∈ r := by simpa using hd'
    cases hbd : d'.bound with
    | false => simp
    | true => simp [hr d' hd'' hbd]

/-! ## Functions -/

/-- **C79.** A call `pkg.f(args)` whose name stands for a bound function calls that function with the
context, in every environment, whatever other functions and methods have the same short name, and
whatever their order is. -/
theorem C79_functions (ds : List Decl) (c : QName) (t : Expr) (q n : QName) (f : String)
    (args : List Expr) (hq : qualified? t = some q)
    (hn : lookup ds c (q ++ [f]) = some n)
    (hd : ∃ d ∈ ds, d.name = n ∧ d.method = false ∧ d.bound = true) :
    compile ds c (.member t f args) =
      (calleesList ds c (withCtx (expandList ds args))).map fun ks => ⟨n, false⟩ :: ks := by
  have hns : ∃ p, n = p ++ [f] := by
    obtain ⟨-, p, -, hp⟩ := lookup_some hn
    exact ⟨p ++ q, by rw [hp, List.append_assoc]⟩
  obtain ⟨p, hp⟩ := hns
  have hh : has ds n false true = true := has_iff.mpr hd
  have hq' : qualified? (expand ds t) = some q := by rw [qualified_expand]; exact hq
  unfold compile
  simp only [expand, expandCall]
  cases hm : macroOf ds f with
  | none =>
    obtain ⟨d, hd1, hd2, -, hd4⟩ := hd
    exact absurd (short_of_name (hd2.trans hp)) (macroOf_none hm d hd1 hd4)
  | some b =>
    cases b with
    | false =>
      simp only [selectorName_of_qualified hq', callees, resolveGlobal, hn, startsCtx_withCtx, hh,
        if_true]
      cases calleesList ds c (withCtx (expandList ds args)) <;> rfl
    | true =>
      simp only [callees, resolveMember, namespaced?, hq', Option.bind_some, hn, startsCtx_withCtx, hh,
        if_true]
      cases calleesList ds c (withCtx (expandList ds args)) <;> rfl

/-! ## Methods -/

/-- **C79.** A call `t.f(args)` that does not spell the name of a function, where `f` is a bound
method, calls the method exactly if the last bound declaration of the short name is a method: a
function of any library that is declared later and has the same last part takes the calls over. -/
theorem C79_methods_partial (ds : List Decl) (c : QName) (t : Expr) (f : String) (args : List Expr)
    (ha : ∃ as, calleesList ds c (withCtx (expandList ds args)) = some as)
    (ht : ∃ ts, callees ds c (expand ds t) = some ts)
    (hn : namespaced? ds c t f = none)
    (hl : lookup ds c [f] = some [f])
    (hd : ∃ d ∈ ds, d.name = [f] ∧ d.method = true ∧ d.bound = true)
    (hg : lookup ds c (selectorName t ++ [f]) = none ∨ selectorName t = [] ∧
      ∀ d ∈ ds, d.name = [f] → d.method = true) :
    (∃ ks, compile ds c (.member t f args) = some (⟨[f], true⟩ :: ks)) ↔ LastIsMethod ds f := by
  obtain ⟨as, has'⟩ := ha
  obtain ⟨ts, hts⟩ := ht
  have hh : has ds [f] true true = true := has_iff.mpr hd
  have hn' : namespaced? ds c (expand ds t) f = none := by
    unfold namespaced? at hn ⊢; rw [qualified_expand]; exact hn
  rw [← macroOf_method]
  unfold compile
  simp only [expand, expandCall]
  cases hm : macroOf ds f with
  | none =>
    obtain ⟨d, hd1, hd2, -, hd4⟩ := hd
    exact absurd (short_of_name (p := []) hd2) (macroOf_none hm d hd1 hd4)
  | some b =>
    cases b with
    | false =>
      simp only [callees, resolveGlobal, selectorName_expand]
      rcases hg with hg | ⟨hg, hall⟩
      · simp [hg]
      · have : has ds [f] false true = false := by
          cases h : has ds [f] false true with
          | false => rfl
          | true =>
            obtain ⟨d, h1, h2, h3, -⟩ := has_iff.mp h
            rw [hall d h1 h2] at h3; cases h3
        simp [hg, hl, startsCtx_withCtx, this]
    | true =>
      simp only [callees, resolveMember, hn', hl, startsCtx_withCtx, hh, if_true, iff_true, has']
      by_cases hc : (qualified? (expand ds t)).isSome = true
      · exact ⟨as, by simp [hc]⟩
      · exact ⟨ts ++ as, by simp [hc, hts]⟩

/-! ## The generator and the server -/

mutual
/-- An expression of a user: functions without a receiver have one part, and the variable of the
context is not mentioned. -/
def Plain : Expr → Prop
  | .lit _ => True
  | .ident x => x ≠ ctxName
  | .select e _ => Plain e
  | .member t _ args => Plain t ∧ PlainList args
  | .global q args => q.length = 1 ∧ PlainList args
/-- The same of arguments. -/
def PlainList : List Expr → Prop
  | [] => True
  | e :: es => Plain e ∧ PlainList es
end

theorem startsCtx_plain {args : List Expr} (h : PlainList args) : startsCtx args = false := by
  cases args with
  | nil => rfl
  | cons e es =>
    cases e <;> simp_all [PlainList, Plain, startsCtx]

/-- The names of plugins are apart from all others: no short name of a plugin is one of the libraries,
functions and methods of plugins have different short names, and no expression is in the package of a
plugin. -/
structure Apart (base : List Decl) (ps : List PluginFn) (c : QName) : Prop where
  base : ∀ p ∈ ps, ∀ d ∈ base, p.short ≠ d.short
  kinds : ∀ p ∈ ps, ∀ p' ∈ ps, p.short = p'.short → p.method = p'.method
  package : ∀ p ∈ ps, p.method = false → ¬ p.pkg <+: c

theorem env_names (base : List Decl) (ps : List PluginFn) :
    (genEnv base ps).map (·.name) = (runEnv base ps).map (·.name) := by
  simp [genEnv, runEnv, PluginFn.atGeneration, PluginFn.atRunTime, Decl.name, Function.comp_def]

theorem mem_gen {base : List Decl} {ps : List PluginFn} {d : Decl} :
    d ∈ genEnv base ps ↔ d ∈ base ∨ ∃ p ∈ ps, p.atGeneration = d := by
  simp [genEnv]

theorem mem_run {base : List Decl} {ps : List PluginFn} {d : Decl} :
    d ∈ runEnv base ps ↔ d ∈ base ∨ ∃ p ∈ ps, p.atRunTime = d := by
  simp [runEnv]

theorem macroOf_append {a b : List Decl} {f : String} :
    macroOf (a ++ b) f = (macroOf b f).or (macroOf a f) := by
  unfold macroOf
  rw [List.reverse_append, List.find?_append]
  cases (b.reverse.find? fun d => d.bound && d.short == f) <;> simp

theorem macroOf_gen (base : List Decl) (ps : List PluginFn) (f : String) :
    macroOf (genEnv base ps) f = macroOf base f := by
  unfold genEnv
  rw [macroOf_append]
  have : macroOf (ps.map (·.atGeneration)) f = none := by
    cases h : macroOf (ps.map (·.atGeneration)) f with
    | none => rfl
    | some m =>
      obtain ⟨d, h1, h2, -, -⟩ := macroOf_mem h
      simp only [List.mem_map] at h1
      obtain ⟨p, -, rfl⟩ := h1
      simp [PluginFn.atGeneration] at h2
  rw [this]; rfl

section
variable {base : List Decl} {ps : List PluginFn} {c : QName}

/-- A short name that no plugin has: both environments have the same declarations of it. -/
theorem has_base {n : QName} {f : String} {p : QName} (hn : n = p ++ [f])
    (hf : ∀ p ∈ ps, p.short ≠ f) (m b : Bool) :
    has (genEnv base ps) n m b = has (runEnv base ps) n m b := by
  have key : ∀ {m b}, (has (genEnv base ps) n m b = true ↔ has (runEnv base ps) n m b = true) := by
    intro m b
    rw [has_iff, has_iff]
    constructor
    · rintro ⟨d, h1, h2⟩
      rcases mem_gen.mp h1 with h | ⟨p', hp', rfl⟩
      · exact ⟨d, mem_run.mpr (.inl h), h2⟩
      · exact absurd (short_of_name (h2.1.trans hn)) (hf p' hp')
    · rintro ⟨d, h1, h2⟩
      rcases mem_run.mp h1 with h | ⟨p', hp', rfl⟩
      · exact ⟨d, mem_gen.mpr (.inl h), h2⟩
      · exact absurd (short_of_name (h2.1.trans hn)) (hf p' hp')
  cases h : has (genEnv base ps) n m b with
  | true => exact (key.mp h).symm
  | false =>
    cases h' : has (runEnv base ps) n m b with
    | false => rfl
    | true => rw [key.mpr h'] at h; cases h

theorem macroOf_base {f : String} (hf : ∀ p ∈ ps, p.short ≠ f) :
    macroOf (runEnv base ps) f = macroOf base f := by
  unfold runEnv
  rw [macroOf_append]
  have : macroOf (ps.map (·.atRunTime)) f = none := by
    cases h : macroOf (ps.map (·.atRunTime)) f with
    | none => rfl
    | some m =>
      obtain ⟨d, h1, -, h3, -⟩ := macroOf_mem h
      simp only [List.mem_map] at h1
      obtain ⟨p, hp, rfl⟩ := h1
      exact absurd h3 (hf p hp)
  rw [this]; rfl

/-- What the receiver of a method call calls. -/
def receiver (ds : List Decl) (c : QName) (t : Expr) : Option (List Callee) :=
  if (qualified? t).isSome then some [] else callees ds c t

theorem callees_member {ds : List Decl} {c : QName} {t : Expr} {f : String} {args : List Expr}
    {ks : List Callee} :
    callees ds c (.member t f args) = some ks ↔
      ∃ k as, resolveMember ds c t f args = some k ∧ calleesList ds c args = some as ∧
        (k.method = false ∧ ks = k :: as ∨
          k.method = true ∧ ∃ ts, receiver ds c t = some ts ∧ ks = k :: ts ++ as) := by
  simp only [callees]
  cases h1 : resolveMember ds c t f args with
  | none => simp
  | some k =>
    cases h2 : calleesList ds c args with
    | none => simp
    | some as =>
      cases hk : k.method with
      | false =>
        simp [hk]
        constructor <;> exact fun h => h.symm
      | true =>
        unfold receiver
        by_cases hq : (qualified? t).isSome = true
        · simp [hk, hq]
          constructor <;> exact fun h => h.symm
        · cases h3 : callees ds c t with
          | none => simp [hk, hq]
          | some ts =>
            simp [hk, hq]
            constructor <;> exact fun h => h.symm

theorem callees_global {ds : List Decl} {c q : QName} {args : List Expr} {ks : List Callee} :
    callees ds c (.global q args) = some ks ↔
      ∃ k as, resolveGlobal ds c q args = some k ∧ calleesList ds c args = some as ∧
        ks = k :: as := by
  simp only [callees]
  cases h1 : resolveGlobal ds c q args with
  | none => simp
  | some k =>
    cases h2 : calleesList ds c args with
    | none => simp
    | some as =>
      simp
      constructor <;> exact fun h => h.symm

theorem calleesList_withCtx (ds : List Decl) (c : QName) (args : List Expr) :
    calleesList ds c (withCtx args) = calleesList ds c args := by
  unfold withCtx
  split
  · rfl
  · simp only [calleesList, callees]
    cases calleesList ds c args <;> rfl

theorem receiver_expand {t : Expr}
    (ih : ∀ ks, callees (genEnv base ps) c (expand (genEnv base ps) t) = some ks →
      callees (runEnv base ps) c (expand (runEnv base ps) t) = some ks) {ts : List Callee}
    (h : receiver (genEnv base ps) c (expand (genEnv base ps) t) = some ts) :
    receiver (runEnv base ps) c (expand (runEnv base ps) t) = some ts := by
  unfold receiver at h ⊢
  rw [qualified_expand] at h ⊢
  split
  · next hq => simpa [hq] using h
  · next hq => rw [if_neg hq] at h; exact ih ts h

theorem global_agree (ap : Apart base ps c) {g : String} {args : List Expr} (hp : PlainList args)
    (iha : ∀ ks, calleesList (genEnv base ps) c (expandList (genEnv base ps) args) = some ks →
      calleesList (runEnv base ps) c (expandList (runEnv base ps) args) = some ks)
    {ks : List Callee}
    (h : callees (genEnv base ps) c (.global [g] (expandList (genEnv base ps) args)) = some ks) :
    callees (runEnv base ps) c (.global [g] (expandList (runEnv base ps) args)) = some ks := by
  obtain ⟨k, as, h1, h2, h3⟩ := callees_global.mp h
  refine callees_global.mpr ⟨k, as, ?_, iha as h2, h3⟩
  unfold resolveGlobal at h1 ⊢
  rw [← lookup_congr (env_names base ps)]
  cases hl : lookup (genEnv base ps) c [g] with
  | none => rw [hl] at h1; cases h1
  | some n =>
    rw [hl] at h1
    simp only [startsCtx_expand, startsCtx_plain hp] at h1 ⊢
    split at h1
    · next hh =>
      obtain ⟨d, hd, hn, hm, hb⟩ := has_iff.mp hh
      have : has (runEnv base ps) n false false = true := by
        rcases mem_gen.mp hd with hd' | ⟨p, hp', rfl⟩
        · exact has_iff.mpr ⟨d, mem_run.mpr (.inl hd'), hn, hm, hb⟩
        · obtain ⟨-, pre, hpre, hne⟩ := lookup_some hl
          have hpk : p.pkg = pre := pkg_of_name (d := p.atGeneration) (hn.trans hne)
          rw [← hpk] at hpre
          exact absurd hpre (ap.package p hp' hm)
      rw [if_pos this]; exact h1
    · cases h1

theorem member_agree (ap : Apart base ps c) {t : Expr} {f : String} {args : List Expr}
    (hp : PlainList args)
    (iht : ∀ ks, callees (genEnv base ps) c (expand (genEnv base ps) t) = some ks →
      callees (runEnv base ps) c (expand (runEnv base ps) t) = some ks)
    (iha : ∀ ks, calleesList (genEnv base ps) c (expandList (genEnv base ps) args) = some ks →
      calleesList (runEnv base ps) c (expandList (runEnv base ps) args) = some ks)
    {ks : List Callee}
    (h : callees (genEnv base ps) c
      (expandCall (genEnv base ps) (expand (genEnv base ps) t) f (expandList (genEnv base ps) args)) =
        some ks) :
    callees (runEnv base ps) c
      (expandCall (runEnv base ps) (expand (runEnv base ps) t) f (expandList (runEnv base ps) args)) =
        some ks := by
  have hcg : startsCtx (expandList (genEnv base ps) args) = false := by
    rw [startsCtx_expand, startsCtx_plain hp]
  have hcr : startsCtx (expandList (runEnv base ps) args) = false := by
    rw [startsCtx_expand, startsCtx_plain hp]
  have hns : ∀ n, namespaced? (genEnv base ps) c (expand (genEnv base ps) t) f = some n →
      (∃ q, qualified? t = some q ∧ lookup (genEnv base ps) c (q ++ [f]) = some n) := by
    intro n hn
    unfold namespaced? at hn
    rw [qualified_expand] at hn
    cases hq : qualified? t with
    | none => rw [hq] at hn; cases hn
    | some q => rw [hq] at hn; exact ⟨q, rfl, hn⟩
  have hnr : namespaced? (runEnv base ps) c (expand (runEnv base ps) t) f =
      namespaced? (genEnv base ps) c (expand (genEnv base ps) t) f := by
    unfold namespaced?
    rw [qualified_expand, qualified_expand]
    cases qualified? t with
    | none => rfl
    | some q => exact (lookup_congr (env_names base ps) c _).symm
  unfold expandCall at h ⊢
  rw [macroOf_gen] at h
  by_cases hf : ∀ p ∈ ps, p.short ≠ f
  · rw [macroOf_base hf]
    have hres : ∀ a a', startsCtx a = startsCtx a' →
        resolveMember (runEnv base ps) c (expand (runEnv base ps) t) f a' =
          resolveMember (genEnv base ps) c (expand (genEnv base ps) t) f a := by
      intro a a' haa
      unfold resolveMember
      rw [hnr, ← haa]
      cases hn : namespaced? (genEnv base ps) c (expand (genEnv base ps) t) f with
      | some n =>
        obtain ⟨q, -, hl⟩ := hns n hn
        obtain ⟨-, pre, -, he⟩ := lookup_some hl
        simp only [has_base (he.trans (List.append_assoc _ _ _).symm) hf]
      | none =>
        simp only [← lookup_congr (env_names base ps)]
        cases hl : lookup (genEnv base ps) c [f] with
        | none => rfl
        | some n =>
          obtain ⟨-, pre, -, he⟩ := lookup_some hl
          simp only [has_base he hf]
    cases hm : macroOf base f with
    | none =>
      rw [hm] at h
      obtain ⟨k, as, h1, h2, h3⟩ := callees_member.mp h
      refine callees_member.mpr ⟨k, as, ?_, iha as h2, ?_⟩
      · rw [hres _ _ (hcg.trans hcr.symm)]; exact h1
      · rcases h3 with h3 | ⟨h3, ts, h4, h5⟩
        · exact .inl h3
        · exact .inr ⟨h3, ts, receiver_expand iht h4, h5⟩
    | some b =>
      rw [hm] at h
      cases b with
      | true =>
        obtain ⟨k, as, h1, h2, h3⟩ := callees_member.mp h
        refine callees_member.mpr ⟨k, as, ?_, ?_, ?_⟩
        · rw [hres _ _ ((startsCtx_withCtx _).trans (startsCtx_withCtx _).symm)]; exact h1
        · rw [calleesList_withCtx] at h2 ⊢; exact iha as h2
        · rcases h3 with h3 | ⟨h3, ts, h4, h5⟩
          · exact .inl h3
          · exact .inr ⟨h3, ts, receiver_expand iht h4, h5⟩
      | false =>
        obtain ⟨k, as, h1, h2, h3⟩ := callees_global.mp h
        refine callees_global.mpr ⟨k, as, ?_, ?_, h3⟩
        · unfold resolveGlobal at h1 ⊢
          rw [selectorName_expand] at h1 ⊢
          rw [← lookup_congr (env_names base ps)]
          cases hl : lookup (genEnv base ps) c (selectorName t ++ [f]) with
          | none => rw [hl] at h1; cases h1
          | some n =>
            rw [hl] at h1
            obtain ⟨-, pre, -, he⟩ := lookup_some hl
            simp only [startsCtx_withCtx] at h1 ⊢
            rw [← has_base (by rw [he, ← List.append_assoc]) hf]
            exact h1
        · rw [calleesList_withCtx] at h2 ⊢; exact iha as h2
  · -- the short name of a plugin: no library has it
    have hf' : ∃ p ∈ ps, p.short = f := by
      simpa using hf
    obtain ⟨p, hpm, hpf⟩ := hf'
    have hb : macroOf base f = none := by
      cases hm : macroOf base f with
      | none => rfl
      | some m =>
        obtain ⟨d, h1, -, h3, -⟩ := macroOf_mem hm
        exact absurd (hpf.trans h3.symm) (ap.base p hpm d h1)
    rw [hb] at h
    -- declarations of the short name are those of plugins, of one kind
    have hdecl : ∀ {n : QName} {pre : QName} {m b : Bool}, n = pre ++ [f] →
        has (genEnv base ps) n m b = true → m = p.method ∧ b = false ∧
          has (runEnv base ps) n m true = true := by
      intro n pre m b hn hh
      obtain ⟨d, hd, hd1, hd2, hd3⟩ := has_iff.mp hh
      have hs := short_of_name (hd1.trans hn)
      rcases mem_gen.mp hd with hd' | ⟨p', hp', rfl⟩
      · exact absurd (hpf.trans hs.symm) (ap.base p hpm d hd')
      · have hk := ap.kinds p hpm p' hp' (hpf.trans hs.symm)
        refine ⟨hd2.symm.trans hk.symm, hd3.symm, has_iff.mpr ⟨p'.atRunTime, mem_run.mpr
          (.inr ⟨p', hp', rfl⟩), hd1, hd2, rfl⟩⟩
    have hmac : macroOf (runEnv base ps) f = some p.method := by
      cases hm : macroOf (runEnv base ps) f with
      | none =>
        exact absurd hpf (macroOf_none hm p.atRunTime (mem_run.mpr (.inr ⟨p, hpm, rfl⟩)) rfl)
      | some m =>
        obtain ⟨d, h1, -, h3, h4⟩ := macroOf_mem hm
        rcases mem_run.mp h1 with h | ⟨p', hp', rfl⟩
        · exact absurd (hpf.trans h3.symm) (ap.base p hpm d h)
        · rw [ap.kinds p hpm p' hp' (hpf.trans h3.symm)]
          exact congrArg some h4.symm
    rw [hmac]
    obtain ⟨k, as, h1, h2, h3⟩ := callees_member.mp h
    unfold resolveMember at h1
    rw [hcg] at h1
    cases hn : namespaced? (genEnv base ps) c (expand (genEnv base ps) t) f with
    | some n =>
      simp only [hn] at h1
      obtain ⟨q, hq, hl⟩ := hns n hn
      obtain ⟨-, pre, -, he⟩ := lookup_some hl
      split at h1
      · next hh =>
        obtain ⟨e1, -, e3⟩ := hdecl (he.trans (List.append_assoc _ _ _).symm) hh
        cases h1
        rw [← e1]
        refine callees_global.mpr ⟨⟨n, false⟩, as, ?_, ?_, ?_⟩
        · unfold resolveGlobal
          rw [selectorName_expand, selectorName_of_qualified hq, ← lookup_congr (env_names base ps), hl]
          simp [startsCtx_withCtx, e3]
        · rw [calleesList_withCtx]; exact iha as h2
        · rcases h3 with h3 | ⟨h3, -⟩
          · exact h3.2
          · cases h3
      · cases h1
    | none =>
      simp only [hn] at h1
      cases hl : lookup (genEnv base ps) c [f] with
      | none => rw [hl] at h1; cases h1
      | some n =>
        simp only [hl] at h1
        obtain ⟨-, pre, -, he⟩ := lookup_some hl
        split at h1
        · next hh =>
          obtain ⟨e1, -, e3⟩ := hdecl he hh
          cases h1
          rw [← e1]
          refine callees_member.mpr ⟨⟨n, true⟩, as, ?_, ?_, ?_⟩
          · unfold resolveMember
            rw [hnr, hn, ← lookup_congr (env_names base ps), hl]
            simp [startsCtx_withCtx, e3]
          · rw [calleesList_withCtx]; exact iha as h2
          · rcases h3 with ⟨h3, -⟩ | ⟨h3, ts, h4, h5⟩
            · cases h3
            · exact .inr ⟨rfl, ts, receiver_expand iht h4, h5⟩
        · cases h1

mutual
theorem agree (ap : Apart base ps c) : ∀ (e : Expr), Plain e → ∀ ks,
    callees (genEnv base ps) c (expand (genEnv base ps) e) = some ks →
      callees (runEnv base ps) c (expand (runEnv base ps) e) = some ks
  | .lit _, _, _, h => h
  | .ident _, _, _, h => h
  | .select e f, hp, ks, h => by
    simp only [expand, callees, qualified_expand] at h ⊢
    split
    · next hq => simpa [hq] using h
    · next hq =>
      rw [if_neg hq] at h
      exact agree ap e hp ks h
  | .member t f args, hp, ks, h => by
    simp only [expand] at h ⊢
    exact member_agree ap hp.2 (agree ap t hp.1) (agreeList ap args hp.2) h
  | .global q args, hp, ks, h => by
    simp only [expand] at h ⊢
    obtain ⟨g, rfl⟩ : ∃ g, q = [g] := by
      have := hp.1
      cases q with
      | nil => cases this
      | cons g r =>
        cases r with
        | nil => exact ⟨g, rfl⟩
        | cons => simp at this
    exact global_agree ap hp.2 (agreeList ap args hp.2) h
theorem agreeList (ap : Apart base ps c) : ∀ (es : List Expr), PlainList es → ∀ ks,
    calleesList (genEnv base ps) c (expandList (genEnv base ps) es) = some ks →
      calleesList (runEnv base ps) c (expandList (runEnv base ps) es) = some ks
  | [], _, _, h => h
  | e :: es, hp, ks, h => by
    simp only [expandList, calleesList] at h ⊢
    cases h1 : callees (genEnv base ps) c (expand (genEnv base ps) e) with
    | none => rw [h1] at h; cases h
    | some k1 =>
      cases h2 : calleesList (genEnv base ps) c (expandList (genEnv base ps) es) with
      | none => rw [h1, h2] at h; cases h
      | some k2 =>
        rw [h1, h2] at h
        rw [agree ap e hp.1 k1 h1, agreeList ap es hp.2 k2 h2]
        exact h
end

end

/-- **C80.** An expression that the generator accepts compiles in the server and calls the same
functions and methods in the same order, if the names of plugins are apart from all others.  `base` is
any list of library declarations. -/
theorem C80_accepted_partial (base : List Decl) (ps : List PluginFn) (c : QName) (e : Expr)
    (ks : List Callee) (ap : Apart base ps c) (he : Plain e)
    (h : compile (genEnv base ps) c e = some ks) : compile (runEnv base ps) c e = some ks :=
  agree ap e he ks h

/-! ## The standard libraries -/

/-- **C79.** Of the methods of the standard libraries, all but `add` and `parse` are called by method
calls in the whole library (`C79_methods_partial`). -/
theorem C79_std_methods_partial : ∀ d ∈ std, d.bound = true → d.method = true →
    d.short ≠ "add" → d.short ≠ "parse" → LastIsMethod std d.short := by
  intro d hd hb hm h1 h2
  rw [← macroOf_method]
  have key : ∀ d ∈ std, d.bound = true → d.method = true → d.short ≠ "add" → d.short ≠ "parse" →
      macroOf std d.short = some true := by decide +kernel
  exact key d hd hb hm h1 h2

/-- Methods of the libraries of the project and of cel-go that share their short name with a function
of a library that is declared later. -/
def shadowed : List String := ["add", "parse", "contains", "join", "replace", "split", "trim"]

/-- **C79 is false of the code** for methods that share their last part with a function of a library
that is declared later: `Time.add` (with `grpc.federation.log.add`), `URL.parse` (with
`grpc.federation.time.parse`) and five string methods of CEL (with `grpc.federation.strings`) can not
be called on any value: no expression with such a call compiles, in the generator and in the server. -/
theorem C79_std_false (f : String) (hf : f ∈ shadowed) (c : QName) (t : Expr) (args : List Expr)
    (hc : c.head? ≠ some "grpc")
    (ht : ∀ x ∈ ["log", "time", "url", "strings"], (selectorName t).getLast? ≠ some x) :
    (∃ d ∈ std, d.short = f ∧ d.method = true) ∧ compile std c (.member t f args) = none := by
  have k1 : ∀ f ∈ shadowed, ∃ d ∈ std, d.short = f ∧ d.method = true := by decide +kernel
  have k2 : ∀ f ∈ shadowed, macroOf std f = some false := by decide +kernel
  have k3 : ∀ f ∈ shadowed, ∀ d ∈ std, d.short = f → d.method = false →
      d.pkg.head? = some "grpc" ∧ ∃ x ∈ ["log", "time", "url", "strings"], d.pkg.getLast? = some x := by
    decide +kernel
  refine ⟨k1 f hf, ?_⟩
  unfold compile
  simp only [expand, expandCall, k2 f hf]
  cases hk : callees std c (.global (selectorName (expand std t) ++ [f])
      (withCtx (expandList std args))) with
  | none => rfl
  | some ks =>
    exfalso
    obtain ⟨k, as, h1, -, -⟩ := callees_global.mp hk
    unfold resolveGlobal at h1
    rw [selectorName_expand] at h1
    cases hl : lookup std c (selectorName t ++ [f]) with
    | none => rw [hl] at h1; cases h1
    | some n =>
      simp only [hl] at h1
      split at h1
      · next hh =>
        obtain ⟨d, hd, hn, hm, -⟩ := has_iff.mp hh
        obtain ⟨-, p, hp, he⟩ := lookup_some hl
        have he' := hn.trans (he.trans (List.append_assoc _ _ _).symm)
        have hpk := pkg_of_name he'
        obtain ⟨hg, x, hx, hxl⟩ := k3 f hf d hd (short_of_name he') hm
        cases hs : selectorName t with
        | nil =>
          rw [hpk, hs, List.append_nil] at hg
          obtain ⟨r, rfl⟩ := hp
          cases p with
          | nil => cases hg
          | cons a p' => exact hc hg
        | cons a r =>
          have : (selectorName t).getLast? = some x := by
            rw [← hxl, hpk, hs, List.getLast?_append]
            simp [List.getLast?_cons]
          exact ht x hx this
      · cases h1

/-- The time of day plus a duration, `grpc.federation.time.now().add(d)`, is such an expression; the
call inside it is fine. -/
example : compile std ["org", "federation"]
      (.member (.member (.select (.select (.ident "grpc") "federation") "time") "now" []) "add"
        [.ident "d"]) = none ∧
    compile std ["org", "federation"]
      (.member (.select (.select (.ident "grpc") "federation") "time") "now" []) =
        some [⟨["grpc", "federation", "time", "now"], false⟩] :=
  ⟨(C79_std_false "add" (by decide) _ _ _ (by decide) (by decide)).2, by decide +kernel⟩

/-- With the time library alone, the method is called. -/
example : compile timeLib ["org", "federation"]
      (.member (.member (.select (.select (.ident "grpc") "federation") "time") "now" []) "add"
        [.ident "d"]) =
        some [⟨["add"], true⟩, ⟨["grpc", "federation", "time", "now"], false⟩] := by decide +kernel

/-- A case of `C79_functions`: `grpc.federation.time.parse` although the URL library has a method of
the name. -/
example : compile std ["org"]
      (.member (.select (.select (.ident "grpc") "federation") "time") "parse" [.ident "x", .ident "y"]) =
    some [⟨["grpc", "federation", "time", "parse"], false⟩] := by
  rw [C79_functions std ["org"] _ ["grpc", "federation", "time"] ["grpc", "federation", "time", "parse"]
    "parse" _ (by decide) (by decide +kernel) (by decide +kernel)]
  decide +kernel

/-- A case of `C79_methods_partial`: `u.host()`. -/
example : ∃ ks, compile std ["org"] (.member (.ident "u") "host" []) = some (⟨["host"], true⟩ :: ks) :=
  (C79_methods_partial std ["org"] (.ident "u") "host" [] ⟨[], by decide +kernel⟩ ⟨[], by decide +kernel⟩
    (by decide +kernel) (by decide +kernel) (by decide +kernel) (.inl (by decide +kernel))).mpr
    (C79_std_methods_partial (.meth "host") (by decide +kernel) rfl rfl (by decide) (by decide))

/-! ## Plugins -/

/-- **C80.** A function of a plugin that shares its last part with a bound function or method of a
library can not be called: the generator rejects every call of it by its name. -/
theorem C80_callable_false (base : List Decl) (ps : List PluginFn) (c : QName) (t : Expr) (q n : QName)
    (f : String) (args : List Expr) (hq : qualified? t = some q)
    (hn : lookup (genEnv base ps) c (q ++ [f]) = some n)
    (hb : ∃ d ∈ base, d.bound = true ∧ d.short = f) (hp : ∀ d ∈ base, d.name ≠ n) :
    compile (genEnv base ps) c (.member t f args) = none := by
  have hno : has (genEnv base ps) n false true = false := by
    cases h : has (genEnv base ps) n false true with
    | false => rfl
    | true =>
      obtain ⟨d, h1, h2, -, h4⟩ := has_iff.mp h
      rcases mem_gen.mp h1 with h | ⟨p, -, rfl⟩
      · exact absurd h2 (hp d h)
      · cases h4
  have hq' : qualified? (expand (genEnv base ps) t) = some q := by rw [qualified_expand]; exact hq
  unfold compile
  simp only [expand, expandCall, macroOf_gen]
  cases hm : macroOf base f with
  | none =>
    obtain ⟨d, h1, h2, h3⟩ := hb
    exact absurd h3 (macroOf_none hm d h1 h2)
  | some b =>
    cases b with
    | false =>
      simp [callees, resolveGlobal, selectorName_of_qualified hq', hn, startsCtx_withCtx, hno]
    | true =>
      simp [callees, resolveMember, namespaced?, hq', hn, startsCtx_withCtx, hno]

/-- A plugin of the examples, extended by a function that is called like a function of the library. -/
def exPlugin : List PluginFn :=
  [⟨["example", "regexp"], "compile", false⟩, ⟨["example", "regexp"], "new", false⟩,
    ⟨[], "matchString", true⟩]

/-- `example.regexp.new(x)` is rejected by the generator, and would work in the server. -/
example : compile (genEnv std exPlugin) ["org", "federation"]
      (.member (.select (.ident "example") "regexp") "new" [.ident "x"]) = none ∧
    compile (runEnv std exPlugin) ["org", "federation"]
      (.member (.select (.ident "example") "regexp") "new" [.ident "x"]) =
        some [⟨["example", "regexp", "new"], false⟩] :=
  ⟨C80_callable_false std exPlugin _ _ ["example", "regexp"] ["example", "regexp", "new"] "new" _
    (by decide) (by decide +kernel) (by decide +kernel) (by decide +kernel), by decide +kernel⟩

/-- A case of `C80_accepted_partial`: `example.regexp.compile(x).matchString(y)`. -/
example : Apart std [⟨["example", "regexp"], "compile", false⟩, ⟨[], "matchString", true⟩]
      ["org", "federation"] ∧
    compile (genEnv std [⟨["example", "regexp"], "compile", false⟩, ⟨[], "matchString", true⟩])
      ["org", "federation"]
      (.member (.member (.select (.ident "example") "regexp") "compile" [.ident "x"]) "matchString"
        [.ident "y"]) =
      some [⟨["matchString"], true⟩, ⟨["example", "regexp", "compile"], false⟩] :=
  ⟨⟨by decide +kernel, by decide +kernel, by decide⟩, by decide +kernel⟩

/-- **C80 is false of the code without the conditions on names.**  A function of a plugin that is
called like a method of CEL breaks all calls of the method in the server, after the generator has
accepted them; and a function that is called without its package, from an expression in the package of
the plugin, is accepted by the generator and fails in the server. -/
theorem C80_accepted_false :
    (compile (genEnv std [⟨["example", "text"], "startsWith", false⟩]) ["org", "federation"]
        (.member (.ident "x") "startsWith" [.lit 0]) = some [⟨["startsWith"], true⟩] ∧
      compile (runEnv std [⟨["example", "text"], "startsWith", false⟩]) ["org", "federation"]
        (.member (.ident "x") "startsWith" [.lit 0]) = none) ∧
    (compile (genEnv std exPlugin) ["example", "regexp"] (.global ["compile"] [.ident "x"]) =
        some [⟨["example", "regexp", "compile"], false⟩] ∧
      compile (runEnv std exPlugin) ["example", "regexp"] (.global ["compile"] [.ident "x"]) =
        none) := by
  decide +kernel

/-! ## Packages -/

/-- **C80.** Names in expressions of a message are looked up from the package of the message in the
generator (resolver/resolver.go 4478) and from the package of the service in the server
(grpc/federation/cel.go 271).  A name means the same in both if it is the whole name of a declaration
and no other declaration ends in it. -/
theorem C80_packages_partial (ds : List Decl) (c c' q : QName) (h : lookup ds c q = some q)
    (hu : ∀ d ∈ ds, q <:+ d.name → d.name = q) : lookup ds c' q = some q := by
  obtain ⟨hd, -⟩ := lookup_some h
  cases hl : lookup ds c' q with
  | some n =>
    obtain ⟨⟨d, h1, h2⟩, p, -, he⟩ := lookup_some hl
    rw [← h2, hu d h1 ⟨p, by rw [h2, he]⟩]
  | none =>
    exfalso
    unfold lookup at hl
    rw [List.find?_eq_none] at hl
    obtain ⟨d, h1, h2⟩ := hd
    refine hl q (mem_candidates.mpr ⟨[], List.nil_prefix, rfl⟩) ?_
    simp only [List.any_eq_true, beq_iff_eq]
    exact ⟨d, h1, h2⟩

/-- A case: the name of a function of the library. -/
example : lookup std ["org", "user"] ["grpc", "federation", "uuid", "new"] =
      some ["grpc", "federation", "uuid", "new"] ∧
    ∀ d ∈ std, ["grpc", "federation", "uuid", "new"] <:+ d.name →
      d.name = ["grpc", "federation", "uuid", "new"] := by decide +kernel

/-- **C80 is false of the code** for names relative to the package of a message that is not the package
of the service: the accessor `Status.name(x)` of the enum `org.user.Status` in an expression of a
message of `org.user` is accepted by the generator and fails in a server of `org.federation`. -/
theorem C80_packages_false :
    compile (std ++ [.plainFn ["org", "user", "Status"] "name"]) ["org", "user"]
        (.member (.ident "Status") "name" [.ident "x"]) =
      some [⟨["org", "user", "Status", "name"], false⟩] ∧
    compile (std ++ [.plainFn ["org", "user", "Status"] "name"]) ["org", "federation"]
        (.member (.ident "Status") "name" [.ident "x"]) = none := by
  decide +kernel

/-! ## Expressions that are compiled twice -/

/-- The expression that spells a dotted name. -/
def spell : QName → Expr
  | [] => .lit 0
  | x :: r => r.foldl .select (.ident x)

mutual
/-- The text of an expanded expression, parsed again: a call by a dotted name is a receiver-style call
(`createCELAst` compiles the text of the rewritten expression again, grpc/federation/cel.go 778–804). -/
def reparse : Expr → Expr
  | .lit n => .lit n
  | .ident x => .ident x
  | .select e f => .select (reparse e) f
  | .member t f args => .member (reparse t) f (reparseList args)
  | .global q args =>
    match q.getLast?, q.dropLast with
    | some f, x :: r => .member (spell (x :: r)) f (reparseList args)
    | _, _ => .global q (reparseList args)
/-- The same of arguments. -/
def reparseList : List Expr → List Expr
  | [] => []
  | e :: es => reparse e :: reparseList es
end

theorem spell_aux (ds : List Decl) : ∀ (r : QName) (e : Expr), expand ds e = e →
    expand ds (r.foldl .select e) = r.foldl .select e ∧
      selectorName (r.foldl .select e) = selectorName e ++ r
  | [], e, h => by simp [h]
  | x :: r, e, h => by
    obtain ⟨h1, h2⟩ := spell_aux ds r (.select e x) (by simp [expand, h])
    exact ⟨h1, by simp only [List.foldl_cons, h2, selectorName, List.append_assoc, List.singleton_append]⟩

theorem spell_expand (ds : List Decl) (x : String) (r : QName) :
    expand ds (spell (x :: r)) = spell (x :: r) ∧ selectorName (spell (x :: r)) = x :: r :=
  spell_aux ds r (.ident x) rfl

theorem withCtx_of_starts {args : List Expr} (h : startsCtx args = true) : withCtx args = args := by
  simp [withCtx, h]

theorem reparse_startsCtx {args : List Expr} (h : startsCtx args = true) :
    startsCtx (reparseList args) = true := by
  cases args with
  | nil => cases h
  | cons e es => cases e <;> simp_all [startsCtx, reparseList, reparse]

mutual
/-- **C79.** Compiling the text of an expanded expression again expands it to the same expression: the
context is not inserted a second time. -/
theorem C79_recompile (ds : List Decl) : ∀ (e : Expr), Plain e →
    expand ds (reparse (expand ds e)) = expand ds e
  | .lit _, _ => rfl
  | .ident _, _ => rfl
  | .select e f, h => by simp only [expand, reparse, C79_recompile ds e h]
  | .global q args, h => by
    obtain ⟨g, rfl⟩ : ∃ g, q = [g] := by
      have := h.1
      cases q with
      | nil => cases this
      | cons g r =>
        cases r with
        | nil => exact ⟨g, rfl⟩
        | cons => simp at this
    simp only [expand, reparse]
    simp [expand, C79_recompileList ds args h.2]
  | .member t f args, h => by
    have iha := C79_recompileList ds args h.2
    have iha' : expandList ds (reparseList (withCtx (expandList ds args))) =
        withCtx (expandList ds args) := by
      unfold withCtx
      split
      · exact iha
      · simp only [reparseList, reparse, expandList, expand, iha]
    simp only [expand]
    cases hm : macroOf ds f with
    | none =>
      simp only [expandCall, hm, reparse, expand, C79_recompile ds t h.1, iha]
    | some b =>
      cases b with
      | true =>
        simp only [expandCall, hm, reparse, expand, C79_recompile ds t h.1, iha',
          withCtx_of_starts (startsCtx_withCtx _)]
      | false =>
        simp only [expandCall, hm]
        cases hs : selectorName (expand ds t) with
        | nil => simp [reparse, expand, iha']
        | cons x r =>
          have hg : (x :: r ++ [f]).getLast? = some f := by simp [List.getLast?_cons]
          have hd : (x :: r ++ [f]).dropLast = x :: r := by
            rw [List.dropLast_concat]
          simp only [reparse, hg, hd, expand, expandCall, hm, (spell_expand ds x r).1,
            (spell_expand ds x r).2, iha', withCtx_of_starts (startsCtx_withCtx _)]
theorem C79_recompileList (ds : List Decl) : ∀ (es : List Expr), PlainList es →
    expandList ds (reparseList (expandList ds es)) = expandList ds es
  | [], _ => rfl
  | e :: es, h => by
    simp only [expandList, reparseList, C79_recompile ds e h.1, C79_recompileList ds es h.2]
end

/-- A case with both kinds of macros. -/
example : Plain (.member (.member (.select (.select (.ident "grpc") "federation") "url") "parse"
    [.ident "x"]) "host" []) := by
  simp [Plain, PlainList, ctxName]

end Verif.FuncCall
