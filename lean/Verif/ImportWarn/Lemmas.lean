import Verif.ImportWarn.Spec

/-! # Lemmas about the packages that are collected -/

namespace Verif.ImportWarn

/-! ## Names -/

theorem lookupFrom_some {known : List QName} {n p : QName} : ∀ {k : Nat}, k ≤ n.length →
    lookupFrom known n k = some p →
      ∃ j, 0 < j ∧ j ≤ k ∧ p = n.take j ∧ p ∈ known ∧ ∀ i, j < i → i ≤ k → n.take i ∉ known
  | 0, _, h => by simp [lookupFrom] at h
  | k + 1, hk, h => by
    unfold lookupFrom at h
    split at h
    · rename_i hm
      cases h
      exact ⟨k + 1, by omega, Nat.le_refl _, rfl, hm, fun i h1 h2 => by omega⟩
    · rename_i hm
      obtain ⟨j, h1, h2, h3, h4, h5⟩ := lookupFrom_some (by omega) h
      refine ⟨j, h1, by omega, h3, h4, fun i hi1 hi2 => ?_⟩
      by_cases hik : i = k + 1
      · rw [hik]; exact hm
      · exact h5 i hi1 (by omega)

theorem lookupFrom_none {known : List QName} {n : QName} : ∀ {k : Nat},
    lookupFrom known n k = none ↔ ∀ i, 0 < i → i ≤ k → n.take i ∉ known
  | 0 => by simp only [lookupFrom, true_iff]; intro i h1 h2; omega
  | k + 1 => by
    unfold lookupFrom
    split
    · rename_i hm
      simp only [reduceCtorEq, false_iff]
      exact fun h => h (k + 1) (by omega) (Nat.le_refl _) hm
    · rename_i hm
      rw [lookupFrom_none]
      constructor
      · intro h i h1 h2
        by_cases hik : i = k + 1
        · rw [hik]; exact hm
        · exact h i h1 (by omega)
      · intro h i h1 h2
        exact h i h1 (by omega)

/-- A part of a name followed by something is a proper prefix. -/
theorem take_of_append {n q : QName} {x : String} {xs : List String} (h : n = q ++ x :: xs) :
    n.take q.length = q ∧ q.length < n.length := by
  subst h; simp

theorem split_of_take {n : QName} {i : Nat} (h : i < n.length) : ∃ x xs, n = n.take i ++ x :: xs := by
  refine ⟨n[i], n.drop (i + 1), ?_⟩
  rw [← List.drop_eq_getElem_cons h, List.take_append_drop]

theorem lookupPackage_iff (known : List QName) (n p : QName) :
    lookupPackage known n = some p ↔ InPackage known p n := by
  unfold lookupPackage
  constructor
  · intro h
    obtain ⟨j, h1, h2, h3, h4, h5⟩ := lookupFrom_some (by omega) h
    have hj : j < n.length := by omega
    have hpl : p.length = j := by rw [h3, List.length_take]; omega
    refine ⟨h4, ?_, ?_, ?_⟩
    · rintro rfl; simp at hpl; omega
    · rw [h3]; exact split_of_take hj
    · rintro q hq ⟨x, xs, hx⟩
      obtain ⟨hq1, hq2⟩ := take_of_append hx
      rw [hpl]
      apply Decidable.byContradiction
      intro hlt
      exact h5 q.length (by omega) (by omega) (by rw [hq1]; exact hq)
  · rintro ⟨hp, hne, ⟨x, xs, hx⟩, hmax⟩
    obtain ⟨hp1, hp2⟩ := take_of_append hx
    have hpos : 0 < p.length := List.length_pos_iff.2 hne
    cases hl : lookupFrom known n (n.length - 1) with
    | none => exact absurd (by rw [hp1]; exact hp) (lookupFrom_none.1 hl p.length hpos (by omega))
    | some r =>
      obtain ⟨j, h1, h2, h3, h4, h5⟩ := lookupFrom_some (by omega) hl
      have hrl : r.length = j := by rw [h3, List.length_take]; omega
      have hle : r.length ≤ p.length := hmax r h4 (by rw [h3]; exact split_of_take (by omega))
      have : j = p.length := by
        apply Decidable.byContradiction
        intro hne
        exact h5 p.length (by omega) (by omega) (by rw [hp1]; exact hp)
      rw [h3, this, hp1]

theorem lookupPackage_none (known : List QName) (n : QName) :
    lookupPackage known n = none ↔ ∀ q ∈ known, q ≠ [] → ¬∃ x xs, n = q ++ x :: xs := by
  unfold lookupPackage
  rw [lookupFrom_none]
  constructor
  · rintro h q hq hne ⟨x, xs, hx⟩
    obtain ⟨hq1, hq2⟩ := take_of_append hx
    exact h q.length (List.length_pos_iff.2 hne) (by omega) (by rw [hq1]; exact hq)
  · intro h i h1 h2 hm
    exact h _ hm (by intro h0; have := congrArg List.length h0; rw [List.length_take, List.length_nil] at this; omega) (split_of_take (by omega))

theorem identPkg_inPackage {known : List QName} {n p : QName} (h : InPackage known p n) :
    identPkg known n = some p := by
  unfold identPkg
  rw [(lookupPackage_iff known n p).2 h]

/-- A function `f` of the package `p`, written after the name `n`. -/
theorem identPkg_target {known : List QName} {n p : QName} {f : String} (ho : NoOuter known p)
    (h : InPackage known p (n ++ [f])) : identPkg known n = some p := by
  obtain ⟨hp, hne, ⟨x, xs, hx⟩, hmax⟩ := h
  by_cases hnp : n = p
  · subst hnp
    have : lookupPackage known n = none := by
      rw [lookupPackage_none]
      rintro q hq hqne ⟨y, ys, hy⟩
      have := ho.2.2 q hq hqne ⟨y :: ys, hy.symm⟩
      subst this
      have := congrArg List.length hy
      simp at this
    unfold identPkg
    rw [this]
    simp [hp]
  · apply identPkg_inPackage
    have hlen : p.length ≤ n.length := by
      have := congrArg List.length hx; simp at this; omega
    have hpre : p <+: n := by
      have h1 : p <+: n ++ [f] := ⟨x :: xs, hx.symm⟩
      have h2 : n <+: n ++ [f] := ⟨[f], rfl⟩
      exact List.prefix_of_prefix_length_le h1 h2 hlen
    obtain ⟨t, ht⟩ := hpre
    refine ⟨hp, hne, ?_, ?_⟩
    · cases t with
      | nil => simp at ht; exact absurd ht.symm hnp
      | cons y ys => exact ⟨y, ys, ht.symm⟩
    · rintro q hq ⟨y, ys, hy⟩
      exact hmax q hq ⟨y, ys ++ [f], by rw [hy]; simp⟩

theorem identPkg_some {known : List QName} {n p : QName} (h : identPkg known n = some p) :
    InPackage known p n ∨ (n = p ∧ p ∈ known) := by
  unfold identPkg at h
  cases hl : lookupPackage known n with
  | some r => rw [hl] at h; cases h; exact .inl ((lookupPackage_iff known n p).1 hl)
  | none =>
    rw [hl] at h
    simp only at h
    split at h
    · cases h; exact .inr ⟨rfl, by assumption⟩
    · cases h

theorem identPkg_target_conv {known : List QName} {n p : QName} {f : String} (hne : p ≠ []) (hi : NoInner known p)
    (h : identPkg known n = some p) : InPackage known p (n ++ [f]) := by
  have hpre : ∃ t, n = p ++ t := by
    rcases identPkg_some h with ⟨_, _, ⟨x, xs, hx⟩, _⟩ | ⟨rfl, _⟩
    · exact ⟨_, hx⟩
    · exact ⟨[], by simp⟩
  have hk : p ∈ known := by
    rcases identPkg_some h with h | h
    · exact h.1
    · exact h.2
  obtain ⟨t, rfl⟩ := hpre
  refine ⟨hk, hne, ?_, ?_⟩
  · cases t with
    | nil => exact ⟨f, [], by simp⟩
    | cons y ys => exact ⟨y, ys ++ [f], by simp⟩
  · rintro q hq ⟨y, ys, hy⟩
    apply Decidable.byContradiction
    intro hlt
    have h1 : p <+: p ++ t ++ [f] := ⟨t ++ [f], by simp⟩
    have h2 : q <+: p ++ t ++ [f] := ⟨y :: ys, hy.symm⟩
    have := hi q hq (List.prefix_of_prefix_length_le h1 h2 (by omega))
    subst this
    omega

/-! ## Expressions -/

theorem selectorName_qualified : ∀ (e : Ast) (n : QName), qualified? e = some n → selectorName e = n
  | .ident x, n, h => by simpa [qualified?, selectorName] using h
  | .select e f, n, h => by
    simp only [qualified?, Option.map_eq_some_iff] at h
    obtain ⟨m, hm, rfl⟩ := h
    simp [selectorName, selectorName_qualified e m hm]
  | .lit, _, h => by simp [qualified?] at h
  | .call _ _, _, h => by simp [qualified?] at h
  | .member _ _ _, _, h => by simp [qualified?] at h
  | .list _, _, h => by simp [qualified?] at h
  | .map _ _, _, h => by simp [qualified?] at h
  | .struct _ _, _, h => by simp [qualified?] at h
  | .compr _, _, h => by simp [qualified?] at h

theorem idents_qualified (e : Ast) (n : QName) (h : qualified? e = some n) : idents e = [n] := by
  cases e with
  | ident x => simpa [qualified?, idents] using h
  | select e f =>
    have := selectorName_qualified _ _ h
    simpa [idents, selectorName] using this
  | _ => simp [qualified?] at h

/-- The expression has a name of the package, for the code. -/
def Names (known : List QName) (p : QName) (ns : List QName) : Prop := ∃ n ∈ ns, identPkg known n = some p

theorem names_append {known : List QName} {p : QName} {a b : List QName} :
    Names known p (a ++ b) ↔ Names known p a ∨ Names known p b := by
  unfold Names
  simp only [List.mem_append, or_and_right, exists_or]

theorem mem_celPkgs {known : List QName} {p : QName} {a : Ast} : p ∈ celPkgs known a ↔ Names known p (idents a) := by
  simp [celPkgs, Names]

mutual
theorem uses_names {known : List QName} {p : QName} (ho : NoOuter known p) :
    ∀ a : Ast, a.Uses (fun _ => False) known p → Names known p (idents a)
  | .lit, h => by simp [Ast.Uses] at h
  | .ident x, h => by simp [Ast.Uses] at h
  | .select e f, h => by
    unfold Ast.Uses at h
    cases hq : qualified? e with
    | none => rw [hq] at h; exact h.1.elim
    | some n =>
      rw [hq] at h
      exact ⟨n ++ [f], by simp [idents, selectorName_qualified e n hq], identPkg_inPackage h⟩
  | .call f args, h => by
    unfold Ast.Uses at h; unfold idents; exact usesL_names ho args h
  | .member t f args, h => by
    unfold Ast.Uses at h; unfold idents
    rw [names_append]
    rcases h with h | h
    · left
      cases hq : qualified? t with
      | none => rw [hq] at h; exact uses_names ho t h
      | some n =>
        rw [hq] at h
        exact ⟨n, by simp [idents_qualified t n hq], identPkg_target ho h⟩
    · exact .inr (usesL_names ho args h)
  | .list es, h => by
    unfold Ast.Uses at h; unfold idents; exact usesL_names ho es h
  | .map ks vs, h => by
    unfold Ast.Uses at h; unfold idents
    rw [names_append]
    exact h.imp (usesL_names ho ks) (usesL_names ho vs)
  | .struct ty vals, h => by
    unfold Ast.Uses at h; unfold idents
    rcases h with h | h
    · exact ⟨ty, by simp, identPkg_inPackage h⟩
    · obtain ⟨n, hn, hp⟩ := usesL_names ho vals h
      exact ⟨n, List.mem_cons_of_mem _ hn, hp⟩
  | .compr parts, h => by unfold Ast.Uses at h; exact h.1.elim
theorem usesL_names {known : List QName} {p : QName} (ho : NoOuter known p) :
    ∀ as : List Ast, UsesL (fun _ => False) known p as → Names known p (identsL as)
  | [], h => by simp [UsesL] at h
  | a :: as, h => by
    unfold UsesL at h; unfold identsL
    rw [names_append]
    exact h.imp (uses_names ho a) (usesL_names ho as)
end

mutual
theorem names_uses {S : Place → Prop} {known : List QName} {p : QName} (hne : p ≠ []) (hi : NoInner known p) :
    ∀ a : Ast, a.Clean p → Names known p (idents a) → a.Uses S known p
  | .lit, _, h => by simp [Names, idents] at h
  | .ident x, hc, h => by
    unfold Ast.Clean at hc
    obtain ⟨n, hn, hp⟩ := h
    simp only [idents, List.mem_singleton] at hn
    subst hn
    rcases identPkg_some hp with ⟨_, _, ⟨y, ys, hy⟩, _⟩ | ⟨h, _⟩
    · have := congrArg List.length hy
      have hpos : 0 < p.length := List.length_pos_iff.2 hne
      simp at this
      omega
    · exact absurd h hc
  | .select e f, hc, h => by
    unfold Ast.Clean at hc
    obtain ⟨m, hm, hnp⟩ := hc
    unfold Ast.Uses
    rw [hm]
    obtain ⟨n, hn, hp⟩ := h
    simp only [idents, List.mem_singleton, selectorName_qualified e m hm] at hn
    subst hn
    rcases identPkg_some hp with h | ⟨h, _⟩
    · exact h
    · exact absurd h hnp
  | .call f args, hc, h => by
    unfold Ast.Clean at hc; unfold idents at h; unfold Ast.Uses; exact namesL_uses hne hi args hc h
  | .member t f args, hc, h => by
    unfold Ast.Clean at hc; unfold idents at h; unfold Ast.Uses
    rw [names_append] at h
    rcases h with h | h
    · left
      cases hq : qualified? t with
      | none =>
        rw [hq] at hc
        rcases hc.1 with h0 | h0
        · simp at h0
        · exact names_uses hne hi t h0 h
      | some n =>
        obtain ⟨m, hm, hp⟩ := h
        rw [idents_qualified t n hq, List.mem_singleton] at hm
        subst hm
        exact identPkg_target_conv hne hi hp
    · exact .inr (namesL_uses hne hi args hc.2 h)
  | .list es, hc, h => by
    unfold Ast.Clean at hc; unfold idents at h; unfold Ast.Uses; exact namesL_uses hne hi es hc h
  | .map ks vs, hc, h => by
    unfold Ast.Clean at hc; unfold idents at h; unfold Ast.Uses
    rw [names_append] at h
    exact h.imp (namesL_uses hne hi ks hc.1) (namesL_uses hne hi vs hc.2)
  | .struct ty vals, hc, h => by
    unfold Ast.Clean at hc; unfold idents at h; unfold Ast.Uses
    obtain ⟨n, hn, hp⟩ := h
    rcases List.mem_cons.1 hn with rfl | hn
    · left
      rcases identPkg_some hp with h | ⟨h, _⟩
      · exact h
      · exact absurd h hc.1
    · exact .inr (namesL_uses hne hi vals hc.2 ⟨n, hn, hp⟩)
  | .compr parts, _, h => by simp [Names, idents] at h
theorem namesL_uses {S : Place → Prop} {known : List QName} {p : QName} (hne : p ≠ []) (hi : NoInner known p) :
    ∀ as : List Ast, CleanL p as → Names known p (identsL as) → UsesL S known p as
  | [], _, h => by simp [Names, identsL] at h
  | a :: as, hc, h => by
    unfold CleanL at hc; unfold identsL at h; unfold UsesL
    rw [names_append] at h
    exact h.imp (names_uses hne hi a hc.1) (namesL_uses hne hi as hc.2)
end

/-! ## Files -/

theorem ty_has (p : QName) : ∀ t : Ty, p ∈ t.pkgs ↔ t.Has (· = p)
  | .scalar => by simp [Ty.pkgs, Ty.Has]
  | .pkg q => by simp [Ty.pkgs, Ty.Has]; exact eq_comm
  | .map k v => by simp [Ty.pkgs, Ty.Has, ty_has p k, ty_has p v]

/-- What the code looks for: no special place, names in expressions, packages. -/
def codeQuery (known : List QName) (p : QName) : Query :=
  ⟨fun _ => False, fun a => p ∈ celPkgs known a, (· = p)⟩

theorem mem_celPkgsO {known : List QName} {p : QName} (o : Option Ast) :
    p ∈ celPkgsO known o ↔ (codeQuery known p).EO o := by
  cases o <;> simp [celPkgsO, Query.EO, codeQuery]

theorem mem_argPkgs {known : List QName} {p : QName} (args : List Arg) :
    p ∈ argPkgs known args ↔ ∃ a ∈ args, a.Has (codeQuery known p) := by
  simp only [argPkgs, List.mem_flatMap, List.mem_append, mem_celPkgsO, ty_has, Arg.Has, codeQuery, false_and, or_false]

theorem mem_flat {known : List QName} {p : QName} (as : List Ast) :
    p ∈ as.flatMap (celPkgs known) ↔ ∃ a ∈ as, (codeQuery known p).E a := by
  simp [codeQuery]

mutual
theorem mem_defPkgs {known : List QName} {p : QName} : ∀ d : Def, p ∈ defPkgs known d ↔ d.Has (codeQuery known p)
  | .mk c e => by
    unfold defPkgs Def.Has
    rw [mem_exprPkgs e]
    simp [codeQuery]
theorem mem_exprPkgs {known : List QName} {p : QName} : ∀ e : DExpr, p ∈ exprPkgs known e ↔ e.Has (codeQuery known p)
  | .value a => by unfold exprPkgs DExpr.Has; exact Iff.rfl
  | .call svc req args r errs => by
    unfold exprPkgs DExpr.Has
    simp only [List.cons_append, List.mem_cons, List.mem_append, mem_argPkgs, mem_errsPkgs errs]
    simp only [codeQuery, false_and, false_or, @eq_comm _ p]
  | .msg q args => by
    unfold exprPkgs DExpr.Has
    simp only [List.mem_cons, mem_argPkgs]
    simp only [codeQuery, @eq_comm _ p]
  | .enum q v => by
    unfold exprPkgs DExpr.Has
    simp only [List.mem_singleton, codeQuery, false_and, or_false]
    exact eq_comm
  | .mapValue a => by unfold exprPkgs DExpr.Has; exact Iff.rfl
  | .mapMsg q args => by
    unfold exprPkgs DExpr.Has
    simp only [List.mem_cons, mem_argPkgs]
    simp only [codeQuery, @eq_comm _ p]
  | .mapEnum q v => by unfold exprPkgs DExpr.Has; simp [codeQuery]
  | .validation e => by unfold exprPkgs DExpr.Has; exact mem_errPkgs e
theorem mem_errPkgs {known : List QName} {p : QName} : ∀ e : Err, p ∈ errPkgs known e ↔ e.Has (codeQuery known p)
  | .mk defs c m i ds => by
    unfold errPkgs Err.Has
    simp only [List.mem_append, mem_celPkgsO, mem_detailsPkgs ds, or_assoc]
    simp [codeQuery]
theorem mem_detailPkgs {known : List QName} {p : QName} :
    ∀ d : Detail, p ∈ detailPkgs known d ↔ d.Has (codeQuery known p)
  | .mk c defs msgs vs ts => by
    unfold detailPkgs Detail.Has
    simp only [List.mem_append, mem_celPkgsO, mem_flat, mem_defsPkgs defs, mem_defsPkgs msgs, or_assoc]
theorem mem_defsPkgs {known : List QName} {p : QName} :
    ∀ ds : List Def, p ∈ defsPkgs known ds ↔ defsHas (codeQuery known p) ds
  | [] => by simp [defsPkgs, defsHas]
  | d :: ds => by unfold defsPkgs defsHas; rw [List.mem_append, mem_defPkgs d, mem_defsPkgs ds]
theorem mem_errsPkgs {known : List QName} {p : QName} :
    ∀ es : List Err, p ∈ errsPkgs known es ↔ errsHas (codeQuery known p) es
  | [] => by simp [errsPkgs, errsHas]
  | e :: es => by unfold errsPkgs errsHas; rw [List.mem_append, mem_errPkgs e, mem_errsPkgs es]
theorem mem_detailsPkgs {known : List QName} {p : QName} :
    ∀ ds : List Detail, p ∈ detailsPkgs known ds ↔ detailsHas (codeQuery known p) ds
  | [] => by simp [detailsPkgs, detailsHas]
  | d :: ds => by unfold detailsPkgs detailsHas; rw [List.mem_append, mem_detailPkgs d, mem_detailsPkgs ds]
end

theorem mem_fieldFedPkgs {known : List QName} {p : QName} (f : Field) :
    p ∈ fieldFedPkgs known f ↔ f.Has (codeQuery known p) := by
  unfold fieldFedPkgs Field.Has
  simp only [List.mem_append, mem_celPkgsO, or_assoc]
  have h1 : (∃ q ∈ f.aliases, (codeQuery known p).P q) ↔ p ∈ f.aliases := by simp [codeQuery]
  rw [h1]
  cases f.oneof with
  | none => simp [Query.EO]
  | some o => simp [codeQuery]

mutual
theorem mem_msgFedPkgs {known : List QName} {p : QName} :
    ∀ m : Msg, p ∈ msgFedPkgs known m ↔ m.Has (codeQuery known p)
  | .mk opts aliases defs fields enums nested => by
    unfold msgFedPkgs Msg.Has
    have h1 : (∃ q ∈ aliases, (codeQuery known p).P q) ↔ p ∈ aliases := by simp [codeQuery]
    simp only [List.mem_append, List.mem_flatMap, mem_fieldFedPkgs, mem_defsPkgs, mem_msgsFedPkgs nested, h1, or_assoc]
    simp [codeQuery]
theorem mem_msgsFedPkgs {known : List QName} {p : QName} :
    ∀ ms : List Msg, p ∈ msgsFedPkgs known ms ↔ msgsHas (codeQuery known p) ms
  | [] => by simp [msgsFedPkgs, msgsHas]
  | m :: ms => by unfold msgsFedPkgs msgsHas; rw [List.mem_append, mem_msgFedPkgs m, mem_msgsFedPkgs ms]
end

theorem mem_fedPkgs (f : File) (p : QName) : p ∈ fedPkgs f ↔ f.Has (codeQuery f.known p) := by
  unfold fedPkgs File.Has Service.Has
  simp only [List.mem_append, List.mem_flatMap, mem_msgsFedPkgs, ty_has, or_assoc]
  simp [codeQuery]

/-! ## Larger queries -/

/-- A query that finds at least what another one finds. -/
structure Query.Le (q r : Query) : Prop where
  s : ∀ x, q.S x → r.S x
  e : ∀ a, q.E a → r.E a
  p : ∀ a, q.P a → r.P a

theorem Query.Le.eo {q r : Query} (h : q.Le r) {o : Option Ast} : q.EO o → r.EO o
  | ⟨a, ha, he⟩ => ⟨a, ha, h.e a he⟩

theorem ty_mono {P R : QName → Prop} (h : ∀ a, P a → R a) : ∀ t : Ty, t.Has P → t.Has R
  | .scalar, x => x
  | .pkg _, x => h _ x
  | .map k v, x => x.imp (ty_mono h k) (ty_mono h v)

theorem arg_mono {q r : Query} (h : q.Le r) (a : Arg) : a.Has q → a.Has r
  | .inl x => .inl (h.eo x)
  | .inr (.inl x) => .inr (.inl (ty_mono h.p _ x))
  | .inr (.inr x) => .inr (.inr ⟨h.s _ x.1, h.eo x.2⟩)

theorem args_mono {q r : Query} (h : q.Le r) (as : List Arg) : (∃ a ∈ as, a.Has q) → ∃ a ∈ as, a.Has r
  | ⟨a, ha, x⟩ => ⟨a, ha, arg_mono h a x⟩

theorem asts_mono {q r : Query} (h : q.Le r) (as : List Ast) : (∃ a ∈ as, q.E a) → ∃ a ∈ as, r.E a
  | ⟨a, ha, x⟩ => ⟨a, ha, h.e a x⟩

mutual
theorem def_mono {q r : Query} (h : q.Le r) : ∀ d : Def, d.Has q → d.Has r
  | .mk c e, x => by
    unfold Def.Has at *
    exact x.imp (fun y => ⟨h.s _ y.1, h.eo y.2⟩) (dexpr_mono h e)
theorem dexpr_mono {q r : Query} (h : q.Le r) : ∀ e : DExpr, e.Has q → e.Has r
  | .value a, x => by unfold DExpr.Has at *; exact h.e _ x
  | .call svc req args c errs, x => by
    unfold DExpr.Has at *
    exact x.imp (h.p _) (Or.imp (h.p _) (Or.imp (args_mono h args)
      (Or.imp (fun y => ⟨h.s _ y.1, h.eo y.2⟩) (errs_mono h errs))))
  | .msg _ args, x => by unfold DExpr.Has at *; exact x.imp (h.p _) (args_mono h args)
  | .enum _ _, x => by unfold DExpr.Has at *; exact x.imp (h.p _) (fun y => ⟨h.s _ y.1, h.e _ y.2⟩)
  | .mapValue a, x => by unfold DExpr.Has at *; exact h.e _ x
  | .mapMsg _ args, x => by unfold DExpr.Has at *; exact x.imp (h.p _) (args_mono h args)
  | .mapEnum _ _, x => by unfold DExpr.Has at *; exact ⟨h.s _ x.1, x.2.imp (h.p _) (h.e _)⟩
  | .validation e, x => by unfold DExpr.Has at *; exact err_mono h e x
theorem err_mono {q r : Query} (h : q.Le r) : ∀ e : Err, e.Has q → e.Has r
  | .mk defs c m i ds, x => by
    unfold Err.Has at *
    exact x.imp (fun y => ⟨h.s _ y.1, defs_mono h defs y.2⟩)
      (Or.imp h.eo (Or.imp h.eo (Or.imp h.eo (details_mono h ds))))
theorem detail_mono {q r : Query} (h : q.Le r) : ∀ d : Detail, d.Has q → d.Has r
  | .mk c defs msgs vs ts, x => by
    unfold Detail.Has at *
    exact x.imp h.eo (Or.imp (asts_mono h vs) (Or.imp (defs_mono h msgs) (Or.imp (defs_mono h defs) (asts_mono h ts))))
theorem defs_mono {q r : Query} (h : q.Le r) : ∀ ds : List Def, defsHas q ds → defsHas r ds
  | [], x => x
  | d :: ds, x => by unfold defsHas at *; exact x.imp (def_mono h d) (defs_mono h ds)
theorem errs_mono {q r : Query} (h : q.Le r) : ∀ ds : List Err, errsHas q ds → errsHas r ds
  | [], x => x
  | d :: ds, x => by unfold errsHas at *; exact x.imp (err_mono h d) (errs_mono h ds)
theorem details_mono {q r : Query} (h : q.Le r) : ∀ ds : List Detail, detailsHas q ds → detailsHas r ds
  | [], x => x
  | d :: ds, x => by unfold detailsHas at *; exact x.imp (detail_mono h d) (details_mono h ds)
end

theorem field_mono {q r : Query} (h : q.Le r) (f : Field) : f.Has q → f.Has r
  | .inl ⟨p, hp, x⟩ => .inl ⟨p, hp, h.p _ x⟩
  | .inr (.inl x) => .inr (.inl (h.eo x))
  | .inr (.inr ⟨o, ho, x⟩) => .inr (.inr ⟨o, ho, x.imp h.eo
      (Or.imp (fun y => ⟨h.s _ y.1, h.eo y.2⟩) (fun y => ⟨h.s _ y.1, defs_mono h _ y.2⟩))⟩)

mutual
theorem msg_mono {q r : Query} (h : q.Le r) : ∀ m : Msg, m.Has q → m.Has r
  | .mk opts aliases defs fields enums nested, x => by
    unfold Msg.Has at *
    exact x.imp (fun ⟨p, hp, y⟩ => ⟨p, hp, h.p _ y⟩) (Or.imp (defs_mono h defs)
      (Or.imp (fun ⟨f, hf, y⟩ => ⟨f, hf, field_mono h f y⟩)
        (Or.imp (fun ⟨hs, e, he, p, hp, y⟩ => ⟨h.s _ hs, e, he, p, hp, h.p _ y⟩) (msgs_mono h nested))))
theorem msgs_mono {q r : Query} (h : q.Le r) : ∀ ms : List Msg, msgsHas q ms → msgsHas r ms
  | [], x => x
  | m :: ms, x => by unfold msgsHas at *; exact x.imp (msg_mono h m) (msgs_mono h ms)
end

theorem file_mono {q r : Query} (h : q.Le r) (f : File) : f.Has q → f.Has r
  | .inl ⟨s, hs, x⟩ => .inl ⟨s, hs, x.imp (fun ⟨t, ht, y⟩ => ⟨t, ht, ty_mono h.p _ y⟩)
      (Or.imp (fun y => ⟨h.s _ y.1, defs_mono h _ y.2⟩)
        (fun ⟨y, m, hm, p, hp, z⟩ => ⟨h.s _ y, m, hm, p, hp, h.p _ z⟩))⟩
  | .inr (.inl x) => .inr (.inl (msgs_mono h _ x))
  | .inr (.inr ⟨e, he, p, hp, x⟩) => .inr (.inr ⟨e, he, p, hp, h.p _ x⟩)

/-! ## Use without options -/

mutual
theorem mem_msgProtoPkgs {p : QName} : ∀ m : Msg, p ∈ msgProtoPkgs m ↔ m.ProtoUses False p
  | .mk opts aliases defs fields enums nested => by
    unfold msgProtoPkgs Msg.ProtoUses
    simp only [List.mem_append, List.mem_flatMap, ty_has, mem_msgsProtoPkgs nested, false_and, false_or]
theorem mem_msgsProtoPkgs {p : QName} : ∀ ms : List Msg, p ∈ msgsProtoPkgs ms ↔ msgsProtoUse False p ms
  | [] => by simp [msgsProtoPkgs, msgsProtoUse]
  | m :: ms => by unfold msgsProtoPkgs msgsProtoUse; rw [List.mem_append, mem_msgProtoPkgs m, mem_msgsProtoPkgs ms]
end

theorem mem_protoPkgs (f : File) (p : QName) : p ∈ protoPkgs f ↔ UsedByProto False f p := by
  unfold protoPkgs UsedByProto
  simp only [List.mem_append, List.mem_flatMap, mem_msgsProtoPkgs, false_and, or_false, List.mem_cons, List.not_mem_nil]

/-! ## Two queries at once -/

/-- A query that finds what one of two queries finds. -/
def Query.or (S : Place → Prop) (E F : Ast → Prop) (P R : QName → Prop) : Query :=
  ⟨S, fun a => E a ∨ F a, fun p => P p ∨ R p⟩

section
variable {S : Place → Prop} {E F : Ast → Prop} {P R : QName → Prop}

theorem eo_or {o : Option Ast} (h : (Query.or S E F P R).EO o) : Query.EO ⟨S, E, P⟩ o ∨ Query.EO ⟨S, F, R⟩ o := by
  obtain ⟨a, ha, h | h⟩ := h
  · exact .inl ⟨a, ha, h⟩
  · exact .inr ⟨a, ha, h⟩

theorem ty_or : ∀ t : Ty, t.Has (fun p => P p ∨ R p) → t.Has P ∨ t.Has R
  | .scalar, x => x.elim
  | .pkg _, x => x
  | .map k v, x => by
    unfold Ty.Has at *
    rcases x with x | x
    · exact (ty_or k x).imp .inl .inl
    · exact (ty_or v x).imp .inr .inr

theorem asts_or (as : List Ast) (h : ∃ a ∈ as, (Query.or S E F P R).E a) : (∃ a ∈ as, E a) ∨ ∃ a ∈ as, F a := by
  obtain ⟨a, ha, h | h⟩ := h
  · exact .inl ⟨a, ha, h⟩
  · exact .inr ⟨a, ha, h⟩

theorem args_or (as : List Arg) (h : ∃ a ∈ as, a.Has (Query.or S E F P R)) :
    (∃ a ∈ as, a.Has ⟨S, E, P⟩) ∨ ∃ a ∈ as, a.Has ⟨S, F, R⟩ := by
  obtain ⟨a, ha, h | h | ⟨hs, h⟩⟩ := h
  · exact (eo_or h).imp (fun y => ⟨a, ha, .inl y⟩) (fun y => ⟨a, ha, .inl y⟩)
  · exact (ty_or _ h).imp (fun y => ⟨a, ha, .inr (.inl y)⟩) (fun y => ⟨a, ha, .inr (.inl y)⟩)
  · exact (eo_or h).imp (fun y => ⟨a, ha, .inr (.inr ⟨hs, y⟩)⟩) (fun y => ⟨a, ha, .inr (.inr ⟨hs, y⟩)⟩)

mutual
theorem def_or : ∀ d : Def, d.Has (Query.or S E F P R) → d.Has ⟨S, E, P⟩ ∨ d.Has ⟨S, F, R⟩
  | .mk c e, x => by
    unfold Def.Has at *
    rcases x with ⟨hs, x⟩ | x
    · exact (eo_or x).imp (fun y => .inl ⟨hs, y⟩) (fun y => .inl ⟨hs, y⟩)
    · exact (dexpr_or e x).imp .inr .inr
theorem dexpr_or : ∀ d : DExpr, d.Has (Query.or S E F P R) → d.Has ⟨S, E, P⟩ ∨ d.Has ⟨S, F, R⟩
  | .value a, x => by unfold DExpr.Has at *; exact x
  | .call svc req args c errs, x => by
    unfold DExpr.Has at *
    rcases x with x | x | x | ⟨hs, x⟩ | x
    · exact Or.imp .inl .inl x
    · exact Or.imp (.inr ∘ .inl) (.inr ∘ .inl) x
    · exact (args_or _ x).imp (.inr ∘ .inr ∘ .inl) (.inr ∘ .inr ∘ .inl)
    · exact (eo_or x).imp (fun y => .inr (.inr (.inr (.inl ⟨hs, y⟩)))) (fun y => .inr (.inr (.inr (.inl ⟨hs, y⟩))))
    · exact (errs_or _ x).imp (.inr ∘ .inr ∘ .inr ∘ .inr) (.inr ∘ .inr ∘ .inr ∘ .inr)
  | .msg _ args, x => by
    unfold DExpr.Has at *
    rcases x with x | x
    · exact Or.imp .inl .inl x
    · exact (args_or _ x).imp .inr .inr
  | .enum _ _, x => by
    unfold DExpr.Has at *
    rcases x with x | ⟨hs, x⟩
    · exact Or.imp .inl .inl x
    · exact Or.imp (fun y => .inr ⟨hs, y⟩) (fun y => .inr ⟨hs, y⟩) x
  | .mapValue a, x => by unfold DExpr.Has at *; exact x
  | .mapMsg _ args, x => by
    unfold DExpr.Has at *
    rcases x with x | x
    · exact Or.imp .inl .inl x
    · exact (args_or _ x).imp .inr .inr
  | .mapEnum _ _, x => by
    unfold DExpr.Has at *
    obtain ⟨hs, x | x⟩ := x
    · exact Or.imp (fun y => ⟨hs, .inl y⟩) (fun y => ⟨hs, .inl y⟩) x
    · exact Or.imp (fun y => ⟨hs, .inr y⟩) (fun y => ⟨hs, .inr y⟩) x
  | .validation e, x => by unfold DExpr.Has at *; exact err_or e x
theorem err_or : ∀ d : Err, d.Has (Query.or S E F P R) → d.Has ⟨S, E, P⟩ ∨ d.Has ⟨S, F, R⟩
  | .mk defs c m i ds, x => by
    unfold Err.Has at *
    rcases x with ⟨hs, x⟩ | x | x | x | x
    · exact (defs_or _ x).imp (fun y => .inl ⟨hs, y⟩) (fun y => .inl ⟨hs, y⟩)
    · exact (eo_or x).imp (.inr ∘ .inl) (.inr ∘ .inl)
    · exact (eo_or x).imp (.inr ∘ .inr ∘ .inl) (.inr ∘ .inr ∘ .inl)
    · exact (eo_or x).imp (.inr ∘ .inr ∘ .inr ∘ .inl) (.inr ∘ .inr ∘ .inr ∘ .inl)
    · exact (details_or _ x).imp (.inr ∘ .inr ∘ .inr ∘ .inr) (.inr ∘ .inr ∘ .inr ∘ .inr)
theorem detail_or : ∀ d : Detail, d.Has (Query.or S E F P R) → d.Has ⟨S, E, P⟩ ∨ d.Has ⟨S, F, R⟩
  | .mk c defs msgs vs ts, x => by
    unfold Detail.Has at *
    rcases x with x | x | x | x | x
    · exact (eo_or x).imp .inl .inl
    · exact (asts_or _ x).imp (.inr ∘ .inl) (.inr ∘ .inl)
    · exact (defs_or _ x).imp (.inr ∘ .inr ∘ .inl) (.inr ∘ .inr ∘ .inl)
    · exact (defs_or _ x).imp (.inr ∘ .inr ∘ .inr ∘ .inl) (.inr ∘ .inr ∘ .inr ∘ .inl)
    · exact (asts_or _ x).imp (.inr ∘ .inr ∘ .inr ∘ .inr) (.inr ∘ .inr ∘ .inr ∘ .inr)
theorem defs_or : ∀ ds : List Def, defsHas (Query.or S E F P R) ds → defsHas ⟨S, E, P⟩ ds ∨ defsHas ⟨S, F, R⟩ ds
  | [], x => .inl x
  | d :: ds, x => by
    unfold defsHas at *
    rcases x with x | x
    · exact (def_or _ x).imp .inl .inl
    · exact (defs_or _ x).imp .inr .inr
theorem errs_or : ∀ ds : List Err, errsHas (Query.or S E F P R) ds → errsHas ⟨S, E, P⟩ ds ∨ errsHas ⟨S, F, R⟩ ds
  | [], x => .inl x
  | d :: ds, x => by
    unfold errsHas at *
    rcases x with x | x
    · exact (err_or _ x).imp .inl .inl
    · exact (errs_or _ x).imp .inr .inr
theorem details_or : ∀ ds : List Detail,
    detailsHas (Query.or S E F P R) ds → detailsHas ⟨S, E, P⟩ ds ∨ detailsHas ⟨S, F, R⟩ ds
  | [], x => .inl x
  | d :: ds, x => by
    unfold detailsHas at *
    rcases x with x | x
    · exact (detail_or _ x).imp .inl .inl
    · exact (details_or _ x).imp .inr .inr
end

theorem field_or (f : Field) : f.Has (Query.or S E F P R) → f.Has ⟨S, E, P⟩ ∨ f.Has ⟨S, F, R⟩ := by
  unfold Field.Has
  rintro (⟨p, hp, x | x⟩ | x | ⟨o, ho, x | ⟨hs, x⟩ | ⟨hs, x⟩⟩)
  · exact .inl (.inl ⟨p, hp, x⟩)
  · exact .inr (.inl ⟨p, hp, x⟩)
  · exact (eo_or x).imp (.inr ∘ .inl) (.inr ∘ .inl)
  · exact (eo_or x).imp (fun y => .inr (.inr ⟨o, ho, .inl y⟩)) (fun y => .inr (.inr ⟨o, ho, .inl y⟩))
  · exact (eo_or x).imp (fun y => .inr (.inr ⟨o, ho, .inr (.inl ⟨hs, y⟩)⟩))
      (fun y => .inr (.inr ⟨o, ho, .inr (.inl ⟨hs, y⟩)⟩))
  · exact (defs_or _ x).imp (fun y => .inr (.inr ⟨o, ho, .inr (.inr ⟨hs, y⟩)⟩))
      (fun y => .inr (.inr ⟨o, ho, .inr (.inr ⟨hs, y⟩)⟩))

mutual
theorem msg_or : ∀ m : Msg, m.Has (Query.or S E F P R) → m.Has ⟨S, E, P⟩ ∨ m.Has ⟨S, F, R⟩
  | .mk opts aliases defs fields enums nested, x => by
    unfold Msg.Has at *
    rcases x with ⟨p, hp, x | x⟩ | x | ⟨f, hf, x⟩ | ⟨hs, e, he, p, hp, x | x⟩ | x
    · exact .inl (.inl ⟨p, hp, x⟩)
    · exact .inr (.inl ⟨p, hp, x⟩)
    · exact (defs_or _ x).imp (.inr ∘ .inl) (.inr ∘ .inl)
    · exact (field_or f x).imp (fun y => .inr (.inr (.inl ⟨f, hf, y⟩))) (fun y => .inr (.inr (.inl ⟨f, hf, y⟩)))
    · exact .inl (.inr (.inr (.inr (.inl ⟨hs, e, he, p, hp, x⟩))))
    · exact .inr (.inr (.inr (.inr (.inl ⟨hs, e, he, p, hp, x⟩))))
    · exact (msgs_or _ x).imp (.inr ∘ .inr ∘ .inr ∘ .inr) (.inr ∘ .inr ∘ .inr ∘ .inr)
theorem msgs_or : ∀ ms : List Msg, msgsHas (Query.or S E F P R) ms → msgsHas ⟨S, E, P⟩ ms ∨ msgsHas ⟨S, F, R⟩ ms
  | [], x => .inl x
  | m :: ms, x => by
    unfold msgsHas at *
    rcases x with x | x
    · exact (msg_or _ x).imp .inl .inl
    · exact (msgs_or _ x).imp .inr .inr
end

theorem file_or (f : File) : f.Has (Query.or S E F P R) → f.Has ⟨S, E, P⟩ ∨ f.Has ⟨S, F, R⟩ := by
  rintro (⟨s, hs, ⟨t, ht, x⟩ | ⟨hv, x⟩ | ⟨hm, m, hmm, p, hp, x | x⟩⟩ | x | ⟨e, he, p, hp, x | x⟩)
  · exact (ty_or t x).imp (fun y => .inl ⟨s, hs, .inl ⟨t, ht, y⟩⟩) (fun y => .inl ⟨s, hs, .inl ⟨t, ht, y⟩⟩)
  · exact (defs_or _ x).imp (fun y => .inl ⟨s, hs, .inr (.inl ⟨hv, y⟩)⟩) (fun y => .inl ⟨s, hs, .inr (.inl ⟨hv, y⟩)⟩)
  · exact .inl (.inl ⟨s, hs, .inr (.inr ⟨hm, m, hmm, p, hp, x⟩)⟩)
  · exact .inr (.inl ⟨s, hs, .inr (.inr ⟨hm, m, hmm, p, hp, x⟩)⟩)
  · exact (msgs_or _ x).imp (.inr ∘ .inl) (.inr ∘ .inl)
  · exact .inl (.inr (.inr ⟨e, he, p, hp, x⟩))
  · exact .inr (.inr (.inr ⟨e, he, p, hp, x⟩))
end
end Verif.ImportWarn
