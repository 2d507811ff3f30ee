import Verif.Offer.Spec

/-!
# C116: what completion offers can be written
-/

namespace Verif.Offer

open Names (Str PackagePart lookupPackage trimPackage trimPrefix)
open Types (Ty Schema Compat Compatible Declared)

/-! ## The message -/

/-- **C116** (the message, partial: if all files whose names end the path and that declare the message are of one package):
candidates are those for the message at the cursor. -/
theorem C116_message_partial (cached : List Str) (path msg : Str) (fs : List File) (f : File) (hf : f ∈ fs)
    (hp : f.name <:+ path) (hc : key f.pkg msg ∈ cached)
    (ho : ∀ g ∈ fs, g.name <:+ path → key g.pkg msg ∈ cached → g.pkg = f.pkg) :
    message cached path msg fs = some (key f.pkg msg) := by
  induction fs with
  | nil => cases hf
  | cons g gs ih =>
    have ho' : ∀ g' ∈ gs, g'.name <:+ path → key g'.pkg msg ∈ cached → g'.pkg = f.pkg :=
      fun g' h => ho g' (List.mem_cons_of_mem _ h)
    unfold message
    by_cases hs : g.name <:+ path
    · rw [if_pos (List.isSuffixOf_iff_suffix.2 hs)]
      by_cases hk : key g.pkg msg ∈ cached
      · rw [if_pos hk, ho g List.mem_cons_self hs hk]
      · rw [if_neg hk]
        cases List.mem_cons.1 hf with
        | inl e => exact absurd (e ▸ hc) hk
        | inr h => exact ih h ho'
    · rw [if_neg (fun h => hs (List.isSuffixOf_iff_suffix.1 h))]
      cases List.mem_cons.1 hf with
      | inl e => exact absurd (e ▸ hp) hs
      | inr h => exact ih h ho'

example : message ["a.M".toList, "b.M".toList] "/src/b/x.proto".toList "M".toList
    [⟨"a/x.proto".toList, "a".toList⟩, ⟨"b/x.proto".toList, "b".toList⟩] = some "b.M".toList := by decide

/-- **C116** is false if the name of another file ends the path too: candidates are those for its message. -/
theorem C116_message_false : message ["a.M".toList, "b.M".toList] "/src/b/x.proto".toList "M".toList
    [⟨"x.proto".toList, "a".toList⟩, ⟨"b/x.proto".toList, "b".toList⟩] = some "a.M".toList := by decide

/-! ## Methods -/

theorem own_prefix {own pkg svc m : Str} (hs : '.' ∉ svc) (hm : '.' ∉ m) :
    own ++ ['.'] <+: methodName pkg svc m ↔ own = pkg ∨ own ++ ['.'] <+: pkg := by
  unfold methodName
  constructor
  · rintro ⟨t, ht⟩
    rw [List.append_assoc, List.singleton_append, List.append_eq_append_iff] at ht
    rcases ht with ⟨a, h1, h2⟩ | ⟨a, h1, h2⟩
    · cases a with
      | nil => left; simpa using h1.symm
      | cons c a =>
        rw [List.cons_append, List.cons.injEq] at h2
        right
        exact ⟨a, by rw [h1, ← h2.1]; simp⟩
    · cases a with
      | nil => left; simpa using h1
      | cons c a =>
        exfalso
        rw [List.cons_append, List.cons.injEq] at h2
        have : '.' ∈ svc ++ '/' :: m := by rw [h2.2]; simp
        rcases List.mem_append.1 this with h | h
        · exact hs h
        · cases List.mem_cons.1 h with
          | inl e => exact absurd e (by decide)
          | inr h => exact hm h
  · rintro (rfl | ⟨t, rfl⟩)
    · exact ⟨svc ++ '/' :: m, by simp⟩
    · exact ⟨t ++ '.' :: (svc ++ '/' :: m), by simp⟩

/-- **C116** (methods, exact): a method is offered if and only if it exists and its package is neither that of the message nor
one inside of it. -/
theorem C116_method_exact (own : Str) (cached : List Str) (pkg svc m : Str) (hs : '.' ∉ svc) (hm : '.' ∉ m) :
    methodName pkg svc m ∈ methodNames own cached ↔
      methodName pkg svc m ∈ cached ∧ pkg ≠ own ∧ ¬ own ++ ['.'] <+: pkg := by
  unfold methodNames
  rw [List.mem_filter]
  have := own_prefix (own := own) (pkg := pkg) hs hm
  refine and_congr_right fun _ => ?_
  rw [Bool.not_eq_true', ← Bool.not_eq_true, List.isPrefixOf_iff_prefix, this, not_or]
  exact and_congr_left fun _ => ⟨fun h e => h e.symm, fun h e => h e.symm⟩

/-- **C116** (methods, partial: of packages that are not inside that of the message): every method of another package is offered, and
the name that is written is read as its package, service and name. -/
theorem C116_method_partial (own : Str) (cached : List Str) (pkg svc m : Str) (hs : '.' ∉ svc) (hm : '.' ∉ m)
    (hc : methodName pkg svc m ∈ cached) (ho : pkg ≠ own) (hp : ¬ own ++ ['.'] <+: pkg)
    (h1 : '/' ∉ pkg) (h2 : '/' ∉ svc) (h3 : '/' ∉ m) :
    methodName pkg svc m ∈ methodNames own cached ∧
      Names.splitMethod own (methodName pkg svc m) = some (pkg, svc, m) :=
  ⟨(C116_method_exact own cached pkg svc m hs hm).2 ⟨hc, ho, hp⟩, Names.C42_qualified own pkg svc m h1 hs h2 h3⟩

example : methodNames "org.federation".toList ["org.user.UserService/GetUser".toList, "org.federation.S/M".toList] =
    ["org.user.UserService/GetUser".toList] := by decide

/-- **C116** is false for packages inside that of the message: their methods can be called, and are not offered. -/
theorem C116_method_false : methodNames "org".toList [methodName "org.user".toList "UserService".toList "GetUser".toList] = [] ∧
    Names.splitMethod "org".toList (methodName "org.user".toList "UserService".toList "GetUser".toList) =
      some ("org.user".toList, "UserService".toList, "GetUser".toList) := by decide

/-! ## Messages -/

/-- What is offered for a message. -/
theorem offered_iff (own self : Str) (cached : List Str) (c : Str) :
    c ∈ messageNames own self cached ↔
      ∃ n ∈ cached, n ≠ key own self ∧ ¬ federation <+: n ∧ c = trimPrefix (own ++ ['.']) n := by
  unfold messageNames
  simp only [List.mem_map, List.mem_filter, Bool.and_eq_true, Bool.not_eq_true', beq_eq_false_iff_ne]
  constructor
  · rintro ⟨n, ⟨h1, h2, h3⟩, rfl⟩
    exact ⟨n, h1, h2, (fun h => by rw [List.isPrefixOf_iff_prefix.2 h] at h3; cases h3), rfl⟩
  · rintro ⟨n, h1, h2, h3, rfl⟩
    refine ⟨n, ⟨h1, h2, ?_⟩, rfl⟩
    cases hh : federation.isPrefixOf n with
    | false => rfl
    | true => exact absurd (List.isPrefixOf_iff_prefix.1 hh) h3

theorem trim_own (own t : Str) : trimPrefix (own ++ ['.']) (own ++ '.' :: t) = t := by
  have e : own ++ '.' :: t = (own ++ ['.']) ++ t := by simp
  unfold trimPrefix
  rw [if_pos (List.isPrefixOf_iff_prefix.2 ⟨t, e.symm⟩), e, List.drop_left]

theorem trim_other {own n : Str} (h : ¬ own ++ ['.'] <+: n) : trimPrefix (own ++ ['.']) n = n := by
  unfold trimPrefix
  rw [if_neg (fun hh => h (List.isPrefixOf_iff_prefix.1 hh))]

theorem trimDot {n : Str} (h : n.head? ≠ some '.') : trimPrefix ['.'] n = n := by
  unfold trimPrefix
  cases n with
  | nil => rfl
  | cons c cs =>
    have : ¬ '.' = c := fun e => h (by rw [← e]; rfl)
    simp [List.isPrefixOf, this]

/-- A name in which a known package is found is looked up as it is written. -/
theorem target_found {known : Str → Bool} {own n p : Str} (hn : n.head? ≠ some '.') (h : lookupPackage known n = some p)
    : target known own n = n := by
  obtain ⟨_, ⟨t, ht⟩, _⟩ := (Names.C43_longest known n p).1 h
  rw [trimDot hn] at ht
  have hdot : n.contains '.' = true := by rw [ht]; simp
  unfold target
  rw [if_pos hdot, h]
  simp only [key]
  unfold trimPackage
  simp only [trimDot hn, hdot, Bool.not_true, Bool.false_eq_true, if_false]
  rw [ht]
  rw [trim_own]

theorem target_none {known : Str → Bool} {own n : Str} (h : lookupPackage known n = none) : target known own n = key own n := by
  unfold target
  rw [h]
  split <;> rfl

/-- **C116** (messages): every message but the own one and the private ones is offered, by one name. -/
theorem C116_offered (own self : Str) (cached : List Str) (n : Str) (hn : n ∈ cached) (hs : n ≠ key own self)
    (hf : ¬ federation <+: n) : (∀ t, n = key own t → t ∈ messageNames own self cached) ∧
      (¬ own ++ ['.'] <+: n → n ∈ messageNames own self cached) := by
  constructor
  · rintro t rfl
    exact (offered_iff own self cached t).2 ⟨_, hn, hs, hf, (trim_own own t).symm⟩
  · intro h
    exact (offered_iff own self cached n).2 ⟨_, hn, hs, hf, (trim_other h).symm⟩

/-- **C116** (messages, exact): the name that is offered for a message leads to it, if and only if it is not shortened or no known
package is a part of the shortened name. -/
theorem C116_name_exact (known : Str → Bool) (own : Str) (pkg t : Str) (hk : known pkg = true)
    (hd : (key pkg t).head? ≠ some '.') (ht : ∀ u, key pkg t = key own u → u.head? ≠ some '.') :
    target known own (trimPrefix (own ++ ['.']) (key pkg t)) = key pkg t ↔
      ¬ own ++ ['.'] <+: key pkg t ∨ ∀ q u, key pkg t = key own u → PackagePart q u → known q = false := by
  by_cases ho : own ++ ['.'] <+: key pkg t
  · obtain ⟨u, hu⟩ := ho
    have hu' : key pkg t = key own u := by rw [← hu]; simp [key]
    have hnot : ¬ ¬ own ++ ['.'] <+: key pkg t := fun h => h ⟨u, hu⟩
    have huniq : ∀ v, key pkg t = key own v → v = u := by
      intro v hv
      rw [hu'] at hv
      have := List.append_cancel_left hv
      simpa using this.symm
    have htrim : trimPrefix (own ++ ['.']) (key pkg t) = u := by rw [hu']; exact trim_own own u
    rw [htrim]
    constructor
    · intro h
      right
      intro q v hv hq
      rw [huniq v hv] at hq
      cases hl : lookupPackage known u with
      | none =>
        refine (Names.C43_none known u).1 hl q ?_
        rw [trimDot (ht u hu')]; exact hq
      | some p =>
        rw [target_found (ht u hu') hl, hu'] at h
        have := congrArg List.length h
        simp [key] at this
        omega
    · intro h
      have h := h.resolve_left hnot
      rw [target_none, hu']
      rw [Names.C43_none, trimDot (ht u hu')]
      exact fun q hq => h q u hu' hq
  · rw [trim_other ho]
    refine ⟨fun _ => .inl ho, fun _ => ?_⟩
    cases hl : lookupPackage known (key pkg t) with
    | none =>
      have := (Names.C43_none known _).1 hl pkg (by rw [trimDot hd]; exact ⟨t, rfl⟩)
      rw [hk] at this; cases this
    | some p => exact target_found hd hl

/-- **C116** (messages of the own package): a name without dots always leads to the message. -/
theorem C116_own_name (known : Str → Bool) (own t : Str) (h : '.' ∉ t) : target known own t = key own t := by
  unfold target
  rw [if_neg (by simpa using h)]

example : messageNames "org".toList "Res".toList ["org.Res".toList, "org.User.Name".toList, "org.post.Post".toList,
      "other.M".toList, "grpc.federation.private.org.ResArgument".toList] =
    ["User.Name".toList, "post.Post".toList, "other.M".toList] ∧
    (["User.Name".toList, "post.Post".toList, "other.M".toList].map
      (target (fun p => p ∈ ["org".toList, "org.post".toList, "other".toList]) "org".toList)) =
    ["org.User.Name".toList, "org.post.Post".toList, "other.M".toList] := by decide

/-- **C116** is false if a package has the name of the first part of a shortened name: what is offered leads elsewhere. -/
theorem C116_name_false : messageNames "org".toList "Res".toList ["org.Res".toList, "org.post.Post".toList] = ["post.Post".toList] ∧
    target (fun p => p ∈ ["org".toList, "org.post".toList, "post".toList]) "org".toList "post.Post".toList = "post.Post".toList := by
  decide

/-! ## Keywords -/

/-- **C116** (keywords): every keyword that is offered is a field of the option. -/
theorem C116_keywords (p : Place) : ∀ k ∈ keywords p, k ∈ optionFields p := by
  cases p <;> decide

/-- **C116** (keywords, exact): all fields of the option are offered for messages, their arguments and the options of
messages; for the others some are not. -/
theorem C116_keywords_exact (p : Place) : (∀ k ∈ optionFields p, k ∈ keywords p) ↔
    p = .messageOption ∨ p = .message ∨ p = .argument := by
  cases p <;> decide

/-! ## Types -/

theorem keeps_sound (S : Schema) (frm to : Ty) (hto : Declared to) (h : keeps (some frm) (some to) = true) :
    Compat S frm to := by
  cases to with
  | scalar k r =>
    cases frm with
    | scalar k' r' =>
      simp only [keeps, msgOf, enumOf, Types.isNumber, Types.kindOf, Bool.or_eq_true, Bool.and_eq_true, Option.isNone_none,
        Option.isSome_none, Bool.true_and, beq_iff_eq, Types.KindOf.scalar.injEq, Bool.false_and,
        Bool.false_eq_true, or_false] at h
      rcases h with ⟨_, rfl⟩ | ⟨h1, h2⟩
      · exact .same
      · refine .number ?_ ?_
        · revert h1; cases k' <;> simp [Types.isNumberKind, Types.numeric]
        · revert h2; cases k <;> simp [Types.isNumberKind, Types.numeric]
    | msg n r' => simp [keeps, msgOf, enumOf, Types.isNumber] at h
    | enum n r' => simp [keeps, msgOf, enumOf, Types.isNumber] at h
    | selector a b => simp [keeps, msgOf, enumOf, Types.isNumber] at h
    | null => simp [keeps, msgOf, enumOf, Types.isNumber, Types.kindOf] at h
  | msg n r =>
    cases frm with
    | scalar k' r' => simp [keeps, msgOf, enumOf, Types.isNumber, Types.kindOf] at h
    | msg n' r' =>
      simp [keeps, msgOf, enumOf, Types.isNumber] at h
      subst h
      exact .msgSame
    | enum n' r' => simp [keeps, msgOf, enumOf, Types.isNumber] at h
    | selector a b =>
      simp [keeps, msgOf, enumOf, Types.isNumber] at h
      exact absurd h.symm hto
    | null => simp [keeps, msgOf, enumOf, Types.isNumber, Types.kindOf] at h
  | enum n r =>
    cases frm with
    | scalar k' r' => simp [keeps, msgOf, enumOf, Types.isNumber, Types.kindOf] at h
    | msg n' r' => simp [keeps, msgOf, enumOf, Types.isNumber] at h
    | enum n' r' =>
      simp [keeps, msgOf, enumOf, Types.isNumber] at h
      subst h
      exact .enumSame
    | selector a b => simp [keeps, msgOf, enumOf, Types.isNumber] at h
    | null => simp [keeps, msgOf, enumOf, Types.isNumber, Types.kindOf] at h
  | selector a b => exact absurd hto id
  | null => exact absurd hto id

/-- **C116** (types): what is offered for a field has a type that it takes, apart from lists and single values. -/
theorem C116_filter_sound {N : Type} (S : Schema) (cs : List (N × Option Ty)) (n : N) (frm to : Ty) (hto : Declared to)
    (h : (n, some frm) ∈ filter cs (some to)) : (n, some frm) ∈ cs ∧ Compat S frm to :=
  ⟨(List.mem_filter.1 h).1, keeps_sound S frm to hto (List.mem_filter.1 h).2⟩

example : filter [("a", some (.scalar .int64 false)), ("b", some (.msg "M" false)), ("c", none)] (some (.scalar .int32 false)) =
    [("a", some (.scalar .int64 false)), ("c", none)] := by decide

theorem keeps_scalar (S : Schema) (k : Types.Kind) (r : Bool) (to : Ty) (h : Compat S (.scalar k r) to) :
    keeps (some (.scalar k r)) (some to) = true := by
  cases h with
  | number h1 h2 =>
    have e : ∀ k, k ∈ Types.numeric → Types.isNumberKind k = true := by
      intro k; cases k <;> simp [Types.isNumberKind, Types.numeric]
    simp [keeps, msgOf, enumOf, Types.isNumber, e _ h1, e _ h2]
  | same => simp [keeps, msgOf, enumOf, Types.kindOf]

/-- **C116** (types, partial: values that are no messages and no enums): what a field takes is offered. -/
theorem C116_filter_partial {N : Type} (S : Schema) (cs : List (N × Option Ty)) (n : N) (k : Types.Kind) (r : Bool) (to : Ty)
    (hn : (n, some (.scalar k r)) ∈ cs) (h : Compat S (.scalar k r) to) : (n, some (.scalar k r)) ∈ filter cs (some to) :=
  List.mem_filter.2 ⟨hn, keeps_scalar S k r to h⟩

/-- **C116** is false for messages and enums with aliases and for enums that are taken as numbers: the field takes them, and they
are not offered; and for lists, which are offered where a single value is taken. -/
theorem C116_filter_false (S : Schema) :
    ("N" ∈ S.msgAliases "M" → Compatible S (.msg "M" false) (.msg "N" false)) ∧
    keeps (some (.msg "M" false)) (some (.msg "N" false)) = false ∧
    Compatible S (.enum "E" false) (.scalar .int32 false) ∧
    keeps (some (.enum "E" false)) (some (.scalar .int32 false)) = false ∧
    keeps (some (.scalar .string true)) (some (.scalar .string false)) = true ∧
    ¬ Compatible S (.scalar .string true) (.scalar .string false) := by
  refine ⟨fun h => ⟨.msgAlias (.inl h), .inr ⟨(fun h => by cases h), (fun h => by cases h)⟩⟩, by decide, ⟨.enumNumber (by decide), .inr ⟨(fun h => by cases h), (fun h => by cases h)⟩⟩, by decide, by decide, ?_⟩
  rintro ⟨_, h | h⟩
  · cases h
  · cases h.1 .scalar

/-! ## Items -/

theorem unquote_double {s : Str} (h : '"' ∉ s) : unquote ('"' :: (s ++ ['"'])) = some s := by
  unfold unquote
  split
  · next heq => simp at heq
  · next heq =>
    rw [List.cons.injEq] at heq
    rw [← heq.2]
    simp [h]
  · next h' => exact absurd rfl (h' _)

/-- **C116** (items): in a text in double quotation marks, the items are the candidates that start with what is typed, in order, and
accepting one of them gives the candidate, with the rest of the line as it was.  If no candidate starts with it, all are
offered. -/
theorem C116_items (pre typed post : Str) (cands : List Str) (hq : '"' ∉ typed) :
    let line := pre ++ '"' :: (typed ++ '"' :: post)
    let out := items ('"' :: (typed ++ ['"'])) (pre.length + typed.length + 3) cands
    ((∃ c ∈ cands, typed <+: c) → out.map (·.label) = cands.filter (fun c => typed.isPrefixOf c) ∧
      ∀ i ∈ out, ∃ e, i.edit = some e ∧ insert line e = pre ++ '"' :: (i.label ++ '"' :: post)) ∧
    ((∀ c ∈ cands, ¬ typed <+: c) → out = cands.map (fun c => ⟨c, none⟩)) := by
  simp only [items, unquote_double hq, Option.getD_some]
  constructor
  · rintro ⟨c, hc, hp⟩
    have hne : ((cands.filter fun c => typed.isPrefixOf c).map fun c =>
        (⟨c, some (pre.length + typed.length + 3 - 2, c.drop typed.length)⟩ : Item)).isEmpty = false := by
      have : c ∈ cands.filter fun c => typed.isPrefixOf c := List.mem_filter.2 ⟨hc, List.isPrefixOf_iff_prefix.2 hp⟩
      cases hl : cands.filter fun c => typed.isPrefixOf c with
      | nil => rw [hl] at this; cases this
      | cons a b => rfl
    rw [hne]
    simp only [Bool.false_eq_true, if_false]
    refine ⟨by simp [Function.comp_def], ?_⟩
    intro i hi
    obtain ⟨d, hd, rfl⟩ := List.mem_map.1 hi
    obtain ⟨r, hr⟩ := List.isPrefixOf_iff_prefix.1 (List.mem_filter.1 hd).2
    refine ⟨_, rfl, ?_⟩
    subst hr
    have e1 : pre.length + typed.length + 3 - 2 = (pre ++ '"' :: typed).length := by simp; omega
    have e2 : pre ++ '"' :: (typed ++ '"' :: post) = (pre ++ '"' :: typed) ++ '"' :: post := by simp
    unfold insert
    simp only [e1, e2, List.take_left', List.drop_left']
    simp
  · intro h
    have : cands.filter (fun c => typed.isPrefixOf c) = [] := by
      rw [List.filter_eq_nil_iff]
      intro c hc hp
      exact h c hc (List.isPrefixOf_iff_prefix.1 hp)
    rw [this]
    rfl

example : items "\"po\"".toList 7 ["post.Post".toList, "user.User".toList, "point".toList] =
    [⟨"post.Post".toList, some (5, "st.Post".toList)⟩, ⟨"point".toList, some (5, "int".toList)⟩] := by decide

/-- **C116** is false for texts in single quotation marks: no candidate is completed, whatever is typed, unless it is one
character. -/
theorem C116_items_false (typed : Str) (endCol : Nat) (cands : List Str) (h : typed.length ≠ 1) (hc : ∀ c ∈ cands, c.head? ≠ some '\'') :
    items ('\'' :: (typed ++ ['\''])) endCol cands = cands.map (fun c => ⟨c, none⟩) := by
  have hu : unquote ('\'' :: (typed ++ ['\''])) = none := by
    unfold unquote
    split
    · next heq =>
      exfalso
      have := congrArg List.length heq
      simp at this
      omega
    · next heq => simp at heq
    · rfl
  simp only [items, hu, Option.getD_none]
  have : cands.filter (fun c => ('\'' :: (typed ++ ['\''])).isPrefixOf c) = [] := by
    rw [List.filter_eq_nil_iff]
    intro c hcc hp
    cases c with
    | nil => cases hp
    | cons x xs =>
      have : x = '\'' := by
        simp [List.isPrefixOf] at hp
        exact hp.1.symm
      exact hc _ hcc (by rw [this]; rfl)
  rw [this]
  rfl

end Verif.Offer
