import Verif.ProtoNames.Spec
import Verif.Imports.Props
import Verif.GoNames.Props

/-!
# C115: generated code uses the names that the Go code of the proto files has
-/

namespace Verif.ProtoNames

open GoNames (Name goCamelCase toPublicGoVariable toPublicVariable go nextLower isLower isUpper isDigit upper joinUnderscore)
open Imports (Pkg Default St getAlias Foreign)

/-! ## Helpers -/

theorem go_dot (b : Name) : ∀ (a : Name) (s c : Bool),
    go s c (a ++ '.' :: b) = go s c a ++ ((if nextLower b then [] else ['_']) ++ go true false b) := by
  have hdot : isLower '.' = false := by decide
  intro a
  induction a with
  | nil =>
    intro s c
    cases hb : nextLower b <;> simp [go, hdot, hb]
  | cons x xs ih =>
    intro s c
    have hn : nextLower (xs ++ '.' :: b) = nextLower xs := by
      cases xs with
      | nil => simp [nextLower, hdot]
      | cons y ys => rfl
    simp only [List.cons_append, go, hn, ih]
    by_cases h1 : (c && isLower x) = true
    · simp only [h1, if_true, List.cons_append]
    · simp only [h1, Bool.false_eq_true, if_false]
      by_cases h2 : x = '.'
      · simp only [h2, if_true]
        cases nextLower xs <;> simp
      · simp only [h2, if_false]
        by_cases h3 : (decide (x = '_') && s) = true
        · simp only [h3, if_true, List.cons_append]
        · simp only [h3, Bool.false_eq_true, if_false]
          by_cases h4 : (decide (x = '_') && nextLower xs) = true
          · simp only [h4, if_true]
          · simp only [h4, Bool.false_eq_true, if_false]
            by_cases h5 : isDigit x = true
            · simp only [h5, if_true, List.cons_append]
            · simp only [h5, Bool.false_eq_true, if_false, List.cons_append]

theorem ident_ne {n : Name} (h : isIdent n = true) : n ≠ [] := by
  intro e; subst e; cases h

theorem dotted_cons (n m : Name) (ms : List Name) : dotted (n :: m :: ms) = n ++ '.' :: dotted (m :: ms) := rfl

theorem nextLower_dotted (m : Name) (ms : List Name) (h : m ≠ []) : nextLower (dotted (m :: ms)) = nextLower m := by
  cases m with
  | nil => exact absurd rfl h
  | cons c cs => cases ms <;> rfl

/-- The separator protobuf writes before a nested name, and the name. -/
def tailGo (m : Name) : Name := (if nextLower m then [] else ['_']) ++ goCamelCase m

theorem camel_dotted : ∀ (ms : List Name) (n : Name), (∀ m ∈ ms, m ≠ []) →
    goCamelCase (dotted (n :: ms)) = goCamelCase n ++ ms.flatMap tailGo := by
  intro ms
  induction ms with
  | nil => intro n _; simp [dotted]
  | cons m ms ih =>
    intro n h
    rw [dotted_cons]
    unfold goCamelCase at *
    rw [go_dot, nextLower_dotted m ms (h m List.mem_cons_self), ih m (fun x hx => h x (List.mem_cons_of_mem _ hx))]
    simp [tailGo, goCamelCase]

theorem joined_cons : ∀ (ms : List Name) (n : Name),
    joined (n :: ms) = toPublicGoVariable n ++ ms.flatMap (fun m => '_' :: toPublicGoVariable m) := by
  intro ms
  induction ms with
  | nil => intro n; simp [joined, joinUnderscore]
  | cons m ms ih =>
    intro n
    have := ih m
    unfold joined at this ⊢
    simp only [List.map_cons, joinUnderscore] at this ⊢
    rw [this]
    simp

theorem upper_upper (c : Char) : upper (upper c) = upper c := by
  unfold upper
  by_cases h : isLower c = true
  · rw [if_pos h]
    have := (GoNames.lower_facts c h).1
    unfold upper at this
    rw [if_pos h] at this
    have hl : isLower (Char.ofNat (c.toNat - 32)) = false := by
      simp only [isUpper, Bool.and_eq_true, decide_eq_true_eq] at this
      simp only [isLower, Bool.and_eq_false_iff, decide_eq_false_iff_not]
      left; omega
    rw [if_neg (by rw [hl]; simp)]
  · rw [if_neg h, if_neg h]

/-- The camel case of a proto name starts with no lower case letter. -/
theorem pub_ident {n : Name} (h : isIdent n = true) : toPublicGoVariable n = goCamelCase n := by
  cases n with
  | nil => cases h
  | cons c cs =>
    unfold toPublicGoVariable goCamelCase
    by_cases hu : c = '_'
    · subst hu
      simp [go, toPublicVariable, upper, isLower]
    · have hd : isDigit c = false := by
        simp only [isIdent, Bool.or_eq_true, beq_iff_eq, hu, or_false] at h
        simp only [isLower, isUpper, Bool.and_eq_true, decide_eq_true_eq] at h
        simp only [isDigit, Bool.and_eq_false_iff, decide_eq_false_iff_not]
        omega
      have hdot : c ≠ '.' := by
        intro e; subst e; simp [isIdent, isLower, isUpper] at h
      simp [go, hu, hd, hdot, toPublicVariable, upper_upper]

theorem camel_ne {n : Name} (h : isIdent n = true) : goCamelCase n ≠ [] := by
  cases n with
  | nil => cases h
  | cons c cs =>
    have hdot : c ≠ '.' := by
      intro e; subst e; simp [isIdent, isLower, isUpper] at h
    unfold goCamelCase
    by_cases hu : c = '_'
    · subst hu; simp [go]
    · by_cases hd : isDigit c = true <;> simp [go, hu, hd, hdot]

/-! ## Messages and enums -/

/-- **C115** (names of messages and enums, exact): the name is the one protobuf gives if and only if no nested name starts
with a lower case letter. -/
theorem C115_name_exact (n : Name) (ms : List Name) (hn : isIdent n = true) (hm : ∀ m ∈ ms, isIdent m = true) :
    joined (n :: ms) = goCamelCase (dotted (n :: ms)) ↔ ∀ m ∈ ms, capital m := by
  rw [joined_cons, camel_dotted ms n (fun m h => ident_ne (hm m h)), pub_ident hn, List.append_cancel_left_eq]
  constructor
  · intro h
    have hlen := congrArg List.length h
    clear h
    have key : ∀ (l : List Name), (∀ m ∈ l, isIdent m = true) →
        (l.flatMap tailGo).length ≤ (l.flatMap (fun m => '_' :: toPublicGoVariable m)).length ∧
        ((l.flatMap (fun m => '_' :: toPublicGoVariable m)).length = (l.flatMap tailGo).length → ∀ m ∈ l, capital m) := by
      intro l
      induction l with
      | nil => intro _; exact ⟨Nat.le_refl _, fun _ m h => by cases h⟩
      | cons x l ih =>
        intro hl
        obtain ⟨ih1, ih2⟩ := ih (fun m h => hl m (List.mem_cons_of_mem _ h))
        have hx := pub_ident (hl x List.mem_cons_self)
        cases hc : nextLower x with
        | true =>
          simp only [List.flatMap_cons, List.length_append, tailGo, hc, if_true, hx, List.length_cons, List.length_nil]
          refine ⟨by omega, fun h => ?_⟩
          exfalso; omega
        | false =>
          simp only [List.flatMap_cons, List.length_append, tailGo, hc, Bool.false_eq_true, if_false, hx,
            List.length_cons, List.length_nil]
          refine ⟨by omega, fun h m hm => ?_⟩
          cases List.mem_cons.1 hm with
          | inl e => exact e ▸ hc
          | inr e => exact ih2 (by omega) m e
    exact (key ms hm).2 hlen
  · intro h
    have key : ∀ (l : List Name), (∀ m ∈ l, isIdent m = true) → (∀ m ∈ l, capital m) →
        l.flatMap (fun m => '_' :: toPublicGoVariable m) = l.flatMap tailGo := by
      intro l
      induction l with
      | nil => intro _ _; rfl
      | cons x l ih =>
        intro h1 h2
        have hc : nextLower x = false := h2 x List.mem_cons_self
        simp only [List.flatMap_cons]
        rw [ih (fun m h => h1 m (List.mem_cons_of_mem _ h)) (fun m h => h2 m (List.mem_cons_of_mem _ h)),
          pub_ident (h1 x List.mem_cons_self)]
        simp [tailGo, hc]
    exact key ms hm h

example : joined ["Post".toList, "Author".toList, "Kind_v2".toList] = "Post_Author_KindV2".toList ∧
    (∀ m ∈ ["Author".toList, "Kind_v2".toList], capital m) := by
  refine ⟨by decide, ?_⟩
  intro m hm
  simp only [List.mem_cons, List.not_mem_nil, or_false] at hm
  rcases hm with rfl | rfl <;> exact (by unfold capital; decide)

/-- What is needed of the place of a declaration: proto names, and nested ones with capitals. -/
def Elem.Good (e : Elem) : Prop :=
  (∀ n ∈ e.parents ++ [e.name], isIdent n = true) ∧ ∀ n ∈ (e.parents ++ [e.name]).tail, capital n

/-- The package is the file's own, or one that is imported under its own alias (C33): its name does not look like a proto package of
Google, it is none of the runtime's, and no other package object has its path. -/
def Known (cur : Name) (ds : List Default) (pkgs : List Pkg) (p : Pkg) : Prop :=
  p.path = cur ∨ (p ∈ pkgs ∧ Foreign cur ds p ∧ (∀ q ∈ pkgs, q.id = p.id → q = p) ∧ ∀ q ∈ pkgs, q.path = p.path → q = p)

theorem qualify_denotes {cur : Name} {ds : List Default} {pkgs : List Pkg} {p : Pkg} (h : Known cur ds pkgs p)
    {n x : Name} (hn : n = x) : Denotes cur (allImports cur ds pkgs) (qualify cur (Imports.imports cur ds pkgs) p n) p.path x := by
  unfold qualify
  by_cases hc : cur = p.path
  · rw [if_pos hc]
    exact ⟨hn, hc.symm⟩
  · rw [if_neg hc]
    cases h with
    | inl h => exact absurd h.symm hc
    | inr h =>
      obtain ⟨h1, h2, h3, h4⟩ := h
      exact ⟨hn, List.mem_append.2 (.inr (Imports.C33_reference_partial cur ds pkgs p h1 h2 h3 h4))⟩

theorem split_path (l : List Name) (n : Name) : ∃ h t, l ++ [n] = h :: t := by
  cases l with
  | nil => exact ⟨n, [], rfl⟩
  | cons x l => exact ⟨x, l ++ [n], rfl⟩

theorem good_name {e : Elem} (h : e.Good) : joined (e.parents ++ [e.name]) = goIdent e.parents e.name := by
  obtain ⟨h1, h2⟩ := h
  unfold goIdent
  obtain ⟨x, t, ht⟩ := split_path e.parents e.name
  rw [ht] at h1 h2 ⊢
  exact (C115_name_exact x t (h1 x List.mem_cons_self) (fun m hm => h1 m (List.mem_cons_of_mem _ hm))).2 h2

/-- A package that is imported by the file of another one. -/
def other : Pkg := ⟨1, "example/post".toList, "post".toList⟩

theorem other_known : Known "me".toList [⟨"anypb".toList, [], "anypb".toList⟩] [other] other := by
  refine .inr ⟨by simp, ?_, ?_, ?_⟩
  · refine ⟨by decide, by decide, by decide⟩
  · intro q hq _; simpa using hq
  · intro q hq _; simpa using hq

/-- **C115** (messages): a reference to a message denotes its Go type. -/
theorem C115_message_partial (cur : Name) (ds : List Default) (pkgs : List Pkg) (google : Bool) (e : Elem)
    (hw : google = true → wellKnown e.name = none) (hg : e.Good) (hp : Known cur ds pkgs e.pkg) :
    Denotes cur (allImports cur ds pkgs) (messageRef cur (Imports.imports cur ds pkgs) google e) e.pkg.path
      (goIdent e.parents e.name) := by
  unfold messageRef
  have : (if google then wellKnown e.name else none) = none := by
    cases google with
    | false => rfl
    | true => exact hw rfl
  rw [this]
  exact qualify_denotes hp (good_name hg)

/-- **C115** (well-known messages): `Any`, `Timestamp`, `Duration` and `Empty` denote the Go types of protobuf, as their
packages are imported by every file. -/
theorem C115_wellknown (cur : Name) (ds : List Default) (pkgs : List Pkg) (e : Elem) (hd : ∀ d ∈ knownDefaults, d ∈ ds)
    (hp : e.parents = []) (hw : (e.name, e.pkg.path) ∈ googlePath) :
    Denotes cur (allImports cur ds pkgs) (messageRef cur (Imports.imports cur ds pkgs) true e) e.pkg.path
      (goIdent e.parents e.name) := by
  obtain ⟨q, hq, hin, hn⟩ : ∃ q, wellKnown e.name = some q ∧ ⟨e.pkg.path, [], q⟩ ∈ knownDefaults ∧
      e.name = goIdent [] e.name := by
    revert hw
    generalize e.name = n
    generalize e.pkg.path = p
    intro hw
    simp only [googlePath, List.mem_cons, Prod.mk.injEq, List.not_mem_nil, or_false] at hw
    rcases hw with ⟨rfl, rfl⟩ | ⟨rfl, rfl⟩ | ⟨rfl, rfl⟩ | ⟨rfl, rfl⟩
    · exact ⟨"anypb".toList, by decide, by decide, by decide⟩
    · exact ⟨"durationpb".toList, by decide, by decide, by decide⟩
    · exact ⟨"emptypb".toList, by decide, by decide, by decide⟩
    · exact ⟨"timestamppb".toList, by decide, by decide, by decide⟩
  unfold messageRef
  simp only [if_true, hq]
  rw [hp]
  exact ⟨hn, List.mem_append.2 (.inl (List.mem_map.2 ⟨_, hd _ hin, rfl⟩))⟩

/-- **C115** (enums): a reference to an enum denotes its Go type. -/
theorem C115_enum_partial (cur : Name) (ds : List Default) (pkgs : List Pkg) (e : Elem) (hg : e.Good)
    (hp : Known cur ds pkgs e.pkg) :
    Denotes cur (allImports cur ds pkgs) (enumRef cur (Imports.imports cur ds pkgs) e) e.pkg.path
      (goIdent e.parents e.name) :=
  qualify_denotes hp (good_name hg)

/-- **C115** (values of enums): a reference to a value denotes its Go constant. -/
theorem C115_value_partial (cur : Name) (ds : List Default) (pkgs : List Pkg) (e : Elem) (value : Name) (hg : e.Good)
    (hp : Known cur ds pkgs e.pkg) :
    Denotes cur (allImports cur ds pkgs) (valueRef cur (Imports.imports cur ds pkgs) e value) e.pkg.path
      (goValue e.parents e.name value) := by
  unfold valueRef
  refine qualify_denotes hp ?_
  unfold goValue
  obtain ⟨h1, h2⟩ := hg
  cases hpar : e.parents with
  | nil =>
    simp only [if_true]
    rw [hpar] at h1
    have := (C115_name_exact e.name [] (h1 _ (by simp)) (fun m hm => by cases hm)).2 (fun m hm => by cases hm)
    rw [this]
    rfl
  | cons x t =>
    simp only [List.cons_ne_nil, if_false]
    rw [hpar] at h1 h2
    have := (C115_name_exact x t (h1 x (by simp)) (fun m hm => h1 m (by simp [hm]))).2
      (fun m hm => h2 m (by simp [hm]))
    rw [this]

example : let imports := Imports.imports "me".toList [⟨"anypb".toList, [], "anypb".toList⟩] [other]
    (⟨["Post".toList], "Kind".toList, other⟩ : Elem).Good ∧
    messageRef "me".toList imports false ⟨["Post".toList], "Kind".toList, other⟩ = ⟨some "post".toList, "Post_Kind".toList⟩ ∧
    valueRef "me".toList imports ⟨["Post".toList], "Kind".toList, other⟩ "NEW".toList = ⟨some "post".toList, "Post_NEW".toList⟩ ∧
    valueRef "me".toList imports ⟨[], "Kind".toList, other⟩ "NEW".toList = ⟨some "post".toList, "Kind_NEW".toList⟩ := by
  refine ⟨⟨by decide, ?_⟩, by decide, by decide, by decide⟩
  intro n hn
  have : n = "Kind".toList := by simpa using hn
  subst this
  unfold capital
  decide

example : ("Timestamp".toList, "google.golang.org/protobuf/types/known/timestamppb".toList) ∈ googlePath := by decide

/-! ## Fields -/

theorem pick_free {u : Used} {getter : Bool} {n r : Name} (h : Free u getter n) : Pick u getter n r ↔ r = n := by
  constructor
  · intro hp
    cases hp with
    | free _ => rfl
    | again hn _ => exact absurd h hn
  · intro e; subst e; exact .free h

theorem get_cancel {a b : Name} (h : "Get".toList ++ a = "Get".toList ++ b) : a = b := List.append_cancel_left h

/-- The names are as the code writes them, if none is in use. -/
theorem names_plain : ∀ (fs : List Field) (u : Used) (seen : List Name),
    (∀ p ∈ parts seen fs, isIdent p.name = true) →
    ((parts seen fs).map (fun p => fieldName p.name)).Nodup →
    (∀ p ∈ parts seen fs, u (fieldName p.name) = false ∧ u ("Get".toList ++ fieldName p.name) = false) →
    (∀ p ∈ parts seen fs, ∀ q ∈ parts seen fs, fieldName p.name ≠ "Get".toList ++ fieldName q.name) →
    ∀ out, Names u seen fs out ↔ out = (parts seen fs).map (fun p => (p, fieldName p.name)) := by
  intro fs
  induction fs with
  | nil =>
    intro u seen _ _ _ _ out
    constructor
    · intro h; cases h; rfl
    · intro h; subst h; exact .nil
  | cons f fs ih =>
    intro u seen hid hnd hu hget out
    -- taking a name of the list leaves the others free
    have take : ∀ (u' : Used) (getter : Bool) (p : Part) (rest : List Part),
        ((p :: rest).map (fun p => fieldName p.name)).Nodup →
        (∀ q ∈ p :: rest, u' (fieldName q.name) = false ∧ u' ("Get".toList ++ fieldName q.name) = false) →
        (∀ q ∈ p :: rest, ∀ r ∈ p :: rest, fieldName q.name ≠ "Get".toList ++ fieldName r.name) →
        ∀ q ∈ rest, taken u' getter (fieldName p.name) (fieldName q.name) = false ∧
          taken u' getter (fieldName p.name) ("Get".toList ++ fieldName q.name) = false := by
      intro u' getter p rest h1 h2 h3 q hq
      have hne : fieldName q.name ≠ fieldName p.name := by
        intro e
        rw [List.map_cons, List.nodup_cons] at h1
        exact h1.1 (e ▸ List.mem_map.2 ⟨q, hq, rfl⟩)
      have hq' := h2 q (List.mem_cons_of_mem _ hq)
      unfold taken
      refine ⟨?_, ?_⟩
      · rw [if_neg (h3 q (List.mem_cons_of_mem _ hq) p List.mem_cons_self), if_neg hne]; exact hq'.1
      · rw [if_neg (fun e => hne (get_cancel e)),
          if_neg (fun e => h3 p List.mem_cons_self q (List.mem_cons_of_mem _ hq) e.symm)]
        exact hq'.2
    by_cases hcase : ∀ o, f.oneof = some o → o ∈ seen
    · have hparts : parts seen (f :: fs) = .field f.name :: parts seen fs := by
        cases ho : f.oneof with
        | none => simp [parts, ho]
        | some o => simp [parts, ho, hcase o ho]
      rw [hparts] at hid hnd hu hget ⊢
      have hc : goCamelCase f.name = fieldName f.name := (pub_ident (hid _ List.mem_cons_self)).symm
      have hf : Free u true (goCamelCase f.name) := by
        rw [hc]
        exact ⟨(hu _ List.mem_cons_self).1, fun _ => (hu _ List.mem_cons_self).2⟩
      have hrest := ih (taken u true (fieldName f.name)) seen (fun p hp => hid p (List.mem_cons_of_mem _ hp))
        (by rw [List.map_cons, List.nodup_cons] at hnd; exact hnd.2)
        (take u true (.field f.name) _ hnd hu hget)
        (fun p hp q hq => hget p (List.mem_cons_of_mem _ hp) q (List.mem_cons_of_mem _ hq))
      constructor
      · intro h
        cases h with
        | field h1 h2 h3 =>
          have := (pick_free hf).1 h2
          subst this
          rw [hc] at h3 ⊢
          rw [(hrest _).1 h3]
          rfl
        | oneof h1 h2 => exact absurd (hcase _ h1) h2
      · intro h
        subst h
        exact .field hcase (by rw [pick_free hf]; exact hc.symm) ((hrest _).2 rfl)
    · have ⟨o, ho, hns⟩ : ∃ o, f.oneof = some o ∧ o ∉ seen := by
        cases ho : f.oneof with
        | none => exact absurd (fun o h => by rw [ho] at h; cases h) hcase
        | some o =>
          refine ⟨o, rfl, fun hs => hcase (fun o' h => ?_)⟩
          rw [ho, Option.some.injEq] at h
          exact h ▸ hs
      have hparts : parts seen (f :: fs) = .field f.name :: .oneof o :: parts (o :: seen) fs := by
        simp [parts, ho, hns]
      rw [hparts] at hid hnd hu hget ⊢
      have hc : goCamelCase f.name = fieldName f.name := (pub_ident (hid _ List.mem_cons_self)).symm
      have hco : goCamelCase o = fieldName o :=
        (pub_ident (hid (.oneof o) (List.mem_cons_of_mem _ List.mem_cons_self))).symm
      have hf : Free u true (goCamelCase f.name) := by
        rw [hc]
        exact ⟨(hu _ List.mem_cons_self).1, fun _ => (hu _ List.mem_cons_self).2⟩
      have hu1 := take u true (.field f.name) _ hnd hu hget
      have hnd1 : ((Part.oneof o :: parts (o :: seen) fs).map (fun p => fieldName p.name)).Nodup := by
        rw [List.map_cons, List.nodup_cons] at hnd; exact hnd.2
      have hget1 : ∀ p ∈ Part.oneof o :: parts (o :: seen) fs, ∀ q ∈ Part.oneof o :: parts (o :: seen) fs,
          fieldName p.name ≠ "Get".toList ++ fieldName q.name :=
        fun p hp q hq => hget p (List.mem_cons_of_mem _ hp) q (List.mem_cons_of_mem _ hq)
      have hfo : Free (taken u true (fieldName f.name)) false (goCamelCase o) := by
        rw [hco]
        exact ⟨(hu1 (.oneof o) List.mem_cons_self).1, fun h => by cases h⟩
      have hrest := ih (taken (taken u true (fieldName f.name)) false (fieldName o)) (o :: seen)
        (fun p hp => hid p (List.mem_cons_of_mem _ (List.mem_cons_of_mem _ hp)))
        (by rw [List.map_cons, List.nodup_cons] at hnd1; exact hnd1.2)
        (take _ false (.oneof o) _ hnd1 hu1 hget1)
        (fun p hp q hq => hget1 p (List.mem_cons_of_mem _ hp) q (List.mem_cons_of_mem _ hq))
      constructor
      · intro h
        cases h with
        | field h1 h2 h3 => exact absurd (h1 o ho) hns
        | oneof h1 h2 h3 h4 h5 =>
          rw [ho, Option.some.injEq] at h1
          subst h1
          have := (pick_free hf).1 h3
          subst this
          rw [hc] at h4 h5 ⊢
          have := (pick_free hfo).1 h4
          subst this
          rw [hco] at h5 ⊢
          rw [(hrest _).1 h5]
          rfl
      · intro h
        subst h
        refine .oneof ho hns ((pick_free hf).2 hc.symm) ((pick_free hfo).2 hco.symm) ((hrest _).2 rfl)

theorem get_not_reserved (n : Name) : "Get".toList ++ n ∉ reserved := by
  simp [reserved]

/-- **C115** (fields and oneofs): the fields of the Go struct have the names that the code writes, if these are different,
none is a method of every message, and none is the getter of another field. -/
theorem C115_fields_partial (m : Msg) (hid : ∀ p ∈ parts [] m.fields, isIdent p.name = true)
    (hnd : ((parts [] m.fields).map (fun p => fieldName p.name)).Nodup)
    (hr : ∀ p ∈ parts [] m.fields, fieldName p.name ∉ reserved)
    (hg : ∀ p ∈ parts [] m.fields, ∀ q ∈ parts [] m.fields, fieldName p.name ≠ getterName q.name)
    (out : List (Part × Name)) :
    GoFields m out ↔ out = (parts [] m.fields).map (fun p => (p, fieldName p.name)) :=
  names_plain m.fields _ [] hid hnd
    (fun p hp => ⟨decide_eq_false (hr p hp), decide_eq_false (get_not_reserved _)⟩) hg out

/-- A message with two fields and a oneof of two. -/
def post : Msg where
  elem := ⟨[], "Post".toList, ⟨1, "example/post".toList, "post".toList⟩⟩
  fields := [⟨"id".toList, none⟩, ⟨"user_id".toList, some "owner".toList⟩, ⟨"team".toList, some "owner".toList⟩]
  messages := ["Team".toList]
  enums := []

example : ∀ out, GoFields post out ↔ out = [(.field "id".toList, "Id".toList), (.field "user_id".toList, "UserId".toList),
    (.oneof "owner".toList, "Owner".toList), (.field "team".toList, "Team".toList)] :=
  C115_fields_partial post (by decide) (by decide) (by decide) (by decide)

/-! ## Wrappers of oneof fields -/

theorem camel_nested {l : List Name} {n x : Name} (h : ∀ m ∈ (l ++ [n]).tail, m ≠ []) (hx : x ≠ []) (hc : capital x) :
    goIdent (l ++ [n]) x = goIdent l n ++ '_' :: goCamelCase x := by
  unfold goIdent
  obtain ⟨y, t, ht⟩ := split_path l n
  rw [ht] at h ⊢
  have hc' : nextLower x = false := hc
  rw [List.cons_append, camel_dotted t y h, camel_dotted (t ++ [x]) y (by
    intro m hm
    cases List.mem_append.1 hm with
    | inl hm => exact h m hm
    | inr hm => rw [List.mem_singleton] at hm; exact hm ▸ hx)]
  simp [tailGo, hc']

theorem conflict_iff {m : Msg} {f : Name} :
    isConflict m f = true ↔ ∃ x ∈ m.messages ++ m.enums, toPublicGoVariable x = toPublicGoVariable f := by
  unfold isConflict
  simp only [Bool.or_eq_true, List.any_eq_true, decide_eq_true_eq, List.mem_append]
  constructor
  · rintro (⟨x, h1, h2⟩ | ⟨x, h1, h2⟩)
    · exact ⟨x, .inl h1, h2⟩
    · exact ⟨x, .inr h1, h2⟩
  · rintro ⟨x, h1 | h1, h2⟩
    · exact .inl ⟨x, h1, h2⟩
    · exact .inr ⟨x, h1, h2⟩

/-- **C115** (wrappers of oneof fields): the wrapper has the name that the code writes, if the names of nested messages and
enums start with capitals, and none is the name of the field with an underscore. -/
theorem C115_wrapper_partial (cur : Name) (st : St) (m : Msg) (f : Name) (hg : m.elem.Good)
    (hx : ∀ x ∈ m.messages ++ m.enums, isIdent x = true ∧ capital x)
    (hu : ∀ x ∈ m.messages ++ m.enums, toPublicGoVariable x ≠ toPublicGoVariable f ++ ['_']) (r : Name) :
    GoWrapper m (fieldName f) r ↔ r = (wrapperRef cur st false m f).name := by
  have hname : (messageRef cur st false m.elem).name = goIdent m.elem.parents m.elem.name := by
    unfold messageRef qualify
    simp only [Bool.false_eq_true, if_false]
    rw [← good_name hg]
    split <;> rfl
  have htail : ∀ n ∈ (m.elem.parents ++ [m.elem.name]).tail, n ≠ [] :=
    fun n hn => ident_ne (hg.1 n (List.mem_of_mem_tail hn))
  have hid : ∀ x ∈ m.messages ++ m.enums, ∀ y,
      goIdent (m.elem.parents ++ [m.elem.name]) x = goIdent m.elem.parents m.elem.name ++ '_' :: y ↔
        toPublicGoVariable x = y := by
    intro x h y
    rw [camel_nested htail (ident_ne (hx x h).1) (hx x h).2, pub_ident (hx x h).1]
    constructor
    · intro e
      have := List.append_cancel_left e
      simpa using this
    · intro e; rw [e]
  unfold GoWrapper wrapperRef
  simp only [hname]
  have hsecond : Wrapper m (goIdent m.elem.parents m.elem.name ++ '_' :: (fieldName f ++ ['_'])) r ↔
      r = goIdent m.elem.parents m.elem.name ++ '_' :: (fieldName f ++ ['_']) := by
    have free : ∀ x ∈ m.messages ++ m.enums, goIdent (m.elem.parents ++ [m.elem.name]) x ≠
        goIdent m.elem.parents m.elem.name ++ '_' :: (fieldName f ++ ['_']) :=
      fun x h e => hu x h ((hid x h _).1 e)
    constructor
    · intro h
      cases h with
      | free _ => rfl
      | again h1 _ =>
        obtain ⟨x, h, e⟩ := h1
        exact absurd e (free x h)
    · intro e; subst e; exact .free free
  cases hc : isConflict m f with
  | false =>
    have free : ∀ x ∈ m.messages ++ m.enums, goIdent (m.elem.parents ++ [m.elem.name]) x ≠
        goIdent m.elem.parents m.elem.name ++ '_' :: fieldName f := by
      intro x h e
      have := conflict_iff.2 ⟨x, h, (hid x h _).1 e⟩
      rw [hc] at this; cases this
    simp only [Bool.false_eq_true, if_false]
    constructor
    · intro h
      cases h with
      | free _ => rfl
      | again h1 _ =>
        obtain ⟨x, h, e⟩ := h1
        exact absurd e (free x h)
    · intro e; subst e; exact .free free
  | true =>
    obtain ⟨x, h, e⟩ := conflict_iff.1 hc
    have used : ∃ x ∈ m.messages ++ m.enums, goIdent (m.elem.parents ++ [m.elem.name]) x =
        goIdent m.elem.parents m.elem.name ++ '_' :: fieldName f := ⟨x, h, (hid x h _).2 e⟩
    simp only [if_true]
    have happ : goIdent m.elem.parents m.elem.name ++ '_' :: fieldName f ++ ['_'] =
        goIdent m.elem.parents m.elem.name ++ '_' :: (fieldName f ++ ['_']) := by simp
    constructor
    · intro h
      cases h with
      | free hf =>
        obtain ⟨x, h, e⟩ := used
        exact absurd e (hf x h)
      | again _ h2 =>
        rw [happ] at h2
        rw [hsecond.1 h2]
        simp [fieldName]
    · intro e
      refine .again used ?_
      rw [happ]
      refine hsecond.2 ?_
      rw [e]
      simp [fieldName]

example : wrapperRef "me".toList (Imports.imports "me".toList [] [post.elem.pkg]) false post "team".toList =
    ⟨some "post".toList, "Post_Team_".toList⟩ ∧
    ∀ r, GoWrapper post (fieldName "team".toList) r ↔
      r = (wrapperRef "me".toList (Imports.imports "me".toList [] [post.elem.pkg]) false post "team".toList).name :=
  ⟨by decide, C115_wrapper_partial _ _ post "team".toList ⟨by decide, fun n hn => by cases hn⟩
    (fun x hx => by
      have : x = "Team".toList := by simpa [post] using hx
      subst this
      exact ⟨by decide, by unfold capital; decide⟩) (by decide)⟩

/-! ## Calls -/

/-- **C115** (requests of calls): the reference denotes the Go type of a request that is not nested and is of another
package. -/
theorem C115_request_partial (cur : Name) (ds : List Default) (pkgs : List Pkg) (e : Elem) (hn : isIdent e.name = true)
    (ht : e.parents = []) (hp : Known cur ds pkgs e.pkg) (ho : e.pkg.path ≠ cur) :
    Denotes cur (allImports cur ds pkgs) (requestRef (Imports.imports cur ds pkgs) e) e.pkg.path
      (goIdent e.parents e.name) := by
  have := qualify_denotes hp (pub_ident hn)
  unfold qualify at this
  rw [if_neg (fun h => ho h.symm)] at this
  rw [ht]
  exact this

/-- **C115** (responses of calls): likewise, for names that are in camel case already. -/
theorem C115_response_partial (cur : Name) (ds : List Default) (pkgs : List Pkg) (e : Elem)
    (hn : goCamelCase e.name = e.name) (ht : e.parents = []) (hp : Known cur ds pkgs e.pkg) (ho : e.pkg.path ≠ cur) :
    Denotes cur (allImports cur ds pkgs) (responseRef (Imports.imports cur ds pkgs) e) e.pkg.path
      (goIdent e.parents e.name) := by
  have := qualify_denotes hp hn.symm
  unfold qualify at this
  rw [if_neg (fun h => ho h.symm)] at this
  rw [ht]
  exact this

/-- **C115** (clients): the references to the client of a service and to its constructor denote those of the Go code, for names
that are in camel case already. -/
theorem C115_client_partial (cur : Name) (ds : List Default) (pkgs : List Pkg) (p : Pkg) (service : Name)
    (hn : goCamelCase service = service) (hp : Known cur ds pkgs p) (ho : p.path ≠ cur) :
    Denotes cur (allImports cur ds pkgs) (clientRef (Imports.imports cur ds pkgs) p service) p.path (goClient service) ∧
    Denotes cur (allImports cur ds pkgs) (constructorRef (Imports.imports cur ds pkgs) p service) p.path
      (goConstructor service) := by
  have h1 : service ++ "Client".toList = goClient service := by unfold goClient; rw [hn]
  have h2 : "New".toList ++ service ++ "Client".toList = goConstructor service := by unfold goConstructor; rw [hn]
  have k1 := qualify_denotes hp h1
  have k2 := qualify_denotes hp h2
  unfold qualify at k1 k2
  rw [if_neg (fun h => ho h.symm)] at k1 k2
  exact ⟨k1, k2⟩

/-- **C115** (methods that are called, exact). -/
theorem C115_call_exact (method : Name) : callName method = goMethod method ↔ goCamelCase method = method :=
  ⟨fun h => h.symm, fun h => h.symm⟩

/-- **C115** (methods that are implemented): they have the name that the interface of the service has. -/
theorem C115_method (method : Name) (h : isIdent method = true) : implName method = goMethod method := pub_ident h

theorem own_not_imported (cur : Name) (ds : List Default) (pkgs : List Pkg) (hc : cur ∉ ds.map (·.path)) (q : Name) :
    (cur, q) ∉ allImports cur ds pkgs := by
  intro h
  cases List.mem_append.1 h with
  | inl h =>
    obtain ⟨d, hd, e⟩ := List.mem_map.1 h
    rw [Prod.mk.injEq] at e
    exact hc (List.mem_map.2 ⟨d, hd, e.1⟩)
  | inr h =>
    obtain ⟨p, _, h1, h2⟩ := Imports.C33_only cur ds pkgs _ h
    exact h2.2.1 h1

/-- **C115** is false for calls of services in the Go package of the file: no reference to the request, the response, the client or its
constructor denotes anything there, as the file does not import its own package. -/
theorem C115_own_false (cur : Name) (ds : List Default) (pkgs : List Pkg) (hc : cur ∉ ds.map (·.path)) (e : Elem)
    (ho : e.pkg.path = cur) (service x : Name) :
    ¬ Denotes cur (allImports cur ds pkgs) (requestRef (Imports.imports cur ds pkgs) e) e.pkg.path x ∧
    ¬ Denotes cur (allImports cur ds pkgs) (responseRef (Imports.imports cur ds pkgs) e) e.pkg.path x ∧
    ¬ Denotes cur (allImports cur ds pkgs) (clientRef (Imports.imports cur ds pkgs) e.pkg service) e.pkg.path x ∧
    ¬ Denotes cur (allImports cur ds pkgs) (constructorRef (Imports.imports cur ds pkgs) e.pkg service) e.pkg.path x := by
  rw [ho]
  exact ⟨fun h => own_not_imported cur ds pkgs hc _ h.2, fun h => own_not_imported cur ds pkgs hc _ h.2,
    fun h => own_not_imported cur ds pkgs hc _ h.2, fun h => own_not_imported cur ds pkgs hc _ h.2⟩

/-- **C115** is false for requests that are nested messages: the reference never denotes their Go type. -/
theorem C115_nested_request_false (cur : Name) (ds : List Default) (pkgs : List Pkg) (e : Elem)
    (hid : ∀ n ∈ e.parents ++ [e.name], isIdent n = true) (ht : e.parents ≠ []) :
    ¬ Denotes cur (allImports cur ds pkgs) (requestRef (Imports.imports cur ds pkgs) e) e.pkg.path
      (goIdent e.parents e.name) := by
  intro h
  have h1 : toPublicGoVariable e.name = goIdent e.parents e.name := h.1
  rw [pub_ident (hid e.name (by simp))] at h1
  unfold goIdent at h1
  cases hpar : e.parents with
  | nil => exact ht hpar
  | cons x t =>
    rw [hpar] at h1 hid
    rw [List.cons_append, camel_dotted (t ++ [e.name]) x (fun m hm => ident_ne (hid m (by simp at hm ⊢; exact .inr hm)))] at h1
    have hlen := congrArg List.length h1
    have hx : 0 < (goCamelCase x).length := List.length_pos_iff.2 (camel_ne (hid x (by simp)))
    simp only [List.flatMap_append, List.flatMap_cons, List.flatMap_nil, tailGo, List.length_append, List.append_nil] at hlen
    omega

example : ∃ e : Elem, (∀ n ∈ e.parents ++ [e.name], isIdent n = true) ∧ e.parents ≠ [] :=
  ⟨⟨["GetPost".toList], "Request".toList, post.elem.pkg⟩, by decide, by decide⟩

/-! ## What is false -/

/-- **C115** is false for nested messages whose names start with lower case letters. -/
theorem C115_lower_false : joined ["Post".toList, "author".toList] = "Post_Author".toList ∧
    goIdent ["Post".toList] "author".toList = "PostAuthor".toList := by decide

/-- **C115** is false for services, responses and methods whose names are not in camel case. -/
theorem C115_camel_false :
    clientRef (Imports.imports [] [] []) ⟨0, [], "p".toList⟩ "post_service".toList = ⟨some "p".toList, "post_serviceClient".toList⟩ ∧
    goClient "post_service".toList = "PostServiceClient".toList ∧
    (responseRef (Imports.imports [] [] []) ⟨[], "get_response".toList, ⟨0, [], "p".toList⟩⟩).name = "get_response".toList ∧
    goIdent [] "get_response".toList = "GetResponse".toList ∧
    callName "getPost".toList = "getPost".toList ∧ goMethod "getPost".toList = "GetPost".toList := by decide

theorem pick_used {u : Used} {getter : Bool} {n r : Name} (h : ¬ Free u getter n) (hp : Pick u getter n r) : r ≠ n := by
  have key : ∀ {n r : Name}, Pick u getter n r → n.length ≤ r.length := by
    intro n r hp
    induction hp with
    | free _ => exact Nat.le_refl _
    | again _ _ ih => simp at ih; omega
  cases hp with
  | free hf => exact absurd hf h
  | again _ hp =>
    have := key hp
    intro e
    subst e
    simp at this
    omega

/-- **C115** is false for a field that is called like a method of all messages: every Go struct of this message has another name for
it. -/
theorem C115_reserved_false (m : Msg) (f : Field) (fs : List Field) (hm : m.fields = f :: fs)
    (hid : isIdent f.name = true) (hr : fieldName f.name ∈ reserved) (out : List (Part × Name)) (h : GoFields m out) :
    ∃ g, (Part.field f.name, g) ∈ out ∧ g ≠ fieldName f.name := by
  unfold GoFields at h
  rw [hm] at h
  have hn : ¬ Free (fun n => decide (n ∈ reserved)) true (goCamelCase f.name) := by
    intro hf
    have := hf.1
    rw [← pub_ident hid] at this
    exact absurd hr (of_decide_eq_false this)
  cases h with
  | field _ h2 _ => exact ⟨_, List.mem_cons_self, by rw [fieldName, pub_ident hid]; exact pick_used hn h2⟩
  | oneof _ _ h2 _ _ => exact ⟨_, List.mem_cons_self, by rw [fieldName, pub_ident hid]; exact pick_used hn h2⟩

example : fieldName "descriptor".toList ∈ reserved ∧ fieldName "string".toList ∈ reserved := by decide

/-- A message with a field `name` and a field `get_name`. -/
def getters : Msg := ⟨⟨[], "M".toList, ⟨0, [], []⟩⟩, [⟨"name".toList, none⟩, ⟨"get_name".toList, none⟩], [], []⟩

/-- **C115** is false for a field that is called like the getter of another one. -/
theorem C115_getter_false (out : List (Part × Name)) (h : GoFields getters out) :
    ∃ g, (Part.field "get_name".toList, g) ∈ out ∧ g ≠ fieldName "get_name".toList := by
  unfold GoFields getters at h
  have hf : Free (fun n => decide (n ∈ reserved)) true (goCamelCase "name".toList) := by
    refine ⟨by decide, fun _ => by decide⟩
  cases h with
  | oneof h1 => cases h1
  | field _ h2 h3 =>
    have := (pick_free hf).1 h2
    subst this
    cases h3 with
    | oneof h1 => cases h1
    | field _ h4 _ =>
      refine ⟨_, List.mem_cons_of_mem _ List.mem_cons_self, ?_⟩
      have hn : ¬ Free (taken (fun n => decide (n ∈ reserved)) true (goCamelCase "name".toList)) true
          (goCamelCase "get_name".toList) := by
        intro hf
        have h1 := hf.1
        revert h1
        decide
      have := pick_used hn h4
      have e : fieldName "get_name".toList = goCamelCase "get_name".toList := by decide
      rw [e]
      exact this

/-- A message with a oneof field `team` and a nested message `team`, and one with nested messages `Team` and `Team_`. -/
def lowerNested : Msg := { post with messages := ["team".toList] }
def twice : Msg := { post with messages := ["Team".toList, "Team_".toList] }

/-- **C115** is false for wrappers of oneof fields in these cases. -/
theorem C115_wrapper_false (cur : Name) (st : St) :
    (∀ r, GoWrapper lowerNested (fieldName "team".toList) r → r ≠ (wrapperRef cur st false lowerNested "team".toList).name) ∧
    (∀ r, GoWrapper twice (fieldName "team".toList) r → r ≠ (wrapperRef cur st false twice "team".toList).name) := by
  have hname : ∀ m : Msg, m.elem = post.elem → (messageRef cur st false m.elem).name = "Post".toList := by
    intro m hm
    rw [hm]
    unfold messageRef qualify
    simp only [Bool.false_eq_true, if_false]
    split <;> rfl
  constructor
  · intro r h
    have hw : (wrapperRef cur st false lowerNested "team".toList).name = "Post_Team_".toList := by
      unfold wrapperRef
      simp only [hname lowerNested rfl]
      decide
    rw [hw]
    unfold GoWrapper at h
    cases h with
    | free _ => decide
    | again h1 _ =>
      obtain ⟨x, hx, e⟩ := h1
      have : x = "team".toList := by simpa [lowerNested, post] using hx
      subst this
      exact absurd e (by decide)
  · intro r h
    have hw : (wrapperRef cur st false twice "team".toList).name = "Post_Team_".toList := by
      unfold wrapperRef
      simp only [hname twice rfl]
      decide
    rw [hw]
    unfold GoWrapper at h
    cases h with
    | free h1 => exact absurd (by decide) (h1 "Team".toList (by decide))
    | again _ h2 =>
      cases h2 with
      | free h1 => exact absurd (by decide) (h1 "Team_".toList (by decide))
      | again _ h3 =>
        intro e
        have key : ∀ {n r : Name}, Wrapper twice n r → n.length ≤ r.length := by
          intro n r hp
          induction hp with
          | free _ => exact Nat.le_refl _
          | again _ _ ih => simp at ih; omega
        have := key h3
        rw [e] at this
        revert this
        decide

end Verif.ProtoNames
