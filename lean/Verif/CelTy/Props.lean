import Verif.CelTy.Spec
import Verif.Types.Model

/-! # Types of expressions and variables: properties C81 -/

namespace Verif.CelTy

/-! ## Helper lemmas -/

/-- `Widened` as a function. -/
def norm : Ty → Ty
  | .null r => .null r
  | .scalar k r => .scalar (widest k) r
  | .msg n r => .msg (widestName n) r
  | .enum n r => .enum n r
  | .map k v r => .map (norm k) (norm v) r
  | .selector t f r => .selector (norm t) (norm f) r

theorem widened_norm (t : Ty) : Widened t (norm t) := by
  induction t with
  | null => exact .null
  | scalar => exact .scalar
  | msg => exact .msg
  | enum => exact .enum
  | map _ _ _ h₁ h₂ => exact .map h₁ h₂
  | selector _ _ _ h₁ h₂ => exact .selector h₁ h₂

theorem norm_of_widened {t t' : Ty} (h : Widened t t') : t' = norm t := by
  induction h with
  | map _ _ h₁ h₂ => simp [norm, h₁, h₂]
  | selector _ _ h₁ h₂ => simp [norm, h₁, h₂]
  | _ => rfl

theorem widest_idem (k : Kind) : widest (widest k) = widest k := by cases k <;> rfl

theorem widestName_idem (n : Name) : widestName (widestName n) = widestName n := by
  unfold widestName
  by_cases h₁ : n = ["google", "protobuf", "Int32Value"]
  · simp [h₁]
  · by_cases h₂ : n = ["google", "protobuf", "UInt32Value"]
    · simp [h₂]
    · by_cases h₃ : n = ["google", "protobuf", "FloatValue"]
      · simp [h₃]
      · simp [h₁, h₂, h₃]

theorem norm_idem (t : Ty) : norm (norm t) = norm t := by
  induction t with
  | scalar => simp [norm, widest_idem]
  | msg => simp [norm, widestName_idem]
  | map _ _ _ h₁ h₂ => simp [norm, h₁, h₂]
  | selector _ _ _ h₁ h₂ => simp [norm, h₁, h₂]
  | _ => rfl

def single : Ty → Ty
  | .null _ => .null false
  | .scalar k _ => .scalar k false
  | .msg n _ => .msg n false
  | .enum n _ => .enum n false
  | .map k v _ => .map k v false
  | .selector t f _ => .selector t f false

theorem single_eq {t : Ty} (h : repeated t = false) : single t = t := by
  cases t <;> simp_all [single, repeated]

theorem repeated_norm (t : Ty) : repeated (norm t) = repeated t := by cases t <;> rfl

theorem mem_of_lookup {l : List (Name × CTy)} {n : Name} {c : CTy} (h : l.lookup n = some c) : (n, c) ∈ l := by
  induction l with
  | nil => simp at h
  | cons a l ih =>
    obtain ⟨m, d⟩ := a
    rw [List.lookup_cons] at h
    by_cases hm : n = m
    · subst hm; simp at h; subst h; exact List.mem_cons_self ..
    · have : (n == m) = false := by simpa using hm
      rw [this] at h
      exact List.mem_cons_of_mem _ (ih h)

theorem lookup_ne_none {l : List (Name × CTy)} {n : Name} {c : CTy} (h : (n, c) ∈ l) : l.lookup n ≠ none := by
  induction l with
  | nil => simp at h
  | cons a l ih =>
    obtain ⟨m, d⟩ := a
    rw [List.lookup_cons]
    by_cases hm : n = m
    · simp [hm]
    · have : (n == m) = false := by simpa using hm
      rw [this]
      rcases List.mem_cons.mp h with h | h
      · simp only [Prod.mk.injEq] at h; exact absurd h.1 hm
      · exact ih h

theorem widestName_other {n : Name} (h : wellKnown.lookup n = none) : widestName n = n := by
  unfold widestName
  by_cases h₁ : n = ["google", "protobuf", "Int32Value"]
  · subst h₁; exact absurd h (by decide)
  · by_cases h₂ : n = ["google", "protobuf", "UInt32Value"]
    · subst h₂; exact absurd h (by decide)
    · by_cases h₃ : n = ["google", "protobuf", "FloatValue"]
      · subst h₃; exact absurd h (by decide)
      · simp [h₁, h₂, h₃]

theorem fromCEL_obj {K : Known} {n : Name} (h : MsgName K n) : fromCEL K (.obj n) = some (.msg n false) := by
  rcases h.2.2 with ⟨a, b, rfl⟩ | ⟨hk, hn⟩
  · simp [fromCEL, fromObj]
  · simp only [fromCEL, fromObj]
    split
    · exact absurd rfl (hn _)
    · exact absurd rfl (hn _)
    · simp [hk]

theorem fromCEL_objectType {K : Known} {n : Name} (h : MsgName K n) :
    fromCEL K (objectType n) = some (.msg (widestName n) false) := by
  unfold objectType
  cases hl : wellKnown.lookup n with
  | none => simp only; rw [widestName_other hl]; exact fromCEL_obj h
  | some c =>
    have hm := mem_of_lookup hl
    have hj := h.1
    simp only [wellKnown, wk, json, List.mem_cons, Prod.mk.injEq, List.not_mem_nil, or_false] at hm hj
    rcases hm with ⟨rfl, rfl⟩ | ⟨rfl, rfl⟩ | ⟨rfl, rfl⟩ | ⟨rfl, rfl⟩ | ⟨rfl, rfl⟩ | ⟨rfl, rfl⟩ | ⟨rfl, rfl⟩ |
      ⟨rfl, rfl⟩ | ⟨rfl, rfl⟩ | ⟨rfl, rfl⟩ | ⟨rfl, rfl⟩ | ⟨rfl, rfl⟩ | ⟨rfl, rfl⟩ | ⟨rfl, rfl⟩ | ⟨rfl, rfl⟩ |
      ⟨rfl, rfl⟩
    all_goals first
      | rfl
      | (exfalso; exact hj (by simp))
      | simp [fromCEL, ofWrapper, widestName, wk]

theorem msgCEL_eq {K : Known} {n : Name} (h : MsgName K n) : msgCEL n = objectType n := by
  simp [msgCEL, selectorName, h.2.1]

theorem ofPrim_primOf (k : Kind) : ofPrim (primOf k) = widest k := by cases k <;> rfl

theorem isArm_of {t : Ty} (h : Usable.isEnumish t) : isArm (norm t) = true := by
  cases t <;> simp_all [Usable.isEnumish, isArm, norm]

theorem rep_of_enumish {t : Ty} (h : Usable.isEnumish t) : repeated t = false := by
  cases t <;> simp_all [Usable.isEnumish, repeated]

theorem inner_roundtrip {K : Known} (t : Ty) (h : Usable K t) :
    fromCEL K (toCEL false t) = some (norm (single t)) := by
  induction t with
  | null r => simp [toCEL, listIf, fromCEL, single, norm]
  | scalar k r => simp [toCEL, listIf, fromCEL, single, norm, ofPrim_primOf]
  | msg n r => simp only [toCEL, listIf, Bool.false_and, Bool.false_eq_true, ↓reduceIte, single, norm]; rw [msgCEL_eq h]; exact fromCEL_objectType h
  | enum n r => simp only [Usable] at h; simp [toCEL, listIf, fromCEL, single, norm, h]
  | map k v r h₁ h₂ =>
    obtain ⟨hk, hv, rk, rv⟩ := h
    have a := h₁ hk
    have b := h₂ hv
    rw [single_eq rk] at a
    rw [single_eq rv] at b
    simp [toCEL, listIf, fromCEL, single, norm, a, b]
  | selector t f r h₁ h₂ =>
    obtain ⟨ht, hf, at', af⟩ := h
    have a := h₁ ht
    have b := h₂ hf
    rw [single_eq (rep_of_enumish at')] at a
    rw [single_eq (rep_of_enumish af)] at b
    simp [toCEL, listIf, fromCEL, single, norm, a, b, isArm_of at', isArm_of af]

theorem toCEL_true (t : Ty) : toCEL true t = listIf (repeated t) (toCEL false t) := by
  cases t <;> simp [toCEL, repeated, listIf]

theorem roundtrip {K : Known} (t : Ty) (h : Usable K t) : fromCEL K (toCEL true t) = some (norm t) := by
  rw [toCEL_true]
  cases hr : repeated t with
  | false => simp only [listIf, Bool.false_eq_true, ↓reduceIte]; rw [inner_roundtrip t h, single_eq hr]
  | true =>
    simp only [listIf, ↓reduceIte, fromCEL, inner_roundtrip t h]
    cases t <;> simp_all [repeated, single, norm, asRepeated]

theorem usable_msg {K : Known} {n : Name} (h : MsgName K n) (hK : ∀ s ∈ ["Int64Value", "UInt64Value", "DoubleValue"], K.msgs (wk s) = true) :
    MsgName K (widestName n) := by
  unfold widestName
  by_cases h₁ : n = ["google", "protobuf", "Int32Value"]
  · simp only [h₁, ↓reduceIte]
    exact ⟨by decide, by decide, .inr ⟨hK _ (by simp), fun rest => by simp⟩⟩
  · by_cases h₂ : n = ["google", "protobuf", "UInt32Value"]
    · simp only [h₂]
      exact ⟨by decide, by decide, .inr ⟨hK _ (by simp), fun rest => by simp⟩⟩
    · by_cases h₃ : n = ["google", "protobuf", "FloatValue"]
      · simp only [h₃]
        exact ⟨by decide, by decide, .inr ⟨hK _ (by simp), fun rest => by simp⟩⟩
      · simpa [h₁, h₂, h₃] using h

theorem enumish_norm {t : Ty} (h : Usable.isEnumish t) : Usable.isEnumish (norm t) := by
  cases t <;> simp_all [Usable.isEnumish, norm]

theorem usable_norm {K : Known} (hK : ∀ s ∈ ["Int64Value", "UInt64Value", "DoubleValue"], K.msgs (wk s) = true) (t : Ty) (h : Usable K t) :
    Usable K (norm t) := by
  induction t with
  | null => trivial
  | scalar => trivial
  | msg n r => exact usable_msg h hK
  | enum n r => exact h
  | map k v r h₁ h₂ =>
    obtain ⟨hk, hv, rk, rv⟩ := h
    exact ⟨h₁ hk, h₂ hv, (repeated_norm k).trans rk, (repeated_norm v).trans rv⟩
  | selector t f r h₁ h₂ =>
    obtain ⟨ht, hf, at', af⟩ := h
    exact ⟨h₁ ht, h₂ hf, enumish_norm at', enumish_norm af⟩

/-- The type of the last of `n` definitions `by: x`, `by: y`, ..., each the name of the one before. -/
def chain (K : Known) (t : Ty) : Nat → Option Ty
  | 0 => some t
  | n + 1 => match chain K t n with
    | none => none
    | some t' => fromCEL K (toCEL true t')

/-! ## Properties -/

/-- **C81, variables.** A variable has the type of its definition in every later expression, and keeps it however
often it is passed on, except that numbers get the widest kind. -/
theorem C81_variable_partial (K : Known) (hK : ∀ s ∈ ["Int64Value", "UInt64Value", "DoubleValue"], K.msgs (wk s) = true)
    (t : Ty) (h : Usable K t) (n : Nat) : ∃ t', chain K t (n + 1) = some t' ∧ Widened t t' := by
  have key : ∀ n, chain K t (n + 1) = some (norm t) := by
    intro n
    induction n with
    | zero => simp only [chain]; exact roundtrip t h
    | succ n ih =>
      unfold chain
      rw [ih]
      simp only
      rw [roundtrip _ (usable_norm hK t h), norm_idem]
  exact ⟨_, key n, widened_norm t⟩

/-- The widened type is unique. -/
theorem C81_one_type {t a b : Ty} (ha : Widened t a) (hb : Widened t b) : a = b := by
  rw [norm_of_widened ha, norm_of_widened hb]

theorem not_list_of_from {K : Known} {c : CTy} {t : Ty} (hp : Plain K c) (hl : ∀ u, c ≠ .list u) (h : fromCEL K c = some t) :
    repeated t = false := by
  cases c with
  | prim p => simp only [fromCEL, Option.some.injEq] at h; subst h; rfl
  | wrapper p => simp only [fromCEL, Option.some.injEq] at h; subst h; rfl
  | tagged e => simp only [fromCEL, Option.some.injEq] at h; subst h; rfl
  | any => simp only [fromCEL, Option.some.injEq] at h; subst h; rfl
  | duration => simp only [fromCEL, Option.some.injEq] at h; subst h; rfl
  | timestamp => simp only [fromCEL, Option.some.injEq] at h; subst h; rfl
  | null => simp only [fromCEL, Option.some.injEq] at h; subst h; rfl
  | dyn => simp [fromCEL] at h
  | crash => simp [fromCEL] at h
  | list u => exact absurd rfl (hl u)
  | map k v =>
    simp only [fromCEL] at h
    cases hk : fromCEL K k with
    | none => simp [hk] at h
    | some k' => cases hv : fromCEL K v with
      | none => simp [hk, hv] at h
      | some v' => simp only [hk, hv, Option.some.injEq] at h; subst h; rfl
  | obj n => rw [fromCEL_obj hp.1, Option.some.injEq] at h; subst h; rfl
  | opq n p =>
    obtain ⟨he, rfl⟩ := hp
    simp only [fromCEL, he, Bool.true_and, decide_true, ↓reduceIte, Option.some.injEq] at h; subst h; rfl
  | sel a b =>
    simp only [fromCEL] at h
    cases hk : fromCEL K a with
    | none => simp [hk] at h
    | some k' => cases hv : fromCEL K b with
      | none => simp [hk, hv] at h
      | some v' =>
        simp only [hk, hv] at h
        split at h
        · simp only [Option.some.injEq] at h; subst h; rfl
        · cases h

theorem toCEL_asRepeated (t : Ty) : toCEL true (asRepeated t) = .list (toCEL false t) := by
  cases t <;> simp [toCEL, asRepeated, listIf]

theorem toCEL_single {t : Ty} (h : repeated t = false) : toCEL true t = toCEL false t := by
  rw [toCEL_true, h]; simp [listIf]

theorem same_of_from {K : Known} (c : CTy) (hp : Plain K c) (t : Ty) (h : fromCEL K c = some t) : SameCEL c (toCEL true t) := by
  induction c generalizing t with
  | prim p => simp only [fromCEL, Option.some.injEq] at h; subst h; cases p <;> exact .refl _
  | wrapper p => simp only [fromCEL, Option.some.injEq] at h; subst h; cases p <;> exact .refl _
  | tagged e => simp only [fromCEL, Option.some.injEq] at h; subst h; exact .enum e
  | any => simp only [fromCEL, Option.some.injEq] at h; subst h; exact .refl _
  | duration => simp only [fromCEL, Option.some.injEq] at h; subst h; exact .refl _
  | timestamp => simp only [fromCEL, Option.some.injEq] at h; subst h; exact .refl _
  | null => simp only [fromCEL, Option.some.injEq] at h; subst h; exact .refl _
  | dyn => simp [fromCEL] at h
  | crash => simp [fromCEL] at h
  | list u ih =>
    simp only [fromCEL] at h
    cases hu : fromCEL K u with
    | none => simp [hu] at h
    | some u' =>
      simp only [hu, Option.some.injEq] at h
      subst h
      rw [toCEL_asRepeated, ← toCEL_single (not_list_of_from hp.2 hp.1 hu)]
      exact .list (ih hp.2 u' hu)
  | map k v ih₁ ih₂ =>
    simp only [fromCEL] at h
    cases hk : fromCEL K k with
    | none => simp [hk] at h
    | some k' => cases hv : fromCEL K v with
      | none => simp [hk, hv] at h
      | some v' =>
        simp only [hk, hv, Option.some.injEq] at h
        subst h
        obtain ⟨pk, pv, lk, lv⟩ := hp
        have e : toCEL true (.map k' v' false) = .map (toCEL true k') (toCEL true v') := by
          rw [toCEL_single (not_list_of_from pk lk hk), toCEL_single (not_list_of_from pv lv hv)]; simp [toCEL, listIf]
        rw [e]
        exact .map (ih₁ pk _ hk) (ih₂ pv _ hv)
  | obj n =>
    rw [fromCEL_obj hp.1, Option.some.injEq] at h; subst h
    have e : toCEL true (.msg n false) = .obj n := by simp [toCEL, listIf, msgCEL_eq hp.1, objectType, hp.2]
    rw [e]; exact .refl _
  | opq n p =>
    obtain ⟨he, rfl⟩ := hp
    simp only [fromCEL, he, Bool.true_and, decide_true, ↓reduceIte, Option.some.injEq] at h; subst h; exact .refl _
  | sel a b ih₁ ih₂ =>
    obtain ⟨aa, ab, pa, pb⟩ := hp
    simp only [fromCEL] at h
    cases hk : fromCEL K a with
    | none => simp [hk] at h
    | some k' => cases hv : fromCEL K b with
      | none => simp [hk, hv] at h
      | some v' =>
        simp only [hk, hv] at h
        split at h
        · simp only [Option.some.injEq] at h
          subst h
          have la : ∀ u, a ≠ .list u := by intro u hu; subst hu; exact aa
          have lb : ∀ u, b ≠ .list u := by intro u hu; subst hu; exact ab
          have e : toCEL true (.selector k' v' false) = .sel (toCEL true k') (toCEL true v') := by
            rw [toCEL_single (not_list_of_from pa la hk), toCEL_single (not_list_of_from pb lb hv)]; simp [toCEL, listIf]
          rw [e]
          exact .sel (ih₁ pa _ hk) (ih₂ pb _ hv)
        · cases h

theorem from_plain {K : Known} (c : CTy) (hp : Plain K c) : ∃ t, fromCEL K c = some t := by
  induction c with
  | dyn => exact hp.elim
  | crash => exact hp.elim
  | list u ih => obtain ⟨t, ht⟩ := ih hp.2; exact ⟨_, by simp [fromCEL, ht]; rfl⟩
  | map k v ih₁ ih₂ =>
    obtain ⟨a, ha⟩ := ih₁ hp.1
    obtain ⟨b, hb⟩ := ih₂ hp.2.1
    exact ⟨.map a b false, by simp [fromCEL, ha, hb]⟩
  | obj n => exact ⟨_, fromCEL_obj hp.1⟩
  | opq n p => obtain ⟨he, rfl⟩ := hp; exact ⟨.enum n false, by simp [fromCEL, he]⟩
  | sel t f ih₁ ih₂ =>
    obtain ⟨at', af, pt, pf⟩ := hp
    obtain ⟨a, ha⟩ := ih₁ pt
    obtain ⟨b, hb⟩ := ih₂ pf
    have arm : ∀ {c : CTy} {u : Ty}, Plain.arm c → Plain K c → fromCEL K c = some u → isArm u = true := by
      intro c u hc hpc hu
      cases c with
      | tagged e => simp only [fromCEL, Option.some.injEq] at hu; subst hu; rfl
      | opq n p =>
        obtain ⟨he, rfl⟩ := hpc
        simp only [fromCEL, he, Bool.true_and, decide_true, ↓reduceIte, Option.some.injEq] at hu; subst hu; rfl
      | sel x y =>
        simp only [fromCEL] at hu
        split at hu
        · cases hu
        · split at hu
          · cases hu
          · split at hu
            · simp only [Option.some.injEq] at hu; subst hu; rfl
            · cases hu
      | _ => exact hc.elim
    exact ⟨.selector a b false, by simp [fromCEL, ha, hb, arm at' pt ha, arm af pf hb]⟩
  | prim p => exact ⟨_, rfl⟩
  | wrapper p => exact ⟨_, rfl⟩
  | tagged e => exact ⟨_, rfl⟩
  | any => exact ⟨_, rfl⟩
  | duration => exact ⟨_, rfl⟩
  | timestamp => exact ⟨_, rfl⟩
  | null => exact ⟨_, rfl⟩

/-- **C81, expressions.** Every expression without lists in lists or maps defines a variable, and the variable has
the CEL type of the expression: it can be used wherever the expression can. -/
theorem C81_expression_partial (K : Known) (c : CTy) (hp : Plain K c) :
    ∃ t c', declared K c = some (t, c') ∧ SameCEL c c' := by
  obtain ⟨t, ht⟩ := from_plain c hp
  exact ⟨t, toCEL true t, by simp [declared, ht], same_of_from c hp t ht⟩

/-- **C81, what is rejected.** Messages that are not in the schema, and enum selectors with an arm that is no enum,
define no variables. -/
theorem C81_rejected (K : Known) :
    (∀ n, K.msgs n = false → (∀ rest, n ≠ "grpc" :: "federation" :: rest) → declared K (.obj n) = none) ∧
    (∀ t f t' c, declared K t = some (t', c) → (∀ n r, t' ≠ .enum n r) → (∀ a b r, t' ≠ .selector a b r) →
      declared K (.sel t f) = none ∧ declared K (.sel f t) = none) := by
  constructor
  · intro n hn hne
    have : fromObj K n = none := by
      unfold fromObj
      split
      · rename_i a b r; exact absurd rfl (hne _)
      · rename_i a; exact absurd rfl (hne _)
      · simp [hn]
    simp [declared, fromCEL, this]
  · intro t f t' c h h1 h2
    have ht : fromCEL K t = some t' := by
      unfold declared at h
      cases hc : fromCEL K t with
      | none => rw [hc] at h; simp at h
      | some x => rw [hc] at h; simp only [Option.some.injEq, Prod.mk.injEq] at h; rw [h.1]
    have ha : isArm t' = false := by
      cases t' with
      | enum n r => exact absurd rfl (h1 n r)
      | selector a b r => exact absurd rfl (h2 a b r)
      | _ => rfl
    cases hf : fromCEL K f <;> simp [declared, fromCEL, ht, hf, ha]

/-- The arguments of a message as a whole: `by: "$"` is accepted, but the message of the variable is named after the
first part of the package and is not the message of the arguments, whatever their package. -/
theorem C81_arguments_false (K : Known) (p q : String) (rest : Name) :
    ∃ t c, declared K (objectType ("grpc" :: "federation" :: "private" :: p :: q :: rest)) = some (t, c) ∧
      ¬ SameCEL (objectType ("grpc" :: "federation" :: "private" :: p :: q :: rest)) c := by
  have ho : ∀ r, objectType ("grpc" :: "federation" :: "private" :: r) = .obj ("grpc" :: "federation" :: "private" :: r) := by
    intro r
    have : wellKnown.lookup ("grpc" :: "federation" :: "private" :: r) = none := by
      simp [wellKnown, wk, List.lookup]
    simp [objectType, this]
  refine ⟨.msg ["grpc", "federation", "private", p] false, msgCEL ["grpc", "federation", "private", p], ?_, ?_⟩
  · rw [ho]
    simp [declared, fromCEL, fromObj, toCEL, listIf]
  · rw [ho]
    unfold msgCEL
    rw [ho]
    split <;> (intro h; cases h)

/-- An enum selector that is passed as an argument: the type of `$.x` is the message of enum selectors
(`Descr.toDTy`), and a variable defined by it crashes the generator. -/
theorem C81_selector_argument_false (K : Known) (t f : Ty) :
    fieldCEL (.msg selectorName false) = .obj selectorName ∧
    declared K (.obj selectorName) = some (.msg selectorName false, .crash) ∧
    ∀ r, toCEL true (.selector t f r) ≠ .crash := by
  refine ⟨by decide, by rfl, ?_⟩
  intro r
  cases r <;> simp [toCEL, listIf]

/-- Lists of lists and maps of lists do not keep their types: `[[1]]` and `{'a': [1]}` are accepted and declared
as `list(int)` and `map(string, int)`. JSON values are rejected. -/
theorem C81_expression_false (K : Known) :
    declared K (.list (.list (.prim .int))) = some (.scalar .int64 true, .list (.prim .int)) ∧
    declared K (.map (.prim .string) (.list (.prim .int))) =
      some (.map (.scalar .string false) (.scalar .int64 true) false, .map (.prim .string) (.prim .int)) ∧
    declared K (objectType (wk "Struct")) = none ∧ declared K (objectType (wk "Value")) = none ∧
    declared K (objectType (wk "ListValue")) = none := by
  refine ⟨rfl, rfl, rfl, rfl, rfl⟩

theorem ofDescriptor_eq {t : Ty} (h : NoEnumLists.noEnum t) (o : Bool) (hr : o = false → repeated t = false)
    (hu : ∀ k v r, t = .map k v r → repeated k = false ∧ repeated v = false)
    (hm : ∀ k v r, t = .map k v r → ofDescriptor k = toCEL false k ∧ ofDescriptor v = toCEL false v)
    (hs : ∀ n r, t = .msg n r → msgCEL n = objectType n) :
    ofDescriptor t = toCEL o t := by
  cases o with
  | true =>
    cases t with
    | enum => exact h.elim
    | selector => exact h.elim
    | map k v r => simp [ofDescriptor, toCEL, (hm k v r rfl).1, (hm k v r rfl).2]
    | msg n r => simp [ofDescriptor, toCEL, hs n r rfl]
    | _ => simp [ofDescriptor, toCEL]
  | false =>
    have hr := hr rfl
    cases t with
    | enum => exact h.elim
    | selector => exact h.elim
    | map k v r => simp only [repeated] at hr; subst hr; simp [ofDescriptor, toCEL, (hm k v false rfl).1, (hm k v false rfl).2, listIf]
    | msg n r => simp only [repeated] at hr; subst hr; simp [ofDescriptor, toCEL, listIf, hs n false rfl]
    | _ => simp only [repeated] at hr; subst hr; simp [ofDescriptor, toCEL, listIf]

theorem ofDescriptor_toCEL {K : Known} (t : Ty) (h : NoEnumLists.noEnum t) (hu : Usable K t) (o : Bool)
    (hr : o = false → repeated t = false) : ofDescriptor t = toCEL o t := by
  induction t generalizing o with
  | map k v r h₁ h₂ =>
    obtain ⟨uk, uv, rk, rv⟩ := hu
    refine ofDescriptor_eq h o hr (fun k' v' r' e => by cases e; exact ⟨rk, rv⟩) (fun k' v' r' e => ?_) (fun _ _ e => by cases e)
    cases e
    exact ⟨h₁ h.1 uk false (fun _ => rk), h₂ h.2 uv false (fun _ => rv)⟩
  | msg n r => exact ofDescriptor_eq h o hr (fun _ _ _ e => by cases e) (fun _ _ _ e => by cases e) (fun _ _ e => by cases e; exact msgCEL_eq hu)
  | _ => exact ofDescriptor_eq h o hr (fun _ _ _ e => by cases e) (fun _ _ _ e => by cases e) (fun _ _ e => by cases e)

/-- **C81, fields.** The expression `x.f` has the declared type of the field `f`, up to the width of numbers,
unless it is a list or map of enums. -/
theorem C81_field_partial (K : Known) (t : Ty) (hu : Usable K t) (he : NoEnumLists t) :
    ∃ t', fromCEL K (fieldCEL t) = some t' ∧ Widened t t' := by
  refine ⟨norm t, ?_, widened_norm t⟩
  cases t with
  | enum n r => simp only [NoEnumLists] at he; subst he; rfl
  | selector => exact he.elim
  | map k v r =>
    have := ofDescriptor_toCEL (K := K) (.map k v r) he hu true (fun h => by cases h)
    simp only [fieldCEL]; rw [this]; exact roundtrip _ hu
  | null r =>
    have := ofDescriptor_toCEL (K := K) (.null r) trivial hu true (fun h => by cases h)
    simp only [fieldCEL]; rw [this]; exact roundtrip _ hu
  | scalar k r =>
    have := ofDescriptor_toCEL (K := K) (.scalar k r) trivial hu true (fun h => by cases h)
    simp only [fieldCEL]; rw [this]; exact roundtrip _ hu
  | msg n r =>
    have := ofDescriptor_toCEL (K := K) (.msg n r) trivial hu true (fun h => by cases h)
    simp only [fieldCEL]; rw [this]; exact roundtrip _ hu

/-- A list of enums in a message is a list of integers for expressions, and may therefore not even be bound to a
field of its own type. -/
theorem C81_enum_lists_false (K : Known) (e : Name) :
    fromCEL K (fieldCEL (.enum e true)) = some (.scalar .int64 true) ∧
    fromCEL K (fieldCEL (.map (.scalar .string false) (.enum e false) false)) =
      some (.map (.scalar .string false) (.scalar .int64 false) false) ∧
    (∀ (S : Types.Schema) (n : String), Types.bindErrs S (.scalar .int64 true) (.enum n true) ≠ []) ∧
    ∃ t c, declared K (.list (.tagged e)) = some (t, c) ∧ t = .enum e true := by
  refine ⟨rfl, rfl, fun S n => by simp [Types.bindErrs, Types.diffErr, Types.isDifferent, Types.isNumber, Types.kindOf], _, _, rfl, rfl⟩

/-- **C81, map definitions.** For every list `src`, the iterator has the type of one element, and the result is a
list of the type of the expression. -/
theorem C81_map_partial (K : Known) (src : Ty) (ty : CTy → Option CTy) (c : CTy) (hr : repeated src = true)
    (hc : ∀ it, toCEL true src = .list it → ty it = some c) (hp : Plain K c) (hl : ∀ u, c ≠ .list u) :
    ∃ t, mapType K src ty = some t ∧ SameCEL (.list c) (toCEL true t) := by
  obtain ⟨t, ht⟩ := from_plain c hp
  have hs : SameCEL (.list c) (toCEL true (asRepeated t)) := by
    rw [toCEL_asRepeated, ← toCEL_single (not_list_of_from hp hl ht)]
    exact .list (same_of_from c hp t ht)
  have h1 : mapType K src ty = mapType.result K ty (single src) := by
    cases src <;> simp only [repeated] at hr <;> subst hr <;> rfl
  have h2 : ty (toCEL true (single src)) = some c := by
    apply hc
    cases src <;> simp only [repeated] at hr <;> subst hr <;> simp [toCEL, single, listIf]
  refine ⟨asRepeated t, ?_, hs⟩
  rw [h1, mapType.result, h2]
  simp [ht]

/-- A map definition whose expression is a list has the type of that list. -/
theorem C81_map_false (K : Known) : mapType K (.scalar .string true) (fun c => some (.list c)) =
    some (.scalar .string true) := rfl

/-- A map definition over something that is no list is rejected. -/
theorem C81_map_source (K : Known) (src : Ty) (ty : CTy → Option CTy) (hr : repeated src = false) :
    mapType K src ty = none := by
  cases src <;> simp only [repeated] at hr <;> subst hr <;> rfl

/-! ## Examples -/

/-- Messages of one package, and one enum. -/
def K₀ : Known where
  enums n := n == ["org", "Kind"]
  msgs n := n == ["org", "User"] || n == wk "Int64Value" || n == wk "UInt64Value" || n == wk "DoubleValue"

example : Usable K₀ (.map (.scalar .int32 false) (.msg ["org", "User"] false) true) ∧
    Usable K₀ (.selector (.enum ["org", "Kind"] false) (.enum ["org", "Kind"] false) false) ∧
    Usable K₀ (.msg ["grpc", "federation", "time", "Time"] true) := by
  refine ⟨⟨trivial, ⟨by decide, by decide, .inr ⟨by decide, fun rest => by simp⟩⟩, rfl, rfl⟩, ⟨rfl, rfl, rfl, rfl⟩,
    by decide, by decide, .inl ⟨_, _, rfl⟩⟩

example : fromCEL K₀ (toCEL true (.map (.scalar .int32 false) (.msg ["org", "User"] false) true)) =
    some (.map (.scalar .int64 false) (.msg ["org", "User"] false) true) := by decide

example : Plain K₀ (.list (.sel (.tagged ["org", "Kind"]) (.opq ["org", "Kind"] (.prim .int)))) := by
  refine ⟨fun u => by simp, trivial, trivial, trivial, by decide, rfl⟩

example : fromCEL K₀ (fieldCEL (.enum ["org", "Kind"] false)) = some (.enum ["org", "Kind"] false) := rfl

example : mapType K₀ (.enum ["org", "Kind"] true) (fun c => some (.map (.prim .string) c)) =
    some (.map (.scalar .string false) (.enum ["org", "Kind"] false) true) := by decide

end Verif.CelTy
