import Verif.SetArg.Spec

/-! # Lemmas for C102 -/

namespace Verif.SetArg
open Verif.GoNames

theorem requiredCast_shape {a : Ty} : ∀ {b : Ty}, sameShape a b = true → requiredCast a b = some (decide (a ≠ b)) := by
  induction a with
  | scalar k r => intro b h; cases b <;> simp [sameShape] at h <;> simp [requiredCast, h, bne, BEq.beq]
  | msg k r => intro b h; cases b <;> simp [sameShape] at h <;> simp [requiredCast, h, bne, BEq.beq]
  | enum k r => intro b h; cases b <;> simp [sameShape] at h <;> simp [requiredCast, h, bne, BEq.beq]
  | map k v ih =>
    intro b h
    cases b with
    | map k' v' =>
      simp only [sameShape] at h
      simp only [requiredCast, ih h, Option.map_some, Ty.map.injEq, ne_eq]
      by_cases h1 : k = k' <;> by_cases h2 : v = v' <;> simp [h1, h2]
    | _ => simp [sameShape] at h
  | selector r => intro b h; cases b <;> simp [sameShape] at h
  | null => intro b h; cases b <;> simp [sameShape] at h

theorem required_shape {a : Ty} : ∀ {b : Ty}, sameShape a b = true → required a b = decide (a ≠ b) := by
  induction a with
  | scalar k r => intro b h; cases b <;> simp [sameShape] at h <;> simp [required, h, bne, BEq.beq]
  | msg k r => intro b h; cases b <;> simp [sameShape] at h <;> simp [required, h, bne, BEq.beq]
  | enum k r => intro b h; cases b <;> simp [sameShape] at h <;> simp [required, h, bne, BEq.beq]
  | map k v ih =>
    intro b h
    cases b with
    | map k' v' =>
      simp only [sameShape] at h
      simp only [required, ih h, Ty.map.injEq, ne_eq]
      by_cases h1 : k = k' <;> by_cases h2 : v = v' <;> simp [h1, h2]
    | _ => simp [sameShape] at h
  | selector r => intro b h; cases b <;> simp [sameShape] at h
  | null => intro b h; cases b <;> simp [sameShape] at h

theorem declOf_shape {a b : Ty} (h : sameShape a b = true) : declOf a b = some (if a = b then [] else [(a, b)]) := by
  have hr := required_shape h
  have : declOf a b = some (if required a b then [(a, b)] else []) := by
    cases a <;> cases b <;> simp [sameShape] at h <;> rfl
  rw [this, hr]
  by_cases e : a = b <;> simp [e]

theorem goTy_any {t : Ty} (h : t ≠ .null) : goTy t ≠ .any := by
  cases t with
  | scalar k r => cases r <;> cases k <;> simp [goTy, slices, goKind]
  | msg i r => cases r <;> simp [goTy, slices]
  | enum i r => cases r <;> simp [goTy, slices]
  | map k v => simp [goTy]
  | selector r => cases r <;> simp [goTy, slices]
  | null => exact absurd rfl h

variable {V G : Type}

theorem evalCEL_valueAs (E : Env V G) {t : GoTy} (h : t ≠ .any) (x : Nat) : evalCEL E t x = match valueAs E t x with
    | some g => .ok (some g)
    | none => .err := by
  unfold evalCEL valueAs
  cases E.eval x with
  | none => rfl
  | some o => cases o with
    | none => simp [h]
    | null => simp [h]
    | val v =>
      simp only [h, if_false]
      cases E.native t v <;> rfl

/-- The state after an assignment. -/
def put (st : State G) : Asg G → State G
  | .field n x => ⟨fun m => if m = toPublicGoVariable n then some x else st.fields m, st.oneofs⟩
  | .member o n x => ⟨st.fields, fun m => if m = toPublicGoVariable o then some (toPublicGoVariable n, x) else st.oneofs m⟩

def puts (st : State G) : List (Asg G) → State G
  | [] => st
  | a :: as => puts (put st a) as

theorem puts_append (as bs : List (Asg G)) : ∀ st : State G, puts st (as ++ bs) = puts (puts st as) bs := by
  induction as with
  | nil => intro st; rfl
  | cons a as ih => intro st; exact ih (put st a)

/-- The code does what is given. -/
def Does (E : Env V G) (c : Code) (r : Option (List (Asg G))) : Prop :=
  ∀ st, runCode E c st = match r with
    | some as => .ok (puts st as)
    | none => .err

theorem runAll_does {α : Type} (E : Env V G) (one : α → Option (List (Asg G))) (code : α → Option Code) :
    ∀ (l : List α) (cs : List Code), (∀ a ∈ l, ∀ c, code a = some c → Does E c (one a)) →
      l.map code = cs.map some → ∀ st, runAll E cs st = match allGive one l with
        | some as => .ok (puts st as)
        | none => .err := by
  intro l
  induction l with
  | nil =>
    intro cs _ h st
    cases cs with
    | nil => rfl
    | cons c cs => simp at h
  | cons a l ih =>
    intro cs hd h st
    cases cs with
    | nil => simp at h
    | cons c cs =>
      simp only [List.map_cons, List.cons.injEq] at h
      simp only [runAll, hd a (by simp) c h.1 st, allGive]
      cases one a with
      | none => rfl
      | some x =>
        simp only [ih cs (fun b hb => hd b (by simp [hb])) h.2]
        cases allGive one l with
        | none => rfl
        | some xs => simp [puts_append]

theorem arguments_map (m : Option (List Field)) : ∀ (l : List Arg) (cs : List Code), arguments m l = some cs →
    l.map (argument m) = cs.map some := by
  intro l
  induction l with
  | nil => intro cs h; simp only [arguments, Option.some.injEq] at h; subst h; rfl
  | cons a l ih =>
    intro cs h
    simp only [arguments] at h
    cases h1 : argument m a with
    | none => rw [h1] at h; cases h2 : arguments m l <;> simp at h
    | some c =>
      cases h2 : arguments m l with
      | none => rw [h1, h2] at h; simp at h
      | some cs' =>
        rw [h1, h2] at h
        simp only [Option.some.injEq] at h
        subst h
        simp [h1, ih cs' h2]

theorem arguments_some (m : Option (List Field)) : ∀ (l : List Arg), (∀ a ∈ l, ∃ c, argument m a = some c) →
    ∃ cs, arguments m l = some cs := by
  intro l
  induction l with
  | nil => intro _; exact ⟨[], rfl⟩
  | cons a l ih =>
    intro h
    obtain ⟨c, hc⟩ := h a (by simp)
    obtain ⟨cs, hcs⟩ := ih fun b hb => h b (by simp [hb])
    exact ⟨c :: cs, by simp [arguments, hc, hcs]⟩

/-! ### Reading the state -/

theorem fields_puts (P : Name → Prop) (hinj : ∀ a b, P a → P b → toPublicGoVariable a = toPublicGoVariable b → a = b) {n : Name}
    (hn : P n) : ∀ (as : List (Asg G)) (st : State G), (∀ m x, .field m x ∈ as → P m) →
      (puts st as).fields (toPublicGoVariable n) = (lastField n as).or (st.fields (toPublicGoVariable n)) := by
  intro as
  induction as with
  | nil => intro st _; rfl
  | cons a as ih =>
    intro st hP
    simp only [puts]
    rw [ih _ fun m x h => hP m x (by simp [h])]
    unfold lastField
    cases a with
    | member o m x => simp [put]
    | field m x =>
      simp only [put, List.filterMap_cons]
      by_cases e : m = n
      · subst e
        simp only [if_true]
        cases h : (as.filterMap _).getLast? with
        | none => rw [List.getLast?_eq_none_iff] at h; simp [h]
        | some y => rw [List.getLast?_cons, h]; rfl
      · have : ¬ toPublicGoVariable n = toPublicGoVariable m := fun e' => e (hinj _ _ hn (hP m x (by simp)) e').symm
        simp [e, this]

theorem oneofs_puts (P : Name → Prop) (hinj : ∀ a b, P a → P b → toPublicGoVariable a = toPublicGoVariable b → a = b) {n : Name}
    (hn : P n) : ∀ (as : List (Asg G)) (st : State G), (∀ o m x, .member o m x ∈ as → P o) →
      (puts st as).oneofs (toPublicGoVariable n) =
        ((lastMember n as).map fun (m, x) => (toPublicGoVariable m, x)).or (st.oneofs (toPublicGoVariable n)) := by
  intro as
  induction as with
  | nil => intro st _; rfl
  | cons a as ih =>
    intro st hP
    simp only [puts]
    rw [ih _ fun o m x h => hP o m x (by simp [h])]
    unfold lastMember
    cases a with
    | field m x => simp [put]
    | member o m x =>
      simp only [put, List.filterMap_cons]
      by_cases e : o = n
      · subst e
        simp only [if_true]
        cases h : (as.filterMap _).getLast? with
        | none => rw [List.getLast?_eq_none_iff] at h; simp [h]
        | some y => rw [List.getLast?_cons, h]; rfl
      · have : ¬ toPublicGoVariable n = toPublicGoVariable o := fun e' => e (hinj _ _ hn (hP o m x (by simp)) e').symm
        simp [e, this]

end Verif.SetArg
