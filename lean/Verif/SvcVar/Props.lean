import Verif.SvcVar.Model

/-! # C47: service variables are kept, C60: types of environment variables -/

namespace Verif.SvcVar

/-! ## C47 -/

/-- A definition checks in an environment, with this type. -/
inductive Checks {E} (ty : Env → E → Option Ty) (env : Env) : Body E → Ty → Prop
  | by {e t} : ty env e = some t → Checks ty env (.by e) t
  | other {e t} : ty env e = some t → Checks ty env (.other e) t
  | validation {c m} : ty env c = some .bool → ty env m = some .string → Checks ty env (.validation c m) .bool

/-- The variables `vs` are the definitions `ds` one by one and in order, each checked with the ones before
it; only validations have no name. -/
inductive Kept {E} (ty : Env → E → Option Ty) : Env → List (Def E) → List (Var E) → Prop
  | nil {env} : Kept ty env [] []
  | named {env d t ds vs} : d.name ≠ "" → Checks ty env d.body t →
      Kept ty (env ++ [(d.name, t)]) ds vs → Kept ty env (d :: ds) (⟨d.name, d.body, some t⟩ :: vs)
  | unnamed {env d c m t ds vs} : d.name = "" → d.body = .validation c m → Checks ty env d.body t →
      Kept ty env ds vs → Kept ty env (d :: ds) (⟨"", d.body, some t⟩ :: vs)

theorem validation_of {E} {b : Body E} (h : isValidation b = true) : ∃ c m, b = .validation c m := by
  cases b with
  | «by» e => cases h
  | other e => cases h
  | validation c m => exact ⟨c, m, rfl⟩

theorem resolveBody_ok {E} (ty : Env → E → Option Ty) (env : Env) (name : Name) (b : Body E)
    (h : (resolveBody ty env name b).2 = []) : ∃ t, (resolveBody ty env name b).1 = some ⟨name, b, some t⟩ ∧ Checks ty env b t := by
  cases b with
  | «by» e =>
    simp only [resolveBody] at h ⊢
    cases he : ty env e with
    | none => rw [he] at h; cases h
    | some t => exact ⟨t, rfl, .by he⟩
  | other e =>
    simp only [resolveBody] at h ⊢
    cases he : ty env e with
    | none => rw [he] at h; cases h
    | some t => exact ⟨t, rfl, .other he⟩
  | validation c m =>
    simp only [resolveBody] at h ⊢
    cases hc : ty env c with
    | none => rw [hc] at h; cases h
    | some t =>
      rw [hc] at h
      by_cases ht : t = .bool
      · subst ht
        simp only [ne_eq, not_true, if_false] at h ⊢
        cases hm : ty env m with
        | none => rw [hm] at h; cases h
        | some t' =>
          rw [hm] at h
          by_cases ht' : t' = .string
          · subst ht'
            simp only [not_true, if_false] at h ⊢
            exact ⟨_, rfl, .validation hc hm⟩
          · simp [ht'] at h
      · simp [ht] at h

/-- C47, what the code does: if no error is reported, the variables are the definitions without `if`, in
order, each checked against the ones before. -/
theorem C47_kept_partial {E} (ty : Env → E → Option Ty) (valid : Name → Bool) (env : Env) (used : List Name) (ds : List (Def E))
    (h : (resolveVars ty valid env used ds).2 = []) :
    Kept ty env (ds.filter (fun d => d.cond.isNone)) (resolveVars ty valid env used ds).1 := by
  induction ds generalizing env used with
  | nil => exact .nil
  | cons d ds ih =>
    cases hc : d.cond with
    | some c =>
      have hr : (resolveVar ty valid env used d).1 = none := by
        unfold resolveVar
        split
        · rfl
        · split
          · rfl
          · split
            · rfl
            · rw [hc]
              simp only
              cases ty env c <;> rfl
      simp only [resolveVars, hr] at h ⊢
      rw [List.append_eq_nil_iff] at h
      rw [List.filter_cons_of_neg (by simp [hc])]
      exact ih env used h.2
    | none =>
      rw [List.filter_cons_of_pos (by simp [hc])]
      have h0 : (resolveVar ty valid env used d).2 = [] := by
        simp only [resolveVars] at h
        cases hr : (resolveVar ty valid env used d).1 with
        | none => rw [hr] at h; simp only [List.append_eq_nil_iff] at h; exact h.1
        | some v => rw [hr] at h; simp only [List.append_eq_nil_iff] at h; exact h.1
      have h1 : resolveVar ty valid env used d = resolveBody ty env d.name d.body := by
        unfold resolveVar at h0 ⊢
        split at h0
        · cases h0
        · rename_i hn
          rw [if_neg hn]
          split at h0
          · cases h0
          · rename_i hv
            rw [if_neg hv]
            split at h0
            · cases h0
            · rename_i hu
              rw [if_neg hu, hc]
      rw [h1] at h0
      obtain ⟨t, hb, hch⟩ := resolveBody_ok ty env d.name d.body h0
      rw [← h1] at hb
      simp only [resolveVars, hb] at h ⊢
      rw [List.append_eq_nil_iff] at h
      by_cases hn : d.name = ""
      · have hv : isValidation d.body = true := by
          cases hi : isValidation d.body with
          | true => rfl
          | false =>
            have : resolveVar ty valid env used d = (none, [.noName]) := by
              unfold resolveVar
              rw [if_pos (by simp [hn, hi])]
            rw [this] at hb
            cases hb
        obtain ⟨c, m, hcm⟩ := validation_of hv
        simp only [hn, ne_eq, not_true, if_false] at h ⊢
        exact .unnamed hn hcm hch (ih _ _ h.2)
      · simp only [hn, ne_eq, not_false_eq_true, if_true] at h ⊢
        exact .named hn hch (ih _ _ h.2)

/-- C47 in plain words for services without `if`: every definition is kept, in order. -/
theorem C47_in_order_partial {E} (ty : Env → E → Option Ty) (valid : Name → Bool) (ds : List (Def E))
    (hif : ∀ d ∈ ds, d.cond = none) (h : (resolveVars ty valid [] [] ds).2 = []) :
    (resolveVars ty valid [] [] ds).1.map (fun v => (v.name, v.body)) = ds.map (fun d => (d.name, d.body)) := by
  have hk := C47_kept_partial ty valid [] [] ds h
  rw [List.filter_eq_self.mpr (fun d hd => by simp [hif d hd])] at hk
  generalize (resolveVars ty valid [] [] ds).1 = vs at hk
  clear h hif
  generalize ([] : Env) = env at hk
  induction hk with
  | nil => rfl
  | named _ _ _ ih => simp [ih]
  | unnamed hn _ _ _ ih => simp [ih, hn]

/-- C47 is false of the code for variables with `if`: whatever the service, a variable with a boolean
`if` disappears without an error. -/
theorem C47_if_dropped_false {E} (ty : Env → E → Option Ty) (c e : E) (hc : ty [] c = some .bool) :
    resolveVars ty (fun _ => true) [] [] [⟨"v", some c, .by e⟩] = ([], []) := by
  simp [resolveVars, resolveVar, hc, isValidation]

/-- C47 is false of the code for two validations without name: the second is rejected as a duplicate. -/
theorem C47_two_validations_false {E} (ty : Env → E → Option Ty) (c m : E) (hc : ∀ env, ty env c = some .bool)
    (hm : ∀ env, ty env m = some .string) :
    (resolveVars ty (fun _ => true) [] [] [⟨"", none, .validation c m⟩, ⟨"", none, .validation c m⟩]).2 = [.duplicate] := by
  simp [resolveVars, resolveVar, resolveBody, hc, hm, isValidation]

/-- C47: definitions that check, with different valid names and without `if`, are accepted (partial: at
most one validation has no name). -/
theorem C47_accepted_partial {E} (ty : Env → E → Option Ty) (valid : Name → Bool) (env : Env) (used : List Name) (ds : List (Def E))
    (vs : List (Var E)) (hk : Kept ty env ds vs) (hif : ∀ d ∈ ds, d.cond = none) (hv : ∀ d ∈ ds, valid d.name = true)
    (hnd : (ds.map (·.name)).Nodup) (hu : ∀ d ∈ ds, d.name ∉ used) : resolveVars ty valid env used ds = (vs, []) := by
  induction hk generalizing used with
  | nil => rfl
  | @named env d t ds vs hn hch hk ih =>
    have e1 : resolveVar ty valid env used d = (some ⟨d.name, d.body, some t⟩, []) := by
      have a1 := hv d (by simp)
      have a2 := hu d (by simp)
      have a3 := hif d (by simp)
      unfold resolveVar
      simp only [hn, a1, a3, Bool.not_true, decide_false, Bool.false_and, Bool.false_eq_true, if_false]
      rw [if_neg (by simpa using a2)]
      generalize d.body = b at hch
      cases hch with
      | «by» h => simp [resolveBody, h]
      | other h => simp [resolveBody, h]
      | validation h1 h2 => simp [resolveBody, h1, h2]
    simp only [List.map_cons, List.nodup_cons] at hnd
    have := ih (used := used ++ [d.name]) (fun x hx => hif x (by simp [hx])) (fun x hx => hv x (by simp [hx])) hnd.2 (by
        intro x hx hc
        rcases List.mem_append.mp hc with hc | hc
        · exact hu x (by simp [hx]) hc
        · simp only [List.mem_singleton] at hc
          exact hnd.1 (List.mem_map.mpr ⟨x, hx, hc⟩))
    simp only [resolveVars, e1, ne_eq, hn, not_false_eq_true, if_true, this, List.append_nil]
  | @unnamed env d c m t ds vs hn hcm hch hk ih =>
    have e1 : resolveVar ty valid env used d = (some ⟨"", d.body, some t⟩, []) := by
      have a1 := hv d (by simp)
      have a2 := hu d (by simp)
      have a3 := hif d (by simp)
      have a4 : isValidation d.body = true := by rw [hcm]; rfl
      rw [hn] at a1 a2
      unfold resolveVar
      simp only [hn, a1, a3, a4, Bool.not_true, Bool.and_false, Bool.false_eq_true, if_false]
      rw [if_neg (by simpa using a2)]
      generalize d.body = b at hch
      cases hch with
      | «by» h => simp [resolveBody, h]
      | other h => simp [resolveBody, h]
      | validation h1 h2 => simp [resolveBody, h1, h2]
    simp only [List.map_cons, List.nodup_cons] at hnd
    have := ih (used := used ++ [""]) (fun x hx => hif x (by simp [hx])) (fun x hx => hv x (by simp [hx])) hnd.2 (by
        intro x hx hc
        rcases List.mem_append.mp hc with hc | hc
        · exact hu x (by simp [hx]) hc
        · simp only [List.mem_singleton] at hc
          exact hnd.1 (List.mem_map.mpr ⟨x, hx, by rw [hc, hn]⟩))
    simp only [resolveVars, e1, ne_eq, not_true, if_false, this, List.append_nil]

/-- Three variables, the last one uses the first. -/
def exTy : Env → String → Option Ty := fun env e =>
  if e = "x" then (env.find? (fun v => v.1 == "x")).map (·.2) else if e = "true" then some .bool else some .string

example : (resolveVars exTy (fun _ => true) [] [] [⟨"x", none, .by "true"⟩, ⟨"", none, .validation "x" "m"⟩, ⟨"y", none, .by "x"⟩]).1.map
    (fun v => (v.name, v.ty)) = [("x", some .bool), ("", some .bool), ("y", some .bool)] := by decide
example : (resolveVars exTy (fun _ => true) [] [] [⟨"y", none, .by "x"⟩, ⟨"x", none, .by "true"⟩]).2 = [.badExpr] := by decide

/-! ## C60 -/

/-- What a resolved type stands for. -/
def meaning : RTy → EnvTy
  | .scalar k false => .kind (some k)
  | .scalar k true => .repeated (.kind (some k))
  | .map k v => .map (meaning k) (meaning v)

/-- Lists are lists of scalars. -/
def simpleLists : EnvTy → Bool
  | .kind _ => true
  | .repeated (.kind _) => true
  | .repeated _ => false
  | .map k v => simpleLists k && simpleLists v
  | .unset => true

/-- C60 (partial: lists of scalars only): an accepted type is the declared one. -/
theorem C60_as_declared_partial (t : EnvTy) (hs : simpleLists t = true) (r : RTy) (h : resolveEnvType t false = some r) :
    meaning r = t := by
  induction t generalizing r with
  | kind k => cases k with
    | none => cases h
    | some k => simp only [resolveEnvType, Option.some.injEq] at h; subst h; rfl
  | unset => cases h
  | repeated t _ =>
    cases t with
    | kind k => cases k with
      | none => cases h
      | some k => simp only [resolveEnvType, Option.some.injEq] at h; subst h; rfl
    | repeated _ => simp [simpleLists] at hs
    | map _ _ => simp [simpleLists] at hs
    | unset => simp [simpleLists] at hs
  | map k v ihk ihv =>
    simp only [simpleLists, Bool.and_eq_true] at hs
    simp only [resolveEnvType] at h
    cases hk : resolveEnvType k false with
    | none => rw [hk] at h; cases h
    | some k' =>
      rw [hk] at h
      simp only at h
      cases hv : resolveEnvType v false with
      | none => rw [hv] at h; cases h
      | some v' =>
        rw [hv] at h
        simp only [Option.some.injEq] at h
        subst h
        rw [meaning, ihk hs.1 k' hk, ihv hs.2 v' hv]

/-- C60: declared types of this form with supported kinds are accepted. -/
theorem C60_accepted (t : RTy) : resolveEnvType (meaning t) false = some t := by
  induction t with
  | scalar k r => cases r <;> rfl
  | map k v ihk ihv => simp [meaning, resolveEnvType, ihk, ihv]

/-- C60 is false of the code for lists of maps and lists of lists: they are accepted as a map and as a
list. -/
theorem C60_lists_false (k v : Nat) :
    resolveEnvType (.repeated (.map (.kind (some k)) (.kind (some v)))) false =
      resolveEnvType (.map (.kind (some k)) (.kind (some v))) false ∧
    resolveEnvType (.repeated (.repeated (.kind (some k)))) false = resolveEnvType (.repeated (.kind (some k))) false ∧
    (resolveEnvType (.repeated (.map (.kind (some k)) (.kind (some v)))) false).isSome = true ∧
    (resolveEnvType (.repeated (.repeated (.kind (some k)))) false).isSome = true := ⟨rfl, rfl, rfl, rfl⟩

example : resolveEnvType (.map (.kind (some 9)) (.repeated (.kind (some 3)))) false = some (.map (.scalar 9 false) (.scalar 3 true)) := rfl

end Verif.SvcVar
