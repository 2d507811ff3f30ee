import Verif.Unfinished.Props

/-!
# C114: unfinished variables of services

`resolveServiceVariables` and `resolveServiceVariable` (`resolver/resolver.go` lines 2095-2261), `resolveServiceVariableExpr` and
`resolveServiceVariableValidationExpr` (`resolver/resolver.go` lines 2263-2302), as far as they may panic; the functions for
messages and maps are those of the definitions of messages.  Later steps skip what is missing (`resolver/service.go` lines
66-78 and 176-188, `resolver/resolver.go` lines 4632-4642).  Simplification: the environment of the service can be made (line
2102) and extended (line 2118).
-/

namespace Verif.Unfinished

/-- The expression of a variable of a service, the cases of `resolver/resolver.go` lines 2264-2275. -/
inductive SExpr where
  | missing
  | by (e : String)
  | map (iter src : String) (e : MapE)
  | message (m : MsgE)
  | enum (by' : String)
  | validation (cond msg : String)
deriving DecidableEq, Repr

/-- `ServiceVariable` as it is written; absent texts are empty. -/
structure SVar where
  name : String
  cond : String
  expr : SExpr
deriving DecidableEq, Repr

def SExpr.isValidation : SExpr → Bool
  | .validation _ _ => true
  | _ => false

/-- The names and types of the variables so far. -/
def Seen.names (seen : Seen) : List String := seen.map (·.1)

/-- The part of `resolveServiceVariable` after the conditions, `resolver/resolver.go` lines 2191-2260: line 2193 reads `By` of an
expression that is nil if it is missing.  The inner result is `none` if the variable is dropped.  The context has no message
(`resolver/resolver.go` lines 1278-1283 and 1291).  `str` says whether a type is that of strings. -/
def svcExpr (W : World) (str : Ty → Bool) (env : Env) (seen : Seen) : SExpr → Option (Option (Option Ty))
  | .missing => none
  | .by e => match W.check env e with
    | none => some none
    | some (t, _) => some (some (some t))
  | .message m => (resolveMsg W false m).map fun r => some (celMsg W env r).2
  | .enum _ => some (some (some ⟨.enum, false⟩))
  | .map it s e => match resolveMapE W false e with
    | none => none
    | some r => (celMap W env seen it (resolveSrc seen.names s) r).map fun p => some p.2
  | .validation c m =>
    if c = "" ∨ m = "" then some (some none)
    else match W.check env c with
      | none => some none
      | some (t, _) => if t.kind ≠ .bool then some none else match W.check env m with
        | none => some none
        | some (t', _) => if str t' then some (some (some ⟨.bool, false⟩)) else some none

/-- `resolveServiceVariable`, `resolver/resolver.go` lines 2137-2261.  A variable with a condition is dropped whether the
condition is accepted (line 2187) or not (line 2175). -/
def svcVar (W : World) (str : Ty → Bool) (env : Env) (seen : Seen) (v : SVar) : Option (Option (Option Ty)) :=
  if v.name = "" ∧ v.expr.isValidation = false then some none
  else if v.name ≠ "" ∧ W.valid v.name = false then some none
  else if v.name ∈ seen.names then some none
  else if v.cond ≠ "" then some none
  else svcExpr W str env seen v.expr

/-- The loop of `resolveServiceVariables`, `resolver/resolver.go` lines 2112-2133. -/
def svcRun (W : World) (str : Ty → Bool) (env : Env) (seen : Seen) : List SVar → Option Unit
  | [] => some ()
  | v :: vs => match svcVar W str env seen v with
    | none => none
    | some none => svcRun W str env seen vs
    | some (some t) => svcRun W str (extend env v.name t) ((v.name, t) :: seen) vs

/-! ## Specification -/

/-- Nothing is missing in the expression, and the message it asks for exists. -/
def SExpr.finished (W : World) : SExpr → Bool
  | .missing => false
  | .message m => (W.message m.name).isSome
  | .map _ _ .missing => false
  | .map _ _ (.message m) => (W.message m.name).isSome
  | _ => true

/-- The first mistake in a list of variables is in the expression of this one: it has a new name that is allowed and no
condition, and the variables before are finished. -/
structure FirstMistake (W : World) (pre : List SVar) (v : SVar) : Prop where
  before : ∀ u ∈ pre, u.expr.finished W = true
  named : v.name ≠ ""
  allowed : W.valid v.name = true
  fresh : ∀ u ∈ pre, u.name ≠ v.name
  unconditional : v.cond = ""

/-! ## Lemmas -/

theorem celMapE_some (W : World) (env : Env) {r : RMapE} (h : r ≠ .nil) : ∃ p, celMapE W env r = some p := by
  cases r with
  | nil => exact absurd rfl h
  | «by» v => exact ⟨_, rfl⟩
  | message m => exact ⟨_, rfl⟩
  | enum v => exact ⟨_, rfl⟩

theorem celMap_some (W : World) (env : Env) (seen : Seen) (it : String) (src : Option String) {r : RMapE} (h : r ≠ .nil) :
    ∃ p, celMap W env seen it src r = some p := by
  unfold celMap
  cases (if it = "" then none else src) with
  | none =>
    obtain ⟨p, hp⟩ := celMapE_some W env h
    exact ⟨mapTy it src p, by simp [hp]⟩
  | some s =>
    cases hf : seen.find s with
    | none => exact ⟨(.map it src r, none), by simp [hf]⟩
    | some t =>
      cases ht : t.repeated with
      | false => exact ⟨(.map it src r, none), by simp [hf, ht]⟩
      | true =>
        obtain ⟨p, hp⟩ := celMapE_some W ((it, ⟨t.kind, false⟩) :: env) h
        exact ⟨mapTy it src p, by simp [hf, ht, hp]⟩

theorem svcExpr_some (W : World) (str : Ty → Bool) (env : Env) (seen : Seen) (e : SExpr) (h : e.finished W = true) :
    ∃ r, svcExpr W str env seen e = some r := by
  cases e with
  | missing => cases h
  | «by» e =>
    cases hc : W.check env e with
    | none => exact ⟨_, by simp only [svcExpr, hc]; rfl⟩
    | some p => exact ⟨_, by simp only [svcExpr, hc]; rfl⟩
  | message m =>
    obtain ⟨f, hf⟩ := Option.isSome_iff_exists.1 h
    exact ⟨_, by simp only [svcExpr, resolveMsg, hf]; rfl⟩
  | enum b => exact ⟨_, rfl⟩
  | map it s e =>
    have hre : ∃ r, resolveMapE W false e = some r ∧ r ≠ .nil := by
      cases e with
      | missing => cases h
      | «by» e => exact ⟨_, rfl, by simp⟩
      | message m =>
        obtain ⟨f, hf⟩ := Option.isSome_iff_exists.1 h
        exact ⟨_, by simp only [resolveMapE, resolveMsg, hf]; rfl, by simp⟩
      | enum b => exact ⟨_, rfl, by simp⟩
    obtain ⟨r, hr, hne⟩ := hre
    obtain ⟨p, hp⟩ := celMap_some W env seen it (resolveSrc seen.names s) hne
    exact ⟨_, by simp only [svcExpr, hr, hp]; rfl⟩
  | validation c m =>
    simp only [svcExpr]
    repeat' split
    all_goals exact ⟨_, rfl⟩

theorem svcVar_some (W : World) (str : Ty → Bool) (env : Env) (seen : Seen) (v : SVar) (h : v.expr.finished W = true) :
    ∃ r, svcVar W str env seen v = some r := by
  unfold svcVar
  split
  · exact ⟨_, rfl⟩
  · split
    · exact ⟨_, rfl⟩
    · split
      · exact ⟨_, rfl⟩
      · split
        · exact ⟨_, rfl⟩
        · exact svcExpr_some W str env seen v.expr h

theorem svcVar_reached {W : World} {str : Ty → Bool} {env : Env} {seen : Seen} {v : SVar} (h1 : v.name ≠ "")
    (h2 : W.valid v.name = true) (h3 : v.name ∉ seen.names) (h4 : v.cond = "") :
    svcVar W str env seen v = svcExpr W str env seen v.expr := by
  unfold svcVar
  rw [if_neg (by simp [h1]), if_neg (by simp [h2]), if_neg h3, if_neg (by simp [h4])]

/-- If the first mistake panics whatever the variables before have made of the environment, so does the run. -/
theorem run_first (W : World) (str : Ty → Bool) (pre post : List SVar) (v : SVar) (h : FirstMistake W pre v)
    (hv : ∀ env seen, svcExpr W str env seen v.expr = none) :
    ∀ env seen, v.name ∉ Seen.names seen → svcRun W str env seen (pre ++ v :: post) = none := by
  obtain ⟨hbefore, h1, h2, hfresh, h4⟩ := h
  induction pre with
  | nil =>
    intro env seen hs
    show svcRun W str env seen (v :: post) = none
    unfold svcRun
    rw [svcVar_reached h1 h2 hs h4, hv]
  | cons u pre ih =>
    intro env seen hs
    have ih' := ih (fun x hx => hbefore x (List.mem_cons_of_mem _ hx)) (fun x hx => hfresh x (List.mem_cons_of_mem _ hx))
    show svcRun W str env seen (u :: (pre ++ v :: post)) = none
    obtain ⟨r, hr⟩ := svcVar_some W str env seen u (hbefore u (List.mem_cons_self ..))
    unfold svcRun
    rw [hr]
    cases r with
    | none => exact ih' env seen hs
    | some t =>
      refine ih' _ _ ?_
      show v.name ∉ u.name :: Seen.names seen
      intro hm
      rcases List.mem_cons.1 hm with hm | hm
      · exact hfresh u (List.mem_cons_self ..) hm.symm
      · exact hs hm

/-! ## Theorems -/

/-- **C114** for services (partial: nothing is missing in the expressions). The variables of a service never make the resolver
panic, whatever else is wrong with them: names, conditions, rejected expressions, undefined sources, incomplete validations. -/
theorem C114_service_partial (W : World) (str : Ty → Bool) (env : Env) (vs : List SVar)
    (h : ∀ v ∈ vs, v.expr.finished W = true) : svcRun W str env [] vs = some () := by
  have key : ∀ (vs : List SVar), (∀ v ∈ vs, v.expr.finished W = true) → ∀ env seen, svcRun W str env seen vs = some () := by
    intro vs
    induction vs with
    | nil => intros; rfl
    | cons v vs ih =>
      intro h env seen
      obtain ⟨r, hr⟩ := svcVar_some W str env seen v (h v (List.mem_cons_self ..))
      have ih' := ih fun u hu => h u (List.mem_cons_of_mem _ hu)
      unfold svcRun
      rw [hr]
      cases r with
      | none => exact ih' _ _
      | some t => exact ih' _ _
  exact key vs h env []

/-- A variable with a name and nothing else makes the resolver panic, wherever it is in a finished service. -/
theorem C114_service_missing_panics (W : World) (str : Ty → Bool) (env : Env) (pre post : List SVar) (v : SVar)
    (h : FirstMistake W pre v) (he : v.expr = .missing) : svcRun W str env [] (pre ++ v :: post) = none :=
  run_first W str pre post v h (fun _ _ => by rw [he]; rfl) env [] (by simp [Seen.names])

/-- So does a message that does not exist, also in a map. -/
theorem C114_service_message_panics (W : World) (str : Ty → Bool) (env : Env) (pre post : List SVar) (v : SVar)
    (h : FirstMistake W pre v) (m : MsgE) (hm : W.message m.name = none)
    (he : v.expr = .message m ∨ ∃ it s, v.expr = .map it s (.message m)) :
    svcRun W str env [] (pre ++ v :: post) = none := by
  refine run_first W str pre post v h (fun env seen => ?_) env [] (by simp [Seen.names])
  rcases he with he | ⟨it, s, he⟩
  · rw [he]; simp [svcExpr, resolveMsg, hm]
  · rw [he]; simp [svcExpr, resolveMapE, resolveMsg, hm]

/-- So does a map without expression and without iterator name or source. -/
theorem C114_service_map_panics (W : World) (str : Ty → Bool) (env : Env) (pre post : List SVar) (v : SVar)
    (h : FirstMistake W pre v) (it s : String) (hi : it = "" ∨ s = "") (he : v.expr = .map it s .missing) :
    svcRun W str env [] (pre ++ v :: post) = none := by
  refine run_first W str pre post v h (fun env seen => ?_) env [] (by simp [Seen.names])
  rw [he]
  have : (if it = "" then none else resolveSrc seen.names s) = none := by
    rcases hi with hi | hi
    · rw [if_pos hi]
    · unfold resolveSrc; rw [if_pos hi]; exact ite_self _
  simp [svcExpr, resolveMapE, celMap, this, celMapE]

/-! ## Example -/

/-- A world with one message, in which every expression is a boolean and every name is allowed. -/
def svcWorld : World := ⟨fun n => if n = "User" then some ⟨n, true⟩ else none, fun _ => none, fun _ => true,
  fun _ _ => some (⟨.bool, false⟩, [])⟩

/-- A finished service with a message, a map over an undefined variable, a condition and an incomplete validation. -/
def svcOk : List SVar := [⟨"u", "", .message ⟨"User", [⟨"id", none, none⟩]⟩⟩, ⟨"m", "", .map "i" "nothing" (.by "i")⟩,
  ⟨"c", "true", .by "x"⟩, ⟨"", "", .validation "" "no"⟩]

example : svcRun svcWorld (fun _ => true) [] [] svcOk = some () :=
  C114_service_partial _ _ _ _ (by decide)

example : svcRun svcWorld (fun _ => true) [] [] (svcOk ++ [⟨"x", "", .missing⟩]) = none :=
  C114_service_missing_panics _ _ _ svcOk [] ⟨"x", "", .missing⟩ ⟨by decide, by decide, rfl, by decide, rfl⟩ rfl

example : svcRun svcWorld (fun _ => true) [] [] (svcOk ++ [⟨"x", "", .message ⟨"Usr", []⟩⟩]) = none :=
  C114_service_message_panics _ _ _ svcOk [] ⟨"x", "", .message ⟨"Usr", []⟩⟩ ⟨by decide, by decide, rfl, by decide, rfl⟩
    ⟨"Usr", []⟩ (by decide) (.inl rfl)

end Verif.Unfinished
