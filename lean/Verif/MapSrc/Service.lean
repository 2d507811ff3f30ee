import Verif.MapSrc.Props

/-!
# C73: sources of maps in the variables of services

Models `resolveRule`, `resolveServiceRules`, `resolveServiceRule` and `resolveServiceVariables` (`resolver/resolver.go` lines
1276-1295, 1896-1907 and 2095-2135) as far as they find the sources of map iterators.  The variables are kept in a map of the
context; the context of a file is a copy of the first one that shares its map (`resolver/resolver.go` line 1278,
`resolver/context.go` lines 27-46) until another map is put in its place (`resolver/context.go` lines 78-80).
-/

namespace Verif.MapSrc

/-- A variable of a service: its name, the source of its map iterator if it is a map, and whether it is kept
(`resolveServiceVariable`, `resolver/resolver.go` lines 2137-2261, returns nil for a variable with a name that is not allowed or
already used, or with a condition; the expression is not looked at then). -/
structure SVar where
  name : Nat
  src : Option Nat
  kept : Bool
deriving DecidableEq, Repr

/-- A service: its variables if it has options. -/
abbrev Svc := Option (List SVar)

/-- The loop of `resolveServiceVariables`, `resolver/resolver.go` lines 2112-2133, with `resolveMapIterator`, lines 2482-2515: the
sources that are not found, and the map after the loop. -/
def svcVars (vars : List Nat) : List SVar → List Nat × List Nat
  | [] => ([], vars)
  | v :: vs =>
    if v.kept then
      let (r, m) := svcVars (v.name :: vars) vs
      (lookup vars v.src ++ r, m)
    else svcVars vars vs

/-- The map of the context of a file: the one of the first context, or its own. -/
inductive Own where
  | shared
  | own (m : List Nat)

/-- `resolveServiceRules`, `resolver/resolver.go` lines 1287-1295, with `resolveServiceRule`, lines 1896-1907: `base` is the map of
the first context.  Variables are added to the map that the file's context has at that time; line 1902 then gives the file's
context another map and leaves the old one as it is. -/
def services (base : List Nat) (cur : Own) : List Svc → List Nat × List Nat
  | [] => ([], base)
  | none :: ss => services base cur ss
  | some vs :: ss => match cur with
    | .shared =>
      let (r, m) := svcVars base vs
      let (r', b) := services m (.own []) ss
      (r ++ r', b)
    | .own c =>
      let (r, _) := svcVars c vs
      let (r', b) := services base (.own []) ss
      (r ++ r', b)

/-- `resolveRule`, `resolver/resolver.go` lines 1276-1285: the sources that are reported.  Messages add their variables to maps of
their own (line 2427). -/
def reportedIn (base : List Nat) : List (List Svc) → List Nat
  | [] => []
  | f :: fs =>
    let (r, b) := services base .shared f
    r ++ reportedIn b fs

/-- The sources that the resolver reports for the services of all files. -/
def reportedSvc (files : List (List Svc)) : List Nat := reportedIn [] files

/-! ## Specification -/

/-- The sources of a service that are none of its variables before. -/
def wrongVars (before : List Nat) : List SVar → List Nat
  | [] => []
  | v :: vs => if v.kept then (v.src.toList.filter fun s => !before.contains s) ++ wrongVars (before ++ [v.name]) vs
    else wrongVars before vs

/-- Those of all services of all files. -/
def wrongSvc (files : List (List Svc)) : List Nat := files.flatMap fun f => f.flatMap fun s => wrongVars [] (s.getD [])

/-- The file has a service with variables. -/
def declares (f : List Svc) : Prop := ∃ s ∈ f, s.getD [] ≠ []

/-! ## Lemmas -/

theorem lookup_before (vars before : List Nat) (src : Option Nat) (h : ∀ s, s ∈ vars ↔ s ∈ before) :
    lookup vars src = src.toList.filter fun s => !before.contains s := by
  cases src with
  | none => rfl
  | some s => by_cases hs : s ∈ before <;> simp [lookup, h, hs]

theorem svcVars_eq (vs : List SVar) : ∀ (vars before : List Nat), (∀ s, s ∈ vars ↔ s ∈ before) →
    (svcVars vars vs).1 = wrongVars before vs := by
  induction vs with
  | nil => intros; rfl
  | cons v vs ih =>
    intro vars before h
    unfold svcVars wrongVars
    cases hk : v.kept with
    | false => simpa using ih vars before h
    | true =>
      simp only [if_true]
      rw [lookup_before vars before v.src h, ih (v.name :: vars) (before ++ [v.name])]
      intro s
      simp [h s, or_comm]

theorem svcVars_sub (vs : List SVar) : ∀ (vars before : List Nat), (∀ s ∈ before, s ∈ vars) →
    ∀ s ∈ (svcVars vars vs).1, s ∈ wrongVars before vs := by
  induction vs with
  | nil => intro vars before _ s hs; cases hs
  | cons v vs ih =>
    intro vars before h s hs
    unfold svcVars at hs
    unfold wrongVars
    cases hk : v.kept with
    | false => rw [hk] at hs; simpa using ih vars before h s hs
    | true =>
      simp only [hk, if_true] at hs
      simp only [if_true]
      rcases List.mem_append.1 hs with hs | hs
      · refine List.mem_append_left _ ?_
        cases hsrc : v.src with
        | none => rw [hsrc] at hs; cases hs
        | some t =>
          rw [hsrc] at hs
          by_cases ht : t ∈ vars
          · simp [lookup, ht] at hs
          · have : t ∉ before := fun hb => ht (h t hb)
            simp [lookup, ht] at hs
            subst hs
            simp [this]
      · refine List.mem_append_right _ (ih _ _ ?_ s hs)
        intro x hx
        rcases List.mem_append.1 hx with hx | hx
        · exact List.mem_cons_of_mem _ (h x hx)
        · exact List.mem_cons.2 (.inl (by simpa using hx))

theorem services_own (base : List Nat) (ss : List Svc) :
    services base (.own []) ss = (ss.flatMap fun s => wrongVars [] (s.getD []), base) := by
  induction ss with
  | nil => rfl
  | cons s ss ih =>
    cases s with
    | none => unfold services; rw [ih]; simp [wrongVars]
    | some vs =>
      unfold services
      simp only [ih, svcVars_eq vs [] [] (by simp), List.flatMap_cons, Option.getD_some]

theorem services_shared_sub (base : List Nat) : ∀ ss : List Svc,
    ∀ s ∈ (services base .shared ss).1, s ∈ ss.flatMap fun s => wrongVars [] (s.getD [])
  | [] => by intro s hs; cases hs
  | none :: ss => by
    intro s hs
    unfold services at hs
    simpa [wrongVars] using services_shared_sub base ss s hs
  | some vs :: ss => by
    intro s hs
    unfold services at hs
    simp only [services_own] at hs
    rw [List.flatMap_cons]
    rcases List.mem_append.1 hs with hs | hs
    · exact List.mem_append_left _ (svcVars_sub vs base [] (by simp) s hs)
    · exact List.mem_append_right _ hs

theorem services_shared_nil : ∀ ss : List Svc,
    (services [] .shared ss).1 = ss.flatMap fun s => wrongVars [] (s.getD [])
  | [] => rfl
  | none :: ss => by unfold services; rw [services_shared_nil ss]; simp [wrongVars]
  | some vs :: ss => by
    unfold services
    simp only [services_own, svcVars_eq vs [] [] (by simp), List.flatMap_cons, Option.getD_some]

theorem services_none (base : List Nat) : ∀ ss : List Svc, ¬ declares ss →
    services base .shared ss = ([], base)
  | [], _ => rfl
  | none :: ss, h => by
    unfold services
    exact services_none base ss fun ⟨s, hs, hne⟩ => h ⟨s, List.mem_cons_of_mem _ hs, hne⟩
  | some vs :: ss, h => by
    have hvs : vs = [] := Classical.byContradiction fun hne => h ⟨some vs, List.mem_cons_self .., hne⟩
    subst hvs
    unfold services
    simp only [services_own, svcVars, List.nil_append, Prod.mk.injEq, and_true]
    rw [List.flatMap_eq_nil_iff]
    intro s hs
    have : s.getD [] = [] := Classical.byContradiction fun hne => h ⟨s, List.mem_cons_of_mem _ hs, hne⟩
    rw [this]; rfl

theorem wrong_none (f : List Svc) (h : ¬ declares f) : (f.flatMap fun s => wrongVars [] (s.getD [])) = [] := by
  rw [List.flatMap_eq_nil_iff]
  intro s hs
  have : s.getD [] = [] := Classical.byContradiction fun hne => h ⟨s, hs, hne⟩
  rw [this]; rfl

theorem reportedIn_none (base : List Nat) : ∀ fs : List (List Svc), (∀ f ∈ fs, ¬ declares f) → reportedIn base fs = []
  | [], _ => rfl
  | f :: fs, h => by
    unfold reportedIn
    rw [services_none base f (h f (List.mem_cons_self ..))]
    simpa using reportedIn_none base fs fun g hg => h g (List.mem_cons_of_mem _ hg)

/-! ## Theorems -/

/-- C73 for services: what is reported is wrong, for all files. -/
theorem C73_service_sound (files : List (List Svc)) : ∀ s ∈ reportedSvc files, s ∈ wrongSvc files := by
  have key : ∀ (fs : List (List Svc)) (base : List Nat), ∀ s ∈ reportedIn base fs, s ∈ wrongSvc fs := by
    intro fs
    induction fs with
    | nil => intro base s hs; cases hs
    | cons f fs ih =>
      intro base s hs
      unfold reportedIn at hs
      unfold wrongSvc
      rw [List.flatMap_cons]
      rcases List.mem_append.1 hs with hs | hs
      · exact List.mem_append_left _ (services_shared_sub base f s hs)
      · exact List.mem_append_right _ (ih _ s hs)
  exact key files []

/-- C73 for services (partial: if one file at most has services with variables): exactly the sources that are no variable
of the same service before are reported. -/
theorem C73_service_partial (before after : List (List Svc)) (f : List Svc) (hb : ∀ g ∈ before, ¬ declares g)
    (ha : ∀ g ∈ after, ¬ declares g) : reportedSvc (before ++ f :: after) = wrongSvc (before ++ f :: after) := by
  have hw : ∀ fs : List (List Svc), (∀ g ∈ fs, ¬ declares g) → wrongSvc fs = [] := by
    intro fs h
    unfold wrongSvc
    rw [List.flatMap_eq_nil_iff]
    exact fun g hg => wrong_none g (h g hg)
  have hwrong : wrongSvc (before ++ f :: after) = f.flatMap fun s => wrongVars [] (s.getD []) := by
    have h1 := hw before hb
    have h2 := hw after ha
    unfold wrongSvc at h1 h2 ⊢
    rw [List.flatMap_append, List.flatMap_cons, h1, h2, List.append_nil, List.nil_append]
  rw [hwrong]
  unfold reportedSvc
  induction before with
  | nil =>
    show reportedIn [] (f :: after) = _
    unfold reportedIn
    simp only [reportedIn_none _ after ha, services_shared_nil, List.append_nil]
  | cons g before ih =>
    show reportedIn [] (g :: (before ++ f :: after)) = _
    unfold reportedIn
    rw [services_none [] g (hb g (List.mem_cons_self ..))]
    have hb' : ∀ x ∈ before, ¬ declares x := fun x hx => hb x (List.mem_cons_of_mem _ hx)
    refine (List.nil_append _).trans (ih hb' ?_)
    unfold wrongSvc
    have h1 := hw before hb'
    have h2 := hw after ha
    unfold wrongSvc at h1 h2
    rw [List.flatMap_append, List.flatMap_cons, h1, h2, List.append_nil, List.nil_append]

/-- Two services in a file: the second one takes a variable of the first one as source. -/
example : reportedSvc [[none], [some [⟨1, none, true⟩, ⟨2, some 1, true⟩], some [⟨3, some 1, true⟩]], [some []]] = [1] :=
  (C73_service_partial [[none]] [[some []]] _ (by simp [declares]) (by simp [declares])).trans (by decide)

/-- C73 is false of the code for services in two files: a variable of the service of the first file is found as source of a
variable of the service of the second one, which does not have it. -/
theorem C73_service_false : ¬ ∀ files : List (List Svc), ∀ s ∈ wrongSvc files, s ∈ reportedSvc files := by
  intro h
  have := h [[some [⟨1, none, true⟩]], [some [⟨2, some 1, true⟩]]] 1 (by decide)
  revert this
  decide

/-- In general: the first service with options of a later file finds every variable that the first services of the files before
have, whatever they are. -/
theorem C73_service_leak (v w : SVar) (hv : v.kept = true) (hw : w.kept = true) (hs : w.src = some v.name) (h0 : v.src = none) :
    reportedSvc [[some [v]], [some [w]]] = [] ∧ wrongSvc [[some [v]], [some [w]]] = [v.name] := by
  constructor
  · simp [reportedSvc, reportedIn, services, svcVars, hv, hw, hs, h0, lookup]
  · simp [wrongSvc, wrongVars, hv, hw, hs, h0]

end Verif.MapSrc
