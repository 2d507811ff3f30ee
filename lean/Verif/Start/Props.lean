import Verif.Start.Model

/-!
# C107: a server starts with all that it needs
-/

namespace Verif.Start

/-! ## Helper lemmas -/

theorem valueOf_append {V : Type} (given : List (Name × V)) (n : Name) (v : V) :
    valueOf (given ++ [(n, v)]) = fun x => if n == x then some v else valueOf given x := by
  funext x
  simp only [valueOf, List.reverse_append, List.reverse_cons, List.reverse_nil, List.nil_append, List.cons_append,
    List.find?_cons]
  cases h : (n == x) <;> simp

theorem initVars_ok {E V : Type} (env : Option E) (ds : List (Def E V)) (given : List (Name × V)) (st : Name → Option V) :
    initVars env ds (valueOf given) = .ok st ↔ ∃ after, Gives env given ds after ∧ st = valueOf after := by
  induction ds generalizing given with
  | nil =>
    rw [initVars]
    constructor
    · intro h; cases h; exact ⟨given, .nil, rfl⟩
    · rintro ⟨after, h, rfl⟩; cases h; rfl
  | cons d ds ih =>
    cases d with
    | define n c e z =>
      rw [initVars]
      cases c with
      | none =>
        simp only [holds]
        cases he : e env (valueOf given) with
        | none =>
          constructor
          · intro h; simp at h
          · rintro ⟨after, h, _⟩
            cases h with
            | always h _ => rw [he] at h; cases h
        | some v =>
          simp only [← valueOf_append, ih]
          constructor
          · rintro ⟨after, h, rfl⟩; exact ⟨after, .always he h, rfl⟩
          · rintro ⟨after, h, rfl⟩
            cases h with
            | always h h' => rw [he] at h; cases h; exact ⟨after, h', rfl⟩
      | some c =>
        simp only [holds]
        cases hc : c env (valueOf given) with
        | none =>
          constructor
          · intro h; simp at h
          · rintro ⟨after, h, _⟩
            cases h with
            | holds h _ _ => rw [hc] at h; cases h
            | zero h _ => rw [hc] at h; cases h
        | some b =>
          cases b with
          | false =>
            simp only [← valueOf_append, ih]
            constructor
            · rintro ⟨after, h, rfl⟩; exact ⟨after, .zero hc h, rfl⟩
            · rintro ⟨after, h, rfl⟩
              cases h with
              | holds h _ _ => rw [hc] at h; cases h
              | zero _ h => exact ⟨after, h, rfl⟩
          | true =>
            simp only
            cases he : e env (valueOf given) with
            | none =>
              constructor
              · intro h; simp at h
              · rintro ⟨after, h, _⟩
                cases h with
                | holds _ h _ => rw [he] at h; cases h
                | zero h _ => rw [hc] at h; cases h
            | some v =>
              simp only [← valueOf_append, ih]
              constructor
              · rintro ⟨after, h, rfl⟩; exact ⟨after, .holds hc he h, rfl⟩
              · rintro ⟨after, h, rfl⟩
                cases h with
                | holds _ h h' => rw [he] at h; cases h; exact ⟨after, h', rfl⟩
                | zero h _ => rw [hc] at h; cases h
    | validation c m =>
      rw [initVars]
      cases hc : c env (valueOf given) with
      | none =>
        constructor
        · intro h; simp at h
        · rintro ⟨after, h, _⟩
          cases h with
          | passes h _ => rw [hc] at h; cases h
      | some b =>
        cases b with
        | false =>
          simp only [ih]
          constructor
          · rintro ⟨after, h, rfl⟩; exact ⟨after, .passes hc h, rfl⟩
          · rintro ⟨after, h, rfl⟩
            cases h with
            | passes _ h => exact ⟨after, h, rfl⟩
        | true =>
          constructor
          · intro h; cases hm : m env (valueOf given) <;> simp [hm] at h
          · rintro ⟨after, h, _⟩
            cases h with
            | passes h _ => rw [hc] at h; cases h

theorem valueOf_nil {V : Type} : (valueOf ([] : List (Name × V))) = fun _ => none := rfl

theorem initVars_prefix {E V : Type} (env : Option E) (ds ds' : List (Def E V)) (given after : List (Name × V))
    (h : Gives env given ds after) : initVars env (ds ++ ds') (valueOf given) = initVars env ds' (valueOf after) := by
  induction h with
  | nil => rfl
  | always h1 _ ih => rw [List.cons_append, initVars]; simp only [Start.holds, h1, ← valueOf_append]; exact ih
  | holds h1 h2 _ ih => rw [List.cons_append, initVars]; simp only [Start.holds, h1, h2, ← valueOf_append]; exact ih
  | zero h1 _ ih => rw [List.cons_append, initVars]; simp only [Start.holds, h1, ← valueOf_append]; exact ih
  | passes h1 _ ih => rw [List.cons_append, initVars]; simp only [h1]; exact ih

/-- The events of asking for clients, in order. -/
def asks (ds : List (Name × Name)) : List Event := ds.map fun d => .ask d.1 d.2

theorem askAll_ok {C : Type} (client : Name → Name → Option C) (ds : List (Name × Name)) (es : List Event) (cs : List C) :
    (askAll client ds es).2 = some cs ↔ ds.map (fun d => client d.1 d.2) = cs.map some := by
  induction ds generalizing es cs with
  | nil => cases cs <;> simp [askAll]
  | cons d ds ih =>
    obtain ⟨c, s⟩ := d
    rw [askAll]
    cases hx : client c s with
    | none => cases cs <;> simp [hx]
    | some x =>
      simp only
      have := fun cs => ih (.ask c s :: es) cs
      cases ha : askAll client ds (.ask c s :: es) with
      | mk es' r =>
        rw [ha] at this
        cases r with
        | none =>
          simp only at this ⊢
          cases cs with
          | nil => simp
          | cons y ys =>
            have := this ys
            simp only [List.map_cons, hx, List.cons.injEq, Option.some.injEq]
            constructor
            · intro h; cases h
            · rintro ⟨_, h⟩; exact absurd (this.2 h) (by simp)
        | some xs =>
          simp only at this ⊢
          cases cs with
          | nil => simp
          | cons y ys =>
            have := this ys
            simp only [List.map_cons, hx, List.cons.injEq, Option.some.injEq] at this ⊢
            rw [this]

theorem askAll_events {C : Type} (client : Name → Name → Option C) (ds : List (Name × Name)) (es : List Event) :
    ∃ n, (askAll client ds es).1 = (asks (ds.take n)).reverse ++ es ∧
      ((askAll client ds es).2.isSome → n = ds.length) := by
  induction ds generalizing es with
  | nil => exact ⟨0, by simp [askAll, asks], by simp⟩
  | cons d ds ih =>
    obtain ⟨c, s⟩ := d
    rw [askAll]
    cases hx : client c s with
    | none => exact ⟨1, by simp [asks], by simp⟩
    | some x =>
      obtain ⟨n, h1, h2⟩ := ih (.ask c s :: es)
      refine ⟨n + 1, ?_, ?_⟩
      · simp only
        cases ha : askAll client ds (.ask c s :: es) with
        | mk es' r =>
          rw [ha] at h1
          simp only at h1
          subst h1
          cases r <;> simp [asks]
      · simp only
        cases ha : askAll client ds (.ask c s :: es) with
        | mk es' r => rw [ha] at h2; cases r <;> simp_all

theorem openAll_ok (load valid : Nat → Bool) (n i : Nat) (es : List Event) (is : List Nat) :
    (openAll load valid n i es).2 = some is ↔
      (∀ j, i ≤ j → j < i + n → load j = true ∧ valid j = true) ∧ is = List.range' i n := by
  induction n generalizing i es is with
  | zero =>
    simp only [openAll, Option.some.injEq, List.range'_zero]
    constructor
    · rintro rfl; exact ⟨fun j h1 h2 => by omega, rfl⟩
    · rintro ⟨_, rfl⟩; rfl
  | succ n ih =>
    rw [openAll]
    by_cases hl : load i = true
    · by_cases hv : valid i = true
      · simp only [hl, hv, if_true]
        have := fun is => ih (i + 1) (.opened i :: es) is
        have hall : (∀ j, i ≤ j → j < i + (n + 1) → load j = true ∧ valid j = true) ↔
            (∀ j, i + 1 ≤ j → j < i + 1 + n → load j = true ∧ valid j = true) := by
          constructor
          · intro h j h1 h2; exact h j (by omega) (by omega)
          · intro h j h1 h2
            by_cases hj : j = i
            · subst hj; exact ⟨hl, hv⟩
            · exact h j (by omega) (by omega)
        rw [hall, List.range'_succ]
        cases ho : openAll load valid n (i + 1) (.opened i :: es) with
        | mk es' r =>
          rw [ho] at this
          cases r with
          | none =>
            simp only at this ⊢
            constructor
            · intro h; cases h
            · rintro ⟨h, rfl⟩
              exact absurd ((this _).2 ⟨h, rfl⟩) (by simp)
          | some js =>
            simp only [Option.some.injEq] at this ⊢
            have h' := (this js).1 rfl
            constructor
            · rintro rfl; exact ⟨h'.1, by rw [h'.2]⟩
            · rintro ⟨_, rfl⟩; rw [h'.2]
      · simp only [hl, hv, if_true, Bool.false_eq_true, if_false]
        constructor
        · intro h; cases h
        · rintro ⟨h, _⟩; exact absurd (h i (by omega) (by omega)).2 hv
    · simp only [hl, Bool.false_eq_true, if_false]
      constructor
      · intro h; cases h
      · rintro ⟨h, _⟩; exact absurd (h i (by omega) (by omega)).1 hl

theorem openAll_events (load valid : Nat → Bool) (n i : Nat) (es : List Event) :
    ∃ m, m ≤ n ∧ (openAll load valid n i es).1 = ((List.range' i m).map Event.opened).reverse ++ es ∧
      ((openAll load valid n i es).2.isSome → m = n) := by
  induction n generalizing i es with
  | zero => exact ⟨0, by omega, by simp [openAll], by simp⟩
  | succ n ih =>
    rw [openAll]
    by_cases hl : load i = true
    · by_cases hv : valid i = true
      · obtain ⟨m, h0, h1, h2⟩ := ih (i + 1) (.opened i :: es)
        refine ⟨m + 1, by omega, ?_, ?_⟩
        · simp only [hl, hv, if_true]
          cases ho : openAll load valid n (i + 1) (.opened i :: es) with
          | mk es' r =>
            rw [ho] at h1
            simp only at h1
            subst h1
            cases r <;> simp [List.range'_succ]
        · simp only [hl, hv, if_true]
          cases ho : openAll load valid n (i + 1) (.opened i :: es) with
          | mk es' r => rw [ho] at h2; cases r <;> simp_all
      · exact ⟨1, by omega, by simp [hl, hv], by simp [hl, hv]⟩
    · exact ⟨0, by omega, by simp [hl], by simp [hl]⟩

/-! ## Starting -/

/-- The environment that the variables see. -/
def envOf {C E V : Type} (s : Service E V) (w : World C E) : Option E := if s.env then w.env else none

/-- All that comes before the variables is there. -/
def Ready {C E V : Type} (s : Service E V) (w : World C E) (clients : List C) : Prop :=
  (s.deps ≠ [] → w.clientCfg = true) ∧ (s.resolvers = true → w.resolverCfg = true) ∧ (s.plugins ≠ 0 → w.pluginCfg = true) ∧
  s.deps.map (fun d => w.client d.1 d.2) = clients.map some ∧
  (∀ i, i < s.plugins → w.load i = true ∧ w.valid i = true) ∧
  (s.env = true → w.env ≠ none)

theorem new_ready {C E V : Type} (s : Service E V) (w : World C E) (cs : List C) (h : Ready s w cs) :
    (new s w).2 = (match initVars (envOf s w) s.vars (fun _ => none) with
      | .error e => .error e
      | .ok st => .ok { clients := cs, instances := List.range s.plugins, env := envOf s w, vars := st }) := by
  obtain ⟨h1, h2, h3, h4, h5, h6⟩ := h
  unfold new
  rw [if_neg (by rintro ⟨a, b⟩; simp [h1 a] at b), if_neg (by rintro ⟨a, b⟩; simp [h2 a] at b),
    if_neg (by rintro ⟨a, b⟩; simp [h3 a] at b)]
  have ha := (askAll_ok w.client s.deps [] cs).2 h4
  cases hx : askAll w.client s.deps [] with
  | mk es r =>
    rw [hx] at ha
    simp only at ha
    subst ha
    simp only
    have ho := (openAll_ok w.load w.valid s.plugins 0 es (List.range s.plugins)).2
      ⟨fun j _ hj => h5 j (by omega), List.range_eq_range'⟩
    cases hy : openAll w.load w.valid s.plugins 0 es with
    | mk es' r =>
      rw [hy] at ho
      simp only at ho
      subst ho
      simp only
      rw [if_neg (by
        rintro ⟨a, b⟩
        exact h6 a (by simpa using b))]
      simp only [envOf]
      cases initVars (if s.env = true then w.env else none) s.vars (fun _ => none) <;> rfl

theorem new_notReady {C E V : Type} (s : Service E V) (w : World C E) (svc : Svc C E V) (h : (new s w).2 = .ok svc) :
    Ready s w svc.clients := by
  unfold new at h
  split at h
  · simp at h
  rename_i h1
  split at h
  · simp at h
  rename_i h2
  split at h
  · simp at h
  rename_i h3
  cases hx : askAll w.client s.deps [] with
  | mk es r =>
    rw [hx] at h
    cases r with
    | none => simp at h
    | some cs =>
      simp only at h
      cases hy : openAll w.load w.valid s.plugins 0 es with
      | mk es' r =>
        rw [hy] at h
        cases r with
        | none => simp at h
        | some is =>
          simp only at h
          split at h
          · simp at h
          rename_i h4
          have ha := (askAll_ok w.client s.deps [] cs).1 (by rw [hx])
          have ho := (openAll_ok w.load w.valid s.plugins 0 es is).1 (by rw [hy])
          cases hz : initVars (if s.env = true then w.env else none) s.vars (fun _ => none) with
          | error e => simp [hz] at h
          | ok st =>
            simp only [hz, Except.ok.injEq] at h
            subst h
            refine ⟨?_, ?_, ?_, ha, fun i hi => ho.1 i (by omega) (by omega), ?_⟩
            · intro a; cases hb : w.clientCfg with
              | true => rfl
              | false => exact absurd ⟨a, hb⟩ h1
            · intro a; cases hb : w.resolverCfg with
              | true => rfl
              | false => exact absurd ⟨a, hb⟩ h2
            · intro a; cases hb : w.pluginCfg with
              | true => rfl
              | false => exact absurd ⟨a, hb⟩ h3
            · intro a b
              exact h4 ⟨a, by simp [b]⟩

/-- A server starts exactly if every part of the configuration that it needs is set, every client can be made, every plugin can be
loaded and is valid, the environment can be read, and the variables can be evaluated one after the other with all checks passing.
It then has these clients, an instance of every plugin, this environment and these variables. -/
theorem C107_starts {C E V : Type} (s : Service E V) (w : World C E) (svc : Svc C E V) :
    (new s w).2 = .ok svc ↔
      (s.deps ≠ [] → w.clientCfg = true) ∧ (s.resolvers = true → w.resolverCfg = true) ∧
      (s.plugins ≠ 0 → w.pluginCfg = true) ∧
      s.deps.map (fun d => w.client d.1 d.2) = svc.clients.map some ∧
      (∀ i, i < s.plugins → w.load i = true ∧ w.valid i = true) ∧ svc.instances = List.range s.plugins ∧
      (s.env = true → w.env ≠ none) ∧ svc.env = (if s.env then w.env else none) ∧
      ∃ after, Gives svc.env [] s.vars after ∧ svc.vars = valueOf after := by
  constructor
  · intro h
    have hr := new_notReady s w svc h
    rw [new_ready s w svc.clients hr] at h
    obtain ⟨h1, h2, h3, h4, h5, h6⟩ := hr
    cases hz : initVars (envOf s w) s.vars (fun _ => none) with
    | error e => simp [hz] at h
    | ok st =>
      simp only [hz, Except.ok.injEq] at h
      rw [← valueOf_nil, initVars_ok] at hz
      rw [← h]
      exact ⟨h1, h2, h3, by rw [← h] at h4; exact h4, h5, rfl, h6, rfl, hz⟩
  · rintro ⟨h1, h2, h3, h4, h5, h6, h7, h8, h9⟩
    rw [new_ready s w svc.clients ⟨h1, h2, h3, h4, h5, h7⟩]
    have he : envOf s w = svc.env := h8.symm
    rw [← initVars_ok] at h9
    rw [he, ← valueOf_nil, h9]
    cases svc
    simp_all

/-- A check that fails stops the start with its message, if all before it is fine. -/
theorem C107_check {C E V : Type} (s : Service E V) (w : World C E) (clients : List C) (before after : List (Def E V))
    (given : List (Name × V)) (cond : Option E → (Name → Option V) → Option Bool)
    (message : Option E → (Name → Option V) → Option Name) (text : Name)
    (h1 : Ready s w clients) (h2 : s.vars = before ++ .validation cond message :: after)
    (h3 : Gives (envOf s w) [] before given) (h4 : cond (envOf s w) (valueOf given) = some true)
    (h5 : message (envOf s w) (valueOf given) = some text) : (new s w).2 = .error (.invalid text) := by
  have h := initVars_prefix (envOf s w) before (.validation cond message :: after) [] given h3
  rw [new_ready s w clients h1, h2, ← valueOf_nil, h, initVars]
  simp only [h4, h5]

/-- A service with one call, one plugin, an environment and three definitions. -/
def exampleService : Service Nat Nat :=
  { deps := [(['F'], ['f'])], resolvers := false, plugins := 1, env := true,
    vars := [.define ['x'] none (fun e _ => e) 0,
      .define ['y'] (some fun _ v => some (v ['x'] == some 7)) (fun _ v => v ['x']) 0,
      .validation (fun _ v => (v ['y']).map (· == 8)) (fun _ _ => some ['n', 'o'])] }

/-- Its configuration. -/
def exampleWorld (e : Nat) : World Nat Nat :=
  { clientCfg := true, resolverCfg := false, pluginCfg := true, client := fun _ _ => some 3, load := fun _ => true,
    valid := fun _ => true, env := some e }

example : (new exampleService (exampleWorld 5)).2 =
    .ok { clients := [3], instances := [0], env := some 5, vars := valueOf [(['x'], 5), (['y'], 0)] } :=
  (C107_starts _ _ _).2 ⟨fun _ => rfl, by decide, fun _ => rfl, rfl, fun _ _ => ⟨rfl, rfl⟩, rfl, (by intro _ h; cases h), rfl,
    [(['x'], 5), (['y'], 0)], .always rfl (.zero rfl (.passes rfl .nil)), rfl⟩

example : (new { exampleService with vars := [.define ['y'] none (fun e _ => e) 0,
      .validation (fun _ v => (v ['y']).map (· == 8)) (fun _ _ => some ['n', 'o'])] } (exampleWorld 8)).2 =
    .error (.invalid ['n', 'o']) :=
  C107_check _ _ [3] [.define ['y'] none (fun e _ => e) 0] [] [(['y'], 8)] _ _ _
    ⟨fun _ => rfl, by decide, fun _ => rfl, rfl, fun _ _ => ⟨rfl, rfl⟩, (by intro _ h; cases h)⟩ rfl (.always rfl .nil) rfl rfl

/-! ## What is done -/

theorem new_events {C E V : Type} (s : Service E V) (w : World C E) :
    ∃ n m, m ≤ s.plugins ∧
      (new s w).1 = ((List.range m).map Event.opened).reverse ++ (asks (s.deps.take n)).reverse ∧
      (∀ svc, (new s w).2 = .ok svc → n = s.deps.length ∧ m = s.plugins) := by
  unfold new
  split
  · exact ⟨0, 0, by omega, by simp [asks], by simp⟩
  split
  · exact ⟨0, 0, by omega, by simp [asks], by simp⟩
  split
  · exact ⟨0, 0, by omega, by simp [asks], by simp⟩
  obtain ⟨n, hn1, hn2⟩ := askAll_events w.client s.deps []
  cases hx : askAll w.client s.deps [] with
  | mk es r =>
    rw [hx] at hn1 hn2
    simp only [List.append_nil] at hn1 hn2
    cases r with
    | none => exact ⟨n, 0, by omega, by simp [hn1], by simp⟩
    | some cs =>
      have hn := hn2 rfl
      obtain ⟨m, hm0, hm1, hm2⟩ := openAll_events w.load w.valid s.plugins 0 es
      simp only
      cases hy : openAll w.load w.valid s.plugins 0 es with
      | mk es' r =>
        rw [hy] at hm1 hm2
        simp only at hm1 hm2
        have he : es' = ((List.range m).map Event.opened).reverse ++ (asks (s.deps.take n)).reverse := by
          rw [hm1, hn1, List.range_eq_range']
        cases r with
        | none => exact ⟨n, m, hm0, he, by simp⟩
        | some is =>
          have hm := hm2 rfl
          simp only
          split
          · exact ⟨n, m, hm0, he, by simp⟩
          · cases initVars (if s.env = true then w.env else none) s.vars (fun _ => none) with
            | error e => exact ⟨n, m, hm0, he, by simp⟩
            | ok st => exact ⟨n, m, hm0, he, fun _ _ => ⟨hn, hm⟩⟩

theorem running_asks (l : List (Name × Name)) : running (asks l).reverse = [] := by
  have : ∀ es : List Event, (∀ e ∈ es, ∃ a b, e = .ask a b) → running es = [] := by
    intro es
    induction es with
    | nil => intro _; rfl
    | cons e es ih =>
      intro h
      obtain ⟨a, b, rfl⟩ := h e (List.mem_cons_self ..)
      exact ih (fun e he => h e (List.mem_cons_of_mem _ he))
  apply this
  intro e he
  simp only [asks, List.mem_reverse, List.mem_map] at he
  obtain ⟨d, _, rfl⟩ := he
  exact ⟨_, _, rfl⟩

theorem running_opened (l : List Nat) (es : List Event) : running (l.map Event.opened ++ es) = l ++ running es := by
  induction l with
  | nil => rfl
  | cons i l ih => simp [running, ih]

theorem cleanup_events {C E V : Type} (svc : Svc C E V) (es : List Event) :
    cleanup svc es = (svc.instances.map Event.closed).reverse ++ es := by
  unfold cleanup
  generalize svc.instances = l
  induction l generalizing es with
  | nil => rfl
  | cons i l ih => simp [ih]

theorem running_closed (l : List Nat) (es : List Event) :
    running (l.map Event.closed ++ es) = (running es).filter (fun i => i ∉ l) := by
  induction l with
  | nil => exact (List.filter_eq_self.2 (by simp)).symm
  | cons i l ih =>
    simp only [List.map_cons, List.cons_append, running, ih, List.filter_filter]
    apply List.filter_congr
    intro x _
    simp

/-- Clients are asked for in the order of the services that are called, each at most once and for its own service; a server that
starts has asked for all. -/
theorem C107_clients {C E V : Type} (s : Service E V) (w : World C E) :
    (∃ n, (new s w).1.reverse.filter (fun e => match e with | .ask _ _ => true | _ => false) =
      (s.deps.take n).map fun d => .ask d.1 d.2) ∧
    ∀ svc, (new s w).2 = .ok svc → (new s w).1.reverse.filter (fun e => match e with | .ask _ _ => true | _ => false) =
      s.deps.map fun d => .ask d.1 d.2 := by
  obtain ⟨n, m, _, he, hok⟩ := new_events s w
  have key : (new s w).1.reverse.filter (fun e => match e with | .ask _ _ => true | _ => false) =
      (s.deps.take n).map fun d => .ask d.1 d.2 := by
    rw [he, List.reverse_append, List.reverse_reverse, List.reverse_reverse, List.filter_append]
    have h1 : (asks (s.deps.take n)).filter (fun e => match e with | .ask _ _ => true | _ => false) = asks (s.deps.take n) := by
      rw [List.filter_eq_self]
      intro e h
      obtain ⟨d, _, rfl⟩ := List.mem_map.1 h
      rfl
    have h2 : ((List.range m).map Event.opened).filter (fun e => match e with | .ask _ _ => true | _ => false) = [] := by
      rw [List.filter_eq_nil_iff]
      intro e h
      obtain ⟨d, _, rfl⟩ := List.mem_map.1 h
      simp
    rw [h1, h2, List.append_nil]
    rfl
  refine ⟨⟨n, key⟩, ?_⟩
  intro svc h
  rw [key, (hok svc h).1, List.take_length]

/-- The instances that run when a server has started are those it has, each once; after the cleanup none runs. -/
theorem C107_cleanup {C E V : Type} (s : Service E V) (w : World C E) (svc : Svc C E V) (h : (new s w).2 = .ok svc) :
    (running (new s w).1).Perm svc.instances ∧ svc.instances.Nodup ∧ running (cleanup svc (new s w).1) = [] := by
  obtain ⟨n, m, _, he, hok⟩ := new_events s w
  have hi := ((C107_starts s w svc).1 h).2.2.2.2.2.1
  have hr : running (new s w).1 = (List.range s.plugins).reverse := by
    rw [he, ← List.map_reverse, running_opened, running_asks, List.append_nil, (hok svc h).2]
  refine ⟨?_, ?_, ?_⟩
  · rw [hr, hi]
    exact List.reverse_perm _
  · rw [hi]; exact List.nodup_range
  · rw [cleanup_events, ← List.map_reverse, running_closed, hr, hi, List.filter_eq_nil_iff]
    intro i hm
    simpa using hm

/-- If a server does not start, no instance of a plugin runs, provided that it has no plugins. -/
theorem C107_failed_partial {C E V : Type} (s : Service E V) (w : World C E) (h : s.plugins = 0) : running (new s w).1 = [] := by
  obtain ⟨n, m, hm, he, _⟩ := new_events s w
  have : m = 0 := by omega
  subst this
  rw [he]
  simpa using running_asks (s.deps.take n)

/-- Otherwise it can run on: if the environment cannot be read, the instances of all plugins run, and there is no server that could
be cleaned up. The same if a check of the variables fails. -/
theorem C107_failed_false : ∃ (s : Service Nat Nat) (w w' : World Nat Nat),
    (new s w).2 = .error .env ∧ running (new s w).1 = [0] ∧
    (new s w').2 = .error (.invalid ['n', 'o']) ∧ running (new s w').1 = [0] :=
  ⟨{ exampleService with vars := [.validation (fun e _ => e.map (· == 8)) (fun _ _ => some ['n', 'o'])] },
    { exampleWorld 8 with env := none }, exampleWorld 8, rfl, rfl, rfl, rfl⟩

end Verif.Start
