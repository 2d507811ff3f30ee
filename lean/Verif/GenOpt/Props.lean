import Verif.GenOpt.Model
import Verif.OutPath.Props

/-! # C76: options -/

namespace Verif.GenOpt

open Verif.OutPath

/-! ## Specification -/

/-- An option as the user writes it. -/
inductive Opt where
  | module (prefix_ : Text)
  | sourceRelative
  | «import»
  | importPath (p : Text)
  | plugin (p : Plugin)

/-- Its text. -/
def Opt.text : Opt → Text
  | .module p => kModule ++ '=' :: p
  | .sourceRelative => kPaths ++ '=' :: vSourceRelative
  | .import => kPaths ++ '=' :: vImport
  | .importPath p => kImportPaths ++ '=' :: p
  | .plugin p => kPlugins ++ '=' :: (p.scheme.text ++ (p.location ++ ':' :: p.hash))

/-- The mode an option asks for. -/
def Opt.mode? : Opt → Option Mode
  | .module _ => some .modulePrefix
  | .sourceRelative => some .sourceRelative
  | .import => some .import
  | _ => none

def Opt.module? : Opt → Option Text
  | .module p => some p
  | _ => none

def Opt.importPath? : Opt → Option Path
  | .importPath p => some (comps p)
  | _ => none

def Opt.plugin? : Opt → Option Plugin
  | .plugin p => some p
  | _ => none

/-- What a list of options means: the last mode, the last module, all import paths and all plugins. -/
def meaning (opts : List Opt) : Options :=
  ⟨⟨(opts.filterMap Opt.mode?).getLast?.getD .import, (opts.filterMap Opt.module?).getLast?.getD [],
    opts.filterMap Opt.importPath?⟩, opts.filterMap Opt.plugin?⟩

/-- A value without the separators. -/
def Plain (t : Text) : Prop := ',' ∉ t ∧ '=' ∉ t

/-- Values without separators; a module is not empty; locations of plugins without colons. -/
def Opt.Ok : Opt → Prop
  | .module p => Plain p ∧ p ≠ []
  | .importPath p => Plain p
  | .plugin p => Plain p.location ∧ Plain p.hash ∧ ':' ∉ p.location ∧ ':' ∉ p.hash
  | _ => True

/-! ## Proof -/

theorem scheme_plain (s : Scheme) : Plain s.text := by
  cases s <;> unfold Plain <;> decide

theorem kind_split (k v : Text) (hk : '=' ∉ k) (hv : '=' ∉ v) : splitOptPattern (k ++ '=' :: v) = some (k, v) := by
  simp [splitOptPattern, split_append _ _ _ hk, split_self _ _ hv]

/-- The schemes exclude each other. -/
theorem scheme_excl (s t : Scheme) (rest : Text) (h : s.text.isPrefixOf (t.text ++ rest) = true) : s = t := by
  cases s <;> cases t <;> first | rfl | (simp [Scheme.text] at h)

/-- In whatever order the schemes are visited, the one of the value is found. -/
theorem parsePlugins_ok (order : List Scheme) (ho : ∀ s, s ∈ order) (o : Options) (p : Plugin)
    (hl : ':' ∉ p.location) (hh : ':' ∉ p.hash) :
    parsePlugins order o (p.scheme.text ++ (p.location ++ ':' :: p.hash)) = some { o with plugins := o.plugins ++ [p] } := by
  replace ho := ho p.scheme
  induction order with
  | nil => simp at ho
  | cons s rest ih =>
    rw [parsePlugins]
    by_cases h : s.text.isPrefixOf (p.scheme.text ++ (p.location ++ ':' :: p.hash)) = true
    · have := scheme_excl _ _ _ h
      subst this
      rw [if_pos h, trimPrefix_self, parseLocation, split_append _ _ _ hl, split_self _ _ hh]
    · rw [if_neg h]
      apply ih
      rcases List.mem_cons.mp ho with rfl | ho
      · exact absurd (by simp) h
      · exact ho

theorem parseOpt_ok (order : List Scheme) (ho : ∀ s, s ∈ order) (o : Options) (x : Opt) (hx : x.Ok) :
    parseOpt order o x.text = some ⟨⟨x.mode?.getD o.cfg.mode, x.module?.getD o.cfg.prefix,
      o.cfg.importPaths ++ x.importPath?.toList⟩, o.plugins ++ x.plugin?.toList⟩ := by
  have hne : x.text ≠ [] := by cases x <;> simp [Opt.text]
  rw [parseOpt, if_neg hne]
  cases x with
  | module p =>
    simp only [Opt.text]
    rw [kind_split _ _ (by decide) hx.1.2]
    simp [parseKind, parseModule, hx.2, Opt.mode?, Opt.module?, Opt.importPath?, Opt.plugin?]
  | sourceRelative =>
    simp only [Opt.text]
    rw [kind_split _ _ (by decide) (by decide)]
    simp [parseKind, parsePaths, kPaths, kModule, Opt.mode?, Opt.module?, Opt.importPath?, Opt.plugin?]
  | «import» =>
    simp only [Opt.text]
    rw [kind_split _ _ (by decide) (by decide)]
    simp [parseKind, parsePaths, kPaths, kModule, vImport, vSourceRelative, Opt.mode?, Opt.module?, Opt.importPath?,
      Opt.plugin?]
  | importPath p =>
    simp only [Opt.text]
    rw [kind_split _ _ (by decide) hx.2]
    simp [parseKind, kPaths, kModule, kPlugins, kImportPaths, Opt.mode?, Opt.module?, Opt.importPath?, Opt.plugin?]
  | plugin p =>
    obtain ⟨h1, h2, h3, h4⟩ := hx
    simp only [Opt.text]
    rw [kind_split _ _ (by decide) (by
      intro h
      rcases List.mem_append.mp h with h | h
      · exact (scheme_plain p.scheme).2 h
      · rcases List.mem_append.mp h with h | h
        · exact h1.2 h
        · rcases List.mem_cons.mp h with h | h
          · exact absurd h (by decide)
          · exact h2.2 h)]
    have : parseKind order o kPlugins (p.scheme.text ++ (p.location ++ ':' :: p.hash)) =
        parsePlugins order o (p.scheme.text ++ (p.location ++ ':' :: p.hash)) := by
      simp [parseKind, kPlugins, kPaths, kModule]
    simp only [this, parsePlugins_ok order ho o p h3 h4]
    simp [Opt.mode?, Opt.module?, Opt.importPath?, Opt.plugin?]

theorem text_plain (x : Opt) (hx : x.Ok) : ',' ∉ x.text := by
  cases x with
  | module p =>
    intro h
    rcases List.mem_append.mp h with h | h
    · exact absurd h (by decide)
    · rcases List.mem_cons.mp h with h | h
      · exact absurd h (by decide)
      · exact hx.1.1 h
  | sourceRelative => decide
  | «import» => decide
  | importPath p =>
    intro h
    rcases List.mem_append.mp h with h | h
    · exact absurd h (by decide)
    · rcases List.mem_cons.mp h with h | h
      · exact absurd h (by decide)
      · exact hx.1 h
  | plugin p =>
    intro h
    rcases List.mem_append.mp h with h | h
    · exact absurd h (by decide)
    · rcases List.mem_cons.mp h with h | h
      · exact absurd h (by decide)
      · rcases List.mem_append.mp h with h | h
        · exact (scheme_plain p.scheme).1 h
        · rcases List.mem_append.mp h with h | h
          · exact hx.1.1 h
          · rcases List.mem_cons.mp h with h | h
            · exact absurd h (by decide)
            · exact hx.2.1.1 h

theorem split_join (ts : List Text) (h : ∀ t ∈ ts, ',' ∉ t) (hne : ts ≠ []) : split ',' (joinOpts ts) = ts := by
  induction ts with
  | nil => exact absurd rfl hne
  | cons t ts ih =>
    have ht := h t (List.mem_cons_self ..)
    cases ts with
    | nil => rw [joinOpts, split_self _ _ ht]
    | cons u us =>
      rw [joinOpts, split_append _ _ _ ht, ih (fun t ht => h t (List.mem_cons_of_mem _ ht)) (by simp)]

theorem getLast_cons_getD {α : Type} (a : Option α) (l : List α) (d : α) :
    (a.toList ++ l).getLast?.getD d = l.getLast?.getD (a.getD d) := by
  cases a with
  | none => simp
  | some a =>
    cases l with
    | nil => simp
    | cons b l => simp [List.getLast?_cons]

theorem filterMap_cons' {α β : Type} (f : α → Option β) (a : α) (l : List α) :
    (a :: l).filterMap f = (f a).toList ++ l.filterMap f := by
  cases h : f a <;> simp [h]

theorem parseAll_ok (order : List Scheme) (ho : ∀ s, s ∈ order) (opts : List Opt) (h : ∀ x ∈ opts, x.Ok)
    (o : Options) : parseAll order o (opts.map Opt.text) =
      some ⟨⟨(opts.filterMap Opt.mode?).getLast?.getD o.cfg.mode, (opts.filterMap Opt.module?).getLast?.getD o.cfg.prefix,
        o.cfg.importPaths ++ opts.filterMap Opt.importPath?⟩, o.plugins ++ opts.filterMap Opt.plugin?⟩ := by
  induction opts generalizing o with
  | nil => simp [parseAll]
  | cons x xs ih =>
    rw [List.map_cons, parseAll, parseOpt_ok order ho o x (h x (List.mem_cons_self ..))]
    simp only []
    rw [ih fun y hy => h y (List.mem_cons_of_mem _ hy)]
    simp only [filterMap_cons', getLast_cons_getD, List.append_assoc]

/-- C76 (partial: for values without separators): every option of the configuration takes effect, in any
order of the map of schemes. -/
theorem C76_options_partial (order : List Scheme) (ho : ∀ s, s ∈ order) (opts : List Opt) (h : ∀ x ∈ opts, x.Ok) :
    parseOptString order (joinOpts (opts.map Opt.text)) = some (meaning opts) := by
  unfold parseOptString
  cases opts with
  | nil => simp [joinOpts, split, parseAll, parseOpt, noOptions, meaning]
  | cons x xs =>
    rw [split_join _ (fun t ht => by
      obtain ⟨y, hy, rfl⟩ := List.mem_map.mp ht
      exact text_plain y (h y hy)) (by simp), parseAll_ok order ho _ h]
    simp [meaning, noOptions]

example : (meaning [.module ['m'], .sourceRelative, .plugin ⟨.https, ['u'], ['h']⟩, .importPath ['p', '/', 'q']]).cfg.mode =
    .sourceRelative := rfl

example : ∀ x ∈ [Opt.module ['m'], .sourceRelative, .plugin ⟨.https, ['u'], ['h']⟩, .importPath ['p', '/', 'q']], x.Ok := by
  intro x hx
  simp at hx
  rcases hx with rfl | rfl | rfl | rfl <;> simp [Opt.Ok, Plain]

/-- C76: an option that cannot be read is never ignored: the whole text is rejected. -/
theorem C76_errors (order : List Scheme) (opts : List Text) (h : ∀ t ∈ opts, ',' ∉ t) (t : Text) (ht : t ∈ opts)
    (hbad : ∀ o, parseOpt order o t = none) : parseOptString order (joinOpts opts) = none := by
  unfold parseOptString
  rw [split_join _ h (List.ne_nil_of_mem ht)]
  generalize noOptions = o
  clear h
  induction opts generalizing o with
  | nil => simp at ht
  | cons u us ih =>
    rw [parseAll]
    rcases List.mem_cons.mp ht with rfl | ht
    · simp [hbad o]
    · cases parseOpt order o u with
      | none => rfl
      | some o => exact ih ht o

/-- Options the generator does not know are such options. -/
theorem C76_unknown (order : List Scheme) (k v : Text) (hk : '=' ∉ k) (hv : '=' ∉ v)
    (h : k ∉ [kModule, kPaths, kPlugins, kImportPaths]) (o : Options) : parseOpt order o (k ++ '=' :: v) = none := by
  simp only [List.mem_cons, List.not_mem_nil, or_false, not_or] at h
  rw [parseOpt, if_neg (by simp), kind_split _ _ hk hv]
  simp [parseKind, h]

example : ['M', 'a'] ∉ [kModule, kPaths, kPlugins, kImportPaths] := by decide

/-- C76 fails for locations of plugins with a colon, as in a URL with a port: they are rejected. -/
theorem C76_port_false : ¬ ∀ (order : List Scheme) (p : Plugin), (∀ s, s ∈ order) → Plain p.location → Plain p.hash →
    ':' ∉ p.hash → parseOptString order (Opt.plugin p).text = some (meaning [.plugin p]) := by
  intro h
  have := h [.file, .http, .https] ⟨.http, ['h', ':', '8', '/', 'p'], ['a']⟩ (by intro s; cases s <;> decide)
    (by unfold Plain; decide) (by unfold Plain; decide) (by decide)
  have h2 : parseOptString [.file, .http, .https] (Opt.plugin ⟨.http, ['h', ':', '8', '/', 'p'], ['a']⟩).text = none := rfl
  rw [h2] at this
  exact absurd this (by simp)

/-- C76 fails for import paths with a separator: they are rejected. -/
theorem C76_separator_false : ¬ ∀ (order : List Scheme) (p : Text), (∀ s, s ∈ order) → ',' ∉ p →
    parseOptString order (Opt.importPath p).text = some (meaning [.importPath p]) := by
  intro h
  have := h [.file, .http, .https] ['a', '=', 'b'] (by intro s; cases s <;> decide) (by decide)
  have h2 : parseOptString [.file, .http, .https] (Opt.importPath ['a', '=', 'b']).text = none := rfl
  rw [h2] at this
  exact absurd this (by simp)

/-- C76 fails for `module` before `paths`: the module has no effect on any path, and no error is reported. -/
theorem C76_module_false : ¬ ∀ (order : List Scheme) (opts : List Opt) (o : Options) (m : Text), (∀ s, s ∈ order) →
    (∀ x ∈ opts, x.Ok) → Opt.module m ∈ opts → parseOptString order (joinOpts (opts.map Opt.text)) = some o →
    o.cfg.mode = .modulePrefix := by
  intro h
  have ho : ∀ s : Scheme, s ∈ [Scheme.file, .http, .https] := by intro s; cases s <;> decide
  have hx : ∀ x ∈ [Opt.module ['m'], .import], x.Ok := by
    intro x hx
    simp at hx
    rcases hx with rfl | rfl <;> simp [Opt.Ok, Plain]
  have := h _ _ _ ['m'] ho hx (by simp) (C76_options_partial _ ho _ hx)
  exact absurd this (by simp [meaning, Opt.mode?])

/-! ## Plugins -/

/-- C76: a plugin may be named with or without `protoc-gen-`. -/
theorem C76_plugin_name (n : Text) : ("protoc-gen-".toList <+: n → fullName n = n) ∧
    (¬ "protoc-gen-".toList <+: n → fullName n = "protoc-gen-".toList ++ n) := by
  have e : genPrefix = "protoc-gen-".toList := by decide
  unfold fullName
  rw [← e]
  exact ⟨fun h => if_pos (List.isPrefixOf_iff_prefix.2 h), fun h => if_neg fun hh => h (List.isPrefixOf_iff_prefix.1 hh)⟩

/-- C76: the plugins of the configuration are kept in their order with their options, and each standard
plugin that is in use and not configured is added once. -/
theorem C76_plugins (installed : Text → Bool) (order : List (Text × Bool)) (hn : (order.map Prod.fst).Nodup)
    (plugins result : List PluginConfig) (h : setupConfig installed order plugins = some result) :
    ∃ added, result = plugins.map (fun p => ⟨fullName p.name, p.opts⟩) ++ added ∧
      (added.map PluginConfig.name).Nodup ∧
      ∀ p, p ∈ added ↔ p = standard p.name ∧ (p.name, true) ∈ order ∧ ∀ q ∈ plugins, fullName q.name ≠ p.name := by
  unfold setupConfig at h
  split at h
  · simp only [Option.some.injEq] at h
    refine ⟨_, h.symm, ?_, ?_⟩
    · rw [List.map_map]
      have : (PluginConfig.name ∘ fun s : Text × Bool => standard s.1) = Prod.fst := rfl
      rw [this]
      exact hn.sublist ((List.filter_sublist).map _)
    · intro p
      rw [List.mem_map]
      constructor
      · rintro ⟨s, hs, rfl⟩
        obtain ⟨hs, hc⟩ := List.mem_filter.mp hs
        rw [Bool.and_eq_true] at hc
        obtain ⟨hc, h2⟩ := hc
        refine ⟨rfl, ?_, ?_⟩
        · have : s = (s.1, true) := by rw [← h2]
          exact this ▸ hs
        · intro q hq heq
          rw [Bool.not_eq_true', List.any_eq_false] at hc
          exact hc ⟨fullName q.name, q.opts⟩ (List.mem_map.mpr ⟨q, hq, rfl⟩) (by simp [heq, standard])
      · rintro ⟨h1, h2, h3⟩
        refine ⟨(p.name, true), List.mem_filter.mpr ⟨h2, ?_⟩, h1.symm⟩
        simp only [Bool.and_true, Bool.not_eq_true', List.any_eq_false]
        intro x hx
        obtain ⟨q, hq, rfl⟩ := List.mem_map.mp hx
        simp [h3 q hq]
  · simp at h

/-- C76: a configured plugin that is neither installed nor standard is reported. -/
theorem C76_plugins_found (installed : Text → Bool) (order : List (Text × Bool)) (plugins : List PluginConfig) :
    (setupConfig installed order plugins).isSome ↔
      ∀ p ∈ plugins, installed (fullName p.name) = true ∨ ∃ s ∈ order, s.1 = fullName p.name := by
  unfold setupConfig
  split
  · rename_i h
    simp only [Option.isSome_some, true_iff]
    intro p hp
    have := List.all_eq_true.mp h (fullName p.name) (List.mem_map.mpr ⟨p, hp, rfl⟩)
    simpa using this
  · rename_i h
    simp only [Option.isSome_none, Bool.false_eq_true, false_iff]
    intro hall
    apply h
    rw [List.all_eq_true]
    intro n hn
    obtain ⟨p, hp, rfl⟩ := List.mem_map.mp hn
    simpa using hall p hp

example : setupConfig (fun _ => false) [(genPrefix ++ ['g', 'o'], true), (genPrefix ++ ['x'], false)] [⟨['g', 'o'], [['o']]⟩] =
    some [⟨genPrefix ++ ['g', 'o'], [['o']]⟩] := by decide

end Verif.GenOpt
