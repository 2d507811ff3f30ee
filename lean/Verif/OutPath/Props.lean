import Verif.OutPath.Model

/-! # C74: places of generated files -/

namespace Verif.OutPath

/-! ## Paths -/

/-- The text of a path. -/
def render : Path → Text
  | [] => []
  | [c] => c
  | c :: d :: ds => c ++ '/' :: render (d :: ds)

/-- The components are not empty and contain no slash. -/
def Clean (p : Path) : Prop := ∀ c ∈ p, c ≠ [] ∧ '/' ∉ c

theorem split_ne_nil (sep : Char) (t : Text) : split sep t ≠ [] := by
  cases t with
  | nil => simp [split]
  | cons c cs =>
    rw [split]
    split
    · simp
    · split <;> simp

theorem split_append (sep : Char) (a t : Text) (h : sep ∉ a) :
    split sep (a ++ sep :: t) = a :: split sep t := by
  induction a with
  | nil =>
    rw [List.nil_append, split]
    cases hs : split sep t with
    | nil => exact absurd hs (split_ne_nil sep t)
    | cons p ps => simp
  | cons c a ih =>
    rw [List.mem_cons, not_or] at h
    rw [List.cons_append, split, ih h.2]
    simp [Ne.symm h.1]

theorem split_self (sep : Char) (a : Text) (h : sep ∉ a) : split sep a = [a] := by
  induction a with
  | nil => rfl
  | cons c a ih =>
    rw [List.mem_cons, not_or] at h
    rw [split, ih h.2]
    simp [Ne.symm h.1]

theorem comps_render (p : Path) (h : Clean p) : comps (render p) = p := by
  induction p with
  | nil => rfl
  | cons c ds ih =>
    have hc := h c (List.mem_cons_self ..)
    have ih := ih fun d hd => h d (List.mem_cons_of_mem _ hd)
    cases ds with
    | nil =>
      rw [render, comps, split_self _ _ hc.2]
      cases c with
      | nil => exact absurd rfl hc.1
      | cons x xs => simp
    | cons d ds =>
      rw [render, comps, split_append _ _ _ hc.2]
      rw [comps] at ih
      rw [List.filter_cons, ih]
      cases c with
      | nil => exact absurd rfl hc.1
      | cons x xs => simp

theorem render_append (a b : Path) (ha : a ≠ []) (hb : b ≠ []) : render (a ++ b) = render a ++ '/' :: render b := by
  induction a with
  | nil => exact absurd rfl ha
  | cons c ds ih =>
    cases ds with
    | nil =>
      cases b with
      | nil => exact absurd rfl hb
      | cons x xs => simp [render]
    | cons d ds =>
      have := ih (by simp)
      rw [List.cons_append, List.cons_append, render, render, ← List.cons_append, this]
      simp

theorem trimPrefix_self (a b : Text) : trimPrefix a (a ++ b) = b := by
  simp [trimPrefix]

/-! ## Names of files -/

def protoExt : Text := ['.', 'p', 'r', 'o', 't', 'o']

/-- A proto file `dir/n.proto`. -/
def IsProto (f : File) (dir : Path) (n : Text) : Prop := f.name = dir ++ [n ++ protoExt]

theorem stem_proto (n : Text) : stem (n ++ protoExt) = n := by
  simp [stem, protoExt]

/-- C74: the code of `dir/n.proto` is in a file `n_grpc_federation.pb.go`, with `n` in lower case. -/
theorem C74_name (f : File) (dir : Path) (n : Text) (h : IsProto f dir n) :
    fileName f = n.map Char.toLower ++ suffix := by
  unfold IsProto at h
  simp [fileName, h, stem_proto]

/-! ## Modes -/

theorem strip_some {ip file rel : Path} : strip ip file = some rel ↔ file = ip ++ rel := by
  induction ip generalizing file with
  | nil => simp [strip, eq_comm]
  | cons a ip ih =>
    cases file with
    | nil => simp [strip]
    | cons b file =>
      rw [strip]
      by_cases h : a = b
      · simp [h, ih]
      · rw [if_neg h]
        simp [Ne.symm h]

theorem strip_append (ip rel : Path) : strip ip (ip ++ rel) = some rel := strip_some.mpr rfl

/-- No component starts with two dots. -/
def NoDots (p : Path) : Prop := ∀ c ∈ p, ¬ ['.', '.'] <+: c

theorem dotted_false {p : Path} (h : NoDots p) : dotted p = false := by
  unfold dotted
  split
  · rename_i cs ps
    exact absurd ⟨cs, rfl⟩ (h _ (List.mem_cons_self ..))
  · rfl

/-- C74, `paths=source_relative` (partial: for paths whose components do not start with two dots): the
directory of the generated file is that of the proto file, relative to the first import path that contains
it. -/
theorem C74_source_relative_partial (cfg : Cfg) (f : File) (before after : List Path) (ip dir : Path)
    (base : Text) (hm : cfg.mode = .sourceRelative) (hi : cfg.importPaths = before ++ ip :: after)
    (hb : ∀ p ∈ before, ¬ p <+: f.name) (hn : f.name = ip ++ (dir ++ [base])) (hd : NoDots f.name) :
    outputPath cfg f = some (dir ++ [fileName f]) := by
  have key : relativePath cfg.importPaths f.name = dir ++ [base] := by
    rw [hi]
    clear hi
    induction before with
    | nil =>
      rw [List.nil_append, relativePath, hn, strip_append]
      have : dotted (dir ++ [base]) = false := dotted_false fun c hc => hd c (by rw [hn]; exact List.mem_append_right _ hc)
      simp only [this, Bool.false_eq_true, if_false]
    | cons p before ih =>
      have hs : strip p f.name = none := by
        cases h : strip p f.name with
        | none => rfl
        | some rel => exact absurd ⟨rel, (strip_some.mp h).symm⟩ (hb p (List.mem_cons_self ..))
      rw [List.cons_append, relativePath, hs]
      exact ih fun q hq => hb q (List.mem_cons_of_mem _ hq)
  simp [outputPath, outputDir, hm, key]

/-- Without an import path that contains the file, its own directory is used. -/
theorem C74_source_relative_outside (cfg : Cfg) (f : File) (dir : Path) (base : Text)
    (hm : cfg.mode = .sourceRelative) (hi : ∀ p ∈ cfg.importPaths, ¬ p <+: f.name) (hn : f.name = dir ++ [base]) :
    outputPath cfg f = some (dir ++ [fileName f]) := by
  have key : ∀ ips : List Path, (∀ p ∈ ips, ¬ p <+: f.name) → relativePath ips f.name = f.name := by
    intro ips h
    induction ips with
    | nil => rfl
    | cons p ips ih =>
      have hs : strip p f.name = none := by
        cases hs : strip p f.name with
        | none => rfl
        | some rel => exact absurd ⟨rel, (strip_some.mp hs).symm⟩ (h p (List.mem_cons_self ..))
      rw [relativePath, hs]
      exact ih fun q hq => h q (List.mem_cons_of_mem _ hq)
  simp only [outputPath, outputDir, hm, key _ hi, Option.map_some]
  simp [hn]

/-- C74, `module=prefix` (partial: the package is the module or below it): the module followed by the
directory of the generated file is the import path of the package. -/
theorem C74_module_partial (cfg : Cfg) (f : File) (mod dir : Path) (hm : cfg.mode = .modulePrefix)
    (hp : cfg.prefix = render mod) (hg : f.goPackage = some (render (mod ++ dir))) (hne : mod ≠ [])
    (hc : Clean (mod ++ dir)) : outputPath cfg f = some (dir ++ [fileName f]) := by
  have hd : Clean dir := fun c h => hc c (List.mem_append_right _ h)
  cases dir with
  | nil =>
    rw [List.append_nil] at hg
    have : trimPrefix (render mod) (render mod) = [] := by
      simpa using trimPrefix_self (render mod) []
    simp only [outputPath, outputDir, hm, hp, hg, this, Option.map_some]
    simp [trimPrefix, comps, split]
  | cons d ds =>
    rw [render_append _ _ hne (by simp)] at hg
    have h2 : trimPrefix ['/'] ('/' :: render (d :: ds)) = render (d :: ds) := trimPrefix_self ['/'] _
    simp only [outputPath, outputDir, hm, hp, hg, trimPrefix_self, h2, Option.map_some, comps_render _ hd]

/-- C74, `paths=import`: the directory is the import path of the package. -/
theorem C74_import (cfg : Cfg) (f : File) (dir : Path) (hm : cfg.mode = .import)
    (hg : f.goPackage = some (render dir)) (hc : Clean dir) : outputPath cfg f = some (dir ++ [fileName f]) := by
  simp [outputPath, outputDir, hm, hg, comps_render _ hc]

example : outputPath ⟨.modulePrefix, render [['e', 'x'], ['m']], []⟩
    ⟨[['a'], ['b', '.', 'p', 'r', 'o', 't', 'o']], 0, some (render [['e', 'x'], ['m'], ['g', 'e', 'n']]), true, false⟩ =
    some [['g', 'e', 'n'], 'b' :: suffix] := by decide

example : outputPath ⟨.sourceRelative, [], [[['x']], [['a']]]⟩
    ⟨[['a'], ['b'], ['C', '.', 'p', 'r', 'o', 't', 'o']], 0, none, true, false⟩ =
    some [['b'], 'c' :: suffix] := by decide

/-- C74 fails for `module=m` and a package that is not in the module: the prefix is cut off in the middle
of a name, so its files are written as if they were in the module.  (protoc-gen-go reports an error.) -/
theorem C74_module_false : ¬ ∀ (cfg : Cfg) (f : File) (mod pkg p : Path), cfg.mode = .modulePrefix →
    cfg.prefix = render mod → f.goPackage = some (render pkg) → Clean mod → Clean pkg →
    outputPath cfg f = some p → ∃ dir, pkg = mod ++ dir ∧ p = dir ++ [fileName f] := by
  intro h
  obtain ⟨dir, h1, -⟩ := h ⟨.modulePrefix, ['m'], []⟩ ⟨[['a']], 0, some ['m', 'o', '/', 'g'], true, false⟩ [['m']]
    [['m', 'o'], ['g']] [['o'], ['g'], 'a' :: suffix] rfl rfl rfl (by unfold Clean; decide) (by unfold Clean; decide)
    (by decide)
  simp at h1

/-- C74 fails for directories whose name starts with two dots: the import path is ignored. -/
theorem C74_dots_false : ¬ ∀ (cfg : Cfg) (f : File) (ip dir : Path) (base : Text), cfg.mode = .sourceRelative →
    cfg.importPaths = [ip] → f.name = ip ++ (dir ++ [base]) → outputPath cfg f = some (dir ++ [fileName f]) := by
  intro h
  have := h ⟨.sourceRelative, [], [[['i']]]⟩ ⟨[['i'], ['.', '.', 'd'], ['a']], 0, none, true, false⟩ [['i']]
    [['.', '.', 'd']] ['a'] rfl rfl rfl
  revert this
  decide

/-! ## Different files -/

/-- The base name of a proto file is in lower case. -/
def Lower (n : Text) : Prop := n.map Char.toLower = n

/-- C74, different files (partial: for base names in lower case and without import paths): files with
different names are written to different places. -/
theorem C74_distinct_partial (cfg : Cfg) (f g : File) (df dg : Path) (nf ng : Text)
    (hm : cfg.mode = .sourceRelative) (hi : cfg.importPaths = []) (hf : IsProto f df nf) (hg : IsProto g dg ng)
    (hlf : Lower nf) (hlg : Lower ng) (hne : f.name ≠ g.name) : outputPath cfg f ≠ outputPath cfg g := by
  rw [C74_source_relative_outside cfg f df _ hm (by simp [hi]) hf,
    C74_source_relative_outside cfg g dg _ hm (by simp [hi]) hg, C74_name f df nf hf, C74_name g dg ng hg, hlf, hlg]
  intro h
  simp only [Option.some.injEq] at h
  obtain ⟨h1, h2⟩ := List.append_inj' h rfl
  simp only [List.cons.injEq, and_true] at h2
  apply hne
  rw [hf, hg, h1, List.append_cancel_right h2]

/-- With the packages as directories, two files collide exactly if their packages and their base names are
the same, up to upper and lower case. -/
theorem C74_import_distinct (cfg : Cfg) (f g : File) (pf pg df dg : Path) (nf ng : Text) (hm : cfg.mode = .import)
    (hgf : f.goPackage = some (render pf)) (hgg : g.goPackage = some (render pg)) (hcf : Clean pf) (hcg : Clean pg)
    (hf : IsProto f df nf) (hg : IsProto g dg ng) :
    outputPath cfg f = outputPath cfg g ↔ pf = pg ∧ nf.map Char.toLower = ng.map Char.toLower := by
  rw [C74_import cfg f pf hm hgf hcf, C74_import cfg g pg hm hgg hcg, C74_name f df nf hf, C74_name g dg ng hg]
  constructor
  · intro h
    simp only [Option.some.injEq] at h
    obtain ⟨h1, h2⟩ := List.append_inj' h rfl
    simp only [List.cons.injEq, and_true] at h2
    exact ⟨h1, List.append_cancel_right h2⟩
  · rintro ⟨rfl, h⟩
    rw [h]

/-- C74 fails for names that differ only in case: both files are written to one place. -/
theorem C74_case_false : ¬ ∀ (cfg : Cfg) (f g : File), cfg.mode = .sourceRelative → cfg.importPaths = [] →
    f.name ≠ g.name → outputPath cfg f ≠ outputPath cfg g := by
  intro h
  exact h ⟨.sourceRelative, [], []⟩ ⟨['a' :: protoExt], 0, none, true, false⟩ ⟨['A' :: protoExt], 0, none, true, false⟩
    rfl rfl (by decide) (by decide)

/-! ## The files -/

/-- The files code is generated for: those with a federated service or a plugin, and those of their
packages. -/
def Wanted (files : List File) (f : File) : Prop :=
  f ∈ files ∧ ∃ g ∈ files, g.package = f.package ∧ (g.service = true ∨ g.plugin = true)

theorem addNew_mem (fs acc : List File) (f : File) :
    f ∈ addNew acc fs → f ∈ acc ∨ f ∈ fs := by
  induction fs generalizing acc with
  | nil => exact Or.inl
  | cons g fs ih =>
    rw [addNew]
    intro h
    rcases ih _ h with h | h
    · split at h
      · exact Or.inl h
      · rcases List.mem_append.mp h with h | h
        · exact Or.inl h
        · simp at h
          exact Or.inr (by simp [h])
    · exact Or.inr (List.mem_cons_of_mem _ h)

theorem addNew_keep (fs acc : List File) (f : File) (h : f ∈ acc) : f ∈ addNew acc fs := by
  induction fs generalizing acc with
  | nil => exact h
  | cons g fs ih =>
    rw [addNew]
    apply ih
    split
    · exact h
    · exact List.mem_append_left _ h

theorem addNew_all (fs acc : List File) : ∀ f ∈ fs, ∃ g ∈ addNew acc fs, g.name = f.name := by
  induction fs generalizing acc with
  | nil => simp
  | cons h fs ih =>
    intro f hf
    rw [addNew]
    rcases List.mem_cons.mp hf with rfl | hf
    · by_cases hc : acc.any (fun g => g.name = f.name) = true
      · rw [if_pos hc]
        obtain ⟨g, hg, hgn⟩ := List.any_eq_true.mp hc
        exact ⟨g, addNew_keep _ _ _ hg, by simpa using hgn⟩
      · rw [if_neg hc]
        exact ⟨f, addNew_keep _ _ _ (by simp), rfl⟩
    · exact ih _ f hf

theorem nodup_snoc {acc : List File} {f : File} (h : (acc.map File.name).Nodup)
    (hc : ¬ acc.any (fun g => g.name = f.name) = true) : ((acc ++ [f]).map File.name).Nodup := by
  rw [List.map_append, List.nodup_append]
  refine ⟨h, by simp, ?_⟩
  intro a ha b hb heq
  obtain ⟨g, hg, rfl⟩ := List.mem_map.mp ha
  simp at hb
  exact hc (List.any_eq_true.mpr ⟨g, hg, by simp [heq, hb]⟩)

theorem addNew_nodup (fs acc : List File) (h : (acc.map File.name).Nodup) : ((addNew acc fs).map File.name).Nodup := by
  induction fs generalizing acc with
  | nil => exact h
  | cons g fs ih =>
    rw [addNew]
    apply ih
    by_cases hc : acc.any (fun x => x.name = g.name) = true
    · rw [if_pos hc]; exact h
    · rw [if_neg hc]; exact nodup_snoc h hc

theorem resultFiles_nodup (all fs acc : List File) (h : (acc.map File.name).Nodup) :
    ((resultFiles all acc fs).map File.name).Nodup := by
  induction fs generalizing acc with
  | nil => exact h
  | cons f fs ih =>
    rw [resultFiles]
    by_cases h1 : (f.service || f.plugin) = true
    · rw [if_pos h1]
      by_cases h2 : acc.any (fun g => g.name = f.name) = true
      · rw [if_pos h2]; exact ih _ h
      · rw [if_neg h2]; exact ih _ (addNew_nodup _ _ (nodup_snoc h h2))
    · rw [if_neg h1]; exact ih _ h

theorem resultFiles_keep (all fs acc : List File) (f : File) (h : f ∈ acc) : f ∈ resultFiles all acc fs := by
  induction fs generalizing acc with
  | nil => exact h
  | cons g fs ih =>
    rw [resultFiles]
    split
    · split
      · exact ih _ h
      · exact ih _ (addNew_keep _ _ _ (List.mem_append_left _ h))
    · exact ih _ h

theorem resultFiles_sound (all fs acc : List File) (hs : ∀ f ∈ fs, f ∈ all) (ha : ∀ f ∈ acc, Wanted all f) :
    ∀ f ∈ resultFiles all acc fs, Wanted all f := by
  induction fs generalizing acc with
  | nil => exact ha
  | cons g fs ih =>
    have hs' : ∀ f ∈ fs, f ∈ all := fun f hf => hs f (List.mem_cons_of_mem _ hf)
    rw [resultFiles]
    by_cases h1 : (g.service || g.plugin) = true
    · rw [if_pos h1]
      by_cases h2 : acc.any (fun x => x.name = g.name) = true
      · rw [if_pos h2]; exact ih _ hs' ha
      · rw [if_neg h2]
        apply ih _ hs'
        have hg : g ∈ all := hs g (List.mem_cons_self ..)
        rw [Bool.or_eq_true] at h1
        intro f hf
        rcases addNew_mem _ _ _ hf with hf | hf
        · rcases List.mem_append.mp hf with hf | hf
          · exact ha f hf
          · simp at hf
            exact hf ▸ ⟨hg, g, hg, rfl, h1⟩
        · obtain ⟨hf, hp⟩ := List.mem_filter.mp hf
          simp only [decide_eq_true_eq] at hp
          exact ⟨hf, g, hg, hp.1.symm, h1⟩
    · rw [if_neg h1]; exact ih _ hs' ha

/-- A set of files that contains with each file all of its package. -/
theorem resultFiles_complete (all fs acc : List File) (hn : (all.map File.name).Nodup) (hs : ∀ f ∈ fs, f ∈ all)
    (hin : ∀ f ∈ acc, f ∈ all)
    (ha : ∀ f ∈ acc, ∀ g ∈ all, g.package = f.package → g ∈ acc) :
    ∀ f ∈ fs, (f.service = true ∨ f.plugin = true) → ∀ g ∈ all, g.package = f.package →
      g ∈ resultFiles all acc fs := by
  have huniq : ∀ a ∈ all, ∀ b ∈ all, a.name = b.name → a = b := by
    clear hs hin ha
    induction all with
    | nil => simp
    | cons x xs ih =>
      rw [List.map_cons, List.nodup_cons] at hn
      intro a ha' b hb' hab
      rcases List.mem_cons.mp ha' with rfl | ha
      · rcases List.mem_cons.mp hb' with rfl | hb
        · rfl
        · exact absurd (hab ▸ List.mem_map_of_mem hb) hn.1
      · rcases List.mem_cons.mp hb' with rfl | hb
        · exact absurd (hab ▸ List.mem_map_of_mem ha) hn.1
        · exact ih hn.2 a ha b hb hab
  induction fs generalizing acc with
  | nil => simp
  | cons h fs ih =>
    have hh : h ∈ all := hs h (List.mem_cons_self ..)
    have hs' : ∀ f ∈ fs, f ∈ all := fun f hf => hs f (List.mem_cons_of_mem _ hf)
    rw [resultFiles]
    by_cases h1 : (h.service || h.plugin) = true
    · rw [if_pos h1]
      by_cases h2 : acc.any (fun x => x.name = h.name) = true
      · rw [if_pos h2]
        intro f hf hr g hg hp
        rcases List.mem_cons.mp hf with rfl | hf
        · obtain ⟨x, hx, hxn⟩ := List.any_eq_true.mp h2
          have : x = f := huniq x (hin x hx) f hh (by simpa using hxn)
          exact resultFiles_keep _ _ _ _ (ha f (this ▸ hx) g hg hp)
        · exact ih acc hs' hin ha f hf hr g hg hp
      · rw [if_neg h2]
        have hsub : ∀ f ∈ addNew (acc ++ [h]) (all.filter fun g => g.package = h.package ∧ g ≠ h), f ∈ all := by
          intro f hf
          rcases addNew_mem _ _ _ hf with hf | hf
          · rcases List.mem_append.mp hf with hf | hf
            · exact hin f hf
            · simp at hf; exact hf ▸ hh
          · exact (List.mem_filter.mp hf).1
        have hpkg : ∀ g ∈ all, g.package = h.package →
            g ∈ addNew (acc ++ [h]) (all.filter fun g => g.package = h.package ∧ g ≠ h) := by
          intro g hg hp
          by_cases hgh : g = h
          · exact addNew_keep _ _ _ (by simp [hgh])
          · obtain ⟨x, hx, hxn⟩ := addNew_all (all.filter fun g => g.package = h.package ∧ g ≠ h) (acc ++ [h]) g
              (List.mem_filter.mpr ⟨hg, by simp [hp, hgh]⟩)
            exact huniq x (hsub x hx) g hg hxn ▸ hx
        have hcl : ∀ f ∈ addNew (acc ++ [h]) (all.filter fun g => g.package = h.package ∧ g ≠ h), ∀ g ∈ all,
            g.package = f.package → g ∈ addNew (acc ++ [h]) (all.filter fun g => g.package = h.package ∧ g ≠ h) := by
          intro f hf g hg hp
          rcases addNew_mem _ _ _ hf with hf | hf
          · rcases List.mem_append.mp hf with hf | hf
            · exact addNew_keep _ _ _ (List.mem_append_left _ (ha f hf g hg hp))
            · simp at hf; exact hpkg g hg (hf ▸ hp)
          · have := (List.mem_filter.mp hf).2
            simp only [decide_eq_true_eq] at this
            exact hpkg g hg (hp.trans this.1)
        intro f hf hr g hg hp
        rcases List.mem_cons.mp hf with rfl | hf
        · exact resultFiles_keep _ _ _ _ (hpkg g hg hp)
        · exact ih _ hs' hsub hcl f hf hr g hg hp
    · rw [if_neg h1]
      intro f hf hr g hg hp
      rcases List.mem_cons.mp hf with rfl | hf
      · rw [Bool.or_eq_true] at h1
        exact absurd hr h1
      · exact ih acc hs' hin ha f hf hr g hg hp

/-- C74, generated files (partial: if some file has a federated service): code is generated once for each
file with a federated service or a plugin and for each file of their packages, and for no other. -/
theorem C74_files_partial (files : List File) (hn : (files.map File.name).Nodup)
    (hs : ∃ f ∈ files, f.service = true) :
    ((resolve files).map File.name).Nodup ∧ ∀ f, f ∈ resolve files ↔ Wanted files f := by
  have : files.any File.service = true := List.any_eq_true.mpr hs
  unfold resolve
  rw [if_pos this]
  refine ⟨resultFiles_nodup _ _ _ (by simp), fun f => ⟨?_, ?_⟩⟩
  · exact resultFiles_sound files files [] (fun _ h => h) (by simp) f
  · rintro ⟨hf, g, hg, hp, hr⟩
    exact resultFiles_complete files files [] hn (fun _ h => h) (by simp) (by simp) g hg hr f hf hp.symm

example : resolve [⟨[['a']], 0, none, false, false⟩, ⟨[['b']], 0, none, true, false⟩, ⟨[['c']], 1, none, false, true⟩,
    ⟨[['d']], 2, none, false, false⟩] =
    [⟨[['b']], 0, none, true, false⟩, ⟨[['a']], 0, none, false, false⟩, ⟨[['c']], 1, none, false, true⟩] := by decide

/-- C74 fails without a federated service: no code is generated for plugins. -/
theorem C74_plugin_false : ¬ ∀ files : List File, (files.map File.name).Nodup →
    ∀ f, f ∈ resolve files ↔ Wanted files f := by
  intro h
  have := (h [⟨[['a']], 0, none, false, true⟩] (by decide) ⟨[['a']], 0, none, false, true⟩).mpr
    ⟨by simp, _, by simp, rfl, Or.inr rfl⟩
  revert this
  decide

/-- C74 fails for protoc: code is also generated for imported files that the request does not ask for. -/
theorem C74_requested_false : ¬ ∀ (cfg : Cfg) (toGenerate : List Path) (files : List File) (paths : List Path),
    protoc cfg toGenerate files = some paths →
    ∀ p ∈ paths, ∃ f ∈ files, f.name ∈ toGenerate ∧ outputPath cfg f = some p := by
  intro h
  have := h ⟨.sourceRelative, [], []⟩ [[['a']]]
    [⟨[['b']], 0, none, true, false⟩, ⟨[['a']], 1, none, true, false⟩]
    [['b' :: suffix], ['a' :: suffix]] (by decide) ['b' :: suffix] (by simp)
  revert this
  decide

/-! ## The generator -/

/-- C74, generator (partial: for the modes that use the package): the generator writes every file where the
protoc plugin does, whichever proto file it processes. -/
theorem C74_generator_partial (cfg : Cfg) (protoPath : Path) (toGenerate : List Path) (files : List File)
    (hm : cfg.mode ≠ .sourceRelative) : generator cfg protoPath files = protoc cfg toGenerate files := by
  unfold generator protoc outputPath
  congr 1
  apply List.map_congr_left
  intro f _
  congr 1
  unfold outputDir
  cases h : cfg.mode with
  | sourceRelative => exact absurd h hm
  | «import» => rfl
  | modulePrefix => rfl

/-- C74, generator with `paths=source_relative` (partial: for the proto file that is processed): its code is
written next to it, below the import path. -/
theorem C74_generator_own_partial (cfg : Cfg) (f : File) (ip dir : Path) (base : Text)
    (hm : cfg.mode = .sourceRelative) (hi : cfg.importPaths = [ip]) (hn : f.name = dir ++ [base])
    (hd : NoDots f.name) (hs : f.service = true) :
    generator cfg (ip ++ f.name) [f] = some [dir ++ [fileName f]] := by
  have h1 : dotted f.name = false := dotted_false hd
  have h2 : resolve [f] = [f] := by
    simp [resolve, hs, resultFiles, addNew]
  have h3 : relativePath [ip] (ip ++ f.name) = f.name := by
    rw [relativePath, strip_append]
    simp [h1]
  rw [generator, h2]
  simp only [List.map_cons, List.map_nil, outputDir, hm, hi, h3]
  simp [allSome, hn]

/-- C74 fails for the generator with `paths=source_relative`: the code of an imported plugin or service is
written next to the importing file. -/
theorem C74_generator_false : ¬ ∀ (cfg : Cfg) (f : File) (files : List File) (paths : List Path), f ∈ files →
    cfg.mode = .sourceRelative → generator cfg f.name files = some paths →
    ∀ p ∈ paths, ∃ g ∈ files, outputPath cfg g = some p := by
  intro h
  have := h ⟨.sourceRelative, [], []⟩ ⟨[['a'], ['f']], 1, none, true, false⟩
    [⟨[['b'], ['p']], 0, none, false, true⟩, ⟨[['a'], ['f']], 1, none, true, false⟩]
    [[['a'], 'p' :: suffix], [['a'], 'f' :: suffix]] (by simp) rfl (by decide) [['a'], 'p' :: suffix] (by simp)
  revert this
  decide

end Verif.OutPath
