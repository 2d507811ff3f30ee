import Verif.Compile.Lemmas

/-! # C88: the right files are compiled -/

namespace Verif.Compile

/-! ## Specification -/

/-- An absolute path without superfluous parts. -/
def CleanAbs (t : Text) : Prop := isAbs t = true ∧ clean t = t

/-- The directory contains the file, at any depth. -/
def Below (d f : Text) : Prop := (parse d).parts <+: (parse f).parts

/-- The text of one path starts with the text of the other. -/
def StartsWith (f d : Text) : Prop := d <+: f

/-- A file is reachable over imports. -/
inductive Reach : Linked → Linked → Prop
  | refl (f : Linked) : Reach f f
  | step {f g h : Linked} : g ∈ f.imports → Reach g h → Reach f h

/-- Files with the same name are the same file. -/
def Consistent (fs : List Linked) : Prop :=
  ∀ f ∈ fs, ∀ f' ∈ fs, ∀ g g', Reach f g → Reach f' g' → g.name = g'.name → g = g'

/-! ## Names -/

theorem toAbs_of_abs {cwd t : Text} (h : isAbs t = true) : toAbs cwd t = t := by simp [toAbs, h]

theorem relLoop_none (cwd p : Text) : ∀ ips : List Text, (∀ i ∈ ips, ¬toAbs cwd i <+: toAbs cwd p) → relLoop cwd p ips = p
  | [], _ => rfl
  | i :: is, h => by
    rw [relLoop, if_neg (by rw [List.isPrefixOf_iff_prefix]; exact h i (by simp))]
    exact relLoop_none cwd p is fun j hj => h j (List.mem_cons_of_mem _ hj)

theorem relLoop_some (cwd p i : Text) (post : List Text) (hi : toAbs cwd i <+: toAbs cwd p) :
    ∀ pre : List Text, (∀ q ∈ pre, ¬toAbs cwd q <+: toAbs cwd p) →
      relLoop cwd p (pre ++ i :: post) = rel (toAbs cwd i) (toAbs cwd p)
  | [], _ => by rw [List.nil_append, relLoop, if_pos (List.isPrefixOf_iff_prefix.2 hi)]
  | q :: qs, h => by
    rw [List.cons_append, relLoop, if_neg (by rw [List.isPrefixOf_iff_prefix]; exact h q (by simp))]
    exact relLoop_some cwd p i post hi qs fun j hj => h j (List.mem_cons_of_mem _ hj)

theorem text_of_clean {t : Text} (h : CleanAbs t) : (Path.mk true (parse t).parts).text = t := by
  have hr : (parse t).rooted = true := h.1
  have hp : parse t = ⟨true, (parse t).parts⟩ := by
    cases hq : parse t with
    | mk r ps => rw [hq] at hr; simp at hr; simp [hr]
  rw [← hp]; exact h.2

/-- C88: the name of a file, joined with one of the import paths, is the file; or the name is its path. -/
theorem C88_same_file (cwd p : Text) (ips : List Text) (hw : isAbs cwd = true) :
    relativePath cwd p ips = p ∨
      ∃ i ∈ ips, join (toAbs cwd i) (relativePath cwd p ips) = clean (toAbs cwd p) := by
  unfold relativePath
  induction ips with
  | nil => exact .inl rfl
  | cons i is ih =>
    rw [relLoop]
    split
    · exact .inr ⟨i, by simp, join_rel (isAbs_toAbs hw i) (isAbs_toAbs hw p)⟩
    · rcases ih with h | ⟨j, hj, h⟩
      · exact .inl h
      · exact .inr ⟨j, List.mem_cons_of_mem _ hj, h⟩

/-- C88: the name of a file is its path below the first import path that contains it, and its path itself if none
does, if every import path whose text its path starts with contains it.  Missing: see `C88_name_false`. -/
theorem C88_name_partial (cwd p : Text) (ips : List Text) (hp : CleanAbs p) (hi : ∀ i ∈ ips, CleanAbs i)
    (hd : ∀ i ∈ ips, StartsWith p i → Below i p) :
    (∀ pre i post, ips = pre ++ i :: post → (∀ q ∈ pre, ¬Below q p) → Below i p →
      ∃ rest, (parse p).parts = (parse i).parts ++ rest ∧ relativePath cwd p ips = (Path.mk false rest).text) ∧
    ((∀ i ∈ ips, ¬Below i p) → relativePath cwd p ips = p) := by
  constructor
  · intro pre i post he hpre hb
    have hmem : i ∈ ips := by rw [he]; simp
    have hpfx : toAbs cwd i <+: toAbs cwd p := by
      rw [toAbs_of_abs (hi i hmem).1, toAbs_of_abs hp.1, ← text_of_clean (hi i hmem), ← text_of_clean hp]
      exact prefix_of_parts hb
    have hnot : ∀ q ∈ pre, ¬toAbs cwd q <+: toAbs cwd p := by
      intro q hq h
      have hqm : q ∈ ips := by rw [he]; simp [hq]
      rw [toAbs_of_abs (hi q hqm).1, toAbs_of_abs hp.1] at h
      exact hpre q hq (hd q hqm h)
    unfold relativePath
    rw [he, relLoop_some cwd p i post hpfx pre hnot, toAbs_of_abs (hi i hmem).1, toAbs_of_abs hp.1]
    refine ⟨(parse p).parts.drop (parse i).parts.length, ?_, ?_⟩
    · obtain ⟨r, hr⟩ := hb
      rw [← hr]; simp
    · unfold rel
      rw [relParts_prefix _ _ hb]
  · intro h
    refine relLoop_none cwd p ips fun i hm hs => ?_
    rw [toAbs_of_abs (hi i hm).1, toAbs_of_abs hp.1] at hs
    exact h i hm (hd i hm hs)

/-- C88 is false of the code for directories whose names start with the name of an import path: the file `x.proto`
below the import path `/a/bc` is named `../bc/x.proto`, because its path starts with the text `/a/b`. -/
theorem C88_name_false :
    CleanAbs "/a/bc/x.proto".toList ∧ (∀ i ∈ ["/a/b".toList, "/a/bc".toList], CleanAbs i) ∧
    ¬Below "/a/b".toList "/a/bc/x.proto".toList ∧ Below "/a/bc".toList "/a/bc/x.proto".toList ∧
    ∀ cwd, relativePath cwd "/a/bc/x.proto".toList ["/a/b".toList, "/a/bc".toList] = "../bc/x.proto".toList := by
  refine ⟨by unfold CleanAbs; decide, ?_, ?_, ?_, ?_⟩
  · intro i hi
    rcases List.mem_cons.1 hi with rfl | hi
    · unfold CleanAbs; decide
    · rcases List.mem_cons.1 hi with rfl | hi
      · unfold CleanAbs; decide
      · cases hi
  · unfold Below; decide
  · unfold Below; decide
  · intro cwd
    have h1 : toAbs cwd "/a/b".toList = "/a/b".toList := toAbs_of_abs (by decide)
    have h2 : toAbs cwd "/a/bc/x.proto".toList = "/a/bc/x.proto".toList := toAbs_of_abs (by decide)
    unfold relativePath
    rw [relLoop, h1, h2, if_pos (by decide)]
    decide

/-! ## Contents -/

variable {α : Type}

theorem findSome?_skip {β γ : Type} (f : β → Option γ) (x : β) (post : List β) (c : γ) (h : f x = some c) :
    ∀ pre : List β, (∀ q ∈ pre, f q = none) → (pre ++ x :: post).findSome? f = some c
  | [], _ => by simp [h]
  | q :: qs, hq => by
    rw [List.cons_append, List.findSome?_cons, hq q (by simp)]
    exact findSome?_skip f x post c h qs fun y hy => hq y (List.mem_cons_of_mem _ hy)

/-- C88: the file itself is compiled with the text of the editor, if no file of that name is found before it. -/
theorem C88_edited_partial (w : World α) (manual : Bool) (f : Source α) (hf : CleanAbs f.path) :
    (∀ pre i post, isAbs i = true → StartsWith f.path i → (∀ q ∈ pre, ¬toAbs w.cwd q <+: f.path) →
      (∀ q ∈ pre, access w manual f (join q (relativePath w.cwd f.path (pre ++ i :: post))) = none) →
      find w manual (pre ++ i :: post) f (relativePath w.cwd f.path (pre ++ i :: post)) = some f.content) ∧
    (∀ ips, (∀ i ∈ ips, ¬toAbs w.cwd i <+: f.path) →
      (∀ q ∈ ips ++ [dir f.path], access w manual f (join q f.path) = none) →
      relativePath w.cwd f.path ips = f.path ∧ find w manual ips f f.path = some f.content) := by
  have hfa : toAbs w.cwd f.path = f.path := toAbs_of_abs hf.1
  constructor
  · intro pre i post ha hs hn hacc
    have hr : relativePath w.cwd f.path (pre ++ i :: post) = rel i f.path := by
      unfold relativePath
      rw [relLoop_some w.cwd f.path i post (by rw [toAbs_of_abs ha, hfa]; exact hs) pre (by rw [hfa]; exact hn),
        toAbs_of_abs ha, hfa]
    have hj : join i (relativePath w.cwd f.path (pre ++ i :: post)) = f.path := by
      rw [hr, join_rel ha hf.1, hf.2]
    unfold find search
    rw [List.append_assoc, List.cons_append]
    rw [findSome?_skip _ i _ f.content (by rw [hj]; simp [access]) pre hacc]
  · intro ips hn hacc
    have hr : relativePath w.cwd f.path ips = f.path := relLoop_none _ _ _ (by rw [hfa]; exact hn)
    refine ⟨hr, ?_⟩
    have hj : join [] f.path = f.path := by
      unfold join
      rw [if_pos rfl, if_neg (ne_nil_of_isAbs hf.1), hf.2]
    unfold find search
    rw [hr]
    have : ips ++ [dir f.path, []] = (ips ++ [dir f.path]) ++ [] :: [] := by simp
    rw [this, findSome?_skip _ [] [] f.content (by rw [hj]; simp [access]) _ hacc]

/-- C88 is false of the code for relative import paths: the file of the editor, which has an absolute path, is
compiled with the text on the disk. -/
theorem C88_relative_false :
    ∃ (w : World String) (f : Source String) (ips : List Text), isAbs w.cwd = true ∧ CleanAbs f.path ∧
      f.content = "edited" ∧ w.open f.path = some "saved" ∧
      find w false ips f (relativePath w.cwd f.path ips) = some "saved" := by
  refine ⟨⟨fun p => if p = "/w/proto/x.proto".toList then some "saved" else none, "/w".toList, [], fun _ => none⟩,
    ⟨"/w/proto/x.proto".toList, "edited", [], []⟩, ["proto".toList], ?_⟩
  unfold CleanAbs
  decide

/-- C88 is false of the code for two files of the same name: the one below the first import path is compiled
instead of the one that was given. -/
theorem C88_shadowed_false :
    ∃ (w : World String) (f : Source String) (ips : List Text), isAbs w.cwd = true ∧ CleanAbs f.path ∧
      (∀ i ∈ ips, CleanAbs i) ∧ f.content = "given" ∧ w.open f.path = some "given" ∧
      find w false ips f (relativePath w.cwd f.path ips) = some "other" := by
  refine ⟨⟨fun p => if p = "/a/x.proto".toList then some "other" else if p = "/b/x.proto".toList then some "given" else none,
      "/w".toList, [], fun _ => none⟩,
    ⟨"/b/x.proto".toList, "given", [], []⟩, ["/a".toList, "/b".toList], ?_⟩
  unfold CleanAbs
  decide

/-- C88: an imported file is the first one that is found below the import paths, the directory of the file and the
working directory, if its name does not end like that of a file that comes with the compiler. -/
theorem C88_import_partial (w : World α) (manual : Bool) (ips : List Text) (f : Source α) (name : Text)
    (hb : manual = true ∨ ∀ i ∈ ips ++ [dir (relativePath w.cwd f.path ips), []], ∀ b ∈ w.builtin, ¬b.1 <:+ join i name) :
    find w manual ips f name =
      ((ips ++ [dir (relativePath w.cwd f.path ips), []]).findSome? fun i =>
        if join i name = f.path then some f.content else w.open (join i name)).or (w.standard name) := by
  have hs : search w manual ips f name =
      (ips ++ [dir (relativePath w.cwd f.path ips), []]).findSome? fun i =>
        if join i name = f.path then some f.content else w.open (join i name) := by
    unfold search
    generalize ips ++ [dir (relativePath w.cwd f.path ips), []] = l at hb ⊢
    induction l with
    | nil => rfl
    | cons i l ih =>
      have hi : access w manual f (join i name) =
          if join i name = f.path then some f.content else w.open (join i name) := by
        unfold access
        split
        · rfl
        · cases ho : w.open (join i name) with
          | some c => rfl
          | none =>
            rcases hb with hb | hb
            · simp [hb]
            · have : w.builtin.find? (fun b => b.1.isSuffixOf (join i name)) = none := by
                rw [List.find?_eq_none]
                intro b hbm
                have := hb i (by simp) b hbm
                simpa using this
              simp [this]
      rw [List.findSome?_cons, List.findSome?_cons, hi]
      split
      · rfl
      · exact ih (hb.imp_right fun h j hj => h j (List.mem_cons_of_mem _ hj))
  unfold find
  rw [hs]
  cases (ips ++ [dir (relativePath w.cwd f.path ips), []]).findSome? fun i =>
        if join i name = f.path then some f.content else w.open (join i name) <;> rfl

theorem join_good {i : Text} (hi : isAbs i = true) {ps : List Text} (hg : ∀ s ∈ ps, Good s) (hne : ps ≠ []) :
    join i (slashed ps) = (Path.mk true ((parse i).parts ++ ps)).text := by
  have h1 : slashed ps ≠ [] := by
    intro he
    have h2 := split_slashed ps (fun s hs => (hg s hs).2.1) hne
    rw [he] at h2
    have : ([] : Text) ∈ ps := by rw [← h2]; simp [split]
    exact (hg _ this).1 rfl
  unfold join
  rw [if_neg (ne_nil_of_isAbs hi), if_neg h1]
  unfold clean
  rw [parse_append _ hi, split_slashed ps (fun s hs => (hg s hs).2.1) hne, foldl_goods true ps _ hg]
  simp

theorem suffix_join {i : Text} (hi : isAbs i = true) {ps : List Text} (hg : ∀ s ∈ ps, Good s) (hne : ps ≠ []) :
    slashed ps <:+ join i (slashed ps) := by
  rw [join_good hi hg hne, text_rooted]
  by_cases h : (parse i).parts = []
  · rw [h]; exact ⟨['/'], rfl⟩
  · rw [slashed_append _ _ h hne]
    exact ⟨'/' :: slashed (parse i).parts ++ ['/'], by simp⟩

/-- C88: a file that comes with the compiler is used if no other file is there. -/
theorem C88_builtin_partial (w : World α) (i : Text) (ips : List Text) (f : Source α) (ps : List Text) (c : α)
    (hi : isAbs i = true) (hg : ∀ s ∈ ps, Good s) (hne : ps ≠ []) (hb : (slashed ps, c) ∈ w.builtin)
    (hu : ∀ b ∈ w.builtin, b.1 <:+ join i (slashed ps) → b = (slashed ps, c))
    (hf : join i (slashed ps) ≠ f.path) (ho : w.open (join i (slashed ps)) = none) :
    find w false (i :: ips) f (slashed ps) = some c := by
  have hx : w.builtin.find? (fun b => b.1.isSuffixOf (join i (slashed ps))) = some (slashed ps, c) := by
    cases h : w.builtin.find? (fun b => b.1.isSuffixOf (join i (slashed ps))) with
    | none =>
      rw [List.find?_eq_none] at h
      exact absurd (List.isSuffixOf_iff_suffix.2 (suffix_join hi hg hne)) (h _ hb)
    | some b =>
      rw [hu b (List.mem_of_find?_eq_some h) (List.isSuffixOf_iff_suffix.1 (List.find?_some (p := fun b : Text × α => b.1.isSuffixOf (join i (slashed ps))) h))]
  have ha : access w false f (join i (slashed ps)) = some c := by
    unfold access
    rw [if_neg hf, ho]
    simp [hx]
  unfold find search
  rw [List.cons_append, List.findSome?_cons, ha]

/-- C88 is false of the code for files the user has: one below the second import path is not used, if it has the
name of one that comes with the compiler. -/
theorem C88_builtin_false :
    ∃ (w : World String) (f : Source String) (ips : List Text) (name : Text), (∀ i ∈ ips, CleanAbs i) ∧
      (∃ i ∈ ips, w.open (join i name) = some "own") ∧
      (∀ i ∈ ips, w.open (join i name) = some "own" ∨ w.open (join i name) = none) ∧
      find w false ips f name = some "builtin" := by
  refine ⟨⟨fun p => if p = "/b/google/rpc/code.proto".toList then some "own" else none, "/w".toList,
      [("google/rpc/code.proto".toList, "builtin")], fun _ => none⟩,
    ⟨"/b/x.proto".toList, "given", [], []⟩, ["/a".toList, "/b".toList], "google/rpc/code.proto".toList, ?_⟩
  unfold CleanAbs
  decide

/-- C88 is false of the code for names that end like that of a file that comes with the compiler: an import of a
file that does not exist is accepted. -/
theorem C88_missing_false :
    ∃ (w : World String) (f : Source String), (∀ p, w.open p = none) ∧ (∀ n, w.standard n = none) ∧
      w.builtin = [("google/rpc/code.proto".toList, "builtin")] ∧
      find w false ["/a".toList] f "mygoogle/rpc/code.proto".toList = some "builtin" :=
  ⟨⟨fun _ => none, "/w".toList, [("google/rpc/code.proto".toList, "builtin")], fun _ => none⟩,
    ⟨"/a/x.proto".toList, "given", [], []⟩, fun _ => rfl, fun _ => rfl, rfl, by decide⟩

/-! ## The result -/

theorem reach_name_mem {f g : Linked} (h : Reach f g) : g.name ∈ descriptors f := by
  induction h with
  | refl f => exact mem_descriptors f
  | @step f g h hm _ ih =>
    cases f with
    | mk n is =>
      rw [descriptors, List.mem_append]
      exact .inl (descriptorsL_mem hm _ ih)

mutual
theorem mem_reach : ∀ (f : Linked) (n : Text), n ∈ descriptors f → ∃ g, Reach f g ∧ g.name = n
  | .mk m is, n, h => by
    rw [descriptors, List.mem_append] at h
    rcases h with h | h
    · obtain ⟨f, hf, g, hr, hn⟩ := mem_reachL is n h
      exact ⟨g, .step hf hr, hn⟩
    · simp at h; subst h
      exact ⟨_, .refl _, rfl⟩
theorem mem_reachL : ∀ (fs : List Linked) (n : Text), n ∈ descriptorsL fs → ∃ f ∈ fs, ∃ g, Reach f g ∧ g.name = n
  | [], n, h => by cases h
  | f :: fs, n, h => by
    rw [descriptorsL, List.mem_append] at h
    rcases h with h | h
    · exact ⟨f, by simp, mem_reach f n h⟩
    · obtain ⟨f', hf, r⟩ := mem_reachL fs n h
      exact ⟨f', List.mem_cons_of_mem _ hf, r⟩
end

theorem Reach.trans {f g h : Linked} (h1 : Reach f g) (h2 : Reach g h) : Reach f h := by
  induction h1 with
  | refl => exact h2
  | step hm _ ih => exact .step hm (ih h2)

/-- A name needs the names its file imports. -/
def Needs (roots : List Linked) (n m : Text) : Prop :=
  ∃ f ∈ roots, ∃ g, Reach f g ∧ g.name = n ∧ ∃ i ∈ g.imports, i.name = m

theorem ordered_snoc {needs : Text → Text → Prop} {l : List Text} {n : Text} (h : Ordered needs l)
    (hn : ∀ m, needs n m → m ∈ l) : Ordered needs (l ++ [n]) := by
  intro pre x post he m hm
  rcases List.append_eq_append_iff.1 he with ⟨c, h1, h2⟩ | ⟨c, h1, h2⟩
  · subst h1
    cases c with
    | nil =>
      simp at h2
      obtain ⟨rfl, rfl⟩ := h2
      simpa using hn m hm
    | cons d ds => simp at h2
  · cases c with
    | nil =>
      simp at h1 h2
      obtain ⟨rfl, rfl⟩ := h2
      subst h1
      exact hn m hm
    | cons d ds =>
      rw [List.cons_append, List.cons.injEq] at h2
      obtain ⟨rfl, rfl⟩ := h2
      exact h pre x ds h1 m hm

mutual
theorem ordered_descriptors (roots : List Linked) (hc : Consistent roots) (r : Linked) (hr : r ∈ roots) :
    ∀ f : Linked, Reach r f → Ordered (Needs roots) (descriptors f)
  | .mk n is, hf => by
    rw [descriptors]
    refine ordered_snoc (ordered_descriptorsL roots hc r hr is fun g hg => hf.trans (.step hg (.refl g))) ?_
    rintro m ⟨f', hf', g, hg, hn, i, hi, rfl⟩
    have : g = Linked.mk n is := hc f' hf' r hr g _ hg hf hn
    subst this
    exact descriptorsL_mem hi _ (mem_descriptors i)
theorem ordered_descriptorsL (roots : List Linked) (hc : Consistent roots) (r : Linked) (hr : r ∈ roots) :
    ∀ fs : List Linked, (∀ g ∈ fs, Reach r g) → Ordered (Needs roots) (descriptorsL fs)
  | [], _ => by
    intro pre n post h
    rw [descriptorsL] at h
    cases pre <;> cases h
  | f :: fs, h => by
    rw [descriptorsL]
    exact ordered_append (ordered_descriptors roots hc r hr f (h f (by simp)))
      (ordered_descriptorsL roots hc r hr fs fun g hg => h g (List.mem_cons_of_mem _ hg))
end

theorem ordered_roots (roots : List Linked) (hc : Consistent roots) :
    ∀ fs : List Linked, (∀ f ∈ fs, f ∈ roots) → Ordered (Needs roots) (descriptorsL fs)
  | [], _ => by
    intro pre n post h
    rw [descriptorsL] at h
    cases pre <;> cases h
  | f :: fs, h => by
    rw [descriptorsL]
    exact ordered_append (ordered_descriptors roots hc f (h f (by simp)) f (.refl f))
      (ordered_roots roots hc fs fun g hg => h g (List.mem_cons_of_mem _ hg))

/-- C88: the result has every file that is reachable over imports, each of them once, and each one after the files
it imports. -/
theorem C88_result (fs : List Linked) (hc : Consistent fs) :
    (∀ n, n ∈ protoFiles fs ↔ ∃ f ∈ fs, ∃ g, Reach f g ∧ g.name = n) ∧ (protoFiles fs).Nodup ∧
    ∀ pre n post, protoFiles fs = pre ++ n :: post → ∀ f ∈ fs, ∀ g, Reach f g → g.name = n →
      ∀ i ∈ g.imports, i.name ∈ pre := by
  refine ⟨fun n => ?_, addFile_nodup _ [] List.nodup_nil, ?_⟩
  · unfold protoFiles
    rw [addFile_mem]
    constructor
    · rintro (h | h)
      · cases h
      · exact mem_reachL fs n h
    · rintro ⟨f, hf, g, hr, rfl⟩
      exact .inr (descriptorsL_mem hf _ (reach_name_mem hr))
  · intro pre n post he f hf g hr hn i hi
    exact addFile_ordered _ (ordered_roots fs hc fs fun f h => h) pre n post he i.name ⟨f, hf, g, hr, hn, i, hi, rfl⟩

/-! ## Using a compiler again -/

theorem start_foldl (opts : List Opt) : ∀ c : Compiler,
    (opts.foldl Compiler.apply c).importPaths = c.importPaths ++ opts.flatMap (fun
      | .importPath ps => ps
      | _ => []) ∧
    ((opts.foldl Compiler.apply c).manualImport = true ↔ c.manualImport = true ∨ Opt.manualImport ∈ opts) ∧
    ((opts.foldl Compiler.apply c).importRule = true ↔ c.importRule = true ∨ Opt.importRule ∈ opts) := by
  induction opts with
  | nil => intro c; simp
  | cons o os ih =>
    intro c
    rw [List.foldl_cons]
    obtain ⟨h1, h2, h3⟩ := ih (c.apply o)
    refine ⟨?_, ?_, ?_⟩
    · rw [h1]; cases o <;> simp [Compiler.apply]
    · rw [h2]; cases o <;> simp [Compiler.apply]
    · rw [h3]; cases o <;> simp [Compiler.apply]

/-- C88: the result of a call has the file itself, its imports, the imports of the option if they are asked for, and
every file reachable from them, and nothing else, if protocompile gives a file for each name it is asked for. -/
theorem C88_compiled (w : World α) (link : (Text → Option α) → List Text → Option (List Linked)) (c : Compiler)
    (f : Source α) (ips : List Text) (rule : Bool) (res : List Text)
    (hl : ∀ look ns fs, link look ns = some fs → fs.map Linked.name = ns)
    (hflag : c.importRule = false)
    (hr : (compile w link c f (.importPath ips :: if rule then [.importRule] else [])).1 = some res) :
    ∃ fs : List Linked,
      fs.map Linked.name = relativePath w.cwd f.path ips :: (f.imports ++ if rule then f.optionImports else []) ∧
      ∀ n, n ∈ res ↔ ∃ r ∈ fs, ∃ g, Reach r g ∧ g.name = n := by
  generalize hc : c.start (.importPath ips :: if rule then [.importRule] else []) = c' at hr
  have h1 : c'.importPaths = ips := by
    subst hc
    cases rule <;> simp [Compiler.start, Compiler.apply]
  have h2 : c'.importRule = rule := by
    subst hc
    cases rule <;> simp [Compiler.start, Compiler.apply, hflag]
  have hcomp : (compile w link c f (.importPath ips :: if rule then [.importRule] else [])).1 =
      (link (find w c'.manualImport c'.importPaths f) (names c' w.cwd f)).map protoFiles := by
    subst hc; rfl
  rw [hcomp] at hr
  obtain ⟨fs, hfs, rfl⟩ := Option.map_eq_some_iff.1 hr
  refine ⟨fs, ?_, fun n => ?_⟩
  · rw [hl _ _ _ hfs, names, h1, h2]; rfl
  · unfold protoFiles
    rw [addFile_mem]
    constructor
    · rintro (h | h)
      · cases h
      · exact mem_reachL fs n h
    · rintro ⟨f, hf, g, hr, rfl⟩
      exact .inr (descriptorsL_mem hf _ (reach_name_mem hr))

example : (compile (⟨fun _ => none, "/w".toList, [], fun _ => none⟩ : World Unit)
    (fun _ ns => some (ns.map fun n => .mk n [])) Compiler.new ⟨"/w/x.proto".toList, (), ["z.proto".toList], ["y.proto".toList]⟩
    [.importPath ["/w".toList], .importRule]).1 = some ["x.proto".toList, "z.proto".toList, "y.proto".toList] := by decide

/-- C88: the result of a compiler that was used before without the two flags is that of a new one: import paths of
earlier calls are forgotten.  Missing: the flags, see `C88_again_false`. -/
theorem C88_again_partial (w : World α) (link : (Text → Option α) → List Text → Option (List Linked))
    (calls : List (Source α × List Opt)) (f : Source α) (opts : List Opt)
    (hc : ∀ call ∈ calls, Opt.manualImport ∉ call.2 ∧ Opt.importRule ∉ call.2) :
    (compile w link (calls.foldl (fun c call => (compile w link c call.1 call.2).2) Compiler.new) f opts).1 =
      (compile w link Compiler.new f opts).1 := by
  have hflags : ∀ (c : Compiler), c.manualImport = false → c.importRule = false →
      (calls.foldl (fun c call => (compile w link c call.1 call.2).2) c).manualImport = false ∧
      (calls.foldl (fun c call => (compile w link c call.1 call.2).2) c).importRule = false := by
    induction calls with
    | nil => exact fun c h1 h2 => ⟨h1, h2⟩
    | cons call calls ih =>
      intro c h1 h2
      rw [List.foldl_cons]
      obtain ⟨_, g2, g3⟩ := start_foldl call.2 { c with importPaths := [] }
      have hcall := hc call (by simp)
      refine ih (fun x hx => hc x (List.mem_cons_of_mem _ hx)) _ ?_ ?_
      · rw [← Bool.not_eq_true]; intro h
        rcases g2.1 h with h | h
        · simp [h1] at h
        · exact hcall.1 h
      · rw [← Bool.not_eq_true]; intro h
        rcases g3.1 h with h | h
        · simp [h2] at h
        · exact hcall.2 h
  obtain ⟨h1, h2⟩ := hflags Compiler.new rfl rfl
  have hs : (calls.foldl (fun c call => (compile w link c call.1 call.2).2) Compiler.new).start opts =
      Compiler.new.start opts := by
    unfold Compiler.start
    congr 1
    cases hx : calls.foldl (fun c call => (compile w link c call.1 call.2).2) Compiler.new with
    | mk a b c => rw [hx] at h1 h2; simp at h1 h2; simp [h1, h2, Compiler.new]
  have hcomp : ∀ c : Compiler, (compile w link c f opts).1 =
      (link (find w (c.start opts).manualImport (c.start opts).importPaths f) (names (c.start opts) w.cwd f)).map
        protoFiles := fun _ => rfl
  rw [hcomp, hcomp, hs]

/-- C88 is false of the code for compilers that are used with different flags: after a call with the imports of the
option, a call without them compiles them too, and fails if one of them can not be found. -/
theorem C88_again_false :
    ∃ (w : World Unit) (link : (Text → Option Unit) → List Text → Option (List Linked)) (f : Source Unit),
      (compile w link Compiler.new f []).1 ≠ none ∧
      (compile w link (compile w link Compiler.new f [.importRule]).2 f []).1 = none := by
  refine ⟨⟨fun _ => none, "/w".toList, [], fun _ => none⟩,
    fun find ns => if ns.all fun n => (find n).isSome then some (ns.map fun n => .mk n []) else none,
    ⟨"/w/x.proto".toList, (), [], ["y.proto".toList]⟩, by decide, by decide⟩

/-! ## Imports of the option -/

/-- C88: an import of the option gets the name it is imported by, if the file is below an import path, no file of
that name is below an earlier one, and no earlier one contains it.  Missing: see `C88_option_false`. -/
theorem C88_option_partial (w : World α) (pre : List Text) (i : Text) (post ps : List Text)
    (hpre : ∀ q ∈ pre, isAbs q = true) (hi : CleanAbs i) (hg : ∀ s ∈ ps, Good s) (hne : ps ≠ [])
    (hno : ∀ q ∈ pre, w.open (join q (slashed ps)) = none) (hyes : (w.open (join i (slashed ps))).isSome = true)
    (hs : ∀ q ∈ pre, ¬StartsWith (join i (slashed ps)) q) :
    optionImportName w (pre ++ i :: post) (slashed ps) = some (slashed ps) := by
  have hfind : findProto w (pre ++ i :: post) (slashed ps) = some (join i (slashed ps)) := by
    unfold findProto
    rw [List.map_append, List.append_assoc, List.find?_append]
    have : (pre.map fun q => join q (slashed ps)).find? (fun p => (w.open p).isSome) = none := by
      rw [List.find?_eq_none]
      intro p hp
      obtain ⟨q, hq, rfl⟩ := List.mem_map.1 hp
      rw [hno q hq]; simp
    rw [this]
    simp [hyes]
  unfold optionImportName
  rw [hfind, Option.map_some]
  congr 1
  have hparts : ∀ s ∈ (parse i).parts ++ ps, Good s := by
    intro s h
    rcases List.mem_append.1 h with h | h
    · exact parse_good hi.1 s h
    · exact hg s h
  have hj := join_good hi.1 hg hne
  have hja : isAbs (join i (slashed ps)) = true := isAbs_join _ hi.1
  have hjp : parse (join i (slashed ps)) = ⟨true, (parse i).parts ++ ps⟩ := by rw [hj, parse_text hparts]
  unfold relativePath
  rw [relLoop_some w.cwd _ i post ?_ pre ?_]
  · rw [toAbs_of_abs hi.1, toAbs_of_abs hja]
    unfold rel
    rw [hjp, relParts_prefix _ _ ⟨ps, rfl⟩]
    simp [Path.text, hne]
  · rw [toAbs_of_abs hi.1, toAbs_of_abs hja, hj]
    conv => lhs; rw [← text_of_clean hi]
    exact prefix_of_parts ⟨ps, rfl⟩
  · intro q hq
    rw [toAbs_of_abs (hpre q hq), toAbs_of_abs hja]
    exact hs q hq

/-- C88 is false of the code for import paths below others: the file is compiled under another name than the one it
is imported by. -/
theorem C88_option_false :
    ∃ (w : World Unit) (ips : List Text), (∀ i ∈ ips, CleanAbs i) ∧
      findProto w ips "x.proto".toList = some "/a/b/x.proto".toList ∧
      optionImportName w ips "x.proto".toList = some "b/x.proto".toList := by
  refine ⟨⟨fun p => if p = "/a/b/x.proto".toList then some () else none, "/w".toList, [], fun _ => none⟩,
    ["/a".toList, "/a/b".toList], ?_, by decide, by decide⟩
  intro i hi
  rcases List.mem_cons.1 hi with rfl | hi
  · unfold CleanAbs; decide
  · rcases List.mem_cons.1 hi with rfl | hi
    · unfold CleanAbs; decide
    · cases hi

/-! ## Examples -/

/-- A file below the second import path. -/
example : CleanAbs "/b/p/x.proto".toList ∧ CleanAbs "/a".toList ∧ CleanAbs "/b".toList ∧
    Below "/b".toList "/b/p/x.proto".toList ∧ ¬StartsWith "/b/p/x.proto".toList "/a".toList ∧
    relativePath "/w".toList "/b/p/x.proto".toList ["/a".toList, "/b".toList] = "p/x.proto".toList := by
  unfold CleanAbs Below StartsWith; decide

/-- Two files with a common import, and the first imports the second. -/
def exLinked : List Linked :=
  [.mk "a".toList [.mk "b".toList [.mk "c".toList []], .mk "c".toList []], .mk "b".toList [.mk "c".toList []]]

example : protoFiles exLinked = ["c".toList, "b".toList, "a".toList] := by decide

/-- The editor has another text than the disk. -/
def exWorld : World Nat := ⟨fun p => if p = "/b/x.proto".toList then some 1 else none, "/w".toList,
  [("google/rpc/code.proto".toList, 9)], fun n => if n = "s".toList then some 7 else none⟩

example : find exWorld false ["/a".toList, "/b".toList] ⟨"/b/x.proto".toList, 2, [], []⟩ "x.proto".toList = some 2 ∧
    find exWorld false ["/a".toList, "/b".toList] ⟨"/b/y.proto".toList, 2, [], []⟩ "x.proto".toList = some 1 ∧
    find exWorld false ["/a".toList] ⟨"/b/y.proto".toList, 2, [], []⟩ "google/rpc/code.proto".toList = some 9 ∧
    find exWorld true ["/a".toList] ⟨"/b/y.proto".toList, 2, [], []⟩ "google/rpc/code.proto".toList = none ∧
    find exWorld false ["/a".toList] ⟨"/b/y.proto".toList, 2, [], []⟩ "s".toList = some 7 := by decide

example : optionImportName exWorld ["/a".toList, "/b".toList] "x.proto".toList = some "x.proto".toList := by decide

end Verif.Compile
