import Verif.Descr.Model

/-! # How arguments and variables are declared to expressions: properties C82 -/

namespace Verif.Descr

/-! ## Specification -/

/-- A schema in which `f` is registered with everything it imports, and the library of the plugin as well. -/
structure WfFile (R : Files) (f : SFile) : Prop where
  self : ∃ g ∈ R, g.name = f.name
  imports : ∀ d ∈ f.deps, ∃ g ∈ R, g.name = d
  library : ∀ d ∈ [privateFile, timeFile, durationFile], ∃ g ∈ R, g.name = d
  once : f.deps.Nodup
  notSelf : f.name ∉ f.deps
  user : f.name ∉ [privateFile, timeFile, durationFile]

/-- The files a type of an argument may come from: the file itself, its imports, and the two files that are
always imported. -/
def argImports (f : SFile) : List String := f.name :: privateFile :: timeFile :: f.deps

/-- Likewise for variables. -/
def varImports (f : SFile) : List String := f.name :: privateFile :: durationFile :: f.deps

/-- `n` is a type of (or made visible by) one of the files `fs`. -/
def Imported (R : Files) (fs : List String) (n : String) : Prop := ∃ g ∈ R, g.name ∈ fs ∧ n ∈ g.exports

/-- Types that can be declared: known types, and maps from integers, booleans or strings to single values. -/
def Declarable (R : Files) (fs : List String) : FTy → Prop
  | .null => False
  | .scalar _ _ => True
  | .named _ n _ => Imported R fs n
  | .map _ k v => (∃ kind, k = .scalar kind false ∧ kind ∈ [3, 4, 5, 6, 7, 8, 9, 13, 15, 16, 17, 18]) ∧ match v with
    | .scalar _ r => r = false
    | .named _ n r => r = false ∧ Imported R fs n
    | _ => False

/-- The map entry of a field has the name protobuf derives from the name of the field, or none yet. -/
def EntryOK (f : Field) : Prop := match f.ty with
  | .map e _ _ => e = [] ∨ e = requiredEntry f.name
  | _ => True

/-- The type of a field, as expressions see it. -/
def Declares (t : FTy) (d : DTy) : Prop := match t, d with
  | .scalar k r, .scalar k' r' => k = k' ∧ r = r'
  | .named _ n r, .named n' r' => n = n' ∧ r = r'
  | .map _ (.scalar k _) (.scalar v _), .entry _ (.scalar k' false) (.scalar v' false) => k = k' ∧ v = v'
  | .map _ (.scalar k _) (.named _ n _), .entry _ (.scalar k' false) (.named n' false) => k = k' ∧ n = n'
  | _, _ => False

/-! ## Helper lemmas -/

theorem distinct_iff (l : List Ident) : distinct l = true ↔ l.Nodup := by
  induction l with
  | nil => simp [distinct]
  | cons a l ih => simp [distinct, ih]

theorem distinctDeps_iff (l : List String) : distinctDeps l = true ↔ l.Nodup := by
  induction l with
  | nil => simp [distinctDeps]
  | cons a l ih => simp [distinctDeps, ih]

theorem addDep_mem {own : List String} {d x : String} : x ∈ addDep own d ↔ x = d ∧ d ∉ own := by
  unfold addDep
  by_cases h : d ∈ own <;> simp [h]

theorem mem_dep_addDep {own : List String} {d : String} : d ∈ own ∨ d ∈ addDep own d := by
  by_cases h : d ∈ own
  · exact .inl h
  · exact .inr (addDep_mem.mpr ⟨rfl, h⟩)

theorem addDep_nodup (own : List String) (d : String) : (addDep own d).Nodup := by
  unfold addDep; split <;> simp

/-- The imports of both kinds of files. -/
def depsWith (f : SFile) (a b : String) : List String := f.deps ++ [f.name] ++ addDep f.deps a ++ addDep f.deps b

theorem depsWith_nodup {f : SFile} {a b : String} (h1 : f.deps.Nodup) (h2 : f.name ∉ f.deps) (ha : f.name ≠ a) (hb : f.name ≠ b)
    (hab : a ≠ b) : (depsWith f a b).Nodup := by
  unfold depsWith
  rw [List.nodup_append]
  refine ⟨?_, addDep_nodup _ _, ?_⟩
  · rw [List.nodup_append]
    refine ⟨?_, addDep_nodup _ _, ?_⟩
    · rw [List.nodup_append]
      refine ⟨h1, by simp, ?_⟩
      intro x hx y hy e
      simp only [List.mem_singleton] at hy
      subst hy e
      exact h2 hx
    · intro x hx y hy e
      obtain ⟨rfl, hn⟩ := addDep_mem.mp hy
      subst e
      simp only [List.mem_append, List.mem_singleton] at hx
      rcases hx with hx | hx
      · exact hn hx
      · exact ha hx.symm
  · intro x hx y hy e
    obtain ⟨rfl, hn⟩ := addDep_mem.mp hy
    subst e
    simp only [List.mem_append, List.mem_singleton] at hx
    rcases hx with (hx | hx) | hx
    · exact hn hx
    · exact hb hx.symm
    · exact hab (addDep_mem.mp hx).1.symm

theorem mem_depsWith {f : SFile} {a b x : String} : x ∈ depsWith f a b ↔ x ∈ f.name :: a :: b :: f.deps := by
  unfold depsWith
  simp only [List.mem_append, List.mem_cons, List.not_mem_nil, or_false, addDep_mem]
  constructor
  · rintro (((h | h) | ⟨h, _⟩) | ⟨h, _⟩)
    · exact .inr (.inr (.inr h))
    · exact .inl h
    · exact .inr (.inl h)
    · exact .inr (.inr (.inl h))
  · rintro (h | h | h | h)
    · exact .inl (.inl (.inr h))
    · subst h
      by_cases hm : x ∈ f.deps
      · exact .inl (.inl (.inl hm))
      · exact .inl (.inr ⟨rfl, hm⟩)
    · subst h
      by_cases hm : x ∈ f.deps
      · exact .inl (.inl (.inl hm))
      · exact .inr ⟨rfl, hm⟩
    · exact .inl (.inl (.inl h))

theorem exported_iff {R : Files} {deps : List String} {n : String} : exported R deps n = true ↔ ∃ g ∈ R, g.name ∈ deps ∧ n ∈ g.exports := by
  simp [exported, List.any_eq_true]

theorem exported_of {R : Files} {deps fs : List String} {n : String} (h : Imported R fs n) (hs : ∀ x ∈ fs, x ∈ deps) : exported R deps n = true := by
  obtain ⟨g, hg, hn, he⟩ := h
  exact exported_iff.mpr ⟨g, hg, hs _ hn, he⟩

theorem toFields_names (i : Nat) (fs : List Field) : (toFields i fs).map (·.name) = fs.map (·.name) := by
  induction fs generalizing i with
  | nil => rfl
  | cons f fs ih => simp [toFields, ih]

theorem toFields_all {P : DField → Prop} {fs : List Field} (h : ∀ f ∈ fs, ∀ i, P ⟨f.name, i, toDTy f.name f.ty⟩) (i : Nat) :
    ∀ d ∈ toFields i fs, P d := by
  induction fs generalizing i with
  | nil => intro d hd; simp [toFields] at hd
  | cons f fs ih =>
    intro d hd
    simp only [toFields, List.mem_cons] at hd
    rcases hd with rfl | hd
    · exact h f (List.mem_cons_self ..) _
    · exact ih (fun g hg => h g (List.mem_cons_of_mem _ hg)) _ d hd

theorem toFields_numbers (i : Nat) (fs : List Field) : (toFields i fs).map (·.number) = List.range' (i + 1) fs.length := by
  induction fs generalizing i with
  | nil => rfl
  | cons f fs ih => simp [toFields, ih, List.range'_succ]

theorem toFields_pos (i : Nat) (fs : List Field) : ∀ d ∈ toFields i fs, 0 < d.number := by
  induction fs generalizing i with
  | nil => intro d hd; simp [toFields] at hd
  | cons f fs ih =>
    intro d hd
    simp only [toFields, List.mem_cons] at hd
    rcases hd with rfl | hd
    · exact Nat.succ_pos _
    · exact ih _ d hd

theorem validTy_of {R : Files} {deps fs : List String} (hs : ∀ x ∈ fs, x ∈ deps) {f : Field} (hd : Declarable R fs f.ty) (he : EntryOK f) :
    validTy R deps f.name (toDTy f.name f.ty) = true := by
  obtain ⟨name, ty⟩ := f
  cases ty with
  | null => exact hd.elim
  | scalar k r => rfl
  | named e n r => exact exported_of hd hs
  | map e k v =>
    obtain ⟨⟨kind, rfl, hk⟩, hv⟩ := hd
    simp only [EntryOK] at he
    have hname : (if e = [] then toMapEntryName name else e) = requiredEntry name := by
      rcases he with he | he
      · simp [he, toMapEntryName, requiredEntry]
      · by_cases h0 : e = []
        · simp [h0, toMapEntryName, requiredEntry]
        · rw [if_neg h0]; exact he
    have hval : validSingle R deps (toDTy "value".toList v) = true := by
      cases v with
      | scalar k r => simp only at hv; simp [toDTy, validSingle, hv]
      | named en n r => simp only at hv; simp [toDTy, validSingle, hv.1, exported_of hv.2 hs]
      | null => exact hv.elim
      | map _ _ _ => exact hv.elim
    have hkey : keyKinds.contains kind = true := by simpa [keyKinds] using hk
    simp only [toDTy, validTy, hname, hval, hkey]
    simp

theorem declares_of {R : Files} {fs : List String} {n : Ident} {t : FTy} (hd : Declarable R fs t) : Declares t (toDTy n t) := by
  cases t with
  | null => exact hd.elim
  | scalar k r => exact ⟨rfl, rfl⟩
  | named e n r => exact ⟨rfl, rfl⟩
  | map e k v =>
    obtain ⟨⟨kind, rfl, hk⟩, hv⟩ := hd
    cases v with
    | scalar k r => simp only at hv; subst hv; exact ⟨rfl, rfl⟩
    | named en n r => simp only at hv; obtain ⟨rfl, _⟩ := hv; exact ⟨rfl, rfl⟩
    | null => exact hv.elim
    | map _ _ _ => exact hv.elim

theorem find_toFields {fs : List Field} (hn : (fs.map (·.name)).Nodup) {f : Field} (hf : f ∈ fs) (i : Nat) :
    ∃ j, (toFields i fs).find? (fun x => x.name == f.name) = some ⟨f.name, j, toDTy f.name f.ty⟩ := by
  induction fs generalizing i with
  | nil => simp at hf
  | cons g fs ih =>
    simp only [List.map_cons, List.nodup_cons] at hn
    rcases List.mem_cons.mp hf with rfl | hf
    · exact ⟨i + 1, by simp [toFields]⟩
    · have hne : g.name ≠ f.name := fun e => hn.1 (e ▸ List.mem_map_of_mem hf)
      obtain ⟨j, hj⟩ := ih hn.2 hf (i + 1)
      refine ⟨j, ?_⟩
      simp only [toFields]
      rw [List.find?_cons_of_neg (by simpa using hne)]
      exact hj

theorem find_toFields_none {fs : List Field} {n : Ident} (hn : n ∉ fs.map (·.name)) (i : Nat) :
    (toFields i fs).find? (fun x => x.name == n) = none := by
  rw [List.find?_eq_none]
  intro d hd
  have : d.name ∈ (toFields i fs).map (·.name) := List.mem_map_of_mem hd
  rw [toFields_names] at this
  intro h
  simp only [beq_iff_eq] at h
  exact hn (h ▸ this)

theorem valid_of {R : Files} {f : SFile} (hf : WfFile R f) {a b : String} (ha : a ∈ [privateFile, timeFile, durationFile])
    (hb : b ∈ [privateFile, timeFile, durationFile]) (hab : a ≠ b) {fs : List Field} (hn : (fs.map (·.name)).Nodup)
    (hd : ∀ x ∈ fs, Declarable R (f.name :: a :: b :: f.deps) x.ty) (he : ∀ x ∈ fs, EntryOK x)
    {d : DFile} (h1 : d.deps = depsWith f a b) (h2 : d.fields = toFields 0 fs) : valid R d = true := by
  unfold valid
  rw [h1, h2, toFields_names]
  simp only [Bool.and_eq_true]
  refine ⟨⟨⟨⟨?_, ?_⟩, ?_⟩, ?_⟩, ?_⟩
  · rw [List.all_eq_true]
    intro x hx
    have hg : ∃ g ∈ R, g.name = x := by
      rcases List.mem_cons.mp (mem_depsWith.mp hx) with rfl | hx
      · exact hf.self
      rcases List.mem_cons.mp hx with rfl | hx
      · exact hf.library _ ha
      rcases List.mem_cons.mp hx with rfl | hx
      · exact hf.library _ hb
      · exact hf.imports _ hx
    obtain ⟨g, hg, rfl⟩ := hg
    simp only [List.any_eq_true, beq_iff_eq]
    exact ⟨g, hg, rfl⟩
  · rw [distinctDeps_iff]
    exact depsWith_nodup hf.once hf.notSelf (fun e => hf.user (e ▸ ha)) (fun e => hf.user (e ▸ hb)) hab
  · rw [distinct_iff]; exact hn
  · rw [toFields_numbers]
    simpa using List.nodup_range' (step := 1)
  · rw [List.all_eq_true]
    intro x hx
    rw [Bool.and_eq_true]
    refine ⟨by simpa using toFields_pos 0 fs x hx, ?_⟩
    revert x
    exact toFields_all (fun x hx i => validTy_of (fun y hy => mem_depsWith.mpr hy) (hd x hx) (he x hx)) 0

theorem register_new {R : Files} {reg : Reg} {d : DFile} (hv : valid R d = true) (hn : ∀ e ∈ reg, e.name ≠ d.name) :
    register R reg d = some (reg ++ [d]) := by
  unfold register
  have : reg.any (fun e => e.name == d.name) = false := by
    rw [List.any_eq_false]
    intro e he
    simpa using hn e he
  rw [this]; simp [hv]

theorem select_new {reg : Reg} {d : DFile} {known : List Field} (hm : ∀ e ∈ reg, ¬ (e.pkg = d.pkg ∧ e.msg = d.msg))
    {fs : List Field} (h2 : d.fields = toFields 0 fs) (hn : (fs.map (·.name)).Nodup) {f : Field} (hf : f ∈ fs) :
    selectField (reg ++ [d]) d.pkg d.msg known f.name = .found (toDTy f.name f.ty) := by
  have h1 : (reg ++ [d]).find? (fun e => e.pkg == d.pkg && e.msg == d.msg) = some d := by
    rw [List.find?_append]
    have : reg.find? (fun e => e.pkg == d.pkg && e.msg == d.msg) = none := by
      rw [List.find?_eq_none]
      intro e he h
      simp only [Bool.and_eq_true, beq_iff_eq] at h
      exact hm e he h
    rw [this]; simp
  obtain ⟨j, hj⟩ := find_toFields hn hf 0
  unfold selectField findField
  rw [h1]
  simp only [h2, hj]

theorem select_new_none {reg : Reg} {d : DFile} (hm : ∀ e ∈ reg, ¬ (e.pkg = d.pkg ∧ e.msg = d.msg))
    {fs : List Field} (h2 : d.fields = toFields 0 fs) {n : Ident} (hn : n ∉ fs.map (·.name)) :
    findField (reg ++ [d]) d.pkg d.msg n = none := by
  have h1 : (reg ++ [d]).find? (fun e => e.pkg == d.pkg && e.msg == d.msg) = some d := by
    rw [List.find?_append]
    have : reg.find? (fun e => e.pkg == d.pkg && e.msg == d.msg) = none := by
      rw [List.find?_eq_none]
      intro e he h
      simp only [Bool.and_eq_true, beq_iff_eq] at h
      exact hm e he h
    rw [this]; simp
  unfold findField
  rw [h1]
  simp only [h2]
  exact find_toFields_none hn 0

/-- `known` without a field of that name gives no panic. -/
theorem select_undefined {reg : Reg} {pkg : String} {msg n : Ident} {known : List Field} (h : findField reg pkg msg n = none)
    (hk : n ∉ known.map (·.name)) : selectField reg pkg msg known n = .undefined := by
  have : known.find? (fun x => x.name == n) = none := by
    rw [List.find?_eq_none]
    intro x hx hxn
    simp only [beq_iff_eq] at hxn
    exact hk (hxn ▸ List.mem_map_of_mem hx)
  unfold selectField
  rw [h]
  simp [this]

/-! ## Properties -/

/-- A file of a made-up message can be registered: it is the first of its file name and full name. -/
def Fresh (reg : Reg) (d : DFile) : Prop := ∀ e ∈ reg, e.name ≠ d.name ∧ ¬ (e.pkg = d.pkg ∧ e.msg = d.msg)

/-- **C82, arguments.** When a message is visited first, its arguments are declared: each argument `x` of a
declarable type can be used as `$.x` and has its type, and nothing else can be used. -/
theorem C82_arguments_partial (R : Files) (f : SFile) (hf : WfFile R f) (pkg : String) (msg : Ident) (args : List Field)
    (reg : Reg) (hfresh : Fresh reg (argFile f pkg msg args)) (hn : (args.map (·.name)).Nodup)
    (hd : ∀ x ∈ args, Declarable R (argImports f) x.ty) (he : ∀ x ∈ args, EntryOK x) :
    ∃ s, visit R f pkg msg ⟨[], reg⟩ args = some s ∧ s.fields = args ∧
      (∀ x ∈ args, ∃ d, argument s pkg msg x.name = .found d ∧ Declares x.ty d) ∧
      (∀ n, n ∉ args.map (·.name) → argument s pkg msg n = .undefined) := by
  have hv : valid R (argFile f pkg msg args) = true :=
    valid_of hf (a := privateFile) (b := timeFile) (by simp) (by simp) (by decide) hn hd he rfl rfl
  have hreg := register_new hv (fun e h => (hfresh e h).1)
  refine ⟨⟨args, reg ++ [argFile f pkg msg args]⟩, ?_, rfl, ?_, ?_⟩
  · simp [visit, hreg]
  · intro x hx
    exact ⟨_, select_new (fun e h => (hfresh e h).2) rfl hn hx, declares_of (hd x hx)⟩
  · intro n hnn
    exact select_undefined (select_new_none (fun e h => (hfresh e h).2) rfl hnn) hnn

/-- Later visits register nothing. -/
theorem later_visit {R : Files} {f : SFile} {pkg : String} {msg : Ident} {s : VState} {new : List Field}
    (h : ∃ e ∈ s.reg, e.name = (argFile f pkg msg []).name) : visit R f pkg msg s new = some ⟨s.fields ++ new, s.reg⟩ := by
  obtain ⟨e, he, hn⟩ := h
  have : s.reg.any (fun e => e.name == (argFile f pkg msg (s.fields ++ new)).name) = true := by
    rw [List.any_eq_true]
    exact ⟨e, he, beq_iff_eq.mpr hn⟩
  unfold visit register
  simp only [this, ↓reduceIte]

/-- Visits by further callers. -/
def visits (R : Files) (f : SFile) (pkg : String) (msg : Ident) : VState → List (List Field) → Option VState
  | s, [] => some s
  | s, new :: rest => match visit R f pkg msg s new with
    | none => none
    | some s' => visits R f pkg msg s' rest

theorem visits_later {R : Files} {f : SFile} {pkg : String} {msg : Ident} (rest : List (List Field)) {s : VState}
    (h : ∃ e ∈ s.reg, e.name = (argFile f pkg msg []).name) :
    visits R f pkg msg s rest = some ⟨s.fields ++ rest.flatten, s.reg⟩ := by
  induction rest generalizing s with
  | nil => simp [visits]
  | cons new rest ih =>
    unfold visits
    rw [later_visit h]
    simp only
    rw [ih (s := ⟨s.fields ++ new, s.reg⟩) h]
    simp

/-- **C82, further callers.** Further callers change nothing for the arguments of the first: they stay declared with
their types, however many callers there are. -/
theorem C82_callers_partial (R : Files) (f : SFile) (hf : WfFile R f) (pkg : String) (msg : Ident) (args : List Field)
    (reg : Reg) (hfresh : Fresh reg (argFile f pkg msg args)) (hn : (args.map (·.name)).Nodup)
    (hd : ∀ x ∈ args, Declarable R (argImports f) x.ty) (he : ∀ x ∈ args, EntryOK x) (rest : List (List Field)) :
    ∃ s, visits R f pkg msg ⟨[], reg⟩ (args :: rest) = some s ∧
      (∀ x ∈ args, ∃ d, argument s pkg msg x.name = .found d ∧ Declares x.ty d) := by
  have hv : valid R (argFile f pkg msg args) = true :=
    valid_of hf (a := privateFile) (b := timeFile) (by simp) (by simp) (by decide) hn hd he rfl rfl
  have hreg := register_new hv (fun e h => (hfresh e h).1)
  have h1 : visit R f pkg msg ⟨[], reg⟩ args = some ⟨args, reg ++ [argFile f pkg msg args]⟩ := by simp [visit, hreg]
  refine ⟨⟨args ++ rest.flatten, reg ++ [argFile f pkg msg args]⟩, ?_, ?_⟩
  · simp only [visits, h1]
    exact visits_later rest ⟨argFile f pkg msg args, by simp, rfl⟩
  · intro x hx
    exact ⟨_, select_new (fun e h => (hfresh e h).2) rfl hn hx, declares_of (hd x hx)⟩

/-- **C82, arguments of further callers are lost.** An argument that the first caller does not pass is never declared:
`$.x` is an undefined field for all following visits, and the generator crashes if it is an enum. -/
theorem C82_second_caller_false (R : Files) (f : SFile) (hf : WfFile R f) (pkg : String) (msg : Ident) (args : List Field)
    (reg : Reg) (hfresh : Fresh reg (argFile f pkg msg args)) (hn : (args.map (·.name)).Nodup)
    (hd : ∀ x ∈ args, Declarable R (argImports f) x.ty) (he : ∀ x ∈ args, EntryOK x) (new : Field) (hnew : new.name ∉ args.map (·.name)) :
    ∃ s, visits R f pkg msg ⟨[], reg⟩ [args, [new]] = some s ∧ new ∈ s.fields ∧
      argument s pkg msg new.name = match new.ty with
        | .named true _ _ => .panics
        | _ => .undefined := by
  have hv : valid R (argFile f pkg msg args) = true :=
    valid_of hf (a := privateFile) (b := timeFile) (by simp) (by simp) (by decide) hn hd he rfl rfl
  have hreg := register_new hv (fun e h => (hfresh e h).1)
  have h1 : visit R f pkg msg ⟨[], reg⟩ args = some ⟨args, reg ++ [argFile f pkg msg args]⟩ := by simp [visit, hreg]
  refine ⟨⟨args ++ [new], reg ++ [argFile f pkg msg args]⟩, ?_, by simp, ?_⟩
  · simp only [visits, h1]
    rw [later_visit ⟨argFile f pkg msg args, by simp, rfl⟩]
  · have hnone := select_new_none (d := argFile f pkg msg args) (fun e h => (hfresh e h).2) rfl hnew
    have hfind : (args ++ [new]).find? (fun x => x.name == new.name) = some new := by
      rw [List.find?_append]
      have : args.find? (fun x => x.name == new.name) = none := by
        rw [List.find?_eq_none]
        intro x hx hxn
        simp only [beq_iff_eq] at hxn
        exact hnew (hxn ▸ List.mem_map_of_mem hx)
      rw [this]; simp
    unfold argument selectField
    have e1 : (argFile f pkg msg args).pkg = privatePkg ++ "." ++ pkg := rfl
    have e2 : (argFile f pkg msg args).msg = msg ++ "Argument".toList := rfl
    rw [e1, e2] at hnone
    simp only [hnone, hfind]
    obtain ⟨n, t⟩ := new
    cases t with
    | named b m r => cases b <;> rfl
    | _ => rfl

/-- **C82, imports.** An argument whose type is in a file that the file of the message does not import is rejected,
although expressions can have such types. -/
theorem C82_imports_false (R : Files) (f : SFile) (pkg : String) (msg : Ident) (args : List Field) (reg : Reg)
    (hfresh : ∀ e ∈ reg, e.name ≠ (argFile f pkg msg args).name) (x : Field) (hx : x ∈ args) (e : Bool) (n : String) (r : Bool)
    (ht : x.ty = .named e n r) (hi : ¬ Imported R (argImports f) n) : visit R f pkg msg ⟨[], reg⟩ args = none := by
  have hv : valid R (argFile f pkg msg args) = false := by
    unfold valid
    have : (argFile f pkg msg args).fields.all (fun g => 0 < g.number && validTy R (argFile f pkg msg args).deps g.name g.ty) = false := by
      rw [List.all_eq_false]
      have hmem : ∃ d ∈ toFields 0 args, d.ty = .named n r := by
        have : ∀ (i : Nat) (l : List Field), x ∈ l → ∃ d ∈ toFields i l, d.ty = .named n r := by
          intro i l
          induction l generalizing i with
          | nil => intro h; simp at h
          | cons g l ih =>
            intro h
            rcases List.mem_cons.mp h with rfl | h
            · exact ⟨_, List.mem_cons_self .., by simp [ht, toDTy]⟩
            · obtain ⟨d, hd, he⟩ := ih (i + 1) h
              exact ⟨d, List.mem_cons_of_mem _ hd, he⟩
        exact this 0 args hx
      obtain ⟨d, hd, hty⟩ := hmem
      refine ⟨d, hd, ?_⟩
      rw [hty]
      simp only [validTy, Bool.and_eq_true]
      rintro ⟨-, hex⟩
      obtain ⟨g, hg, hgn, hge⟩ := exported_iff.mp hex
      exact hi ⟨g, hg, mem_depsWith.mp hgn, hge⟩
    rw [this]; simp
  have hno : reg.any (fun e => e.name == (argFile f pkg msg args).name) = false := by
    rw [List.any_eq_false]
    intro e he
    simpa using hfresh e he
  unfold visit register
  simp only [List.nil_append, hno, hv]
  simp

/-! ### Names of maps -/

/-- Names of variables, `namePattern` in `resolver/resolver.go` line 1440. -/
def VarName (s : Ident) : Prop := ∃ c cs, s = c :: cs ∧ c.isAlpha = true ∧ ∀ x ∈ cs, x.isAlphanum = true ∨ x = '_'

theorem entryLoop_false_length (cs : List Char) : ∀ up, (entryLoop up cs).length ≤ cs.length := by
  induction cs with
  | nil => intro up; simp [entryLoop]
  | cons c cs ih =>
    intro up
    unfold entryLoop
    split
    · exact Nat.le_succ_of_le (ih true)
    · split <;> simp only [List.length_cons] <;> exact Nat.succ_le_succ (ih false)

theorem entryLoop_lower (cs : List Char) : entryLoop false cs = cs.map Char.toLower ↔ ∀ c ∈ cs, c ≠ '_' ∧ c.toLower = c := by
  induction cs with
  | nil => simp [entryLoop]
  | cons c cs ih =>
    unfold entryLoop
    by_cases hc : c = '_'
    · subst hc
      simp only [↓reduceIte]
      constructor
      · intro h
        have := congrArg List.length h
        have hle := entryLoop_false_length cs true
        simp only [List.length_map, List.length_cons] at this
        omega
      · intro h
        exact absurd rfl (h '_' (List.mem_cons_self ..)).1
    · simp only [hc, ↓reduceIte, Bool.false_eq_true, List.map_cons, List.cons.injEq, List.mem_cons, forall_eq_or_imp]
      rw [ih]
      constructor
      · rintro ⟨h1, h2⟩; exact ⟨⟨hc, h1.symm⟩, h2⟩
      · rintro ⟨⟨_, h1⟩, h2⟩; exact ⟨h1.symm, h2⟩

theorem toLower_eq_iff (c : Char) : c.toLower = c ↔ c.isUpper = false := by
  have hA : ('A'.val : UInt32) = 65 := rfl
  have hZ : ('Z'.val : UInt32) = 90 := rfl
  have ha : ('a'.val : UInt32) = 97 := rfl
  unfold Char.toLower Char.isUpper
  simp only [hA, hZ, ha]
  constructor
  · intro h
    split at h
    · rename_i hc
      exfalso
      have hv := congrArg (fun x : Char => x.val.toNat) h
      have h1 : 65 ≤ c.val.toNat := by simpa [UInt32.le_iff_toNat_le] using hc.1
      have h2 : c.val.toNat ≤ 90 := by simpa [UInt32.le_iff_toNat_le] using hc.2
      have h3 : ((97 : UInt32) - 65) = 32 := rfl
      simp only [h3, UInt32.toNat_add] at hv
      have h4 : (32 : UInt32).toNat = 32 := rfl
      rw [h4] at hv
      omega
    · rename_i hc
      simpa using hc
  · intro h
    split
    · rename_i hc
      simp at h
      exact absurd (h hc.1) (by simpa [UInt32.le_iff_toNat_le, UInt32.lt_iff_toNat_lt] using hc.2)
    · rfl

/-- **C82, maps of environment variables.** A map variable is accepted exactly if its name has neither an underscore
nor an upper case letter after the first one. -/
theorem C82_map_names_iff (R : Files) (deps : List String) (name : Ident) (hname : VarName name) (kind : Nat) (v : FTy)
    (hk : kind ∈ [3, 4, 5, 6, 7, 8, 9, 13, 15, 16, 17, 18]) (hv : ∃ k, v = .scalar k false) :
    validTy R deps name (toDTy name (envField name (.map [] (.scalar kind false) v)).ty) = true ↔
      ∀ c ∈ name.tail, c ≠ '_' ∧ c.isUpper = false := by
  obtain ⟨c, cs, rfl, hc, hcs⟩ := hname
  obtain ⟨k, rfl⟩ := hv
  have hne : ¬ (title (c :: cs) ++ "Entry".toList = []) := by simp [title]
  have hc_ : c ≠ '_' := by rintro rfl; exact absurd hc (by decide)
  have hkey : keyKinds.contains kind = true := by simpa [keyKinds] using hk
  simp only [envField, toDTy, hne, ↓reduceIte, validTy, validSingle, hkey, Bool.and_true, Bool.not_false, beq_iff_eq, List.tail_cons]
  have : (title (c :: cs) ++ "Entry".toList = requiredEntry (c :: cs)) ↔ entryLoop false cs = cs.map Char.toLower := by
    unfold requiredEntry title
    rw [entryLoop]
    simp only [hc_, ↓reduceIte, upper]
    rw [List.append_left_inj]
    simp only [List.cons.injEq, true_and]
    exact eq_comm
  rw [this, entryLoop_lower]
  constructor
  · intro h x hx; exact ⟨(h x hx).1, (toLower_eq_iff x).mp (h x hx).2⟩
  · intro h x hx; exact ⟨(h x hx).1, (toLower_eq_iff x).mpr (h x hx).2⟩

/-- **C82, environment variables and service variables.** All variables of declarable types with well-named map entries
are declared with their names and types. -/
theorem C82_variables_partial (R : Files) (f : SFile) (hf : WfFile R f) (pkg : String) (fqdn : Ident) (vars : List Field) (reg : Reg)
    (hn : (vars.map (·.name)).Nodup) (hd : ∀ x ∈ vars, Declarable R (varImports f) x.ty) (he : ∀ x ∈ vars, EntryOK x)
    (d : DFile) (hdf : d = envFile f pkg fqdn vars ∨ d = varFile f pkg fqdn vars) (hfresh : Fresh reg d) :
    register R reg d = some (reg ++ [d]) ∧
      (∀ x ∈ vars, ∃ t, selectField (reg ++ [d]) d.pkg d.msg vars x.name = .found t ∧ Declares x.ty t) ∧
      (∀ n, n ∉ vars.map (·.name) → selectField (reg ++ [d]) d.pkg d.msg vars n = .undefined) := by
  have h1 : d.deps = depsWith f privateFile durationFile := by rcases hdf with rfl | rfl <;> rfl
  have h2 : d.fields = toFields 0 vars := by rcases hdf with rfl | rfl <;> rfl
  have hv : valid R d = true := valid_of hf (a := privateFile) (b := durationFile) (by simp) (by simp) (by decide) hn hd he h1 h2
  refine ⟨register_new hv (fun e h => (hfresh e h).1), ?_, ?_⟩
  · intro x hx
    exact ⟨_, select_new (fun e h => (hfresh e h).2) h2 hn hx, declares_of (hd x hx)⟩
  · intro n hnn
    exact select_undefined (select_new_none (fun e h => (hfresh e h).2) h2 hnn) hnn

/-! ### Witnesses -/

/-- The files of a small schema. `time.proto` exports `Time`, `url.proto` exports `URL` and is not imported. -/
def userFile : SFile := ⟨"user.proto", ["grpc/federation/federation.proto"], ["org.User", "org.Kind"]⟩

def files : Files := [userFile, ⟨"grpc/federation/federation.proto", [], []⟩, ⟨privateFile, [], ["grpc.federation.private.Error"]⟩,
  ⟨timeFile, [], ["grpc.federation.time.Time"]⟩, ⟨durationFile, [], ["google.protobuf.Duration"]⟩,
  ⟨"grpc/federation/url.proto", [], ["grpc.federation.url.URL"]⟩]

theorem files_wf : WfFile files userFile where
  self := ⟨userFile, by simp [files], rfl⟩
  imports := by intro d hd; simp only [userFile, List.mem_singleton] at hd; subst hd; exact ⟨_, by simp [files]; right; left; rfl, rfl⟩
  library := by
    intro d hd
    simp only [List.mem_cons, List.not_mem_nil, or_false] at hd
    rcases hd with rfl | rfl | rfl
    · exact ⟨⟨privateFile, [], ["grpc.federation.private.Error"]⟩, by simp [files], rfl⟩
    · exact ⟨⟨timeFile, [], ["grpc.federation.time.Time"]⟩, by simp [files], rfl⟩
    · exact ⟨⟨durationFile, [], ["google.protobuf.Duration"]⟩, by simp [files], rfl⟩
  once := by decide
  notSelf := by decide
  user := by decide

/-- A map variable with an underscore in its name is rejected; with an upper case letter too. -/
theorem C82_map_names_false :
    register files [] (envFile userFile "org" "org.Res".toList [envField "user_names".toList (.map [] (.scalar 9 false) (.scalar 9 false))]) = none ∧
    register files [] (envFile userFile "org" "org.Res".toList [envField "userNames".toList (.map [] (.scalar 9 false) (.scalar 9 false))]) = none ∧
    register files [] (envFile userFile "org" "org.Res".toList [envField "names".toList (.map [] (.scalar 9 false) (.scalar 9 false))]) ≠ none := by
  decide +kernel

/-- Neither an argument of type URL nor a service variable of type Time is accepted; an argument of type Time is. -/
theorem C82_library_types_false :
    visit files userFile "org" "Res".toList ⟨[], []⟩ [⟨"u".toList, .named false "grpc.federation.url.URL" false⟩] = none ∧
    register files [] (varFile userFile "org" "org.Res".toList [⟨"t".toList, .named false "grpc.federation.time.Time" false⟩]) = none ∧
    visit files userFile "org" "Res".toList ⟨[], []⟩ [⟨"t".toList, .named false "grpc.federation.time.Time" false⟩] ≠ none := by
  decide +kernel

/-- Two messages of different packages share the file name of their arguments: those of the second one are never
declared. -/
theorem C82_same_file_name_false :
    ((visit files userFile "org.a" "b_Res".toList ⟨[], []⟩ [⟨"id".toList, .scalar 9 false⟩]).bind fun s =>
      (visit files userFile "org.a.b" "Res".toList ⟨[], s.reg⟩ [⟨"id".toList, .scalar 9 false⟩]).map fun s' =>
        (argument s "org.a" "b_Res".toList "id".toList, argument s' "org.a.b" "Res".toList "id".toList)) =
      some (.found (.scalar 9 false), .undefined) := by
  decide +kernel

example : Fresh [] (argFile userFile "org" "Res".toList []) := fun _ h => absurd h (by simp)

example : Declarable files (argImports userFile) (.map [] (.scalar 9 false) (.named true "org.Kind" false)) :=
  ⟨⟨9, rfl, by simp⟩, rfl, userFile, by simp [files], by decide, by decide⟩

example : visits files userFile "org" "Res".toList ⟨[], []⟩ [[⟨"id".toList, .scalar 9 false⟩], [⟨"kind".toList, .named true "org.Kind" false⟩]] ≠ none := by
  decide +kernel

example : VarName "user_names".toList := ⟨'u', "ser_names".toList, rfl, by decide, by decide⟩

end Verif.Descr
