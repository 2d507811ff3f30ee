import Verif.ImportWarn.Lemmas

/-! # C86: warnings about imports are right -/

namespace Verif.ImportWarn

/-! ## Imports of the option -/

theorem fedPkgs_of_used (f : File) (p : QName) (ho : NoOuter f.known p)
    (hu : UsedByFederation (fun _ => False) f p) : p ∈ fedPkgs f := by
  rw [mem_fedPkgs]
  have hle : Query.Le ⟨fun _ => False, fun a => a.Uses (fun _ => False) f.known p, (· = p)⟩ (codeQuery f.known p) :=
    ⟨fun _ => id, fun a ha => mem_celPkgs.2 (uses_names ho a ha), fun _ => id⟩
  exact file_mono hle f hu

theorem used_of_fedPkgs (f : File) (p : QName) (hne : p ≠ []) (hi : NoInner f.known p) (hc : CleanFile f p)
    (h : p ∈ fedPkgs f) : UsedByFederation (fun _ => True) f p := by
  rw [mem_fedPkgs] at h
  have hsplit : ∀ a : Ast, p ∈ celPkgs f.known a → ¬a.Clean p ∨ a.Uses (fun _ => True) f.known p := by
    intro a ha
    by_cases h : a.Clean p
    · exact .inr (names_uses hne hi a h (mem_celPkgs.1 ha))
    · exact .inl h
  have hle : Query.Le (codeQuery f.known p)
      (Query.or (fun _ => True) (fun a => ¬a.Clean p) (fun a => a.Uses (fun _ => True) f.known p) (fun _ => False)
        (· = p)) := ⟨fun _ _ => trivial, hsplit, fun _ h => .inr h⟩
  rcases file_or f (file_mono hle f h) with hx | hx
  · exact absurd hx hc
  · exact hx

/-- C86: an import that is used at an ordinary place is not reported as unused.  Missing for the full property: the
places of `Place`, see `C86_unused_false`, and packages around others, see `C86_outer_false`. -/
theorem C86_unused_partial (f : File) (i : Import) (ho : NoOuter f.known i.pkg)
    (hu : UsedByFederation (fun _ => False) f i.pkg) : Warning.unused i.name ∉ warnFor f i := by
  have := fedPkgs_of_used f i.pkg ho hu
  unfold warnFor
  rw [if_pos this]
  split
  · simp
  · split <;> simp

/-- C86: an import of the option that is used nowhere is reported as unused, if no name in an expression looks like
its package and no package is within it.  Missing: names that look like it, see `C86_field_false`. -/
theorem C86_reported_partial (f : File) (i : Import) (hb : i.byOption = true) (hne : i.pkg ≠ [])
    (hi : NoInner f.known i.pkg) (hc : CleanFile f i.pkg)
    (hu : ¬UsedByFederation (fun _ => True) f i.pkg) : warnFor f i = [.unused i.name] := by
  unfold warnFor
  rw [if_pos hb, if_neg fun h => hu (used_of_fedPkgs f i.pkg hne hi hc h)]

/-- C86: each import gives at most one warning, and it names the import; they are in the order of the imports. -/
theorem C86_each (f : File) :
    (warnings f).Sublist (f.imports.flatMap fun i =>
      if i.byOption then [.unused i.name] else [.onlyFederation i.name]) := by
  unfold warnings
  induction f.imports with
  | nil => exact .refl _
  | cons i is ih =>
    rw [List.flatMap_cons, List.flatMap_cons]
    refine List.Sublist.append ?_ ih
    unfold warnFor
    split
    · split
      · exact List.nil_sublist _
      · exact .refl _
    · split
      · exact List.nil_sublist _
      · split
        · exact .refl _
        · exact List.nil_sublist _

/-! ## Imports of the file -/

/-- C86: the warning that an import is only used by the options is given exactly if the options use it and the types,
services and their options do not: an import that is used in types or options of services, methods and fields is
never reported. -/
theorem C86_only_partial (f : File) (i : Import) (hb : i.byOption = false) (ho : NoOuter f.known i.pkg)
    (hi : NoInner f.known i.pkg) (hc : CleanFile f i.pkg) :
    (UsedByProto False f i.pkg → warnFor f i = []) ∧
    (¬UsedByProto False f i.pkg → UsedByFederation (fun _ => False) f i.pkg →
      warnFor f i = [.onlyFederation i.name]) ∧
    (warnFor f i ≠ [] → warnFor f i = [.onlyFederation i.name] ∧ ¬UsedByProto False f i.pkg ∧
      UsedByFederation (fun _ => True) f i.pkg) := by
  have hb' : ¬i.byOption = true := by simp [hb]
  refine ⟨fun h => ?_, fun h hu => ?_, fun h => ?_⟩
  · unfold warnFor
    rw [if_neg hb', if_pos ((mem_protoPkgs f i.pkg).2 h)]
  · unfold warnFor
    rw [if_neg hb', if_neg fun hm => h ((mem_protoPkgs f i.pkg).1 hm), if_pos (fedPkgs_of_used f i.pkg ho hu)]
  · unfold warnFor at *
    rw [if_neg hb'] at *
    by_cases h1 : i.pkg ∈ protoPkgs f
    · rw [if_pos h1] at h; exact absurd rfl h
    · by_cases h2 : i.pkg ∈ fedPkgs f
      · rw [if_neg h1, if_pos h2]
        exact ⟨rfl, fun hm => h1 ((mem_protoPkgs f i.pkg).2 hm), used_of_fedPkgs f i.pkg ho.2.1 hi hc h2⟩
      · rw [if_neg h1, if_neg h2] at h; exact absurd rfl h

/-! ## Where the code is wrong -/

/-- A file in the package `me` that imports `a.proto` of the package `a` by the option. -/
def base : File where
  known := [["a"], ["me"]]
  opts := []
  services := []
  messages := []
  enums := []
  imports := [⟨"a.proto", ["a"], true⟩]

/-- `a.M{}`. -/
def lit : Ast := .struct ["a", "M"] []

def withDef (d : Def) : File := { base with messages := [.mk [] [] [d] [] [] []] }
def withValue (a : Ast) : File := withDef (.mk none (.value a))
def plainField (o : OneofRule) : Field := ⟨[], .scalar, [], none, some o⟩
def withOneof (o : OneofRule) : File := { base with messages := [.mk [] [] [] [plainField o] [] []] }

/-- A file that uses the package at the place only. -/
def usedAt : Place → File
  | .defIf => withDef (.mk (some lit) (.value .lit))
  | .argIf => withDef (.mk none (.msg ["me"] [⟨.scalar, none, some lit⟩]))
  | .retryIf => withDef (.mk none (.call ["me"] ["me"] [] (some lit) []))
  | .enumBy => withDef (.mk none (.enum ["me"] lit))
  | .mapEnum => withDef (.mk none (.mapEnum ["a"] .lit))
  | .errorDefs => withDef (.mk none (.validation (.mk [.mk none (.value lit)] none none none [])))
  | .oneofIf => withOneof ⟨some lit, none, []⟩
  | .oneofDefs => withOneof ⟨none, none, [.mk none (.value lit)]⟩
  | .serviceVars => { base with services := [⟨[], [], [], [.mk none (.value lit)]⟩] }
  | .methodResponse => { base with services := [⟨[], [⟨[], ["me"], ["me"], some ["a"]⟩], [], []⟩] }
  | .nestedEnum => { base with messages := [.mk [] [] [] [] [[["a"]]] []] }
  | .comprehension => withValue (.compr [.ident "xs", lit])
  | .operand => withValue (.select lit "name")

theorem lit_uses (S : Place → Prop) : lit.Uses S [["a"], ["me"]] ["a"] :=
  .inl ((lookupPackage_iff _ _ _).1 (by decide))

theorem base_noOuter : NoOuter [["a"], ["me"]] ["a"] := by
  refine ⟨by simp, by simp, ?_⟩
  intro q hq hne hp
  rcases List.mem_cons.1 hq with rfl | hq
  · rfl
  · rcases List.mem_cons.1 hq with rfl | hq
    · exact absurd hp (by decide)
    · cases hq

/-- C86 is false of the code at each of the places: an import that is only used there is reported as unused. -/
theorem C86_unused_false (pl : Place) :
    NoOuter (usedAt pl).known ["a"] ∧ UsedByFederation (· = pl) (usedAt pl) ["a"] ∧
      warnings (usedAt pl) = [.unused "a.proto"] := by
  refine ⟨?_, ?_, ?_⟩
  · cases pl <;> exact base_noOuter
  · have hl := lit_uses (· = pl)
    cases pl
    · exact .inr (.inl (.inl (.inr (.inl (.inl (.inl ⟨rfl, _, rfl, hl⟩))))))
    · exact .inr (.inl (.inl (.inr (.inl (.inl (.inr (.inr ⟨_, .head _, .inr (.inr ⟨rfl, _, rfl, hl⟩)⟩)))))))
    · exact .inr (.inl (.inl (.inr (.inl (.inl (.inr (.inr (.inr (.inr (.inl ⟨rfl, _, rfl, hl⟩))))))))))
    · exact .inr (.inl (.inl (.inr (.inl (.inl (.inr (.inr ⟨rfl, hl⟩)))))))
    · exact .inr (.inl (.inl (.inr (.inl (.inl (.inr ⟨rfl, .inl rfl⟩))))))
    · exact .inr (.inl (.inl (.inr (.inl (.inl (.inr (.inl ⟨rfl, .inl (.inr hl)⟩)))))))
    · exact .inr (.inl (.inl (.inr (.inr (.inl ⟨_, .head _, .inr (.inr ⟨_, rfl, .inr (.inl ⟨rfl, _, rfl, hl⟩)⟩)⟩)))))
    · exact .inr (.inl (.inl (.inr (.inr (.inl ⟨_, .head _, .inr (.inr ⟨_, rfl, .inr (.inr ⟨rfl, .inl (.inr hl)⟩)⟩)⟩)))))
    · exact .inl ⟨_, .head _, .inr (.inl ⟨rfl, .inl (.inr hl)⟩)⟩
    · exact .inl ⟨_, .head _, .inr (.inr ⟨rfl, _, .head _, _, rfl, rfl⟩)⟩
    · exact .inr (.inl (.inl (.inr (.inr (.inr (.inl ⟨rfl, _, .head _, _, .head _, rfl⟩))))))
    · exact .inr (.inl (.inl (.inr (.inl (.inl (.inr ⟨rfl, .inr (.inl hl)⟩))))))
    · exact .inr (.inl (.inl (.inr (.inl (.inl (.inr ⟨rfl, hl⟩))))))
  · cases pl <;> decide

/-- `a.b.f()` in a file that knows the packages `a.b` and `a`, and imports `b.proto` of `a.b`. -/
def outerFile : File :=
  { withValue (.member (.select (.ident "a") "b") "f" []) with
    known := [["a"], ["a", "b"], ["me"]], imports := [⟨"b.proto", ["a", "b"], true⟩] }

/-- C86 is false of the code for functions of packages within other packages. -/
theorem C86_outer_false :
    UsedByFederation (fun _ => False) outerFile ["a", "b"] ∧ warnings outerFile = [.unused "b.proto"] := by
  refine ⟨?_, by decide⟩
  have h : InPackage [["a"], ["a", "b"], ["me"]] ["a", "b"] ["a", "b", "f"] :=
    (lookupPackage_iff _ _ _).1 (by decide)
  exact .inr (.inl (.inl (.inr (.inl (.inl (.inr (.inl h)))))))

/-- `f().a.x`: fields that are named like the package. -/
def fieldFile : File := withValue (.select (.select (.call "f" []) "a") "x")

/-- C86 is false of the code for fields named like a package: an import that is not used is not reported. -/
theorem C86_field_false :
    ¬UsedByFederation (fun _ => True) fieldFile ["a"] ∧ warnings fieldFile = [] := by
  refine ⟨?_, by decide⟩
  simp [fieldFile, withValue, withDef, base, UsedByFederation, File.Has, msgsHas, Msg.Has, defsHas, Def.Has, DExpr.Has,
    Query.EO, Ast.Uses, UsesL, qualified?]

/-- C86 is false of the code for files of one package: if one of them is used, the other one is not reported. -/
theorem C86_same_package_false :
    ∃ f : File, f.imports = [⟨"a.proto", ["a"], true⟩, ⟨"b.proto", ["a"], true⟩] ∧ warnings f = [] :=
  ⟨{ withValue lit with imports := [⟨"a.proto", ["a"], true⟩, ⟨"b.proto", ["a"], true⟩] }, rfl, by decide⟩

/-- C86 is false of the code for options of messages and files: an import that they need is reported as used by the
options of this project only. -/
theorem C86_only_false :
    ∃ f : File, UsedByProto True f ["a"] ∧ warnings f = [.onlyFederation "a.proto"] := by
  refine ⟨{ base with
    messages := [.mk [["a"]] [] [.mk none (.value lit)] [] [] []]
    imports := [⟨"a.proto", ["a"], false⟩] }, .inr (.inl (.inl (.inl ⟨trivial, by simp⟩))), by decide⟩

/-! ## Examples -/

/-- `a.M{}` in a definition: an ordinary place. -/
example : UsedByFederation (fun _ => False) (withValue lit) ["a"] ∧ warnings (withValue lit) = [] :=
  ⟨.inr (.inl (.inl (.inr (.inl (.inl (.inr (lit_uses _))))))), by decide⟩

/-- Nothing is used. -/
example : CleanFile base ["a"] ∧ NoInner base.known ["a"] ∧ ¬UsedByFederation (fun _ => True) base ["a"] ∧
    warnings base = [.unused "a.proto"] := by
  refine ⟨?_, ?_, ?_, by decide⟩
  · rintro (⟨s, hs, _⟩ | h | ⟨e, he, _⟩)
    · cases hs
    · exact h
    · cases he
  · intro q hq hp
    rcases List.mem_cons.1 hq with rfl | hq
    · rfl
    · rcases List.mem_cons.1 hq with rfl | hq
      · exact absurd hp (by decide)
      · cases hq
  · rintro (⟨s, hs, _⟩ | h | ⟨e, he, _⟩)
    · cases hs
    · exact h
    · cases he

/-- An import of the file that only the options use, and one that a field uses. -/
example : warnings { withValue lit with imports := [⟨"a.proto", ["a"], false⟩] } = [.onlyFederation "a.proto"] ∧
    warnings { withValue lit with
      messages := [.mk [] [] [.mk none (.value lit)] [⟨[], .pkg ["a"], [], none, none⟩] [] []]
      imports := [⟨"a.proto", ["a"], false⟩] } = [] := by decide

end Verif.ImportWarn
