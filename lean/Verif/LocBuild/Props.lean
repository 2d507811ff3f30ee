import Verif.LocBuild.Runs

/-!
# C113: what the locations of builders say

The locations of problems are made by chains of calls such as `NewLocationBuilder("a.proto").WithMessage("M").WithField("id").Location()`,
and the same builder starts many chains.  A location should say exactly the parts that the calls of its own chain name, with the names
and indices given there; no call should change a location taken before, and no call should fail.  `Verif.LocBuild.Spec` says what a chain
should give, `Said`, without the heap.
-/

namespace Verif.LocBuild

/-- What the location of every builder says, whatever else the program does with this or other builders: what the calls of its chain say.
Left out are builders for the entries of an environment, and the parts in `Forgotten`, which are there only after the call that sets them. -/
theorem C113_location_partial {fuel : Nat} {os : List Op} {s : St} (hf : 2 * os.length < fuel) (hr : run fuel os = .ok s)
    {i : Nat} {sd : Said} {last : Path} (hm : Made os i sd last) (h1 : sd.kind ≠ .envVar) (h2 : sd.kind ≠ .envVarOption) (p : Path) :
    (¬ Forgotten p → location s i p = sd.content p) ∧ (Forgotten p → location s i p = if p = last then sd.content p else none) :=
  location_rel (run_inv hf hr) hm h1 h2 p

/-- A location does not change later, whatever the rest of the program does; except for the builder that `WithVar` makes for an entry of
an environment. -/
theorem C113_unchanged_partial {fuel : Nat} {os os' : List Op} {s s' : St} (hf : 2 * (os ++ os').length < fuel)
    (hr : run fuel os = .ok s) (hr' : run fuel (os ++ os') = .ok s') {i : Nat} {b : Builder} (hb : s.builders[i]? = some b)
    (hi : b.kind = .envVar → ∀ l c, os[i]? = some (.call l c) → c.meth ≠ .withVar) (p : Path) :
    location s' i p = location s i p := by
  have hinv := run_inv (fuel := fuel) (by simp at hf; omega) hr
  have hr2 : runFrom fuel s os' = .ok s' := by
    have h2 : runFrom fuel ⟨[], []⟩ os = .ok s := hr
    simp only [run, runFrom_append, h2] at hr'
    exact hr'
  obtain ⟨hinv', ⟨bs, hbs⟩, hfr⟩ := runFrom_inv os' os s s' hinv hf hr2
  have hb' : s'.builders[i]? = some b := by
    rw [hbs, List.getElem?_append_left (List.getElem?_eq_some_iff.1 hb).1]; exact hb
  rw [location_eq hinv' hb', location_eq hinv hb]
  have hnc : ¬ Captor os s.builders i := by
    rintro ⟨⟨l, c, h4, h5⟩, b2, h6, h7⟩
    rw [hb, Option.some.injEq] at h6
    subst h6
    exact hi h7 l c h4 h5
  rw [funext (hfr i b hb hnc)]

/-- A program that makes builders and calls methods that their types have runs to its end, without a panic; lazy builders are left out. -/
theorem C113_runs_partial {fuel : Nat} {os : List Op} (hf : 2 * os.length < fuel)
    (h : ∀ (i : Nat) (o : Op), os[i]? = some o → (∃ file, o = .new file) ∨
      ∃ j c sd last sd', o = .call j c ∧ Made (os.take i) j sd last ∧ sd.call c = some sd') : ∃ s, run fuel os = .ok s :=
  plain_runs os hf h

/-- `ToLazyMessageBuilder`: the location is that of the builder it is made of; and each call of the lazy builder gives the location with the
message, whatever was there, and the part that the call names. -/
theorem C113_lazyMessage_partial {fuel : Nat} {os : List Op} {s : St} (hf : 2 * (os.length + 1) < fuel) (hr : run fuel os = .ok s)
    {j : Nat} {sd : Said} {last : Path} (hm : Made os j sd last) (h1 : sd.kind ≠ .envVar) (h2 : sd.kind ≠ .envVarOption) (name : String) :
    ∃ s1, run fuel (os ++ [.lazyMessage j name]) = .ok s1 ∧ (∀ p, ¬ Forgotten p → location s1 os.length p = sd.content p) ∧
      ∀ c, effect .message c ≠ none → ∃ s2, run fuel (os ++ [.lazyMessage j name] ++ [.call os.length c]) = .ok s2 ∧ ∀ p, ¬ Forgotten p →
        location s2 (os.length + 1) p =
          say (say sd.content [] [.message] (.name name)) [.message] (parts .message c.meth) (argOf .message c) p := by
  obtain ⟨s1, h3, h4, h5⟩ := lazy_runs hf (run_inv (by omega) hr) hm h1 h2 (.inl ⟨rfl, rfl, rfl⟩) name (.lazyMessage j name)
    ⟨fun _ hh => (by cases hh), fun _ _ hh => (by cases hh)⟩
  have hrun1 : run fuel (os ++ [.lazyMessage j name]) = .ok s1 := (run_snoc hr _).trans h3
  refine ⟨s1, hrun1, h4, fun c hc => ?_⟩
  obtain ⟨s2, h6, h7⟩ := h5 c hc
  exact ⟨s2, (run_snoc hrun1 _).trans h6, h7⟩

/-- `ToLazyEnumBuilder`, in the same way. -/
theorem C113_lazyEnum_partial {fuel : Nat} {os : List Op} {s : St} (hf : 2 * (os.length + 1) < fuel) (hr : run fuel os = .ok s)
    {j : Nat} {sd : Said} {last : Path} (hm : Made os j sd last) (h1 : sd.kind ≠ .envVar) (h2 : sd.kind ≠ .envVarOption) (name : String) :
    ∃ s1, run fuel (os ++ [.lazyEnum j name]) = .ok s1 ∧ (∀ p, ¬ Forgotten p → location s1 os.length p = sd.content p) ∧
      ∀ c, effect .enum c ≠ none → ∃ s2, run fuel (os ++ [.lazyEnum j name] ++ [.call os.length c]) = .ok s2 ∧ ∀ p, ¬ Forgotten p →
        location s2 (os.length + 1) p = say (say sd.content [] [.enum] (.name name)) [.enum] (parts .enum c.meth) (argOf .enum c) p := by
  obtain ⟨s1, h3, h4, h5⟩ := lazy_runs hf (run_inv (by omega) hr) hm h1 h2 (.inr ⟨rfl, rfl, rfl⟩) name (.lazyEnum j name)
    ⟨fun _ hh => (by cases hh), fun _ _ hh => (by cases hh)⟩
  have hrun1 : run fuel (os ++ [.lazyEnum j name]) = .ok s1 := (run_snoc hr _).trans h3
  refine ⟨s1, hrun1, h4, fun c hc => ?_⟩
  obtain ⟨s2, h6, h7⟩ := h5 c hc
  exact ⟨s2, (run_snoc hrun1 _).trans h6, h7⟩

/-! ## A program -/

/-- `b := NewLocationBuilder("a.proto").WithMessage("M"); b.WithField("id").WithOption().WithBy(); b.WithOption().WithDef(2).WithIf()` -/
def sample : List Op :=
  [.new "a.proto", .call 0 ⟨.withMessage, .name "M"⟩, .call 1 ⟨.withField, .name "id"⟩, .call 2 ⟨.withOption, .none⟩,
   .call 3 ⟨.withBy, .none⟩, .call 1 ⟨.withOption, .none⟩, .call 5 ⟨.withDef, .idx 2⟩, .call 6 ⟨.withIf, .none⟩]

/-- What is found in the location of a builder of a program. -/
def found (os : List Op) (i : Nat) (p : Path) : Option (Option Arg) :=
  match run 100 os with
  | .ok s => some (location s i p)
  | _ => none

example : [found sample 4 [], found sample 4 [.message], found sample 4 [.message, .field], found sample 4 [.message, .field, .option, .by],
    found sample 4 [.message, .option], found sample 7 [.message, .option, .def], found sample 7 [.message, .option, .def, .if],
    found sample 7 [.message, .field], found sample 1 [.message, .field]] =
    [some (some (.name "a.proto")), some (some (.name "M")), some (some (.name "id")), some (some .none), some none, some (some (.idx 2)),
      some (some .none), some none, some none] := rfl

/-- Its builders are among those of the theorems. -/
theorem sample_made : Made sample 0 (start "a.proto") [] ∧
    ∃ sd, Made sample 1 sd [.message] ∧ sd.kind = .message ∧ sd.pos = [.message] ∧ ∃ sd5, Made sample 5 sd5 [.message, .option] ∧
      ∃ sd6, Made sample 6 sd6 [.message, .option, .def] ∧ sd6.kind = .varDef ∧
        sd6.content [.message, .option, .def] = some (.idx 2) ∧ sd6.content [.message] = some (.name "M") := by
  have h0 : Made sample 0 (start "a.proto") [] := .new 0 _ rfl
  have h1 := Made.call (os := sample) 1 0 ⟨.withMessage, .name "M"⟩ _ _ _ rfl (by decide) h0 rfl
  have h5 := Made.call (os := sample) 5 1 ⟨.withOption, .none⟩ _ _ _ rfl (by decide) h1 rfl
  have h6 := Made.call (os := sample) 6 5 ⟨.withDef, .idx 2⟩ _ _ _ rfl (by decide) h5 rfl
  exact ⟨h0, _, h1, rfl, rfl, _, h5, _, h6, rfl, rfl, rfl⟩

example : ∃ s, run 100 sample = .ok s := ⟨_, rfl⟩

/-- The theorem about panics applies to a chain. -/
example : ∃ s, run 100 [.new "a.proto", .call 0 ⟨.withService, .name "S"⟩, .call 1 ⟨.withMethod, .name "Get"⟩] = .ok s := by
  refine C113_runs_partial (by decide) ?_
  intro i o hi
  match i, hi with
  | 0, hi => exact .inl ⟨_, (Option.some.inj hi).symm⟩
  | 1, hi => exact .inr ⟨0, _, _, _, _, (Option.some.inj hi).symm, .new 0 "a.proto" rfl, rfl⟩
  | 2, hi =>
    exact .inr ⟨1, _, _, _, _, (Option.some.inj hi).symm,
      .call 1 0 ⟨.withService, .name "S"⟩ _ _ _ rfl (by decide) (.new 0 "a.proto" rfl) rfl, rfl⟩

/-! ## What is false

`b := NewLocationBuilder("a.proto").WithService("S").WithOption().WithEnv().WithVar(1); b.WithName()` -/
def envSample : List Op :=
  [.new "a.proto", .call 0 ⟨.withService, .name "S"⟩, .call 1 ⟨.withOption, .none⟩, .call 2 ⟨.withEnv, .none⟩, .call 3 ⟨.withVar, .idx 1⟩,
   .call 4 ⟨.withName, .none⟩]

/-- The location of the name of an entry of an environment does not say that it is the name; the location of the whole entry, taken before,
then says it.  So `C113_location_partial` and `C113_unchanged_partial` are false without their last hypotheses. -/
theorem C113_env_false :
    (∃ sd last, Made envSample 5 sd last ∧ sd.content [.service, .option, .env, .var, .name] = some .none) ∧
    found envSample 5 [.service, .option, .env, .var] = some (some (.idx 1)) ∧
    found envSample 5 [.service, .option, .env, .var, .name] = some none ∧
    found (envSample.take 5) 4 [.service, .option, .env, .var, .name] = some none ∧
    found envSample 4 [.service, .option, .env, .var, .name] = some (some .none) := by
  refine ⟨?_, rfl, rfl, rfl, rfl⟩
  have h0 : Made envSample 0 (start "a.proto") [] := .new 0 _ rfl
  have h1 := Made.call (os := envSample) 1 0 ⟨.withService, .name "S"⟩ _ _ _ rfl (by decide) h0 rfl
  have h2 := Made.call (os := envSample) 2 1 ⟨.withOption, .none⟩ _ _ _ rfl (by decide) h1 rfl
  have h3 := Made.call (os := envSample) 3 2 ⟨.withEnv, .none⟩ _ _ _ rfl (by decide) h2 rfl
  have h4 := Made.call (os := envSample) 4 3 ⟨.withVar, .idx 1⟩ _ _ _ rfl (by decide) h3 rfl
  have h5 := Made.call (os := envSample) 5 4 ⟨.withName, .none⟩ _ _ _ rfl (by decide) h4 rfl
  exact ⟨_, _, h5, rfl⟩

/-- `NewLocationBuilder("a.proto").WithImportName("b.proto").WithGoPackage()` -/
def importSample : List Op := [.new "a.proto", .call 0 ⟨.withImportName, .name "b.proto"⟩, .call 1 ⟨.withGoPackage, .none⟩]

/-- A call forgets the name of an import that a call before it has set. -/
theorem C113_forgotten_false :
    (∃ sd last, Made importSample 2 sd last ∧ sd.content [.importName] = some (.name "b.proto")) ∧
    found importSample 1 [.importName] = some (some (.name "b.proto")) ∧ found importSample 2 [.importName] = some none := by
  refine ⟨?_, rfl, rfl⟩
  have h0 : Made importSample 0 (start "a.proto") [] := .new 0 _ rfl
  have h1 := Made.call (os := importSample) 1 0 ⟨.withImportName, .name "b.proto"⟩ _ _ _ rfl (by decide) h0 rfl
  have h2 := Made.call (os := importSample) 2 1 ⟨.withGoPackage, .none⟩ _ _ _ rfl (by decide) h1 rfl
  exact ⟨_, _, h2, rfl⟩

/-- `b := NewLocationBuilder("a.proto"); ToLazyMessageBuilder(b, "M").WithOption().WithAlias()` panics; one call less does not. -/
theorem C113_lazy_false :
    (∃ s, run 100 [.new "a.proto", .lazyMessage 0 "M", .call 1 ⟨.withOption, .none⟩] = .ok s) ∧
    run 100 [.new "a.proto", .lazyMessage 0 "M", .call 1 ⟨.withOption, .none⟩, .call 2 ⟨.withAlias, .none⟩] = .panic := ⟨⟨_, rfl⟩, rfl⟩

/-- `ToLazyEnumBuilder(b, "E").WithOption().WithValue("V")` does not say that the enum has an option. -/
theorem C113_lazyEnum_false :
    found [.new "a.proto", .lazyEnum 0 "E", .call 1 ⟨.withOption, .none⟩] 2 [.enum, .option, .alias] = some (some .none) ∧
    found [.new "a.proto", .lazyEnum 0 "E", .call 1 ⟨.withOption, .none⟩, .call 2 ⟨.withValue, .name "V"⟩] 3 [.enum, .option, .alias] = some none ∧
    found [.new "a.proto", .lazyEnum 0 "E", .call 1 ⟨.withOption, .none⟩, .call 2 ⟨.withValue, .name "V"⟩] 3 [.enum, .value] =
      some (some (.name "V")) := ⟨rfl, rfl, rfl⟩

end Verif.LocBuild
