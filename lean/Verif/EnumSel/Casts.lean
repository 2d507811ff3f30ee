import Verif.EnumSel.Props

/-!
# Conversions and maps of enum definitions

The conversion functions that a message declares for its enum definitions (`resolver/message.go` lines 509-520,
`resolver/type_conversion.go` lines 13-97), the calls of them in the generated code (`generator/code_generator.go` lines 3192-3206,
3258-3289 and 2546-2573) and maps that build enums (`generator/templates/eval.go.tmpl` lines 22-57, `grpc/federation/cel.go` lines
655-686).

Simplifications: that a conversion is declared once (`convertedFQDNMap`) is left out, declarations are a list.  Two conversions are
the same if their types are; their Go names are in C64.
-/

namespace Verif.EnumSel

open Verif.CelTy

/-- An enum type: whether it is repeated. -/
structure Elem where
  rep : Bool
  enum : Name
deriving DecidableEq, Repr

/-- A conversion function, `castFuncName` (`generator/code_generator.go` lines 3741-3743): from one type to another. -/
structure CastFn where
  src : Elem
  dst : Elem
deriving DecidableEq, Repr

/-- `typeConversionDecls` for two enums, `resolver/type_conversion.go` lines 13-82: the lists and their elements, or one function. -/
def enumDecls (e : Name) (r : Bool) (to : Name) (tr : Bool) : List CastFn :=
  if e = to then []
  else if r then [⟨⟨true, e⟩, ⟨tr, to⟩⟩, ⟨⟨false, e⟩, ⟨false, to⟩⟩]
  else [⟨⟨false, e⟩, ⟨tr, to⟩⟩]

/-- `enumSelectorTypeConversionDecls`, `resolver/type_conversion.go` lines 85-97: both arms. -/
def armDecls (to : Name) (tr : Bool) : Ty → List CastFn
  | .enum e r => enumDecls e r to tr
  | .selector t f _ => armDecls to tr t ++ armDecls to tr f
  | _ => []

/-- `typeConversionDecls` from the type of an expression to an enum, `resolver/type_conversion.go` lines 13-82: for a list of
selectors the elements are taken on both sides (lines 48-56). -/
def decls (to : Name) (tr : Bool) : Ty → List CastFn
  | .enum e r => enumDecls e r to tr
  | .selector t f r => armDecls to (if r then false else tr) (.selector t f r)
  | _ => []

/-- The declarations for `def { enum { ... } }`, `resolver/message.go` lines 509-511. -/
def defDecls (to : Name) (ty : Ty) : List CastFn := decls to false ty

/-- The declarations for `def { map { ... enum { ... } } }`, `resolver/message.go` lines 512-519: the type of the expression and the
enum as lists. -/
def mapDecls (to : Name) (ty : Ty) : List CastFn := decls to true (asRepeated ty)

/-- The calls in what is generated for an expression of a type: `EnumCastFunc` of a definition (`generator/code_generator.go` lines
3192-3206) and of a map (lines 3269-3289), which both convert to one enum, and of selectors (lines 2546-2573, `requiredCast` in lines
3725-3739). -/
def calls (to : Name) : Ty → List CastFn
  | .enum e r => if e = to then [] else [⟨⟨r, e⟩, ⟨false, to⟩⟩]
  | .selector t f _ => calls to t ++ calls to f
  | _ => []

/-- Whether the Go compiler accepts a conversion function: that of a list makes a slice of the result
(`generator/templates/cast.go.tmpl` lines 1-22, `IsSlice` in `generator/code_generator.go` lines 2001-2003). -/
def castCompiles (c : CastFn) : Bool := !(c.src.rep && !c.dst.rep)

/-- Whether the Go compiler accepts what is generated for an enum expression, `generator/templates/eval.go.tmpl` lines 33-56 and
93-116, apart from the conversions: `return v` has one result too few, and a list has no `GetCond`. -/
def bodyCompiles (to : Name) : Ty → Bool
  | .enum e _ => decide (e ≠ to)
  | .selector t f r => !r && match param to (.selector t f r) with
    | some p => compiles p
    | none => false
  | _ => false

/-- The Go compiler accepts the file: the function, the conversions that are declared, and each called one is declared. -/
def goCompiles (declared : List CastFn) (to : Name) (ty : Ty) : Bool :=
  bodyCompiles to ty && (calls to ty).all (fun c => declared.contains c) && declared.all castCompiles

/-- One step of a map, `generator/templates/eval.go.tmpl` lines 33-56: as the value of a definition. -/
def mapStep {Env : Type} (conv : Name → Name → Int → Int) (to : Name) (t : Ty) (x : Expr Env) (env : Env) : Option Int :=
  defValue conv to t (eval env x)

/-- `evalMap`, `grpc/federation/cel.go` lines 675-685: the values for the elements of the source, the first error ends it.  `bind`
gives the variables with the iterator (line 678). -/
def mapValue {Env I : Type} (conv : Name → Name → Int → Int) (to : Name) (t : Ty) (x : Expr Env) (bind : I → Env) :
    List I → Option (List Int)
  | [] => some []
  | i :: is => match mapStep conv to t x (bind i) with
    | none => none
    | some v => match mapValue conv to t x bind is with
      | none => none
      | some vs => some (v :: vs)

/-! ## Which definitions compile -/

theorem calls_sub_arm (to : Name) (ty : Ty) : ∀ c ∈ calls to ty, c ∈ armDecls to false ty := by
  intro c hc
  induction ty with
  | enum e r =>
    simp only [calls] at hc
    simp only [armDecls, enumDecls]
    split at hc
    · simp at hc
    · rename_i h
      cases r <;> simp_all
  | selector t f r iht ihf =>
    simp only [calls, List.mem_append] at hc
    simp only [armDecls, List.mem_append]
    rcases hc with h | h
    · exact Or.inl (iht h)
    · exact Or.inr (ihf h)
  | _ => simp [calls] at hc

/-- Each conversion that the code for an enum definition calls is declared by its message, for expressions of any type and any
nesting of `select`. -/
theorem C84_definition_casts (to : Name) (ty : Ty) : ∀ c ∈ calls to ty, c ∈ defDecls to ty := by
  intro c hc
  have h := calls_sub_arm to ty c hc
  cases ty with
  | enum e r => exact h
  | selector t f r => cases r <;> exact h
  | _ => simp [calls] at hc

example : calls ["pkg", "To"] (.selector (.enum ["pkg", "A"] false) (.enum ["pkg", "To"] false) false) =
    [⟨⟨false, ["pkg", "A"]⟩, ⟨false, ["pkg", "To"]⟩⟩] := by decide

/-- Each conversion that the code for a map of enums calls is declared exactly if the expression is no list. -/
theorem C84_map_casts (to : Name) (ty : Ty) :
    (∀ c ∈ calls to ty, c ∈ mapDecls to ty) ↔ ¬ ∃ e, e ≠ to ∧ ty = .enum e true := by
  constructor
  · rintro h ⟨e, hne, rfl⟩
    have := h ⟨⟨true, e⟩, ⟨false, to⟩⟩ (by simp [calls, hne])
    simp [mapDecls, asRepeated, decls, enumDecls, hne] at this
  · intro h c hc
    have ha := calls_sub_arm to ty c hc
    cases ty with
    | enum e r =>
      simp only [calls] at hc
      split at hc
      · simp at hc
      · rename_i hne
        cases r with
        | true => exact absurd ⟨e, hne, rfl⟩ h
        | false => simp_all [mapDecls, asRepeated, decls, enumDecls]
    | selector t f r => exact ha
    | _ => simp [calls] at hc

example : calls ["pkg", "To"] (.enum ["pkg", "A"] false) ≠ [] ∧
    mapDecls ["pkg", "To"] (.enum ["pkg", "A"] false) ≠ [] := by decide

/-- The declared conversions of a typed expression compile. -/
theorem armDecls_compile {Env : Type} (K : Known) (to : Name) (x : Expr Env) (h : Typed x)
    (hk : ∀ e, Mentions x e → K.enums e = true) (ty : Ty) (hty : fromCEL K (typeOf x) = some ty) :
    ∀ c ∈ armDecls to false ty, castCompiles c = true := by
  induction h generalizing ty with
  | @leaf e v =>
    obtain ⟨ty', hty', _, hcase⟩ := fromCEL_typed K _ .leaf hk
    rw [hty] at hty'
    simp only [Option.some.injEq] at hty'
    subst hty'
    rcases hcase with ⟨e', v', hx, rfl⟩ | ⟨_, _, _, _, _, hx, _⟩
    · intro c hc
      simp only [armDecls, enumDecls] at hc
      split at hc
      · simp at hc
      · simp at hc
        subst hc
        rfl
    · cases hx
  | @select c t f ht hf iht ihf =>
    obtain ⟨ty', hty', _, hcase⟩ := fromCEL_typed K (.select c t f) (.select ht hf) hk
    rw [hty] at hty'
    simp only [Option.some.injEq] at hty'
    subst hty'
    rcases hcase with ⟨e, v, hx, _⟩ | ⟨c', t', f', a, b, hx, rfl, ha, hb⟩
    · cases hx
    · cases hx
      intro d hd
      simp only [armDecls, List.mem_append] at hd
      rcases hd with hd | hd
      · exact iht (fun e he => hk e (.yes he)) a ha d hd
      · exact ihf (fun e he => hk e (.no he)) b hb d hd

/-- The enum definition or the map of an expression that is no list compiles exactly if it is another enum, or a `select` whose calls
are only nested in the value for true. -/
theorem compiles_typed {Env : Type} (K : Known) (to : Name) (x : Expr Env) (h : Typed x)
    (hk : ∀ e, Mentions x e → K.enums e = true) (ty : Ty) (hty : fromCEL K (typeOf x) = some ty) (declared : List CastFn)
    (hd : (∀ c ∈ calls to ty, c ∈ declared) ∧ ∀ c ∈ declared, castCompiles c = true) :
    goCompiles declared to ty = true ↔ (∃ l e v, x = .leaf l e v ∧ e ≠ to) ∨ (∃ c t f, x = .select c t f ∧ TrueNested x) := by
  have hrest : goCompiles declared to ty = bodyCompiles to ty := by
    simp only [goCompiles]
    rw [List.all_eq_true.2 (fun c hc => by simpa using hd.1 c hc), List.all_eq_true.2 hd.2]
    simp
  rw [hrest]
  obtain ⟨ty', hty', _, hcase⟩ := fromCEL_typed K x h hk
  rw [hty] at hty'
  simp only [Option.some.injEq] at hty'
  subst hty'
  have hiff := C84_compiles_iff K to x h hk ty hty
  rcases hcase with ⟨e, v, rfl, rfl⟩ | ⟨c, t, f, a, b, rfl, rfl, ha, hb⟩
  · simp only [bodyCompiles, decide_eq_true_eq]
    constructor
    · intro hne
      exact Or.inl ⟨_, e, v, rfl, hne⟩
    · rintro (⟨l, e', v', hx, hne⟩ | ⟨_, _, _, hx, _⟩)
      · cases hx; exact hne
      · cases hx
  · have hb' : bodyCompiles to (.selector a b false) = true ↔ ∃ p, param to (.selector a b false) = some p ∧ compiles p = true := by
      simp only [bodyCompiles, Bool.not_false, Bool.true_and]
      cases hp : param to (.selector a b false) with
      | none => simp
      | some p => simp
    rw [hb', hiff]
    constructor
    · intro hn
      exact Or.inr ⟨c, t, f, rfl, hn⟩
    · rintro (⟨_, _, _, hx, _⟩ | ⟨_, _, _, _, hn⟩)
      · cases hx
      · exact hn

/-- `enum { name: to by: x }`: what is generated, with the conversions it calls, compiles exactly if `x` is of another enum, or a
`select` whose calls are only nested in the value for true. -/
theorem C84_definition_compiles_iff {Env : Type} (K : Known) (to : Name) (x : Expr Env) (h : Typed x)
    (hk : ∀ e, Mentions x e → K.enums e = true) (ty : Ty) (hty : fromCEL K (typeOf x) = some ty) :
    goCompiles (defDecls to ty) to ty = true ↔
      (∃ l e v, x = .leaf l e v ∧ e ≠ to) ∨ (∃ c t f, x = .select c t f ∧ TrueNested x) := by
  refine compiles_typed K to x h hk ty hty _ ⟨C84_definition_casts to ty, ?_⟩
  have harm := armDecls_compile K to x h hk ty hty
  intro c hc
  apply harm
  cases ty with
  | enum e r => exact hc
  | selector t f r => cases r <;> exact hc
  | _ => simp [defDecls, decls] at hc

example : goCompiles (defDecls ["pkg", "To"] (.enum ["pkg", "A"] false)) ["pkg", "To"] (.enum ["pkg", "A"] false) = true := by
  decide

/-- `map { ... enum { name: to by: x } }`: as for definitions. -/
theorem C84_map_compiles_iff {Env : Type} (K : Known) (to : Name) (x : Expr Env) (h : Typed x)
    (hk : ∀ e, Mentions x e → K.enums e = true) (ty : Ty) (hty : fromCEL K (typeOf x) = some ty) :
    goCompiles (mapDecls to ty) to ty = true ↔
      (∃ l e v, x = .leaf l e v ∧ e ≠ to) ∨ (∃ c t f, x = .select c t f ∧ TrueNested x) := by
  obtain ⟨ty', hty', _, hcase⟩ := fromCEL_typed K x h hk
  rw [hty] at hty'
  simp only [Option.some.injEq] at hty'
  subst hty'
  have harm := armDecls_compile K to x h hk ty hty
  refine compiles_typed K to x h hk ty hty _ ⟨(C84_map_casts to ty).2 ?_, ?_⟩
  · rintro ⟨e, _, he⟩
    rcases hcase with ⟨e', v, _, rfl⟩ | ⟨_, _, _, _, _, _, rfl, _⟩ <;> cases he
  · intro c hc
    rcases hcase with ⟨e, v, _, rfl⟩ | ⟨_, _, _, a, b, _, rfl, _⟩
    · simp only [mapDecls, asRepeated, decls, enumDecls] at hc
      split at hc
      · simp at hc
      · simp at hc
        rcases hc with rfl | rfl <;> rfl
    · exact harm c hc

/-- A map over `nestedLeft` compiles, and one over `nestedRight` does not. -/
example : ((fromCEL ⟨fun _ => true, fun _ => true⟩ (typeOf nestedLeft)).map
      (fun ty => goCompiles (mapDecls ["pkg", "To"] ty) ["pkg", "To"] ty)) = some true ∧
    ((fromCEL ⟨fun _ => true, fun _ => true⟩ (typeOf nestedRight)).map
      (fun ty => goCompiles (mapDecls ["pkg", "To"] ty) ["pkg", "To"] ty)) = some false := by decide

/-- Not every accepted definition compiles: one of a list, in a definition or a map, whatever else the message declares; and a map of
the same enum. -/
theorem C84_list_definition_false (aliased : Name → Name → Bool) (to e : Name) (ha : aliased e to = true) (hne : e ≠ to)
    (declared : List CastFn) :
    defAccepted aliased to (.enum e true) = true ∧ goCompiles declared to (.enum e true) = false ∧
    defAccepted aliased to (.enum to false) = true ∧ goCompiles declared to (.enum to false) = false := by
  refine ⟨by simp [defAccepted, ha], ?_, by simp [defAccepted], by simp [goCompiles, bodyCompiles]⟩
  simp only [goCompiles, calls, hne, if_false, List.all_cons, List.all_nil, Bool.and_true]
  cases hc : declared.contains (⟨⟨true, e⟩, ⟨false, to⟩⟩ : CastFn) with
  | false => simp
  | true =>
    have : declared.all castCompiles = false := by
      rw [List.all_eq_false]
      exact ⟨_, List.contains_iff_mem.1 hc, by simp [castCompiles]⟩
    simp [this]

example : ∃ (aliased : Name → Name → Bool) (to e : Name), aliased e to = true ∧ e ≠ to :=
  ⟨fun _ _ => true, ["pkg", "To"], ["pkg", "A"], rfl, by decide⟩

/-! ## The value of a map -/

/-- Two lists agree element by element. -/
inductive Pairs {A B : Type} (R : A → B → Prop) : List A → List B → Prop
  | nil : Pairs R [] []
  | cons {a b as bs} : R a b → Pairs R as bs → Pairs R (a :: as) (b :: bs)

/-- A map that builds enums gives, for each element of its source and in their order, the chosen enum of the expression, converted if
it is another one.  Missing: what is generated must compile, see `C84_map_compiles_iff`. -/
theorem C84_map_value_partial {Env I : Type} (conv : Name → Name → Int → Int) (K : Known) (to : Name) (bind : I → Env)
    (c : Env → Bool) (t f : Expr Env) (src : List I) (h : ∀ i ∈ src, Enums (bind i) (.select c t f))
    (hk : ∀ e, Mentions (.select c t f) e → K.enums e = true) (ty : Ty) (hty : fromCEL K (typeOf (.select c t f)) = some ty)
    (chosen : List (Name × Int)) (hc : Pairs (fun i p => Chosen (bind i) (.select c t f) p.1 p.2) src chosen) :
    mapValue conv to ty (.select c t f) bind src = some (chosen.map fun p => if p.1 = to then p.2 else conv p.1 to p.2) := by
  induction hc with
  | nil => rfl
  | @cons i p is ps hp hps ih =>
    obtain ⟨ty', hty', _, hv⟩ := C84_value_partial conv K to (bind i) c t f (h i (by simp)) hk p.1 p.2 hp
    rw [hty] at hty'
    simp only [Option.some.injEq] at hty'
    subst hty'
    have ih' := ih (fun j hj => h j (by simp [hj]))
    simp only [mapValue, mapStep, hv, ih', List.map_cons]

/-- The same for an expression of one enum. -/
theorem C84_map_enum_partial {Env I : Type} (conv : Name → Name → Int → Int) (to e : Name) (r : Bool) (l : Leaf) (v : Env → Int)
    (bind : I → Env) (src : List I) :
    mapValue conv to (.enum e r) (.leaf l e v) bind src = some (src.map fun i => conv e to (v (bind i))) := by
  induction src with
  | nil => rfl
  | cons i is ih => simp only [mapValue, mapStep, defValue, eval, getInt, ih, List.map_cons]

/-- A map has a value exactly if the expression has one for each element: an error is not dropped. -/
theorem C84_map_fails {Env I : Type} (conv : Name → Name → Int → Int) (to : Name) (t : Ty) (x : Expr Env) (bind : I → Env)
    (src : List I) : mapValue conv to t x bind src = none ↔ ∃ i ∈ src, defValue conv to t (eval (bind i) x) = none := by
  induction src with
  | nil => simp [mapValue]
  | cons i is ih =>
    simp only [mapValue, mapStep, List.mem_cons, exists_eq_or_imp]
    cases h : defValue conv to t (eval (bind i) x) with
    | none => simp
    | some v =>
      cases h2 : mapValue conv to t x bind is with
      | none => simp [ih.1 h2]
      | some vs =>
        simp only [reduceCtorEq, false_or, false_iff]
        intro hex
        rw [ih.2 hex] at h2
        cases h2

example : mapValue (fun _ _ n => n) ["pkg", "A"] (.scalar .int64 false) (.leaf .const ["pkg", "A"] id) id [1] = none := by decide

/-- `map { iterator { name: "b" src: "bs" } enum { name: "pkg.A" by: "select(b, pkg.A.from(1), pkg.B.from(2))" } }`, with a conversion that
adds 10. -/
example :
    let x : Expr Bool := .select id (.leaf .accessor ["pkg", "A"] (fun _ => 1)) (.leaf .accessor ["pkg", "B"] (fun _ => 2))
    let ty : Ty := .selector (.enum ["pkg", "A"] false) (.enum ["pkg", "B"] false) false
    fromCEL ⟨fun _ => true, fun _ => true⟩ (typeOf x) = some ty ∧ (∀ env, Enums env x) ∧
    Pairs (fun i p => Chosen i x p.1 p.2) [true, false, true] [(["pkg", "A"], 1), (["pkg", "B"], 2), (["pkg", "A"], 1)] ∧
    mapValue (fun _ _ n => n + 10) ["pkg", "A"] ty x id [true, false, true] = some [1, 12, 1] := by
  refine ⟨by decide, fun env => .select (.leaf (by simp) (by simp)) (.leaf (by simp) (by simp)), ?_, by decide⟩
  exact .cons (.yes rfl (.leaf _ _ _)) (.cons (.no rfl (.leaf _ _ _)) (.cons (.yes rfl (.leaf _ _ _)) .nil))

end Verif.EnumSel
