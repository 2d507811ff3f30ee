import Verif.Codegen.Rules
import Verif.Codegen.ExprProps

/-! # C36: the data of files, services, methods, messages, fields, enums and plugins

Each theorem gives exactly what a plugin sees of an object, for all objects whose identifiers are not empty. -/

namespace Verif.Codegen

/-- Specification: a reference to an object has an identifier. -/
def Ref? (r : Option Name) : Prop := r ≠ some []
def Refs (l : List Name) : Prop := [] ∉ l

theorem ref_rt (r : Option Name) (h : Ref? r) : decRef (encRef r) = r := by
  cases r with
  | none => rfl
  | some n =>
    have : n ≠ [] := fun e => h (by rw [e])
    simp [encRef, decRef, this]

theorem refs_rt (l : List Name) (h : Refs l) : decRefs l = l := by
  induction l with
  | nil => rfl
  | cons x xs ih =>
    have hx : x ≠ [] := fun e => h (by simp [e])
    have := ih (fun e => h (by simp [e]))
    simp only [decRefs] at this
    simp [decRefs, decRef, hx, this]

theorem files_rt (l : List (Option Name)) (h : ∀ r ∈ l, Ref? r) (hn : none ∉ l) : decFiles (encFiles l) = l := by
  induction l with
  | nil => rfl
  | cons x xs ih =>
    have h1 : x ≠ none := fun e => hn (by simp [e])
    have := ih (fun r hr => h r (by simp [hr])) (fun e => hn (by simp [e]))
    simp only [decFiles, encFiles] at this
    simp only [decFiles, encFiles, List.filter_cons, ne_eq, h1, not_false_eq_true, decide_true, if_true, List.map_cons]
    rw [ref_rt x (h x (by simp))]
    simp only [ne_eq] at this
    rw [this]

/-! ## Files -/

/-- Specification: the parts of a file have identifiers. -/
def RFile.OK (f : RFile) : Prop :=
  (∀ r ∈ f.pkgFiles, Ref? r) ∧ none ∉ f.pkgFiles ∧ (∀ r ∈ f.imports, Ref? r) ∧ none ∉ f.imports ∧
  Refs f.services ∧ Refs f.messages ∧ Refs f.enums ∧ Refs f.plugins

/-- C36 (partial: files with a Go package; no descriptor): a plugin sees the file the resolver produced. -/
theorem C36_file_partial (f : RFile) (h : f.OK) (hg : f.goPackage ≠ none) : (encFile f).map decFile = some { f with desc := none } := by
  obtain ⟨a, b, g, n, d, i, s, m, e, p⟩ := f
  obtain ⟨h1, h2, h3, h4, h5, h6, h7, h8⟩ := h
  simp only at *
  cases g with
  | none => exact absurd rfl hg
  | some g => simp [encFile, encGoPkg, decFile, files_rt b h1 h2, files_rt i h3 h4, refs_rt s h5, refs_rt m h6, refs_rt e h7, refs_rt p h8]

/-- C36 is false of the code for a file without any option, which has no Go package (`resolver/resolver.go` lines 360-364): the
request cannot be built, `toGoPackage` dereferences nil. -/
theorem C36_go_package_false (f : RFile) : encFile f = none ↔ f.goPackage = none := by
  cases h : f.goPackage <;> simp [encFile, encGoPkg, h]

/-! ## Services -/

def EnvVar.OK (v : EnvVar Ty) : Prop := ∀ t ∈ v.ty, t.Single

theorem env_rt (v : EnvVar Ty) (h : v.OK) : (v.conv encTy encEnvOpt).conv decTy decEnvOpt = v := by
  obtain ⟨n, t, o⟩ := v
  simp only [EnvVar.conv]
  rw [oty_rt t h]
  cases o <;> rfl

/-- Specification: one kind of expression, the parts as for definitions. -/
def SExpr.OK (e : SExpr) : Prop :=
  (∀ t ∈ e.ty, t.Single) ∧
  ((OCEL e.by ∧ e.map = none ∧ e.message = none ∧ e.enum = none ∧ e.validation = none) ∨
   (e.by = none ∧ (∀ m ∈ e.map, ∀ x ∈ m.expr, x.OK) ∧ e.message = none ∧ e.enum = none ∧ e.validation = none) ∨
   (e.by = none ∧ e.map = none ∧ (∀ m ∈ e.message, ∀ a ∈ m.args, a.OK) ∧ e.enum = none ∧ e.validation = none) ∨
   (e.by = none ∧ e.map = none ∧ e.message = none ∧ (∀ x ∈ e.enum, OCEL x.by') ∧ e.validation = none) ∨
   (e.by = none ∧ e.map = none ∧ e.message = none ∧ e.enum = none ∧ (∀ v ∈ e.validation, OCEL v.1 ∧ OCEL v.2)))

theorem sexpr_rt (e : SExpr) (h : e.OK) : decSExpr (encSExpr e) = .ok e := by
  obtain ⟨t, b, p, m, x, v⟩ := e
  obtain ⟨h1, h⟩ := h
  simp only at h1 h
  rcases h with ⟨hb, rfl, rfl, rfl, rfl⟩ | ⟨rfl, hp, rfl, rfl, rfl⟩ | ⟨rfl, rfl, hm, rfl, rfl⟩ | ⟨rfl, rfl, rfl, hx, rfl⟩ | ⟨rfl, rfl, rfl, rfl, hv⟩
  · cases b with
    | none => simp [encSExpr, decSExpr, oty_rt t h1]
    | some b => simp only [encSExpr, decSExpr]; rw [oty_rt t h1, cel_rt b (hb b rfl)]
  · cases p with
    | none => simp [encSExpr, decSExpr, oty_rt t h1]
    | some p => simp only [encSExpr, decSExpr]; rw [oty_rt t h1, map_expr_rt p (hp p rfl)]
  · cases m with
    | none => simp [encSExpr, decSExpr, oty_rt t h1]
    | some m => simp only [encSExpr, decSExpr]; rw [oty_rt t h1, msg_rt m (hm m rfl)]
  · cases x with
    | none => simp [encSExpr, decSExpr, oty_rt t h1]
    | some x => simp only [encSExpr, decSExpr]; rw [oty_rt t h1, enum_rt x (hx x rfl)]
  · cases v with
    | none => simp [encSExpr, decSExpr, oty_rt t h1]
    | some v => simp only [encSExpr, decSExpr]; rw [oty_rt t h1, ocel_rt v.1 (hv v rfl).1, ocel_rt v.2 (hv v rfl).2]

def SVar.OK (v : SVar (CEL Ty) SExpr) : Prop := OCEL v.ifv ∧ ∀ e ∈ v.expr, e.OK

theorem svars_rt (vs : List (SVar (CEL Ty) SExpr)) (h : ∀ v ∈ vs, v.OK) : decSVars (vs.map encSVar) = .ok vs := by
  induction vs with
  | nil => rfl
  | cons v vs ih =>
    obtain ⟨h1, h2⟩ := h v (by simp)
    obtain ⟨n, c, e⟩ := v
    simp only [List.map_cons, decSVars, decSVar, encSVar]
    rw [ih (fun w hw => h w (by simp [hw])), ocel_rt c h1]
    cases e with
    | none => rfl
    | some e => simp only [Option.map_some]; rw [sexpr_rt e (h2 e rfl)]

/-- Specification: environment variables have proper types, variables one kind of expression. -/
def RSRuleOK (r : RSRule) : Prop := (∀ vs ∈ r.env, ∀ v ∈ vs, v.OK) ∧ ∀ v ∈ r.vars, v.OK

theorem srule_rt (r : RSRule) (h : RSRuleOK r) : decSRule (encSRule r) = .ok { r with env := some (r.env.getD []) } := by
  obtain ⟨e, vs⟩ := r
  obtain ⟨h1, h2⟩ := h
  simp only [decSRule, encSRule]
  rw [svars_rt vs h2]
  cases e with
  | none => rfl
  | some e => simp only [Option.map_some, Option.getD_some]; rw [map_rt _ _ e (fun v hv => env_rt v (h1 e rfl v hv))]

def RService.OK (s : RService) : Prop :=
  Ref? s.file ∧ Refs s.methods ∧ Refs s.messages ∧ Refs s.messageArgs ∧ Refs s.plugins ∧ ∀ r ∈ s.rule, RSRuleOK r

/-- What a plugin sees of a service: no descriptor, and an environment even if there is none. -/
theorem service_rt (s : RService) (h : s.OK) :
    decService (encService s) = .ok { s with desc := none, rule := s.rule.map (fun r => { r with env := some (r.env.getD []) }) } := by
  obtain ⟨f, n, d, m, r, g, a, p⟩ := s
  obtain ⟨h1, h2, h3, h4, h5, h6⟩ := h
  simp only at *
  simp only [decService, encService]
  rw [ref_rt f h1, refs_rt m h2, refs_rt g h3, refs_rt a h4, refs_rt p h5]
  cases r with
  | none => rfl
  | some r => simp only [Option.map_some]; rw [srule_rt r (h6 r rfl)]

/-- C36 (partial: no descriptor; the options have an environment): a plugin sees the service, its environment variables and variables. -/
theorem C36_service_partial (s : RService) (h : s.OK) (he : ∀ r ∈ s.rule, r.env ≠ none) : decService (encService s) = .ok { s with desc := none } := by
  rw [service_rt s h]
  obtain ⟨f, n, d, m, r, g, a, p⟩ := s
  cases r with
  | none => rfl
  | some r =>
    obtain ⟨e, vs⟩ := r
    cases e with
    | none => exact absurd rfl (he _ rfl)
    | some e => rfl

/-- C36 is false of the code for services whose options declare no environment: the plugin sees an empty one. -/
theorem C36_env_false (s : RService) (h : s.OK) (r : RSRule) (hr : s.rule = some r) (he : r.env = none) :
    decService (encService s) = .ok { s with desc := none, rule := some { r with env := some [] } } := by
  rw [service_rt s h, hr, Option.map_some, he]; rfl

/-! ## Methods -/

def RMethod.OK (m : RMethod) : Prop := Ref? m.service ∧ Ref? m.request ∧ Ref? m.response ∧ ∀ r ∈ m.rule, Ref? r.2

/-- C36 (partial: no descriptor): methods survive with their timeout and response. -/
theorem C36_method_partial (m : RMethod) (h : m.OK) : decMethod (encMethod m) = { m with desc := none } := by
  obtain ⟨s, n, d, q, p, r⟩ := m
  obtain ⟨h1, h2, h3, h4⟩ := h
  simp only at *
  simp only [decMethod, encMethod]
  rw [ref_rt s h1, ref_rt q h2, ref_rt p h3]
  cases r with
  | none => rfl
  | some r =>
    obtain ⟨t, o⟩ := r
    simp only [Option.map_some]
    rw [ref_rt o (h4 _ rfl)]
    cases t with
    | none => rfl
    | some t => simp only [Option.map_some]; rw [C36_duration]

/-! ## Messages -/

def RMessage.OK (m : RMessage) : Prop :=
  Ref? m.file ∧ Ref? m.parent ∧ Refs m.nested ∧ Refs m.enums ∧ Refs m.fields ∧ Refs m.oneofs ∧ ∀ r ∈ m.rule, Ref? r.argument ∧ Refs r.aliases

theorem message_rt (m : RMessage) (h : m.OK) :
    decMessage (encMessage m) = { m with desc := none, rule := m.rule.map (fun r => { r with defSet := some (r.defSet.getD ⟨[], [], none⟩) }) } := by
  obtain ⟨f, n, d, i, p, ns, es, fs, os, r⟩ := m
  obtain ⟨h1, h2, h3, h4, h5, h6, h7⟩ := h
  simp only at *
  simp only [decMessage, encMessage]
  rw [ref_rt f h1, ref_rt p h2, refs_rt ns h3, refs_rt es h4, refs_rt fs h5, refs_rt os h6]
  cases r with
  | none => rfl
  | some r =>
    obtain ⟨a, c, l, s⟩ := r
    simp only [Option.map_some, decMsgRule, encMsgRule]
    rw [ref_rt a (h7 _ rfl).1, refs_rt l (h7 _ rfl).2]
    cases s <;> rfl

/-- C36 (partial: no descriptor; the options have a set of variables): messages survive. -/
theorem C36_message_partial (m : RMessage) (h : m.OK) (hs : ∀ r ∈ m.rule, r.defSet ≠ none) : decMessage (encMessage m) = { m with desc := none } := by
  rw [message_rt m h]
  obtain ⟨f, n, d, i, p, ns, es, fs, os, r⟩ := m
  cases r with
  | none => rfl
  | some r =>
    obtain ⟨a, c, l, s⟩ := r
    cases s with
    | none => exact absurd rfl (hs _ rfl)
    | some s => rfl

/-! ## Fields -/

def RFieldRule.OK (r : RFieldRule) : Prop :=
  (∀ v ∈ r.value, v.OK) ∧ Refs r.aliases ∧ (∀ a ∈ r.autoBind, Ref? a.1 ∧ Ref? a.2) ∧ ∀ o ∈ r.oneof, OCEL o.ifv ∧ OCEL o.by' ∧ o.defSet ≠ none

theorem field_rule_rt (r : RFieldRule) (h : r.OK) : decFieldRule (encFieldRule r) = .ok { r with env := none } := by
  obtain ⟨v, c, m, a, b, o, e⟩ := r
  obtain ⟨h1, h2, h3, h4⟩ := h
  simp only at *
  have hb : (b.map (fun a => (encRef a.1, encRef a.2))).map (fun a => (decRef a.1, decRef a.2)) = b := by
    cases b with
    | none => rfl
    | some b => simp only [Option.map_some]; rw [ref_rt b.1 (h3 b rfl).1, ref_rt b.2 (h3 b rfl).2]
  have ho : (o.map (OneofRule.conv encTy encDefSet)).map (OneofRule.conv decTy some) = o := by
    cases o with
    | none => rfl
    | some o =>
      obtain ⟨i, d, y, s⟩ := o
      obtain ⟨h5, h6, h7⟩ := h4 _ rfl
      simp only at h5 h6 h7
      simp only [Option.map_some, OneofRule.conv]
      rw [ocel_rt i h5, ocel_rt y h6]
      cases s with
      | none => exact absurd rfl h7
      | some s => rfl
  simp only [decFieldRule, encFieldRule]
  rw [hb, ho, refs_rt a h2]
  cases v with
  | none => rfl
  | some v => simp only [Option.map_some]; rw [value_rt v (h1 v rfl)]

def RField.OK (f : RField) : Prop := (∀ t ∈ f.ty, t.Single) ∧ Ref? f.oneof ∧ Ref? f.message ∧ ∀ r ∈ f.rule, r.OK

theorem field_rt (f : RField) (h : f.OK) :
    decField (encField f) = .ok { f with desc := none, rule := f.rule.map (fun r => { r with env := none }) } := by
  obtain ⟨n, d, t, o, m, r⟩ := f
  obtain ⟨h1, h2, h3, h4⟩ := h
  simp only at *
  simp only [decField, encField]
  rw [oty_rt t h1, ref_rt o h2, ref_rt m h3]
  cases r with
  | none => rfl
  | some r => simp only [Option.map_some]; rw [field_rule_rt r (h4 r rfl)]

/-- C36 (partial: no descriptor and no options for environment variables): fields survive. -/
theorem C36_field_partial (f : RField) (h : f.OK) (he : ∀ r ∈ f.rule, r.env = none) : decField (encField f) = .ok { f with desc := none } := by
  rw [field_rt f h]
  obtain ⟨n, d, t, o, m, r⟩ := f
  cases r with
  | none => rfl
  | some r =>
    obtain ⟨v, c, m', a, b, o', e⟩ := r
    have : e = none := he _ rfl
    subst this
    rfl

/-- C36 is false of the code for fields with options for environment variables: the plugin does not see them. -/
theorem C36_field_env_false (f : RField) (h : f.OK) (r : RFieldRule) (hr : f.rule = some r) :
    decField (encField f) = .ok { f with desc := none, rule := some { r with env := none } } := by
  rw [field_rt f h, hr]; rfl

/-- C36: oneofs survive. -/
theorem C36_oneof_object (o : OneofO (Option Name)) (h : Ref? o.message) (hf : Refs o.fields) : decOneof (encOneof o) = o := by
  simp only [decOneof, encOneof]; rw [ref_rt _ h, refs_rt _ hf]

/-! ## Enums -/

/-- C36: enums survive with their aliases. -/
theorem C36_enum (e : EnumO (Option Name)) (h1 : Ref? e.file) (h2 : Ref? e.message) (h3 : Refs e.values) (h4 : ∀ l ∈ e.rule, Refs l) :
    decEnum (encEnum e) = e := by
  obtain ⟨f, n, v, m, r⟩ := e
  simp only at *
  simp only [decEnum, encEnum]
  rw [ref_rt f h1, ref_rt m h2, refs_rt v h3]
  cases r with
  | none => rfl
  | some r => simp only [Option.map_some]; rw [refs_rt r (h4 r rfl)]

/-- C36: values of enums survive with their default, aliases and attributes. -/
theorem C36_enum_value (v : EnumV (Option Name)) (h1 : Ref? v.enum) (h2 : ∀ r ∈ v.rule, ∀ a ∈ r.aliases, Ref? a.1 ∧ Refs a.2) :
    decEnumValue (encEnumValue v) = v := by
  obtain ⟨n, e, r⟩ := v
  simp only at *
  simp only [decEnumValue, encEnumValue]
  rw [ref_rt e h1]
  cases r with
  | none => rfl
  | some r =>
    obtain ⟨d, a, t⟩ := r
    simp only [Option.map_some]
    rw [map_rt _ _ a (fun x hx => by simp only; rw [ref_rt x.1 (h2 _ rfl x hx).1, refs_rt x.2 (h2 _ rfl x hx).2])]

/-! ## Plugins -/

/-- C36: CEL plugins survive with their functions. -/
theorem C36_plugin (p : Plug Ty (Option Name))
    (h : ∀ f ∈ p.functions, (∀ t ∈ f.args, t.Single) ∧ (∀ t ∈ f.ret, t.Single) ∧ Ref? f.receiver) : decPlugin (encPlugin p) = p := by
  obtain ⟨n, d, fs⟩ := p
  simp only at h
  simp only [decPlugin, encPlugin]
  rw [map_rt _ _ fs]
  intro f hf
  obtain ⟨h1, h2, h3⟩ := h f hf
  simp only
  rw [map_rt _ _ f.args (fun t ht => C36_type t (h1 t ht)), oty_rt f.ret h2, ref_rt f.receiver h3]

/-! ## Cases that meet the hypotheses -/

/-- A service with two environment variables, a variable and a validation. -/
example : RService.OK ⟨some "p:a.proto".toList, "S".toList, none, ["p.S/Get".toList],
    some ⟨some [⟨"FOO".toList, some ⟨.string, false, false, none, none, none⟩, some ⟨[], "x".toList, true, false⟩⟩, ⟨"N".toList, some ⟨.int64, true, false, none, none, none⟩, none⟩],
      [⟨"v".toList, none, some ⟨none, some ⟨"1".toList, none⟩, none, none, none, none⟩⟩,
       ⟨[], some ⟨"true".toList, none⟩, some ⟨none, none, none, none, none, some (some ⟨"v == 1".toList, none⟩, some ⟨"'m'".toList, none⟩)⟩⟩]⟩,
    ["p.M".toList], [], []⟩ := by
  refine ⟨by simp [Ref?], by simp [Refs], by simp [Refs], by simp [Refs], by simp [Refs], ?_⟩
  intro r hr
  cases hr
  refine ⟨by simp [EnvVar.OK, Ty.Single], ?_⟩
  intro v hv
  simp only [List.mem_cons, List.not_mem_nil, or_false] at hv
  rcases hv with rfl | rfl
  · exact ⟨by simp [OCEL], by simp [SExpr.OK, OCEL, CEL.Single]⟩
  · exact ⟨by simp [OCEL, CEL.Single], by simp [SExpr.OK, OCEL, CEL.Single]⟩

/-- A member of a oneof with a condition, and a field bound automatically. -/
example : RField.OK ⟨"f".toList, none, some ⟨.string, false, false, none, none, none⟩, some "p.M.o".toList, some "p.M".toList,
    some ⟨none, false, false, [], none, some ⟨some ⟨"x".toList, none⟩, false, some ⟨"y".toList, none⟩, some ⟨[], [], none⟩⟩, none⟩⟩ := by
  refine ⟨by simp [Ty.Single], by simp [Ref?], by simp [Ref?], ?_⟩
  intro r hr
  cases hr
  exact ⟨by simp, by simp [Refs], by simp, by simp [OCEL, CEL.Single]⟩

example : RField.OK ⟨"f".toList, none, none, none, some "p.M".toList, some ⟨none, false, false, [], some (some "v".toList, some "p.N.f".toList), none, none⟩⟩ := by
  refine ⟨by simp, by simp [Ref?], by simp [Ref?], ?_⟩
  intro r hr
  cases hr
  exact ⟨by simp, by simp [Refs], by simp [Ref?], by simp⟩

/-- A file with a service and an import. -/
example : RFile.OK ⟨"p".toList, [some "p:a.proto".toList], some ⟨"p".toList, "example/p".toList, []⟩, "a.proto".toList, none, [some "q:b.proto".toList],
    ["p.S".toList], ["p.M".toList, "p.N".toList], [], []⟩ := by
  simp [RFile.OK, Ref?, Refs]

/-- A nested message with options. -/
example : RMessage.OK ⟨some "p:a.proto".toList, "N".toList, none, false, some "p.M".toList, [], [], ["p.M.N.f".toList], [],
    some ⟨some "p.NArgument".toList, false, ["q.N".toList], some ⟨["v".toList], ["sequential/v".toList], some "p.M".toList⟩⟩⟩ := by
  simp [RMessage.OK, Ref?, Refs]

/-- A method with a timeout. -/
example : RMethod.OK ⟨some "p.S".toList, "Get".toList, none, some "p.Req".toList, some "p.Res".toList, some (some 1500000000, none)⟩ := by
  simp [RMethod.OK, Ref?]

end Verif.Codegen
