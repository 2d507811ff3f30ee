import Verif.SrcLoc.Props

/-! # C91: places of iterators, enums, services and imports -/

namespace Verif.SrcLoc

/-! ## Iterators -/

theorem iterator_at (m : Lit) (n : String) (v : Val) (fs : List (String × Val)) (j : Id)
    (h : at? (.msg j fs) [.fld "iterator", .fld n] = some v) : iterator m n fs = some v.id := by
  induction fs with
  | nil => simp [at?] at h
  | cons e es ih =>
    rw [iterator]
    by_cases he : e.1 = "iterator"
    · rw [if_pos he]
      simp only [at?, List.find?_cons, he, decide_true] at h
      cases hv : e.2 with
      | msg a b =>
        rw [hv] at h
        simp only [at?] at h
        simp only [Val.lit?]
        cases hb : b.find? fun x => x.1 = n with
        | none => rw [hb] at h; cases h
        | some x => rw [hb] at h; cases h; rfl
      | str a b => rw [hv] at h; simp [at?] at h
      | ident a => rw [hv] at h; simp [at?] at h
      | other a => rw [hv] at h; simp [at?] at h
      | arr a b => rw [hv] at h; simp [at?] at h
    · rw [if_neg he]
      refine ih ?_
      simp only [at?, List.find?_cons, he, decide_false] at h
      exact h

/-- C91: the name and the source of the iterator of a definition lead to their values. -/
theorem C91_iterator (f : List Top) (hf : NoEmptyImport f) (n : String) (nested : List String) (i : Id)
    (body : List Decl) (o : Opt) (k : Id) (fs : List (String × Val)) (idx : Nat) (p : MapPart) (v : Val)
    (hm : message f n nested = some (i, body))
    (ho : (options body).filter (·.named "grpc.federation.message") = [o]) (hval : o.val = .msg k fs)
    (hp : p = .iteratorName ∨ p = .iteratorSource)
    (hat : at? o.val (.itm "def" idx :: .fld "map" :: p.path) = some v) :
    nodeInfo f { message := some ⟨n, nested, { option := some (.def idx (.map p)) }⟩ } = some v.id := by
  refine nodeInfo_inner hf hm (body_option i ho ?_)
  unfold messageOption
  rw [hval] at hat ⊢
  simp only [at?] at hat
  simp only [collect_eq]
  cases hl : lits (elems fs "def") with
  | nil => rw [hl] at hat; simp at hat
  | cons x xs =>
    simp only [defInfo, onIdx, hl] at hat ⊢
    cases hx : (x :: xs)[idx]? with
    | none => rw [hx] at hat; cases hat
    | some y =>
      rw [hx] at hat
      simp only [at?, Lit.val, onField] at hat ⊢
      cases he : y.fields.find? fun e => e.1 = "map" with
      | none => rw [he] at hat; cases hat
      | some e =>
        rw [he] at hat
        simp only at hat ⊢
        cases hv : e.2 with
        | msg a b =>
          rw [hv] at hat
          simp only [onMsg, Val.lit?]
          rcases hp with rfl | rfl <;> exact iterator_at _ _ v b a hat
        | str a b => rw [hv] at hat; rcases hp with rfl | rfl <;> simp [at?, MapPart.path] at hat
        | ident a => rw [hv] at hat; rcases hp with rfl | rfl <;> simp [at?, MapPart.path] at hat
        | other a => rw [hv] at hat; rcases hp with rfl | rfl <;> simp [at?, MapPart.path] at hat
        | arr a b => rw [hv] at hat; rcases hp with rfl | rfl <;> simp [at?, MapPart.path] at hat

/-! ## Enums -/

/-- The enum of a name of a file. -/
def enum (f : List Top) (n : String) : Option Enum :=
  (f.filterMap fun | .enum e => some e | _ => none).find? fun e => e.name = n

/-- The enum of a name of a message. -/
def nestedEnum (body : List Decl) (n : String) : Option Enum :=
  (body.filterMap fun | .enum e => some e | _ => none).find? fun e => e.name = n

/-- The values of an enum. -/
def Enum.values (e : Enum) : List EnumVal := e.decls.filterMap fun | .value v => some v | .opt _ => none

/-- The options of an enum. -/
def Enum.opts (e : Enum) : List Opt := e.decls.filterMap fun | .opt o => some o | .value _ => none

theorem nodeInfo_enum {f : List Top} (hf : NoEmptyImport f) (el : EnumLoc) {e : Enum} (h : enum f el.name = some e) :
    nodeInfo f { enum := some el } = enumInfo e el := by
  unfold nodeInfo
  have key : ∀ f : List Top, NoEmptyImport f → enum f el.name = some e →
      f.findSome? (topStep { enum := some el }) = some (enumInfo e el) := by
    intro f
    induction f with
    | nil => intro _ h; simp [enum] at h
    | cons t f ih =>
      intro hf h
      have hf' : NoEmptyImport f := fun t ht => hf t (by simp [ht])
      rw [List.findSome?_cons]
      cases t with
      | enum g =>
        by_cases hg : g.name = el.name
        · simp [enum, hg] at h
          subst h
          simp [topStep, hg]
        · simp [enum, hg] at h
          simp only [topStep, hg, if_false]
          exact ih hf' (by simpa [enum] using h)
      | msg i n b => exact ih hf' h
      | svc s => exact ih hf' h
      | other => exact ih hf' h
      | «import» i n =>
        rw [topStep_empty hf rfl rfl _ (by simp) (by simp) (by simp) (by simp)]; exact ih hf' h
      | opt o =>
        rw [topStep_empty hf rfl rfl _ (by simp) (by simp) (by simp) (by simp)]; exact ih hf' h
  rw [key f hf h]
  rfl

theorem body_enum {body : List Decl} (el : EnumLoc) (i : Id) (e : Enum) (h : nestedEnum body el.name = some e) :
    (body.findSome? (msgStep { enum := some el } none)).getD (some i) = enumInfo e el := by
  have key : ∀ body : List Decl, nestedEnum body el.name = some e →
      body.findSome? (msgStep { enum := some el } none) = some (enumInfo e el) := by
    intro body
    induction body with
    | nil => intro h; simp [nestedEnum] at h
    | cons d ds ih =>
      intro h
      rw [List.findSome?_cons]
      cases d with
      | enum g =>
        by_cases hg : g.name = el.name
        · simp [nestedEnum, hg] at h
          subst h
          simp [msgStep, hg]
        · simp [nestedEnum, hg] at h
          simp only [msgStep, hg, if_false]
          exact ih (by simpa [nestedEnum] using h)
      | opt q => exact ih h
      | msg a b c => exact ih h
      | field q => exact ih h
      | other => exact ih h
      | oneof a qs =>
        have : oneofInfo qs { enum := some el } = none := by
          unfold oneofInfo
          induction qs with
          | nil => rfl
          | cons q qs ihq => rw [List.findSome?_cons]; cases q <;> exact ihq h
        simp only [msgStep, this]
        exact ih h
  rw [key body h]
  rfl

/-- C91: an enum leads to its declaration, at the top of a file and in a message. -/
theorem C91_enum (f : List Top) (hf : NoEmptyImport f) (x : String) (e : Enum) :
    (enum f x = some e → nodeInfo f { enum := some { name := x } } = some e.id) ∧
    ∀ n nested i body, message f n nested = some (i, body) → nestedEnum body x = some e →
      nodeInfo f { message := some ⟨n, nested, { enum := some { name := x } }⟩ } = some e.id := by
  have hid : enumInfo e { name := x } = some e.id := by
    have : ∀ ds : List EnumDecl, ds.findSome? (enumStep { name := x }) = none := by
      intro ds
      induction ds with
      | nil => rfl
      | cons d ds ih => rw [List.findSome?_cons]; cases d <;> exact ih
    unfold enumInfo
    rw [this]
    rfl
  exact ⟨fun h => by rw [nodeInfo_enum hf _ h]; exact hid,
    fun n nested i body hm h => nodeInfo_inner hf hm (by rw [body_enum _ i e h]; exact hid)⟩

theorem enumInfo_value (e : Enum) (x : String) (vl : ValueLoc) (v : EnumVal)
    (h : e.values.find? (fun w => w.name = vl.name) = some v) :
    enumInfo e { name := x, value := some vl } = valueInfo v vl := by
  unfold enumInfo
  unfold Enum.values at h
  have key : ∀ ds : List EnumDecl,
      (ds.filterMap fun | EnumDecl.value v => some v | .opt _ => none).find? (fun w => w.name = vl.name) = some v →
      ds.findSome? (enumStep { name := x, value := some vl }) = some (valueInfo v vl) := by
    intro ds
    induction ds with
    | nil => intro h; simp at h
    | cons d ds ih =>
      intro h
      rw [List.findSome?_cons]
      cases d with
      | opt o => exact ih h
      | value w =>
        by_cases hw : w.name = vl.name
        · simp [hw] at h
          subst h
          simp [enumStep, hw]
        · simp only [List.filterMap_cons, List.find?_cons, hw, decide_false] at h
          simp only [enumStep, hw, if_false]
          exact ih h
  rw [key _ h]
  rfl

/-- C91: a value of an enum leads to its declaration, and a part of its option to its value, if there is one option
statement. -/
theorem C91_enum_value_partial (f : List Top) (hf : NoEmptyImport f) (x : String) (e : Enum) (y : String) (w : EnumVal)
    (he : enum f x = some e) (hw : e.values.find? (fun z => z.name = y) = some w) :
    nodeInfo f { enum := some { name := x, value := some { name := y } } } = some w.id ∧
    ∀ (o : Opt) (k : Id) (fs : List (String × Val)) (p : ValueOptPart) (v : Val),
      w.opts.filter (·.named "grpc.federation.enum_value") = [o] → o.val = .msg k fs → p.path ≠ [] →
      at? o.val p.path = some v → p.kind.ok v = true →
      nodeInfo f { enum := some { name := x, value := some { name := y, option := some p } } } = some v.id := by
  constructor
  · rw [nodeInfo_enum hf _ he, enumInfo_value e x _ w hw]; rfl
  · intro o k fs p v ho hval hpath hat hv
    rw [nodeInfo_enum hf _ he, enumInfo_value e x _ w hw]
    have hfirst : w.opts.find? (fun o => o.named "grpc.federation.enum_value") = some o := by
      rw [← List.head?_filter, ho]; rfl
    simp only [valueInfo, hfirst]
    rw [valueOption_eq o p k fs hval]
    refine deepest_at p.kind p.path ⟨o.id, fs⟩ v ?_ hv
    rw [hval] at hat
    rw [Lit.val, at_msg hpath]
    exact hat

/-- C91: the alias of an enum leads to its value, if there is one option statement, in both ways to write it. -/
theorem C91_enum_alias_partial (f : List Top) (hf : NoEmptyImport f) (x : String) (e : Enum) (o : Opt)
    (he : enum f x = some e) (ho : e.opts.filter (·.named "grpc.federation.enum") = [o]) :
    (∀ k fs v, o.val = .msg k fs → at? o.val [.fld "alias"] = some v →
      nodeInfo f { enum := some { name := x, alias := some true } } = some v.id) ∧
    (∀ k s, o.val = .str k s → o.ends "alias" = true →
      nodeInfo f { enum := some { name := x, alias := some true } } = some k) := by
  have key : ∀ ds : List EnumDecl,
      ((ds.filterMap fun | EnumDecl.opt o => some o | .value _ => none).filter (·.named "grpc.federation.enum")) = [o] →
      ds.findSome? (enumStep { name := x, alias := some true }) = some (enumOption o true) := by
    intro ds
    induction ds with
    | nil => intro h; simp at h
    | cons d ds ih =>
      intro h
      rw [List.findSome?_cons]
      cases d with
      | value v => exact ih h
      | opt q =>
        by_cases hq : q.named "grpc.federation.enum" = true
        · simp only [List.filterMap_cons, List.filter_cons, hq, if_true, List.cons.injEq] at h
          obtain ⟨rfl, _⟩ := h
          simp [enumStep, hq]
        · simp only [List.filterMap_cons, List.filter_cons, hq] at h
          simp only [enumStep, hq]
          exact ih h
  have hinfo : nodeInfo f { enum := some { name := x, alias := some true } } = enumOption o true := by
    rw [nodeInfo_enum hf _ he, enumInfo, key _ ho]; rfl
  constructor
  · intro k fs v hval hat
    rw [hinfo, enumOption]
    rw [hval] at hat ⊢
    simp only [at?, Bool.true_and] at hat ⊢
    cases hx : fs.find? fun e => e.1 = "alias" with
    | none => rw [hx] at hat; cases hat
    | some e => rw [hx] at hat; cases hat; rfl
  · intro k s hval hends
    rw [hinfo, enumOption, hval]
    simp [hends]

/-! ## Services -/

/-- The service of a name of a file. -/
def service (f : List Top) (n : String) : Option Service :=
  (f.filterMap fun | .svc s => some s | _ => none).find? fun s => s.name = n

/-- The methods of a service. -/
def Service.rpcs (s : Service) : List Rpc := s.decls.filterMap fun | .rpc r => some r | .opt _ => none

/-- The options of a service. -/
def Service.opts (s : Service) : List Opt := s.decls.filterMap fun | .opt o => some o | .rpc _ => none

theorem nodeInfo_service {f : List Top} (hf : NoEmptyImport f) (sl : SvcLoc) {s : Service}
    (h : service f sl.name = some s) : nodeInfo f { service := some sl } = svcInfo s sl := by
  unfold nodeInfo
  have key : ∀ f : List Top, NoEmptyImport f → service f sl.name = some s →
      f.findSome? (topStep { service := some sl }) = some (svcInfo s sl) := by
    intro f
    induction f with
    | nil => intro _ h; simp [service] at h
    | cons t f ih =>
      intro hf h
      have hf' : NoEmptyImport f := fun t ht => hf t (by simp [ht])
      rw [List.findSome?_cons]
      cases t with
      | svc g =>
        by_cases hg : g.name = sl.name
        · simp [service, hg] at h
          subst h
          simp [topStep, hg]
        · simp [service, hg] at h
          simp only [topStep, hg, if_false]
          exact ih hf' (by simpa [service] using h)
      | msg i n b => exact ih hf' h
      | enum s => exact ih hf' h
      | other => exact ih hf' h
      | «import» i n =>
        rw [topStep_empty hf rfl rfl _ (by simp) (by simp) (by simp) (by simp)]; exact ih hf' h
      | opt o =>
        rw [topStep_empty hf rfl rfl _ (by simp) (by simp) (by simp) (by simp)]; exact ih hf' h
  rw [key f hf h]
  rfl

theorem svcInfo_option (s : Service) (x : String) (p : SvcOptPart) (o : Opt)
    (h : s.opts.filter (·.named "grpc.federation.service") = [o]) :
    svcInfo s { name := x, option := some p } = svcOption o p := by
  have key : ∀ ds : List SvcDecl,
      ((ds.filterMap fun | SvcDecl.opt o => some o | .rpc _ => none).filter (·.named "grpc.federation.service")) = [o] →
      ds.findSome? (svcStep { name := x, option := some p }) = some (svcOption o p) := by
    intro ds
    induction ds with
    | nil => intro h; simp at h
    | cons d ds ih =>
      intro h
      rw [List.findSome?_cons]
      cases d with
      | rpc v => exact ih h
      | opt q =>
        by_cases hq : q.named "grpc.federation.service" = true
        · simp only [List.filterMap_cons, List.filter_cons, hq, if_true, List.cons.injEq] at h
          obtain ⟨rfl, _⟩ := h
          simp [svcStep, hq]
        · simp only [List.filterMap_cons, List.filter_cons, hq] at h
          simp only [svcStep, hq]
          exact ih h
  rw [svcInfo, key _ h]
  rfl

theorem svcInfo_method (s : Service) (x : String) (ml : MethodLoc) (r : Rpc)
    (h : s.rpcs.find? (fun w => w.name = ml.name) = some r) :
    svcInfo s { name := x, method := some ml } = methodInfo r ml := by
  have key : ∀ ds : List SvcDecl,
      (ds.filterMap fun | SvcDecl.rpc v => some v | .opt _ => none).find? (fun w => w.name = ml.name) = some r →
      ds.findSome? (svcStep { name := x, method := some ml }) = some (methodInfo r ml) := by
    intro ds
    induction ds with
    | nil => intro h; simp at h
    | cons d ds ih =>
      intro h
      rw [List.findSome?_cons]
      cases d with
      | opt o => exact ih h
      | rpc w =>
        by_cases hw : w.name = ml.name
        · simp [hw] at h
          subst h
          simp [svcStep, hw]
        · simp only [List.filterMap_cons, List.find?_cons, hw, decide_false] at h
          simp only [svcStep, hw, if_false]
          exact ih h
  rw [svcInfo, key _ h]
  rfl

/-- C91: a service leads to its declaration, and a part of its option, for example the name of a variable of the
environment, to its value, if it is searched and there is one option statement.  Missing: see the theorems below. -/
theorem C91_service_partial (f : List Top) (hf : NoEmptyImport f) (x : String) (s : Service)
    (hs : service f x = some s) :
    nodeInfo f { service := some { name := x } } = some s.id ∧
    ∀ (o : Opt) (k : Id) (fs : List (String × Val)) (p : SvcOptPart) (v : Val),
      s.opts.filter (·.named "grpc.federation.service") = [o] → o.val = .msg k fs → p.searched = true → p.path ≠ [] →
      at? o.val p.path = some v → p.kind.ok v = true →
      nodeInfo f { service := some { name := x, option := some p } } = some v.id := by
  constructor
  · rw [nodeInfo_service hf _ hs, svcInfo]
    have : ∀ ds : List SvcDecl, ds.findSome? (svcStep { name := x }) = none := by
      intro ds
      induction ds with
      | nil => rfl
      | cons d ds ih => rw [List.findSome?_cons]; cases d <;> exact ih
    rw [this]
    rfl
  · intro o k fs p v ho hval hp hpath hat hv
    rw [nodeInfo_service hf _ hs, svcInfo_option s x p o ho, svcOption_eq o p k fs hval hp]
    refine deepest_at p.kind p.path ⟨o.id, fs⟩ v ?_ hv
    rw [hval] at hat
    rw [Lit.val, at_msg hpath]
    exact hat

/-- C91: the timeout and the response of a method lead to their values, if there is one option statement, in both ways
to write them. -/
theorem C91_method_partial (f : List Top) (hf : NoEmptyImport f) (x : String) (s : Service) (y : String) (r : Rpc)
    (o : Opt) (hs : service f x = some s) (hr : s.rpcs.find? (fun z => z.name = y) = some r)
    (ho : r.opts.filter (·.named "grpc.federation.method") = [o]) :
    (∀ k fs (p : MethodOptPart) v, o.val = .msg k fs → p.path ≠ [] → at? o.val p.path = some v → p.kind.ok v = true →
      nodeInfo f { service := some { name := x, method := some { name := y, option := some p } } } = some v.id) ∧
    (∀ k t, o.val = .str k t → o.ends "timeout" = true →
      nodeInfo f { service := some { name := x, method := some { name := y, option := some .timeout } } } = some k) ∧
    (∀ k t, o.val = .str k t → o.ends "response" = true →
      nodeInfo f { service := some { name := x, method := some { name := y, option := some .response } } } = some k) := by
  have hfirst : r.opts.find? (fun o => o.named "grpc.federation.method") = some o := by
    rw [← List.head?_filter, ho]; rfl
  refine ⟨?_, ?_, ?_⟩
  · intro k fs p v hval hpath hat hv
    rw [nodeInfo_service hf _ hs, svcInfo_method s x _ r hr]
    simp only [methodInfo, hfirst]
    rw [methodOption_eq o p k fs hval]
    refine deepest_at p.kind p.path ⟨o.id, fs⟩ v ?_ hv
    rw [hval] at hat
    rw [Lit.val, at_msg hpath]
    exact hat
  · intro k t hval hends
    rw [nodeInfo_service hf _ hs, svcInfo_method s x _ r hr]
    simp [methodInfo, hfirst, methodOption, hval, hends]
  · intro k t hval hends
    rw [nodeInfo_service hf _ hs, svcInfo_method s x _ r hr]
    simp [methodInfo, hfirst, methodOption, hval, hends]

/-! ## Imports -/

/-- C91: an import leads to the first statement or value of the import option with its name. -/
theorem C91_import (pre post : List Top) (n : Text) (i : Id)
    (hpre : ∀ t ∈ pre, (∀ j, t ≠ .import j n) ∧ ∀ o, t = .opt o → ∀ v ∈ importValues o, v.text? ≠ some n) :
    nodeInfo (pre ++ .import i n :: post) { importName := n } = some i ∧
    ∀ o v, (importValues o).find? (fun w => w.text? = some n) = some v →
      nodeInfo (pre ++ .opt o :: post) { importName := n } = some v.id := by
  have hnone : pre.findSome? (topStep { importName := n }) = none := by
    rw [List.findSome?_eq_none_iff]
    intro t ht
    obtain ⟨h1, h2⟩ := hpre t ht
    cases t with
    | «import» j m =>
      have : n ≠ m := fun h => h1 j (by rw [h])
      simp [topStep, this]
    | opt o =>
      simp only [topStep, Bool.and_false, Bool.false_eq_true, if_false, Option.map_eq_none_iff, List.find?_eq_none]
      intro v hv
      simpa using h2 o rfl v hv
    | msg i n b => rfl
    | enum e => rfl
    | svc s => rfl
    | other => rfl
  constructor
  · unfold nodeInfo
    rw [List.findSome?_append, hnone]
    simp [topStep]
  · intro o v hv
    unfold nodeInfo
    rw [List.findSome?_append, hnone]
    simp [topStep, hv]

/-- C91: the names of the import option are those of a list, or the one of `option (grpc.federation.file).import`. -/
theorem C91_import_names (o : Opt) (h : o.named "grpc.federation.file" = true) :
    (o.ends ".import" = true → importValues o = [o.val]) ∧
    (∀ k j fs vs, o.ends ".import" = false → o.val = .msg k fs →
      (fs.find? fun e => e.1 = "import") = some ("import", .arr j vs) → importValues o = vs) := by
  constructor
  · intro he; simp [importValues, h, he]
  · intro k j fs vs he hval hfs
    simp [importValues, h, he, hval, hfs]

/-- C91: the imports of a file by the option are the texts among those values, and no other option has any. -/
theorem C91_imports (f : List Top) (n : Text) :
    (n ∈ optionImports f ↔ ∃ o i, .opt o ∈ f ∧ .str i n ∈ importValues o) ∧
    ∀ o, o.named "grpc.federation.file" = false → importValues o = [] := by
  constructor
  · unfold optionImports
    rw [List.mem_flatMap]
    constructor
    · rintro ⟨t, ht, hn⟩
      cases t with
      | opt o =>
        obtain ⟨v, hv, hvn⟩ := List.mem_filterMap.1 hn
        cases v with
        | str i s => simp only [Val.text?, Option.some.injEq] at hvn; exact ⟨o, i, ht, hvn ▸ hv⟩
        | _ => cases hvn
      | _ => cases hn
    · rintro ⟨o, i, ho, hv⟩
      exact ⟨_, ho, List.mem_filterMap.2 ⟨_, hv, rfl⟩⟩
  · intro o h
    simp [importValues, h]

/-! ## An example

```
import "a.proto";                                                   // 1
option (grpc.federation.file) = { import: ["b.proto"] };            // 2; 4
message User {                                                      // 10
  option (grpc.federation.message) = {                              // 11
    def { name: "x" call { method: "m"                              // 13; 14, 15, 16
                           error { if: "c" message: "no" } } }      // 17; 18, 19
    def { name: "y" map { iterator { name: "i" src: "x" }           // 20; 21, 22, 23, 24, 25
                          message { name: "Item"                    // 26; 27
                                    args { name: "a" by: "i" } } } }// 28; 29, 30
  };
  string id = 1 [(grpc.federation.field).by = "x"];                 // 40; type 41, option 42, string 43
  oneof contact {
    string mail = 2 [(grpc.federation.field) = { oneof {            // 50; type 51, option 52; 53, 54
      if: "c"                                                       // 55
      def { name: "p" by: "1" }                                     // 56; 57, 58
      def { name: "q" by: "2" }                                     // 59; 60, 61
    } alias: "mail_address" }];                                     // 62
  }
  message Inner {                                                   // 70
    enum Kind { A = 0; }                                            // 71; 72
  }
}
enum Role {                                                         // 80
  option (grpc.federation.enum).alias = "Other";                    // 81; 82
  ADMIN = 0 [(grpc.federation.enum_value) = { alias: "X" }];        // 83; 84, 85, 86
}
service Users {                                                     // 90
  option (grpc.federation.service) = { env { var { name: "v" type { kind: STRING } } } }; // 91; 92, 93, 94, 95, 96
  rpc Get(..) returns (..) { option (grpc.federation.method).timeout = "1s"; }            // 97; 98, 99
  rpc Put(..) returns (..);                                                               // 100
}
```
-/

def sampleDefs : Val := .msg 12 [
  ("def", .msg 13 [("name", .str 14 "x".toList), ("call", .msg 15 [("method", .str 16 "m".toList),
    ("error", .msg 17 [("if", .str 18 "c".toList), ("message", .str 19 "no".toList)])])]),
  ("def", .msg 20 [("name", .str 21 "y".toList), ("map", .msg 22 [
    ("iterator", .msg 23 [("name", .str 24 "i".toList), ("src", .str 25 "x".toList)]),
    ("message", .msg 26 [("name", .str 27 "Item".toList),
      ("args", .msg 28 [("name", .str 29 "a".toList), ("by", .str 30 "i".toList)])])])])]

def sampleOneof : Val := .msg 53 [("oneof", .msg 54 [("if", .str 55 "c".toList),
  ("def", .msg 56 [("name", .str 57 "p".toList), ("by", .str 58 "1".toList)]),
  ("def", .msg 59 [("name", .str 60 "q".toList), ("by", .str 61 "2".toList)])]), ("alias", .str 62 "mail_address".toList)]

def sampleBody : List Decl := [
  .opt ⟨11, "grpc.federation.message".toList, sampleDefs⟩,
  .field ⟨40, "id", 41, [⟨42, "grpc.federation.field.by".toList, .str 43 "x".toList⟩]⟩,
  .oneof "contact" [.field ⟨50, "mail", 51, [⟨52, "grpc.federation.field".toList, sampleOneof⟩]⟩],
  .msg 70 "Inner" [.enum ⟨71, "Kind", [.value ⟨72, "A", []⟩]⟩]]

def sampleEnv : Val := .msg 92 [("env", .msg 93 [("var", .msg 94 [("name", .str 95 "v".toList),
  ("type", .msg 96 [("kind", .ident 110)])])])]

def sample : List Top := [
  .import 1 "a.proto".toList,
  .opt ⟨2, "grpc.federation.file".toList, .msg 3 [("import", .arr 5 [.str 4 "b.proto".toList])]⟩,
  .msg 10 "User" sampleBody,
  .enum ⟨80, "Role", [.opt ⟨81, "grpc.federation.enum.alias".toList, .str 82 "Other".toList⟩,
    .value ⟨83, "ADMIN", [⟨84, "grpc.federation.enum_value".toList, .msg 85 [("alias", .str 86 "X".toList)]⟩]⟩]⟩,
  .svc ⟨90, "Users", [.opt ⟨91, "grpc.federation.service".toList, sampleEnv⟩,
    .rpc ⟨97, "Get", [⟨98, "grpc.federation.method.timeout".toList, .str 99 "1s".toList⟩]⟩,
    .rpc ⟨100, "Put", []⟩]⟩]

theorem sample_imports : NoEmptyImport sample := by
  intro t ht
  simp only [sample, List.mem_cons, List.not_mem_nil, or_false] at ht
  rcases ht with rfl | rfl | rfl | rfl | rfl
  · simp
  · have : importValues ⟨2, "grpc.federation.file".toList, .msg 3 [("import", .arr 5 [.str 4 "b.proto".toList])]⟩ =
        [.str 4 "b.proto".toList] := rfl
    intro v hv
    rw [this, List.mem_singleton] at hv
    subst hv
    exact fun h => nomatch h
  · trivial
  · trivial
  · trivial

theorem sample_message : message sample "User" [] = some (10, sampleBody) := by
  simp [message, sample, innerMsg]

theorem sample_options : (options sampleBody).filter (·.named "grpc.federation.message") =
    [⟨11, "grpc.federation.message".toList, sampleDefs⟩] := rfl

/-- The condition of the error of the call of the first definition. -/
example : nodeInfo sample { message := some ⟨"User", [], { option := some (.def 0 (.call (.error 0 .if))) }⟩ } = some 18 :=
  C91_message_partial sample sample_imports "User" [] 10 sampleBody _ 12 _ _ (.str 18 "c".toList) sample_message
    sample_options rfl rfl (by simp [MsgOptPart.path]) rfl rfl

/-- The name of the second definition is the second of the field `def`. -/
example : nodeInfo sample { message := some ⟨"User", [], { option := some (.def 1 .name) }⟩ } = some 21 :=
  C91_message_partial sample sample_imports "User" [] 10 sampleBody _ 12 _ _ (.str 21 "y".toList) sample_message
    sample_options rfl rfl (by simp [MsgOptPart.path]) rfl rfl

/-- There is no timeout in the call. -/
example : nodeInfo sample { message := some ⟨"User", [], { option := some (.def 0 (.call .timeout)) }⟩ } = some 15 :=
  C91_missing sample sample_imports "User" [] 10 sampleBody _ 12 _ _ sample_message sample_options rfl rfl
    [.itm "def" 0, .fld "call"] "timeout" [] 15 _ rfl (by simp) rfl (by simp)

example : nodeInfo sample { message := some ⟨"User", [], { option := some (.def 1 (.map .iteratorSource)) }⟩ } = some 25 :=
  C91_iterator sample sample_imports "User" [] 10 sampleBody _ 12 _ 1 .iteratorSource (.str 25 "x".toList) sample_message
    sample_options rfl (.inr rfl) rfl

/-- Paths that are there are not broken. -/
theorem not_broken {k : Kind} {v w : Val} {path : List Step} (h : at? v path = some w) (hk : k.ok w = true) :
    ¬Broken k v path := by
  have split : ∀ (pre q : List Step) (v x : Val), at? v pre = some x → at? v (pre ++ q) = at? x q := by
    intro pre
    induction pre with
    | nil => intro q v x h; cases h; rfl
    | cons s pre ih =>
      intro q v x h
      cases v with
      | msg i fs =>
        cases s with
        | fld n =>
          simp only [at?, List.cons_append] at h ⊢
          cases he : fs.find? fun e => e.1 = n with
          | none => rw [he] at h; cases h
          | some e => rw [he] at h; exact ih q _ x h
        | itm n j =>
          simp only [at?, List.cons_append] at h ⊢
          cases he : (lits (elems fs n))[j]? with
          | none => rw [he] at h; cases h
          | some e => rw [he] at h; exact ih q _ x h
      | str a b => simp [at?] at h
      | ident a => simp [at?] at h
      | other a => simp [at?] at h
      | arr a b => simp [at?] at h
  rintro (⟨x, h1, h2⟩ | ⟨pre, s, r, x, rfl, h1, h2⟩ | ⟨pre, n, i, r, j, gs, rfl, h1, h2, h3⟩)
  · rw [h] at h1; cases h1; rw [hk] at h2; cases h2
  · rw [split pre _ v x h1] at h
    cases x with
    | msg i fs => cases h2
    | str a b => simp [at?] at h
    | ident a => simp [at?] at h
    | other a => simp [at?] at h
    | arr a b => simp [at?] at h
  · rw [split pre _ v _ h1] at h
    simp only [at?, List.getElem?_eq_none h3] at h
    cases h

example : ∃ id, nodeInfo sample { message := some ⟨"User", [], { option := some (.def 0 (.call .method)) }⟩ } = some id ∧
    (id = 11 ∨ ∃ pre, pre <+: (MsgOptPart.def 0 (.call .method)).path ∧ ∃ v, at? sampleDefs pre = some v ∧ v.id = id) :=
  C91_somewhere sample sample_imports "User" [] 10 sampleBody _ 12 _ _ sample_message sample_options rfl rfl
    (not_broken (w := .str 16 "m".toList) rfl rfl)

example : nodeInfo sample { message := some ⟨"User", [], { field := some { name := "mail" } }⟩ } = some 50 ∧
    nodeInfo sample { message := some ⟨"User", [], { field := some { name := "mail", type := true } }⟩ } = some 51 :=
  C91_field sample sample_imports "User" [] 10 sampleBody "mail" _ sample_message rfl

example : nodeInfo sample { message := some ⟨"User", [], { field := some { name := "mail", option := some (.oneof .if) } }⟩ } =
    some 55 :=
  C91_field_option_partial sample sample_imports "User" [] 10 sampleBody "mail" _ _ 53 _ _ (.str 55 "c".toList)
    sample_message rfl rfl rfl rfl rfl (by simp [FieldOptPart.path]) (by simp) rfl rfl

example : nodeInfo sample { message := some ⟨"User", [], { field := some { name := "id", option := some .by } }⟩ } = some 43 :=
  C91_field_by sample sample_imports "User" [] 10 sampleBody "id" _ _ 43 _ sample_message rfl rfl rfl rfl

example : nodeInfo sample { enum := some { name := "Role" } } = some 80 ∧
    nodeInfo sample { message := some ⟨"User", ["Inner"], { enum := some { name := "Kind" } }⟩ } = some 71 :=
  ⟨(C91_enum sample sample_imports "Role" _).1 rfl,
    (C91_enum sample sample_imports "Kind" _).2 "User" ["Inner"] 70 _
      (by simp [message, sample, sampleBody, innerMsg, nestedMsg]; rfl) rfl⟩

example : nodeInfo sample { enum := some { name := "Role", value := some { name := "ADMIN", option := some .alias } } } =
    some 86 :=
  (C91_enum_value_partial sample sample_imports "Role" _ "ADMIN" _ rfl rfl).2 _ 85 _ .alias (.str 86 "X".toList) rfl rfl
    (by simp [ValueOptPart.path]) rfl rfl

example : nodeInfo sample { enum := some { name := "Role", alias := some true } } = some 82 :=
  (C91_enum_alias_partial sample sample_imports "Role" _ _ rfl rfl).2 82 _ rfl rfl

example : nodeInfo sample { service := some { name := "Users", option := some (.env (.var 0 .name)) } } = some 95 :=
  (C91_service_partial sample sample_imports "Users" _ rfl).2 _ 92 _ _ (.str 95 "v".toList) rfl rfl rfl
    (by simp [SvcOptPart.path]) rfl rfl

example : nodeInfo sample { service := some { name := "Users", method := some { name := "Get", option := some .timeout } } } =
    some 99 :=
  (C91_method_partial sample sample_imports "Users" _ "Get" _ _ rfl rfl rfl).2.1 99 _ rfl rfl

example : nodeInfo sample { importName := "b.proto".toList } = some 4 :=
  (C91_import [.import 1 "a.proto".toList] _ "b.proto".toList 0 (by simp)).2 _ (.str 4 "b.proto".toList) rfl

example : importValues ⟨2, "grpc.federation.file".toList, .msg 3 [("import", .arr 5 [.str 4 "b.proto".toList])]⟩ =
    [.str 4 "b.proto".toList] :=
  (C91_import_names _ rfl).2 3 5 _ _ rfl rfl rfl

/-- C91: an alias written as `option (grpc.federation.message).alias = "..."` leads to the string. -/
theorem C91_message_alias (f : List Top) (hf : NoEmptyImport f) (n : String) (nested : List String) (i : Id)
    (body : List Decl) (o : Opt) (k : Id) (s : Text) (hm : message f n nested = some (i, body))
    (ho : (options body).filter (·.named "grpc.federation.message") = [o]) (hval : o.val = .str k s)
    (hends : o.ends "alias" = true) :
    nodeInfo f { message := some ⟨n, nested, { option := some .alias }⟩ } = some k :=
  nodeInfo_inner hf hm (body_option i ho (by simp [messageOption, hval, hends]))

example : nodeInfo [.msg 1 "M" [.opt ⟨2, "grpc.federation.message.alias".toList, .str 3 "N".toList⟩]]
    { message := some ⟨"M", [], { option := some .alias }⟩ } = some 3 :=
  C91_message_alias _ (by simp [NoEmptyImport]) "M" [] 1 _ _ 3 _ (by simp [message, innerMsg]; rfl) rfl rfl rfl

/-- C91: an alias of a value written as `(grpc.federation.enum_value).alias = "..."` leads to the string. -/
theorem C91_enum_value_alias (f : List Top) (hf : NoEmptyImport f) (x : String) (e : Enum) (y : String) (w : EnumVal)
    (he : enum f x = some e) (hw : e.values.find? (fun z => z.name = y) = some w) (o : Opt) (k : Id) (s : Text)
    (ho : w.opts.filter (·.named "grpc.federation.enum_value") = [o]) (hval : o.val = .str k s)
    (hends : o.ends "alias" = true) :
    nodeInfo f { enum := some { name := x, value := some { name := y, option := some .alias } } } = some k := by
  rw [nodeInfo_enum hf _ he, enumInfo_value e x _ w hw]
  have hfirst : w.opts.find? (fun o => o.named "grpc.federation.enum_value") = some o := by
    rw [← List.head?_filter, ho]; rfl
  simp [valueInfo, hfirst, valueOption, hval, hends]

example : nodeInfo [.enum ⟨1, "E", [.value ⟨2, "A", [⟨3, "grpc.federation.enum_value.alias".toList, .str 4 "B".toList⟩]⟩]⟩]
    { enum := some { name := "E", value := some { name := "A", option := some .alias } } } = some 4 :=
  C91_enum_value_alias _ (by simp [NoEmptyImport]) "E" _ "A" _ rfl rfl _ 4 "B".toList rfl rfl rfl

/-- C91: the Go package leads to the value of its option. -/
theorem C91_go_package (pre post : List Top) (o : Opt) (h : o.named "go_package" = true) (hf : NoEmptyImport pre)
    (hpre : ∀ t ∈ pre, ∀ q, t = .opt q → q.named "go_package" = false) :
    nodeInfo (pre ++ .opt o :: post) { goPackage := true } = some o.val.id := by
  have hnone : pre.findSome? (topStep { goPackage := true }) = none := by
    rw [List.findSome?_eq_none_iff]
    intro t ht
    have hn := hf t ht
    cases t with
    | «import» j m =>
      simp only at hn
      simp [topStep, Ne.symm hn]
    | opt q =>
      simp only at hn
      simp only [topStep, hpre _ ht q rfl, Bool.false_and, Bool.false_eq_true, if_false, Option.map_eq_none_iff,
        List.find?_eq_none]
      intro v hv
      simpa using hn v hv
    | msg i n b => rfl
    | enum e => rfl
    | svc s => rfl
    | other => rfl
  unfold nodeInfo
  rw [List.findSome?_append, hnone]
  simp [topStep, h]

example : nodeInfo [.import 1 "a.proto".toList, .opt ⟨2, "go_package".toList, .str 3 "x/y".toList⟩] { goPackage := true } =
    some 3 :=
  C91_go_package [.import 1 "a.proto".toList] [] ⟨2, "go_package".toList, .str 3 "x/y".toList⟩ rfl
    (by simp [NoEmptyImport]) (by simp)

/-- C91: options are found by their names, also if these are written from the root, with a leading dot. -/
theorem C91_named (o : Opt) (x : String) (r : Text) (h : o.name = x.toList ++ r ∨ o.name = '.' :: x.toList ++ r)
    (hx : x.toList.head? ≠ some '.') (hne : x.toList ≠ []) : o.named x = true := by
  unfold Opt.named matchOption
  rcases h with h | h
  · rw [h]
    cases hl : x.toList with
    | nil => exact absurd hl hne
    | cons c cs =>
      rw [hl] at hx
      have hc : c ≠ '.' := fun hc => hx (by simp [hc])
      simp only [List.cons_append]
      split
      · rename_i heq; simp only [List.cons.injEq] at heq; exact absurd heq.1 hc
      · exact List.isPrefixOf_iff_prefix.mpr (List.prefix_append (c :: cs) r)
  · rw [h]
    exact List.isPrefixOf_iff_prefix.mpr (List.prefix_append _ _)

example : (Opt.mk 1 ".grpc.federation.message".toList (.ident 2)).named "grpc.federation.message" = true :=
  C91_named _ _ [] (.inr rfl) (by decide) (by decide)

/-! ## What is not shown at its element -/

/-- C91 does not hold for all parts: the name of an argument, the message of an error, the alias of a field and the
type of a variable of the environment are written, but the literal or the option around them is shown. -/
theorem C91_part_false : ¬∀ (f : List Top) (_ : NoEmptyImport f) (n : String) (i : Id)
    (body : List Decl) (o : Opt) (k : Id) (fs : List (String × Val)) (p : MsgOptPart) (v : Val),
    message f n [] = some (i, body) → (options body).filter (·.named "grpc.federation.message") = [o] →
    o.val = .msg k fs → p.path ≠ [] → at? o.val p.path = some v → p.kind.ok v = true →
    nodeInfo f { message := some ⟨n, [], { option := some p }⟩ } = some v.id := by
  intro h
  have := h sample sample_imports "User" 10 sampleBody _ 12 _ (.def 0 (.call (.error 0 .message))) (.str 19 "no".toList)
    sample_message sample_options rfl (by simp [MsgOptPart.path]) rfl rfl
  have h' : nodeInfo sample { message := some ⟨"User", [], { option := some (.def 0 (.call (.error 0 .message))) }⟩ } =
      some 17 := rfl
  rw [h'] at this
  exact absurd this (by decide)

/-- What is shown instead. -/
theorem C91_part_shown :
    nodeInfo sample { message := some ⟨"User", [], { option := some (.def 1 (.map (.message (.args 0 .name)))) }⟩ } = some 28 ∧
    nodeInfo sample { message := some ⟨"User", [], { option := some (.def 0 (.call (.error 0 .message))) }⟩ } = some 17 ∧
    nodeInfo sample { message := some ⟨"User", [], { field := some { name := "mail", option := some .alias } }⟩ } = some 52 ∧
    nodeInfo sample { service := some { name := "Users", option := some (.env (.var 0 .type)) } } = some 94 :=
  ⟨rfl, rfl, rfl, rfl⟩

/-- C91 does not hold for definitions of a oneof written one by one: the second is not found, and the whole message is
shown. -/
theorem C91_oneof_defs_false : ¬∀ (f : List Top) (_ : NoEmptyImport f) (n : String) (i : Id)
    (body : List Decl) (x : String) (g : Field) (o : Opt) (k : Id) (fs : List (String × Val)) (p : FieldOptPart) (v : Val),
    message f n [] = some (i, body) → (fields body).find? (fun y => y.name = x) = some g →
    g.opts.filter (·.named "grpc.federation.field") = [o] → o.val = .msg k fs → o.ends "oneof" = false →
    p.searched = true → at? o.val p.path = some v → p.kind.ok v = true →
    nodeInfo f { message := some ⟨n, [], { field := some { name := x, option := some p } }⟩ } = some v.id := by
  intro h
  have := h sample sample_imports "User" 10 sampleBody "mail" _ _ 53 _ (.oneof (.def 1 .name)) (.str 60 "q".toList)
    sample_message rfl rfl rfl rfl rfl rfl rfl
  have h' : nodeInfo sample
      { message := some ⟨"User", [], { field := some { name := "mail", option := some (.oneof (.def 1 .name)) } }⟩ } =
      some 10 := rfl
  rw [h'] at this
  exact absurd this (by decide)

/-- C91 does not hold for strings written as two literals, which the language allows: they have no place. -/
theorem C91_split_string_false :
    nodeInfo [.msg 1 "M" [.opt ⟨2, "grpc.federation.message".toList,
        .msg 3 [("def", .msg 4 [("name", .str 5 "x".toList), ("by", .other 6)])]⟩]]
      { message := some ⟨"M", [], { option := some (.def 0 .by) }⟩ } = none := rfl

/-- C91 does not hold for a message with two option statements: the second is never searched. -/
theorem C91_two_options_false :
    nodeInfo [.msg 1 "M" [.opt ⟨2, "grpc.federation.message.alias".toList, .str 3 "N".toList⟩,
        .opt ⟨4, "grpc.federation.message".toList, .msg 5 [("def", .msg 6 [("name", .str 7 "x".toList)])]⟩]]
      { message := some ⟨"M", [], { option := some (.def 0 .name) }⟩ } = some 2 := rfl

/-- C91: a method has a place only if it has an option: a method without one is shown nowhere, not at its declaration. -/
theorem C91_method_false :
    nodeInfo sample { service := some { name := "Users", method := some { name := "Put" } } } = none ∧
    nodeInfo sample { service := some { name := "Users", method := some { name := "Get" } } } = none := ⟨rfl, rfl⟩

/-- C91: problems of plugins have no place in any file. -/
theorem C91_plugin_false (f : List Top) (hf : NoEmptyImport f) (x : String) : nodeInfo f { «export» := some x } = none := by
  unfold nodeInfo
  have : f.findSome? (topStep { «export» := some x }) = none := by
    rw [List.findSome?_eq_none_iff]
    intro t ht
    cases t with
    | msg i n b => rfl
    | enum e => rfl
    | svc s => rfl
    | other => rfl
    | «import» i n => exact topStep_empty hf rfl rfl _ ht (by simp) (by simp) (by simp)
    | opt o => exact topStep_empty hf rfl rfl _ ht (by simp) (by simp) (by simp)
  rw [this]
  rfl

/-- C91: a oneof is shown as the message it is in. -/
theorem C91_oneof_false (f : List Top) (hf : NoEmptyImport f) (n : String) (nested : List String) (i : Id)
    (body : List Decl) (x : String) (hm : message f n nested = some (i, body)) :
    nodeInfo f { message := some ⟨n, nested, { oneof := some x }⟩ } = some i := by
  refine nodeInfo_inner hf hm ?_
  have : body.findSome? (msgStep { oneof := some x } none) = none := by
    rw [List.findSome?_eq_none_iff]
    intro d _
    cases d with
    | oneof a qs =>
      have : oneofInfo qs { oneof := some x } = none := by
        unfold oneofInfo
        have : qs.findSome? (oneofStep { oneof := some x }) = none := by
          rw [List.findSome?_eq_none_iff]
          intro q _
          cases q <;> rfl
        rw [this]
        rfl
      simp [msgStep, this]
    | opt o => rfl
    | field g => rfl
    | msg a b c => rfl
    | enum e => rfl
    | other => rfl
  rw [this]
  rfl

/-- C91: a single name that is not written as a list, and a second field `import`, have no place, and the names are not
among the imports of the file: the compiler accepts both. -/
theorem C91_import_false :
    nodeInfo [.opt ⟨1, "grpc.federation.file".toList, .msg 2 [("import", .str 3 "a.proto".toList)]⟩]
      { importName := "a.proto".toList } = none ∧
    optionImports [.opt ⟨1, "grpc.federation.file".toList, .msg 2 [("import", .str 3 "a.proto".toList)]⟩] = [] ∧
    optionImports [.opt ⟨1, "grpc.federation.file".toList, .msg 2 [("import", .arr 3 [.str 4 "a.proto".toList]),
      ("import", .arr 5 [.str 6 "b.proto".toList])]⟩] = ["a.proto".toList] := ⟨rfl, rfl, rfl⟩

end Verif.SrcLoc
