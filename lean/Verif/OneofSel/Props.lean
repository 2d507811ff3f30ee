import Verif.OneofSel.Spec
import Verif.SrvTy.Props

/-! # C83: a oneof can be used by its name -/

namespace Verif.OneofSel

open Verif.CelTy Verif.SrvTy

/-! ## Same types -/

theorem mem_oneofFields {m : Msg} {o : String} {f : Field} :
    f ∈ oneofFields m o ↔ f ∈ m.fields ∧ f.oneof = some o := by
  simp [oneofFields]

theorem sameTy_iff (t u : Ty) (ht : OneofTy t) (hu : OneofTy u) : sameTy t u = true ↔ u = t := by
  cases t <;> cases u <;> simp only [OneofTy] at ht hu <;> simp [sameTy, ht, hu] <;> exact eq_comm

theorem sameLoop_iff (prev : Ty) (hp : OneofTy prev) (fs : List Field) (h : ∀ f ∈ fs, OneofTy f.ty) :
    sameLoop prev fs = true ↔ ∀ f ∈ fs, f.ty = prev := by
  induction fs generalizing prev with
  | nil => simp [sameLoop]
  | cons f fs ih =>
    have hf := h f (by simp)
    have hfs := ih f.ty hf (fun g hg => h g (List.mem_cons_of_mem _ hg))
    have hc := sameTy_iff prev f.ty hp hf
    simp only [sameLoop, Bool.and_eq_true, hc, hfs, List.mem_cons, forall_eq_or_imp]
    constructor
    · intro ⟨h1, h2⟩
      exact ⟨h1, fun g hg => (h2 g hg).trans h1⟩
    · intro ⟨h1, h2⟩
      exact ⟨h1, fun g hg => (h2 g hg).trans h1.symm⟩

theorem isSameType_iff (fs : List Field) (h : ∀ f ∈ fs, OneofTy f.ty) :
    isSameType fs = true ↔ fs ≠ [] ∧ ∃ t, ∀ f ∈ fs, f.ty = t := by
  cases fs with
  | nil => simp [isSameType]
  | cons f fs =>
    unfold isSameType
    rw [sameLoop_iff f.ty (h f (by simp)) (f :: fs) h]
    constructor
    · intro h'; exact ⟨by simp, f.ty, h'⟩
    · intro ⟨_, t, ht⟩ g hg
      rw [ht g hg, ht f (by simp)]

theorem oneofFields_types {m : Msg} (hw : Proto m) (o : String) : ∀ f ∈ oneofFields m o, OneofTy f.ty := by
  intro f hf
  rw [mem_oneofFields] at hf
  exact hw.types f hf.1 (by simp [hf.2])

theorem isSameType_sameType {m : Msg} (hw : Proto m) (o : String) :
    isSameType (oneofFields m o) = true ↔ ∃ t, SameType m o t := by
  rw [isSameType_iff _ (oneofFields_types hw o)]
  constructor
  · intro ⟨hne, t, ht⟩
    refine ⟨t, ?_, fun f hf ho => ht f (mem_oneofFields.2 ⟨hf, ho⟩)⟩
    cases hfs : oneofFields m o with
    | nil => exact absurd hfs hne
    | cons f fs =>
      have : f ∈ oneofFields m o := by rw [hfs]; simp
      exact ⟨f, mem_oneofFields.1 this⟩
  · intro ⟨t, ⟨f, hf⟩, ht⟩
    refine ⟨?_, t, fun g hg => ht g (mem_oneofFields.1 hg).1 (mem_oneofFields.1 hg).2⟩
    intro h
    have := mem_oneofFields.2 hf
    rw [h] at this
    simp at this

theorem find_none_of {m : Msg} {o : String} (ho : ∀ f ∈ m.fields, f.name ≠ o) :
    m.fields.find? (fun f => f.name == o) = none := by
  rw [List.find?_eq_none]
  intro f hf
  simp [ho f hf]

/-- The generator accepts `m.o` for a oneof `o` exactly when all fields of the oneof have the same type, and gives the
expression that type. -/
theorem C83_accepted_iff (m : Msg) (hw : Proto m) (o : String) (ho : ∀ f ∈ m.fields, f.name ≠ o) (c : CTy) :
    genField m o = some c ↔ ∃ t, SameType m o t ∧ c = toCEL true t := by
  unfold genField findOneof
  rw [find_none_of ho]
  by_cases ha : m.fields.any (fun f => f.oneof == some o) = true
  · simp only [ha, if_true]
    cases hfs : oneofFields m o with
    | nil =>
      simp only [List.any_eq_true, beq_iff_eq] at ha
      obtain ⟨f, hf⟩ := ha
      have := mem_oneofFields.2 hf
      rw [hfs] at this
      simp at this
    | cons f fs =>
      have hm : f ∈ oneofFields m o := by rw [hfs]; simp
      have hm' := mem_oneofFields.1 hm
      have hs := isSameType_sameType hw o
      rw [hfs] at hs
      by_cases hb : isSameType (f :: fs) = true
      · simp only [hb, if_true, Option.some.injEq]
        obtain ⟨t, ht⟩ := hs.1 hb
        constructor
        · intro h
          exact ⟨t, ht, by rw [← h, ht.2 f hm'.1 hm'.2]⟩
        · intro ⟨t', ht', hc⟩
          rw [hc, ht'.2 f hm'.1 hm'.2]
      · simp only [hb]
        simp only [Bool.false_eq_true, if_false, reduceCtorEq, false_iff]
        intro ⟨t, ht, _⟩
        exact hb (hs.2 ⟨t, ht⟩)
  · simp only [ha]
    simp only [Bool.false_eq_true, if_false, reduceCtorEq, false_iff]
    intro ⟨t, ⟨⟨f, hf, hfo⟩, _⟩, _⟩
    exact ha (by simp only [List.any_eq_true, beq_iff_eq]; exact ⟨f, hf, hfo⟩)

/-- `message UserSelection { oneof user { User user_a = 1; User user_b = 2; } string id = 3; }` -/
def userSelection : Msg where
  fqdn := ["org", "UserSelection"]
  fields := [⟨"user_a", .msg ["org", "User"] false, some "user"⟩, ⟨"user_b", .msg ["org", "User"] false, some "user"⟩,
    ⟨"id", .scalar .string false, none⟩]
  oneofs := [⟨"user", false⟩]

theorem userSelection_proto : Proto userSelection := by
  constructor
  · decide
  · decide
  · decide
  · intro f hf ho
    simp only [userSelection, List.mem_cons, List.not_mem_nil, or_false] at hf
    rcases hf with h | h | h <;> subst h <;> simp_all [OneofTy]

theorem userSelection_same : SameType userSelection "user" (.msg ["org", "User"] false) := by
  unfold SameType
  decide

example : Proto userSelection ∧ (∀ f ∈ userSelection.fields, f.name ≠ "user") ∧
    genField userSelection "user" = some (.obj ["org", "User"]) := ⟨userSelection_proto, by decide, by decide⟩

/-! ## The generated literal -/

theorem nodup_iff (l : List Name) : nodup l = true ↔ l.Nodup := by
  induction l with
  | nil => simp [nodup]
  | cons n l ih => simp [nodup, ih, List.nodup_cons]

/-- The entry of a oneof. -/
theorem entry_eq {m : Msg} {o : Oneof} {e : Entry} (hw : Proto m) (h : entry m o = some e) :
    ∃ t, SameType m o.name t ∧ OneofTy t ∧ e = {
      fqdn := m.fqdn, name := o.name, synthetic := o.synthetic, typ := declare t,
      zeros := (oneofFields m o.name).map wrapperZero, getters := (oneofFields m o.name).map (·.name), ret := zero t } := by
  unfold entry at h
  by_cases hb : isSameType (oneofFields m o.name) = true
  · rw [hb] at h
    simp only [Bool.not_true, Bool.false_eq_true, if_false] at h
    obtain ⟨t, ht⟩ := (isSameType_sameType hw o.name).1 hb
    cases hfs : oneofFields m o.name with
    | nil => rw [hfs] at h; simp at h
    | cons f fs =>
      have hm : f ∈ oneofFields m o.name := by rw [hfs]; simp
      have hm' := mem_oneofFields.1 hm
      have hft : f.ty = t := ht.2 f hm'.1 hm'.2
      rw [hfs] at h
      simp only [Option.some.injEq] at h
      refine ⟨t, ht, hft ▸ oneofFields_types hw _ f hm, ?_⟩
      rw [← h, hft]
  · simp only [Bool.not_eq_true] at hb
    rw [hb] at h
    simp at h

theorem entry_some {m : Msg} {o : Oneof} {t : Ty} (hw : Proto m) (h : SameType m o.name t) : ∃ e, entry m o = some e := by
  have hb := (isSameType_sameType hw o.name).2 ⟨t, h⟩
  unfold entry
  rw [hb]
  simp only [Bool.not_true, Bool.false_eq_true, if_false]
  cases hfs : oneofFields m o.name with
  | nil => rw [hfs] at hb; simp [isSameType] at hb
  | cons f fs => exact ⟨_, rfl⟩

theorem entry_key {m : Msg} {o : Oneof} {e : Entry} (h : entry m o = some e) : e.fqdn = m.fqdn ∧ e.name = o.name := by
  unfold entry at h
  split at h
  · simp at h
  · split at h
    · simp at h
    · simp only [Option.some.injEq] at h
      subst h
      exact ⟨rfl, rfl⟩

theorem mem_entries {S : List Msg} {e : Entry} : e ∈ entries S ↔ ∃ m ∈ S, ∃ o ∈ m.oneofs, entry m o = some e := by
  simp [entries]

theorem sameType_unique {m : Msg} {o : String} {t t' : Ty} (h : SameType m o t) (h' : SameType m o t') : t = t' := by
  obtain ⟨f, hf, ho⟩ := h.1
  rw [← h.2 f hf ho, h'.2 f hf ho]

theorem oneofTy_declare {t : Ty} (h : OneofTy t) : declare t = some (native t) ∧ ((zero t).typ).isSome = true := by
  refine ⟨?_, by rw [C85_zero]; rfl⟩
  cases t <;> first | rfl | exact h.elim

theorem oneofTy_flat {t : Ty} (h : OneofTy t) : Flat t := by
  cases t <;> simp_all [OneofTy, Flat]

theorem filterMap_pairwise {α β : Type} {l : List α} {g : α → Option β} {R : α → α → Prop} {Q : β → β → Prop}
    (hl : l.Pairwise R) (h : ∀ a ∈ l, ∀ b ∈ l, R a b → ∀ x y, g a = some x → g b = some y → Q x y) :
    (l.filterMap g).Pairwise Q := by
  induction hl with
  | nil => simp
  | @cons a l ha hl ih =>
    have ih' := ih (fun b hb c hc => h b (List.mem_cons_of_mem _ hb) c (List.mem_cons_of_mem _ hc))
    cases hg : g a with
    | none => simp [hg]; exact ih'
    | some x =>
      simp only [List.filterMap_cons, hg, List.pairwise_cons]
      refine ⟨?_, ih'⟩
      intro y hy
      obtain ⟨b, hb, hgb⟩ := List.mem_filterMap.1 hy
      exact h a (by simp) b (List.mem_cons_of_mem _ hb) (ha b hb) x y hg hgb

theorem eq_of_map_nodup {α β : Type} {f : α → β} {l : List α} (h : (l.map f).Nodup) {a b : α} (ha : a ∈ l) (hb : b ∈ l)
    (hab : f a = f b) : a = b := by
  induction l with
  | nil => simp at ha
  | cons x l ih =>
    simp only [List.map_cons, List.nodup_cons, List.mem_map, not_exists, not_and] at h
    rcases List.mem_cons.1 ha with rfl | ha' <;> rcases List.mem_cons.1 hb with rfl | hb'
    · rfl
    · exact absurd hab.symm (h.1 b hb')
    · exact absurd hab (h.1 a ha')
    · exact ih h.2 ha' hb'

/-- The server compiles exactly when no message of the service has two oneofs that can be used by name, and none of them
is of bytes or stands for an `optional` field. -/
theorem C83_compiles_iff (S : List Msg) (hS : ProtoService S) :
    compiles S = true ↔
      (∀ m ∈ S, ∀ o ∈ m.oneofs, ∀ o' ∈ m.oneofs, ∀ t t', SameType m o.name t → SameType m o'.name t' → o = o') ∧
      (∀ m ∈ S, ∀ o ∈ m.oneofs, ∀ t, SameType m o.name t → o.synthetic = false ∧ t ≠ .scalar .bytes false) := by
  unfold compiles
  rw [Bool.and_eq_true, nodup_iff, List.all_eq_true]
  constructor
  · intro ⟨hk, hv⟩
    constructor
    · intro m hm o ho o' ho' t t' ht ht'
      obtain ⟨e, he⟩ := entry_some (hS.msgs m hm) ht
      obtain ⟨e', he'⟩ := entry_some (hS.msgs m hm) ht'
      have h1 := mem_entries.2 ⟨m, hm, o, ho, he⟩
      have h2 := mem_entries.2 ⟨m, hm, o', ho', he'⟩
      have heq : e = e' := eq_of_map_nodup hk h1 h2 (by rw [(entry_key he).1, (entry_key he').1])
      have hn : o.name = o'.name := by rw [← (entry_key he).2, ← (entry_key he').2, heq]
      exact eq_of_map_nodup (hS.msgs m hm).oneofs ho ho' hn
    · intro m hm o ho t ht
      obtain ⟨e, he⟩ := entry_some (hS.msgs m hm) ht
      have hve := hv e (mem_entries.2 ⟨m, hm, o, ho, he⟩)
      obtain ⟨t', ht', hty, heq⟩ := entry_eq (hS.msgs m hm) he
      subst heq
      rw [sameType_unique ht' ht] at hve
      simp only [validEntry, Bool.and_eq_true, Bool.not_eq_true', List.all_map, List.all_eq_true, Function.comp] at hve
      obtain ⟨⟨⟨_, _⟩, hs⟩, hz⟩ := hve
      refine ⟨hs, ?_⟩
      intro hbytes
      obtain ⟨f, hf, hfo⟩ := ht.1
      have := hz f (mem_oneofFields.2 ⟨hf, hfo⟩)
      unfold wrapperZero at this
      rw [ht.2 f hf hfo, hbytes] at this
      simp at this
  · intro ⟨huniq, hgood⟩
    constructor
    · unfold entries
      rw [List.map_flatMap, List.Nodup, List.pairwise_flatMap]
      constructor
      · intro m hm
        rw [List.map_filterMap]
        have hne : m.oneofs.Pairwise (fun a b => a ≠ b) := by
          have := (hS.msgs m hm).oneofs
          rw [List.Nodup, List.pairwise_map] at this
          exact this.imp (fun h hab => h (by rw [hab]))
        refine filterMap_pairwise hne ?_
        intro a ha b hb hab x y hx hy
        cases hea : entry m a with
        | none => rw [hea] at hx; simp at hx
        | some ea =>
          cases heb : entry m b with
          | none => rw [heb] at hy; simp at hy
          | some eb =>
            obtain ⟨t, ht, _, _⟩ := entry_eq (hS.msgs m hm) hea
            obtain ⟨t', ht', _, _⟩ := entry_eq (hS.msgs m hm) heb
            exact absurd (huniq m hm a ha b hb t t' ht ht') hab
      · have hn := hS.names
        rw [List.Nodup, List.pairwise_map] at hn
        refine hn.imp ?_
        intro m m' hmm x hx y hy hxy
        obtain ⟨e, he, rfl⟩ := List.mem_map.1 hx
        obtain ⟨e', he', rfl⟩ := List.mem_map.1 hy
        obtain ⟨o, _, ho⟩ := List.mem_filterMap.1 he
        obtain ⟨o', _, ho'⟩ := List.mem_filterMap.1 he'
        rw [(entry_key ho).1, (entry_key ho').1] at hxy
        exact hmm hxy
    · intro e he
      obtain ⟨m, hm, o, ho, heq⟩ := mem_entries.1 he
      obtain ⟨t, ht, hty, rfl⟩ := entry_eq (hS.msgs m hm) heq
      obtain ⟨hs, hb⟩ := hgood m hm o ho t ht
      simp only [validEntry, Bool.and_eq_true, Bool.not_eq_true', List.all_map, List.all_eq_true, Function.comp]
      refine ⟨⟨⟨by rw [(oneofTy_declare hty).1]; rfl, (oneofTy_declare hty).2⟩, hs⟩, ?_⟩
      intro f hf
      have hf' := mem_oneofFields.1 hf
      have hft := ht.2 f hf'.1 hf'.2
      unfold wrapperZero
      rw [hft]
      cases t with
      | scalar k r =>
        cases k with
        | bytes => exact absurd (by rw [show r = false from hty]) hb
        | _ => rfl
      | _ => rfl

theorem userSelection_service : ProtoService [userSelection] :=
  ⟨by decide, fun m hm => by simp at hm; subst hm; exact userSelection_proto⟩

example : ProtoService [userSelection] ∧ compiles [userSelection] = true := ⟨userSelection_service, by decide⟩

/-- `message M { oneof a { string s = 1; } oneof b { string t = 2; } }` -/
def twoOneofs : Msg where
  fqdn := ["org", "M"]
  fields := [⟨"s", .scalar .string false, some "a"⟩, ⟨"t", .scalar .string false, some "b"⟩]
  oneofs := [⟨"a", false⟩, ⟨"b", false⟩]

/-- `message M { oneof a { bytes s = 1; } }` -/
def bytesOneof : Msg where
  fqdn := ["org", "M"]
  fields := [⟨"s", .scalar .bytes false, some "a"⟩]
  oneofs := [⟨"a", false⟩]

/-- `message M { optional string s = 1; }` -/
def optionalField : Msg where
  fqdn := ["org", "M"]
  fields := [⟨"s", .scalar .string false, some "_s"⟩]
  oneofs := [⟨"_s", true⟩]

/-- A service with one message with two oneofs does not compile, nor with a oneof of bytes or an `optional` field, whether
an expression uses them or not. -/
theorem C83_compiles_false :
    (ProtoService [twoOneofs] ∧ compiles [twoOneofs] = false) ∧
    (ProtoService [bytesOneof] ∧ compiles [bytesOneof] = false) ∧
    (ProtoService [optionalField] ∧ compiles [optionalField] = false) := by
  have one : ∀ m : Msg, Proto m → ProtoService [m] := fun m h =>
    ⟨by simp, fun m' hm => by simp at hm; subst hm; exact h⟩
  refine ⟨⟨one _ ⟨by decide, by decide, by decide, ?_⟩, by decide⟩, ⟨one _ ⟨by decide, by decide, by decide, ?_⟩, by decide⟩,
    ⟨one _ ⟨by decide, by decide, by decide, ?_⟩, by decide⟩⟩
  · intro f hf _
    simp only [twoOneofs, List.mem_cons, List.not_mem_nil, or_false] at hf
    rcases hf with h | h <;> subst h <;> rfl
  · intro f hf _
    simp only [bytesOneof, List.mem_cons, List.not_mem_nil, or_false] at hf
    subst hf; rfl
  · intro f hf _
    simp only [optionalField, List.mem_cons, List.not_mem_nil, or_false] at hf
    subst hf; rfl

/-! ## Values -/

theorem find_entry {S : List Msg} (hk : ((entries S).map (·.fqdn)).Nodup) {e : Entry} (he : e ∈ entries S) :
    (entries S).find? (fun x => x.fqdn == e.fqdn && x.name == e.name) = some e := by
  cases hf : (entries S).find? (fun x => x.fqdn == e.fqdn && x.name == e.name) with
  | none =>
    rw [List.find?_eq_none] at hf
    exact absurd (by simp) (hf e he)
  | some x =>
    have hx := List.find?_some hf
    simp only [Bool.and_eq_true, beq_iff_eq] at hx
    rw [eq_of_map_nodup hk (List.mem_of_find?_eq_some hf) he hx.1]

/-- What the server finds for the oneof of a message of the service. -/
theorem srvField_eq {R S : List Msg} (hS : ProtoService S) (hc : compiles S = true) {m : Msg} (hm : m ∈ S)
    (hR : ∀ r ∈ R, r.fqdn = m.fqdn → r = m) {o : Oneof} (ho : o ∈ m.oneofs) {t : Ty} (ht : SameType m o.name t) :
    ∃ e, srvField R S m.fqdn o.name = some (.oneof e) ∧ entry m o = some e := by
  obtain ⟨e, he⟩ := entry_some (hS.msgs m hm) ht
  refine ⟨e, ?_, he⟩
  have hnof : (R.find? (fun m' => m'.fqdn == m.fqdn)).bind (fun m' => m'.fields.find? (fun f => f.name == o.name)) = none := by
    cases hf : R.find? (fun m' => m'.fqdn == m.fqdn) with
    | none => rfl
    | some r =>
      have hr := List.find?_some hf
      simp only [beq_iff_eq] at hr
      have := hR r (List.mem_of_find?_eq_some hf) hr
      subst this
      simp only [Option.bind_some]
      refine find_none_of ?_
      intro f hfm hn
      obtain ⟨g, hg, hgo⟩ := ht.1
      exact (hS.msgs r hm).disjoint g hg f hfm (by rw [hgo, hn])
  unfold srvField
  rw [hnof]
  unfold compiles at hc
  rw [Bool.and_eq_true, nodup_iff] at hc
  have := find_entry hc.1 (mem_entries.2 ⟨m, hm, o, ho, he⟩)
  rw [(entry_key he).1, (entry_key he).2] at this
  simp only [this]

theorem getLoop_eq {V : Type} (zeroOf : String → V) (v : Value V) (o impl : String) (dflt : V) (fs : List Field)
    (h : ∃ f ∈ fs, f.name = impl) :
    getLoop zeroOf v o impl dflt (fs.map wrapperZero) (fs.map (·.name)) = getter zeroOf v o impl := by
  induction fs with
  | nil => obtain ⟨f, hf, _⟩ := h; simp at hf
  | cons g fs ih =>
    have hcase : wrapperZero g = .ptr g.name ∨ wrapperZero g = .deref g.name := by
      unfold wrapperZero
      split
      · exact Or.inr rfl
      · exact Or.inl rfl
    by_cases hg : impl = g.name
    · rcases hcase with hc | hc <;> simp only [List.map_cons, hc, getLoop, hg, if_true]
    · have h' : ∃ f ∈ fs, f.name = impl := by
        obtain ⟨f, hf, hn⟩ := h
        rcases List.mem_cons.1 hf with rfl | hf'
        · exact absurd hn.symm hg
        · exact ⟨f, hf', hn⟩
      rcases hcase with hc | hc <;> simp only [List.map_cons, hc, getLoop, hg, if_false] <;> exact ih h'

/-- `m.o` is the value of the field the oneof holds, whichever field that is, and has the type the generator checked the
expression with. Missing: messages outside of the service, see `C83_other_messages_false`, and oneofs that hold nothing,
see `C83_unset`. -/
theorem C83_value_partial {V : Type} (zeroOf : String → V) (dflt : V) (R S : List Msg) (hS : ProtoService S)
    (hc : compiles S = true) (m : Msg) (hm : m ∈ S) (hR : ∀ r ∈ R, r.fqdn = m.fqdn → r = m)
    (o : Oneof) (ho : o ∈ m.oneofs) (t : Ty) (ht : SameType m o.name t)
    (v : Value V) (f : Field) (hf : f ∈ m.fields) (hfo : f.oneof = some o.name) (x : V)
    (hv : v.set o.name = some (f.name, x)) :
    genField m o.name = some (toCEL true t) ∧
    ∃ e c, srvField R S m.fqdn o.name = some (.oneof e) ∧ e.typ = some c ∧ AsServer (toCEL true t) c ∧
      getFrom zeroOf dflt e v = some x := by
  have hw := hS.msgs m hm
  refine ⟨(C83_accepted_iff m hw o.name (fun g hg hn => hw.disjoint f hf g hg (by rw [hfo, hn])) _).2 ⟨t, ht, rfl⟩, ?_⟩
  obtain ⟨e, hfe, he⟩ := srvField_eq hS hc hm hR ho ht
  obtain ⟨t', ht', hty, heq⟩ := entry_eq hw he
  have htt := sameType_unique ht' ht
  subst htt
  refine ⟨e, native t', hfe, ?_, asServer_inner t' (oneofTy_flat hty) true (Or.inl rfl), ?_⟩
  · rw [heq]
    exact (oneofTy_declare hty).1
  · rw [heq]
    simp only [getFrom, hv]
    rw [getLoop_eq zeroOf v o.name f.name dflt _ ⟨f, mem_oneofFields.2 ⟨hf, hfo⟩, rfl⟩]
    simp [getter, hv]

/-- The entry of `UserSelection`. -/
def userEntry : Entry where
  fqdn := ["org", "UserSelection"]
  name := "user"
  synthetic := false
  typ := some (.obj ["org", "User"])
  zeros := [.ptr "user_a", .ptr "user_b"]
  getters := ["user_a", "user_b"]
  ret := .nil (.msg ["org", "User"])

/-- A `UserSelection` that holds `user_b`. -/
example :
    let v : Value Nat := ⟨fun o => if o = "user" then some ("user_b", 7) else none⟩
    ∃ e, srvField [userSelection] [userSelection] ["org", "UserSelection"] "user" = some (.oneof e) ∧
      getFrom (fun _ => 0) 0 e v = some 7 := by
  refine ⟨userEntry,
    by decide, by decide⟩

/-- `m.o` is an error, and no zero value, for a oneof that holds nothing. -/
theorem C83_unset {V : Type} (zeroOf : String → V) (dflt : V) (R S : List Msg) (hS : ProtoService S)
    (hc : compiles S = true) (m : Msg) (hm : m ∈ S) (hR : ∀ r ∈ R, r.fqdn = m.fqdn → r = m)
    (o : Oneof) (ho : o ∈ m.oneofs) (t : Ty) (ht : SameType m o.name t) (v : Value V) (hv : v.set o.name = none) :
    ∃ e, srvField R S m.fqdn o.name = some (.oneof e) ∧ getFrom zeroOf dflt e v = none := by
  obtain ⟨e, hfe, he⟩ := srvField_eq hS hc hm hR ho ht
  refine ⟨e, hfe, ?_⟩
  unfold getFrom
  rw [(entry_key he).2, hv]

example : SameType userSelection "user" (.msg ["org", "User"] false) ∧ compiles [userSelection] = true :=
  ⟨userSelection_same, by decide⟩

/-- `has(m.o)` does not tell whether the oneof holds a field: it is false although `user_b` is set. -/
theorem C83_has_false : ∃ (e : Entry) (v : Value Nat),
    srvField [userSelection] [userSelection] ["org", "UserSelection"] "user" = some (.oneof e) ∧
    getFrom (fun _ => 0) 0 e v = some 7 ∧ isSet e v = false := by
  refine ⟨userEntry,
    ⟨fun o => if o = "user" then some ("user_b", 7) else none⟩, by decide, by decide, rfl⟩

/-- The oneof of a message that is not one of the service's (the response of a dependency, or the argument of a message)
is accepted by the generator, and the server does not know it: the first evaluation fails. -/
theorem C83_other_messages_false :
    (∀ (R S : List Msg) (m : Msg) (o : String) (t : Ty), Proto m → SameType m o t → (∀ s ∈ S, s.fqdn ≠ m.fqdn) →
      (∀ r ∈ R, r.fqdn = m.fqdn → r = m) →
      genField m o = some (toCEL true t) ∧ srvField R S m.fqdn o = none) ∧
    (Proto userSelection ∧ SameType userSelection "user" (.msg ["org", "User"] false)) := by
  refine ⟨?_, userSelection_proto, userSelection_same⟩
  intro R S m o t hw ht hS hR
  obtain ⟨g, hg, hgo⟩ := ht.1
  have hn : ∀ f ∈ m.fields, f.name ≠ o := fun f hf hfn => hw.disjoint g hg f hf (by rw [hgo, hfn])
  refine ⟨(C83_accepted_iff m hw o hn _).2 ⟨t, ht, rfl⟩, ?_⟩
  unfold srvField
  have h1 : (R.find? (fun m' => m'.fqdn == m.fqdn)).bind (fun m' => m'.fields.find? (fun f => f.name == o)) = none := by
    cases hf : R.find? (fun m' => m'.fqdn == m.fqdn) with
    | none => rfl
    | some r =>
      have hr := List.find?_some hf
      simp only [beq_iff_eq] at hr
      have := hR r (List.mem_of_find?_eq_some hf) hr
      subst this
      exact find_none_of hn
  have h2 : (entries S).find? (fun e => e.fqdn == m.fqdn && e.name == o) = none := by
    rw [List.find?_eq_none]
    intro e he
    obtain ⟨m', hm', o', _, heq⟩ := mem_entries.1 he
    simp [(entry_key heq).1, hS m' hm']
  simp only [h1, h2]

end Verif.OneofSel
