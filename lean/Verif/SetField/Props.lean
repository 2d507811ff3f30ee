import Verif.SetField.Spec
import Verif.Types.Props

/-! # C121: the code that sets fields -/

namespace Verif.SetField

open Verif.Types

theorem isNumberKind_of {k : Kind} (h : k ∈ numeric) : isNumberKind k = true := by
  revert h; cases k <;> decide

theorem reqBase_self (t : Ty) (h : Proper S t) : reqBase t t = false := by
  cases t <;> simp_all [Proper, reqBase]

theorem single_proper {S : Schema} {t : Ty} (h : Single S t) : Proper S t := by
  cases t <;> simp_all [Proper, Single]

/-- Compatible types of the same listness that are no maps: converted where they differ, of the same Go type where not. -/
theorem base {S : Schema} {E : Env} (hE : MessagesConvert S E) {a b : Ty} (ha : Proper S a) (h : Compat S a b)
    (hm : entry S a = none) : (reqBase a b = true → single E a b = .ok) ∧ (reqBase a b = false → goBase a = goBase b) := by
  cases h with
  | number hk hk' =>
    refine ⟨fun _ => ?_, ?_⟩
    · simp [single, scalarCast, isNumberKind_of hk, isNumberKind_of hk', Out.of]
    · simp only [reqBase, goBase, bne_eq_false_iff_eq]; rintro rfl; rfl
  | same => exact ⟨by simp [reqBase], fun _ => rfl⟩
  | enumNumber hk => exact ⟨fun _ => by simp [single, isNumberKind_of hk, Out.of], by simp [reqBase]⟩
  | msgSame => exact ⟨by simp [reqBase], fun _ => rfl⟩
  | msgAlias hal =>
    refine ⟨fun _ => by simp [single, hE _ _ (.inl hal), Out.of], ?_⟩
    simp only [reqBase, goBase, bne_eq_false_iff_eq]; rintro rfl; rfl
  | wrapper h1 h2 =>
    refine ⟨fun _ => by simp [single, hE _ _ (.inr ⟨h1, h2⟩), Out.of], ?_⟩
    simp only [reqBase, goBase, bne_eq_false_iff_eq]; rintro rfl; rfl
  | map h1 => rw [entry, h1] at hm; cases hm
  | enumSame => exact ⟨by simp [reqBase], fun _ => rfl⟩
  | enumAlias _ =>
    refine ⟨fun _ => rfl, ?_⟩
    simp only [reqBase, goBase, bne_eq_false_iff_eq]; rintro rfl; rfl
  | selector => exact absurd ha (by simp [Proper])
  | nullMsg => exact absurd ha (by simp [Proper])
  | nullBytes => exact absurd ha (by simp [Proper])
  | nullList => exact absurd ha (by simp [Proper])

theorem entry_single {S : Schema} {t : Ty} (h : Single S t) : entry S t = none := by
  cases t <;> simp_all [Single, entry]

theorem inner_ok {S : Schema} {E : Env} (hE : MessagesConvert S E) {a b : Ty} (ha : Single S a) (h : Compat S a b) : inner E a b = .ok := by
  unfold inner
  split
  · rename_i hr; exact (base hE (single_proper ha) h (entry_single ha)).1 hr
  · rfl

theorem list_iff {S : Schema} {t : Ty} (h : Proper S t) : IsList t ↔ repeated t = true := by
  cases t with
  | scalar k r => cases r <;> simp [repeated] <;> first | exact .scalar | (intro h; cases h)
  | enum k r => cases r <;> simp [repeated] <;> first | exact .enum | (intro h; cases h)
  | msg k r => cases r <;> simp [repeated] <;> first | exact .msg | (intro h; cases h)
  | selector => simp [Proper] at h
  | null => simp [Proper] at h

/-- Messages: both are maps, or none is. -/
theorem entries {S : Schema} (hS : S.Wf) (hF : Flat S) {a b : Ty} (ha : Proper S a) (h : Compat S a b) :
    (entry S a = none ∧ entry S b = none) ∨
      ∃ k v k' v', entry S a = some (k, v) ∧ entry S b = some (k', v') ∧ Compat S k k' ∧ Compat S v v' := by
  cases h with
  | msgSame =>
    rename_i m r r'
    cases hm : S.mapEntry m with
    | none => exact .inl ⟨hm, hm⟩
    | some p =>
      obtain ⟨k, v⟩ := p
      obtain ⟨h1, h2⟩ := hF.entry m k v hm
      have self : ∀ {t : Ty}, Single S t → Compat S t t := by
        intro t ht; cases t <;> first | exact .same | exact .enumSame | exact .msgSame | exact absurd ht (by simp [Single])
      exact .inr ⟨k, v, k, v, hm, hm, self h1, self h2⟩
  | msgAlias hal =>
    rename_i m n r r'
    left
    constructor
    · cases hm : S.mapEntry m with
      | none => exact hm
      | some p => exact absurd hal (by have := hS.map m n (by rw [hm]; rfl); simp [this.1, this.2])
    · cases hm : S.mapEntry n with
      | none => exact hm
      | some p => exact absurd hal (by have := hS.map n m (by rw [hm]; rfl); simp [this.1, this.2])
  | wrapper h1 h2 => exact .inl ⟨hF.wrapper _ h1, hF.wrapper _ h2⟩
  | map h1 h2 h3 h4 => exact .inr ⟨_, _, _, _, h1, h2, h3, h4⟩
  | selector => exact absurd ha (by simp [Proper])
  | nullMsg => exact absurd ha (by simp [Proper])
  | nullBytes => exact absurd ha (by simp [Proper])
  | nullList => exact absurd ha (by simp [Proper])
  | _ => exact .inl ⟨rfl, rfl⟩

/-- The core of all cases: a value of a compatible type is converted where needed, and of the same Go type where not. -/
theorem core {S : Schema} {E : Env} (hS : S.Wf) (hF : Flat S) (hE : MessagesConvert S E) {a b : Ty} (ha : Proper S a) (hb : Proper S b)
    (h : Compatible S a b) (bm : Bool) :
    (required S a b = true → conv S E a false b bm = .ok) ∧ (required S a b = false → goTy S a = goTy S b) := by
  obtain ⟨h, hl⟩ := h
  have hrep : repeated a = repeated b := by
    rcases hl with rfl | hl
    · exact absurd ha (by simp [Proper])
    · rw [list_iff ha, list_iff hb] at hl
      cases hx : repeated a <;> cases hy : repeated b <;> simp_all
  rcases entries hS hF ha h with ⟨h1, h2⟩ | ⟨k, v, k', v', h1, h2, h3, h4⟩
  · have hb' := base hE ha h h1
    have hgo : ∀ t, entry S t = none → goTy S t = if repeated t then .slice (goBase t) else goBase t := by
      intro t ht
      cases t <;> simp_all [goTy, entry]
    refine ⟨?_, ?_⟩
    · intro hr
      simp only [required, h1] at hr
      simp only [conv, h1, h2]
      rw [← hrep]
      cases hra : repeated a
      · simp [hb'.1 hr]
      · simp [inner, hr, hb'.1 hr]
    · intro hr
      simp only [required, h1] at hr
      rw [hgo a h1, hgo b h2, hrep, hb'.2 hr]
  · have hsa : ∃ m, a = .msg m false ∧ S.mapEntry m = some (k, v) := by
      cases a <;> simp [entry] at h1
      rename_i m r
      exact ⟨m, by rw [ha (by rw [h1]; rfl)], h1⟩
    have hsb : ∃ m, b = .msg m false ∧ S.mapEntry m = some (k', v') := by
      cases b <;> simp [entry] at h2
      rename_i m r
      exact ⟨m, by rw [hb (by rw [h2]; rfl)], h2⟩
    obtain ⟨m, rfl, hm⟩ := hsa
    obtain ⟨n, rfl, hn⟩ := hsb
    obtain ⟨sk, sv⟩ := hF.entry m k v hm
    refine ⟨?_, ?_⟩
    · intro _
      simp [conv, repeated, h1, h2, inner_ok hE sk h3, inner_ok hE sv h4, Out.and]
    · intro hr
      simp only [required, h1, h2, Bool.or_eq_false_iff] at hr
      simp [goTy, hm, hn, (base hE (single_proper sk) h3 (entry_single sk)).2 hr.1, (base hE (single_proper sv) h4 (entry_single sv)).2 hr.2]

/-- C121 for `by`: the code compiles for values of compatible types. Partial: `enum.select` is C84. -/
theorem C121_by_partial (S : Schema) (E : Env) (hS : S.Wf) (hF : Flat S) (hE : MessagesConvert S E) (frm to : Ty)
    (hfrm : Proper S frm ∨ frm = .null) (hto : Proper S to) (h : Compatible S frm to) : byCode S E frm to = .ok := by
  rcases hfrm with hfrm | rfl
  · obtain ⟨h1, h2⟩ := core hS hF hE hfrm hto h false
    cases frm with
    | scalar => rfl
    | null => rfl
    | selector => exact absurd hfrm (by simp [Proper])
    | msg n r =>
      simp only [byCode]
      cases hr : required S (.msg n r) to
      · simp [h2 hr, Out.of]
      · simp [h1 hr]
    | enum n r =>
      simp only [byCode]
      cases hr : required S (.enum n r) to
      · simp [h2 hr, Out.of]
      · simp [h1 hr]
  · rfl

theorem proper_declared {S : Schema} {t : Ty} (h : Proper S t) (hs : ∀ r, t ≠ .msg selectorName r) : Declared t := by
  cases t with
  | msg n r => exact fun e => hs r (by rw [e])
  | scalar => trivial
  | enum => trivial
  | selector => exact absurd h (by simp [Proper])
  | null => exact absurd h (by simp [Proper])

/-- C121 for accepted `by`: partial as C39 is (`C39_bind_partial`). -/
theorem C121_accepted_by_partial (S : Schema) (E : Env) (hS : S.Wf) (hF : Flat S) (hE : MessagesConvert S E) (hmap : ScalarMaps S)
    (frm to : Ty) (hfrm : Proper S frm ∨ frm = .null) (hto : Proper S to) (hs : ∀ r, to ≠ .msg selectorName r)
    (henum : ∀ e r, frm = .enum e r → (∃ k r', to = .scalar k r' ∧ k ∈ numeric) ∨ ∃ f r', to = .enum f r')
    (hrep : frm = .null ∨ (IsList frm ↔ IsList to)) (hacc : bindErrs S frm to = []) : byCode S E frm to = .ok :=
  C121_by_partial S E hS hF hE frm to hfrm hto ((C39_bind_partial S hS hmap frm to (proper_declared hto hs) henum hrep).1 hacc)

/-- C121 for autobound values of fields outside of oneofs. -/
theorem C121_autobind_partial (S : Schema) (E : Env) (hS : S.Wf) (hF : Flat S) (hE : MessagesConvert S E) (frm to : Ty)
    (hfrm : Proper S frm) (hto : Proper S to) (h : Compatible S frm to) : autoCode S E frm false to = .ok := by
  obtain ⟨h1, h2⟩ := core hS hF hE hfrm hto h false
  unfold autoCode
  cases hr : required S frm to
  · simp [h2 hr, Out.of]
  · simp [h1 hr]

theorem required_iff {S : Schema} {a b : Ty} (ha : Single S a) (hb : Single S b) : required S a b = true ↔ a ≠ b := by
  simp only [required, entry_single ha]
  cases a <;> cases b <;> simp_all [Single, reqBase]

theorem repeated_single {S : Schema} {a : Ty} (ha : Single S a) : repeated a = false := by
  cases a <;> simp_all [Single, repeated]

/-- C121 for autobound values of members of oneofs that go to a field outside of oneofs: only if the types are the same; otherwise the
generator crashes. -/
theorem C121_leaves_oneof_iff (S : Schema) (E : Env) (frm to : Ty) (hfrm : Single S frm) (hto : Single S to) :
    autoCode S E frm true to = .ok ↔ frm = to := by
  unfold autoCode
  by_cases he : frm = to
  · subst he
    have : ¬ required S frm frm = true := fun h => (required_iff hfrm hto).1 h rfl
    simp [this, Out.of]
  · rw [if_pos ((required_iff hfrm hto).2 he)]
    simp [conv, repeated_single hfrm, entry_single hfrm, he]

/-- C121 for autobound values of members of oneofs: the code compiles exactly for messages of another type, in oneofs that are not those of
`optional` fields. -/
theorem C121_autobind_member_iff (S : Schema) (E : Env) (hS : S.Wf) (hF : Flat S) (hE : MessagesConvert S E) (frm to : Ty)
    (hfrm : Single S frm) (hto : Single S to) (h : Compatible S frm to) (member synthetic : Bool) :
    memberAuto S E frm member to synthetic = .ok ↔ synthetic = false ∧ frm ≠ to ∧ ∃ m, frm = .msg m false := by
  have hcore := (core hS hF hE (single_proper hfrm) (single_proper hto) h true).1
  unfold memberAuto
  by_cases he : frm = to
  · have : ¬ required S frm to = true := fun h => (required_iff hfrm hto).1 h he
    rw [if_neg this]
    simp [he]
  · have hr := (required_iff hfrm hto).2 he
    rw [if_pos hr]
    have hin : inner E frm to = .ok := inner_ok hE hfrm h.1
    have hnil : nilable (goTy S frm) = true ↔ (∃ m, frm = .msg m false) ∨ frm = .scalar .bytes false := by
      cases frm with
      | scalar k r =>
        simp only [Single] at hfrm
        subst hfrm
        cases k <;> simp [goTy, goBase, goKind, repeated, nilable]
      | enum e r => simp only [Single] at hfrm; subst hfrm; simp [goTy, goBase, repeated, nilable]
      | msg m r => obtain ⟨rfl, hm⟩ := hfrm; simp [goTy, goBase, repeated, nilable, hm]
      | selector => exact absurd hfrm (by simp [Single])
      | null => exact absurd hfrm (by simp [Single])
    have hbytes : frm ≠ .scalar .bytes false := by
      rintro rfl
      obtain ⟨h, -⟩ := h
      cases h with
      | number hk _ => simp [numeric] at hk
      | same => simp only [Single] at hto; subst hto; exact he rfl
    have hconv : nilable (goTy S frm) = true → conv S E frm member to true = .ok := by
      intro hn
      cases member with
      | false => exact hcore hr
      | true => simp [conv, repeated_single hfrm, entry_single hfrm, hn, hin]
    constructor
    · intro hok
      cases synthetic with
      | true => simp [Out.of] at hok; revert hok; cases conv S E frm member to true <;> simp [Out.and]
      | false =>
        refine ⟨rfl, he, ?_⟩
        cases hn : nilable (goTy S frm) with
        | true => exact (hnil.1 hn).resolve_right hbytes
        | false => simp [hn, Out.of] at hok; revert hok; cases conv S E frm member to true <;> simp [Out.and]
    · rintro ⟨rfl, -, hm⟩
      have hn := hnil.2 (.inl hm)
      simp [hn, hconv hn, Out.of, Out.and]

/-- C121 for members of oneofs with an expression: the code compiles for compatible types other than null. Partial: nobody checks that the
types are compatible. -/
theorem C121_member_by_partial (S : Schema) (E : Env) (hS : S.Wf) (hF : Flat S) (hE : MessagesConvert S E) (frm to : Ty)
    (hfrm : Single S frm) (hto : Single S to) (h : Compatible S frm to) : memberBy S E frm to false = .ok := by
  obtain ⟨h1, h2⟩ := core hS hF hE (single_proper hfrm) (single_proper hto) h true
  have hx : (Out.of !false).and (if required S frm to then conv S E frm false to true else .of (goTy S frm == goTy S to)) = .ok := by
    cases hr : required S frm to
    · simp [h2 hr, Out.of, Out.and]
    · simp [h1 hr, Out.of, Out.and]
  have he := entry_single hfrm
  cases frm with
  | null => exact absurd hfrm (by simp [Single])
  | selector => exact absurd hfrm (by simp [Single])
  | _ => simpa only [memberBy, he, Option.isSome_none, Bool.false_eq_true, if_false] using hx

/-! ## Examples -/

/-- An order with a map, of which there are two versions that are aliases. -/
def exS : Schema where
  mapEntry n := if n = "Tags" then some (.scalar .string false, .scalar .int32 false)
    else if n = "Tags2" then some (.scalar .string false, .scalar .int64 false) else none
  msgAliases n := if n = "Order" then ["v1.Order"] else []
  enumAliases n := if n = "Status" then ["v1.Status"] else []
  wrapper _ := false

def exE : Env := ⟨fun a b => a == "v1.Order" && b == "Order" || a == "Order" && b == "v1.Order", fun _ _ => false⟩

theorem exS_wf : exS.Wf := by
  refine ⟨?_, ?_, ?_⟩
  · intro m n h
    simp only [exS] at h ⊢
    constructor
    · by_cases hm : m = "Order"
      · subst hm; simp at h
      · simp [hm]
    · by_cases hn : n = "Order"
      · subst hn
        simp only [if_true, List.mem_singleton]
        rintro rfl
        simp at h
      · simp [hn]
  · intro n
    simp only [exS, selectorName]
    refine ⟨by simp, ?_⟩
    by_cases hn : n = "Order" <;> simp [hn]
  · simp [exS, selectorName]

theorem exS_flat : Flat exS := by
  refine ⟨?_, by simp [exS]⟩
  intro m k v h
  simp only [exS] at h
  split at h
  · cases h; exact ⟨rfl, rfl⟩
  · split at h
    · cases h; exact ⟨rfl, rfl⟩
    · cases h

theorem exS_messages : MessagesConvert exS exE := by
  intro a b h
  simp only [exS, Bool.false_eq_true, and_self, or_false] at h
  rcases h with h | h
  · by_cases ha : a = "Order"
    · subst ha; simp at h; subst h; rfl
    · simp [ha] at h
  · by_cases hb : b = "Order"
    · subst hb; simp at h; subst h; rfl
    · simp [hb] at h

/-- The hypotheses hold for a list of aliased messages, a map with numbers of another kind, and null. -/
example : byCode exS exE (.msg "v1.Order" true) (.msg "Order" true) = .ok ∧ byCode exS exE (.msg "Tags" false) (.msg "Tags2" false) = .ok ∧
    byCode exS exE .null (.msg "Order" false) = .ok ∧ required exS (.msg "Tags" false) (.msg "Tags2" false) = true := by
  refine ⟨C121_by_partial exS exE exS_wf exS_flat exS_messages _ _ (.inl (by simp [Proper, exS])) (by simp [Proper, exS]) ⟨.msgAlias (.inr (by simp [exS])), .inr ⟨fun _ => .msg, fun _ => .msg⟩⟩,
    C121_by_partial exS exE exS_wf exS_flat exS_messages _ _ (.inl (by simp [Proper])) (by simp [Proper])
      ⟨.map (k := .scalar .string false) (v := .scalar .int32 false) (k' := .scalar .string false) (v' := .scalar .int64 false) (by decide) (by decide) .same (.number (by decide) (by decide)), .inr ⟨nofun, nofun⟩⟩,
    C121_by_partial exS exE exS_wf exS_flat exS_messages _ _ (.inr rfl) (by simp [Proper]) ⟨.nullMsg, .inl rfl⟩, by decide⟩

/-- The hypotheses hold for autobound values: of a field, and of members of a oneof. -/
example : autoCode exS exE (.enum "v1.Status" false) false (.enum "Status" false) = .ok ∧
    memberAuto exS exE (.msg "v1.Order" false) true (.msg "Order" false) false = .ok ∧
    memberBy exS exE (.scalar .int64 false) (.scalar .int32 false) false = .ok := by
  refine ⟨C121_autobind_partial exS exE exS_wf exS_flat exS_messages _ _ trivial trivial ⟨.enumAlias (.inr (by simp [exS])), .inr ⟨nofun, nofun⟩⟩,
    (C121_autobind_member_iff exS exE exS_wf exS_flat exS_messages (.msg "v1.Order" false) (.msg "Order" false) ⟨rfl, by decide⟩ ⟨rfl, by decide⟩
      ⟨.msgAlias (.inr (by simp [exS])), .inr ⟨nofun, nofun⟩⟩ true false).2 ⟨rfl, by decide, _, rfl⟩,
    C121_member_by_partial exS exE exS_wf exS_flat exS_messages _ _ rfl rfl ⟨.number (by decide) (by decide), .inr ⟨nofun, nofun⟩⟩⟩

/-! ## What is not so -/

/-- C121 is false for the expressions of members of oneofs: their type is not checked. A string for a number does not compile, a message
for a string crashes the generator. -/
theorem C121_member_by_false (S : Schema) (E : Env) (hm : S.mapEntry "M" = none) :
    memberByErrs S (.scalar .string false) (.scalar .int64 false) = [] ∧
      memberBy S E (.scalar .string false) (.scalar .int64 false) false = .broken ∧
    memberByErrs S (.msg "M" false) (.scalar .string false) = [] ∧ memberBy S E (.msg "M" false) (.scalar .string false) false = .panic := by
  refine ⟨rfl, rfl, rfl, ?_⟩
  simp [memberBy, entry, hm, required, reqBase, conv, repeated, single, Out.of, Out.and]

/-- C121 is false for null as the value of a member that is a message, although the types are compatible, and for `enum.select`. -/
theorem C121_member_null_false (S : Schema) (E : Env) : Compatible S .null (.msg "M" false) ∧ memberBy S E .null (.msg "M" false) false = .broken ∧
    Compatible S (.selector (.enum "A" false) (.enum "A" false)) (.enum "A" false) ∧
    memberBy S E (.selector (.enum "A" false) (.enum "A" false)) (.enum "A" false) false = .broken :=
  ⟨⟨.nullMsg, .inl rfl⟩, rfl, ⟨.selector .enumSame .enumSame, .inr ⟨nofun, nofun⟩⟩, rfl⟩

/-- C121 is false for autobound strings in oneofs: accepted, but the code does not compile. -/
theorem C121_autobind_string_false (S : Schema) (E : Env) (member : Bool) : bindErrs S (.scalar .string false) (.scalar .string false) = [] ∧
    memberAuto S E (.scalar .string false) member (.scalar .string false) false = .broken := by
  refine ⟨by simp [bindErrs, diffErr, isDifferent, kindOf], rfl⟩

/-- C121 is false for an enum where a message is declared, and for one message where a list of it is: accepted, but the code does not
compile. -/
theorem C121_accepted_false (S : Schema) (E : Env) (hm : S.mapEntry "M" = none) :
    bindErrs S (.enum "E" false) (.msg "M" false) = [] ∧ byCode S E (.enum "E" false) (.msg "M" false) = .broken ∧
    bindErrs S (.msg "M" false) (.msg "M" true) = [] ∧ byCode S E (.msg "M" false) (.msg "M" true) = .broken := by
  refine ⟨rfl, ?_, by simp [bindErrs, msgErrs, hm], ?_⟩
  · simp [byCode, required, entry, reqBase, conv, repeated, single]
  · simp [byCode, required, entry, hm, reqBase, goTy, repeated, goBase, Out.of]

/-- C121 is false for optional fields with an option `oneof`. -/
theorem C121_optional_false (S : Schema) (E : Env) : Compatible S (.scalar .int64 false) (.scalar .int64 false) ∧
    memberBy S E (.scalar .int64 false) (.scalar .int64 false) true = .broken :=
  ⟨⟨.same, .inr ⟨nofun, nofun⟩⟩, rfl⟩

end Verif.SetField
