import Verif.CastOneof.Spec
import Verif.TypeConv.Props

/-! # C120: conversion functions of messages with oneofs -/

namespace Verif.CastOneof

open Verif.TypeConv (Ty elem required visit visits_closed)

abbrev Req (p : CT × CT) : Bool := required p.1.ty p.2.ty

theorem likeSingle_req {a b : Ty} (h : LikeSingle a b) : required a b = true ↔ a ≠ b := by
  refine TypeConv.C35_required a b ?_ ?_ ?_ <;> cases a <;> cases b <;> simp_all [LikeSingle, TypeConv.Proto, TypeConv.SameForm, TypeConv.Single]

theorem like_req {a b : Ty} (h : Like a b) : required a b = true ↔ a ≠ b := by
  refine TypeConv.C35_required a b ?_ ?_ ?_ <;> cases a <;> cases b <;>
    simp_all [Like, LikeSingle, TypeConv.Proto, TypeConv.SameForm, TypeConv.Single]
  all_goals
    first
      | (rename_i x y; cases x <;> cases y <;> simp_all [LikeSingle, TypeConv.Single]; done)
      | (rename_i x y z w
         obtain ⟨h1, h2⟩ := h
         refine ⟨?_, ?_⟩
         · cases x <;> cases z <;> simp_all [LikeSingle, TypeConv.Single]
         · cases y <;> cases w <;> simp_all [LikeSingle, TypeConv.Single])

/-- All declarations satisfy what the required roots satisfy and required children inherit. -/
theorem visit_inv {P K : Type} [DecidableEq K] (req : P → Bool) (key : P → K) (ch : P → List P) (Q : P → Prop)
    (hQ : ∀ p, req p = true → Q p → ∀ c ∈ ch p, req c = true → Q c) (n : Nat) : ∀ (st : List K × List P) (p : P),
    (req p = true → Q p) → (∀ q ∈ st.2, Q q ∧ req q = true) → ∀ q ∈ (visit req key ch n st p).2, Q q ∧ req q = true := by
  induction n with
  | zero => intro st p _ h; exact h
  | succ n ih =>
    intro st p hp h
    simp only [visit]
    split
    · exact h
    split
    · exact h
    · rename_i hr _
      have hr : req p = true := by simpa using hr
      have hfold : ∀ (cs : List P), (∀ c ∈ cs, req c = true → Q c) → ∀ s : List K × List P, (∀ q ∈ s.2, Q q ∧ req q = true) →
          ∀ q ∈ (cs.foldl (visit req key ch n) s).2, Q q ∧ req q = true := by
        intro cs
        induction cs with
        | nil => intro _ s hs; exact hs
        | cons c cs ihc =>
          intro hc s hs
          exact ihc (fun x hx => hc x (by simp [hx])) _ (ih s c (hc c (by simp)) hs)
      refine hfold _ (hQ p hr (hp hr)) _ ?_
      intro q hq
      rcases List.mem_append.mp hq with hq | hq
      · exact h q hq
      · rw [List.mem_singleton.mp hq]; exact ⟨hp hr, hr⟩

theorem visits_inv {P K : Type} [DecidableEq K] (req : P → Bool) (key : P → K) (ch : P → List P) (Q : P → Prop)
    (hQ : ∀ p, req p = true → Q p → ∀ c ∈ ch p, req c = true → Q c) (roots : List P) (hroots : ∀ p ∈ roots, req p = true → Q p)
    (n : Nat) : ∀ st : List K × List P, (∀ q ∈ st.2, Q q ∧ req q = true) →
    ∀ q ∈ (roots.foldl (visit req key ch n) st).2, Q q ∧ req q = true := by
  induction roots with
  | nil => intro st h; exact h
  | cons p ps ih =>
    intro st h
    exact ih (fun x hx => hroots x (by simp [hx])) _ (visit_inv req key ch Q hQ n st p (hroots p (by simp)) h)

theorem like_single {x y : Ty} (h : LikeSingle x y) : Like x y := by
  cases x <;> cases y <;> first | exact h | exact absurd h (by simp [LikeSingle])

/-- What is known of a declared conversion. -/
structure Inv (S : Schema) (roots : List (Ty × Ty)) (p : CT × CT) : Prop where
  conv : Converts S roots p.1.ty p.2.ty
  like : Like p.1.ty p.2.ty
  orig : p.1.member.isSome = true → ∃ m m' g f, Converts S roots (.msg m) (.msg m') ∧ Corresponds S m m' g f ∧ p = (typeOf m g, typeOf m' f)
  fst : p.1.member.isSome = true → NotMany p.1.ty
  snd : p.2.member.isSome = true → NotMany p.2.ty

theorem mem_fieldOf {fs : List Field} {n : String} {g : Field} (h : fieldOf fs n = some g) : g ∈ fs := List.mem_of_find?_eq_some h

theorem inv_field {S : Schema} {roots : List (Ty × Ty)} (hS : Fits S roots) {m m' : Nat} {g f : Field}
    (h : Converts S roots (.msg m) (.msg m')) (hc : Corresponds S m m' g f) (hr : required g.ty f.ty = true) :
    Inv S roots (typeOf m g, typeOf m' f) := by
  have hl := hS.like m m' g f h hc
  exact ⟨.field h hc ((like_req hl).1 hr), hl, fun _ => ⟨m, m', g, f, h, hc, rfl⟩,
    fun hm => hS.single m g (mem_fieldOf hc.2) (by simpa [typeOf] using hm), fun hm => hS.single m' f hc.1 (by simpa [typeOf] using hm)⟩

/-- The conversions of the fields of two messages. -/
theorem mem_fields (S : Schema) (m m' : Nat) (c : CT × CT) :
    c ∈ (S m').filterMap (fun f => (fieldOf (S m) f.name).map (fun g => (typeOf m g, typeOf m' f))) ↔
      ∃ g f, Corresponds S m m' g f ∧ c = (typeOf m g, typeOf m' f) := by
  simp only [List.mem_filterMap, Option.map_eq_some_iff]
  constructor
  · rintro ⟨f, hf, g, hg, rfl⟩; exact ⟨g, f, ⟨hf, hg⟩, rfl⟩
  · rintro ⟨g, f, hc, rfl⟩; exact ⟨f, hc.1, g, hc.2, rfl⟩

theorem inv_children {S : Schema} {roots : List (Ty × Ty)} (hS : Fits S roots) (p : CT × CT) (hr : Req p = true) (hp : Inv S roots p) :
    ∀ c ∈ children S p, Req c = true → Inv S roots c := by
  obtain ⟨⟨a, ma⟩, ⟨b, mb⟩⟩ := p
  obtain ⟨conv, like, orig, h1, h2⟩ := hp
  simp only [Req] at conv like h1 h2 orig hr
  intro c hc hrc
  have plain : ma.isSome = true → c = (⟨a, none⟩, ⟨b, none⟩) → Inv S roots c := by
    rintro - rfl
    exact ⟨conv, like, by simp, by simp, by simp⟩
  cases a with
  | list t =>
    cases b with
    | list t' =>
      simp only [children, elem, List.mem_singleton] at hc
      subst hc
      refine ⟨.elem conv, like_single like, ?_, ?_, ?_⟩
      · intro h; exact absurd (h1 h) (by simp [NotMany])
      · intro h; exact absurd (h1 h) (by simp [NotMany])
      · intro h; exact absurd (h2 h) (by simp [NotMany])
    | _ => simp [Like, LikeSingle] at like
  | map k v =>
    cases b with
    | map k' v' =>
      simp only [children, elem, List.mem_cons, List.not_mem_nil, or_false] at hc
      rcases hc with rfl | rfl
      · exact ⟨.key conv ((likeSingle_req like.1).1 hrc), like_single like.1, by simp, by simp, by simp⟩
      · exact ⟨.value conv ((likeSingle_req like.2).1 hrc), like_single like.2, by simp, by simp, by simp⟩
    | _ => simp [Like, LikeSingle] at like
  | scalar x =>
    cases hm : ma.isSome with
    | true =>
      refine plain hm ?_
      cases b <;> simp [Like, LikeSingle] at like <;> simpa [children, elem, hm] using hc
    | false => exfalso; cases b <;> simp [Like, LikeSingle] at like <;> simp [children, elem, hm] at hc
  | enum x =>
    cases hm : ma.isSome with
    | true =>
      refine plain hm ?_
      cases b <;> simp [Like, LikeSingle] at like <;> simpa [children, elem, hm] using hc
    | false => exfalso; cases b <;> simp [Like, LikeSingle] at like <;> simp [children, elem, hm] at hc
  | msg m =>
    cases b <;> simp [Like, LikeSingle] at like
    rename_i m'
    cases hm : ma.isSome with
    | true => exact plain hm (by simpa [children, elem, hm] using hc)
    | false =>
      simp only [children, elem, hm, Bool.false_eq_true, if_false] at hc
      obtain ⟨g, f, hgf, rfl⟩ := (mem_fields S m m' c).1 hc
      exact inv_field hS conv hgf hrc

/-- The roots as types outside of oneofs. -/
def plainRoots (roots : List (Ty × Ty)) : List (CT × CT) := roots.map (fun p => (⟨p.1, none⟩, ⟨p.2, none⟩))

section
variable {K : Type} [DecidableEq K] {S : Schema} {key : CT × CT → K} {U : List (CT × CT)} {roots : List (Ty × Ty)}

theorem decls_inv (hS : Fits S roots) (n : Nat) : ∀ p ∈ decls S key n (plainRoots roots), Inv S roots p ∧ Req p = true := by
  refine visits_inv Req key (children S) (Inv S roots) (fun p hr hp => inv_children hS p hr hp) (plainRoots roots) ?_ n ([], []) (by simp)
  intro p hp hr
  obtain ⟨⟨a, b⟩, hab, rfl⟩ := List.mem_map.1 hp
  have hl := hS.root _ hab
  exact ⟨.root hab ((like_req hl).1 hr), hl, by simp, by simp, by simp⟩

/-- A declared conversion is followed by the one of its types outside of oneofs. -/
theorem plain_decl {ds : List (CT × CT)} (hS : Fits S roots) (hds : ∀ p ∈ ds, Inv S roots p ∧ Req p = true)
    (hcl : ∀ p ∈ ds, ∀ c ∈ children S p, Req c = true → c ∈ ds) {m m' : Nat} {x y : CT} (h : (x, y) ∈ ds) (hx : x.ty = .msg m) (hy : y.ty = .msg m') :
    ∃ x' y', (x', y') ∈ ds ∧ x'.ty = .msg m ∧ y'.ty = .msg m' ∧ x'.member = none := by
  cases hm : x.member with
  | none => exact ⟨x, y, h, hx, hy, hm⟩
  | some w =>
    have hr := (hds _ h).2
    obtain ⟨a, ma⟩ := x
    obtain ⟨b, mb⟩ := y
    simp only at hx hy hm
    subst hx hy hm
    exact ⟨⟨.msg m, none⟩, ⟨.msg m', none⟩, hcl _ h _ (by simp [children, elem]) hr, rfl, rfl, rfl⟩

theorem converts_declared {ds : List (CT × CT)} (hS : Fits S roots) (hds : ∀ p ∈ ds, Inv S roots p ∧ Req p = true)
    (hroot : ∀ p ∈ plainRoots roots, Req p = true → p ∈ ds)
    (hcl : ∀ p ∈ ds, ∀ c ∈ children S p, Req c = true → c ∈ ds) {a b : Ty} (h : Converts S roots a b) :
    ∃ x y, (x, y) ∈ ds ∧ x.ty = a ∧ y.ty = b := by
  induction h with
  | root h hne =>
    refine ⟨⟨_, none⟩, ⟨_, none⟩, hroot _ (List.mem_map.2 ⟨_, h, rfl⟩) ?_, rfl, rfl⟩
    exact (like_req (hS.root _ h)).2 hne
  | @elem a b _ ih =>
    obtain ⟨⟨_, ma⟩, ⟨_, mb⟩, hd, rfl, rfl⟩ := ih
    obtain ⟨hi, hr⟩ := hds _ hd
    refine ⟨⟨a, ma⟩, ⟨b, mb⟩, hcl _ hd _ (by simp [children, elem]) ?_, rfl, rfl⟩
    have hl : LikeSingle a b := hi.like
    have := (like_req hi.like).1 hr
    exact (likeSingle_req hl).2 (fun e => this (by simp [e]))
  | @key k v k' v' _ hne ih =>
    obtain ⟨⟨_, ma⟩, ⟨_, mb⟩, hd, rfl, rfl⟩ := ih
    obtain ⟨hi, hr⟩ := hds _ hd
    exact ⟨⟨k, none⟩, ⟨k', none⟩, hcl _ hd _ (by simp [children, elem]) ((likeSingle_req hi.like.1).2 hne), rfl, rfl⟩
  | @value k v k' v' _ hne ih =>
    obtain ⟨⟨_, ma⟩, ⟨_, mb⟩, hd, rfl, rfl⟩ := ih
    obtain ⟨hi, hr⟩ := hds _ hd
    exact ⟨⟨v, none⟩, ⟨v', none⟩, hcl _ hd _ (by simp [children, elem]) ((likeSingle_req hi.like.2).2 hne), rfl, rfl⟩
  | @field m m' g f hconv hc hne ih =>
    obtain ⟨x, y, hd, hx, hy⟩ := ih
    obtain ⟨⟨_, _⟩, ⟨_, mb⟩, hd, rfl, rfl, rfl⟩ := plain_decl hS hds hcl hd hx hy
    refine ⟨typeOf m g, typeOf m' f, hcl _ hd _ ?_ ((like_req (hS.like m m' g f hconv hc)).2 hne), rfl, rfl⟩
    simp only [children, elem, Option.isSome_none, Bool.false_eq_true, if_false]
    exact (mem_fields S m m' _).2 ⟨g, f, hc, rfl⟩

end

theorem goTy_ne_wrapper (t : Ty) (m : Nat) (f : String) : goTy t ≠ .wrapper m f := by
  cases t <;> simp [goTy]

theorem converted_eq {ds : List (CT × CT)} {a b : CT} (hl : Like a.ty b.ty) (hin : required a.ty b.ty = true → (a, b) ∈ ds)
    (hb : b.member = none) : converted ds a b = some (goTy b.ty) := by
  unfold converted
  by_cases hr : required a.ty b.ty = true
  · rw [if_pos hr, if_pos (hin hr)]; simp [result, hb]
  · rw [if_neg hr]
    have : a.ty = b.ty := Classical.byContradiction (fun h => hr ((like_req hl).2 h))
    rw [this]

theorem converted_missing {ds : List (CT × CT)} {a b : CT} (hr : required a.ty b.ty = true) (h : (a, b) ∉ ds) : converted ds a b = none := by
  unfold converted
  rw [if_pos hr, if_neg h]

theorem converted_same {ds : List (CT × CT)} {a b : CT} (hr : ¬ required a.ty b.ty = true) : converted ds a b = some (goTy a.ty) := by
  unfold converted
  rw [if_neg hr]

theorem converted_declared {ds : List (CT × CT)} {a b : CT} (hr : required a.ty b.ty = true) (h : (a, b) ∈ ds) :
    converted ds a b = some (result b) := by
  unfold converted
  rw [if_pos hr, if_pos h]

theorem nilable_single {t : Ty} (ht : NotMany t) : nilable (goTy t) = true ↔ (∃ m, t = .msg m) ∨ t = .scalar bytesKind := by
  cases t <;> simp_all [NotMany, nilable, goTy]

set_option maxHeartbeats 1000000 in
/-- C120: every function compiles, and the generator does not crash, exactly when all fields of the same name of converted messages
satisfy the condition. Partial: the texts of conversions are different for different ones (`C35_names_false`), and `U` is a set of
conversions that contains the needed ones with all nested ones. -/
theorem C120_compiles_iff_partial {K : Type} [DecidableEq K] (S : Schema) (key : CT × CT → K) (U : List (CT × CT)) (roots : List (Ty × Ty))
    (hU : ∀ p ∈ U, ∀ c ∈ children S p, c ∈ U) (hkey : ∀ p ∈ U, ∀ q ∈ U, key p = key q → p = q) (hroots : ∀ p ∈ plainRoots roots, p ∈ U)
    (hS : Fits S roots) :
    (∀ p ∈ decls S key (U.length + 1) (plainRoots roots), function S (decls S key (U.length + 1) (plainRoots roots)) p = .ok) ↔
      ∀ m m' g f, Converts S roots (.msg m) (.msg m') → Corresponds S m m' g f → FieldOk g f := by
  obtain ⟨hroot, hcl⟩ := visits_closed Req key (children S) U hU hkey (plainRoots roots) hroots
  have hds := decls_inv (key := key) hS (U.length + 1)
  change (∀ p ∈ plainRoots roots, Req p = true → p ∈ decls S key (U.length + 1) (plainRoots roots)) at hroot
  change (∀ p ∈ decls S key (U.length + 1) (plainRoots roots), ∀ c ∈ children S p, Req c = true →
    c ∈ decls S key (U.length + 1) (plainRoots roots)) at hcl
  generalize decls S key (U.length + 1) (plainRoots roots) = ds at hds hroot hcl ⊢
  have of_ok : ∀ {b : Bool}, Out.of b = .ok ↔ b = true := by intro b; cases b <;> simp [Out.of]
  constructor
  · intro hok m m' g f hconv hc
    obtain ⟨x, y, hd, hx, hy⟩ := converts_declared hS hds hroot hcl hconv
    obtain ⟨⟨_, _⟩, ⟨_, mb⟩, hd, rfl, rfl, rfl⟩ := plain_decl hS hds hcl hd hx hy
    have hf := hok _ hd
    simp only [function, Option.isSome_none, Bool.false_eq_true, if_false, of_ok, structCompiles, List.all_eq_true] at hf
    have hf := hf f hc.1
    rw [hc.2] at hf
    simp only [fieldCompiles] at hf
    have hl := hS.like m m' g f hconv hc
    unfold FieldOk
    cases ho : f.oneof with
    | none =>
      simp only [ho, beq_iff_eq] at hf
      simp only
      cases hg : g.oneof with
      | none => exact .inl rfl
      | some og =>
        refine .inr (Classical.byContradiction fun hne => ?_)
        have hr := (like_req hl).2 hne
        have hin : (typeOf m g, typeOf m' f) ∈ ds := by
          apply Classical.byContradiction
          intro hn
          rw [converted_missing (a := typeOf m g) (b := typeOf m' f) hr hn] at hf
          cases hf
        have hfn := hok _ hin
        have hs := hS.single m g (mem_fieldOf hc.2) (by simp [hg])
        have hmem : ((typeOf m g).member).isSome = true := by simp [typeOf, hg]
        have hmem' : ((typeOf m' f).member).isSome = false := by simp [typeOf, ho]
        have : ∀ (x y : CT), NotMany x.ty → x.member.isSome = true → y.member.isSome = false → function S ds (x, y) = .panic := by
          rintro ⟨x, mx⟩ ⟨y, my⟩ h1 h2 h3
          simp only at h1 h2 h3
          cases x <;> simp [NotMany] at h1 <;> simp [function, h2, h3]
        rw [this _ _ hs hmem hmem'] at hfn
        cases hfn
    | some o =>
      simp only [ho, Bool.and_eq_true, Bool.not_eq_true', beq_iff_eq] at hf
      obtain ⟨⟨h1, h2⟩, h3⟩ := hf
      simp only
      have hne : g.ty ≠ f.ty := by
        intro e
        have hr : ¬ required g.ty f.ty = true := fun h => (like_req hl).1 h e
        rw [converted_same (a := typeOf m g) (b := typeOf m' f) hr] at h3
        exact goTy_ne_wrapper _ _ _ (Option.some.inj h3)
      refine ⟨h1, hne, ?_⟩
      have hfs := hS.single m' f hc.1 (by simp [ho])
      have hgs : NotMany g.ty := by
        revert hl hfs
        cases g.ty <;> cases f.ty <;> simp [Like, LikeSingle, NotMany]
      exact (nilable_single hgs).1 h2
  · intro hall p hp
    obtain ⟨hi, hr⟩ := hds p hp
    have hch := hcl p hp
    obtain ⟨⟨a, ma⟩, ⟨b, mb⟩⟩ := p
    obtain ⟨conv, like, orig, h1, h2⟩ := hi
    simp only at conv like h1 h2 orig
    -- a member of a oneof comes from two fields
    have member : ma.isSome = true → NotMany a → LikeSingle a b → function S ds (⟨a, ma⟩, ⟨b, mb⟩) = .ok := by
      intro hm hn hls
      obtain ⟨m, m', g, f, hconv, hc, he⟩ := orig hm
      simp only [Prod.mk.injEq] at he
      obtain ⟨hg, hf⟩ := he
      have hok := hall m m' g f hconv hc
      have hgo : g.oneof.isSome = true := by
        have : (typeOf m g).member.isSome = true := by rw [← hg]; exact hm
        simpa [typeOf] using this
      have hga : g.ty = a := by rw [show g.ty = (typeOf m g).ty from rfl, ← hg]
      have hfb : f.ty = b := by rw [show f.ty = (typeOf m' f).ty from rfl, ← hf]
      have hne : g.ty ≠ f.ty := by rw [hga, hfb]; exact (like_req like).1 hr
      unfold FieldOk at hok
      cases ho : f.oneof with
      | none =>
        rw [ho] at hok
        simp only at hok
        rcases hok with h | h
        · rw [h] at hgo; cases hgo
        · exact absurd h hne
      | some o =>
        rw [ho] at hok
        simp only at hok
        have hmb : mb.isSome = true := by
          have : (typeOf m' f).member.isSome = true := by simp [typeOf, ho]
          rw [← hf] at this
          exact this
        have hnil : nilable (goTy a) = true := (nilable_single hn).2 (hga ▸ hok.2.2)
        have hin : (⟨a, none⟩, ⟨b, none⟩) ∈ ds := by
          refine hch _ ?_ hr
          cases a <;> cases b <;> simp [LikeSingle] at hls <;> simp [children, elem, hm]
        have hconv' : converted ds ⟨a, none⟩ ⟨b, none⟩ = some (goTy b) := converted_eq like (fun _ => hin) rfl
        cases a <;> cases b <;> simp [LikeSingle] at hls <;> simp [function, hm, hmb, hnil, hconv', Out.of]
    cases a with
    | list t =>
      cases b with
      | list t' =>
        have hmb : mb = none := by
          cases mb with
          | none => rfl
          | some w => exact absurd (h2 rfl) (by simp [NotMany])
        subst hmb
        have := converted_eq (ds := ds) (a := ⟨t, ma⟩) (b := ⟨t', none⟩) (like_single like)
          (fun h => hch _ (by simp [children, elem]) h) rfl
        simp [function, this, Out.of]
      | _ => simp [Like, LikeSingle] at like
    | map k v =>
      cases b with
      | map k' v' =>
        have hk := converted_eq (ds := ds) (a := ⟨k, none⟩) (b := ⟨k', none⟩) (like_single like.1) (fun h => hch _ (by simp [children, elem]) h) rfl
        have hv := converted_eq (ds := ds) (a := ⟨v, none⟩) (b := ⟨v', none⟩) (like_single like.2) (fun h => hch _ (by simp [children, elem]) h) rfl
        simp [function, hk, hv, Out.of]
      | _ => simp [Like, LikeSingle] at like
    | scalar x =>
      cases hm : ma.isSome with
      | true => exact member hm trivial (by cases b <;> simp_all [Like, LikeSingle])
      | false => cases b <;> simp [Like, LikeSingle] at like <;> simp [function, hm]
    | enum x =>
      cases hm : ma.isSome with
      | true => exact member hm trivial (by cases b <;> simp_all [Like, LikeSingle])
      | false => cases b <;> simp [Like, LikeSingle] at like <;> simp [function, hm]
    | msg m =>
      cases b <;> simp [Like, LikeSingle] at like
      rename_i m'
      cases hm : ma.isSome with
      | true => exact member hm trivial trivial
      | false =>
        simp only [function, hm, Bool.false_eq_true, if_false, of_ok, structCompiles, List.all_eq_true]
        intro f hf
        cases hg : fieldOf (S m) f.name with
        | none => rfl
        | some g =>
          have hc : Corresponds S m m' g f := ⟨hf, hg⟩
          have hok := hall m m' g f conv hc
          have hl := hS.like m m' g f conv hc
          have hin : required g.ty f.ty = true → (typeOf m g, typeOf m' f) ∈ ds := by
            intro h
            refine hch _ ?_ h
            simp only [children, elem, hm, Bool.false_eq_true, if_false]
            exact (mem_fields S m m' _).2 ⟨g, f, hc, rfl⟩
          simp only [fieldCompiles]
          unfold FieldOk at hok
          cases ho : f.oneof with
          | none =>
            simp only [beq_iff_eq]
            exact converted_eq (a := typeOf m g) (b := typeOf m' f) hl hin (by simp [typeOf, ho])
          | some o =>
            rw [ho] at hok
            simp only at hok
            obtain ⟨hs, hne, hn⟩ := hok
            have hgs : NotMany g.ty := by rcases hn with ⟨m, e⟩ | e <;> rw [e] <;> trivial
            have hr := (like_req hl).2 hne
            simp only [hs, (nilable_single hgs).2 hn, Bool.not_false, Bool.and_self, Bool.true_and, beq_iff_eq]
            rw [converted_declared (a := typeOf m g) (b := typeOf m' f) hr (hin hr)]
            simp [result, typeOf, ho]

/-! ## A schema that meets the hypotheses -/

theorem fits_of_messages (S : Schema) (roots : List (Ty × Ty)) (hr : ∀ p ∈ roots, ∃ m m', p = (.msg m, .msg m'))
    (h : ∀ m, ∀ f ∈ S m, ∃ k, f.ty = .msg k) : Fits S roots := by
  refine ⟨?_, ?_, ?_⟩
  · intro p hp; obtain ⟨m, m', rfl⟩ := hr p hp; trivial
  · intro m m' g f _ hc
    obtain ⟨k, hk⟩ := h m g (mem_fieldOf hc.2)
    obtain ⟨k', hk'⟩ := h m' f hc.1
    rw [hk, hk']; trivial
  · intro m f hf _; obtain ⟨k, hk⟩ := h m f hf; rw [hk]; trivial

theorem fits_of_scalars (S : Schema) (roots : List (Ty × Ty)) (hr : ∀ p ∈ roots, ∃ m m', p = (.msg m, .msg m'))
    (h : ∀ m, ∀ f ∈ S m, ∃ k, f.ty = .scalar k) : Fits S roots := by
  refine ⟨?_, ?_, ?_⟩
  · intro p hp; obtain ⟨m, m', rfl⟩ := hr p hp; trivial
  · intro m m' g f _ hc
    obtain ⟨k, hk⟩ := h m g (mem_fieldOf hc.2)
    obtain ⟨k', hk'⟩ := h m' f hc.1
    rw [hk, hk']; trivial
  · intro m f hf _; obtain ⟨k, hk⟩ := h m f hf; rw [hk]; trivial

/-- Message 0 of a dependency and message 1 of the federation have a oneof with two messages each; the first one leads back. -/
def exS : Schema
  | 0 => [⟨"a", .msg 2, some ⟨"c", false⟩⟩, ⟨"b", .msg 4, some ⟨"c", false⟩⟩]
  | 1 => [⟨"a", .msg 3, some ⟨"c", false⟩⟩, ⟨"b", .msg 5, some ⟨"c", false⟩⟩]
  | 2 => [⟨"back", .msg 0, none⟩]
  | 3 => [⟨"back", .msg 1, none⟩]
  | _ => []

def exU : List (CT × CT) :=
  [(⟨.msg 0, none⟩, ⟨.msg 1, none⟩), (⟨.msg 2, some (0, "a")⟩, ⟨.msg 3, some (1, "a")⟩), (⟨.msg 2, none⟩, ⟨.msg 3, none⟩),
   (⟨.msg 4, some (0, "b")⟩, ⟨.msg 5, some (1, "b")⟩), (⟨.msg 4, none⟩, ⟨.msg 5, none⟩)]

theorem exS_messages : ∀ m, ∀ f ∈ exS m, ∃ k, f.ty = .msg k := by
  intro m f hf
  unfold exS at hf
  split at hf <;> simp only [List.mem_cons, List.not_mem_nil, or_false] at hf
  · rcases hf with rfl | rfl <;> exact ⟨_, rfl⟩
  · rcases hf with rfl | rfl <;> exact ⟨_, rfl⟩
  · subst hf; exact ⟨_, rfl⟩
  · subst hf; exact ⟨_, rfl⟩

/-- The hypotheses of the theorem hold for the example, and its functions compile. -/
example : (∀ p ∈ exU, ∀ c ∈ children exS p, c ∈ exU) ∧ (∀ p ∈ plainRoots [(.msg 0, .msg 1)], p ∈ exU) ∧ Fits exS [(.msg 0, .msg 1)] ∧
    (decls exS id 6 (plainRoots [(.msg 0, .msg 1)])).length = 5 ∧
    ∀ p ∈ decls exS id 6 (plainRoots [(.msg 0, .msg 1)]), function exS (decls exS id 6 (plainRoots [(.msg 0, .msg 1)])) p = .ok :=
  ⟨by decide +kernel, by decide +kernel, fits_of_messages _ _ (by simp) exS_messages, by decide +kernel, by decide +kernel⟩

/-- C120: the function that converts a member of a oneof, taken alone, compiles exactly when the member is a message or bytes, it is
converted to a member, and the conversion of its value exists or is not needed between the same types. Its parameter is compared with nil. -/
theorem C120_member_function_iff (S : Schema) (ds : List (CT × CT)) (a b : Ty) (x : Nat × String) (y : Option (Nat × String)) (ha : NotMany a) :
    function S ds (⟨a, some x⟩, ⟨b, y⟩) = .ok ↔
      y.isSome = true ∧ ((∃ m, a = .msg m) ∨ a = .scalar bytesKind) ∧ converted ds ⟨a, none⟩ ⟨b, none⟩ = some (goTy b) := by
  have of_ok : ∀ {c : Bool}, Out.of c = .ok ↔ c = true := by intro c; cases c <;> simp [Out.of]
  rw [← nilable_single ha]
  cases a <;> cases y <;> first | exact ha.elim | simp [function, Out.of] | (simp only [function]; rw [if_pos rfl, if_pos rfl, of_ok]; simp)

/-- A message and a string in oneofs: the first function compiles, the second does not. -/
example : function (fun _ => []) [(⟨.msg 0, none⟩, ⟨.msg 1, none⟩)] (⟨.msg 0, some (2, "x")⟩, ⟨.msg 1, some (3, "x")⟩) = .ok ∧
    function (fun _ => []) [(⟨.scalar 9, none⟩, ⟨.scalar 9, none⟩)] (⟨.scalar 9, some (2, "x")⟩, ⟨.scalar 9, some (3, "x")⟩) ≠ .ok := by
  decide +kernel

/-! ## What is not so -/

/-- A string in a oneof of both messages. -/
def stringS : Schema
  | 0 => [⟨"x", .scalar 9, some ⟨"c", false⟩⟩]
  | 1 => [⟨"x", .scalar 9, some ⟨"c", false⟩⟩]
  | _ => []

/-- An `optional` number of both messages. -/
def optionalS : Schema
  | 0 => [⟨"x", .scalar 5, some ⟨"_x", true⟩⟩]
  | 1 => [⟨"x", .scalar 5, some ⟨"_x", true⟩⟩]
  | _ => []

/-- The same message in a oneof of both messages. -/
def sharedS : Schema
  | 0 => [⟨"x", .msg 2, some ⟨"c", false⟩⟩]
  | 1 => [⟨"x", .msg 2, some ⟨"c", false⟩⟩]
  | _ => []

/-- A message in a oneof of the first message, and outside of oneofs in the second. -/
def leaveS : Schema
  | 0 => [⟨"x", .msg 2, some ⟨"c", false⟩⟩]
  | 1 => [⟨"x", .msg 3, none⟩]
  | _ => []

/-- The only function of the conversion of the two messages does not compile. -/
def Breaks (S : Schema) : Prop :=
  Fits S [(.msg 0, .msg 1)] ∧ ∃ p ∈ decls S id 9 (plainRoots [(.msg 0, .msg 1)]),
    p = (⟨.msg 0, none⟩, ⟨.msg 1, none⟩) ∧ function S (decls S id 9 (plainRoots [(.msg 0, .msg 1)])) p = .broken

/-- C120 is false for strings in oneofs: the function does not compile. -/
theorem C120_string_false : Breaks stringS := by
  refine ⟨fits_of_scalars _ _ (by simp) ?_, (⟨.msg 0, none⟩, ⟨.msg 1, none⟩), by decide +kernel, rfl, by decide +kernel⟩
  intro m f hf
  unfold stringS at hf
  split at hf <;> simp only [List.mem_cons, List.not_mem_nil, or_false] at hf <;> subst hf <;> exact ⟨_, rfl⟩

/-- C120 is false for `optional` fields. -/
theorem C120_optional_false : Breaks optionalS := by
  refine ⟨fits_of_scalars _ _ (by simp) ?_, (⟨.msg 0, none⟩, ⟨.msg 1, none⟩), by decide +kernel, rfl, by decide +kernel⟩
  intro m f hf
  unfold optionalS at hf
  split at hf <;> simp only [List.mem_cons, List.not_mem_nil, or_false] at hf <;> subst hf <;> exact ⟨_, rfl⟩

/-- C120 is false for a message that both oneofs share. -/
theorem C120_shared_false : Breaks sharedS := by
  refine ⟨fits_of_messages _ _ (by simp) ?_, (⟨.msg 0, none⟩, ⟨.msg 1, none⟩), by decide +kernel, rfl, by decide +kernel⟩
  intro m f hf
  unfold sharedS at hf
  split at hf <;> simp only [List.mem_cons, List.not_mem_nil, or_false] at hf <;> subst hf <;> exact ⟨_, rfl⟩

/-- C120 is false for members of oneofs that become fields outside of oneofs: the generator crashes. -/
theorem C120_leaves_oneof_false : Fits leaveS [(.msg 0, .msg 1)] ∧ ∃ p ∈ decls leaveS id 9 (plainRoots [(.msg 0, .msg 1)]),
    function leaveS (decls leaveS id 9 (plainRoots [(.msg 0, .msg 1)])) p = .panic := by
  refine ⟨fits_of_messages _ _ (by simp) ?_, (⟨.msg 2, some (0, "x")⟩, ⟨.msg 3, none⟩), by decide +kernel, by decide +kernel⟩
  intro m f hf
  unfold leaveS at hf
  split at hf <;> simp only [List.mem_cons, List.not_mem_nil, or_false] at hf <;> subst hf <;> exact ⟨_, rfl⟩

/-- C120, full statement: false. -/
theorem C120_compiles_false : ¬ ∀ (S : Schema) (roots : List (Ty × Ty)), Fits S roots → ∀ p ∈ decls S id 9 (plainRoots roots),
    function S (decls S id 9 (plainRoots roots)) p = .ok := by
  intro h
  obtain ⟨hf, p, hp, -, hb⟩ := C120_optional_false
  rw [h optionalS _ hf p hp] at hb
  cases hb

end Verif.CastOneof
