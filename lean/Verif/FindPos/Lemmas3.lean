import Verif.FindPos.Lemmas2
import Verif.FindPos.Spec2

/-! # Lemmas: what is written at a position is found -/

namespace Verif.FindPos

open SrcLoc

theorem in_contains (span : Id → Span) (i : Id) (pos : Pos) : In span i pos ↔ contains (span i) pos = true :=
  (contains_iff _ _).symm

/-- Nothing in a value contains the position. -/
def Clear (at_ : Id → Bool) (v : Val) : Prop := ∀ w, Part v w → at_ w.id = false

theorem Clear.part {at_ : Id → Bool} {v w : Val} (h : Clear at_ v) (hp : Part v w) : Clear at_ w := fun u hu => h u (hp.trans hu)

theorem Clear.id {at_ : Id → Bool} {v : Val} (h : Clear at_ v) : at_ v.id = false := h v (.refl v)

theorem ValAt.clear {at_ : Id → Bool} {v : Val} (h : ValAt at_ v) (hv : at_ v.id = false) : Clear at_ v := by
  intro w hw
  cases hx : at_ w.id with
  | false => rfl
  | true => rw [h v w (.refl v) hw hx] at hv; cases hv

/-- What is used of the places of values. -/
structure Placed (at_ : Id → Bool) (v : Val) : Prop where
  laid : ValAt at_ v
  fields : ∀ i fs, Part v (.msg i fs) → fs.Pairwise fun a b => ¬ (at_ a.2.id = true ∧ at_ b.2.id = true)
  elems : ∀ i vs, Part v (.arr i vs) → vs.Pairwise fun a b => ¬ (at_ a.id = true ∧ at_ b.id = true)

theorem Placed.part {at_ : Id → Bool} {v u : Val} (h : Placed at_ v) (hp : Part v u) : Placed at_ u :=
  ⟨h.laid.part hp, fun i fs hq => h.fields i fs (hp.trans hq), fun i vs hq => h.elems i vs (hp.trans hq)⟩

theorem placed_of {span : Id → Span} {v : Val} (h1 : ValLaid span v) (h2 : ValApart span v) (pos : Pos) :
    Placed (fun i => contains (span i) pos) v :=
  ⟨h1.at_ pos,
   fun i fs hp => (h2.1 i fs hp).imp fun h hc => h pos ⟨(in_contains _ _ _).2 hc.1, (in_contains _ _ _).2 hc.2⟩,
   fun i vs hp => (h2.2 i vs hp).imp fun h hc => h pos ⟨(in_contains _ _ _).2 hc.1, (in_contains _ _ _).2 hc.2⟩⟩

/-! ## Lists -/

theorem findSome_mid {α β : Type} {g : α → Option β} {pre : List α} {y : α} {r : β} (post : List α) (hpre : ∀ x ∈ pre, g x = none)
    (hy : g y = some r) : (pre ++ y :: post).findSome? g = some r := by
  rw [List.findSome?_append, List.findSome?_eq_none_iff.2 hpre, List.findSome?_cons, hy]
  rfl

theorem pairwise_mid {α : Type} {at_ : α → Bool} {l : List α} (h : l.Pairwise fun a b => ¬ (at_ a = true ∧ at_ b = true)) {y : α}
    (hy : y ∈ l) (hat : at_ y = true) : ∃ pre post, l = pre ++ y :: post ∧ ∀ x ∈ pre, at_ x = false := by
  obtain ⟨pre, post, rfl⟩ := List.append_of_mem hy
  refine ⟨pre, post, rfl, fun x hx => ?_⟩
  have := (List.pairwise_append.1 h).2.2 x hx y (by simp)
  cases hc : at_ x with
  | false => rfl
  | true => exact absurd ⟨hc, hat⟩ this

/-- A search in the fields of a literal finds what is in the field that contains the position. -/
theorem fields_mid {β : Type} {at_ : Id → Bool} {m : Lit} (hp : Placed at_ m.val) {e : String × Val} (he : e ∈ m.fields)
    (hat : at_ e.2.id = true) {g : String × Val → Option β} {r : β}
    (hc : ∀ x ∈ m.fields, Clear at_ x.2 → g x = none) (hg : g e = some r) : m.fields.findSome? g = some r := by
  obtain ⟨pre, post, heq, hpre⟩ := pairwise_mid (at_ := fun x : String × Val => at_ x.2.id) (hp.fields m.id m.fields (.refl _)) he hat
  rw [heq]
  refine findSome_mid post (fun x hx => ?_) hg
  have hx' : x ∈ m.fields := by rw [heq]; simp [hx]
  exact hc x hx' ((hp.laid.part (Part.ofField hx')).clear (hpre x hx))

theorem messages_pairwise {at_ : Id → Bool} {v : Val} (hp : Placed at_ v) :
    (messages v).Pairwise fun a b => ¬ (at_ a.id = true ∧ at_ b.id = true) := by
  cases v with
  | msg i fs => rw [messages]; exact List.pairwise_singleton _ _
  | arr i vs =>
    rw [messages, List.pairwise_filterMap]
    refine (hp.elems i vs (.refl _)).imp fun {a b} h x hx y hy => ?_
    have key : ∀ (u : Val) (z : Lit), u.lit? = some z → u.id = z.id := by
      intro u z hz
      cases u <;> simp [Val.lit?] at hz
      subst hz; rfl
    rw [← key a x hx, ← key b y hy]
    exact h
  | _ => exact .nil

/-- A search in the literals of a value finds what is in the one that contains the position. -/
theorem messages_mid {β : Type} {at_ : Id → Bool} {v : Val} (hp : Placed at_ v) {d : Nat} {m : Lit} (hm : (messages v)[d]? = some m)
    (hat : at_ m.id = true) {g : Lit × Nat → Option β} {r : β}
    (hc : ∀ x i, x ∈ messages v → Clear at_ x.val → g (x, i) = none) (hg : g (m, d) = some r) :
    (messages v).zipIdx.findSome? g = some r := by
  have hpw := messages_pairwise hp
  have hclr : ∀ x ∈ messages v, at_ x.id = false → Clear at_ x.val := fun x hx h =>
    (hp.laid.part (Part.ofMessages hx)).clear h
  revert hm hpw hc hclr
  generalize messages v = l
  intro hm hc hpw hclr
  have hmem : (m, d) ∈ l.zipIdx := List.mk_mem_zipIdx_iff_getElem?.2 hm
  have hpw' : l.zipIdx.Pairwise fun a b => ¬ (at_ a.1.id = true ∧ at_ b.1.id = true) := by
    have : (l.zipIdx.map Prod.fst).Pairwise fun a b => ¬ (at_ a.id = true ∧ at_ b.id = true) := by
      rw [List.zipIdx_map_fst]; exact hpw
    exact List.pairwise_map.1 this
  obtain ⟨pre, post, heq, hpre⟩ := pairwise_mid (at_ := fun x : Lit × Nat => at_ x.1.id) hpw' hmem hat
  rw [heq]
  refine findSome_mid post (fun x hx => ?_) hg
  have hx' : x ∈ l.zipIdx := by rw [heq]; simp [hx]
  have hx2 : x.1 ∈ l := mem_of_zip hx'
  exact hc x.1 x.2 hx2 (hclr x.1 hx2 (hpre x hx))

/-! ## Nothing is found where nothing is -/

theorem str_clear {α : Type} {at_ : Id → Bool} {v : Val} (x : α) (hs : IsStr v) (hc : Clear at_ v) : str at_ v x = none := by
  obtain ⟨i, s, rfl⟩ := hs
  have := hc.id
  simp only [Val.id] at this
  simp [str, this]

theorem argStep_clear {at_ : Id → Bool} {m : Lit} (hk : Strs ["name", "by", "inline"] m) (i : Nat) {e : String × Val}
    (he : e ∈ m.fields) (hc : Clear at_ e.2) : argStep at_ i e = none := by
  unfold argStep
  repeat' split
  any_goals rfl
  all_goals rename_i h
  all_goals exact str_clear _ (hk e he (by rw [h]; simp)) hc

theorem requestStep_clear {at_ : Id → Bool} {m : Lit} (hk : Strs ["field", "by", "if"] m) (i : Nat) {e : String × Val}
    (he : e ∈ m.fields) (hc : Clear at_ e.2) : requestStep at_ i e = none := by
  unfold requestStep
  repeat' split
  any_goals rfl
  all_goals rename_i h
  all_goals exact str_clear _ (hk e he (by rw [h]; simp)) hc

theorem fields_clear {β : Type} {at_ : Id → Bool} {m : Lit} (hc : Clear at_ m.val) {g : String × Val → Option β}
    (h : ∀ x ∈ m.fields, Clear at_ x.2 → g x = none) : m.fields.findSome? g = none :=
  List.findSome?_eq_none_iff.2 fun x hx => h x hx (hc.part (Part.ofField hx))

theorem args_clear {at_ : Id → Bool} {v : Val} (hk : ∀ x ∈ messages v, Strs ["name", "by", "inline"] x) (hc : Clear at_ v) :
    findArgs at_ (messages v) = none := by
  unfold findArgs
  rw [List.findSome?_eq_none_iff.2]
  · rfl
  · intro x hx
    have hm := mem_of_zip hx
    exact fields_clear (hc.part (Part.ofMessages hm)) fun e he hce => argStep_clear (hk _ hm) _ he hce

theorem requestLit_clear {at_ : Id → Bool} {m : Lit} (hk : Strs ["field", "by", "if"] m) (i : Nat) (hc : Clear at_ m.val) :
    requestLit at_ (m, i) = none := by
  unfold requestLit
  rw [fields_clear hc fun e he hce => requestStep_clear hk _ he hce]
  have : at_ m.id = false := hc.id
  simp [this]

theorem request_clear {at_ : Id → Bool} {v : Val} (hk : ∀ x ∈ messages v, Strs ["field", "by", "if"] x) (hc : Clear at_ v) :
    findRequest at_ (messages v) = none := by
  unfold findRequest
  rw [List.findSome?_eq_none_iff.2]
  · rfl
  · intro x hx
    have hm := mem_of_zip hx
    exact requestLit_clear (hk _ hm) x.2 (hc.part (Part.ofMessages hm))

theorem messageStep_clear {at_ : Id → Bool} {m : Lit} (hk : MsgKind m) (d : Nat) {e : String × Val} (he : e ∈ m.fields)
    (hc : Clear at_ e.2) : messageStep at_ d e = none := by
  unfold messageStep
  split
  · rename_i h
    exact str_clear _ (hk.name e he (by rw [h]; simp)) hc
  · split
    · rename_i h
      rw [args_clear (hk.args e he h) hc]
      rfl
    · rfl

theorem callStep_clear {at_ : Id → Bool} {m : Lit} (hk : CallKind m) (d : Nat) {e : String × Val} (he : e ∈ m.fields)
    (hc : Clear at_ e.2) : callStep at_ d e = none := by
  unfold callStep
  split
  · rename_i h
    exact str_clear _ (hk.method e he (by rw [h]; simp)) hc
  · split
    · rename_i h
      rw [request_clear (hk.request e he h) hc]
      rfl
    · rfl

theorem message_clear {at_ : Id → Bool} {m : Lit} (hk : MsgKind m) (d : Nat) (hc : Clear at_ m.val) : findMessageExpr at_ d m = none := by
  unfold findMessageExpr
  rw [fields_clear hc fun e he hce => messageStep_clear hk d he hce]
  have : at_ m.id = false := hc.id
  simp [this]

theorem call_clear {at_ : Id → Bool} {m : Lit} (hk : CallKind m) (d : Nat) (hc : Clear at_ m.val) : findCall at_ d m = none := by
  unfold findCall
  rw [fields_clear hc fun e he hce => callStep_clear hk d he hce]
  have : at_ m.id = false := hc.id
  simp [this]

theorem lit_val {v : Val} {m : Lit} (h : v.lit? = some m) : v = m.val := by
  cases v <;> simp [Val.lit?] at h
  subst h; rfl

theorem defStep_clear {at_ : Id → Bool} {m : Lit} (hk : DefKind m) (d : Nat) {e : String × Val} (he : e ∈ m.fields)
    (hc : Clear at_ e.2) : defStep at_ d e = none := by
  unfold defStep
  split
  · rename_i h; exact str_clear _ (hk.strs e he (by rw [h]; simp)) hc
  · split
    · rename_i h; exact str_clear _ (hk.strs e he (by rw [h]; simp)) hc
    · split
      · rename_i h; exact str_clear _ (hk.strs e he (by rw [h]; simp)) hc
      · split
        · rename_i h
          obtain ⟨x, hx, hkx⟩ := hk.call e he h
          unfold lit
          rw [hx]
          simp only
          rw [call_clear hkx d (by rw [← lit_val hx]; exact hc)]
          rfl
        · split
          · rename_i h
            obtain ⟨x, hx, hkx⟩ := hk.message e he h
            unfold lit
            rw [hx]
            simp only
            rw [message_clear hkx d (by rw [← lit_val hx]; exact hc)]
            rfl
          · rfl

theorem def_clear {at_ : Id → Bool} {v : Val} (hk : ∀ m ∈ messages v, DefKind m) (hc : Clear at_ v) :
    findDef at_ (messages v) = none := by
  unfold findDef
  have hn : (messages v).zipIdx.findSome? (fun x => x.1.fields.findSome? (defStep at_ x.2)) = none := by
    rw [List.findSome?_eq_none_iff]
    intro x hx
    have hm := mem_of_zip hx
    exact fields_clear (hc.part (Part.ofMessages hm)) fun e he hce => defStep_clear (hk _ hm) _ he hce
  rw [hn]
  simp only
  cases hm : messages v with
  | nil => rfl
  | cons m ms =>
    have : at_ m.id = false := (hc.part (Part.ofMessages (m := m) (by rw [hm]; simp))).id
    simp [this]

theorem optionStep_clear {at_ : Id → Bool} {e : String × Val} (hk : e.1 = "def" → ∀ m ∈ messages e.2, DefKind m)
    (hc : Clear at_ e.2) : optionStep at_ e = none := by
  unfold optionStep
  split
  · have := hc.id
    simp [this]
  · split
    · rename_i h
      exact def_clear (hk h) hc
    · rfl

theorem option_clear {at_ : Id → Bool} {o : Opt} (hk : OptionKind o.val) (hc : Clear at_ o.val) : findMessageOption at_ o = none := by
  unfold findMessageOption
  split
  · rename_i i fs hv
    have hn : fs.findSome? (optionStep at_) = none := by
      rw [List.findSome?_eq_none_iff]
      intro e he
      exact optionStep_clear (hk i fs hv e he) (hc.part (by rw [hv]; exact .field he (.refl _)))
    have hi : at_ i = false := by have := hc.id; rw [hv] at this; exact this
    rw [hn, hi]
    rfl
  · rename_i i s hv
    have hi : at_ i = false := by have := hc.id; rw [hv] at this; exact this
    simp [hi]
  · simp [hc.id]

/-! ## Something is found where it is -/

theorem str_at {α : Type} {at_ : Id → Bool} {i : Id} (s : Text) (x : α) (h : at_ i = true) : str at_ (.str i s) x = some (some x) := by
  simp [str, h]

theorem part_at {at_ : Id → Bool} {v w : Val} (h : Placed at_ v) (hp : Part v w) (hw : at_ w.id = true) : at_ v.id = true :=
  h.laid v w (.refl v) hp hw

theorem args_at {at_ : Id → Bool} {v : Val} (hp : Placed at_ v) (hk : ∀ x ∈ messages v, Strs ["name", "by", "inline"] x)
    {a : Nat} {x : Lit} (hx : (messages v)[a]? = some x) {key : String} {i : Id} {s : Text} (he : (key, .str i s) ∈ x.fields)
    {p : ArgPart} (hkey : ArgKey key p) (hat : at_ i = true) : findArgs at_ (messages v) = some (a, p) := by
  have hmem := List.mem_of_getElem? hx
  have hpx := hp.part (Part.ofMessages hmem)
  unfold findArgs
  rw [messages_mid (r := some (a, p)) hp hx (part_at hpx (Part.ofField he) hat)
    (fun y j hy hc => fields_clear hc fun e he hce => argStep_clear (hk y hy) j he hce)
    (fields_mid hpx he hat (fun e he hce => argStep_clear (hk x hmem) a he hce)
      (by cases hkey <;> simp [argStep, str_at _ _ hat]))]
  rfl

theorem request_at {at_ : Id → Bool} {v : Val} (hp : Placed at_ v) (hk : ∀ x ∈ messages v, Strs ["field", "by", "if"] x)
    {a : Nat} {x : Lit} (hx : (messages v)[a]? = some x) {key : String} {i : Id} {s : Text} (he : (key, .str i s) ∈ x.fields)
    {p : RequestPart} (hkey : RequestKey key p) (hat : at_ i = true) : findRequest at_ (messages v) = some (a, p) := by
  have hmem := List.mem_of_getElem? hx
  have hpx := hp.part (Part.ofMessages hmem)
  unfold findRequest
  rw [messages_mid (r := some (a, p)) hp hx (part_at hpx (Part.ofField he) hat)
    (fun y j hy hc => requestLit_clear (hk y hy) j hc)
    (by
      unfold requestLit
      rw [fields_mid (r := some (a, p)) hpx he hat (fun e he hce => requestStep_clear (hk x hmem) a he hce)
        (by cases hkey <;> simp [requestStep, str_at _ _ hat])])]
  rfl

theorem defText_at {at_ : Id → Bool} {m : Lit} (hp : Placed at_ m.val) (hk : DefKind m) (d : Nat) {p : DefPart} {i : Id}
    (ht : DefText m p i) (hat : at_ i = true) :
    m.fields.findSome? (defStep at_ d) = some (some (.def d p)) ∧ at_ m.id = true := by
  have clr : ∀ e ∈ m.fields, Clear at_ e.2 → defStep at_ d e = none := fun e he hc => defStep_clear hk d he hc
  cases ht with
  | name h => exact ⟨fields_mid hp h hat clr (by simp [defStep, str_at _ _ hat]), part_at hp (Part.ofField h) hat⟩
  | «if» h => exact ⟨fields_mid hp h hat clr (by simp [defStep, str_at _ _ hat]), part_at hp (Part.ofField h) hat⟩
  | «by» h => exact ⟨fields_mid hp h hat clr (by simp [defStep, str_at _ _ hat]), part_at hp (Part.ofField h) hat⟩
  | @message j i fs s h h2 =>
    obtain ⟨x, hx, hkx⟩ := hk.message _ h rfl
    simp only [Val.lit?, Option.some.injEq] at hx
    subst hx
    have hpx : Placed at_ (Lit.mk j fs).val := hp.part (Part.ofField h)
    have hj := part_at hpx (Part.ofField (m := ⟨j, fs⟩) h2) hat
    refine ⟨fields_mid hp h hj clr ?_, part_at hp (Part.ofField h) hj⟩
    have := fields_mid (g := messageStep at_ d) (r := some (.def d (.message .name))) hpx h2 hat
      (fun e he hc => messageStep_clear hkx d he hc) (by simp [messageStep, str_at _ _ hat])
    simp only at this
    simp [defStep, lit, Val.lit?, findMessageExpr, this, found]
  | @args j i fs v a x key p s h h2 h3 h4 h5 =>
    obtain ⟨y, hy, hky⟩ := hk.message _ h rfl
    simp only [Val.lit?, Option.some.injEq] at hy
    subst hy
    have hpy : Placed at_ (Lit.mk j fs).val := hp.part (Part.ofField h)
    have hpv : Placed at_ v := hpy.part (Part.ofField (m := ⟨j, fs⟩) h2)
    have hv := part_at hpv (.trans (Part.ofMessages (List.mem_of_getElem? h3)) (Part.ofField h4)) hat
    have hj := part_at hpy (Part.ofField (m := ⟨j, fs⟩) h2) hv
    refine ⟨fields_mid hp h hj clr ?_, part_at hp (Part.ofField h) hj⟩
    have := fields_mid (g := messageStep at_ d) (r := some (.def d (.message (.args a p)))) hpy h2 hv
      (fun e he hc => messageStep_clear hky d he hc)
      (by simp [messageStep, args_at hpv (hky.args _ h2 rfl) h3 h4 h5 hat, found])
    simp only at this
    simp [defStep, lit, Val.lit?, findMessageExpr, this, found]
  | @method j i fs s h h2 =>
    obtain ⟨x, hx, hkx⟩ := hk.call _ h rfl
    simp only [Val.lit?, Option.some.injEq] at hx
    subst hx
    have hpx : Placed at_ (Lit.mk j fs).val := hp.part (Part.ofField h)
    have hj := part_at hpx (Part.ofField (m := ⟨j, fs⟩) h2) hat
    refine ⟨fields_mid hp h hj clr ?_, part_at hp (Part.ofField h) hj⟩
    have := fields_mid (g := callStep at_ d) (r := some (.def d (.call .method))) hpx h2 hat
      (fun e he hc => callStep_clear hkx d he hc) (by simp [callStep, str_at _ _ hat])
    simp only at this
    simp [defStep, lit, Val.lit?, findCall, this, found]
  | @request j i fs v a x key p s h h2 h3 h4 h5 =>
    obtain ⟨y, hy, hky⟩ := hk.call _ h rfl
    simp only [Val.lit?, Option.some.injEq] at hy
    subst hy
    have hpy : Placed at_ (Lit.mk j fs).val := hp.part (Part.ofField h)
    have hpv : Placed at_ v := hpy.part (Part.ofField (m := ⟨j, fs⟩) h2)
    have hv := part_at hpv (.trans (Part.ofMessages (List.mem_of_getElem? h3)) (Part.ofField h4)) hat
    have hj := part_at hpy (Part.ofField (m := ⟨j, fs⟩) h2) hv
    refine ⟨fields_mid hp h hj clr ?_, part_at hp (Part.ofField h) hj⟩
    have := fields_mid (g := callStep at_ d) (r := some (.def d (.call (.request a p)))) hpy h2 hv
      (fun e he hc => callStep_clear hky d he hc)
      (by simp [callStep, request_at hpv (hky.request _ h2 rfl) h3 h4 h5 hat, found])
    simp only at this
    simp [defStep, lit, Val.lit?, findCall, this, found]

theorem optionText_at {at_ : Id → Bool} {o : Opt} (hp : Placed at_ o.val) (hk : OptionKind o.val) {p : MsgOptPart} {i : Id}
    (ht : OptionText o p i) (hat : at_ i = true) : findMessageOption at_ o = some (some p) ∧ at_ o.val.id = true := by
  cases ht with
  | @alias j fs v hv h =>
    rw [hv] at hp ⊢
    unfold findMessageOption
    rw [hv]
    have := fields_mid (m := ⟨j, fs⟩) (g := optionStep at_) (r := .alias) hp h hat
      (fun e he hc => optionStep_clear (hk j fs hv e he) hc) (by simp [optionStep, hat])
    simp only at this ⊢
    rw [this]
    exact ⟨rfl, part_at hp (.field h (.refl _)) hat⟩
  | @short i s hv h =>
    unfold findMessageOption
    rw [hv]
    simp [h, hat, Val.id]
  | @«def» j i fs v d m p hv h h2 h3 =>
    rw [hv] at hp ⊢
    unfold findMessageOption
    rw [hv]
    have hpv : Placed at_ v := hp.part (.field h (.refl _))
    have hm := List.mem_of_getElem? h2
    have hkm := hk j fs hv _ h rfl
    obtain ⟨h4, h5⟩ := defText_at (hpv.part (Part.ofMessages hm)) (hkm m hm) d h3 hat
    have hvat := part_at hpv (Part.ofMessages hm) h5
    have hdef : findDef at_ (messages v) = some (.def d p) := by
      unfold findDef
      rw [messages_mid (r := some (.def d p)) hpv h2 h5 (fun x j hx hc => fields_clear hc fun e he hce => defStep_clear (hkm x hx) j he hce) h4]
    have := fields_mid (m := ⟨j, fs⟩) (g := optionStep at_) (r := .def d p) hp h hvat
      (fun e he hc => optionStep_clear (hk j fs hv e he) hc) (by simp [optionStep, hdef])
    simp only at this ⊢
    rw [this]
    exact ⟨rfl, part_at hp (.field h (.refl _)) hvat⟩

end Verif.FindPos
