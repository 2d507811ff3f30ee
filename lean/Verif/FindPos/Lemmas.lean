import Verif.FindPos.Spec

/-! # Lemmas: what is found contains the position -/

namespace Verif.FindPos

open SrcLoc

theorem contains_iff (s : Span) (pos : Pos) : contains s pos = true ↔ Pos.le s.start pos ∧ Pos.le pos s.end := by
  unfold contains Pos.le
  repeat' split
  all_goals simp
  all_goals omega

theorem Inside.contains {span : Id → Span} {a b : Id} (h : Inside span a b) {pos : Pos} (hc : contains (span a) pos = true) :
    contains (span b) pos = true := by
  rw [contains_iff] at hc ⊢
  unfold Inside at h
  unfold Pos.le at *
  omega

/-- What is used of the layout of a value: a part that contains the position lies in what contains it. -/
def ValAt (at_ : Id → Bool) (v : Val) : Prop := ∀ u w, Part v u → Part u w → at_ w.id = true → at_ u.id = true

theorem ValLaid.at_ {span : Id → Span} {v : Val} (h : ValLaid span v) (pos : Pos) :
    ValAt (fun i => contains (span i) pos) v := fun u w h1 h2 hc => (h u w h1 h2).contains hc

theorem Part.trans {u v w : Val} (h1 : Part u v) (h2 : Part v w) : Part u w := by
  induction h1 with
  | refl => exact h2
  | field he _ ih => exact .field he (ih h2)
  | elem he _ ih => exact .elem he (ih h2)

theorem ValAt.part {at_ : Id → Bool} {v u : Val} (h : ValAt at_ v) (hp : Part v u) : ValAt at_ u :=
  fun a b ha hb => h a b (hp.trans ha) hb

theorem Once.part {v u : Val} (h : Once v) (hp : Part v u) : Once u := fun i fs hq => h i fs (hp.trans hq)

theorem Once.fields {m : Lit} (h : Once m.val) : (m.fields.map Prod.fst).Nodup := h m.id m.fields (.refl _)

theorem Part.ofField {m : Lit} {e : String × Val} (he : e ∈ m.fields) : Part m.val e.2 := .field he (.refl _)

theorem Part.ofMessages {v : Val} {m : Lit} (h : m ∈ messages v) : Part v m.val := by
  cases v with
  | msg i fs => rw [messages, List.mem_singleton] at h; subst h; exact .refl _
  | arr i vs =>
    rw [messages, List.mem_filterMap] at h
    obtain ⟨u, hu, hm⟩ := h
    refine .elem hu ?_
    cases u <;> simp [Val.lit?] at hm
    subst hm
    exact .refl _
  | _ => simp [messages] at h

theorem Part.ofLit {v : Val} {m : Lit} (h : v.lit? = some m) : Part v m.val := by
  cases v <;> simp [Val.lit?] at h
  subst h
  exact .refl _

/-! ## Fields that are written once -/

theorem find_once {fs : List (String × Val)} (h : (fs.map Prod.fst).Nodup) {e : String × Val} (he : e ∈ fs) {n : String}
    (hn : e.1 = n) : (fs.find? fun x => x.1 = n) = some e := by
  subst hn
  induction fs with
  | nil => cases he
  | cons a fs ih =>
    rw [List.map_cons, List.nodup_cons] at h
    rw [List.find?_cons]
    rcases List.mem_cons.1 he with rfl | he
    · simp
    · have : a.1 ≠ e.1 := fun heq => h.1 (heq ▸ List.mem_map.2 ⟨e, he, rfl⟩)
      simp only [this, decide_false]
      exact ih h.2 he

theorem onField_once {m : Lit} (h : (m.fields.map Prod.fst).Nodup) {e : String × Val} (he : e ∈ m.fields) {n : String}
    (hn : e.1 = n) (k : Val → Option Id) : onField m n k = k e.2 := by
  unfold onField
  rw [find_once h he hn]

theorem collect_once {m : Lit} (h : (m.fields.map Prod.fst).Nodup) {e : String × Val} (he : e ∈ m.fields) {n : String}
    (hn : e.1 = n) : collect m n = messages e.2 := by
  subst hn
  unfold collect
  revert h he
  generalize m.fields = fs
  intro h he
  induction fs with
  | nil => cases he
  | cons a fs ih =>
    rw [List.map_cons, List.nodup_cons] at h
    rw [List.flatMap_cons]
    rcases List.mem_cons.1 he with rfl | he
    · have : (fs.flatMap fun x => if x.1 = e.1 then messages x.2 else []) = [] := by
        rw [List.flatMap_eq_nil_iff]
        intro x hx
        rw [if_neg fun heq => h.1 (List.mem_map.2 ⟨x, hx, heq⟩)]
      rw [this]
      simp
    · have : a.1 ≠ e.1 := fun heq => h.1 (heq ▸ List.mem_map.2 ⟨e, he, rfl⟩)
      rw [if_neg this, List.nil_append]
      exact ih h.2 he

theorem onItems_once {m : Lit} (h : (m.fields.map Prod.fst).Nodup) {e : String × Val} (he : e ∈ m.fields) {n : String}
    (hn : e.1 = n) (k : List Lit → Option Id) {x : Lit} {i : Nat} (hx : (x, i) ∈ (messages e.2).zipIdx) :
    onItems m n k = k (messages e.2) := by
  unfold onItems
  rw [collect_once h he hn]
  cases hm : messages e.2 with
  | nil => rw [hm] at hx; simp at hx
  | cons y ys => rfl

theorem zipIdx_get {l : List Lit} {x : Lit × Nat} (h : x ∈ l.zipIdx) : l[x.2]? = some x.1 := by
  obtain ⟨m, i⟩ := x
  exact List.mk_mem_zipIdx_iff_getElem?.1 h

theorem onIdx_zip {l : List Lit} {x : Lit × Nat} (h : x ∈ l.zipIdx) (k : Lit → Option Id) : onIdx l x.2 k = k x.1 := by
  unfold onIdx
  rw [zipIdx_get h]

theorem mem_of_zip {l : List Lit} {x : Lit × Nat} (h : x ∈ l.zipIdx) : x.1 ∈ l := List.mem_of_getElem? (zipIdx_get h)

/-! ## Steps -/

theorem str_found {α : Type} {at_ : Id → Bool} {v : Val} {x y : α} (h : str at_ v x = some (some y)) :
    y = x ∧ strId v = some v.id ∧ at_ v.id = true := by
  cases v with
  | str i s =>
    rw [str] at h
    cases hi : at_ i with
    | false => rw [hi] at h; simp at h
    | true => rw [hi] at h; simp at h; exact ⟨h.symm, rfl, hi⟩
  | _ => simp [str] at h

theorem found_some {α : Type} {o : Option α} {y : α} (h : found o = some (some y)) : o = some y := by
  cases o with
  | none => simp [found] at h
  | some x => simp [found] at h; rw [h]

theorem lit_found {α : Type} {v : Val} {k : Lit → Option α} {y : α} (h : lit v k = some (some y)) :
    ∃ m, v.lit? = some m ∧ k m = some y := by
  unfold lit at h
  cases hv : v.lit? with
  | none => rw [hv] at h; simp at h
  | some m => rw [hv] at h; exact ⟨m, rfl, found_some h⟩

theorem findSome_some {α β : Type} {l : List α} {g : α → Option β} {b : β} (h : l.findSome? g = some b) :
    ∃ a ∈ l, g a = some b := List.exists_of_findSome?_eq_some h

/-- Literals in options: fields once, and parts in what contains them. -/
def Good (at_ : Id → Bool) (v : Val) : Prop := Once v ∧ ValAt at_ v

theorem Good.part {at_ : Id → Bool} {v u : Val} (h : Good at_ v) (hp : Part v u) : Good at_ u := ⟨h.1.part hp, h.2.part hp⟩

theorem args_sound {at_ : Id → Bool} {m : Lit} (hm : Good at_ m.val) {e : String × Val} (he : e ∈ m.fields) (hn : e.1 = "args")
    {x : Nat × ArgPart} (h : findArgs at_ (messages e.2) = some x) :
    ∃ id, messageExpr m (.args x.1 x.2) = some id ∧ at_ id = true := by
  unfold findArgs at h
  rw [Option.join_eq_some_iff] at h
  obtain ⟨z, hz, hs⟩ := findSome_some h
  obtain ⟨a, ha, hs⟩ := findSome_some hs
  have hg : Good at_ z.1.val := (hm.part (.ofField he)).part (.ofMessages (mem_of_zip hz))
  have hnod := hg.1.fields
  have key : ∀ p : ArgPart, x = (z.2, p) → ∀ id, argument (messages e.2) z.2 p = some id →
      messageExpr m (.args x.1 x.2) = some id := by
    rintro p rfl id hid
    rw [messageExpr, onItems_once hm.1.fields he hn _ (x := z.1) (i := z.2) hz]
    exact hid
  unfold argStep at hs
  split at hs
  · obtain ⟨hx, _, hat⟩ := str_found hs
    refine ⟨z.1.id, key _ hx _ ?_, hg.2 _ _ (.refl _) (.ofField ha) hat⟩
    rw [argument, onIdx_zip hz]
  split at hs
  · rename_i hby
    obtain ⟨hx, hid, hat⟩ := str_found hs
    refine ⟨a.2.id, key _ hx _ ?_, hat⟩
    rw [argument, onIdx_zip hz]
    simp only [onField_once hnod ha hby]
    exact hid
  split at hs
  · rename_i hin
    obtain ⟨hx, hid, hat⟩ := str_found hs
    refine ⟨a.2.id, key _ hx _ ?_, hat⟩
    rw [argument, onIdx_zip hz]
    simp only [onField_once hnod ha hin]
    exact hid
  · cases hs

theorem request_sound {at_ : Id → Bool} {m : Lit} (hm : Good at_ m.val) {e : String × Val} (he : e ∈ m.fields) (hn : e.1 = "request")
    {x : Nat × RequestPart} (h : findRequest at_ (messages e.2) = some x) :
    ∃ id, callExpr m (.request x.1 x.2) = some id ∧ at_ id = true := by
  unfold findRequest at h
  rw [Option.join_eq_some_iff] at h
  obtain ⟨z, hz, hs⟩ := findSome_some h
  have hg : Good at_ z.1.val := (hm.part (.ofField he)).part (.ofMessages (mem_of_zip hz))
  have hnod := hg.1.fields
  have key : ∀ p : RequestPart, x = (z.2, p) → ∀ id, request (messages e.2) z.2 p = some id →
      callExpr m (.request x.1 x.2) = some id := by
    rintro p rfl id hid
    rw [callExpr, onItems_once hm.1.fields he hn _ (x := z.1) (i := z.2) hz]
    exact hid
  unfold requestLit at hs
  cases hl : z.1.fields.findSome? (requestStep at_ z.2) with
  | none =>
    rw [hl] at hs
    simp only at hs
    cases hat : at_ z.1.id with
    | false => rw [hat] at hs; simp at hs
    | true =>
      rw [hat] at hs
      simp only [if_true, Option.some.injEq] at hs
      refine ⟨z.1.id, key _ hs.symm _ ?_, hat⟩
      rw [request, onIdx_zip hz]
  | some r =>
    rw [hl] at hs
    simp only [Option.some.injEq] at hs
    subst hs
    obtain ⟨a, ha, hs⟩ := findSome_some hl
    have leaf : ∀ (n : String) (p : RequestPart), a.1 = n → (∀ l i, request l i p = onIdx l i fun m => onField m n strId) →
        str at_ a.2 (z.2, p) = some (some x) → ∃ id, callExpr m (.request x.1 x.2) = some id ∧ at_ id = true := by
      intro n p hby hp hs
      obtain ⟨hx, hid, hat⟩ := str_found hs
      refine ⟨a.2.id, key _ hx _ ?_, hat⟩
      rw [hp, onIdx_zip hz, onField_once hnod ha hby]
      exact hid
    unfold requestStep at hs
    split at hs
    · rename_i hby; exact leaf _ _ hby (fun _ _ => rfl) hs
    split at hs
    · rename_i hby; exact leaf _ _ hby (fun _ _ => rfl) hs
    split at hs
    · rename_i hby; exact leaf _ _ hby (fun _ _ => rfl) hs
    · cases hs

/-- What a part of a definition leads to. -/
def DefAt (at_ : Id → Bool) (l : List Lit) (d : Nat) (m : Lit) : MsgOptPart → Prop
  | .none => at_ m.id = true
  | .alias => False
  | .def i p => i = d ∧ ∃ id, defInfo l d p = some id ∧ at_ id = true

theorem message_sound {at_ : Id → Bool} {l : List Lit} {z : Lit × Nat} (hz : z ∈ l.zipIdx) (hg : Good at_ z.1.val)
    {a : String × Val} (ha : a ∈ z.1.fields) (hn : a.1 = "message") {m : Lit} (hm : a.2.lit? = some m) {p : MsgOptPart}
    (h : findMessageExpr at_ z.2 m = some p) : DefAt at_ l z.2 z.1 p := by
  have hp : Part z.1.val m.val := (Part.ofField ha).trans (.ofLit hm)
  have hgm : Good at_ m.val := hg.part hp
  have key : ∀ q id, messageExpr m q = some id → defInfo l z.2 (.message q) = some id := by
    intro q id hq
    rw [defInfo, onIdx_zip hz, onField_once hg.1.fields ha hn, onMsg, hm]
    exact hq
  unfold findMessageExpr at h
  cases hl : m.fields.findSome? (messageStep at_ z.2) with
  | none =>
    rw [hl] at h
    simp only at h
    cases hat : at_ m.id with
    | false => rw [hat] at h; simp at h
    | true =>
      rw [hat] at h
      simp only [if_true, Option.some.injEq] at h
      subst h
      exact hg.2 _ _ (.refl _) hp hat
  | some r =>
    rw [hl] at h
    simp only at h
    subst h
    obtain ⟨e, he, hs⟩ := findSome_some hl
    unfold messageStep at hs
    split at hs
    · rename_i hname
      obtain ⟨rfl, hid, hat⟩ := str_found hs
      refine ⟨rfl, e.2.id, key _ _ ?_, hat⟩
      rw [messageExpr, onField_once hgm.1.fields he hname]
      exact hid
    split at hs
    · rename_i hargs
      have hs := found_some hs
      rw [Option.map_eq_some_iff] at hs
      obtain ⟨x, hx, rfl⟩ := hs
      obtain ⟨id, hid, hat⟩ := args_sound hgm he hargs hx
      exact ⟨rfl, id, key _ _ hid, hat⟩
    · cases hs

theorem call_sound {at_ : Id → Bool} {l : List Lit} {z : Lit × Nat} (hz : z ∈ l.zipIdx) (hg : Good at_ z.1.val)
    {a : String × Val} (ha : a ∈ z.1.fields) (hn : a.1 = "call") {m : Lit} (hm : a.2.lit? = some m) {p : MsgOptPart}
    (h : findCall at_ z.2 m = some p) : DefAt at_ l z.2 z.1 p := by
  have hp : Part z.1.val m.val := (Part.ofField ha).trans (.ofLit hm)
  have hgm : Good at_ m.val := hg.part hp
  have key : ∀ q id, callExpr m q = some id → defInfo l z.2 (.call q) = some id := by
    intro q id hq
    rw [defInfo, onIdx_zip hz, onField_once hg.1.fields ha hn, onMsg, hm]
    exact hq
  unfold findCall at h
  cases hl : m.fields.findSome? (callStep at_ z.2) with
  | none =>
    rw [hl] at h
    simp only at h
    cases hat : at_ m.id with
    | false => rw [hat] at h; simp at h
    | true =>
      rw [hat] at h
      simp only [if_true, Option.some.injEq] at h
      subst h
      exact ⟨rfl, m.id, key _ _ (by rw [callExpr]), hat⟩
  | some r =>
    rw [hl] at h
    simp only at h
    subst h
    obtain ⟨e, he, hs⟩ := findSome_some hl
    unfold callStep at hs
    split at hs
    · rename_i hname
      obtain ⟨rfl, hid, hat⟩ := str_found hs
      refine ⟨rfl, e.2.id, key _ _ ?_, hat⟩
      rw [callExpr, onField_once hgm.1.fields he hname]
      exact hid
    split at hs
    · rename_i hargs
      have hs := found_some hs
      rw [Option.map_eq_some_iff] at hs
      obtain ⟨x, hx, rfl⟩ := hs
      obtain ⟨id, hid, hat⟩ := request_sound hgm he hargs hx
      exact ⟨rfl, id, key _ _ hid, hat⟩
    · cases hs

theorem def_sound {at_ : Id → Bool} {v : Val} (hv : Good at_ v) {p : MsgOptPart} (h : findDef at_ (messages v) = some p) :
    ∃ z ∈ (messages v).zipIdx, DefAt at_ (messages v) z.2 z.1 p := by
  unfold findDef at h
  cases hl : (messages v).zipIdx.findSome? fun x => x.1.fields.findSome? (defStep at_ x.2) with
  | none =>
    rw [hl] at h
    simp only at h
    cases hm : messages v with
    | nil => rw [hm] at h; cases h
    | cons m ms =>
      rw [hm] at h
      simp only at h
      cases hat : at_ m.id with
      | false => rw [hat] at h; simp at h
      | true =>
        rw [hat] at h
        simp only [if_true, Option.some.injEq] at h
        subst h
        exact ⟨(m, 0), by simp, hat⟩
  | some r =>
    rw [hl] at h
    simp only at h
    subst h
    obtain ⟨z, hz, hs⟩ := findSome_some hl
    obtain ⟨a, ha, hs⟩ := findSome_some hs
    have hg : Good at_ z.1.val := hv.part (.ofMessages (mem_of_zip hz))
    refine ⟨z, hz, ?_⟩
    have leaf : ∀ (n : String) (q : DefPart), a.1 = n → (∀ l i, defInfo l i q = onIdx l i fun m => onField m n strId) →
        str at_ a.2 (.def z.2 q) = some (some p) → DefAt at_ (messages v) z.2 z.1 p := by
      intro n q hby hq hs
      obtain ⟨rfl, hid, hat⟩ := str_found hs
      refine ⟨rfl, a.2.id, ?_, hat⟩
      rw [hq, onIdx_zip hz, onField_once hg.1.fields ha hby]
      exact hid
    unfold defStep at hs
    split at hs
    · rename_i hn; exact leaf _ _ hn (fun _ _ => by rw [defInfo]) hs
    split at hs
    · rename_i hn; exact leaf _ _ hn (fun _ _ => by rw [defInfo]) hs
    split at hs
    · rename_i hn; exact leaf _ _ hn (fun _ _ => by rw [defInfo]) hs
    split at hs
    · rename_i hn
      obtain ⟨m, hm, hk⟩ := lit_found hs
      exact call_sound hz hg ha hn hm hk
    split at hs
    · rename_i hn
      obtain ⟨m, hm, hk⟩ := lit_found hs
      exact message_sound hz hg ha hn hm hk
    · cases hs

/-! ## Options -/

theorem option_sound {at_ : Id → Bool} {o : Opt} (hv : Good at_ o.val) (ho : at_ o.val.id = true → at_ o.id = true)
    {p : Option MsgOptPart} (h : findMessageOption at_ o = some p) :
    match p with
    | some p => ∃ id, messageOption o p = some id ∧ at_ id = true
    | none => at_ o.id = true := by
  unfold findMessageOption at h
  cases hval : o.val with
  | msg i fs =>
    rw [hval] at h ho hv
    simp only at h
    have hg : Good at_ (Lit.val ⟨i, fs⟩) := hv
    cases hl : fs.findSome? (optionStep at_) with
    | none =>
      rw [hl] at h
      simp only at h
      cases hat : at_ i with
      | false => rw [hat] at h; simp at h
      | true =>
        rw [hat] at h
        simp only [if_true, Option.some.injEq] at h
        subst h
        exact ⟨o.id, by simp [messageOption, hval], ho hat⟩
    | some q =>
      rw [hl] at h
      simp only [Option.some.injEq] at h
      subst h
      obtain ⟨e, he, hs⟩ := findSome_some hl
      unfold optionStep at hs
      split at hs
      · rename_i hn
        cases hat : at_ e.2.id with
        | false => rw [hat] at hs; simp at hs
        | true =>
          rw [hat] at hs
          simp only [if_true, Option.some.injEq] at hs
          subst hs
          refine ⟨e.2.id, ?_, hat⟩
          unfold messageOption
          rw [hval]
          simp only [find_once hg.1.fields he hn]
      split at hs
      · rename_i hn
        have hpe : Part (Val.msg i fs) e.2 := .ofField (m := ⟨i, fs⟩) he
        obtain ⟨z, hz, hd⟩ := def_sound (hg.part hpe) hs
        have hpz : Part (Val.msg i fs) z.1.val := hpe.trans (.ofMessages (mem_of_zip hz))
        cases q with
        | none => exact ⟨o.id, by simp [messageOption, hval], ho (hg.2 _ _ (.refl _) hpz hd)⟩
        | alias => exact hd.elim
        | «def» j d =>
          obtain ⟨rfl, id, hid, hat⟩ := hd
          refine ⟨id, ?_, hat⟩
          unfold messageOption
          rw [hval]
          simp only [collect_once (m := ⟨i, fs⟩) hg.1.fields he hn]
          cases hm : messages e.2 with
          | nil => rw [hm] at hz; simp at hz
          | cons y ys => rw [hm] at hid; exact hid
      · cases hs
  | str i s =>
    rw [hval] at h ho
    simp only at h
    cases hat : at_ i with
    | false => rw [hat] at h; simp at h
    | true =>
      rw [hat] at h
      cases hends : o.ends "alias" with
      | true =>
        rw [hends] at h
        simp at h
        subst h
        exact ⟨i, by simp [messageOption, hval, hends], hat⟩
      | false =>
        rw [hends] at h
        simp at h
        subst h
        exact ho hat
  | ident i | other i | arr i vs =>
    rw [hval] at h ho
    simp only at h
    split at h
    · rename_i hat
      simp only [Option.some.injEq] at h
      subst h
      exact ho hat
    · cases h

theorem one_option {name : String} {os : List Opt} (h : OneOption name os) {o : Opt} (ho : o ∈ os) (hn : o.named name = true) :
    os.filter (·.named name) = [o] := by
  have hm : o ∈ os.filter (·.named name) := List.mem_filter.2 ⟨ho, hn⟩
  match hf : os.filter (·.named name) with
  | [] => rw [hf] at hm; cases hm
  | [a] => rw [hf, List.mem_singleton] at hm; rw [hm, hf]
  | a :: b :: r => have := h.1; rw [hf] at this; simp at this

theorem find_option {name : String} {os : List Opt} (h : OneOption name os) {o : Opt} (ho : o ∈ os) (hn : o.named name = true) :
    os.find? (fun o => o.named name) = some o := by
  rw [← List.head?_filter, one_option h ho hn]; rfl

theorem field_sound {at_ : Id → Bool} {g : Field} (hg : OneOption "grpc.federation.field" g.opts) {l : FieldLoc}
    (h : findField at_ g = some l) : l.name = g.name ∧ ∃ id, fieldInfo g l = some id ∧ at_ id = true := by
  unfold findField at h
  cases hl : (g.opts.filter (·.named "grpc.federation.field")).findSome? (findFieldOption at_) with
  | none =>
    rw [hl] at h
    simp only at h
    cases hat : at_ g.typeId with
    | false => rw [hat] at h; simp at h
    | true =>
      rw [hat] at h
      simp only [if_true, Option.some.injEq] at h
      subst h
      exact ⟨rfl, g.typeId, by simp [fieldInfo], hat⟩
  | some p =>
    rw [hl] at h
    simp only [Option.some.injEq] at h
    subst h
    obtain ⟨o, ho, hs⟩ := findSome_some hl
    rw [List.mem_filter] at ho
    refine ⟨rfl, ?_⟩
    simp only [fieldInfo, find_option hg ho.1 ho.2]
    unfold findFieldOption at hs
    unfold fieldOption
    cases hval : o.val with
    | str i s =>
      rw [hval] at hs
      simp only [Bool.and_eq_true] at hs
      split at hs
      · rename_i hc
        simp only [Option.some.injEq] at hs
        subst hs
        exact ⟨i, by simp [hc.1], hc.2⟩
      · cases hs
    | msg i fs =>
      rw [hval] at hs
      simp only at hs
      rw [Option.join_eq_some_iff] at hs
      obtain ⟨e, he, hs⟩ := findSome_some hs
      split at hs
      · rename_i hn
        obtain ⟨rfl, hid, hat⟩ := str_found hs
        have : (fs.map Prod.fst).Nodup := hg.2 o ho.1 i fs (hval ▸ .refl _)
        refine ⟨e.2.id, ?_, hat⟩
        simp only [find_once this he hn]
        exact hid
      · cases hs
    | _ => rw [hval] at hs; cases hs

end Verif.FindPos
