import Verif.Cast.Struct
import Verif.Cast.NumProps

/-! # C25 and C56: conversions of lists, maps and messages -/

namespace Verif.Cast

theorem convL_eq (S : Schema) (vs : List Val) : convL S vs = vs.map (fun v => v.conv S) := by
  induction vs with
  | nil => rfl
  | cons v vs ih => simp [convL, ih, Val.conv]

theorem convE_eq (S : Schema) (es : List (Val × Val)) :
    convE S es = es.map (fun e => (e.1.conv S, e.2.conv S)) := by
  induction es with
  | nil => rfl
  | cons e es ih => obtain ⟨k, v⟩ := e; simp [convE, ih, Val.conv]

theorem convF_eq (S : Schema) (fs : List (String × Val)) :
    convF S fs = fs.map (fun f => (f.1, f.2, f.2.conv S)) := by
  induction fs with
  | nil => rfl
  | cons e es ih => obtain ⟨k, v⟩ := e; simp [convF, ih, Val.conv]

theorem seqAll_ok {α} (rs : List (Except Err α)) (vs : List α) :
    seqAll rs = .ok vs ↔ rs = vs.map .ok := by
  induction rs generalizing vs with
  | nil => cases vs <;> simp [seqAll]
  | cons r rs ih =>
    cases r with
    | error e => cases vs <;> simp [seqAll]
    | ok v =>
      simp only [seqAll]
      cases hr : seqAll rs with
      | error e =>
        simp only [reduceCtorEq, false_iff]
        intro h
        cases vs with
        | nil => cases h
        | cons w vs =>
          simp only [List.map_cons, List.cons.injEq] at h
          rw [(ih vs).mpr h.2] at hr; cases hr
      | ok ws =>
        have := (ih ws).mp hr
        constructor
        · intro h
          simp only [Except.ok.injEq] at h
          subst h
          simp [this]
        · intro h
          cases vs with
          | nil => cases h
          | cons w vs =>
            simp only [List.map_cons, List.cons.injEq, Except.ok.injEq] at h
            have h2 := (ih vs).mpr h.2
            rw [hr] at h2
            simp only [Except.ok.injEq] at h2
            rw [h.1, h2]

theorem seqAll_error {α} (rs : List (Except Err α)) (e : Err) :
    seqAll rs = .error e ↔ ∃ (pre : List α) (post : List (Except Err α)),
      rs = pre.map .ok ++ .error e :: post := by
  induction rs with
  | nil => simp [seqAll]
  | cons r rs ih =>
    cases r with
    | error e' =>
      simp only [seqAll, Except.error.injEq]
      constructor
      · rintro rfl; exact ⟨[], rs, rfl⟩
      · rintro ⟨pre, post, h⟩
        cases pre with
        | nil => simp only [List.map_nil, List.nil_append, List.cons.injEq, Except.error.injEq] at h; exact h.1
        | cons _ _ => simp at h
    | ok v =>
      simp only [seqAll]
      cases hr : seqAll rs with
      | error e' =>
        rw [hr] at ih
        simp only [Except.error.injEq] at ih
        simp only [Except.error.injEq]
        rw [ih]
        constructor
        · rintro ⟨pre, post, h⟩; exact ⟨v :: pre, post, by simp [h]⟩
        · rintro ⟨pre, post, h⟩
          cases pre with
          | nil => simp at h
          | cons w pre =>
            simp only [List.map_cons, List.cons_append, List.cons.injEq] at h
            exact ⟨pre, post, h.2⟩
      | ok ws =>
        simp only [reduceCtorEq, false_iff]
        rintro ⟨pre, post, h⟩
        cases pre with
        | nil => simp at h
        | cons w pre =>
          simp only [List.map_cons, List.cons_append, List.cons.injEq] at h
          rw [ih.mpr ⟨pre, post, h.2⟩] at hr
          cases hr

/-! ## Lists -/

/-- C25, lists. The conversion of a list succeeds with `ws` exactly if every element converts to the
element of `ws` at its position. -/
theorem C25_list_ok (S : Schema) (vs : List Val) (a b : Ty) (w : Val) :
    (Val.list vs).cast S (.list a) (.list b) = .ok w ↔
      ∃ ws : List Val, w = .list ws ∧ ws.length = vs.length ∧
        ∀ (i : Nat) v', vs[i]? = some v' → ∃ w', ws[i]? = some w' ∧ v'.conv S a b = .ok w' := by
  simp only [Val.cast, listBody, convL_eq, List.map_map]
  have key : ∀ ws : List Val, vs.map ((fun c : Conv => c a b) ∘ fun v => v.conv S) = ws.map .ok ↔
      (ws.length = vs.length ∧
        ∀ (i : Nat) v', vs[i]? = some v' → ∃ w', ws[i]? = some w' ∧ v'.conv S a b = .ok w') := by
    intro ws
    constructor
    · intro h
      have hl : vs.length = ws.length := by simpa using congrArg List.length h
      refine ⟨hl.symm, ?_⟩
      intro i v' hv
      have := congrArg (fun l => l[i]?) h
      simp only [List.getElem?_map, hv, Option.map_some, Function.comp] at this
      cases hw : ws[i]? with
      | none => rw [hw] at this; cases this
      | some w' =>
        rw [hw] at this
        simp only [Option.map_some, Option.some.injEq] at this
        exact ⟨w', rfl, this⟩
    · rintro ⟨hl, h⟩
      apply List.ext_getElem?
      intro i
      simp only [List.getElem?_map]
      cases hv : vs[i]? with
      | none =>
        have : ws[i]? = none := by
          rw [List.getElem?_eq_none_iff] at hv ⊢; omega
        rw [this]; rfl
      | some v' =>
        obtain ⟨w', h1, h2⟩ := h i v' hv
        rw [h1]
        simp [h2]
  cases hs : seqAll (vs.map ((fun c : Conv => c a b) ∘ fun v => v.conv S)) with
  | error e =>
    simp only [reduceCtorEq, false_iff]
    rintro ⟨ws, _, h⟩
    rw [(seqAll_ok _ ws).mpr ((key ws).mpr h)] at hs
    cases hs
  | ok ws =>
    simp only [Except.ok.injEq]
    constructor
    · rintro rfl
      exact ⟨ws, rfl, (key ws).mp ((seqAll_ok _ ws).mp hs)⟩
    · rintro ⟨ws', rfl, h⟩
      have := (seqAll_ok _ ws').mpr ((key ws').mpr h)
      rw [hs] at this
      simp only [Except.ok.injEq] at this
      rw [this]

/-- C25, lists: the conversion fails exactly if the conversion of some element fails. -/
theorem C25_list_error (S : Schema) (vs : List Val) (a b : Ty) :
    (∃ e, (Val.list vs).cast S (.list a) (.list b) = .error e) ↔ ∃ v ∈ vs, ∃ e, v.conv S a b = .error e := by
  simp only [Val.cast, listBody, convL_eq, List.map_map]
  cases hs : seqAll (vs.map ((fun c : Conv => c a b) ∘ fun v => v.conv S)) with
  | error e =>
    simp only [Except.error.injEq, exists_eq', true_iff]
    obtain ⟨pre, post, h⟩ := (seqAll_error _ _).mp hs
    have hm : (Except.error e : Except Err Val) ∈ vs.map ((fun c : Conv => c a b) ∘ fun v => v.conv S) := by
      rw [h]; simp
    obtain ⟨v, hv, he⟩ := List.mem_map.mp hm
    exact ⟨v, hv, e, he⟩
  | ok ws =>
    simp only [reduceCtorEq, exists_false, false_iff]
    rintro ⟨v, hv, e, he⟩
    have h := (seqAll_ok _ ws).mp hs
    have hm : (Except.error e : Except Err Val) ∈ ws.map Except.ok := by
      rw [← h]; exact List.mem_map.mpr ⟨v, hv, he⟩
    obtain ⟨w, _, hw⟩ := List.mem_map.mp hm
    cases hw

/-! ## When a conversion is called -/

/-- No list in the type: element types of lists, and keys and values of maps, in proto. -/
def noList : Ty → Bool
  | .list _ => false
  | .map k v => noList k && noList v
  | _ => true

/-- Types of proto fields. -/
def protoTy : Ty → Bool
  | .list t => noList t
  | t => noList t

def isList : Ty → Bool
  | .list _ => true
  | _ => false

theorem requiredCast_noList (a b : Ty) (ha : noList a = true) (hb : noList b = true) :
    requiredCast a b = false ↔ a = b := by
  induction a generalizing b with
  | list _ _ => cases ha
  | map k v ihk ihv =>
    simp only [noList, Bool.and_eq_true] at ha
    cases b with
    | map k' v' =>
      simp only [noList, Bool.and_eq_true] at hb
      simp only [requiredCast, Bool.or_eq_false_iff, ihk k' ha.1 hb.1, ihv v' ha.2 hb.2, Ty.map.injEq]
    | _ => simp [requiredCast] at hb ⊢
  | _ => cases b <;> simp [requiredCast, noList] at hb ⊢

/-- C25: between types of proto fields that are both repeated or both not, values are converted
exactly if the types differ. -/
theorem C25_converted_iff_types_differ (S : Schema) (v : Val) (a b : Ty) (ha : protoTy a = true)
    (hb : protoTy b = true) (hl : isList a = isList b) :
    (a ≠ b → v.conv S a b = v.cast S a b) ∧ (a = b → v.conv S a b = .ok v) := by
  have key : requiredCast a b = false ↔ a = b := by
    cases a with
    | list a =>
      cases b with
      | list b => simp only [requiredCast, Ty.list.injEq]; exact requiredCast_noList a b ha hb
      | _ => cases hl
    | _ =>
      cases b with
      | list b => cases hl
      | _ => exact requiredCast_noList _ _ ha hb
  unfold Val.conv whenRequired
  constructor
  · intro h
    rw [if_pos]
    cases hr : requiredCast a b with
    | true => rfl
    | false => exact absurd (key.mp hr) h
  · intro h
    rw [key.mpr h]; rfl

example : protoTy (.list (.map (.num .int32) (.msg 1))) = true := rfl

/-! ## Maps -/

mutual
theorem beq_refl : ∀ v : Val, Val.beq v v = true
  | .num _ => by simp [Val.beq]
  | .other _ => by simp [Val.beq]
  | .nil => by simp [Val.beq]
  | .list vs => by simp [Val.beq, beqL_refl vs]
  | .map es => by simp [Val.beq, beqE_refl es]
  | .msg fs => by simp [Val.beq, beqF_refl fs]
theorem beqL_refl : ∀ v : List Val, Val.beqL v v = true
  | [] => rfl
  | v :: vs => by simp [Val.beqL, beq_refl v, beqL_refl vs]
theorem beqE_refl : ∀ v : List (Val × Val), Val.beqE v v = true
  | [] => rfl
  | (a, b) :: vs => by simp [Val.beqE, beq_refl a, beq_refl b, beqE_refl vs]
theorem beqF_refl : ∀ v : List (String × Val), Val.beqF v v = true
  | [] => rfl
  | (a, b) :: vs => by simp [Val.beqF, beq_refl b, beqF_refl vs]
end

mutual
theorem eq_of_beq : ∀ v w : Val, Val.beq v w = true → v = w
  | .num _, w, h => by cases w <;> simp_all [Val.beq]
  | .other _, w, h => by cases w <;> simp_all [Val.beq]
  | .nil, w, h => by cases w <;> simp_all [Val.beq]
  | .list vs, w, h => by
    cases w with
    | list ws => simp only [Val.beq] at h; rw [eq_of_beqL vs ws h]
    | _ => simp [Val.beq] at h
  | .map vs, w, h => by
    cases w with
    | map ws => simp only [Val.beq] at h; rw [eq_of_beqE vs ws h]
    | _ => simp [Val.beq] at h
  | .msg vs, w, h => by
    cases w with
    | msg ws => simp only [Val.beq] at h; rw [eq_of_beqF vs ws h]
    | _ => simp [Val.beq] at h
theorem eq_of_beqL : ∀ v w : List Val, Val.beqL v w = true → v = w
  | [], w, h => by cases w <;> simp_all [Val.beqL]
  | v :: vs, w, h => by
    cases w with
    | nil => simp [Val.beqL] at h
    | cons w ws =>
      simp only [Val.beqL, Bool.and_eq_true] at h
      rw [eq_of_beq v w h.1, eq_of_beqL vs ws h.2]
theorem eq_of_beqE : ∀ v w : List (Val × Val), Val.beqE v w = true → v = w
  | [], w, h => by cases w <;> simp_all [Val.beqE]
  | (a, b) :: vs, w, h => by
    cases w with
    | nil => simp [Val.beqE] at h
    | cons w ws =>
      obtain ⟨c, d⟩ := w
      simp only [Val.beqE, Bool.and_eq_true] at h
      rw [eq_of_beq a c h.1.1, eq_of_beq b d h.1.2, eq_of_beqE vs ws h.2]
theorem eq_of_beqF : ∀ v w : List (String × Val), Val.beqF v w = true → v = w
  | [], w, h => by cases w <;> simp_all [Val.beqF]
  | (a, b) :: vs, w, h => by
    cases w with
    | nil => simp [Val.beqF] at h
    | cons w ws =>
      obtain ⟨c, d⟩ := w
      simp only [Val.beqF, Bool.and_eq_true, beq_iff_eq] at h
      rw [h.1.1, eq_of_beq b d h.1.2, eq_of_beqF vs ws h.2]
end

theorem insert_new (k v : Val) (es : List (Val × Val)) (h : k ∉ es.map (·.1)) :
    insert k v es = es ++ [(k, v)] := by
  induction es with
  | nil => rfl
  | cons e es ih =>
    obtain ⟨k', v'⟩ := e
    simp only [List.map_cons, List.mem_cons, not_or] at h
    have : Val.beq k' k = false := by
      cases hb : Val.beq k' k with
      | false => rfl
      | true => exact absurd (eq_of_beq _ _ hb).symm h.1
    simp [insert, this, ih h.2]

theorem mapLoop_error (a b a' b' : Ty) (cs : List (Conv × Conv)) (acc : List (Val × Val)) :
    (∃ e, mapLoop a b a' b' cs acc = .error e) ↔
      ∃ c ∈ cs, (∃ e, c.1 a b = .error e) ∨ ∃ e, c.2 a' b' = .error e := by
  induction cs generalizing acc with
  | nil => simp [mapLoop]
  | cons c cs ih =>
    obtain ⟨ck, cv⟩ := c
    simp only [mapLoop, List.mem_cons, exists_eq_or_imp]
    cases hk : ck a b with
    | error e => simp
    | ok k =>
      cases hv : cv a' b' with
      | error e => simp
      | ok v => simp only [ih]; simp

/-- C25, maps: the conversion fails exactly if the conversion of some key or value fails, whatever
the order in which the entries are visited. -/
theorem C25_map_error (S : Schema) (es : List (Val × Val)) (k k' v v' : Ty) :
    (∃ e, (Val.map es).cast S (.map k v) (.map k' v') = .error e) ↔
      ∃ x ∈ es, (∃ e, x.1.conv S k k' = .error e) ∨ ∃ e, x.2.conv S v v' = .error e := by
  have := mapLoop_error k k' v v' (convE S es) []
  simp only [Val.cast, mapBody]
  rw [convE_eq] at this ⊢
  simp only [List.mem_map] at this
  cases hl : mapLoop k k' v v' (es.map fun e => (e.1.conv S, e.2.conv S)) [] with
  | error e =>
    rw [hl] at this
    simp only [Except.error.injEq, exists_eq', true_iff] at this ⊢
    obtain ⟨c, ⟨x, hx, rfl⟩, h⟩ := this
    exact ⟨x, hx, h⟩
  | ok r =>
    rw [hl] at this
    simp only [reduceCtorEq, exists_false, false_iff] at this ⊢
    rintro ⟨x, hx, h⟩
    exact this ⟨_, ⟨x, hx, rfl⟩, h⟩

theorem mapLoop_ok (a b a' b' : Ty) (cs : List (Conv × Conv)) (acc rs : List (Val × Val))
    (hc : cs.map (fun c => (c.1 a b, c.2 a' b')) = rs.map (fun r => (.ok r.1, .ok r.2)))
    (hn : ((acc ++ rs).map (·.1)).Nodup) :
    mapLoop a b a' b' cs acc = .ok (acc ++ rs) := by
  induction cs generalizing acc rs with
  | nil =>
    cases rs with
    | nil => simp [mapLoop]
    | cons _ _ => cases hc
  | cons c cs ih =>
    obtain ⟨ck, cv⟩ := c
    cases rs with
    | nil => cases hc
    | cons r rs =>
      obtain ⟨k, v⟩ := r
      simp only [List.map_cons, List.cons.injEq, Prod.mk.injEq] at hc
      simp only [mapLoop, hc.1.1, hc.1.2]
      have hk : k ∉ acc.map (·.1) := by
        rw [List.map_append, List.nodup_append] at hn
        intro hm
        exact hn.2.2 k hm k (by simp) rfl
      rw [insert_new k v acc hk, ih (acc ++ [(k, v)]) rs hc.2 (by simpa using hn)]
      simp

/-- C25, maps (partial: the converted keys are distinct). The result has exactly the converted
entries. -/
theorem C25_map_ok_partial (S : Schema) (es rs : List (Val × Val)) (k k' v v' : Ty)
    (hl : rs.length = es.length)
    (hc : ∀ (i : Nat) x, es[i]? = some x → ∃ y, rs[i]? = some y ∧ x.1.conv S k k' = .ok y.1 ∧ x.2.conv S v v' = .ok y.2)
    (hn : (rs.map (·.1)).Nodup) :
    (Val.map es).cast S (.map k v) (.map k' v') = .ok (.map rs) := by
  simp only [Val.cast, mapBody]
  rw [convE_eq, mapLoop_ok k k' v v' _ [] rs ?_ (by simpa using hn)]
  · rfl
  · rw [List.map_map]
    apply List.ext_getElem?
    intro i
    simp only [List.getElem?_map]
    cases hx : es[i]? with
    | none =>
      have : rs[i]? = none := by rw [List.getElem?_eq_none_iff] at hx ⊢; omega
      rw [this]; rfl
    | some x =>
      obtain ⟨y, h1, h2, h3⟩ := hc i x hx
      rw [h1]
      simp [h2, h3]

/-- C25 is false of the code for maps whose keys are truncated: entries are lost, and which one
survives depends on the order of iteration. -/
theorem C25_map_collision_false : ∃ (S : Schema) (x y : Val × Val) (r r' : List (Val × Val)),
    (Val.map [x, y]).cast S (.map (.num .sint64) (.other 0)) (.map (.num .int32) (.other 0)) = .ok (.map r) ∧
    (Val.map [y, x]).cast S (.map (.num .sint64) (.other 0)) (.map (.num .int32) (.other 0)) = .ok (.map r') ∧
    r.length = 1 ∧ r'.length = 1 ∧ r ≠ r' := by
  refine ⟨⟨fun _ => [], fun _ _ n => n⟩, (.num 1, .other 1), (.num 4294967297, .other 2),
    [(.num 1, .other 2)], [(.num 1, .other 1)], rfl, rfl, rfl, rfl, ?_⟩
  intro h
  simp at h

/-! ## Messages -/

/-- Reading a field of a message value. -/
def getField (fs : List (String × Val)) (n : String) : Option Val :=
  (fs.find? (fun p => p.1 == n)).map (·.2)

theorem getConv_eq (S : Schema) (fs : List (String × Val)) (n : String) :
    getConv (convF S fs) n = (getField fs n).map (fun v => (v, v.conv S)) := by
  rw [convF_eq]
  unfold getConv getField
  induction fs with
  | nil => rfl
  | cons f fs ih =>
    simp only [List.map_cons, List.find?_cons]
    cases h : f.1 == n with
    | true => simp
    | false => exact ih

theorem find_zip (l : List FieldDef) (vs : List Val) (hl : vs.length = l.length) (f : FieldDef)
    (hf : f ∈ l) (hn : (l.map (·.name)).Nodup) (i : Nat) (hi : l[i]? = some f) :
    getField ((l.map (·.name)).zip vs) f.name = vs[i]? := by
  induction l generalizing vs i with
  | nil => cases hf
  | cons g l ih =>
    cases vs with
    | nil => cases hl
    | cons v vs =>
      rw [List.map_cons, List.nodup_cons] at hn
      simp only [List.map_cons, List.zip_cons_cons]
      cases i with
      | zero =>
        simp only [List.getElem?_cons_zero, Option.some.injEq] at hi
        subst hi
        simp [getField]
      | succ i =>
        simp only [List.getElem?_cons_succ] at hi
        have hfl : f ∈ l := List.mem_of_getElem? hi
        have hne : (g.name == f.name) = false := by
          simp only [beq_eq_false_iff_ne, ne_eq]
          intro h
          exact hn.1 (h ▸ List.mem_map.mpr ⟨f, hfl, rfl⟩)
        have := ih vs (by simpa using hl) hfl hn.2 i hi
        simp only [List.getElem?_cons_succ]
        rw [← this]
        simp [getField, hne]

theorem canon_mem (fs : List FieldDef) (f : FieldDef) : f ∈ canon fs ↔ f ∈ fs := by
  unfold canon
  cases h : f.oneof <;> simp [List.mem_filter, h]

theorem canon_nodup (fs : List FieldDef) (h : (fs.map (·.name)).Nodup) : ((canon fs).map (·.name)).Nodup := by
  have hp : (canon fs).Perm fs := by
    unfold canon
    have := List.filter_append_perm (fun f : FieldDef => f.oneof.isNone) fs
    have he : (fun f : FieldDef => f.oneof.isSome) = fun f => !f.oneof.isNone := by
      funext f; cases f.oneof <;> rfl
    rw [he]
    exact this
  exact (hp.map _).nodup_iff.mpr h

/-- C25, messages: nil stays nil. -/
theorem C25_nil (S : Schema) (m m' : Nat) : Val.nil.cast S (.msg m) (.msg m') = .ok .nil := rfl

/-- C25, messages: the converted message has, for every field of the target message that is not in a
oneof, the conversion of the value of its source field, or the zero value if there is no source
field. -/
theorem C25_message_fields (S : Schema) (fs : List (String × Val)) (m m' : Nat) (w : Val)
    (h : (Val.msg fs).cast S (.msg m) (.msg m') = .ok w)
    (hn : ((S.fields m').map (·.name)).Nodup) :
    ∃ ws, w = .msg ws ∧ ∀ f ∈ S.fields m', f.oneof = none →
      (∀ g, sourceField S m f = some g → ∃ v v', getField fs g.name = some v ∧
        v.conv S g.ty f.ty = .ok v' ∧ getField ws f.name = some v') ∧
      (sourceField S m f = none → getField ws f.name = some (zero f.ty)) := by
  simp only [Val.cast, msgBody] at h
  cases hs : seqAll ((canon (S.fields m')).map (fieldResult S m m' (convF S fs))) with
  | error e => rw [hs] at h; cases h
  | ok vs =>
    rw [hs] at h
    simp only [Except.ok.injEq] at h
    refine ⟨_, h.symm, ?_⟩
    intro f hf ho
    have hl := (seqAll_ok _ _).mp hs
    have hlen : vs.length = (canon (S.fields m')).length := by
      have := congrArg List.length hl; simpa using this.symm
    have hfc := (canon_mem _ f).mpr hf
    obtain ⟨i, hi⟩ := List.getElem?_of_mem hfc
    have hget := find_zip _ vs hlen f hfc (canon_nodup _ hn) i hi
    have hfr : ∃ v', vs[i]? = some v' ∧ fieldResult S m m' (convF S fs) f = .ok v' := by
      have := congrArg (fun l => l[i]?) hl
      simp only [List.getElem?_map, hi, Option.map_some] at this
      cases hv : vs[i]? with
      | none => rw [hv] at this; cases this
      | some v' =>
        rw [hv] at this
        simp only [Option.map_some, Option.some.injEq] at this
        exact ⟨v', rfl, this⟩
    obtain ⟨v', hv', hfr⟩ := hfr
    rw [hget, hv']
    simp only [fieldResult, ho] at hfr
    refine ⟨?_, ?_⟩
    · intro g hg
      rw [hg] at hfr
      simp only [getConv_eq] at hfr
      cases hgf : getField fs g.name with
      | none => rw [hgf] at hfr; cases hfr
      | some v =>
        rw [hgf] at hfr
        simp only [Option.map_some] at hfr
        exact ⟨v, v', rfl, hfr, rfl⟩
    · intro hg
      rw [hg] at hfr
      simp only [Except.ok.injEq] at hfr
      rw [hfr]

/-- A field is set in a message value. -/
def SetIn (S : Schema) (frm : Nat) (fs : List (String × Val)) (f : FieldDef) : Prop :=
  ∃ g v, sourceField S frm f = some g ∧ getField fs g.name = some v ∧ v ≠ .nil

theorem isSet_iff (S : Schema) (frm : Nat) (fs : List (String × Val)) (f : FieldDef) :
    isSet S frm (convF S fs) f = true ↔ SetIn S frm fs f := by
  unfold isSet SetIn
  cases hg : sourceField S frm f with
  | none => simp
  | some g =>
    simp only [getConv_eq]
    cases hv : getField fs g.name with
    | none => simp [hv]
    | some v => cases v <;> simp [hv]

/-- C25, oneofs: if one field `f` of a oneof of the target is set in the source and no other is,
`f` gets the converted value and the others stay unset. -/
theorem C25_oneof (S : Schema) (fs : List (String × Val)) (m m' : Nat) (w : Val)
    (h : (Val.msg fs).cast S (.msg m) (.msg m') = .ok w)
    (hn : ((S.fields m').map (·.name)).Nodup) (o : String) (f : FieldDef) (hf : f ∈ S.fields m')
    (ho : f.oneof = some o) (hset : SetIn S m fs f)
    (huniq : ∀ f' ∈ S.fields m', f'.oneof = some o → SetIn S m fs f' → f' = f) :
    ∃ ws, w = .msg ws ∧
      (∃ g v v', sourceField S m f = some g ∧ getField fs g.name = some v ∧
        v.conv S g.ty f.ty = .ok v' ∧ getField ws f.name = some v') ∧
      ∀ f' ∈ S.fields m', f'.oneof = some o → f' ≠ f → getField ws f'.name = some .nil := by
  have hch : chosen S m m' (convF S fs) o = some f.name := by
    unfold chosen
    cases hfd : ((S.fields m').filter (fun f => f.oneof == some o)).find? (isSet S m (convF S fs)) with
    | none =>
      rw [List.find?_eq_none] at hfd
      have := hfd f (by simp [List.mem_filter, hf, ho])
      rw [(isSet_iff S m fs f).mpr hset] at this
      simp at this
    | some f' =>
      have h1 := List.find?_some hfd
      have h2 := List.mem_of_find?_eq_some hfd
      rw [List.mem_filter] at h2
      have := huniq f' h2.1 (by simpa using h2.2) ((isSet_iff S m fs f').mp h1)
      rw [this]; rfl
  simp only [Val.cast, msgBody] at h
  cases hs : seqAll ((canon (S.fields m')).map (fieldResult S m m' (convF S fs))) with
  | error e => rw [hs] at h; cases h
  | ok vs =>
    rw [hs] at h
    simp only [Except.ok.injEq] at h
    refine ⟨_, h.symm, ?_⟩
    have hl := (seqAll_ok _ _).mp hs
    have hlen : vs.length = (canon (S.fields m')).length := by
      have := congrArg List.length hl; simpa using this.symm
    have hfr : ∀ f' ∈ S.fields m', ∃ v',
        getField (((canon (S.fields m')).map (·.name)).zip vs) f'.name = some v' ∧
        fieldResult S m m' (convF S fs) f' = .ok v' := by
      intro f' hf'
      have hfc := (canon_mem _ f').mpr hf'
      obtain ⟨i, hi⟩ := List.getElem?_of_mem hfc
      have hget := find_zip _ vs hlen f' hfc (canon_nodup _ hn) i hi
      have := congrArg (fun l => l[i]?) hl
      simp only [List.getElem?_map, hi, Option.map_some] at this
      cases hv : vs[i]? with
      | none => rw [hv] at this; cases this
      | some v' =>
        rw [hv] at this
        simp only [Option.map_some, Option.some.injEq] at this
        exact ⟨v', by rw [hget, hv], this⟩
    refine ⟨?_, ?_⟩
    · obtain ⟨v', h1, h2⟩ := hfr f hf
      obtain ⟨g, v, hg, hv, _⟩ := hset
      simp only [fieldResult, ho, hch, if_true, hg, getConv_eq, hv, Option.map_some] at h2
      exact ⟨g, v, v', hg, hv, h2, h1⟩
    · intro f' hf' ho' hne
      obtain ⟨v', h1, h2⟩ := hfr f' hf'
      have : f.name ≠ f'.name := by
        intro he
        apply hne
        obtain ⟨i, hi⟩ := List.getElem?_of_mem hf'
        obtain ⟨j, hj⟩ := List.getElem?_of_mem hf
        have hi' : ((S.fields m').map (·.name))[i]? = some f.name := by simp [hi, he]
        have hj' : ((S.fields m').map (·.name))[j]? = some f.name := by simp [hj]
        have hij : i = j := (List.getElem?_inj (by
          rw [List.length_map]; exact (List.getElem?_eq_some_iff.mp hi).1) hn).mp (hi'.trans hj'.symm)
        rw [hij] at hi
        rw [hi] at hj
        exact Option.some.inj hj
      simp only [fieldResult, ho', hch, Option.some.injEq, this, if_false, Except.ok.injEq] at h2
      rw [h1, h2]

/-- C25, messages: the conversion fails exactly if the conversion of some field fails (all source
fields being present). -/
theorem C25_message_error (S : Schema) (fs : List (String × Val)) (m m' : Nat) :
    (∃ e, (Val.msg fs).cast S (.msg m) (.msg m') = .error e) ↔
      ∃ f ∈ S.fields m', ∃ e, fieldResult S m m' (convF S fs) f = .error e := by
  simp only [Val.cast, msgBody]
  cases hs : seqAll ((canon (S.fields m')).map (fieldResult S m m' (convF S fs))) with
  | error e =>
    simp only [Except.error.injEq, exists_eq', true_iff]
    obtain ⟨pre, post, h⟩ := (seqAll_error _ _).mp hs
    have hm : (Except.error e : Except Err Val) ∈ (canon (S.fields m')).map (fieldResult S m m' (convF S fs)) := by
      rw [h]; simp
    obtain ⟨f, hf, he⟩ := List.mem_map.mp hm
    exact ⟨f, (canon_mem _ _).mp hf, e, he⟩
  | ok vs =>
    simp only [reduceCtorEq, exists_false, false_iff]
    rintro ⟨f, hf, e, he⟩
    have h := (seqAll_ok _ _).mp hs
    have hm : (Except.error e : Except Err Val) ∈ vs.map Except.ok := by
      rw [← h]; exact List.mem_map.mpr ⟨f, (canon_mem _ _).mpr hf, he⟩
    obtain ⟨w, _, hw⟩ := List.mem_map.mp hm
    cases hw

/-! ## Structurally equal types: nothing changes -/

/-- Values of a type. Map keys are distinct, a message has exactly its declared fields, and at most
one field of a oneof is set. -/
inductive HasType (S : Schema) : Val → Ty → Prop where
  | num (n k) : HasType S (.num n) (.num k)
  | enum (n e) : HasType S (.num n) (.enum e)
  | other (x k) : HasType S (.other x) (.other k)
  | nil (m) : HasType S .nil (.msg m)
  | list (vs t) : (∀ v ∈ vs, HasType S v t) → HasType S (.list vs) (.list t)
  | map (es k v) : (es.map (·.1)).Nodup → (∀ e ∈ es, HasType S e.1 k) → (∀ e ∈ es, HasType S e.2 v) →
      HasType S (.map es) (.map k v)
  | msg (fs m) : fs.map (·.1) = (canon (S.fields m)).map (·.name) →
      (∀ f ∈ S.fields m, ∀ v, getField fs f.name = some v → HasType S v f.ty) →
      (∀ f ∈ S.fields m, ∀ f' ∈ S.fields m, ∀ o, f.oneof = some o → f'.oneof = some o →
        ∀ v v', getField fs f.name = some v → getField fs f'.name = some v' → v ≠ .nil → v' ≠ .nil → f = f') →
      HasType S (.msg fs) (.msg m)

/-- Corresponding types: equal up to a correspondence `R` of messages, enums being mapped
identically. -/
inductive Corr (S : Schema) (R : Nat → Nat → Prop) : Ty → Ty → Prop where
  | num (k) : Corr S R (.num k) (.num k)
  | enum (e e') : (∀ n, S.enumMap e e' n = n) → Corr S R (.enum e) (.enum e')
  | other (k) : Corr S R (.other k) (.other k)
  | msg (m m') : R m m' → Corr S R (.msg m) (.msg m')
  | list (t t') : Corr S R t t' → Corr S R (.list t) (.list t')
  | map (k k' v v') : Corr S R k k' → Corr S R v v' → Corr S R (.map k v) (.map k' v')

/-- Corresponding fields: same name, same oneof, corresponding types, no renaming. -/
structure CorrField (S : Schema) (R : Nat → Nat → Prop) (f f' : FieldDef) : Prop where
  name : f.name = f'.name
  oneof : f.oneof = f'.oneof
  noAlias : f'.aliases = []
  ty : Corr S R f.ty f'.ty

/-- Two lists of the same length, related position by position. -/
inductive All2 {α β} (P : α → β → Prop) : List α → List β → Prop where
  | nil : All2 P [] []
  | cons {a b l l'} : P a b → All2 P l l' → All2 P (a :: l) (b :: l')

/-- Corresponding messages have corresponding fields, in the same order and with distinct names. -/
def CorrSchema (S : Schema) (R : Nat → Nat → Prop) : Prop :=
  ∀ m m', R m m' → ((S.fields m).map (·.name)).Nodup ∧
    All2 (CorrField S R) (S.fields m) (S.fields m')

theorem corr_conv_of_cast (S : Schema) (v : Val) (a b : Ty) (h : v.cast S a b = .ok v) : v.conv S a b = .ok v := by
  unfold Val.conv whenRequired
  split
  · exact h
  · rfl

theorem forall2_filter {P : FieldDef → FieldDef → Prop} (p : FieldDef → Bool) (l l' : List FieldDef)
    (h : All2 P l l') (hp : ∀ f f', P f f' → p f = p f') :
    All2 P (l.filter p) (l'.filter p) := by
  induction h with
  | nil => exact .nil
  | @cons f f' l l' hf _ ih =>
    have := hp f f' hf
    simp only [List.filter_cons, ← this]
    split
    · exact .cons hf ih
    · exact ih

theorem forall2_append {P : FieldDef → FieldDef → Prop} {l₁ l₁' l₂ l₂' : List FieldDef}
    (h₁ : All2 P l₁ l₁') (h₂ : All2 P l₂ l₂') : All2 P (l₁ ++ l₂) (l₁' ++ l₂') := by
  induction h₁ with
  | nil => exact h₂
  | cons hf _ ih => exact .cons hf ih

theorem forall2_canon (S : Schema) (R) (l l' : List FieldDef) (h : All2 (CorrField S R) l l') :
    All2 (CorrField S R) (canon l) (canon l') :=
  forall2_append (forall2_filter _ _ _ h (fun f f' hf => by rw [hf.oneof]))
    (forall2_filter _ _ _ h (fun f f' hf => by rw [hf.oneof]))

theorem forall2_names (S : Schema) (R) (l l' : List FieldDef) (h : All2 (CorrField S R) l l') :
    l.map (·.name) = l'.map (·.name) := by
  induction h with
  | nil => rfl
  | cons hf _ ih => simp [hf.name, ih]

theorem forall2_right (S : Schema) (R) (l l' : List FieldDef) (h : All2 (CorrField S R) l l')
    (f' : FieldDef) (hf' : f' ∈ l') : ∃ f ∈ l, CorrField S R f f' := by
  induction h with
  | nil => cases hf'
  | @cons g g' l l' hg _ ih =>
    rcases List.mem_cons.mp hf' with rfl | h
    · exact ⟨g, by simp, hg⟩
    · obtain ⟨f, hf, hc⟩ := ih h
      exact ⟨f, by simp [hf], hc⟩

theorem find_name (l : List FieldDef) (hn : (l.map (·.name)).Nodup) (f : FieldDef) (hf : f ∈ l) :
    l.find? (fun g => g.name == f.name) = some f := by
  induction l with
  | nil => cases hf
  | cons g l ih =>
    rw [List.map_cons, List.nodup_cons] at hn
    rcases List.mem_cons.mp hf with rfl | h
    · simp
    · have : (g.name == f.name) = false := by
        simp only [beq_eq_false_iff_ne, ne_eq]
        intro he; exact hn.1 (he ▸ List.mem_map.mpr ⟨f, h, rfl⟩)
      rw [List.find?_cons, this]
      exact ih hn.2 h

theorem name_inj (l : List FieldDef) (hn : (l.map (·.name)).Nodup) (f g : FieldDef) (hf : f ∈ l) (hg : g ∈ l)
    (h : f.name = g.name) : f = g := by
  have h1 := find_name l hn f hf
  have h2 := find_name l hn g hg
  rw [h] at h1
  exact Option.some.inj (h1.symm.trans h2)

theorem getField_isSome (fs : List (String × Val)) (n : String) (h : n ∈ fs.map (·.1)) :
    ∃ v, getField fs n = some v := by
  induction fs with
  | nil => cases h
  | cons p fs ih =>
    unfold getField
    rw [List.find?_cons]
    cases hp : p.1 == n with
    | true => exact ⟨p.2, rfl⟩
    | false =>
      rw [List.map_cons, List.mem_cons] at h
      rcases h with rfl | h
      · simp at hp
      · exact ih h

theorem getField_mem (fs : List (String × Val)) (hn : (fs.map (·.1)).Nodup) (p : String × Val) (hp : p ∈ fs) :
    getField fs p.1 = some p.2 := by
  induction fs with
  | nil => cases hp
  | cons q fs ih =>
    rw [List.map_cons, List.nodup_cons] at hn
    unfold getField
    rw [List.find?_cons]
    rcases List.mem_cons.mp hp with rfl | h
    · simp
    · have : (q.1 == p.1) = false := by
        simp only [beq_eq_false_iff_ne, ne_eq]
        intro he; exact hn.1 (he ▸ List.mem_map.mpr ⟨p, h, rfl⟩)
      rw [this]
      exact ih hn.2 h

theorem requiredCast_num (k : Kind) : requiredCast (.num k) (.num k) = false := by
  simp [requiredCast]

/-- C25: converting a value to a structurally equal type (possibly in another package, the messages
being different but corresponding) gives the same value. -/
theorem C25_same_structure (S : Schema) (R : Nat → Nat → Prop) (hR : CorrSchema S R) (v : Val) (a b : Ty)
    (ht : HasType S v a) (hc : Corr S R a b) : v.conv S a b = .ok v := by
  induction ht generalizing b with
  | num n k =>
    cases hc
    simp [Val.conv, whenRequired, requiredCast]
  | enum n e =>
    cases hc with
    | enum _ e' h =>
      apply corr_conv_of_cast
      simp [Val.cast, numBody, h]
  | other x k =>
    cases hc
    simp [Val.conv, whenRequired, requiredCast]
  | nil m => cases hc; exact corr_conv_of_cast _ _ _ _ rfl
  | list vs t _ ih =>
    cases hc with
    | list _ t' hc =>
      apply corr_conv_of_cast
      rw [C25_list_ok]
      exact ⟨vs, rfl, rfl, fun i v' hv => ⟨v', hv, ih v' (List.mem_of_getElem? hv) t' hc⟩⟩
  | map es k v hn _ _ ihk ihv =>
    cases hc with
    | map _ k' _ v' hck hcv =>
      apply corr_conv_of_cast
      apply C25_map_ok_partial S es es k k' v v' rfl _ hn
      intro i x hx
      have := List.mem_of_getElem? hx
      exact ⟨x, hx, ihk x this k' hck, ihv x this v' hcv⟩
  | msg fs m hfs hty huniq ih =>
    cases hc with
    | msg _ m' hRm =>
      apply corr_conv_of_cast
      obtain ⟨hnd, hF⟩ := hR m m' hRm
      have hnames := forall2_names _ _ _ _ (forall2_canon _ _ _ _ hF)
      have hnd' : ((S.fields m').map (·.name)).Nodup := by rw [← forall2_names _ _ _ _ hF]; exact hnd
      have hfsnd : (fs.map (·.1)).Nodup := by rw [hfs]; exact canon_nodup _ hnd
      have hsrc : ∀ f f', f ∈ S.fields m → CorrField S R f f' → sourceField S m f' = some f := by
        intro f f' hf hff
        unfold sourceField
        rw [hff.noAlias]
        simp only [List.find?_nil]
        rw [← hff.name]
        exact find_name _ hnd f hf
      have hget : ∀ f, f ∈ S.fields m → ∃ v, getField fs f.name = some v := by
        intro f hf
        apply getField_isSome
        rw [hfs]
        exact List.mem_map.mpr ⟨f, (canon_mem _ _).mpr hf, rfl⟩
      have hset : ∀ f f', f ∈ S.fields m → CorrField S R f f' →
          (SetIn S m fs f' ↔ ∃ v, getField fs f.name = some v ∧ v ≠ .nil) := by
        intro f f' hf hff
        unfold SetIn
        rw [hsrc f f' hf hff]
        constructor
        · rintro ⟨g, v, hg, hv, hne⟩
          cases hg
          exact ⟨v, hv, hne⟩
        · rintro ⟨v, hv, hne⟩
          exact ⟨f, v, rfl, hv, hne⟩
      have hres : ∀ f f', f ∈ S.fields m → f' ∈ S.fields m' → CorrField S R f f' → ∀ v,
          getField fs f.name = some v → fieldResult S m m' (convF S fs) f' = .ok v := by
        intro f f' hf hf' hff v hv
        have hconv := ih f hf v hv f'.ty hff.ty
        have hs := hsrc f f' hf hff
        unfold fieldResult
        cases ho : f'.oneof with
        | none => simp only [hs, getConv_eq, hv, Option.map_some]; exact hconv
        | some o =>
          simp only []
          by_cases hvn : v = .nil
          · subst hvn
            split
            · simp only [hs, getConv_eq, hv, Option.map_some]; exact hconv
            · rfl
          · have hch : chosen S m m' (convF S fs) o = some f'.name := by
              unfold chosen
              cases hfd : ((S.fields m').filter (fun f => f.oneof == some o)).find? (isSet S m (convF S fs)) with
              | none =>
                rw [List.find?_eq_none] at hfd
                have := hfd f' (by simp [List.mem_filter, hf', ho])
                rw [(isSet_iff S m fs f').mpr ((hset f f' hf hff).mpr ⟨v, hv, hvn⟩)] at this
                simp at this
              | some g' =>
                have h1 := List.find?_some hfd
                have h2 := List.mem_of_find?_eq_some hfd
                rw [List.mem_filter] at h2
                obtain ⟨g, hg, hgg⟩ := forall2_right _ _ _ _ hF g' h2.1
                obtain ⟨u, hu, hun⟩ := (hset g g' hg hgg).mp ((isSet_iff S m fs g').mp h1)
                have hgo : g'.oneof = some o := by simpa using h2.2
                have : g = f := huniq g hg f hf o (hgg.oneof.trans hgo) (hff.oneof.trans ho) u v hu hv hun hvn
                subst this
                simp only [Option.map_some, Option.some.injEq]
                rw [← hgg.name, ← hff.name]
            rw [if_pos hch]
            simp only [hs, getConv_eq, hv, Option.map_some]
            exact hconv
      have hall : (canon (S.fields m')).map (fieldResult S m m' (convF S fs)) = (fs.map (·.2)).map .ok := by
        have hgen : ∀ (l l' : List FieldDef) (ps : List (String × Val)), All2 (CorrField S R) l l' →
            (∀ f ∈ l, f ∈ S.fields m) → (∀ f ∈ l', f ∈ S.fields m') → (∀ p ∈ ps, p ∈ fs) →
            ps.map (·.1) = l.map (·.name) →
            l'.map (fieldResult S m m' (convF S fs)) = (ps.map (·.2)).map .ok := by
          intro l l' ps h
          induction h generalizing ps with
          | nil => intro _ _ _ hp; cases ps with
            | nil => rfl
            | cons _ _ => cases hp
          | @cons f f' l l' hff _ ih2 =>
            intro hl hl' hps hp
            cases ps with
            | nil => cases hp
            | cons p ps =>
              simp only [List.map_cons, List.cons.injEq] at hp ⊢
              refine ⟨?_, ih2 ps (fun f hf => hl f (by simp [hf])) (fun f hf => hl' f (by simp [hf]))
                (fun f hf => hps f (by simp [hf])) hp.2⟩
              apply hres f f' (hl f (by simp)) (hl' f' (by simp)) hff
              rw [← hp.1]
              exact getField_mem fs hfsnd p (hps p (by simp))
        exact hgen _ _ fs (forall2_canon _ _ _ _ hF) (fun f hf => (canon_mem _ _).mp hf)
          (fun f hf => (canon_mem _ _).mp hf) (fun _ h => h) hfs
      simp only [Val.cast, msgBody]
      rw [(seqAll_ok _ (fs.map (·.2))).mpr hall]
      simp only [Except.ok.injEq, Val.msg.injEq]
      rw [← hnames, ← hfs]
      clear hfs hty huniq ih hget hset hres hall hsrc hfsnd
      induction fs with
      | nil => rfl
      | cons p fs ih => simp [ih]

/-! ## Renamed fields -/

/-- C56 (partial: from the message that is aliased to the message that declares the alias). The
value of a renamed field arrives, converted, in the field declaring the rename. -/
theorem C56_renamed_field_partial (S : Schema) (fs : List (String × Val)) (m m' : Nat) (w : Val)
    (h : (Val.msg fs).cast S (.msg m) (.msg m') = .ok w)
    (hn : ((S.fields m').map (·.name)).Nodup) (hn' : ((S.fields m).map (·.name)).Nodup)
    (f g : FieldDef) (hf : f ∈ S.fields m') (ho : f.oneof = none) (hg : g ∈ S.fields m)
    (halias : f.aliases.find? (fun a => a.1 == m) = some (m, g.name)) :
    ∃ ws v v', w = .msg ws ∧ getField fs g.name = some v ∧ v.conv S g.ty f.ty = .ok v' ∧
      getField ws f.name = some v' := by
  obtain ⟨ws, hw, hall⟩ := C25_message_fields S fs m m' w h hn
  have hs : sourceField S m f = some g := by
    unfold sourceField
    rw [halias]
    exact find_name _ hn' g hg
  obtain ⟨v, v', h1, h2, h3⟩ := (hall f hf ho).1 g hs
  exact ⟨ws, v, v', hw, h1, h2, h3⟩

/-- Service message 1 with field `name` declared as an alias of `title` of dependency message 0. -/
def renameSchema : Schema :=
  ⟨fun m => if m = 0 then [{ name := "title", ty := .other 0 }]
    else [{ name := "name", ty := .other 0, aliases := [(0, "title")] }], fun _ _ n => n⟩

example : ∃ ws v v', Val.msg [("name", .other 7)] = .msg ws ∧ getField [("title", Val.other 7)] "title" = some v ∧
    v.conv renameSchema (.other 0) (.other 0) = .ok v' ∧ getField ws "name" = some v' :=
  C56_renamed_field_partial renameSchema [("title", .other 7)] 0 1 _ rfl (by decide) (by decide)
    { name := "name", ty := .other 0, aliases := [(0, "title")] } { name := "title", ty := .other 0 }
    (by decide) rfl (by decide) rfl

/-- C56 is false of the code in the other direction: converting back loses the renamed field. -/
theorem C56_renamed_field_false : ∃ (S : Schema) (v w u : Val),
    v.cast S (.msg 0) (.msg 1) = .ok w ∧ w.cast S (.msg 1) (.msg 0) = .ok u ∧
    v = .msg [("title", .other 7)] ∧ u = .msg [("title", .other 0)] :=
  ⟨renameSchema, .msg [("title", .other 7)], .msg [("name", .other 7)], .msg [("title", .other 0)],
    rfl, rfl, rfl, rfl⟩

/-! ## Cases -/

/-- Two packages with the same recursive message: an id, children, labels by number and a oneof. -/
def twoPackages : Schema :=
  ⟨fun m => [{ name := "id", ty := .num .int64 }, { name := "a", ty := .msg m, oneof := some "o" },
    { name := "children", ty := .list (.msg m) }, { name := "labels", ty := .map (.num .int32) (.enum m) },
    { name := "b", ty := .msg m, oneof := some "o" }], fun _ _ n => n⟩

def leaf (n : Int) : Val :=
  .msg [("id", .num n), ("children", .list []), ("labels", .map []), ("a", .nil), ("b", .nil)]

def node : Val :=
  .msg [("id", .num 1), ("children", .list [leaf 2, .nil]), ("labels", .map [(.num 1, .num 2), (.num 3, .num 2)]),
    ("a", .nil), ("b", leaf 4)]

example : CorrSchema twoPackages (fun _ _ => True) := by
  intro m m' _
  refine ⟨by simp [twoPackages], ?_⟩
  refine .cons ⟨rfl, rfl, rfl, .num _⟩ (.cons ⟨rfl, rfl, rfl, .msg _ _ trivial⟩
    (.cons ⟨rfl, rfl, rfl, .list _ _ (.msg _ _ trivial)⟩ (.cons ⟨rfl, rfl, rfl, .map _ _ _ _ (.num _) (.enum _ _ (fun _ => rfl))⟩
    (.cons ⟨rfl, rfl, rfl, .msg _ _ trivial⟩ .nil))))

example : node.conv twoPackages (.msg 0) (.msg 1) = .ok node := rfl

theorem leaf_typed (n : Int) : HasType twoPackages (leaf n) (.msg 0) := by
  refine .msg _ _ rfl ?_ ?_
  · intro f hf v hv
    simp only [twoPackages, List.mem_cons, List.not_mem_nil, or_false] at hf
    rcases hf with rfl | rfl | rfl | rfl | rfl <;>
      simp only [getField, List.find?_cons, String.reduceBEq, Option.map_some, Option.some.injEq] at hv <;> subst hv
    · exact .num _ _
    · exact .nil _
    · exact .list _ _ (fun _ h => by cases h)
    · exact .map _ _ _ List.nodup_nil (fun _ h => by cases h) (fun _ h => by cases h)
    · exact .nil _
  · intro f hf f' hf' o ho ho' v v' hv hv' h h'
    simp only [twoPackages, List.mem_cons, List.not_mem_nil, or_false] at hf
    rcases hf with rfl | rfl | rfl | rfl | rfl <;>
      simp only [getField, List.find?_cons, String.reduceBEq, Option.map_some, Option.some.injEq, reduceCtorEq] at hv ho <;> simp_all

/-- The hypotheses of C25_same_structure are met by a nested message. -/
example : HasType twoPackages node (.msg 0) := by
  refine .msg _ _ rfl ?_ ?_
  · intro f hf v hv
    simp only [twoPackages, List.mem_cons, List.not_mem_nil, or_false] at hf
    rcases hf with rfl | rfl | rfl | rfl | rfl <;>
      simp only [getField, List.find?_cons, String.reduceBEq, Option.map_some, Option.some.injEq] at hv <;> subst hv
    · exact .num _ _
    · exact .nil _
    · refine .list _ _ (fun v h => ?_)
      simp only [List.mem_cons, List.not_mem_nil, or_false] at h
      rcases h with rfl | rfl
      · exact leaf_typed 2
      · exact .nil _
    · refine .map _ _ _ (by simp) (fun e h => ?_) (fun e h => ?_) <;>
        simp only [List.mem_cons, List.not_mem_nil, or_false] at h <;> rcases h with rfl | rfl
      · exact .num _ _
      · exact .num _ _
      · exact .enum _ _
      · exact .enum _ _
    · exact leaf_typed 4
  · intro f hf f' hf' o ho ho' v v' hv hv' h h'
    simp only [twoPackages, List.mem_cons, List.not_mem_nil, or_false] at hf hf'
    rcases hf with rfl | rfl | rfl | rfl | rfl <;> rcases hf' with rfl | rfl | rfl | rfl | rfl <;>
      simp only [getField, List.find?_cons, String.reduceBEq, Option.map_some, Option.some.injEq, reduceCtorEq] at hv hv' ho ho' <;>
      first | rfl | (exfalso; apply h; exact hv.symm) | (exfalso; apply h'; exact hv'.symm)

/-- A list whose second element overflows fails; without it all elements are converted. -/
example : (Val.list [.num 1, .num 4294967296]).cast twoPackages (.list (.num .int64)) (.list (.num .int32)) = .error .overflow := rfl
example : (Val.list [.num 1, .num 5]).cast twoPackages (.list (.num .int64)) (.list (.num .int32)) = .ok (.list [.num 1, .num 5]) := rfl
example : (Val.map [(.num 1, .num 5)]).cast twoPackages (.map (.num .int64) (.num .int64)) (.map (.num .int32) (.num .int32)) = .ok (.map [(.num 1, .num 5)]) := rfl
example : (Val.map [(.num 1, .num 4294967296)]).cast twoPackages (.map (.num .int64) (.num .int64)) (.map (.num .int32) (.num .int32)) = .error .overflow := rfl
example : SetIn twoPackages 0 [("b", leaf 4)] { name := "b", ty := .msg 0, oneof := some "o" } :=
  ⟨{ name := "b", ty := .msg 0, oneof := some "o" }, leaf 4, rfl, rfl, by simp [leaf]⟩

/-! ## Numbers and enums inside other values -/

theorem conv_wraps (t : GoInt) (v : Int) : InRange t (conv t v) ∧ (t.hi - t.lo + 1) ∣ (conv t v - v) := by
  cases t <;> simp only [InRange, conv, GoInt.lo, GoInt.hi, Int.reduceNeg, Int.reduceSub, Int.reduceAdd] <;> omega

/-- C25: an enum that becomes a number, and a number that becomes an enum without being checked, always has a result. It is a
value of the target type, equal to the old one up to a multiple of the size of that type; so a value that fits is kept. -/
theorem C25_enum_number (S : Schema) (n : Int) (e : Nat) (k : Kind) (hk : k ≠ .enum) :
    (∃ r, (Val.num n).conv S (.enum e) (.num k) = .ok (.num r) ∧ InRange k.go r ∧ (k.go.hi - k.go.lo + 1) ∣ (r - n) ∧
      (InRange k.go n → r = n)) ∧
    ∃ r, (Val.num n).conv S (.num k) (.enum e) = .ok (.num r) ∧ InRange .int32 r ∧ (2 ^ 32 : Int) ∣ (r - n) ∧
      (InRange .int32 n → r = n) := by
  have fits : ∀ t : GoInt, InRange t n → conv t n = n := by
    intro t; cases t <;> simp only [InRange, conv, GoInt.lo, GoInt.hi, Int.reduceNeg, Int.reduceSub, Int.reduceAdd] <;> omega
  refine ⟨⟨conv k.go n, ?_, (conv_wraps _ _).1, (conv_wraps _ _).2, fits _⟩,
    ⟨conv .int32 n, ?_, (conv_wraps .int32 n).1, (conv_wraps .int32 n).2, fits _⟩⟩
  · simp [Val.conv, whenRequired, requiredCast, Val.cast, numBody, generatedCast, hk]
  · simp [Val.conv, whenRequired, requiredCast, Val.cast, numBody, generatedCast, hk, Kind.go]

/-- C25: a list of values of an enum becomes the list of what each of them is mapped to, in the same order. -/
theorem C25_enum_list (S : Schema) (ns : List Int) (e e' : Nat) (he : e ≠ e') :
    (Val.list (ns.map .num)).conv S (.list (.enum e)) (.list (.enum e')) =
      .ok (.list (ns.map fun n => .num (S.enumMap e e' n))) := by
  have hs : seqAll ((ns.map Val.num).map fun v => v.conv S (.enum e) (.enum e')) =
      .ok (ns.map fun n => .num (S.enumMap e e' n)) := by
    induction ns with
    | nil => rfl
    | cons n ns ih =>
      simp only [List.map_cons]
      have hn : (Val.num n).conv S (.enum e) (.enum e') = .ok (.num (S.enumMap e e' n)) := by
        simp [Val.conv, whenRequired, requiredCast, Val.cast, numBody, he]
      rw [hn]
      simp only [seqAll, ih]
  have hc : (Val.list (ns.map .num)).conv S (.list (.enum e)) (.list (.enum e')) =
      listBody (convL S (ns.map .num)) (.enum e) (.enum e') := by
    rw [Val.conv, whenRequired, if_pos (by simp [requiredCast, he]), Val.cast]
  rw [hc, convL_eq, listBody, List.map_map]
  have : (fun c : Conv => c (.enum e) (.enum e')) ∘ (fun v => Val.conv S v) = fun v => v.conv S (.enum e) (.enum e') := rfl
  rw [this, hs]

example : (Val.num (-1)).conv twoPackages (.enum 0) (.num .uint32) = .ok (.num 4294967295) := rfl
example : (Val.list [.num 1, .num 2]).conv { fields := fun _ => [], enumMap := fun _ _ n => 3 - n } (.list (.enum 0)) (.list (.enum 1)) =
    .ok (.list [.num 2, .num 1]) := rfl

end Verif.Cast
