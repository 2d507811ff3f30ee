import Verif.LogFn.Spec

/-! # Lemmas for C101 -/

namespace Verif.LogFn
open Verif.GoNames

def Expr.callees : Expr → List Name
  | .call f | .callString f | .stringCall f => [f]
  | _ => []

def Fn.callees (f : Fn) : List Name :=
  match f.body with
  | .slice c => [c]
  | .map e => e.callees
  | .msg attrs => attrs.flatMap (·.val.callees)
  | .enum _ => []

theorem has_iff {st : St} {n : Name} : has st n = true ↔ ∃ f ∈ st, f.name = n := by simp [has]

theorem has_append {st st' : St} {n : Name} (h : has st n = true) : has (st ++ st') n = true := by
  simp only [has, List.any_append, Bool.or_eq_true]; exact .inl h

theorem fnName_makeFn (w : World) (t : Ty) : (makeFn w t).name = fnName w t := by
  match t with
  | .scalar _ _ => rfl
  | .msg _ true => rfl
  | .msg _ false => rfl
  | .enum _ true => rfl
  | .enum _ false => rfl
  | .map _ _ _ => rfl

theorem param_makeFn (w : World) (t : Ty) : (makeFn w t).param = goTy t := by
  match t with
  | .scalar _ _ => rfl
  | .msg _ true => rfl
  | .msg _ false => rfl
  | .enum _ true => rfl
  | .enum _ false => rfl
  | .map _ _ _ => rfl

theorem logExpr_callees (w : World) (t : Ty) : ∀ c ∈ (logExpr w t).callees, ¬ IsScalar t ∧ c = fnName w t := by
  intro c hc
  match t with
  | .msg _ r => simp [logExpr, Expr.callees] at hc; exact ⟨id, hc⟩
  | .enum _ true => simp [logExpr, Expr.callees] at hc; exact ⟨id, hc⟩
  | .enum _ false => simp [logExpr, Expr.callees] at hc; exact ⟨id, hc⟩
  | .map _ _ _ => simp [logExpr, Expr.callees] at hc; exact ⟨id, hc⟩
  | .scalar k true => simp [logExpr, Expr.callees] at hc
  | .scalar k false => cases k <;> simp [logExpr, Expr.callees] at hc

theorem logMapExpr_callees (w : World) (t : Ty) : ∀ c ∈ (logMapExpr w t).callees, ¬ IsScalar t ∧ c = fnName w t := by
  intro c hc
  match t with
  | .msg _ r => simp [logMapExpr, Expr.callees] at hc; exact ⟨id, hc⟩
  | .enum _ true => simp [logMapExpr, Expr.callees] at hc; exact ⟨id, hc⟩
  | .enum _ false => simp [logMapExpr, Expr.callees] at hc; exact ⟨id, hc⟩
  | .map _ _ _ => simp [logMapExpr, Expr.callees] at hc; exact ⟨id, hc⟩
  | .scalar k r => cases k <;> simp [logMapExpr, Expr.callees] at hc

/-- What a walk does to the functions. -/
structure Grown (w : World) (roots : List Nat) (st st' : St) : Prop where
  ext : ∃ new, st' = st ++ new ∧ ∀ f ∈ new, (∃ t, Occurs w roots t ∧ ¬ IsScalar t ∧ f = makeFn w t) ∧
    ∀ c ∈ f.callees, has st' c = true
  nodup : (st.map (·.name)).Nodup → (st'.map (·.name)).Nodup

theorem Grown.has {w roots st st'} (h : Grown w roots st st') {n : Name} (hn : has st n = true) : has st' n = true := by
  obtain ⟨new, rfl, _⟩ := h.ext
  exact has_append hn

theorem Grown.refl {w roots st} : Grown w roots st st := ⟨⟨[], by simp⟩, id⟩

theorem Grown.trans {w roots a b c} (h : Grown w roots a b) (h' : Grown w roots b c) : Grown w roots a c := by
  obtain ⟨n1, e1, h1⟩ := h.ext
  obtain ⟨n2, e2, h2⟩ := h'.ext
  refine ⟨⟨n1 ++ n2, by rw [e2, e1, List.append_assoc], fun f hf => ?_⟩, fun hn => h'.nodup (h.nodup hn)⟩
  rcases List.mem_append.1 hf with hf | hf
  · exact ⟨(h1 f hf).1, fun c hc => h'.has ((h1 f hf).2 c hc)⟩
  · exact h2 f hf

theorem nodup_snoc {st : St} {f : Fn} (hn : Verif.LogFn.has st f.name = false) (h : (st.map (·.name)).Nodup) :
    ((st ++ [f]).map (·.name)).Nodup := by
  rw [List.map_append, List.nodup_append]
  refine ⟨h, by simp, ?_⟩
  intro a ha b hb e
  simp only [List.map_cons, List.map_nil, List.mem_singleton] at hb
  subst hb
  obtain ⟨g, hg, e'⟩ := List.mem_map.1 ha
  have : Verif.LogFn.has st f.name = true := has_iff.2 ⟨g, hg, e'.trans e⟩
  rw [hn] at this
  cases this

/-- A function is added before the walk goes on. -/
theorem Grown.push {w roots st st'} {t : Ty} (ht : Occurs w roots t) (hs : ¬ IsScalar t)
    (hn : Verif.LogFn.has st (fnName w t) = false) (h : Grown w roots (st ++ [makeFn w t]) st')
    (hc : ∀ c ∈ (makeFn w t).callees, Verif.LogFn.has st' c = true) : Grown w roots st st' := by
  obtain ⟨new, e, hnew⟩ := h.ext
  refine ⟨⟨makeFn w t :: new, by rw [e]; simp, fun f hf => ?_⟩, fun hd => h.nodup (nodup_snoc (by rw [fnName_makeFn]; exact hn) hd)⟩
  rcases List.mem_cons.1 hf with rfl | hf
  · exact ⟨⟨t, ht, hs, rfl⟩, hc⟩
  · exact hnew f hf

theorem grown_add {w roots st} {t : Ty} (ht : Occurs w roots t) (hs : ¬ IsScalar t)
    (hc : ∀ c ∈ (makeFn w t).callees, has st c = true) :
    Grown w roots st (add st (makeFn w t)) ∧ has (add st (makeFn w t)) (fnName w t) = true := by
  unfold add
  rw [fnName_makeFn]
  cases hh : has st (fnName w t) with
  | true => simp only [if_true]; exact ⟨.refl, hh⟩
  | false =>
    simp only [Bool.false_eq_true, if_false]
    exact ⟨.push ht hs hh .refl fun c h => has_append (hc c h), has_iff.2 ⟨makeFn w t, by simp, fnName_makeFn w t⟩⟩

theorem visitAll_grown {w roots} {v : Ty → St → Option St}
    (hv : ∀ t st st', Occurs w roots t → v t st = some st' →
      Grown w roots st st' ∧ (¬ IsScalar t → has st' (fnName w t) = true)) :
    ∀ (ts : List Ty) (st st' : St), (∀ t ∈ ts, Occurs w roots t) → visitAll v ts st = some st' →
      Grown w roots st st' ∧ ∀ t ∈ ts, ¬ IsScalar t → has st' (fnName w t) = true
  | [], st, st', _, h => by simp [visitAll] at h; subst h; exact ⟨.refl, by simp⟩
  | t :: ts, st, st', ho, h => by
    simp only [visitAll] at h
    cases h1 : v t st with
    | none => rw [h1] at h; cases h
    | some st1 =>
      rw [h1] at h
      have a := hv t st st1 (ho t (by simp)) h1
      have b := visitAll_grown hv ts st1 st' (fun t ht => ho t (by simp [ht])) h
      refine ⟨a.1.trans b.1, fun u hu hs => ?_⟩
      rcases List.mem_cons.1 hu with rfl | hu
      · exact b.1.has (a.2 hs)
      · exact b.2 u hu hs

theorem occurs_children {w roots i} (h : Occurs w roots (.msg i false)) : ∀ t ∈ children (w.msg i), Occurs w roots t := by
  intro t ht
  simp only [children, List.mem_append, List.mem_map] at ht
  rcases ht with (⟨f, hf, rfl⟩ | ht) | ⟨e, he, rfl⟩
  · exact .field h hf
  · exact .nested h ht
  · exact .enum h he

theorem attrs_callees {w : World} {fields : List Field} {c : Name}
    (hc : c ∈ (fields.map (attr w)).flatMap (·.val.callees)) : ∃ f ∈ fields, ¬ IsScalar f.ty ∧ c = fnName w f.ty := by
  simp only [List.mem_flatMap, List.mem_map] at hc
  obtain ⟨_, ⟨f, hf, rfl⟩, hc⟩ := hc
  exact ⟨f, hf, logExpr_callees w f.ty c hc⟩

theorem visit_grown {w roots} : ∀ (n : Nat) (t : Ty) (st st' : St), Occurs w roots t → visit w n t st = some st' →
    Grown w roots st st' ∧ (¬ IsScalar t → has st' (fnName w t) = true)
  | 0, _, _, _, _, h => by simp [visit] at h
  | n + 1, .scalar k r, st, st', _, h => by
    simp [visit] at h; subst h; exact ⟨.refl, fun h => absurd trivial h⟩
  | n + 1, .map nm k v, st, st', ho, h => by
    simp only [visit] at h
    cases hh : has st (fnName w (.map nm k v)) with
    | true => simp only [hh, if_true] at h; cases h; exact ⟨.refl, fun _ => hh⟩
    | false =>
      simp only [hh, Bool.false_eq_true, if_false] at h
      have a := visit_grown n v _ st' (.value ho) h
      refine ⟨.push ho id hh a.1 fun c hc => ?_, fun _ => a.1.has (has_iff.2 ⟨_, by simp, fnName_makeFn w (.map nm k v)⟩)⟩
      obtain ⟨h1, h2⟩ := logMapExpr_callees w v c hc
      rw [h2]; exact a.2 h1
  | n + 1, .enum e r, st, st', ho, h => by
    simp only [visit, Option.some.injEq] at h
    have hof : Occurs w roots (.enum e false) := by cases r; exact ho; exact .enumElement ho
    have a := grown_add (st := st) hof id (by simp [makeFn, Fn.callees])
    cases r with
    | false => simp only [Bool.false_eq_true, if_false] at h; subst h; exact ⟨a.1, fun _ => a.2⟩
    | true =>
      simp only [if_true] at h
      subst h
      have b := grown_add (st := add st (makeFn w (.enum e false))) ho id (by
        intro c hc; simp [makeFn, Fn.callees] at hc; rw [hc]; exact a.2)
      exact ⟨a.1.trans b.1, fun _ => b.2⟩
  | n + 1, .msg i r, st, st', ho, h => by
    have hof : Occurs w roots (.msg i false) := by cases r; exact ho; exact .element ho
    have key : ∀ s, (if has st (fnName w (.msg i false)) then some st
        else visitAll (visit w n) (children (w.msg i)) (st ++ [makeFn w (.msg i false)])) = some s →
        Grown w roots st s ∧ has s (fnName w (.msg i false)) = true := by
      intro s hs
      cases hh : has st (fnName w (.msg i false)) with
      | true => simp only [hh, if_true] at hs; cases hs; exact ⟨.refl, hh⟩
      | false =>
        simp only [hh, Bool.false_eq_true, if_false] at hs
        have a := visitAll_grown (visit_grown n) _ _ s (occurs_children hof) hs
        refine ⟨.push hof id hh a.1 fun c hc => ?_, a.1.has (has_iff.2 ⟨_, by simp, fnName_makeFn w (.msg i false)⟩)⟩
        obtain ⟨f, hf, h1, h2⟩ := attrs_callees hc
        rw [h2]
        exact a.2 f.ty (by simp only [children, List.mem_append, List.mem_map]; exact .inl (.inl ⟨f, hf, rfl⟩)) h1
    simp only [visit] at h
    cases r with
    | false => simp only [Bool.false_eq_true, if_false] at h; exact ⟨(key st' h).1, fun _ => (key st' h).2⟩
    | true =>
      simp only [if_true, Option.map_eq_some_iff] at h
      obtain ⟨s, hs, rfl⟩ := h
      have a := key s hs
      have b := grown_add (st := s) ho id (by
        intro c hc; simp [makeFn, Fn.callees] at hc; rw [hc]; exact a.2)
      exact ⟨a.1.trans b.1, fun _ => b.2⟩

/-- What holds of the functions after some messages. -/
structure Good (w : World) (roots : List Nat) (st : St) : Prop where
  made : ∀ f ∈ st, (∃ t, Occurs w roots t ∧ ¬ IsScalar t ∧ f = makeFn w t) ∨
    ∃ i fields used, i ∈ roots ∧ (w.msg i).arg = some (fields, used) ∧ f = argFn w (w.msg i) fields
  calls : ∀ f ∈ st, ∀ c ∈ f.callees, has st c = true
  nodup : (st.map (·.name)).Nodup

theorem Good.grown {w roots st st'} (h : Good w roots st) (g : Grown w roots st st') : Good w roots st' := by
  obtain ⟨new, e, hnew⟩ := g.ext
  refine ⟨fun f hf => ?_, fun f hf c hc => ?_, g.nodup h.nodup⟩
  · rw [e] at hf
    rcases List.mem_append.1 hf with hf | hf
    · exact h.made f hf
    · exact .inl (hnew f hf).1
  · have hf' := hf
    rw [e] at hf'
    rcases List.mem_append.1 hf' with hf' | hf'
    · exact g.has (h.calls f hf' c hc)
    · exact (hnew f hf').2 c hc

theorem visitArg_good {w roots n i st st'} (hi : i ∈ roots) (h : Good w roots st)
    (hv : visitArg w n (w.msg i) st = some st') : Good w roots st' ∧ (∀ m, has st m = true → has st' m = true) ∧
      ((w.msg i).arg.isSome → has st' (logvalue (fqdnToGoName (w.msg i).argName)) = true) := by
  unfold visitArg at hv
  cases ha : (w.msg i).arg with
  | none => rw [ha] at hv; simp only [Option.some.injEq] at hv; subst hv; exact ⟨h, fun _ => id, by simp⟩
  | some p =>
    obtain ⟨fields, used⟩ := p
    rw [ha] at hv
    simp only at hv
    cases hh : has st (argFn w (w.msg i) fields).name with
    | true => simp only [hh, if_true] at hv; cases hv; exact ⟨h, fun _ => id, fun _ => hh⟩
    | false =>
      simp only [hh, Bool.false_eq_true, if_false] at hv
      have a := visitAll_grown (visit_grown n) _ _ st' (by
        intro t ht
        obtain ⟨f, hf, rfl⟩ := List.mem_map.1 ht
        exact .arg hi ha hf) hv
      have hown : ∀ c ∈ (argFn w (w.msg i) fields).callees, has st' c = true := by
        intro c hc
        obtain ⟨f, hf, h1, h2⟩ := attrs_callees hc
        rw [h2]
        exact a.2 f.ty (List.mem_map.2 ⟨f, hf, rfl⟩) h1
      obtain ⟨new, e, hnew⟩ := a.1.ext
      refine ⟨⟨fun f hf => ?_, fun f hf c hc => ?_, a.1.nodup (nodup_snoc hh h.nodup)⟩,
        fun m hm => a.1.has (has_append hm), fun _ => a.1.has (has_iff.2 ⟨argFn w (w.msg i) fields, by simp, rfl⟩)⟩
      · rw [e] at hf
        simp only [List.mem_append, List.mem_singleton] at hf
        rcases hf with (hf | rfl) | hf
        · exact h.made f hf
        · exact .inr ⟨i, fields, used, hi, ha, rfl⟩
        · exact .inl (hnew f hf).1
      · have hf' := hf
        rw [e] at hf'
        simp only [List.mem_append, List.mem_singleton] at hf'
        rcases hf' with (hf' | rfl) | hf'
        · exact a.1.has (has_append (h.calls f hf' c hc))
        · exact hown c hc
        · exact (hnew f hf').2 c hc

theorem logValues_good {w n roots} : ∀ (is : List Nat) (st st' : St), (∀ i ∈ is, i ∈ roots) → Good w roots st →
    logValues w n is st = some st' → Good w roots st' ∧ (∀ m, has st m = true → has st' m = true) ∧
      ∀ i ∈ is, has st' (fnName w (.msg i false)) = true ∧
        ((w.msg i).arg.isSome → has st' (logvalue (fqdnToGoName (w.msg i).argName)) = true)
  | [], st, st', _, hg, h => by simp [logValues] at h; subst h; exact ⟨hg, fun _ => id, by simp⟩
  | i :: is, st, st', hi, hg, h => by
    simp only [logValues] at h
    cases h1 : visitArg w n (w.msg i) st with
    | none => rw [h1] at h; cases h
    | some s1 =>
      rw [h1] at h
      simp only at h
      cases h2 : visit w n (.msg i false) s1 with
      | none => rw [h2] at h; cases h
      | some s2 =>
        rw [h2] at h
        simp only at h
        have a := visitArg_good (hi i (by simp)) hg h1
        have b := visit_grown n _ _ _ (.root (hi i (by simp))) h2
        have c := logValues_good is s2 st' (fun j hj => hi j (by simp [hj])) (a.1.grown b.1) h
        refine ⟨c.1, fun m hm => c.2.1 m (b.1.has (a.2.1 m hm)), fun j hj => ?_⟩
        rcases List.mem_cons.1 hj with rfl | hj
        · exact ⟨c.2.1 _ (b.2 id), fun hs => c.2.1 _ (b.1.has (a.2.2 hs))⟩
        · exact c.2.2 j hj

theorem good_nil {w roots} : Good w roots [] := ⟨by simp, by simp, by simp⟩

/-! ### The walk ends -/

def tsize : Ty → Nat
  | .map _ _ v => tsize v + 1
  | _ => 1

/-- The messages that have no function yet. -/
def rest (w : World) (st : St) : Nat :=
  ((List.range w.msgs.length).filter fun i => !has st (fnName w (.msg i false))).length

theorem rest_mono {w : World} {st st' : St} (h : ∀ n, has st n = true → has st' n = true) : rest w st' ≤ rest w st := by
  unfold rest
  rw [← List.countP_eq_length_filter, ← List.countP_eq_length_filter]
  apply List.countP_mono_left
  intro i _ hi
  simp only [Bool.not_eq_true'] at hi ⊢
  cases hh : has st (fnName w (.msg i false)) with
  | false => rfl
  | true => rw [h _ hh] at hi; cases hi

theorem rest_push {w : World} {st : St} {i : Nat} (hi : i < w.msgs.length)
    (hn : has st (fnName w (.msg i false)) = false) : rest w (st ++ [makeFn w (.msg i false)]) < rest w st := by
  unfold rest
  rw [← List.countP_eq_length_filter, ← List.countP_eq_length_filter]
  have hmono : ∀ j, (!has (st ++ [makeFn w (.msg i false)]) (fnName w (.msg j false))) = true →
      (!has st (fnName w (.msg j false))) = true := by
    intro j hj
    simp only [Bool.not_eq_true'] at hj ⊢
    cases hh : has st (fnName w (.msg j false)) with
    | false => rfl
    | true => rw [has_append hh] at hj; cases hj
  obtain ⟨l1, l2, e⟩ := List.append_of_mem (List.mem_range.2 hi)
  rw [e, List.countP_append, List.countP_append, List.countP_cons, List.countP_cons]
  have h1 : has (st ++ [makeFn w (.msg i false)]) (fnName w (.msg i false)) = true :=
    has_iff.2 ⟨_, by simp, fnName_makeFn w (.msg i false)⟩
  have a := List.countP_mono_left (l := l1) (fun j _ => hmono j)
  have b := List.countP_mono_left (l := l2) (fun j _ => hmono j)
  simp only [h1, hn, Bool.not_true, Bool.not_false, Bool.false_eq_true, if_false, if_true]
  omega

theorem visitAll_some {w : World} {v : Ty → St → Option St} {r : Nat} {P : Ty → Prop}
    (hv : ∀ t st, P t → rest w st ≤ r → ∃ st', v t st = some st' ∧ ∀ n, has st n = true → has st' n = true) :
    ∀ (ts : List Ty) (st : St), (∀ t ∈ ts, P t) → rest w st ≤ r →
      ∃ st', visitAll v ts st = some st' ∧ ∀ n, has st n = true → has st' n = true
  | [], st, _, _ => ⟨st, rfl, fun _ => id⟩
  | t :: ts, st, hp, hr => by
    obtain ⟨s1, h1, h2⟩ := hv t st (hp t (by simp)) hr
    obtain ⟨s2, h3, h4⟩ := visitAll_some hv ts s1 (fun t ht => hp t (by simp [ht])) (Nat.le_trans (rest_mono h2) hr)
    exact ⟨s2, by simp [visitAll, h1, h3], fun n hn => h4 n (h2 n hn)⟩

theorem has_add {st : St} {f : Fn} {n : Name} (h : has st n = true) : has (add st f) n = true := by
  unfold add; split
  · exact h
  · exact has_append h

theorem children_noMsg : children noMsg = [] := rfl

theorem msg_out {w : World} {i : Nat} (h : ¬ i < w.msgs.length) : w.msg i = noMsg := by
  unfold World.msg
  rw [List.getD_eq_getElem?_getD, List.getElem?_eq_none (by omega)]
  rfl

theorem visit_some {w : World} {D : Nat} (hD : ∀ i, ∀ t ∈ children (w.msg i), tsize t ≤ D) :
    ∀ (r : Nat) (t : Ty) (st : St) (n : Nat), rest w st ≤ r → r * (D + 2) + tsize t + 1 ≤ n →
      ∃ st', visit w n t st = some st' ∧ ∀ m, has st m = true → has st' m = true := by
  intro r
  induction r with
  | zero =>
    intro t
    induction t with
    | scalar k r =>
      intro st n _ hn
      obtain ⟨n, rfl⟩ : ∃ m, n = m + 1 := ⟨n - 1, by omega⟩
      exact ⟨st, rfl, fun _ => id⟩
    | enum e r =>
      intro st n _ hn
      obtain ⟨n, rfl⟩ : ∃ m, n = m + 1 := ⟨n - 1, by omega⟩
      refine ⟨_, rfl, fun m hm => ?_⟩
      cases r
      · exact has_add hm
      · exact has_add (has_add hm)
    | map nm k v ih =>
      intro st n hr hn
      obtain ⟨n, rfl⟩ : ∃ m, n = m + 1 := ⟨n - 1, by omega⟩
      simp only [visit]
      split
      · exact ⟨st, rfl, fun _ => id⟩
      · obtain ⟨s, h1, h2⟩ := ih (st ++ [makeFn w (.map nm k v)]) n
          (Nat.le_trans (rest_mono fun m hm => has_append hm) hr) (by simp only [tsize] at hn; omega)
        exact ⟨s, h1, fun m hm => h2 m (has_append hm)⟩
    | msg i rep =>
      intro st n hr hn
      obtain ⟨n, rfl⟩ : ∃ m, n = m + 1 := ⟨n - 1, by omega⟩
      have key : ∃ s, (if has st (fnName w (.msg i false)) then some st
          else visitAll (visit w n) (children (w.msg i)) (st ++ [makeFn w (.msg i false)])) = some s ∧
          ∀ m, has st m = true → has s m = true := by
        by_cases hlt : i < w.msgs.length
        · cases hh : has st (fnName w (.msg i false)) with
          | true => exact ⟨st, by simp, fun _ => id⟩
          | false => have := rest_push hlt hh; omega
        · rw [msg_out hlt, children_noMsg]
          split
          · exact ⟨st, rfl, fun _ => id⟩
          · exact ⟨_, rfl, fun m hm => has_append hm⟩
      obtain ⟨s, h1, h2⟩ := key
      simp only [visit, h1]
      cases rep
      · exact ⟨s, rfl, h2⟩
      · exact ⟨_, rfl, fun m hm => has_add (h2 m hm)⟩
  | succ r ihr =>
    intro t
    induction t with
    | scalar k r =>
      intro st n _ hn
      obtain ⟨n, rfl⟩ : ∃ m, n = m + 1 := ⟨n - 1, by omega⟩
      exact ⟨st, rfl, fun _ => id⟩
    | enum e r =>
      intro st n _ hn
      obtain ⟨n, rfl⟩ : ∃ m, n = m + 1 := ⟨n - 1, by omega⟩
      refine ⟨_, rfl, fun m hm => ?_⟩
      cases r
      · exact has_add hm
      · exact has_add (has_add hm)
    | map nm k v ih =>
      intro st n hr hn
      obtain ⟨n, rfl⟩ : ∃ m, n = m + 1 := ⟨n - 1, by omega⟩
      simp only [visit]
      split
      · exact ⟨st, rfl, fun _ => id⟩
      · obtain ⟨s, h1, h2⟩ := ih (st ++ [makeFn w (.map nm k v)]) n
          (Nat.le_trans (rest_mono fun m hm => has_append hm) hr) (by simp only [tsize] at hn; omega)
        exact ⟨s, h1, fun m hm => h2 m (has_append hm)⟩
    | msg i rep =>
      intro st n hr hn
      obtain ⟨n, rfl⟩ : ∃ m, n = m + 1 := ⟨n - 1, by omega⟩
      have key : ∃ s, (if has st (fnName w (.msg i false)) then some st
          else visitAll (visit w n) (children (w.msg i)) (st ++ [makeFn w (.msg i false)])) = some s ∧
          ∀ m, has st m = true → has s m = true := by
        by_cases hlt : i < w.msgs.length
        · cases hh : has st (fnName w (.msg i false)) with
          | true => exact ⟨st, by simp, fun _ => id⟩
          | false =>
            have hlow := rest_push hlt hh
            obtain ⟨s, h1, h2⟩ := visitAll_some (w := w) (r := r) (P := fun t => tsize t ≤ D) (fun t st ht hst =>
                ihr t st n hst (by rw [Nat.succ_mul] at hn; omega))
              (children (w.msg i)) (st ++ [makeFn w (.msg i false)]) (hD i) (by omega)
            exact ⟨s, by simpa using h1, fun m hm => h2 m (has_append hm)⟩
        · rw [msg_out hlt, children_noMsg]
          split
          · exact ⟨st, rfl, fun _ => id⟩
          · exact ⟨_, rfl, fun m hm => has_append hm⟩
      obtain ⟨s, h1, h2⟩ := key
      simp only [visit, h1]
      cases rep
      · exact ⟨s, rfl, h2⟩
      · exact ⟨_, rfl, fun m hm => has_add (h2 m hm)⟩

/-! ### Names -/

theorem upper_ne_r (c : Char) : upper c ≠ 'r' := by
  unfold upper
  split
  · rename_i h
    intro e
    simp only [isLower, Bool.and_eq_true, decide_eq_true_eq] at h
    have key : ∀ n : Fin 26, Char.ofNat (n.val + 65) ≠ 'r' := by decide
    exact key ⟨c.toNat - 97, by omega⟩ (by
      have : c.toNat - 97 + 65 = c.toNat - 32 := by omega
      simp only [this]; exact e)
  · rename_i h
    rintro rfl
    exact h (by decide)

theorem toPublic_head (s r : Name) : toPublicGoVariable s ≠ 'r' :: r := by
  unfold toPublicGoVariable toPublicVariable
  split
  · intro h; cases h
  · intro h
    simp only [List.cons.injEq] at h
    exact upper_ne_r _ h.1

theorem joinUnderscore_head (ws : List Name) (r : Name) (h : ∀ w ∈ ws, ∀ r, w ≠ 'r' :: r) : joinUnderscore ws ≠ 'r' :: r := by
  match ws with
  | [] => simp [joinUnderscore]
  | [w] => exact h w (by simp) r
  | w :: x :: ws =>
    simp only [joinUnderscore]
    cases w with
    | nil => simp
    | cons c cs =>
      intro e
      simp only [List.cons_append, List.cons.injEq] at e
      exact h (c :: cs) (by simp) cs (by rw [e.1])

theorem goName_head (s r : Name) : fqdnToGoName s ≠ 'r' :: r := by
  apply joinUnderscore_head
  intro w hw r
  obtain ⟨x, _, rfl⟩ := List.mem_map.1 hw
  exact toPublic_head _ _

theorem logvalue_inj {a b : Name} (h : logvalue a = logvalue b) : a = b := by simpa [logvalue] using h
theorem logvalueRepeated_inj {a b : Name} (h : logvalueRepeated a = logvalueRepeated b) : a = b := by
  simpa [logvalueRepeated] using h
theorem logvalue_ne {a s : Name} : logvalueRepeated a ≠ logvalue (fqdnToGoName s) := by
  intro h
  simp only [logvalue, logvalueRepeated, List.cons_append, List.cons.injEq, true_and, List.nil_append] at h
  exact goName_head s _ h.symm

/-- The text whose Go name a type has. -/
def fqdnOf (w : World) : Ty → Name
  | .scalar _ _ => []
  | .msg i _ => (w.msg i).fqdn
  | .enum e _ => (w.enum e).fqdn
  | .map n _ _ => n

theorem goNameOf_fqdn {w : World} {t : Ty} (h : ¬ IsScalar t) : goNameOf w t = fqdnToGoName (fqdnOf w t) := by
  cases t <;> first | rfl | exact absurd trivial h

def IsRep : Ty → Bool
  | .msg _ r | .enum _ r => r
  | _ => false

theorem fnName_eq {w : World} {t : Ty} (h : ¬ IsScalar t) :
    fnName w t = if IsRep t then logvalueRepeated (goNameOf w t) else logvalue (goNameOf w t) := by
  match t with
  | .scalar _ _ => exact absurd trivial h
  | .msg _ true => rfl
  | .msg _ false => rfl
  | .enum _ true => rfl
  | .enum _ false => rfl
  | .map _ _ _ => rfl

theorem fnName_inj {w : World} {t u : Ty} (ht : ¬ IsScalar t) (hu : ¬ IsScalar u) (h : fnName w t = fnName w u) :
    goNameOf w t = goNameOf w u ∧ IsRep t = IsRep u := by
  rw [fnName_eq ht, fnName_eq hu] at h
  cases h1 : IsRep t <;> cases h2 : IsRep u <;> simp only [h1, h2, Bool.false_eq_true, if_false, if_true] at h
  · exact ⟨logvalue_inj h, rfl⟩
  · rw [goNameOf_fqdn ht] at h; exact absurd h.symm logvalue_ne
  · rw [goNameOf_fqdn hu] at h; exact absurd h logvalue_ne
  · exact ⟨logvalueRepeated_inj h, rfl⟩

theorem goKind_ne_slice (k : Kind) (t : GoTy) : goKind k ≠ .slice t := by cases k <;> simp [goKind]

theorem goTy_of_single {t u : Ty} (ht : ¬ IsScalar t) (hu : ¬ IsScalar u) (h : goTy (single t) = goTy (single u))
    (hr : IsRep t = IsRep u) : goTy t = goTy u := by
  match t, u with
  | .scalar _ _, _ => exact absurd trivial ht
  | .msg _ _, .scalar _ _ => exact absurd trivial hu
  | .enum _ _, .scalar _ _ => exact absurd trivial hu
  | .map _ _ _, .scalar _ _ => exact absurd trivial hu
  | .msg i r, .msg j r' => simp only [IsRep] at hr; simp [single, goTy, slices] at h; rw [h, hr]
  | .enum i r, .enum j r' => simp only [IsRep] at hr; simp [single, goTy, slices] at h; rw [h, hr]
  | .map _ _ _, .map _ _ _ => exact h
  | .msg _ _, .enum _ _ => simp [single, goTy, slices] at h
  | .msg _ _, .map _ _ _ => simp [single, goTy, slices] at h
  | .enum _ _, .msg _ _ => simp [single, goTy, slices] at h
  | .enum _ _, .map _ _ _ => simp [single, goTy, slices] at h
  | .map _ _ _, .msg _ _ => simp [single, goTy, slices] at h
  | .map _ _ _, .enum _ _ => simp [single, goTy, slices] at h

theorem lookup_some {st : St} {n : Name} (h : has st n = true) : ∃ f ∈ st, f.name = n ∧ lookup st n = some f := by
  obtain ⟨g, hg, e⟩ := has_iff.1 h
  cases hl : lookup st n with
  | none =>
    unfold lookup at hl
    have := List.find?_eq_none.1 hl g hg
    simp [e] at this
  | some f =>
    unfold lookup at hl
    exact ⟨f, List.mem_of_find?_eq_some hl, by simpa using List.find?_some hl, rfl⟩

/-- The function found for a type is that of a type which Go does not tell apart from it. -/
theorem lookup_type {w roots st} (hg : Good w roots st) (hd : DifferentNames w roots) {t : Ty} (ho : Occurs w roots t)
    (hs : ¬ IsScalar t) (hh : has st (fnName w t) = true) :
    ∃ u, Occurs w roots u ∧ ¬ IsScalar u ∧ lookup st (fnName w t) = some (makeFn w u) ∧ goTy u = goTy t := by
  obtain ⟨f, hf, hn, hl⟩ := lookup_some hh
  rcases hg.made f hf with ⟨u, hu, hus, rfl⟩ | ⟨i, fields, used, hi, ha, rfl⟩
  · rw [fnName_makeFn] at hn
    obtain ⟨h1, h2⟩ := fnName_inj hus hs hn
    exact ⟨u, hu, hus, hl, goTy_of_single hus hs (hd.types u t hu ho hus hs h1) h2⟩
  · exfalso
    have hn' : logvalue (fqdnToGoName (w.msg i).argName) = fnName w t := hn
    rw [fnName_eq hs] at hn'
    split at hn'
    · exact logvalue_ne hn'.symm
    · exact hd.args i t hi (by rw [ha]; rfl) ho hs (logvalue_inj hn')

theorem lookup_arg {w roots st} (hg : Good w roots st) (hd : DifferentNames w roots) {i : Nat} {fields used : List Field}
    (hi : i ∈ roots) (ha : (w.msg i).arg = some (fields, used))
    (hh : has st (logvalue (fqdnToGoName (w.msg i).argName)) = true) :
    lookup st (logvalue (fqdnToGoName (w.msg i).argName)) = some (argFn w (w.msg i) fields) := by
  obtain ⟨f, hf, hn, hl⟩ := lookup_some hh
  rcases hg.made f hf with ⟨u, hu, hus, rfl⟩ | ⟨j, fields', used', hj, ha', rfl⟩
  · exfalso
    rw [fnName_makeFn, fnName_eq hus] at hn
    split at hn
    · exact logvalue_ne hn
    · exact hd.args i u hi (by rw [ha]; rfl) hu hus (logvalue_inj hn).symm
  · have e : j = i := hd.two j i hj hi (by rw [ha']; rfl) (by rw [ha]; rfl) (logvalue_inj hn)
    subst e
    rw [ha] at ha'
    cases ha'
    exact hl

end Verif.LogFn
