import Verif.LogFn.Lemmas
import Verif.GoNames.Props

/-! # Messages are logged field by field (C101) -/

namespace Verif.LogFn
open Verif.GoNames

/-! ### Bounds -/

theorem bound_list (ts : List Ty) : ∃ D, ∀ t ∈ ts, tsize t ≤ D := by
  induction ts with
  | nil => exact ⟨0, by simp⟩
  | cons t ts ih =>
    obtain ⟨D, h⟩ := ih
    refine ⟨max (tsize t) D, fun u hu => ?_⟩
    rcases List.mem_cons.1 hu with rfl | hu
    · omega
    · have := h u hu; omega

theorem bound_msgs (ms : List Msg) : ∃ D, ∀ m ∈ ms, ∀ t ∈ children m, tsize t ≤ D := by
  induction ms with
  | nil => exact ⟨0, by simp⟩
  | cons m ms ih =>
    obtain ⟨D, h⟩ := ih
    obtain ⟨E, h'⟩ := bound_list (children m)
    refine ⟨max D E, fun u hu t ht => ?_⟩
    rcases List.mem_cons.1 hu with rfl | hu
    · have := h' t ht; omega
    · have := h u hu t ht; omega

theorem bound_args (w : World) (is : List Nat) :
    ∃ D, ∀ i ∈ is, ∀ fields used, (w.msg i).arg = some (fields, used) → ∀ f ∈ fields, tsize f.ty ≤ D := by
  induction is with
  | nil => exact ⟨0, by simp⟩
  | cons i is ih =>
    obtain ⟨D, h⟩ := ih
    obtain ⟨E, h'⟩ := bound_list (((w.msg i).arg.map (·.1)).getD [] |>.map (·.ty))
    refine ⟨max D E, fun j hj fields used ha f hf => ?_⟩
    rcases List.mem_cons.1 hj with rfl | hj
    · have := h' f.ty (by rw [ha]; exact List.mem_map.2 ⟨f, hf, rfl⟩); omega
    · have := h j hj fields used ha f hf; omega

theorem msg_mem {w : World} {i : Nat} : w.msg i ∈ w.msgs ∨ w.msg i = noMsg := by
  by_cases h : i < w.msgs.length
  · left
    unfold World.msg
    rw [List.getD_eq_getElem?_getD, List.getElem?_eq_getElem h]
    exact List.getElem_mem h
  · exact .inr (msg_out h)

/-- The functions are found for all messages, also for those that contain themselves. -/
theorem C101_ends (w : World) (roots : List Nat) : ∃ N, ∀ n ≥ N, ∃ st, logValues w n roots [] = some st := by
  obtain ⟨D1, h1⟩ := bound_msgs w.msgs
  obtain ⟨D2, h2⟩ := bound_args w roots
  have hD : ∀ i, ∀ t ∈ children (w.msg i), tsize t ≤ max (max D1 D2) 1 := by
    intro i t ht
    rcases msg_mem (w := w) (i := i) with h | h
    · have := h1 _ h t ht; omega
    · rw [h] at ht; cases ht
  refine ⟨w.msgs.length * (max (max D1 D2) 1 + 2) + max (max D1 D2) 1 + 1, fun n hn => ?_⟩
  have hrest : ∀ st, rest w st ≤ w.msgs.length := fun st => by
    unfold rest
    exact Nat.le_trans (List.length_filter_le _ _) (by simp)
  have hvisit : ∀ (t : Ty) (st : St), tsize t ≤ max (max D1 D2) 1 → ∃ st', visit w n t st = some st' := fun t st ht => by
    obtain ⟨st', h, _⟩ := visit_some hD _ t st n (hrest st) (by omega)
    exact ⟨st', h⟩
  have hall : ∀ (is : List Nat) (st : St), (∀ i ∈ is, i ∈ roots) → ∃ st', logValues w n is st = some st' := by
    intro is
    induction is with
    | nil => intro st _; exact ⟨st, rfl⟩
    | cons i is ih =>
      intro st hi
      have ha : ∃ s, visitArg w n (w.msg i) st = some s := by
        unfold visitArg
        cases harg : (w.msg i).arg with
        | none => exact ⟨st, rfl⟩
        | some p =>
          obtain ⟨fields, used⟩ := p
          simp only
          split
          · exact ⟨st, rfl⟩
          · obtain ⟨s, h, _⟩ := visitAll_some (w := w) (r := w.msgs.length) (P := fun t => tsize t ≤ max (max D1 D2) 1)
              (fun t st ht _ => visit_some hD _ t st n (hrest st) (by omega)) (fields.map (·.ty))
              (st ++ [argFn w (w.msg i) fields]) (by
                intro t ht
                obtain ⟨f, hf, rfl⟩ := List.mem_map.1 ht
                have := h2 i (hi i (by simp)) fields used harg f hf
                omega) (hrest _)
            exact ⟨s, h⟩
      obtain ⟨s1, e1⟩ := ha
      obtain ⟨s2, e2⟩ := hvisit (.msg i false) s1 (by simp only [tsize]; omega)
      obtain ⟨s3, e3⟩ := ih s2 (fun j hj => hi j (by simp [hj]))
      exact ⟨s3, by simp only [logValues, e1, e2, e3]⟩
  exact hall roots [] fun _ => id

/-- No two functions have the same name. -/
theorem C101_once (w : World) (n : Nat) (roots : List Nat) (st : St) (h : logValues w n roots [] = some st) :
    (st.map (·.name)).Nodup := (logValues_good roots [] st (fun _ => id) good_nil h).1.nodup

/-- Every function that is called by a function for logs, or to log a message, exists. -/
theorem C101_declared (w : World) (n : Nat) (roots : List Nat) (st : St) (h : logValues w n roots [] = some st) :
    (∀ f ∈ st, ∀ c ∈ f.callees, ∃ g ∈ st, g.name = c) ∧
      ∀ i ∈ roots, ∃ g ∈ st, g.name = logvalue (w.msg i).goName := by
  obtain ⟨h1, _, h3⟩ := logValues_good roots [] st (fun _ => id) good_nil h
  exact ⟨fun f hf c hc => has_iff.1 (h1.calls f hf c hc), fun i hi => has_iff.1 (h3 i hi).1⟩

/-! ### Types of the generated functions -/

/-- What else is needed for the functions to compile. -/
structure Declared (w : World) (roots : List Nat) : Prop where
  /-- no two names of an enum have the same number -/
  enums : ∀ e, Occurs w roots (.enum e false) → ((w.enum e).values.map (·.2)).Nodup
  /-- fields have different Go names -/
  fields : ∀ i, Occurs w roots (.msg i false) → ((w.msg i).fields.map (toPublicGoVariable ·.name)).Nodup
  argFields : ∀ i fields used, i ∈ roots → (w.msg i).arg = some (fields, used) →
    (fields.map (toPublicGoVariable ·.name)).Nodup
  /-- the argument has the name by which it is declared, which is the only one -/
  argNames : ∀ i, i ∈ roots → (w.msg i).arg.isSome → fqdnToGoName (w.msg i).argName = (w.msg i).structName
  structs : ∀ m ∈ w.msgs, ∀ i ∈ roots, m.arg.isSome → (w.msg i).arg.isSome → m.structName = (w.msg i).structName →
    m = w.msg i
  /-- a variable that is used and has the Go name of an argument has its type -/
  used : ∀ i fields used, i ∈ roots → (w.msg i).arg = some (fields, used) → ∀ f ∈ fields, ∀ u ∈ used,
    toPublicGoVariable u.name = toPublicGoVariable f.name → goTy u.ty = goTy f.ty
  /-- values of maps are no lists -/
  maps : ∀ n k v, Occurs w roots (.map n k v) → ∀ k', v ≠ .scalar k' true

theorem find_field {fields : List Field} (hn : (fields.map (toPublicGoVariable ·.name)).Nodup) {f : Field} (hf : f ∈ fields) :
    fields.find? (fun g => toPublicGoVariable g.name == toPublicGoVariable f.name) = some f := by
  induction fields with
  | nil => cases hf
  | cons g fields ih =>
    simp only [List.map_cons, List.nodup_cons] at hn
    rcases List.mem_cons.1 hf with rfl | hf
    · simp
    · have hne : toPublicGoVariable g.name ≠ toPublicGoVariable f.name := by
        intro e
        exact hn.1 (by rw [e]; exact List.mem_map.2 ⟨f, hf, rfl⟩)
      rw [List.find?_cons_of_neg (by simpa using hne)]
      exact ih hn.2 hf

theorem find_used {fields used : List Field} (hn : (fields.map (toPublicGoVariable ·.name)).Nodup) {f : Field} (hf : f ∈ fields)
    (hu : ∀ u ∈ used, toPublicGoVariable u.name = toPublicGoVariable f.name → goTy u.ty = goTy f.ty) :
    ((structFields fields used).find? (·.1 == toPublicGoVariable f.name)).map (·.2) = some (goTy f.ty) := by
  unfold structFields
  induction used with
  | nil =>
    simp only [List.nil_append, List.find?_map, Function.comp_def]
    rw [find_field hn hf]; rfl
  | cons u used ih =>
    simp only [List.cons_append, List.map_cons, List.find?_cons]
    split
    · rename_i he
      simp only [beq_iff_eq] at he
      simp [hu u (by simp) he]
    · exact ih fun g hg => hu g (by simp [hg])

theorem find_struct {w roots} (hdecl : Declared w roots) {i : Nat} (hi : i ∈ roots) (ha : (w.msg i).arg.isSome) :
    w.msgs.find? (fun m => m.arg.isSome && m.structName == (w.msg i).structName) = some (w.msg i) := by
  cases h : w.msgs.find? (fun m => m.arg.isSome && m.structName == (w.msg i).structName) with
  | none =>
    rcases msg_mem (w := w) (i := i) with hm | hm
    · have := List.find?_eq_none.1 h _ hm
      simp [ha] at this
    · rw [hm] at ha; cases ha
  | some m =>
    have h1 := List.mem_of_find?_eq_some h
    have h2 := List.find?_some h
    simp only [Bool.and_eq_true, beq_iff_eq] at h2
    rw [hdecl.structs m h1 i hi h2.1 ha h2.2]

theorem attr_ok {w : World} {st : St} {p : GoTy} {f : Field} (hf : fieldTy w (toPublicGoVariable f.name) p = some (goTy f.ty))
    (hc : ¬ IsScalar f.ty → paramTy st (fnName w f.ty) = some (goTy f.ty)) : attrOk w st p (attr w f) = true := by
  unfold attrOk
  simp only [attr, hf]
  match ht : f.ty with
  | .msg i r => rw [ht] at hc; simp [logExpr, exprTy, hc id, logType, slogTakes]
  | .map n k v => rw [ht] at hc; simp [logExpr, exprTy, hc id, logType, slogTakes]
  | .enum e true => rw [ht] at hc; simp [logExpr, exprTy, hc id, logType, slogTakes]
  | .enum e false => rw [ht] at hc; simp [logExpr, exprTy, hc id, logType, slogTakes]
  | .scalar k true => simp [logExpr, exprTy, logType, slogTakes]
  | .scalar k false => cases k <;> simp [logExpr, exprTy, logType, slogTakes, goTy, slices, goKind, convertible]

theorem param_type {w roots st} (hg : Good w roots st) (hd : DifferentNames w roots) {t : Ty} (ho : Occurs w roots t)
    (hs : ¬ IsScalar t) (hh : has st (fnName w t) = true) : paramTy st (fnName w t) = some (goTy t) := by
  obtain ⟨u, _, _, h1, h2⟩ := lookup_type hg hd ho hs hh
  simp only [paramTy, h1, Option.map_some, param_makeFn, h2]

theorem attrs_called {w : World} {st : St} {fields : List Field}
    (hc : ∀ c ∈ (fields.map (attr w)).flatMap (·.val.callees), has st c = true) {f : Field} (hf : f ∈ fields)
    (hs : ¬ IsScalar f.ty) : has st (fnName w f.ty) = true := by
  apply hc
  simp only [List.mem_flatMap, List.mem_map]
  refine ⟨_, ⟨f, hf, rfl⟩, ?_⟩
  match ht : f.ty with
  | .scalar _ _ => rw [ht] at hs; exact absurd trivial hs
  | .msg i r => simp [attr, ht, logExpr, Expr.callees]
  | .map n k v => simp [attr, ht, logExpr, Expr.callees]
  | .enum e true => simp [attr, ht, logExpr, Expr.callees]
  | .enum e false => simp [attr, ht, logExpr, Expr.callees]

/-- All functions compile, and they can be called with the message and its argument. -/
theorem C101_compiles_partial (w : World) (n : Nat) (roots : List Nat) (st : St) (h : logValues w n roots [] = some st)
    (hd : DifferentNames w roots) (hdecl : Declared w roots) :
    (∀ f ∈ st, fnOk w st f = true) ∧ ∀ i ∈ roots, paramTy st (logvalue (w.msg i).goName) = some (.ptr i) ∧
      ((w.msg i).arg.isSome → paramTy st (logvalue (w.msg i).structName) = some (.struct (w.msg i).structName)) := by
  obtain ⟨hg, _, hroots⟩ := logValues_good roots [] st (fun _ => id) good_nil h
  refine ⟨fun f hf => ?_, fun i hi => ⟨param_type hg hd (.root hi) id (hroots i hi).1, fun ha => ?_⟩⟩
  · have hcalls := hg.calls f hf
    rcases hg.made f hf with ⟨t, ho, hs, rfl⟩ | ⟨i, fields, used, hi, ha, rfl⟩
    · match t with
      | .scalar _ _ => exact absurd trivial hs
      | .msg i true =>
        have := param_type hg hd (.element ho) id (hcalls _ (by simp [makeFn, Fn.callees]))
        simpa [fnOk, makeFn, goTy, slices] using this
      | .enum e true =>
        have := param_type hg hd (.enumElement ho) id (hcalls _ (by simp [makeFn, Fn.callees]))
        simpa [fnOk, makeFn, goTy, slices] using this
      | .enum e false => simpa [fnOk, makeFn, goTy, slices] using hdecl.enums e ho
      | .map nm k v =>
        have hv : ¬ IsScalar v → paramTy st (fnName w v) = some (goTy v) := fun hv =>
          param_type hg hd (.value ho) hv (hcalls _ (by
            match v with
            | .scalar _ _ => exact absurd trivial hv
            | .msg i r => simp [makeFn, Fn.callees, logMapExpr, Expr.callees]
            | .map n k v => simp [makeFn, Fn.callees, logMapExpr, Expr.callees]
            | .enum e true => simp [makeFn, Fn.callees, logMapExpr, Expr.callees]
            | .enum e false => simp [makeFn, Fn.callees, logMapExpr, Expr.callees]))
        have hm := hdecl.maps nm k v ho
        match v with
        | .msg i r => simp [fnOk, makeFn, goTy, logMapExpr, exprTy]; exact hv id
        | .map n k v => simp [fnOk, makeFn, goTy, logMapExpr, exprTy]; exact hv id
        | .enum e true => simp [fnOk, makeFn, goTy, logMapExpr, exprTy]; exact hv id
        | .enum e false => simp [fnOk, makeFn, goTy, logMapExpr, exprTy]; exact hv id
        | .scalar k' true => exact absurd rfl (hm k')
        | .scalar k' false => cases k' <;> simp [fnOk, makeFn, goTy, logMapExpr, exprTy, slices, goKind]
      | .msg i false =>
        simp only [fnOk, makeFn, List.all_map, List.all_eq_true]
        intro f hf
        refine attr_ok ?_ fun hs => param_type hg hd (.field ho hf) hs (attrs_called hcalls hf hs)
        simp only [goTy, slices, Bool.false_eq_true, if_false, fieldTy, find_field (hdecl.fields i ho) hf, Option.map_some]
    · simp only [fnOk, argFn, List.all_map, List.all_eq_true]
      intro f hf
      refine attr_ok ?_ fun hs => param_type hg hd (.arg hi ha hf) hs (attrs_called hcalls hf hs)
      have hsome : (w.msg i).arg.isSome := by rw [ha]; rfl
      simp only [fieldTy, hdecl.argNames i hi hsome, find_struct hdecl hi hsome, ha, structFields]
      exact find_used (hdecl.argFields i fields used hi ha) hf (hdecl.used i fields used hi ha f hf)
  · obtain ⟨⟨fields, used⟩, harg⟩ := Option.isSome_iff_exists.1 ha
    rw [← hdecl.argNames i hi ha]
    simp only [paramTy, lookup_arg hg hd hi harg ((hroots i hi).2 ha), Option.map_some, argFn]

/-! ### What is logged -/

theorem logList_eq (w : World) (t : Ty) : ∀ (i : Nat) (vs : List Val),
    logList w t i vs = (vs.zipIdx i).map fun (v, i) => (.idx i, logOf w t v)
  | _, [] => rfl
  | i, v :: vs => by simp [logList, logList_eq w t (i + 1) vs]

theorem logEntries_eq (w : World) (t : Ty) : ∀ (ks : List Int) (vs : List Val),
    logEntries w t ks vs = (ks.zip vs).map fun (k, v) => (.key k, logOf w t v)
  | [], [] => rfl
  | [], _ :: _ => rfl
  | _ :: _, [] => rfl
  | k :: ks, v :: vs => by simp [logEntries, logEntries_eq w t ks vs]

theorem logFields_eq (w : World) : ∀ (fs : List Field) (vs : List Val),
    logFields w fs vs = fs.zipIdx.map fun (f, i) => (.name f.name, match vs[i]? with
      | some v => logOf w f.ty v
      | none => .bad) := by
  have gen : ∀ (fs : List Field) (vs us : List Val),
      logFields w fs vs = (fs.zipIdx us.length).map fun (f, i) => (.name f.name, match (us ++ vs)[i]? with
        | some v => logOf w f.ty v
        | none => .bad) := by
    intro fs
    induction fs with
    | nil => intro vs us; cases vs <;> simp [logFields]
    | cons f fs ih =>
      intro vs us
      cases vs with
      | nil =>
        have := ih [] (us ++ [.nil])
        simp only [logFields, List.map_cons, List.zipIdx_cons, List.append_nil, List.cons.injEq]
        refine ⟨by simp, ?_⟩
        have h2 : ∀ k, us.length ≤ k → fs.map (fun f => (Key.name f.name, Log.bad)) =
            (fs.zipIdx k).map fun (f, i) => (Key.name f.name, match us[i]? with
              | some v => logOf w f.ty v
              | none => .bad) := by
          clear ih this
          induction fs with
          | nil => intros; rfl
          | cons g fs ih2 =>
            intro k hk
            simp only [List.map_cons, List.zipIdx_cons, List.cons.injEq]
            refine ⟨by rw [List.getElem?_eq_none hk], ih2 (k + 1) (by omega)⟩
        exact h2 _ (by omega)
      | cons v vs =>
        have := ih vs (us ++ [v])
        simp only [logFields, List.zipIdx_cons, List.map_cons, List.cons.injEq]
        refine ⟨by simp, ?_⟩
        rw [this]
        simp
  intro fs vs
  simpa using gen fs vs []

theorem logOf_goTy (w : World) : ∀ (t u : Ty), goTy t = goTy u → ∀ v, logOf w t v = logOf w u v := by
  intro t
  induction t with
  | scalar k r =>
    intro u h v
    cases u with
    | scalar k' r' =>
      cases r <;> cases r' <;> simp only [goTy, slices, Bool.false_eq_true, if_true, if_false] at h
      · have : family k = family k' := by cases k <;> cases k' <;> simp_all [goKind, family]
        cases v <;> simp [logOf, this]
      · exact absurd h (goKind_ne_slice _ _)
      · exact absurd h.symm (goKind_ne_slice _ _)
      · cases v <;> simp [logOf]
    | msg i r' => cases r <;> cases r' <;> cases k <;> simp [goTy, slices, goKind] at h
    | enum i r' => cases r <;> cases r' <;> cases k <;> simp [goTy, slices, goKind] at h
    | map n k' v' => cases r <;> cases k <;> simp [goTy, slices, goKind] at h
  | msg i r =>
    intro u h v
    cases u with
    | scalar k r' => cases r <;> cases r' <;> cases k <;> simp [goTy, slices, goKind] at h
    | msg j r' => cases r <;> cases r' <;> simp [goTy, slices] at h <;> rw [h]
    | enum j r' => cases r <;> cases r' <;> simp [goTy, slices] at h
    | map n k v' => cases r <;> simp [goTy, slices] at h
  | enum e r =>
    intro u h v
    cases u with
    | scalar k r' => cases r <;> cases r' <;> cases k <;> simp [goTy, slices, goKind] at h
    | msg j r' => cases r <;> cases r' <;> simp [goTy, slices] at h
    | enum j r' => cases r <;> cases r' <;> simp [goTy, slices] at h <;> rw [h]
    | map n k v' => cases r <;> simp [goTy, slices] at h
  | map n k x ih =>
    intro u h v
    cases u with
    | scalar k r' => cases r' <;> cases k <;> simp [goTy, slices, goKind] at h
    | msg j r' => cases r' <;> simp [goTy, slices] at h
    | enum j r' => cases r' <;> simp [goTy, slices] at h
    | map n' k' x' =>
      simp only [goTy, GoTy.map.injEq] at h
      cases v <;> simp [logOf, logEntries_eq, ih x' h.2]

theorem depth_le {v : Val} {vs : List Val} (h : v ∈ vs) : depth v ≤ depths vs := by
  induction vs with
  | nil => cases h
  | cons a vs ih =>
    simp only [depths]
    rcases List.mem_cons.1 h with rfl | h
    · omega
    · have := ih h; omega

theorem depth_pos (v : Val) : 1 ≤ depth v := by cases v <;> simp [depth]

theorem position_eq {fields : List Field} (hn : (fields.map (toPublicGoVariable ·.name)).Nodup) {i : Nat}
    (hi : i < fields.length) : position fields (toPublicGoVariable fields[i].name) = i := by
  unfold position
  apply (List.findIdx_eq (by simpa using hi)).2
  refine ⟨by simp, fun j hj => ?_⟩
  simp only [beq_eq_false_iff_ne, ne_eq]
  intro e
  have h1 : (fields.map (toPublicGoVariable ·.name))[j]'(by simp; omega) =
      (fields.map (toPublicGoVariable ·.name))[i]'(by simpa using hi) := by simpa using e
  have := (List.getElem_inj hn).1 h1
  omega

theorem attr_log {w : World} {call : Name → Val → Log} {t : Ty} {v : Val}
    (hc : ¬ IsScalar t → call (fnName w t) v = logOf w t v) : attrLog call (logType t) v (logExpr w t) = logOf w t v := by
  match t with
  | .msg i r => exact hc id
  | .map n k x => exact hc id
  | .enum e true => exact hc id
  | .enum e false =>
    simp only [attrLog, logExpr, hc id]
    cases v <;> simp [logOf, asString]
  | .scalar k true => cases v <;> simp [logType, logExpr, attrLog, logOf]
  | .scalar k false => cases k <;> cases v <;> simp [logType, logExpr, attrLog, logOf, family]

theorem entry_log {w : World} {call : Name → Val → Log} {t : Ty} {v : Val} (hm : ∀ k, t ≠ .scalar k true)
    (hc : ¬ IsScalar t → call (fnName w t) v = logOf w t v) : entryLog call (goTy t) v (logMapExpr w t) = logOf w t v := by
  match t with
  | .msg i r => exact hc id
  | .map n k x => exact hc id
  | .enum e true => exact hc id
  | .enum e false =>
    simp only [entryLog, logMapExpr, hc id]
    cases v <;> simp [logOf, asString]
  | .scalar k true => exact absurd rfl (hm k)
  | .scalar k false => cases k <;> cases v <;> simp [logMapExpr, entryLog, logOf, family, goTy, slices, goKind, anyKind]

theorem attrs_log {w : World} {call : Name → Val → Log} {fields : List Field} {vs : List Val}
    (hn : (fields.map (toPublicGoVariable ·.name)).Nodup)
    (hc : ∀ f ∈ fields, ∀ v ∈ vs, ¬ IsScalar f.ty → call (fnName w f.ty) v = logOf w f.ty v) :
    ((fields.map (attr w)).map fun a => ((Key.name a.key), match vs[position fields a.sel]? with
      | some v => attrLog call a.fn v a.val
      | none => .bad)) = logFields w fields vs := by
  rw [logFields_eq]
  apply List.ext_getElem (by simp)
  intro i h1 h2
  have hi : i < fields.length := by simpa using h1
  simp only [List.getElem_map, List.getElem_zipIdx, attr, position_eq hn hi, Nat.zero_add, Prod.mk.injEq, true_and]
  cases hv : vs[i]? with
  | none => rfl
  | some v => exact attr_log (hc _ (List.getElem_mem hi) v (List.mem_of_getElem? hv))

theorem run_type {w roots st} (hg : Good w roots st) (hd : DifferentNames w roots) (hdecl : Declared w roots) :
    ∀ (n : Nat) (t : Ty) (v : Val), Occurs w roots t → ¬ IsScalar t → has st (fnName w t) = true → depth v ≤ n →
      run w st n (fnName w t) v = logOf w t v := by
  intro n
  induction n with
  | zero => intro t v _ _ _ hn; have := depth_pos v; omega
  | succ n ih =>
    intro t v ho hs hh hn
    obtain ⟨u, huo, hus, hl, hgo⟩ := lookup_type hg hd ho hs hh
    rw [← logOf_goTy w u t hgo v]
    have hmem : makeFn w u ∈ st := by unfold lookup at hl; exact List.mem_of_find?_eq_some hl
    have hcalls := hg.calls _ hmem
    simp only [run, hl]
    match u with
    | .scalar _ _ => exact absurd trivial hus
    | .msg i true =>
      have hhas := hcalls (fnName w (.msg i false)) (by simp [makeFn, Fn.callees])
      cases v with
      | list vs =>
        simp only [makeFn, logOf, logList_eq, Log.group.injEq]
        apply List.map_congr_left
        intro p hp
        have : p.1 ∈ vs := (List.mem_zipIdx_iff_getElem?.1 hp) |> List.mem_of_getElem?
        have hdv := depth_le this
        simp only [depth] at hn
        simp only [Prod.mk.injEq, true_and]
        exact ih (.msg i false) p.1 (.element huo) id hhas (by omega)
      | _ => simp [makeFn, logOf]
    | .enum e true =>
      have hhas := hcalls (fnName w (.enum e false)) (by simp [makeFn, Fn.callees])
      cases v with
      | list vs =>
        simp only [makeFn, logOf, logList_eq, Log.group.injEq]
        apply List.map_congr_left
        intro p hp
        have : p.1 ∈ vs := (List.mem_zipIdx_iff_getElem?.1 hp) |> List.mem_of_getElem?
        have hdv := depth_le this
        simp only [depth] at hn
        simp only [Prod.mk.injEq, true_and]
        exact ih (.enum e false) p.1 (.enumElement huo) id hhas (by omega)
      | _ => simp [makeFn, logOf]
    | .enum e false => cases v <;> simp [makeFn, logOf, enumText] <;> rfl
    | .map nm k x =>
      cases v with
      | map ks vs =>
        simp only [makeFn, logOf, logEntries_eq, Log.group.injEq, goTy]
        apply List.map_congr_left
        intro p hp
        have : p.2 ∈ vs := (List.of_mem_zip hp).2
        have hdv := depth_le this
        simp only [depth] at hn
        simp only [Prod.mk.injEq, true_and]
        refine entry_log (hdecl.maps nm k x huo) fun hx => ih x p.2 (.value huo) hx (hcalls _ ?_) (by omega)
        match x with
        | .scalar _ _ => exact absurd trivial hx
        | .msg i r => simp [makeFn, Fn.callees, logMapExpr, Expr.callees]
        | .map n k v => simp [makeFn, Fn.callees, logMapExpr, Expr.callees]
        | .enum e true => simp [makeFn, Fn.callees, logMapExpr, Expr.callees]
        | .enum e false => simp [makeFn, Fn.callees, logMapExpr, Expr.callees]
      | _ => simp [makeFn, logOf]
    | .msg i false =>
      cases v with
      | nil => simp [makeFn, logOf]
      | msg vs =>
        simp only [makeFn, logOf, Log.group.injEq, goTy, slices, Bool.false_eq_true, if_false, fieldsOf]
        refine attrs_log (hdecl.fields i huo) fun f hf v hv hs => ih f.ty v (.field huo hf) hs (attrs_called hcalls hf hs) ?_
        have hdv := depth_le hv
        simp only [depth] at hn
        omega
      | _ => simp [makeFn, logOf]

/-- Messages and arguments are logged field by field. -/
theorem C101_logged_partial (w : World) (n : Nat) (roots : List Nat) (st : St) (h : logValues w n roots [] = some st)
    (hd : DifferentNames w roots) (hdecl : Declared w roots) (i : Nat) (hi : i ∈ roots) (v : Val) (d : Nat)
    (hdepth : depth v ≤ d) : run w st d (logvalue (w.msg i).goName) v = logOf w (.msg i false) v ∧
      ∀ fields used vs, (w.msg i).arg = some (fields, used) → v = .msg vs →
        run w st d (logvalue (w.msg i).structName) v = .group (logFields w fields vs) := by
  obtain ⟨hg, _, hroots⟩ := logValues_good roots [] st (fun _ => id) good_nil h
  refine ⟨run_type hg hd hdecl d (.msg i false) v (.root hi) id (hroots i hi).1 hdepth, ?_⟩
  rintro fields used vs ha rfl
  have hsome : (w.msg i).arg.isSome := by rw [ha]; rfl
  obtain ⟨d, rfl⟩ : ∃ m, d = m + 1 := ⟨d - 1, by have := depth_pos (.msg vs); omega⟩
  rw [← hdecl.argNames i hi hsome]
  have hl := lookup_arg hg hd hi ha ((hroots i hi).2 hsome)
  have hmem : argFn w (w.msg i) fields ∈ st := by unfold lookup at hl; exact List.mem_of_find?_eq_some hl
  simp only [run, hl]
  simp only [argFn, fieldsOf, hdecl.argNames i hi hsome, find_struct hdecl hi hsome, ha, Option.map_some,
    Option.getD_some, Log.group.injEq]
  refine attrs_log (hdecl.argFields i fields used hi ha) fun f hf v hv hs =>
    run_type hg hd hdecl d f.ty v (.arg hi ha hf) hs (attrs_called (hg.calls _ hmem) hf hs) ?_
  have hdv := depth_le hv
  simp only [depth] at hdepth
  omega

/-! ### Names of arguments -/

theorem splitDots_ne (s : Name) : splitDots s ≠ [] := by
  unfold splitDots
  cases s with
  | nil => simp
  | cons c cs => simp only [List.foldr_cons]; split <;> (try simp) ; split <;> simp

theorem splitDots_cons (c : Char) (s : Name) : splitDots (c :: s) = if c = '.' then [] :: splitDots s else match splitDots s with
    | [] => [[c]]
    | w :: ws => (c :: w) :: ws := rfl

theorem splitDots_append (a b : Name) : splitDots (a ++ '.' :: b) = splitDots a ++ splitDots b := by
  induction a with
  | nil => simp [splitDots_cons]; rfl
  | cons c a ih =>
    simp only [List.cons_append, splitDots_cons, ih]
    split
    · rfl
    · cases h : splitDots a with
      | nil => exact absurd h (splitDots_ne a)
      | cons w ws => simp

theorem splitDots_one {s : Name} (h : ∀ x ∈ s, x ≠ '.') : splitDots s = [s] := by
  induction s with
  | nil => rfl
  | cons c s ih => rw [splitDots_cons, ih fun x hx => h x (by simp [hx]), if_neg (h c (by simp))]

theorem splitDots_join (pkg : Name) (path : List Name) (h : ∀ p ∈ path, ∀ x ∈ p, x ≠ '.') :
    splitDots (join '.' (pkg :: path)) = splitDots pkg ++ path := by
  induction path generalizing pkg with
  | nil => simp [join]
  | cons p path ih =>
    simp only [join]
    rw [splitDots_append, ih p fun q hq => h q (by simp [hq]), splitDots_one (h p (by simp))]
    rfl

theorem joinUnderscore_append (a b : List Name) (ha : a ≠ []) (hb : b ≠ []) :
    joinUnderscore (a ++ b) = joinUnderscore a ++ '_' :: joinUnderscore b := by
  induction a with
  | nil => exact absurd rfl ha
  | cons x a ih =>
    cases a with
    | nil =>
      cases b with
      | nil => exact absurd rfl hb
      | cons y b => rfl
    | cons z a =>
      have := ih (by simp)
      simp only [List.cons_append] at this
      simp [joinUnderscore, this]

theorem nextLower_append {p r : Name} (h : nextLower r = false) : nextLower (p ++ r) = nextLower p := by
  cases p with
  | nil => simpa [nextLower] using h
  | cons c p => rfl

theorem go_append {p r : Name} (hr : nextLower r = false) : ∀ (s c : Bool), p ≠ [] → (∀ x ∈ p, x ≠ '.') →
    go s c (p ++ r) = go s c p ++ go false false r := by
  induction p with
  | nil => intro s c h; exact absurd rfl h
  | cons x p ih =>
    intro s c _ hd
    have hx : x ≠ '.' := hd x (by simp)
    have step : ∀ b, go false b (p ++ r) = go false b p ++ go false false r := by
      intro b
      by_cases hp : p = []
      · subst hp
        cases b
        · simp [go]
        · simp [go, go_copy false r hr]
      · exact ih false b hp fun y hy => hd y (by simp [hy])
    simp only [List.cons_append, go, nextLower_append hr, hx, if_false]
    repeat' split
    all_goals simp [step]

theorem go_capital {p : Name} (h : Capital p) (s : Bool) : go s false p = go true false p := by
  obtain ⟨_, c, cs, rfl, hc⟩ := h
  have h1 : c ≠ '.' := by rintro rfl; exact absurd hc (by decide)
  have h2 : c ≠ '_' := by rintro rfl; exact absurd hc (by decide)
  simp [go, h1, h2]

theorem nextLower_capital {p : Name} (h : Capital p) (r : Name) : nextLower (p ++ r) = false := by
  obtain ⟨_, c, cs, rfl, hc⟩ := h
  simp only [List.cons_append, nextLower]
  simp only [isUpper, Bool.and_eq_true, decide_eq_true_eq] at hc
  simp only [isLower, Bool.and_eq_false_iff, decide_eq_false_iff_not]
  omega

theorem public_capital {p : Name} (h : Capital p) : toPublicGoVariable p = goCamelCase p := by
  obtain ⟨_, c, cs, rfl, hc⟩ := h
  have hl := nextLower_capital ⟨‹_›, c, cs, rfl, hc⟩ []
  simp only [List.cons_append, nextLower] at hl
  have h1 : c ≠ '.' := by rintro rfl; exact absurd hc (by decide)
  have h2 : c ≠ '_' := by rintro rfl; exact absurd hc (by decide)
  have h3 : isDigit c = false := by
    simp only [isUpper, Bool.and_eq_true, decide_eq_true_eq] at hc
    simp only [isDigit, Bool.and_eq_false_iff, decide_eq_false_iff_not]
    omega
  have h4 : upper c = c := by simp [upper, hl]
  simp [toPublicGoVariable, goCamelCase, go, h1, h2, h3, h4, toPublicVariable]

def argument : Name := ['A', 'r', 'g', 'u', 'm', 'e', 'n', 't']

theorem go_path (ps : List Name) (hps : ∀ p ∈ ps, Capital p) : ∀ (p : Name) (_ : Ident p),
    go true false (join '_' (p :: ps) ++ argument) = joinUnderscore (goCamelCase p :: ps.map toPublicGoVariable) ++ argument := by
  induction ps with
  | nil =>
    intro p hp
    simp only [join, List.map_nil, joinUnderscore]
    rw [go_append (by decide) _ _ hp.1 fun x hx => (hp.2 x hx).1]
    rfl
  | cons q ps ih =>
    intro p hp
    have hq := hps q (by simp)
    have := ih (fun x hx => hps x (by simp [hx])) q hq.1
    simp only [join, List.append_assoc, List.cons_append, List.map_cons, joinUnderscore]
    rw [go_append (by rfl) _ _ hp.1 fun x hx => (hp.2 x hx).1, public_capital hq]
    have hrest : ∃ r, join '_' (q :: ps) ++ argument = q ++ r ∧ nextLower (q ++ r) = false := by
      cases ps with
      | nil => exact ⟨_, rfl, nextLower_capital hq _⟩
      | cons z ps => exact ⟨_, by simp only [join, List.append_assoc]; rfl, nextLower_capital hq _⟩
    obtain ⟨r, hr, hl⟩ := hrest
    have e1 : go false false ('_' :: (q ++ r)) = '_' :: go true false (q ++ r) := by
      have e2 : go false false (q ++ r) = go true false (q ++ r) := by
        obtain ⟨_, c, cs, rfl, hc⟩ := hq
        have h1 : c ≠ '.' := by rintro rfl; exact absurd hc (by decide)
        have h2 : c ≠ '_' := by rintro rfl; exact absurd hc (by decide)
        simp [go, h1, h2]
      rw [go]
      simp [hl, go_copy false _ hl, e2, show isDigit '_' = false from rfl, show upper '_' = '_' from rfl]
    rw [← hr] at e1
    rw [e1, this]
    simp [goCamelCase]

theorem camel_ne {p : Name} (h : Ident p) : goCamelCase p ≠ [] := by
  obtain ⟨hne, hd⟩ := h
  cases p with
  | nil => exact absurd rfl hne
  | cons c p =>
    have hx : c ≠ '.' := (hd c (by simp)).1
    simp only [goCamelCase, go, hx, if_false, Bool.false_and, Bool.and_true]
    split
    · contradiction
    · split
      · simp
      · rename_i h1
        split
        · rename_i h2; simp_all
        · split <;> simp

theorem public_path (p : Name) (ps : List Name) (hp : Ident p) (hps : ∀ p ∈ ps, Capital p) :
    toPublicGoVariable (join '_' (p :: ps) ++ argument) = joinUnderscore ((p :: ps).map toPublicGoVariable) ++ argument := by
  unfold toPublicGoVariable
  rw [goCamelCase, go_path ps hps p hp]
  cases h : goCamelCase p with
  | nil => exact absurd h (camel_ne hp)
  | cons x xs =>
    cases ps with
    | nil => simp [joinUnderscore, toPublicVariable, h]
    | cons q ps =>
      simp only [List.map_cons, joinUnderscore, toPublicVariable, h, List.cons_append]
      rfl

theorem no_dash {s : Name} (h : ∀ x ∈ s, x ≠ '-') : s.map (fun c => if c = '-' then '_' else c) = s := by
  induction s with
  | nil => rfl
  | cons c s ih => simp [h c (by simp), ih fun x hx => h x (by simp [hx])]

theorem join_all {P : Char → Prop} (h_ : P '_') (ps : List Name) (h : ∀ p ∈ ps, ∀ x ∈ p, P x) : ∀ x ∈ join '_' ps, P x := by
  induction ps with
  | nil => intro x hx; cases hx
  | cons p ps ih =>
    cases ps with
    | nil => exact h p (by simp)
    | cons q ps =>
      intro x hx
      simp only [join, List.mem_append, List.mem_cons] at hx
      rcases hx with hx | rfl | hx
      · exact h p (by simp) x hx
      · exact h_
      · exact ih (fun r hr => h r (by simp [hr])) x (by simpa [join] using hx)

/-- The argument has the same name in the function that logs it as in its declaration, if the names of nested messages begin
with capital letters. -/
theorem C101_argument_partial (m : Msg) (p : Name) (ps : List Name) (h : m.path = p :: ps) (hp : Ident p)
    (hps : ∀ q ∈ ps, Capital q) : fqdnToGoName m.argName = m.structName := by
  have hid : ∀ q ∈ m.path, Ident q := by
    rw [h]
    intro q hq
    rcases List.mem_cons.1 hq with rfl | hq
    · exact hp
    · exact (hps q hq).1
  have hjoin : ∀ x ∈ join '_' m.path ++ argument, x ≠ '.' ∧ x ≠ '-' := by
    intro x hx
    rcases List.mem_append.1 hx with hx | hx
    · exact join_all (by decide) m.path (fun q hq => (hid q hq).2) x hx
    · exact (by decide : ∀ x ∈ argument, x ≠ '.' ∧ x ≠ '-') x hx
  have hmap : m.path.map (fun w => toPublicGoVariable (w.map fun c => if c = '-' then '_' else c)) =
      m.path.map toPublicGoVariable :=
    List.map_congr_left fun q hq => by rw [no_dash fun x hx => ((hid q hq).2 x hx).2]
  unfold Msg.argName Msg.structName Msg.goName Msg.fqdn fqdnToGoName
  change joinUnderscore ((splitDots (m.pkg ++ '.' :: (join '_' m.path ++ argument))).map _) = _ ++ argument
  rw [splitDots_append, splitDots_one fun x hx => (hjoin x hx).1, splitDots_join _ _ fun q hq x hx => ((hid q hq).2 x hx).1]
  rw [List.map_append, List.map_append, hmap, List.map_cons, List.map_nil, no_dash fun x hx => (hjoin x hx).2]
  rw [joinUnderscore_append _ _ (by simp [splitDots_ne]) (by simp), joinUnderscore_append _ _ (by simp [splitDots_ne]) (by simp [h])]
  rw [h, joinUnderscore, public_path p ps hp hps]
  simp

/-! ### A message that contains itself -/

instance (t : Ty) : Decidable (IsScalar t) := by
  cases t <;> unfold IsScalar <;> infer_instance

def foo : Name := ['F', 'o', 'o']
def labels : Ty := .map ['p', '.', 'F', 'o', 'o', '.', 'L', 'a', 'b', 'e', 'l', 's', 'E', 'n', 't', 'r', 'y'] .string (.msg 1 false)

def someWorld : World where
  msgs := [
    ⟨['p'], [foo], [⟨['i', 'd'], .scalar .int32 false⟩, ⟨['s', 'e', 'l', 'f'], .msg 0 false⟩, ⟨['b', 'a', 'r', 's'], .msg 1 true⟩,
      ⟨['k', 'i', 'n', 'd'], .enum 0 false⟩, ⟨['l', 'a', 'b', 'e', 'l', 's'], labels⟩], [labels], [0],
      some ([⟨['i', 'd'], .scalar .int64 false⟩, ⟨['f', 'o', 'o'], .msg 0 false⟩], [⟨['i', 'd'], .scalar .sint64 false⟩])⟩,
    ⟨['p'], [['B', 'a', 'r']], [⟨['r', 'a', 't', 'e'], .scalar .float false⟩], [], [], none⟩]
  enums := [⟨['p', '.', 'F', 'o', 'o', '.', 'K', 'i', 'n', 'd'], [(['A'], 0), (['B'], 1)]⟩]

def someTypes : List Ty := [.scalar .int32 false, .scalar .int64 false, .scalar .float false, .msg 0 false, .msg 1 true,
  .msg 1 false, .enum 0 false, labels]

theorem some_msg {i : Nat} (h : .msg i false ∈ someTypes) : i = 0 ∨ i = 1 := by
  simp [someTypes, labels] at h; omega

theorem some_occurs (t : Ty) (h : Occurs someWorld [0] t) : t ∈ someTypes := by
  have hf : ∀ i, i = 0 ∨ i = 1 → (∀ f ∈ (someWorld.msg i).fields, f.ty ∈ someTypes) ∧
      (∀ t ∈ (someWorld.msg i).nested, t ∈ someTypes) ∧ ∀ e ∈ (someWorld.msg i).enums, .enum e false ∈ someTypes := by
    rintro i (rfl | rfl) <;> decide
  induction h with
  | root hi => simp only [List.mem_singleton] at hi; subst hi; decide
  | arg hi ha hm =>
    simp only [List.mem_singleton] at hi; subst hi
    simp only [someWorld, World.msg, List.getD_cons_zero, Option.some.injEq, Prod.mk.injEq] at ha
    rw [← ha.1] at hm
    simp only [List.mem_cons, List.not_mem_nil, or_false] at hm
    rcases hm with rfl | rfl <;> simp [someTypes]
  | field _ hm ih => exact (hf _ (some_msg ih)).1 _ hm
  | nested _ hm ih => exact (hf _ (some_msg ih)).2.1 _ hm
  | enum _ hm ih => exact (hf _ (some_msg ih)).2.2 _ hm
  | element _ ih =>
    simp only [someTypes, labels, List.mem_cons, reduceCtorEq, Ty.msg.injEq, Bool.true_eq_false, and_false, and_true,
      List.not_mem_nil, or_false, false_or] at ih
    subst ih; decide
  | enumElement _ ih => simp [someTypes, labels] at ih
  | value _ ih =>
    simp only [someTypes, labels, List.mem_cons, reduceCtorEq, Ty.map.injEq, List.not_mem_nil, or_false, false_or] at ih
    rw [ih.2.2]; decide

theorem some_different : DifferentNames someWorld [0] where
  types t u ht hu := (by decide : ∀ t ∈ someTypes, ∀ u ∈ someTypes, ¬ IsScalar t → ¬ IsScalar u →
    goNameOf someWorld t = goNameOf someWorld u → goTy (single t) = goTy (single u)) t (some_occurs t ht) u (some_occurs u hu)
  args i t hi _ ht hs := by
    simp only [List.mem_singleton] at hi; subst hi
    exact (by decide : ∀ t ∈ someTypes, ¬ IsScalar t → fqdnToGoName (someWorld.msg 0).argName ≠ goNameOf someWorld t)
      t (some_occurs t ht) hs
  two i j hi hj _ _ _ := by
    simp only [List.mem_singleton] at hi hj; rw [hi, hj]

theorem some_declared : Declared someWorld [0] where
  enums e he := by
    have := some_occurs _ he
    simp [someTypes, labels] at this
    subst this; decide
  fields i hi := by
    rcases some_msg (some_occurs _ hi) with rfl | rfl <;> decide
  argFields i fields used hi ha := by
    simp only [List.mem_singleton] at hi; subst hi
    simp only [someWorld, World.msg, List.getD_cons_zero, Option.some.injEq, Prod.mk.injEq] at ha
    rw [← ha.1]; decide
  argNames i hi _ := by
    simp only [List.mem_singleton] at hi; subst hi; decide
  structs m hm i hi h1 h2 h3 := by
    simp only [List.mem_singleton] at hi; subst hi
    simp only [someWorld, List.mem_cons, List.not_mem_nil, or_false] at hm
    rcases hm with rfl | rfl
    · rfl
    · cases h1
  used i fields used hi ha f hf u hu h := by
    simp only [List.mem_singleton] at hi; subst hi
    simp only [someWorld, World.msg, List.getD_cons_zero, Option.some.injEq, Prod.mk.injEq] at ha
    rw [← ha.1] at hf; rw [← ha.2] at hu
    simp only [List.mem_cons, List.not_mem_nil, or_false] at hf hu
    subst hu
    rcases hf with rfl | rfl
    · rfl
    · exact absurd h (by decide)
  maps n k v h k' e := by
    have := some_occurs _ h
    subst e
    simp [someTypes, labels] at this

/-- The functions of the message: of the argument, of the message itself, of the list and the elements, of the enum and of the
map. All of them compile. -/
example : ∃ st, logValues someWorld 5 [0] [] = some st ∧ st.length = 6 ∧ st.all (fnOk someWorld st) = true :=
  ⟨_, rfl, by decide, by decide⟩

example : ∃ st, logValues someWorld 5 [0] [] = some st ∧ ∀ f ∈ st, fnOk someWorld st f = true :=
  ⟨_, rfl, (C101_compiles_partial someWorld 5 [0] _ rfl some_different some_declared).1⟩

def fooValue : Val := .msg [.leaf 7, .nil, .list [.msg [.leaf 1], .msg [.leaf 2]], .enum 1, .map [3] [.msg [.leaf 4]]]

example : ∃ st, logValues someWorld 5 [0] [] = some st ∧ run someWorld st 4 (logvalue ['P', '_', 'F', 'o', 'o']) fooValue =
    .group [(.name ['i', 'd'], .leaf .int64 7), (.name ['s', 'e', 'l', 'f'], .group []),
      (.name ['b', 'a', 'r', 's'], .group [(.idx 0, .group [(.name ['r', 'a', 't', 'e'], .leaf .float64 1)]),
        (.idx 1, .group [(.name ['r', 'a', 't', 'e'], .leaf .float64 2)])]),
      (.name ['k', 'i', 'n', 'd'], .str ['B']),
      (.name ['l', 'a', 'b', 'e', 'l', 's'], .group [(.key 3, .group [(.name ['r', 'a', 't', 'e'], .leaf .float64 4)])])] :=
  ⟨_, rfl, (C101_logged_partial someWorld 5 [0] _ rfl some_different some_declared 0 (by simp) fooValue 4 (by decide)).1⟩

example : fqdnToGoName (Msg.argName ⟨['p'], [foo, ['B', 'a', 'r']], [], [], [], none⟩) =
    ['P', '_', 'F', 'o', 'o', '_', 'B', 'a', 'r', 'A', 'r', 'g', 'u', 'm', 'e', 'n', 't'] :=
  C101_argument_partial _ foo [['B', 'a', 'r']] rfl (by unfold Ident foo; decide) (by
    intro q hq; simp only [List.mem_singleton] at hq; subst hq
    exact ⟨by unfold Ident; decide, 'B', ['a', 'r'], rfl, by decide⟩)

/-! ### Where the functions do not compile -/

def bar : Name := ['B', 'a', 'r']
def xName : Name := ['x']

/-- Maps that are made by expressions have no name, so there is one function for all of them, with the type of the first. -/
theorem C101_maps_false : ∃ (w : World) (st : St), logValues w 5 [0, 1] [] = some st ∧ w.msgs = [
      ⟨['p'], [foo], [], [], [], some ([⟨xName, .map ['.'] .string (.scalar .string false)⟩], [])⟩,
      ⟨['p'], [bar], [], [], [], some ([⟨xName, .map ['.'] .string (.scalar .int64 false)⟩], [])⟩] ∧
    ∃ f ∈ st, f.name = logvalue (w.msg 1).structName ∧ fnOk w st f = false :=
  ⟨⟨[_, _], []⟩, _, rfl, rfl, by decide⟩

/-- A message may have the name that the argument of another has. -/
theorem C101_argument_name_false : ∃ (w : World) (st : St), logValues w 5 [0, 1] [] = some st ∧ w.msgs = [
      ⟨['p'], [foo], [], [], [], some ([], [])⟩, ⟨['p'], [foo ++ argument], [], [], [], some ([], [])⟩] ∧
    paramTy st (logvalue (w.msg 1).goName) ≠ some (.ptr 1) :=
  ⟨⟨[_, _], []⟩, _, rfl, rfl, by decide⟩

/-- Enums may have two names for a number. -/
theorem C101_alias_false : ∃ (w : World) (st : St), logValues w 5 [0] [] = some st ∧
    w.enums = [⟨['p', '.', 'E'], [(['A'], 0), (['B'], 1), (['C'], 1)]⟩] ∧
    w.msgs = [⟨['p'], [foo], [⟨xName, .enum 0 false⟩], [], [], some ([], [])⟩] ∧ ∃ f ∈ st, fnOk w st f = false :=
  ⟨⟨[_], [_]⟩, _, rfl, rfl, rfl, by decide⟩

/-- The argument of a nested message whose name does not begin with a capital letter is declared by another name than the one
by which it is logged. -/
theorem C101_nested_false : ∃ (w : World) (st : St), logValues w 5 [0] [] = some st ∧
    w.msgs = [⟨['p'], [foo, ['b', 'a', 'r']], [], [], [], some ([], [])⟩] ∧
    (w.msg 0).structName = ['P', '_', 'F', 'o', 'o', '_', 'B', 'a', 'r'] ++ argument ∧
    fqdnToGoName (w.msg 0).argName = ['P', '_', 'F', 'o', 'o', 'B', 'a', 'r'] ++ argument ∧
    has st (logvalue (w.msg 0).structName) = false :=
  ⟨⟨[_], []⟩, _, rfl, rfl, by decide, by decide, by decide⟩

/-- A variable may have the name of an argument and another type; the variable is what the Go type then has. -/
theorem C101_used_false : ∃ (w : World) (st : St), logValues w 5 [0] [] = some st ∧
    w.msgs = [⟨['p'], [foo], [], [], [], some ([⟨xName, .scalar .int64 false⟩], [⟨xName, .scalar .string false⟩])⟩] ∧
    ∃ f ∈ st, fnOk w st f = false :=
  ⟨⟨[_], []⟩, _, rfl, rfl, by decide⟩

end Verif.LogFn
