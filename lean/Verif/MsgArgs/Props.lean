import Verif.MsgArgs.Model
import Verif.GoNames.Props

/-! # C65: `$` is what the caller passed -/

namespace Verif.MsgArgs
open Verif.GoNames

/-- Specification: expressions see the arguments as passed and the variables defined before. -/
def passed {V : Type} (args : List (Name × V)) : Name → Option V := fun x => args.lookup x

def specDefs {V : Type} (args : List (Name × V)) (defs : List (Def V)) : Name → Option V :=
  defs.foldl (fun env d => fun m => if m = d.name then some (d.expr (passed args) env) else env m) (fun _ => none)

def specFields {V : Type} (args : List (Name × V)) (defs : List (Def V)) (fields : List (Expr V)) : List V :=
  fields.map (fun e => e (passed args) (specDefs args defs))

theorem makeReq_other {V : Type} (args : List (Name × V)) (s : Struct V) (n : Name) (h : ∀ a ∈ args, toPublicGoVariable a.1 ≠ n) :
    args.foldl (fun s a => Struct.set s (toPublicGoVariable a.1) (some a.2)) s n = s n := by
  induction args generalizing s with
  | nil => rfl
  | cons a as ih =>
    simp only [List.foldl_cons]
    rw [ih _ (fun b hb => h b (List.mem_cons_of_mem _ hb))]
    simp [Struct.set, Ne.symm (h a (List.mem_cons_self ..))]

theorem makeReq_get {V : Type} (args : List (Name × V)) (s : Struct V) (h : (args.map (fun a => toPublicGoVariable a.1)).Nodup) (x : Name) (hx : x ∈ args.map (·.1)) :
    args.foldl (fun s a => Struct.set s (toPublicGoVariable a.1) (some a.2)) s (toPublicGoVariable x) = args.lookup x := by
  induction args generalizing s with
  | nil => cases hx
  | cons a as ih =>
    rw [List.map_cons, List.nodup_cons] at h
    simp only [List.foldl_cons]
    by_cases e : x = a.1
    · subst e
      rw [makeReq_other]
      · obtain ⟨n, v⟩ := a
        simp [Struct.set]
      · intro b hb e
        exact h.1 (List.mem_map.mpr ⟨b, hb, e⟩)
    · have hx' : x ∈ as.map (·.1) := by
        rcases List.mem_cons.mp hx with h | h
        · exact absurd h e
        · exact h
      rw [ih _ h.2 hx']
      obtain ⟨n, v⟩ := a
      simp only at e
      rw [List.lookup_cons, beq_eq_false_iff_ne.mpr e]

theorem lookup_none {V : Type} (args : List (Name × V)) (x : Name) (hx : x ∉ args.map (·.1)) : args.lookup x = none := by
  induction args with
  | nil => rfl
  | cons a as ih =>
    rw [List.map_cons, List.mem_cons, not_or] at hx
    obtain ⟨n, v⟩ := a
    simp only at hx
    rw [List.lookup_cons, beq_eq_false_iff_ne.mpr hx.1]
    exact ih hx.2

theorem dollar_passed {V : Type} (args : List (Name × V)) (req : Struct V) (hd : (args.map (fun a => toPublicGoVariable a.1)).Nodup)
    (hreq : ∀ x ∈ args.map (·.1), req (toPublicGoVariable x) = makeReq args (toPublicGoVariable x)) : dollar (args.map (·.1)) req = passed args := by
  funext x
  unfold dollar passed
  split
  · rename_i hx; rw [hreq x hx]; exact makeReq_get args _ hd x hx
  · rename_i hx; exact (lookup_none args x hx).symm

theorem evalDefs_spec {V : Type} (args : List (Name × V)) (hd : (args.map (fun a => toPublicGoVariable a.1)).Nodup) (defs : List (Def V)) (st : St V)
    (hreq : st.req = makeReq args) :
    let st' := defs.foldl (evalDef (args.map (·.1))) st
    st'.req = makeReq args ∧
    st'.eval = defs.foldl (fun env d => fun m => if m = d.name then some (d.expr (passed args) env) else env m) st.eval := by
  induction defs generalizing st with
  | nil => exact ⟨hreq, rfl⟩
  | cons d ds ih =>
    simp only [List.foldl_cons]
    have hp := dollar_passed args st.req hd (fun x _ => by rw [hreq])
    have := ih (evalDef (args.map (·.1)) st d) (by simp only [evalDef]; exact hreq)
    refine ⟨this.1, ?_⟩
    rw [this.2]
    simp only [evalDef, hp]

theorem assign_other {V : Type} (defs : List (Def V)) (vars : Struct V) (r : Struct V) (n : Name)
    (h : ∀ d ∈ defs, d.used = true → toPublicGoVariable d.name ≠ n) :
    (defs.filter (·.used)).foldl (fun r d => Struct.set r (toPublicGoVariable d.name) (vars (toPublicGoVariable d.name))) r n = r n := by
  induction defs generalizing r with
  | nil => rfl
  | cons d ds ih =>
    have h' : ∀ d ∈ ds, d.used = true → toPublicGoVariable d.name ≠ n := fun x hx => h x (List.mem_cons_of_mem _ hx)
    by_cases hu : d.used = true
    · rw [List.filter_cons_of_pos hu, List.foldl_cons, ih _ h']
      simp [Struct.set, Ne.symm (h d (List.mem_cons_self ..) hu)]
    · rw [List.filter_cons_of_neg (by simpa using hu), ih _ h']

/-- C65 (partial: used variables with other Go names than the arguments): every expression, of a variable or of a
field, sees the arguments the caller passed. -/
theorem C65_arguments_partial {V : Type} (args : List (Name × V)) (defs : List (Def V)) (fields : List (Expr V))
    (hargs : (args.map (fun a => toPublicGoVariable a.1)).Nodup)
    (hdisj : ∀ d ∈ defs, d.used = true → ∀ a ∈ args, toPublicGoVariable d.name ≠ toPublicGoVariable a.1) :
    (resolve args defs fields).2 = specFields args defs fields := by
  obtain ⟨h1, h2⟩ := evalDefs_spec args hargs defs ⟨makeReq args, fun _ => none, fun _ => none⟩ rfl
  simp only [resolve, specFields, specDefs]
  have hp := dollar_passed args (assignVars defs (defs.foldl (evalDef (args.map (·.1))) ⟨makeReq args, fun _ => none, fun _ => none⟩)).req hargs (by
    intro x hx
    obtain ⟨a, ha, rfl⟩ := List.mem_map.mp hx
    simp only [assignVars]
    rw [assign_other]
    · rw [h1]
    · intro d hd hu; exact hdisj d hd hu a ha)
  rw [hp]
  simp only [assignVars, h2]

theorem vars_get {V : Type} (args : List Name) (defs : List (Def V)) (st : St V)
    (hd : (defs.map (fun d => toPublicGoVariable d.name)).Nodup) (d : Def V)
    (h : d ∈ defs ∨ st.vars (toPublicGoVariable d.name) = st.eval d.name ∧ ∀ e ∈ defs, toPublicGoVariable e.name ≠ toPublicGoVariable d.name) :
    (defs.foldl (evalDef args) st).vars (toPublicGoVariable d.name) = (defs.foldl (evalDef args) st).eval d.name := by
  induction defs generalizing st with
  | nil =>
    rcases h with h | h
    · cases h
    · exact h.1
  | cons e es ih =>
    rw [List.map_cons, List.nodup_cons] at hd
    simp only [List.foldl_cons]
    apply ih _ hd.2
    rcases h with h | h
    · rcases List.mem_cons.mp h with rfl | h
      · refine .inr ⟨by simp [evalDef, Struct.set], ?_⟩
        intro e he heq
        exact hd.1 (List.mem_map.mpr ⟨e, he, heq⟩)
      · exact .inl h
    · refine .inr ⟨?_, fun x hx => h.2 x (List.mem_cons_of_mem _ hx)⟩
      have hne := h.2 e (List.mem_cons_self ..)
      have hne' : d.name ≠ e.name := fun he => hne (by rw [he])
      simp [evalDef, Struct.set, Ne.symm hne, hne', h.1]

theorem assign_get {V : Type} (defs : List (Def V)) (vars : Struct V) (r : Struct V) (d : Def V) (hd : d ∈ defs) (hu : d.used = true) :
    (defs.filter (·.used)).foldl (fun r d => Struct.set r (toPublicGoVariable d.name) (vars (toPublicGoVariable d.name))) r (toPublicGoVariable d.name)
      = vars (toPublicGoVariable d.name) := by
  have key : ∀ (l : List (Def V)) (r : Struct V), (d ∈ l ∨ r (toPublicGoVariable d.name) = vars (toPublicGoVariable d.name)) →
      l.foldl (fun r d => Struct.set r (toPublicGoVariable d.name) (vars (toPublicGoVariable d.name))) r (toPublicGoVariable d.name)
        = vars (toPublicGoVariable d.name) := by
    intro l
    induction l with
    | nil => intro r h; rcases h with h | h; cases h; exact h
    | cons e es ih =>
      intro r h
      simp only [List.foldl_cons]
      apply ih
      by_cases hn : toPublicGoVariable d.name = toPublicGoVariable e.name
      · right; simp [Struct.set, hn]
      · rcases h with h | h
        · rcases List.mem_cons.mp h with rfl | h
          · exact absurd rfl hn
          · exact .inl h
        · right; simp [Struct.set, hn, h]
  exact key _ _ (.inl (List.mem_filter.mpr ⟨hd, hu⟩))

/-- C65: the custom resolver gets every used variable with the value its definition has. -/
theorem C65_custom_resolver_partial {V : Type} (args : List (Name × V)) (defs : List (Def V)) (fields : List (Expr V))
    (hargs : (args.map (fun a => toPublicGoVariable a.1)).Nodup)
    (hdefs : (defs.map (fun d => toPublicGoVariable d.name)).Nodup) (d : Def V) (hd : d ∈ defs) (hu : d.used = true) :
    (resolve args defs fields).1 (toPublicGoVariable d.name) = specDefs args defs d.name := by
  obtain ⟨h1, h2⟩ := evalDefs_spec args hargs defs ⟨makeReq args, fun _ => none, fun _ => none⟩ rfl
  simp only [resolve, assignVars]
  rw [assign_get defs _ _ d hd hu, vars_get _ defs _ hdefs d (.inl hd), h2]
  rfl

/-- C65: and every argument as the caller passed it. -/
theorem C65_custom_resolver_arguments_partial {V : Type} (args : List (Name × V)) (defs : List (Def V)) (fields : List (Expr V))
    (hargs : (args.map (fun a => toPublicGoVariable a.1)).Nodup)
    (hdisj : ∀ d ∈ defs, d.used = true → ∀ a ∈ args, toPublicGoVariable d.name ≠ toPublicGoVariable a.1) (a : Name × V) (ha : a ∈ args) :
    (resolve args defs fields).1 (toPublicGoVariable a.1) = passed args a.1 := by
  obtain ⟨h1, _⟩ := evalDefs_spec args hargs defs ⟨makeReq args, fun _ => none, fun _ => none⟩ rfl
  simp only [resolve, assignVars]
  rw [assign_other _ _ _ _ (fun d hd hu => hdisj d hd hu a ha), h1]
  exact makeReq_get args _ hargs a.1 (List.mem_map.mpr ⟨a, ha, rfl⟩)

/-- C65 for the names of C64. -/
theorem C65_snake_partial {V : Type} (args : List (Name × V)) (defs : List (Def V)) (fields : List (Expr V))
    (hs : ∀ n ∈ args.map (·.1) ++ defs.map (·.name), snake n = true) (hargs : (args.map (·.1)).Nodup)
    (hdisj : ∀ d ∈ defs, d.used = true → ∀ a ∈ args, d.name ≠ a.1) : (resolve args defs fields).2 = specFields args defs fields := by
  apply C65_arguments_partial
  · have := C64_fields_partial (args.map (·.1)) (fun n hn => hs n (List.mem_append_left _ hn)) hargs
    rwa [List.map_map] at this
  · intro d hd hu a ha e
    exact hdisj d hd hu a ha (C64_distinct_partial _ _ (hs _ (List.mem_append_right _ (List.mem_map.mpr ⟨d, hd, rfl⟩)))
      (hs _ (List.mem_append_left _ (List.mem_map.mpr ⟨a, ha, rfl⟩))) e)

/-- C65 is false of the code: for a variable with the name of an argument, the fields see the variable as `$.id`. -/
theorem C65_same_name_false :
    (resolve [("id".toList, 7)] [⟨"id".toList, true, fun dollar _ => (dollar "id".toList).getD 0 + 100⟩] [fun dollar _ => (dollar "id".toList).getD 0]).2 = [107] ∧
    specFields [("id".toList, 7)] [⟨"id".toList, true, fun dollar _ => (dollar "id".toList).getD 0 + 100⟩] [fun dollar _ => (dollar "id".toList).getD 0] = [7] := by
  decide

/-- The argument struct has no field for such an argument: the field has the type of the variable. -/
theorem C65_struct_false : structFields [("id".toList, "int64")] [("id".toList, "string")] = [("Id".toList, "int64")] := by decide

theorem structFields_inv {T : Type} (l : List (Name × T)) (acc : List (Name × T)) (ha : (acc.map (·.1)).Nodup) :
    let r := l.foldl (fun acc f => if acc.any (fun g => g.1 == toPublicGoVariable f.1) then acc else acc ++ [(toPublicGoVariable f.1, f.2)]) acc
    (r.map (·.1)).Nodup ∧ (∀ f ∈ acc, f ∈ r) ∧
    ((l.map (fun f => toPublicGoVariable f.1)).Nodup → (∀ f ∈ l, toPublicGoVariable f.1 ∉ acc.map (·.1)) → ∀ f ∈ l, (toPublicGoVariable f.1, f.2) ∈ r) := by
  induction l generalizing acc with
  | nil => exact ⟨ha, fun _ h => h, by simp⟩
  | cons x xs ih =>
    simp only [List.foldl_cons]
    by_cases hx : acc.any (fun g => g.1 == toPublicGoVariable x.1) = true
    · rw [if_pos hx]
      obtain ⟨h1, h2, _⟩ := ih acc ha
      refine ⟨h1, h2, fun _ hn => ?_⟩
      obtain ⟨g, hg, e⟩ := List.any_eq_true.mp hx
      exact absurd (List.mem_map.mpr ⟨g, hg, beq_iff_eq.mp e⟩) (hn x (List.mem_cons_self ..))
    · rw [if_neg hx]
      have hx' : toPublicGoVariable x.1 ∉ acc.map (·.1) := by
        intro h
        obtain ⟨g, hg, e⟩ := List.mem_map.mp h
        exact hx (List.any_eq_true.mpr ⟨g, hg, by simp [e]⟩)
      have hnd : ((acc ++ [(toPublicGoVariable x.1, x.2)]).map (·.1)).Nodup := by
        rw [List.map_append, List.nodup_append]
        refine ⟨ha, by simp, ?_⟩
        intro a ha' b hb e
        simp only [List.map_cons, List.map_nil, List.mem_singleton] at hb
        rw [e, hb] at ha'; exact hx' ha'
      obtain ⟨h1, h2, h3⟩ := ih _ hnd
      refine ⟨h1, fun f hf => h2 f (List.mem_append_left _ hf), ?_⟩
      intro hd hn f hf
      rw [List.map_cons, List.nodup_cons] at hd
      rcases List.mem_cons.mp hf with rfl | hf
      · exact h2 _ (by simp)
      · refine h3 hd.2 ?_ f hf
        intro g hg hm
        rw [List.map_append, List.mem_append] at hm
        rcases hm with hm | hm
        · exact hn g (List.mem_cons_of_mem _ hg) hm
        · simp only [List.map_cons, List.map_nil, List.mem_singleton] at hm
          exact hd.1 (List.mem_map.mpr ⟨g, hg, hm⟩)

/-- C65: the argument struct declares no field twice. -/
theorem C65_struct_once {T : Type} (defs args : List (Name × T)) : ((structFields defs args).map (·.1)).Nodup :=
  (structFields_inv (defs ++ args) [] (by simp)).1

/-- C65 (partial: different Go names): the struct has a field of the right type for every argument and used variable. -/
theorem C65_struct_partial {T : Type} (defs args : List (Name × T)) (h : ((defs ++ args).map (fun f => toPublicGoVariable f.1)).Nodup) :
    ∀ f ∈ defs ++ args, (toPublicGoVariable f.1, f.2) ∈ structFields defs args :=
  (structFields_inv (defs ++ args) [] (by simp)).2.2 h (by simp)

/-- A message with two arguments and two variables meets the hypotheses. -/
example : ∀ n ∈ ([("user_id".toList, 1), ("limit".toList, 2)] : List (Name × Nat)).map (·.1) ++ ["user".toList, "posts".toList], snake n = true := by decide

end Verif.MsgArgs
