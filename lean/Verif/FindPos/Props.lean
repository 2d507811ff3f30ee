import Verif.FindPos.Lemmas2

/-! # C109: the location found for a position leads back to it -/

namespace Verif.FindPos

open SrcLoc

/-! ## Messages of a file -/

theorem body_sound (span : Id → Span) (pos : Pos) (maps : Id → Bool) (f : List Top) (hf : NoEmptyImport f) (ht : Tidy f)
    (hl : Laid span f) : ∀ (m : Nat) (ds : List Decl), sizeOf ds < m → ∀ (pre : List Decl) (path : String × List String) (k : Option String) (i : Id) (body : List Decl),
    message f path.1 path.2 = some (i, body) → body = pre ++ ds → (k ≠ none → fields pre ≠ []) →
    ∀ l, findBody (fun i => contains (span i) pos) maps path k ds = some l →
    ∃ id, nodeInfo f l = some id ∧ contains (span id) pos = true
  | 0, _, hlt, _, _, _, _, _, _, _, _, _, _ => absurd hlt (Nat.not_lt_zero _)
  | _ + 1, [], _, _, _, _, _, _, _, _, _, l, h => by rw [findBody] at h; cases h
  | m + 1, d :: ds, hlt, pre, path, k, i, body, hm, hb, hk, l, h => by
    have hlt' : sizeOf d + sizeOf ds < m := by simp only [List.cons.sizeOf_spec] at hlt; omega
    have tm := ht.msgs _ _ _ _ hm
    have next : ∀ k', (k' ≠ none → fields (pre ++ [d]) ≠ []) → findBody (fun i => contains (span i) pos) maps path k' ds = some l →
        ∃ id, nodeInfo f l = some id ∧ contains (span id) pos = true := fun k' hk' h' =>
      body_sound span pos maps f hf ht hl m ds (by omega) (pre ++ [d]) path k' i body hm (by rw [hb]; simp) hk' l h'
    have hkd : k ≠ none → fields (pre ++ [d]) ≠ [] := fun h' => by
      rw [fields_append]; intro hn; exact hk h' (List.append_eq_nil_iff.1 hn).1
    have hk0 : plain d = false → k = none := by
      intro hp
      cases k with
      | none => rfl
      | some n => rw [tm.last pre d ds hb (hk (by simp))] at hp; cases hp
    have hmem : d ∈ body := by rw [hb]; simp
    cases d with
    | opt o =>
      have hk := hk0 rfl
      subst hk
      rw [findBody] at h
      by_cases hn : o.named "grpc.federation.message" = true
      · rw [if_pos hn] at h
        cases hp : findMessageOption (fun i => contains (span i) pos) o with
        | none => rw [hp] at h; exact next none hkd h
        | some p =>
          rw [hp] at h
          simp only [Option.map_none, Option.some.injEq] at h
          subst h
          have hoo : o ∈ options body := by
            rw [hb]; unfold options; rw [List.mem_flatMap]; exact ⟨.opt o, by simp, by simp⟩
          have lo := hl.msgs _ _ _ _ hm o hoo
          have hs := option_sound (at_ := fun i => contains (span i) pos) ⟨tm.option.2 o hoo, lo.2.2.at_ pos⟩
            (fun hc => lo.2.1.contains hc) hp
          cases p with
          | some p =>
            obtain ⟨id, hid, hat⟩ := hs
            exact ⟨id, nodeInfo_inner hf hm (body_option i (one_option tm.option hoo hn) hid), hat⟩
          | none => exact ⟨i, nodeInfo_inner hf hm (body_none body i), lo.1.contains hs⟩
      · rw [if_neg hn] at h
        exact next none hkd h
    | field g =>
      rw [findBody] at h
      by_cases hmap : maps g.id = true
      · rw [if_pos hmap] at h; exact next k hkd h
      · rw [if_neg hmap] at h
        have hg : g ∈ fields body := by
          rw [hb]; unfold fields; rw [List.mem_flatMap]; exact ⟨.field g, by simp, by simp⟩
        cases hp : findField (fun i => contains (span i) pos) g with
        | none =>
          rw [hp] at h
          refine next (some g.name) (fun _ => ?_) h
          rw [fields_append]
          simp [fields]
        | some fl =>
          rw [hp] at h
          simp only [Option.some.injEq] at h
          subst h
          obtain ⟨hname, id, hid, hat⟩ := field_sound (tm.fieldOptions g hg) hp
          exact ⟨id, nodeInfo_inner hf hm (body_field fl i g (by rw [hname]; exact find_nodup Field.name tm.fields hg) hid), hat⟩
    | msg j n b =>
      have hk := hk0 rfl
      subst hk
      rw [findBody] at h
      cases hp : findBody (fun i => contains (span i) pos) maps (path.1, path.2 ++ [n]) none b with
      | none => rw [hp] at h; exact next none hkd h
      | some l' =>
        rw [hp] at h
        simp only [Option.some.injEq] at h
        subst h
        refine body_sound span pos maps f hf ht hl m b (by simp at hlt'; omega) [] (path.1, path.2 ++ [n]) none j b ?_ rfl (fun hh => absurd rfl hh) l' hp
        rw [message_append hm n]
        exact nestedMsg_mem tm.msgs hmem
    | enum e =>
      have hk := hk0 rfl
      subst hk
      rw [findBody] at h
      cases hp : findEnum (fun i => contains (span i) pos) e.name none e.decls with
      | none => rw [hp] at h; exact next none hkd h
      | some el =>
        rw [hp] at h
        simp only [Option.map_none, Option.some.injEq] at h
        subst h
        obtain ⟨hname, id, hid, hat⟩ := enum_sound (tm.enumsTidy e hmem)
          (fun v hv o ho => (hl.values _ _ _ _ hm e hmem v hv o ho).at_ pos) hp
        exact ⟨id, nodeInfo_inner hf hm ((body_enum el i e (by rw [hname]; exact nestedEnum_mem tm.enums hmem)).trans hid), hat⟩
    | oneof n fs =>
      rw [findBody] at h
      cases hp : findOneof (fun i => contains (span i) pos) fs with
      | none =>
        rw [hp] at h
        refine next _ (fun hh => ?_) h
        rw [fields_append]
        intro hn
        rw [List.append_eq_nil_iff] at hn
        rcases lastOf_none hh with h1 | h1
        · exact hk h1 hn.1
        · refine h1 ?_
          have h2 := hn.2
          unfold fields at h2
          simp only [List.flatMap_cons, List.flatMap_nil, List.append_nil] at h2
          exact h2
      | some fl =>
        rw [hp] at h
        simp only [Option.some.injEq] at h
        subst h
        obtain ⟨od, hod, hs⟩ := findSome_some hp
        cases od with
        | opt o => cases hs
        | field g =>
          have hg : g ∈ fields body := by
            rw [hb]; unfold fields; rw [List.mem_flatMap]
            exact ⟨.oneof n fs, by simp, by simpa using ⟨_, hod, rfl⟩⟩
          obtain ⟨hname, id, hid, hat⟩ := field_sound (tm.fieldOptions g hg) hs
          exact ⟨id, nodeInfo_inner hf hm (body_field fl i g (by rw [hname]; exact find_nodup Field.name tm.fields hg) hid), hat⟩
    | other =>
      rw [findBody] at h
      exact next k hkd h
theorem top_message {f : List Top} (h : (f.filterMap fun | Top.msg _ n _ => some n | _ => none).Nodup) {i : Id} {n : String}
    {b : List Decl} (hm : Top.msg i n b ∈ f) : message f n [] = some (i, b) := by
  have key : f.findSome? (fun t => match t with | .msg i m b => if m = n then some (i, b) else none | _ => none) = some (i, b) := by
    induction f with
    | nil => cases hm
    | cons d ds ih =>
      rw [List.findSome?_cons]
      rcases List.mem_cons.1 hm with rfl | hm'
      · simp
      · have hmem : n ∈ ds.filterMap fun | Top.msg _ n _ => some n | _ => none := List.mem_filterMap.2 ⟨_, hm', rfl⟩
        cases d with
        | msg j m c =>
          simp only [List.filterMap_cons, List.nodup_cons] at h
          have : m ≠ n := fun heq => h.1 (heq ▸ hmem)
          simp only [if_neg this]
          exact ih h.2 hm'
        | _ => exact ih h hm'
  unfold message
  have k2 := key
  simp only [innerMsg]
  split
  · rename_i h1; exact h1.symm.trans k2
  · rename_i h1; cases h1.symm.trans k2

theorem top_service {f : List Top} (h : (f.filterMap fun | Top.svc s => some s.name | _ => none).Nodup) {s : Service}
    (hm : Top.svc s ∈ f) : service f s.name = some s := by
  have hh : ((f.filterMap fun d => match d with | .svc e => some e | _ => none).map Service.name) =
      f.filterMap fun | Top.svc s => some s.name | _ => none := by
    rw [List.map_filterMap]
    congr 1
    funext d
    cases d <;> rfl
  exact find_nodup Service.name (l := f.filterMap fun d => match d with | .svc e => some e | _ => none) (by rw [hh]; exact h)
    (List.mem_filterMap.2 ⟨_, hm, rfl⟩)

/-! ## Properties -/

/-- A position is in a node exactly if it is neither before its start nor after its end. -/
theorem C109_contains (s : Span) (pos : Pos) : contains s pos = true ↔ Pos.le s.start pos ∧ Pos.le pos s.end :=
  contains_iff s pos

/-- If a location is found for a position of a tidy file, the element it names contains the position. -/
theorem C109_found_partial (span : Id → Span) (maps : Id → Bool) (f : List Top) (pos : Pos) (hf : NoEmptyImport f) (ht : Tidy f)
    (hl : Laid span f) (l : Loc) (h : find span maps f pos = some l) :
    ∃ id, nodeInfo f l = some id ∧ contains (span id) pos = true := by
  obtain ⟨t, hmem, hs⟩ := findSome_some h
  cases t with
  | «import» i n =>
    obtain ⟨pre, post, rfl⟩ := List.append_of_mem hmem
    simp only [findTop] at hs
    split at hs
    · rename_i hat
      simp only [Option.some.injEq] at hs
      subst hs
      exact ⟨i, (C91_import pre post n i (ht.imports pre i n post rfl)).1, hat⟩
    · cases hs
  | msg i n b =>
    exact body_sound span pos maps f hf ht hl _ b (Nat.lt_succ_self _) [] (n, []) none i b (top_message ht.msgNames hmem) rfl (fun hh => absurd rfl hh) l hs
  | svc s =>
    simp only [findTop, Option.map_eq_some_iff] at hs
    obtain ⟨sl, hsl, rfl⟩ := hs
    have lo := hl.svcs s hmem
    obtain ⟨hname, id, hid, hat⟩ := svc_sound (ht.svcs s hmem)
      (fun o ho => ⟨fun hc => (lo o ho).1.contains ((lo o ho).2.1.contains hc), (lo o ho).2.2.at_ pos⟩) hsl
    refine ⟨id, ?_, hat⟩
    rw [nodeInfo_service hf sl (by rw [hname]; exact top_service ht.svcNames hmem)]
    exact hid
  | opt o => cases hs
  | enum e => cases hs
  | other => cases hs

end Verif.FindPos
