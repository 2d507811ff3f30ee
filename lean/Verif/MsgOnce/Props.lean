import Verif.MsgOnce.Spec

/-! # C111: a reference to a message leads to the message of the file -/

namespace Verif.MsgOnce

theorem Leads.trans {ds : Decls} {a b c : Name} (h : Leads ds a b) (g : Leads ds b c) : Leads ds a c := by
  induction h with
  | refl => exact g
  | step s _ ih => exact .step s (ih g)

/-- What holds between calls. -/
structure Inv (ds : Decls) (st : St) : Prop where
  cached : ∀ x i, st.cache x = some i → ∃ o : Obj, st.heap[i]? = some o ∧ o.name = x
  one : ∀ (i : Nat) (o : Obj), st.heap[i]? = some o → st.cache o.name = some i
  decl : ∀ x i, st.cache x = some i → (ds x).isSome

/-- An object has all that its declaration says. -/
def Complete (ds : Decls) (heap : List Obj) (i : Nat) : Prop :=
  ∃ (o : Obj) (d : Decl), heap[i]? = some o ∧ ds o.name = some d ∧ Named heap o.nested (d.nested.filter fun n => (ds n).isSome) ∧
    Named heap o.fields (d.fields.filter fun n => (ds n).isSome)

/-- Objects are only added. -/
structure Ext (st st' : St) : Prop where
  len : st.heap.length ≤ st'.heap.length
  same : ∀ i, i < st.heap.length → st'.heap[i]? = st.heap[i]?
  cache : ∀ x i, st.cache x = some i → st'.cache x = some i

theorem Ext.refl (st : St) : Ext st st := ⟨Nat.le_refl _, fun _ _ => rfl, fun _ _ h => h⟩

theorem Ext.trans {a b c : St} (h : Ext a b) (g : Ext b c) : Ext a c :=
  ⟨Nat.le_trans h.len g.len, fun i hi => (g.same i (Nat.lt_of_lt_of_le hi h.len)).trans (h.same i hi), fun x i hx => g.cache x i (h.cache x i hx)⟩

theorem named_cons {heap : List Obj} {i : Nat} {is : List Nat} {n : Name} {ns : List Name} :
    Named heap (i :: is) (n :: ns) ↔ heap[i]?.map Obj.name = some n ∧ Named heap is ns := by
  unfold Named
  simp

/-- Names of objects do not change. -/
theorem Named.mono {heap heap' : List Obj} {is : List Nat} {ns : List Name} (h : Named heap is ns)
    (hh : ∀ (i : Nat) (o : Obj), heap[i]? = some o → ∃ o' : Obj, heap'[i]? = some o' ∧ o'.name = o.name) : Named heap' is ns := by
  unfold Named at *
  rw [← h]
  refine List.map_congr_left fun i hi => ?_
  have : heap[i]?.map Obj.name ∈ ns.map some := by rw [← h]; exact List.mem_map.2 ⟨i, hi, rfl⟩
  obtain ⟨n, _, hn⟩ := List.mem_map.1 this
  cases ho : heap[i]? with
  | none => rw [ho] at hn; cases hn
  | some o =>
    obtain ⟨o', h1, h2⟩ := hh i o ho
    rw [h1, Option.map_some, Option.map_some, h2]

theorem Ext.names {a b : St} (h : Ext a b) : ∀ (i : Nat) (o : Obj), a.heap[i]? = some o → ∃ o' : Obj, b.heap[i]? = some o' ∧ o'.name = o.name := by
  intro i o ho
  have hi := (List.getElem?_eq_some_iff.1 ho).1
  exact ⟨o, (h.same i hi).trans ho, rfl⟩

theorem Complete.ext {ds : Decls} {a b : St} (h : Ext a b) {i : Nat} (hc : Complete ds a.heap i) : Complete ds b.heap i := by
  obtain ⟨o, d, h1, h2, h3, h4⟩ := hc
  have hi := (List.getElem?_eq_some_iff.1 h1).1
  exact ⟨o, d, (h.same i hi).trans h1, h2, Named.mono h3 h.names, Named.mono h4 h.names⟩

/-- What a call of `resolveMessage` does. -/
structure Post (ds : Decls) (n : Name) (st : St) (r : Option Nat) (st' : St) : Prop where
  inv : Inv ds st'
  ext : Ext st st'
  frame : ∀ x, ¬ Leads ds n x → st'.cache x = st.cache x
  result : ∀ i, r = some i → st'.cache n = some i
  found : r.isSome = (ds n).isSome
  complete : ∀ i, st.heap.length ≤ i → i < st'.heap.length → Complete ds st'.heap i

/-- What the loops do. -/
structure PostEach (ds : Decls) (ns : List Name) (st : St) (rs : List Nat) (st' : St) : Prop where
  inv : Inv ds st'
  ext : Ext st st'
  frame : ∀ x, (∀ n ∈ ns, ¬ Leads ds n x) → st'.cache x = st.cache x
  named : Named st'.heap rs (ns.filter fun n => (ds n).isSome)
  complete : ∀ i, st.heap.length ≤ i → i < st'.heap.length → Complete ds st'.heap i

theorem each_post {ds : Decls} {f : Name → St → Option (Option Nat × St)}
    (hf : ∀ n st r st', Inv ds st → f n st = some (r, st') → Post ds n st r st') :
    ∀ (ns : List Name) (st : St) (rs : List Nat) (st' : St), Inv ds st → each f ns st = some (rs, st') → PostEach ds ns st rs st'
  | [], st, rs, st', hi, h => by
    simp only [each, Option.some.injEq, Prod.mk.injEq] at h
    obtain ⟨rfl, rfl⟩ := h
    exact ⟨hi, .refl _, fun _ _ => rfl, rfl, fun i h1 h2 => by omega⟩
  | n :: ns, st, rs, st', hi, h => by
    simp only [each] at h
    cases h1 : f n st with
    | none => rw [h1] at h; cases h
    | some p =>
      obtain ⟨r, st1⟩ := p
      rw [h1] at h
      simp only at h
      cases h2 : each f ns st1 with
      | none => rw [h2] at h; cases h
      | some q =>
        obtain ⟨rs1, st2⟩ := q
        rw [h2] at h
        simp only [Option.some.injEq, Prod.mk.injEq] at h
        obtain ⟨rfl, rfl⟩ := h
        have p1 := hf n st r st1 hi h1
        have p2 := each_post hf ns st1 rs1 st2 p1.inv h2
        refine ⟨p2.inv, p1.ext.trans p2.ext, fun x hx => ?_, ?_, fun i g1 g2 => ?_⟩
        · rw [p2.frame x (fun m hm => hx m (by simp [hm])), p1.frame x (hx n (by simp))]
        · cases r with
          | none =>
            have hn : (ds n).isSome = false := p1.found.symm
            rw [List.filter_cons_of_neg (by simp [hn])]
            exact p2.named
          | some i =>
            have hn : (ds n).isSome = true := p1.found.symm
            rw [List.filter_cons_of_pos (by simp [hn])]
            refine named_cons.2 ⟨?_, p2.named⟩
            obtain ⟨o, ho, hname⟩ := p2.inv.cached n i (p2.ext.cache n i (p1.result i rfl))
            rw [ho, Option.map_some, hname]
        · by_cases hlt : i < st1.heap.length
          · exact (p1.complete i g1 hlt).ext p2.ext
          · exact p2.complete i (by omega) g2

/-- A call keeps what holds, if there is no way back. -/
theorem resolve_post {ds : Decls} (hb : NoWayBack ds) : ∀ (fuel : Nat) (n : Name) (st : St) (r : Option Nat) (st' : St), Inv ds st →
    resolve ds fuel n st = some (r, st') → Post ds n st r st'
  | 0, _, _, _, _, _, h => by simp [resolve] at h
  | fuel + 1, n, st, r, st', hi, h => by
    simp only [resolve] at h
    cases hc : st.cache n with
    | some i =>
      rw [hc] at h
      simp only [Option.some.injEq, Prod.mk.injEq] at h
      obtain ⟨rfl, rfl⟩ := h
      exact ⟨hi, .refl _, fun _ _ => rfl, fun j hj => by rw [hc]; exact hj, by rw [hi.decl n i hc]; rfl, fun i h1 h2 => by omega⟩
    | none =>
      rw [hc] at h
      simp only at h
      cases hd : ds n with
      | none =>
        rw [hd] at h
        simp only [Option.some.injEq, Prod.mk.injEq] at h
        obtain ⟨rfl, rfl⟩ := h
        exact ⟨hi, .refl _, fun _ _ => rfl, fun j hj => (by cases hj), (by rw [hd]; rfl), fun i h1 h2 => by omega⟩
      | some d =>
        rw [hd] at h
        simp only at h
        cases h1 : each (resolve ds fuel) d.nested st with
        | none => rw [h1] at h; cases h
        | some p =>
          obtain ⟨ns, st1⟩ := p
          rw [h1] at h
          simp only at h
          have p1 := each_post (resolve_post hb fuel) d.nested st ns st1 hi h1
          -- the message is not in the cache yet
          have hn1 : st1.cache n = none := by
            rw [p1.frame n (fun m hm => hb n d m hd hm), hc]
          -- the cache with the new object
          have hs2 : Inv ds ⟨st1.heap ++ [⟨n, ns, []⟩], fun x => if x = n then some st1.heap.length else st1.cache x⟩ := by
            refine ⟨fun x i hx => ?_, fun i o ho => ?_, fun x i hx => ?_⟩
            · simp only at hx
              by_cases hxn : x = n
              · rw [if_pos hxn, Option.some.injEq] at hx
                subst hx
                exact ⟨⟨n, ns, []⟩, by simp, hxn.symm⟩
              · rw [if_neg hxn] at hx
                obtain ⟨o, ho, hname⟩ := p1.inv.cached x i hx
                exact ⟨o, by rw [List.getElem?_append_left (List.getElem?_eq_some_iff.1 ho).1]; exact ho, hname⟩
            · simp only at ho ⊢
              by_cases hlt : i < st1.heap.length
              · rw [List.getElem?_append_left hlt] at ho
                have := p1.inv.one i o ho
                by_cases hxn : o.name = n
                · rw [hxn, hn1] at this; cases this
                · rw [if_neg hxn, this]
              · have hil : i = st1.heap.length := by
                  have := (List.getElem?_eq_some_iff.1 ho).1
                  simp only [List.length_append, List.length_cons, List.length_nil] at this
                  omega
                subst hil
                simp only [List.getElem?_concat_length, Option.some.injEq] at ho
                subst ho
                simp
            · simp only at hx
              by_cases hxn : x = n
              · rw [hxn, hd]; rfl
              · rw [if_neg hxn] at hx
                exact p1.inv.decl x i hx
          have e12 : Ext st1 ⟨st1.heap ++ [⟨n, ns, []⟩], fun x => if x = n then some st1.heap.length else st1.cache x⟩ := by
            refine ⟨by simp, fun i hlt => List.getElem?_append_left hlt, fun x i hx => ?_⟩
            have hxn : x ≠ n := fun he => by rw [he, hn1] at hx; cases hx
            simp only [if_neg hxn, hx]
          cases h2 : each (resolve ds fuel) d.fields
              ⟨st1.heap ++ [⟨n, ns, []⟩], fun x => if x = n then some st1.heap.length else st1.cache x⟩ with
          | none => rw [h2] at h; cases h
          | some q =>
            obtain ⟨fs, st3⟩ := q
            rw [h2] at h
            simp only [Option.some.injEq, Prod.mk.injEq] at h
            obtain ⟨rfl, rfl⟩ := h
            have p2 := each_post (resolve_post hb fuel) d.fields _ fs st3 hs2 h2
            have hlen : st1.heap.length < st3.heap.length := by
              have := p2.ext.len
              simp only [List.length_append, List.length_cons, List.length_nil] at this
              omega
            have hat : st3.heap[st1.heap.length]? = some ⟨n, ns, []⟩ := by
              rw [p2.ext.same _ (by simp)]
              simp
            -- names are as before
            have hset : ∀ (i : Nat) (o : Obj), st3.heap[i]? = some o →
                ∃ o' : Obj, (st3.heap.set st1.heap.length ⟨n, ns, fs⟩)[i]? = some o' ∧ o'.name = o.name := by
              intro i o ho
              by_cases hil : i = st1.heap.length
              · subst hil
                rw [hat, Option.some.injEq] at ho
                subst ho
                exact ⟨⟨n, ns, fs⟩, List.getElem?_set_self hlen, rfl⟩
              · exact ⟨o, by rw [List.getElem?_set_ne (Ne.symm hil)]; exact ho, rfl⟩
            refine ⟨⟨fun x i hx => ?_, fun i o ho => ?_, fun x i hx => p2.inv.decl x i hx⟩, ⟨?_, fun i hlt => ?_, fun x i hx => ?_⟩,
              fun x hx => ?_, fun i hi' => ?_, by rw [hd]; rfl, fun i g1 g2 => ?_⟩
            · obtain ⟨o, ho, hname⟩ := p2.inv.cached x i hx
              obtain ⟨o', ho', hname'⟩ := hset i o ho
              exact ⟨o', ho', hname'.trans hname⟩
            · simp only at ho ⊢
              by_cases hil : i = st1.heap.length
              · subst hil
                rw [List.getElem?_set_self hlen, Option.some.injEq] at ho
                subst ho
                exact p2.inv.one st1.heap.length ⟨n, ns, []⟩ hat
              · rw [List.getElem?_set_ne (Ne.symm hil)] at ho
                exact p2.inv.one i o ho
            · simp only [List.length_set]
              have := p1.ext.len
              omega
            · simp only
              have hle := p1.ext.len
              rw [List.getElem?_set_ne (by omega), (e12.trans p2.ext).same i (by omega), p1.ext.same i hlt]
            · exact p2.ext.cache x i (e12.cache x i (p1.ext.cache x i hx))
            · have hxn : x ≠ n := fun he => hx (he ▸ .refl)
              simp only
              rw [p2.frame x (fun m hm hl => hx (.step (.field hd hm) hl))]
              simp only [if_neg hxn]
              exact p1.frame x (fun m hm hl => hx (.step (.nested hd hm) hl))
            · simp only [Option.some.injEq] at hi'
              subst hi'
              exact p2.ext.cache n st1.heap.length (by simp)
            · simp only [List.length_set] at g2
              simp only
              by_cases hil : i = st1.heap.length
              · subst hil
                refine ⟨⟨n, ns, fs⟩, d, List.getElem?_set_self hlen, hd, ?_, ?_⟩
                · exact Named.mono (Named.mono p1.named (e12.trans p2.ext).names) hset
                · exact Named.mono p2.named hset
              · have hc3 : Complete ds st3.heap i := by
                  by_cases hlt : i < st1.heap.length
                  · exact (p1.complete i g1 hlt).ext (e12.trans p2.ext)
                  · refine p2.complete i ?_ g2
                    simp only [List.length_append, List.length_cons, List.length_nil]
                    omega
                obtain ⟨o, d', c1, c2, c3, c4⟩ := hc3
                exact ⟨o, d', by rw [List.getElem?_set_ne (Ne.symm hil)]; exact c1, c2, Named.mono c3 hset, Named.mono c4 hset⟩

/-- What all calls do. -/
theorem run_post {ds : Decls} (hb : NoWayBack ds) (fuel : Nat) : ∀ (cs : List (Bool × Name)) (st : St) (ids : List Nat) (st' : St),
    Inv ds st → run ds fuel cs st = some (ids, st') → Inv ds st' ∧ Ext st st' ∧
      (∀ i, st.heap.length ≤ i → i < st'.heap.length → Complete ds st'.heap i) ∧
      ∀ n, (true, n) ∈ cs → (ds n).isSome → ∃ i ∈ ids, st'.cache n = some i
  | [], st, ids, st', hi, h => by
    simp only [run, Option.some.injEq, Prod.mk.injEq] at h
    obtain ⟨rfl, rfl⟩ := h
    exact ⟨hi, .refl _, fun i h1 h2 => by omega, fun n hn => by simp at hn⟩
  | (b, n) :: cs, st, ids, st', hi, h => by
    simp only [run] at h
    cases h1 : resolve ds fuel n st with
    | none => rw [h1] at h; cases h
    | some p =>
      obtain ⟨r, st1⟩ := p
      rw [h1] at h
      simp only at h
      cases h2 : run ds fuel cs st1 with
      | none => rw [h2] at h; cases h
      | some q =>
        obtain ⟨rs, st2⟩ := q
        rw [h2] at h
        simp only [Option.some.injEq, Prod.mk.injEq] at h
        obtain ⟨rfl, rfl⟩ := h
        have p1 := resolve_post hb fuel n st r st1 hi h1
        obtain ⟨q1, q2, q3, q4⟩ := run_post hb fuel cs st1 rs st2 p1.inv h2
        refine ⟨q1, p1.ext.trans q2, fun i g1 g2 => ?_, fun m hm hd => ?_⟩
        · by_cases hlt : i < st1.heap.length
          · exact (p1.complete i g1 hlt).ext q2
          · exact q3 i (by omega) g2
        · rcases List.mem_cons.1 hm with he | hm
          · simp only [Prod.mk.injEq] at he
            obtain ⟨rfl, rfl⟩ := he
            cases hr : r with
            | none => have := p1.found; rw [hr, hd] at this; cases this
            | some i => exact ⟨i, by simp, q2.cache m i (p1.result i hr)⟩
          · obtain ⟨i, hi1, hi2⟩ := q4 m hm hd
            exact ⟨i, List.mem_append_right _ hi1, hi2⟩

/-- If no nested message leads back to the message it is nested in, every message of the files becomes one object: what fields refer to
are the objects whose options are resolved, and they are those of the types of the fields. -/
theorem C111_once_partial (ds : Decls) (fuel : Nat) (cs : List (Bool × Name)) (ids : List Nat) (st : St) (hb : NoWayBack ds)
    (hd : ∀ n, (ds n).isSome → Declared ds ((cs.filter (·.1)).map (·.2)) n) (h : run ds fuel cs .empty = some (ids, st)) :
    (∀ (i : Nat) (o : Obj), st.heap[i]? = some o → Ruled st.heap ids i ∧ ∃ d, ds o.name = some d ∧
      Named st.heap o.nested (d.nested.filter fun n => (ds n).isSome) ∧ Named st.heap o.fields (d.fields.filter fun n => (ds n).isSome)) ∧
    ∀ (i j : Nat) (o p : Obj), st.heap[i]? = some o → st.heap[j]? = some p → o.name = p.name → i = j := by
  obtain ⟨h1, _, h3, h4⟩ := run_post hb fuel cs .empty ids st
    ⟨fun _ _ h => (by cases h), fun i o h => (by simp [St.empty] at h), fun _ _ h => (by cases h)⟩ h
  -- what is declared is an object whose options are resolved
  have key : ∀ n, Declared ds ((cs.filter (·.1)).map (·.2)) n → (ds n).isSome →
      ∃ (i : Nat) (o : Obj), st.heap[i]? = some o ∧ o.name = n ∧ Ruled st.heap ids i := by
    intro n hdn
    induction hdn with
    | top hn =>
      intro hs
      obtain ⟨⟨b, m⟩, hm, rfl⟩ := List.mem_map.1 hn
      obtain ⟨hm, hbt⟩ := List.mem_filter.1 hm
      simp only at hbt
      subst hbt
      obtain ⟨i, hi, hc⟩ := h4 m hm hs
      obtain ⟨o, ho, hname⟩ := h1.cached m i hc
      exact ⟨i, o, ho, hname, .top hi⟩
    | nested _ hdn hm ih =>
      rename_i n m d _
      intro hs
      obtain ⟨i, o, ho, hname, hr⟩ := ih (by rw [hdn]; rfl)
      obtain ⟨o', d', c1, c2, c3, _⟩ := h3 i (Nat.zero_le _) (List.getElem?_eq_some_iff.1 ho).1
      rw [ho, Option.some.injEq] at c1
      subst c1
      rw [hname, hdn, Option.some.injEq] at c2
      subst c2
      have : (some m) ∈ o.nested.map (fun i => st.heap[i]?.map Obj.name) := by
        unfold Named at c3
        rw [c3]
        exact List.mem_map.2 ⟨m, List.mem_filter.2 ⟨hm, by simpa using hs⟩, rfl⟩
      obtain ⟨j, hj, hjn⟩ := List.mem_map.1 this
      cases hjo : st.heap[j]? with
      | none => rw [hjo] at hjn; cases hjn
      | some p =>
        rw [hjo, Option.map_some, Option.some.injEq] at hjn
        exact ⟨j, p, hjo, hjn, .nested hr ho hj⟩
  have uniq : ∀ (i j : Nat) (o p : Obj), st.heap[i]? = some o → st.heap[j]? = some p → o.name = p.name → i = j := by
    intro i j o p ho hp he
    have a := h1.one i o ho
    rw [he, h1.one j p hp, Option.some.injEq] at a
    exact a.symm
  refine ⟨fun i o ho => ?_, uniq⟩
  obtain ⟨o', d, c1, c2, c3, c4⟩ := h3 i (Nat.zero_le _) (List.getElem?_eq_some_iff.1 ho).1
  rw [ho, Option.some.injEq] at c1
  subst c1
  have hs : (ds o.name).isSome := by rw [c2]; rfl
  obtain ⟨j, p, hp, hname, hr⟩ := key o.name (hd _ hs) hs
  exact ⟨uniq i j o p ho hp hname.symm ▸ hr, d, c2, c3, c4⟩

/-! ## The calls end -/

theorem each_cached {f : Name → St → Option (Option Nat × St)}
    (hf : ∀ n st r st', f n st = some (r, st') → ∀ x, (st.cache x).isSome → (st'.cache x).isSome) :
    ∀ (ns : List Name) (st : St) (rs : List Nat) (st' : St), each f ns st = some (rs, st') → ∀ x, (st.cache x).isSome → (st'.cache x).isSome
  | [], st, rs, st', h, x, hx => by
    simp only [each, Option.some.injEq, Prod.mk.injEq] at h
    rw [← h.2]; exact hx
  | n :: ns, st, rs, st', h, x, hx => by
    simp only [each] at h
    cases h1 : f n st with
    | none => rw [h1] at h; cases h
    | some p =>
      rw [h1] at h
      simp only at h
      cases h2 : each f ns p.2 with
      | none => rw [h2] at h; cases h
      | some q =>
        rw [h2] at h
        simp only [Option.some.injEq, Prod.mk.injEq] at h
        rw [← h.2]
        exact each_cached hf ns p.2 q.1 q.2 h2 x (hf n st p.1 p.2 h1 x hx)

theorem resolve_cached (ds : Decls) : ∀ (fuel : Nat) (n : Name) (st : St) (r : Option Nat) (st' : St),
    resolve ds fuel n st = some (r, st') → ∀ x, (st.cache x).isSome → (st'.cache x).isSome
  | 0, _, _, _, _, h, _, _ => by simp [resolve] at h
  | fuel + 1, n, st, r, st', h, x, hx => by
    simp only [resolve] at h
    cases hc : st.cache n with
    | some i =>
      rw [hc] at h
      simp only [Option.some.injEq, Prod.mk.injEq] at h
      rw [← h.2]; exact hx
    | none =>
      rw [hc] at h
      simp only at h
      cases hd : ds n with
      | none =>
        rw [hd] at h
        simp only [Option.some.injEq, Prod.mk.injEq] at h
        rw [← h.2]; exact hx
      | some d =>
        rw [hd] at h
        simp only at h
        cases h1 : each (resolve ds fuel) d.nested st with
        | none => rw [h1] at h; cases h
        | some p =>
          rw [h1] at h
          simp only at h
          cases h2 : each (resolve ds fuel) d.fields
              ⟨p.2.heap ++ [⟨n, p.1, []⟩], fun x => if x = n then some p.2.heap.length else p.2.cache x⟩ with
          | none => rw [h2] at h; cases h
          | some q =>
            rw [h2] at h
            simp only [Option.some.injEq, Prod.mk.injEq] at h
            rw [← h.2]
            refine each_cached (resolve_cached ds fuel) _ _ _ _ h2 x ?_
            simp only
            split
            · rfl
            · exact each_cached (resolve_cached ds fuel) _ _ _ _ h1 x hx

theorem each_more {f g : Name → St → Option (Option Nat × St)} (hf : ∀ n st p, f n st = some p → g n st = some p) :
    ∀ (ns : List Name) (st : St) (p : List Nat × St), each f ns st = some p → each g ns st = some p
  | [], st, p, h => by simpa only [each] using h
  | n :: ns, st, p, h => by
    simp only [each] at h ⊢
    cases h1 : f n st with
    | none => rw [h1] at h; cases h
    | some q =>
      rw [h1] at h
      rw [hf n st q h1]
      simp only at h ⊢
      cases h2 : each f ns q.2 with
      | none => rw [h2] at h; cases h
      | some t =>
        rw [h2] at h
        rw [each_more hf ns q.2 t h2]
        exact h

theorem resolve_succ (ds : Decls) : ∀ (fuel : Nat) (n : Name) (st : St) (p : Option Nat × St),
    resolve ds fuel n st = some p → resolve ds (fuel + 1) n st = some p
  | 0, _, _, _, h => by simp [resolve] at h
  | fuel + 1, n, st, p, h => by
    rw [resolve] at h
    rw [resolve]
    cases hc : st.cache n with
    | some i => rw [hc] at h; exact h
    | none =>
      rw [hc] at h
      simp only at h ⊢
      cases hd : ds n with
      | none => rw [hd] at h; exact h
      | some d =>
        rw [hd] at h
        simp only at h ⊢
        cases h1 : each (resolve ds fuel) d.nested st with
        | none => rw [h1] at h; cases h
        | some q =>
          rw [h1] at h
          rw [each_more (resolve_succ ds fuel) _ _ _ h1]
          simp only at h ⊢
          cases h2 : each (resolve ds fuel) d.fields
              ⟨q.2.heap ++ [⟨n, q.1, []⟩], fun x => if x = n then some q.2.heap.length else q.2.cache x⟩ with
          | none => rw [h2] at h; cases h
          | some t =>
            rw [h2] at h
            rw [each_more (resolve_succ ds fuel) _ _ _ h2]
            exact h

theorem resolve_more (ds : Decls) {a b : Nat} (hab : a ≤ b) {n : Name} {st : St} {p : Option Nat × St} (h : resolve ds a n st = some p) :
    resolve ds b n st = some p := by
  induction hab with
  | refl => exact h
  | step _ ih => exact resolve_succ ds _ n st p ih

theorem each_total (ds : Decls) (P : St → Prop) (hP : ∀ fuel n st r st', P st → resolve ds fuel n st = some (r, st') → P st') :
    ∀ (ns : List Name), (∀ n ∈ ns, ∀ st, P st → ∃ fuel p, resolve ds fuel n st = some p) → ∀ st, P st →
      ∃ fuel p, each (resolve ds fuel) ns st = some p ∧ P p.2
  | [], _, st, h => ⟨0, _, rfl, h⟩
  | n :: ns, hn, st, h => by
    obtain ⟨a, p, hp⟩ := hn n (by simp) st h
    have hP1 := hP a n st p.1 p.2 h hp
    obtain ⟨b, q, hq, hPq⟩ := each_total ds P hP ns (fun m hm => hn m (by simp [hm])) p.2 hP1
    refine ⟨max a b, (p.1.toList ++ q.1, q.2), ?_, hPq⟩
    simp only [each]
    rw [resolve_more ds (Nat.le_max_left a b) hp]
    simp only
    rw [each_more (fun m s t => resolve_more ds (Nat.le_max_right a b)) ns p.2 q hq]

/-- How many messages are not in the cache. -/
def missing (names : List Name) (st : St) : Nat := names.countP fun n => (st.cache n).isNone

theorem missing_le (names : List Name) {st st' : St} (h : ∀ x, (st.cache x).isSome → (st'.cache x).isSome) :
    missing names st' ≤ missing names st := by
  refine List.countP_mono_left fun x _ hx => ?_
  cases hc : st.cache x with
  | none => rfl
  | some i =>
    have := h x (by rw [hc]; rfl)
    cases hc' : st'.cache x with
    | none => rw [hc'] at this; cases this
    | some j => rw [hc'] at hx; cases hx

theorem missing_lt {names : List Name} {st st' : St} (h : ∀ x, (st.cache x).isSome → (st'.cache x).isSome) {n : Name} (hn : n ∈ names)
    (h1 : st.cache n = none) (h2 : (st'.cache n).isSome) : missing names st' < missing names st := by
  induction names with
  | nil => cases hn
  | cons a names ih =>
    unfold missing at *
    rw [List.countP_cons, List.countP_cons]
    have hle := missing_le names h
    unfold missing at hle
    by_cases ha : a = n
    · subst ha
      rw [h1]
      cases hc : st'.cache a with
      | none => rw [hc] at h2; cases h2
      | some j => simp only [Option.isNone_none, Option.isNone_some, if_true, Bool.false_eq_true, if_false]; omega
    · have := ih (by simpa [Ne.symm ha] using hn)
      have h3 : (if (st'.cache a).isNone = true then 1 else 0) ≤ (if (st.cache a).isNone = true then 1 else 0) := by
        cases hc : st.cache a with
        | none => simp only [Option.isNone_none, if_true]; split <;> omega
        | some i =>
          have := h a (by rw [hc]; rfl)
          cases hc' : st'.cache a with
          | none => rw [hc'] at this; cases this
          | some j => simp
      omega

theorem resolve_total (ds : Decls) (names : List Name) (hn : ∀ n, (ds n).isSome → n ∈ names) (rank : Name → Nat)
    (hr : ∀ n d m, ds n = some d → m ∈ d.nested → rank m < rank n) :
    ∀ (u k : Nat) (n : Name) (st : St), missing names st ≤ u → rank n ≤ k → ∃ fuel p, resolve ds fuel n st = some p := by
  intro u
  induction u using Nat.strongRecOn with
  | _ u ihu =>
    intro k
    induction k using Nat.strongRecOn with
    | _ k ihk =>
      intro n st hu hk
      cases hc : st.cache n with
      | some i => exact ⟨1, (some i, st), by simp only [resolve, hc]⟩
      | none =>
        cases hd : ds n with
        | none => exact ⟨1, (none, st), by simp only [resolve, hc, hd]⟩
        | some d =>
          obtain ⟨a, p, hp, hPp⟩ := each_total ds (fun s => ∀ x, (st.cache x).isSome → (s.cache x).isSome)
            (fun fuel m s r s' hs h x hx => resolve_cached ds fuel m s r s' h x (hs x hx)) d.nested
            (fun m hm s hs => ihk (rank m) (Nat.lt_of_lt_of_le (hr n d m hd hm) hk) m s (Nat.le_trans (missing_le names hs) hu)
              (Nat.le_refl _)) st (fun _ h => h)
          have hlt : missing names ⟨p.2.heap ++ [⟨n, p.1, []⟩], fun x => if x = n then some p.2.heap.length else p.2.cache x⟩ < u := by
            refine Nat.lt_of_lt_of_le (missing_lt (fun x hx => ?_) (hn n (by rw [hd]; rfl)) hc ?_) hu
            · simp only
              split
              · rfl
              · exact hPp x hx
            · simp
          obtain ⟨b, q, hq, _⟩ := each_total ds (fun s => missing names s < u)
            (fun fuel m s r s' hs h => Nat.lt_of_le_of_lt (missing_le names (resolve_cached ds fuel m s r s' h)) hs) d.fields
            (fun m _ s hs => ihu (missing names s) hs (rank m) m s (Nat.le_refl _) (Nat.le_refl _)) _ hlt
          refine ⟨max a b + 1, (some p.2.heap.length, ⟨q.2.heap.set p.2.heap.length ⟨n, p.1, q.1⟩, q.2.cache⟩), ?_⟩
          simp only [resolve, hc, hd]
          rw [each_more (fun m s t => resolve_more ds (Nat.le_max_left a b)) _ _ _ hp]
          simp only
          rw [each_more (fun m s t => resolve_more ds (Nat.le_max_right a b)) _ _ _ hq]

/-- The calls end for all files, also if messages refer to themselves: `rank` says that nesting is not circular. -/
theorem C111_ends (ds : Decls) (names : List Name) (hn : ∀ n, (ds n).isSome → n ∈ names) (rank : Name → Nat)
    (hr : ∀ n d m, ds n = some d → m ∈ d.nested → rank m < rank n) :
    ∀ (cs : List (Bool × Name)) (st : St), ∃ fuel p, run ds fuel cs st = some p
  | [], st => ⟨0, _, rfl⟩
  | (b, n) :: cs, st => by
    obtain ⟨a, p, hp⟩ := resolve_total ds names hn rank hr _ _ n st (Nat.le_refl _) (Nat.le_refl _)
    obtain ⟨c, q, hq⟩ := C111_ends ds names hn rank hr cs p.2
    have more : ∀ (cs : List (Bool × Name)) (st : St) (q : List Nat × St), run ds c cs st = some q → run ds (max a c) cs st = some q := by
      intro cs
      induction cs with
      | nil => intro st q h; simpa only [run] using h
      | cons e cs ih =>
        obtain ⟨b, n⟩ := e
        intro st q h
        simp only [run] at h ⊢
        cases h1 : resolve ds c n st with
        | none => rw [h1] at h; cases h
        | some p =>
          rw [h1] at h
          rw [resolve_more ds (Nat.le_max_right a c) h1]
          simp only at h ⊢
          cases h2 : run ds c cs p.2 with
          | none => rw [h2] at h; cases h
          | some t =>
            rw [h2] at h
            rw [ih p.2 t h2]
            exact h
    refine ⟨max a c, ((if b then p.1.toList else []) ++ q.1, q.2), ?_⟩
    simp only [run]
    rw [resolve_more ds (Nat.le_max_left a c) hp]
    simp only
    rw [more cs p.2 q hq]

/-! ## Consequences -/

/-- Then an alias is found for all references exactly if it is declared. -/
theorem C111_alias_partial (ds : Decls) (fuel : Nat) (cs : List (Bool × Name)) (ids : List Nat) (st : St) (hb : NoWayBack ds)
    (hd : ∀ n, (ds n).isSome → Declared ds ((cs.filter (·.1)).map (·.2)) n) (h : run ds fuel cs .empty = some (ids, st))
    (aliases : Name → List Name) (i j : Nat) (f t : Obj) (hf : st.heap[i]? = some f) (ht : st.heap[j]? = some t) :
    FindAlias st.heap ids aliases i j ↔ t.name ∈ aliases f.name ∨ f.name ∈ aliases t.name := by
  obtain ⟨h1, _⟩ := C111_once_partial ds fuel cs ids st hb hd h
  constructor
  · rintro ⟨f', t', hf', ht', hr⟩
    rw [hf, Option.some.injEq] at hf'
    rw [ht, Option.some.injEq] at ht'
    subst hf'
    subst ht'
    exact hr.imp And.right And.right
  · intro hr
    exact ⟨f, t, hf, ht, hr.imp (fun h => ⟨(h1 i f hf).1, h⟩) (fun h => ⟨(h1 j t ht).1, h⟩)⟩

/-- `message A { message B { A a = 1; } B b = 1; }` -/
def loop : Decls := fun n =>
  if n = ["A"] then some ⟨[["A", "B"]], [["A", "B"]]⟩ else if n = ["A", "B"] then some ⟨[], [["A"]]⟩ else
  if n = ["Post"] then some ⟨[], []⟩ else none

theorem loop_run : (run loop 6 [(true, ["A"]), (true, ["Post"])] .empty).map (fun p => (p.1, p.2.heap)) =
    some ([2, 3], [⟨["A", "B"], [], [1]⟩, ⟨["A"], [0], [0]⟩, ⟨["A"], [0], [0]⟩, ⟨["Post"], [], []⟩]) := by decide

theorem loop_ruled : ∀ i, Ruled [⟨["A", "B"], [], [1]⟩, ⟨["A"], [0], [0]⟩, ⟨["A"], [0], [0]⟩, ⟨["Post"], [], []⟩] [2, 3] i → i ≠ 1 := by
  intro i h
  induction h with
  | top hi => rintro rfl; simp at hi
  | nested _ ho hj _ =>
    rename_i i j o _ _
    rintro rfl
    match i, ho with
    | 0, ho => simp only [List.getElem?_cons_zero, Option.some.injEq] at ho; subst ho; simp at hj
    | 1, ho => simp only [List.getElem?_cons_succ, List.getElem?_cons_zero, Option.some.injEq] at ho; subst ho; simp at hj
    | 2, ho => simp only [List.getElem?_cons_succ, List.getElem?_cons_zero, Option.some.injEq] at ho; subst ho; simp at hj
    | 3, ho => simp only [List.getElem?_cons_succ, List.getElem?_cons_zero, Option.some.injEq] at ho; subst ho; simp at hj
    | i + 4, ho => simp at ho

/-- If a nested message refers to the message it is nested in, there are two objects of this message, and the field refers to the one
whose options are not resolved; if the message is an alias of another one, this is not found for the field. -/
theorem C111_twice_false : ∃ fuel cs ids st, run loop fuel cs .empty = some (ids, st) ∧
    (∀ n, (loop n).isSome → Declared loop ((cs.filter (·.1)).map (·.2)) n) ∧
    ∃ (i j : Nat) (o p q : Obj), st.heap[i]? = some o ∧ j ∈ o.fields ∧ st.heap[j]? = some p ∧ p.name = ["A"] ∧ ¬ Ruled st.heap ids j ∧
      ∃ k : Nat, st.heap[k]? = some q ∧ q.name = ["A"] ∧ Ruled st.heap ids k ∧
        FindAlias st.heap ids (fun n => if n = ["A"] then [["Post"]] else []) 3 k ∧
        ¬ FindAlias st.heap ids (fun n => if n = ["A"] then [["Post"]] else []) 3 j := by
  have hrun := loop_run
  cases hr : run loop 6 [(true, ["A"]), (true, ["Post"])] .empty with
  | none => rw [hr] at hrun; cases hrun
  | some p =>
    obtain ⟨ids, heap, cache⟩ := p
    rw [hr] at hrun
    simp only [Option.map_some, Option.some.injEq, Prod.mk.injEq] at hrun
    obtain ⟨rfl, rfl⟩ := hrun
    refine ⟨6, _, _, _, hr, fun n hn => ?_, 0, 1, _, _, _, rfl, by simp, rfl, rfl, fun h => loop_ruled 1 h rfl, 2, rfl, rfl,
      .top (by simp), ⟨_, _, rfl, rfl, .inr ⟨.top (by simp), by simp⟩⟩, ?_⟩
    · unfold loop at hn
      by_cases h1 : n = ["A"]
      · subst h1; exact .top (by simp)
      · by_cases h2 : n = ["A", "B"]
        · subst h2
          exact .nested (n := ["A"]) (d := ⟨[["A", "B"]], [["A", "B"]]⟩) (.top (by simp)) rfl (by simp)
        · by_cases h3 : n = ["Post"]
          · subst h3; exact .top (by simp)
          · simp [h1, h2, h3] at hn
    · rintro ⟨f, t, hf, ht, h⟩
      rcases h with ⟨_, h⟩ | ⟨h, _⟩
      · simp only [List.getElem?_cons_succ, List.getElem?_cons_zero, Option.some.injEq] at hf
        subst hf
        simp at h
      · exact loop_ruled 1 h rfl

/-! ## Example: messages that refer to themselves and to each other, with no way back from a nested one -/

/-- `message A { message B { C c = 1; } B b = 1; A a = 2; }  message C { A.B b = 1; }` -/
def fine : Decls := fun n =>
  if n = ["A"] then some ⟨[["A", "B"]], [["A", "B"], ["A"]]⟩ else if n = ["A", "B"] then some ⟨[], [["C"]]⟩ else
  if n = ["C"] then some ⟨[], [["A", "B"]]⟩ else none

example : NoWayBack fine := by
  intro n d m hd hm hl
  have hn : n = ["A"] ∧ m = ["A", "B"] := by
    unfold fine at hd
    split at hd
    · rename_i h1
      simp only [Option.some.injEq] at hd
      subst hd
      exact ⟨h1, by simpa using hm⟩
    · split at hd
      · simp only [Option.some.injEq] at hd; subst hd; simp at hm
      · split at hd
        · simp only [Option.some.injEq] at hd; subst hd; simp at hm
        · cases hd
  obtain ⟨rfl, rfl⟩ := hn
  have closed : ∀ a b, Leads fine a b → (a = ["A", "B"] ∨ a = ["C"]) → (b = ["A", "B"] ∨ b = ["C"]) := by
    intro a b h
    induction h with
    | refl => exact id
    | step s _ ih =>
      intro ha
      refine ih ?_
      cases s with
      | nested h1 h2 =>
        rcases ha with rfl | rfl
        · simp [fine] at h1; subst h1; simp at h2
        · simp [fine] at h1; subst h1; simp at h2
      | field h1 h2 =>
        rcases ha with rfl | rfl
        · simp [fine] at h1; subst h1; simp at h2; exact .inr h2
        · simp [fine] at h1; subst h1; simp at h2; exact .inl h2
  have := closed _ _ hl (.inl rfl)
  simp at this

example : (run fine 6 [(false, ["C"]), (true, ["A"]), (true, ["C"])] .empty).map (fun p => (p.1, p.2.heap)) =
    some ([2, 0], [⟨["C"], [], [1]⟩, ⟨["A", "B"], [], [0]⟩, ⟨["A"], [1], [1, 2]⟩]) := by decide

end Verif.MsgOnce
