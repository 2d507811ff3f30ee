import Verif.LocBuild.Inv

/-! # Runs of programs -/

namespace Verif.LocBuild

theorem runFrom_append (fuel : Nat) : ∀ (os os' : List Op) (s : St), runFrom fuel s (os ++ os') =
    match runFrom fuel s os with
    | .ok s1 => runFrom fuel s1 os'
    | r => r
  | [], _, _ => rfl
  | o :: os, os', s => by
    simp only [List.cons_append, runFrom]
    cases step fuel s o with
    | ok s1 => exact runFrom_append fuel os os' s1
    | panic => rfl
    | bad => rfl
    | more => rfl

theorem runFrom_one (fuel : Nat) (s : St) (o : Op) : runFrom fuel s [o] = step fuel s o := by
  simp only [runFrom]
  cases step fuel s o <;> rfl

theorem run_snoc {fuel : Nat} {os : List Op} {s : St} (h : run fuel os = .ok s) (o : Op) : run fuel (os ++ [o]) = step fuel s o := by
  have h2 : runFrom fuel ⟨[], []⟩ os = .ok s := h
  simp only [run, runFrom_append, h2, runFrom_one]

/-- Every step of a longer program from a state of the invariant. -/
theorem runFrom_inv {fuel : Nat} : ∀ (os' os : List Op) (s s' : St), Inv os s → 2 * (os ++ os').length < fuel → runFrom fuel s os' = .ok s' →
    Inv (os ++ os') s' ∧ (∃ bs, s'.builders = s.builders ++ bs) ∧
    ∀ (i : Nat) (b : Builder), s.builders[i]? = some b → ¬ Captor os s.builders i → ∀ p, view s'.heap b.root p = view s.heap b.root p
  | [], os, s, s', h, _, hr => by
    simp only [runFrom, Res.ok.injEq] at hr
    subst hr
    rw [List.append_nil]
    exact ⟨h, ⟨[], by simp⟩, fun _ _ _ _ _ => rfl⟩
  | o :: os', os, s, s', h, hf, hr => by
    have hf1 : 2 * os.length < fuel := by simp at hf; omega
    have hs := step_ok h hf1 o
    simp only [runFrom] at hr
    cases hst : step fuel s o with
    | panic => rw [hst] at hr; cases hr
    | bad => rw [hst] at hr; cases hr
    | more => rw [hst] at hr; cases hr
    | ok s1 =>
      rw [hst] at hr hs
      obtain ⟨hi, ⟨b', hb'⟩, hfr⟩ := hs
      obtain ⟨h1, ⟨bs, hbs⟩, h3⟩ := runFrom_inv os' (os ++ [o]) s1 s' hi (by simpa using hf) hr
      refine ⟨by simpa using h1, ⟨b' :: bs, by rw [hbs, hb']; simp⟩, ?_⟩
      intro i b hb hnc p
      have hil := (List.getElem?_eq_some_iff.1 hb).1
      have hb1 : s1.builders[i]? = some b := by rw [hb', List.getElem?_append_left hil]; exact hb
      have hnc1 : ¬ Captor (os ++ [o]) s1.builders i := by
        rintro ⟨⟨l, c, h4, h5⟩, b2, h6, h7⟩
        rw [hb1, Option.some.injEq] at h6
        subst h6
        rw [List.getElem?_append_left (by rw [← h.len]; exact hil)] at h4
        exact hnc ⟨⟨l, c, h4, h5⟩, b, hb, h7⟩
      rw [h3 i b hb1 hnc1 p, hfr i b hb hnc p]

theorem run_inv {fuel : Nat} {os : List Op} {s : St} (hf : 2 * os.length < fuel) (hr : run fuel os = .ok s) : Inv os s :=
  (runFrom_inv os [] ⟨[], []⟩ s inv_init (by simpa using hf) hr).1

theorem location_eq {os : List Op} {s : St} (h : Inv os s) {i : Nat} {b : Builder} (hb : s.builders[i]? = some b) (p : Path) :
    location s i p = readV (view s.heap b.root) p := by
  simp only [location, hb]
  exact read_eq h.good p b.root (h.tree i b hb).lt

theorem isEnv_false {k : Kind} (h1 : k ≠ .envVar) (h2 : k ≠ .envVarOption) : isEnv k = false := by
  cases k <;> first | rfl | exact absurd rfl h1 | exact absurd rfl h2

theorem location_rel {os : List Op} {s : St} (h : Inv os s) {i : Nat} {sd : Said} {last : Path} (hm : Made os i sd last)
    (h1 : sd.kind ≠ .envVar) (h2 : sd.kind ≠ .envVarOption) (p : Path) :
    (¬ Forgotten p → location s i p = sd.content p) ∧ (Forgotten p → location s i p = if p = last then sd.content p else none) := by
  obtain ⟨b, hb, _, hr⟩ := h.rel i sd last hm
  obtain ⟨_, hR⟩ := hr (isEnv_false h1 h2)
  rw [location_eq h hb]
  exact hR p

/-- The steps of a program without lazy builders. -/
def Plain (os : List Op) : Prop := ∀ (i : Nat) (o : Op), os[i]? = some o → (∃ file, o = .new file) ∨
  ∃ j c sd last sd', o = .call j c ∧ Made (os.take i) j sd last ∧ sd.call c = some sd'

theorem plain_prefix {os : List Op} {o : Op} (h : Plain (os ++ [o])) : Plain os := by
  intro i o' hi
  have hlt := (List.getElem?_eq_some_iff.1 hi).1
  have := h i o' (by rw [List.getElem?_append_left hlt]; exact hi)
  rw [List.take_append_of_le_length (Nat.le_of_lt hlt)] at this
  exact this

theorem plain_runs {fuel : Nat} (os : List Op) (hf : 2 * os.length < fuel) (hp : Plain os) : ∃ s, run fuel os = .ok s := by
  induction hn : os.length generalizing os with
  | zero =>
    have := List.length_eq_zero_iff.1 hn
    subst this
    exact ⟨_, rfl⟩
  | succ n ih =>
    have hne : os ≠ [] := by rintro rfl; simp at hn
    obtain ⟨os0, o, rfl⟩ : ∃ os0 o, os = os0 ++ [o] := ⟨os.dropLast, os.getLast hne, (List.dropLast_concat_getLast hne).symm⟩
    simp only [List.length_append, List.length_singleton] at hn hf
    obtain ⟨s, hs⟩ := ih os0 (by omega) (plain_prefix hp) (by omega)
    have hi := run_inv (by omega) hs
    have hst := step_ok hi (fuel := fuel) (by omega) o
    rw [run_snoc hs]
    have hlast := hp os0.length o (by simp)
    rw [List.take_append_of_le_length (Nat.le_refl _), List.take_length] at hlast
    rcases hlast with ⟨file, rfl⟩ | ⟨j, c, sd, last, sd', rfl, hm, hc⟩
    · exact ⟨_, rfl⟩
    · obtain ⟨b, hb, hk, hrel⟩ := hi.rel j sd last hm
      obtain ⟨e, he, _⟩ := said_call hc
      rw [← hk] at he
      cases hres : step fuel s (.call j c) with
      | ok s' => exact ⟨s', rfl⟩
      | more => rw [hres] at hst; exact hst.elim
      | bad =>
        exfalso
        have hres2 : callMethod fuel s j c = .bad := hres
        simp only [callMethod, hb, he] at hres2
        split at hres2
        · cases hres2
        · split at hres2
          · cases hres2
          · split at hres2 <;> cases hres2
      | panic =>
        rw [hres] at hst
        obtain ⟨i', c', b', f, k, nn, g, p, ho, hb', hsel'⟩ := hst
        simp only [Op.call.injEq] at ho
        obtain ⟨rfl, rfl⟩ := ho
        rw [hb, Option.some.injEq] at hb'
        subst hb'
        have hsl := hi.sel j b hb
        unfold SelOk at hsl
        rw [hsel'] at hsl
        have := (hrel (by rw [← hk]; exact hsl.1)).1
        rw [hsel'] at this
        cases this

theorem cut_cut (i : Info) : i.cut.cut = i.cut := by
  simp only [Info.cut, keepArg_idem, Info.mk.injEq, true_and]
  funext f
  by_cases h : f ∈ copied i.kind <;> simp [h]

/-- A lazy builder, and a call of it. -/
theorem lazy_runs {fuel : Nat} {os : List Op} {s : St} (hf : 2 * (os.length + 1) < fuel) (h : Inv os s)
    {j : Nat} {sd : Said} {last : Path} (hm : Made os j sd last) (h1 : sd.kind ≠ .envVar) (h2 : sd.kind ≠ .envVarOption)
    {f : Fld} {k : Kind} {m : Meth} (hfk : (f = .message ∧ k = .message ∧ m = .withMessage) ∨ (f = .enum ∧ k = .enum ∧ m = .withEnum))
    (name : String) (o : Op) (ho : (∀ file, o ≠ .new file) ∧ ∀ j c, o ≠ .call j c) :
    ∃ s1, makeLazy fuel s j f k name = .ok s1 ∧ (∀ p, ¬ Forgotten p → location s1 os.length p = sd.content p) ∧
      ∀ c, effect k c ≠ none → ∃ s2, step fuel s1 (.call os.length c) = .ok s2 ∧ ∀ p, ¬ Forgotten p →
        location s2 (os.length + 1) p = say (say sd.content [] [f] (.name name)) [f] (parts k c.meth) (argOf k c) p := by
  obtain ⟨b, hb, hbk, hrel⟩ := h.rel j sd last hm
  obtain ⟨_, hR⟩ := hrel (isEnv_false h1 h2)
  obtain ⟨H1, r, nd, hc1, ⟨he, hg1, hfr, hv⟩, hnd, hk, hd⟩ := h.clone hb (fuel := fuel) (by omega)
  have hmk : makeLazy fuel s j f k name = .ok ⟨H1, s.builders ++ [⟨r, .lazy f k name [], k⟩]⟩ := by
    simp only [makeLazy, hb, hc1]
  have hfk2 : (f = .message ∧ k = .message) ∨ (f = .enum ∧ k = .enum) := by
    rcases hfk with ⟨a, b, _⟩ | ⟨a, b, _⟩
    · exact .inl ⟨a, b⟩
    · exact .inr ⟨a, b⟩
  have hst := step_lazy h (fuel := fuel) (by omega) j f k name hfk2 o ho
  rw [hmk] at hst
  obtain ⟨hi1, _⟩ := hst
  have ht := h.tree j b hb
  obtain ⟨nd0, hnd0, hnk0⟩ := ht.root
  have hvg := view_good h.good hnd0 hnk0
  have hlast : (s.builders ++ [(⟨r, .lazy f k name [], k⟩ : Builder)])[os.length]? = some ⟨r, .lazy f k name [], k⟩ := by
    rw [← h.len]; simp
  refine ⟨_, hmk, ?_, ?_⟩
  · intro p hp
    rw [location_eq hi1 hlast]
    exact ((read_cut hvg hv p).1 hp).trans ((hR p).1 hp)
  · intro c hne
    cases hce : effect k c with
    | none => exact absurd hce hne
    | some e =>
    obtain ⟨heff, hname⟩ := effect_ok hce
    obtain ⟨H2, r2, nd2, hc2, ⟨hext2, hg2, hfr2, hv2⟩, hnd2, hk2, hd2⟩ := hi1.clone hlast (fuel := fuel) (by simp; omega)
    have hv12 : ∀ p, view H2 r2 p = (view s.heap b.root p).map Info.cut := by
      intro p
      rw [hv2, hv]
      cases view s.heap b.root p with
      | none => rfl
      | some i => simp only [Option.map_some, cut_cut]
    have heff0 : EffOk nd2.kind (.name name) (.enter f k) := by
      rw [hk2]
      rcases hfk2 with ⟨rfl, rfl⟩ | ⟨rfl, rfl⟩ <;> simp [EffOk, kidKind, given, keepArg, copied]
    have hsel1 : select H2 r2 (.lazy f k name []) = some (write H2 r2 nd2 (.name name) (.enter f k), H2.length) := by
      have hgv : given nd2.kind (.name name) = .name name := by rw [hk2]; simp [given]
      simp only [select, hnd2, write, leaf, hgv, List.not_mem_nil, if_false]
    have hw0 := write_ok hg2 hnd2 heff0
    obtain ⟨u1, u2, u3, u4, u5⟩ := write_tree hg2 hnd2 (a := .name name) (e := .enter f k) hfr2.lt hfr2.inj (pos := []) rfl
    have hxg : (write H2 r2 nd2 (.name name) (.enter f k))[H2.length]? = some (leaf k (given nd2.kind (.name name)) []) := by
      rw [write_graft H2 r2 nd2 (.name name) (e := .enter f k) rfl, get_graft H2 hfr2.lt, if_pos rfl]
    have hx : find (write H2 r2 nd2 (.name name) (.enter f k)) r2 [f] = some H2.length := by
      rw [write_graft H2 r2 nd2 (.name name) (e := .enter f k) rfl, graft_find hg2 hnd2 rfl f hfr2.lt hfr2.inj (pos := []) rfl]
      simp
    have hrl : r2 < (write H2 r2 nd2 (.name name) (.enter f k)).length := Nat.lt_of_lt_of_le hfr2.lt hw0.len
    obtain ⟨t1, t2, t3, t4, t5⟩ := write_tree hw0.good hxg (a := c.arg) (e := e) hrl u2 hx
    have hcall : step fuel ⟨H1, s.builders ++ [⟨r, .lazy f k name [], k⟩]⟩ (.call os.length c) =
        .ok ⟨write (write H2 r2 nd2 (.name name) (.enter f k)) H2.length (leaf k (given nd2.kind (.name name)) []) c.arg e,
          (s.builders ++ [⟨r, .lazy f k name [], k⟩]) ++ [next ⟨r, .lazy f k name [], k⟩ r2 e]⟩ := by
      have hlast' : (s.builders ++ [(⟨r, .lazy f k name [], k⟩ : Builder)])[os.length]? = some ⟨r, .lazy f k name [], k⟩ := hlast
      simp only [step, callMethod, hlast', hce, hc2, hsel1, hxg]
    have hst2 := step_ok hi1 (fuel := fuel) (by simp; omega) (.call os.length c)
    rw [hcall] at hst2
    obtain ⟨hi2, _⟩ := hst2
    refine ⟨_, hcall, ?_⟩
    intro p hp
    have hlast2 : ((s.builders ++ [(⟨r, .lazy f k name [], k⟩ : Builder)]) ++ [next ⟨r, .lazy f k name [], k⟩ r2 e])[os.length + 1]? =
        some (next ⟨r, .lazy f k name [], k⟩ r2 e) := by
      rw [← h.len, List.getElem?_append_right (by simp)]; simp
    rw [location_eq hi2 hlast2]
    -- the two changes
    have hroot : view H2 r2 [] = some nd2.info := view_nil hnd2
    have hname0 : NameOk nd2.info.kind ⟨m, .name name⟩ (.enter f k) := by
      show NameOk nd2.kind _ _
      rw [hk2]
      rcases hfk with ⟨rfl, rfl, rfl⟩ | ⟨rfl, rfl, rfl⟩ <;> simp [NameOk, parts, named, argOf, given, isEnv]
    have hR1 := hR.step hvg hv12 hroot (c := ⟨m, .name name⟩) (e := .enter f k) heff0 hname0
    have hkk : nd2.info.kind = .location := hk2
    rw [hkk] at hR1
    have hp1 : parts .location m = [f] := by rcases hfk with ⟨rfl, _, rfl⟩ | ⟨rfl, _, rfl⟩ <;> rfl
    have ha1 : argOf .location ⟨m, .name name⟩ = .name name := by simp [argOf]
    simp only [hp1, ha1, List.nil_append] at hR1
    have hV2 : view (write H2 r2 nd2 (.name name) (.enter f k)) r2 = change (view H2 r2) [] .location (.name name) (.enter f k) := by
      funext q
      rw [u1, hk2]
    obtain ⟨n3, hn3, hn3k⟩ := hw0.kind r2 nd2 hnd2
    have hvg2 := view_good hw0.good hn3 (hn3k.trans hk2)
    rw [← hV2] at hR1
    have hcutV : ∀ q, view (write H2 r2 nd2 (.name name) (.enter f k)) r2 q =
        (view (write H2 r2 nd2 (.name name) (.enter f k)) r2 q).map Info.cut := by
      intro q
      rw [hV2]
      have hold : view H2 r2 q = (view H2 r2 q).map Info.cut := by
        rw [hv12]
        cases view s.heap b.root q with
        | none => rfl
        | some i => simp only [Option.map_some, cut_cut]
      simp only [change, Effect.graft]
      by_cases hpre : [] ++ [f] <+: q
      · rw [if_pos hpre]
        by_cases hq : q = [] ++ [f]
        · rw [if_pos hq]
          rcases hfk2 with ⟨rfl, rfl⟩ | ⟨rfl, rfl⟩ <;>
            simp [Info.cut, leaf, Node.info, given, keepArg, copied]
        · rw [if_neg hq]; rfl
      · rw [if_neg hpre]
        exact hold
    have hposV : view (write H2 r2 nd2 (.name name) (.enter f k)) r2 [f] = some (leaf k (given nd2.kind (.name name)) []).info := by
      unfold view
      simp only [hx, hxg, Option.bind_some, Option.map_some]
    have hR2 := hR1.step hvg2 hcutV hposV (c := c) (e := e) heff hname
    have hV3 : view (write (write H2 r2 nd2 (.name name) (.enter f k)) H2.length (leaf k (given nd2.kind (.name name)) []) c.arg e)
        (next ⟨r, .lazy f k name [], k⟩ r2 e).root =
        change (view (write H2 r2 nd2 (.name name) (.enter f k)) r2) [f] k c.arg e := by
      rw [next_root]
      funext q
      rw [t1]
      rfl
    rw [hV3]
    exact (hR2 p).1 hp

end Verif.LocBuild
