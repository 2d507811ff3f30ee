import Verif.CelCache.Model

/-! # C15 (the cache is transparent) and C32 (every site has its own index) -/

namespace Verif.CelCache

variable {Expr Env Vals Prog Res Err : Type}

/-! ## C32 -/

mutual
/-- The expression sites of a template, in order. -/
def sites : Tmpl Expr → List Expr
  | .text _ => []
  | .site e => [e]
  | .seq ts => sitesL ts
def sitesL : List (Tmpl Expr) → List Expr
  | [] => []
  | t :: ts => sites t ++ sitesL ts
end

mutual
theorem render_spec : ∀ (t : Tmpl Expr) (n : Nat),
    (render t n).1 = n + (sites t).length ∧
    (render t n).2.map Prod.fst = List.range' (n + 1) (sites t).length ∧
    (render t n).2.map Prod.snd = sites t
  | .text _, n => by simp [render, sites]
  | .site e, n => by simp [render, sites]
  | .seq ts, n => by simpa [render, sites] using renderL_spec ts n
theorem renderL_spec : ∀ (ts : List (Tmpl Expr)) (n : Nat),
    (renderL ts n).1 = n + (sitesL ts).length ∧
    (renderL ts n).2.map Prod.fst = List.range' (n + 1) (sitesL ts).length ∧
    (renderL ts n).2.map Prod.snd = sitesL ts
  | [], n => by simp [renderL, sitesL]
  | t :: ts, n => by
    obtain ⟨a1, a2, a3⟩ := render_spec t n
    obtain ⟨b1, b2, b3⟩ := renderL_spec ts (render t n).1
    simp only [renderL, sitesL, List.map_append, List.length_append]
    refine ⟨by rw [b1, a1]; omega, ?_, by rw [a3, b3]⟩
    rw [a2, b2, a1, ← List.range'_append]
    congr 1
    simp; omega
end

/-- C32. The generated code of a service contains every expression site of the template once, in
order, with pairwise distinct indexes, none of them zero. -/
theorem C32_indexes_unique (t : Tmpl Expr) :
    (generate t).map Prod.snd = sites t ∧ ((generate t).map Prod.fst).Nodup ∧
    ∀ i ∈ (generate t).map Prod.fst, i ≠ 0 := by
  obtain ⟨_, h2, h3⟩ := render_spec t 0
  refine ⟨h3, ?_, ?_⟩
  · unfold generate; rw [h2]; exact List.nodup_range'
  · unfold generate
    rw [h2]
    intro i hi
    rw [List.mem_range'] at hi
    obtain ⟨k, _, rfl⟩ := hi
    omega

example : generate (.seq [.text "a", .site "x", .seq [.site "y", .seq [.site "x"]], .site "z"])
    = [(1, "x"), (2, "y"), (3, "x"), (4, "z")] := by rfl

theorem pairs_inj : ∀ (l : List (Nat × Expr)), (l.map Prod.fst).Nodup → ∀ {i : Nat} {e e' : Expr},
    (i, e) ∈ l → (i, e') ∈ l → e = e'
  | [], _, _, _, _, h, _ => by cases h
  | (j, x) :: l, hn, i, e, e', h, h' => by
    simp only [List.map_cons, List.nodup_cons] at hn
    rcases List.mem_cons.mp h with h | h <;> rcases List.mem_cons.mp h' with h' | h'
    · rw [(Prod.mk.inj h).2, (Prod.mk.inj h').2]
    · rw [← (Prod.mk.inj h).1] at hn
      exact absurd (List.mem_map.mpr ⟨_, h', rfl⟩) hn.1
    · rw [← (Prod.mk.inj h').1] at hn
      exact absurd (List.mem_map.mpr ⟨_, h, rfl⟩) hn.1
    · exact pairs_inj l hn.2 h h'

/-- Two sites with the same index are the same occurrence, hence the same expression. -/
theorem index_determines (t : Tmpl Expr) {i : Nat} {e e' : Expr} (h : (i, e) ∈ generate t)
    (h' : (i, e') ∈ generate t) : e = e' := by
  exact pairs_inj _ (C32_indexes_unique t).2.1 h h'

/-! ## C15 -/

/-- Requests that can come from the generated code `t`: the index and the expression are those of
one of its sites. -/
def FromCode (t : Tmpl Expr) (r : Req Expr Env Vals) : Prop := (r.index, r.expr) ∈ generate t

/-- The environments in which one expression site is evaluated agree on what it compiles to: if it
compiles in one of them, it compiles to the same program in the other. -/
def Stable (C : CEL Expr Env Vals Prog Res Err) (R : Req Expr Env Vals → Prop) : Prop :=
  ∀ r r', R r → R r' → r.index = r'.index → r.expr = r'.expr →
    ∀ p, C.compile r.expr r.env = .ok p → C.compile r'.expr r'.env = .ok p

theorem cache_inv (C : CEL Expr Env Vals Prog Res Err) (R : Req Expr Env Vals → Prop)
    (hu : ∀ r r', R r → R r' → r.index = r'.index → r.expr = r'.expr) (hst : Stable C R)
    (h0 : ∀ r, R r → r.index ≠ 0)
    {s : St Expr Env Vals Prog Res Err} (h : Reach C R s) :
    (∀ i p, s.cache i = some p → ∃ r, R r ∧ r.index = i ∧ C.compile r.expr r.env = .ok p) ∧
    (∀ r p, (r, p) ∈ s.pending → R r ∧ C.compile r.expr r.env = .ok p) ∧
    (∀ r x, (r, x) ∈ s.log → x = fresh C r) := by
  induction h with
  | init => exact ⟨by simp [St.init], by simp [St.init], by simp [St.init]⟩
  | @step s s' r _ hr hstep ih =>
    obtain ⟨i1, i2, i3⟩ := ih
    cases hstep with
    | badIndex h => exact absurd h (h0 r hr)
    | @hit p _ hc =>
      refine ⟨i1, i2, ?_⟩
      intro r' x hx
      rcases List.mem_cons.mp hx with hx | hx
      · obtain ⟨rfl, rfl⟩ := Prod.mk.inj hx
        obtain ⟨r0, h1, h2, h3⟩ := i1 _ _ hc
        have := hst r0 r' h1 hr h2 (hu _ _ h1 hr h2) p h3
        simp [fresh, this]
      · exact i3 r' x hx
    | @fail e _ _ hc =>
      refine ⟨i1, i2, ?_⟩
      intro r' x hx
      rcases List.mem_cons.mp hx with hx | hx
      · obtain ⟨rfl, rfl⟩ := Prod.mk.inj hx
        simp [fresh, hc]
      · exact i3 r' x hx
    | @miss p _ _ hc =>
      refine ⟨i1, ?_, i3⟩
      intro r' p' hp
      rcases List.mem_cons.mp hp with hp | hp
      · obtain ⟨rfl, rfl⟩ := Prod.mk.inj hp
        exact ⟨hr, hc⟩
      · exact i2 r' p' hp
    | @store p hp =>
      obtain ⟨_, hc⟩ := i2 _ _ hp
      refine ⟨?_, i2, ?_⟩
      · intro i p' hi
        simp only at hi
        split at hi
        · rename_i hi'
          exact ⟨r, hr, hi'.symm, by rw [← Option.some.inj hi]; exact hc⟩
        · exact i1 i p' hi
      · intro r' x hx
        rcases List.mem_cons.mp hx with hx | hx
        · obtain ⟨rfl, rfl⟩ := Prod.mk.inj hx
          simp [fresh, hc]
        · exact i3 r' x hx

/-- C15. In the generated code of a service, for every interleaving of evaluations by any number of
goroutines, every finished evaluation has the result of compiling its expression afresh and running
it. -/
theorem C15_cache_transparent (C : CEL Expr Env Vals Prog Res Err) (t : Tmpl Expr)
    (R : Req Expr Env Vals → Prop) (hR : ∀ r, R r → FromCode t r) (hst : Stable C R)
    (s : St Expr Env Vals Prog Res Err) (h : Reach C R s) (r : Req Expr Env Vals) (x : Except Err Res)
    (hx : (r, x) ∈ s.log) : x = fresh C r :=
  (cache_inv C R (fun a b ha hb hi => index_determines t (hR a ha) (by rw [hi]; exact hR b hb)) hst
    (fun r hr => (C32_indexes_unique t).2.2 _ (List.mem_map.mpr ⟨_, hR r hr, rfl⟩)) h).2.2 r x hx

/-- A tiny CEL: an expression is a variable name, the environment the declared names, a program the
name to look up. -/
def tiny : CEL String (List String) (String → Nat) String Nat String where
  compile e env := if e ∈ env then .ok e else .error "undeclared reference"
  exec p vals := .ok (vals p)
  errIndex := "index"

/-- Non-vacuity: two requests of one site, in different environments, that declare the name; the
second one hits the cache. -/
example : ∃ s, Reach tiny (fun r => FromCode (.seq [.site "x", .site "y"]) r ∧ r.expr ∈ r.env) s ∧
    (⟨1, "x", ["x", "z"], fun _ => 7⟩, .ok 7) ∈ s.log ∧ s.cache 1 = some "x" := by
  refine ⟨_, .step (.step (.step .init (r := ⟨1, "x", ["x"], fun _ => 3⟩) ?_
      (.miss (p := "x") (by decide) rfl rfl)) (r := ⟨1, "x", ["x"], fun _ => 3⟩) ?_
      (.store (p := "x") (List.mem_singleton.mpr rfl))) (r := ⟨1, "x", ["x", "z"], fun _ => 7⟩) ?_
      (.hit (p := "x") (by decide) rfl), ?_, rfl⟩
  · exact ⟨List.mem_cons_self, by decide⟩
  · exact ⟨List.mem_cons_self, by decide⟩
  · exact ⟨List.mem_cons_self, by decide⟩
  · exact List.mem_cons_self

example : Stable tiny (fun r => FromCode (.seq [.site "x", .site "y"]) r ∧ r.expr ∈ r.env) := by
  intro r r' h h' _ he p hp
  simp only [tiny, h.2, h'.2, if_true] at hp ⊢
  rw [← hp, he]

/-- C15 depends on C32: if two sites shared an index, the second would run the program of the first. -/
theorem C15_needs_unique_index :
    ∃ (s : St String (List String) (String → Nat) String Nat String) (r : Req String (List String) (String → Nat)),
      Reach tiny (fun r => r.index = 1 ∧ r.expr ∈ r.env) s ∧ ∃ x, (r, x) ∈ s.log ∧ x ≠ fresh tiny r := by
  let v : String → Nat := fun n => if n = "x" then 3 else 4
  refine ⟨_, ⟨1, "y", ["y"], v⟩, .step (.step (.step .init (r := ⟨1, "x", ["x"], v⟩) (by simp)
      (.miss (p := "x") (by decide) rfl rfl)) (r := ⟨1, "x", ["x"], v⟩) (by simp)
      (.store (p := "x") (List.mem_singleton.mpr rfl))) (r := ⟨1, "y", ["y"], v⟩) (by simp)
      (.hit (p := "x") (by decide) rfl), _, List.mem_cons_self, ?_⟩
  simp [fresh, tiny, v]

end Verif.CelCache
