import Verif.Codegen.Tree

/-! # C36: dependency graphs -/

namespace Verif.Codegen

/-- Specification: the nodes of a graph. -/
inductive DGraph.Reach (G : DGraph) (roots : List Nat) : Nat → Prop where
  | root {n} (h : n ∈ roots) : Reach G roots n
  | child {n c} (h : Reach G roots n) (hc : c ∈ G.children n) : Reach G roots c

/-- Specification: no cycles; every node has a height above those of its children. -/
def DGraph.Acyclic (G : DGraph) (height : Nat → Nat) : Prop := ∀ n, ∀ c ∈ G.children n, height c < height n

/-- Specification: the object `d` at `q` shows the node `u`: it has its label, and its children in order, each of which is an object with
the label of the child and with `q` as its only parent. -/
def Shows (G : DGraph) (objs : List (Pos × DNode)) (q : Pos) (d : DNode) (u : Nat) : Prop :=
  d.label = G.label u ∧ d.children.length = (G.children u).length ∧
  ∀ (j : Nat) c, (G.children u)[j]? = some c → ∃ r d', d.children[j]? = some r ∧ (r, d') ∈ objs ∧ d'.label = G.label c ∧ d'.parents = [q]

theorem Shows.mono {G : DGraph} {objs objs' : List (Pos × DNode)} {q : Pos} {d : DNode} {u : Nat} (h : Shows G objs q d u)
    (hs : ∀ x ∈ objs, x ∈ objs') : Shows G objs' q d u := by
  obtain ⟨h1, h2, h3⟩ := h
  refine ⟨h1, h2, fun j c hc => ?_⟩
  obtain ⟨r, d', h4, h5, h6⟩ := h3 j c hc
  exact ⟨r, d', h4, hs _ h5, h6⟩

/-- The objects of a child are among those of the list. -/
theorem decNodes_sub (p : Pos) (ps : List Pos) (ts : List PNode) (i j : Nat) (t : PNode) (h : ts[j]? = some t) :
    ∀ x ∈ decNode (p ++ [i + j]) ps t, x ∈ decNodes p ps i ts := by
  induction ts generalizing i j with
  | nil => simp at h
  | cons c cs ih =>
    intro x hx
    rw [decNodes, List.mem_append]
    cases j with
    | zero =>
      simp only [List.getElem?_cons_zero, Option.some.injEq] at h
      subst h
      exact .inl hx
    | succ j =>
      refine .inr (ih (i + 1) j (by simpa using h) x ?_)
      rwa [show i + 1 + j = i + (j + 1) by omega]

/-- Conversely, every object of the list is one of a child. -/
theorem decNodes_mem (p : Pos) (ps : List Pos) (ts : List PNode) (i : Nat) (x : Pos × DNode) (h : x ∈ decNodes p ps i ts) :
    ∃ j t, ts[j]? = some t ∧ x ∈ decNode (p ++ [i + j]) ps t := by
  induction ts generalizing i with
  | nil => simp [decNodes] at h
  | cons c cs ih =>
    rw [decNodes, List.mem_append] at h
    rcases h with h | h
    · exact ⟨0, c, rfl, h⟩
    · obtain ⟨j, t, h1, h2⟩ := ih (i + 1) h
      exact ⟨j + 1, t, by simpa using h1, by rwa [show i + 1 + j = i + (j + 1) by omega] at h2⟩

/-- The first object of a node. -/
theorem decNode_head (G : DGraph) (p : Pos) (ps : List Pos) (fuel n : Nat) :
    ∃ d, (p, d) ∈ decNode p ps (encNode G fuel n) ∧ d.label = G.label n ∧ d.parents = ps := by
  cases fuel <;> exact ⟨_, by rw [encNode, decNode]; exact List.mem_cons_self, rfl, rfl⟩

theorem children_nil {G : DGraph} {height : Nat → Nat} (hG : G.Acyclic height) {n : Nat} (h : height n ≤ 0) : G.children n = [] := by
  rcases e : G.children n with _ | ⟨c, cs⟩
  · rfl
  · have := hG n c (by rw [e]; simp)
    omega

/-- The first object shows the node. -/
theorem head_shows {G : DGraph} {height : Nat → Nat} (hG : G.Acyclic height) (p : Pos) (ps : List Pos) (fuel n : Nat) (hf : height n ≤ fuel) :
    ∃ d, (p, d) ∈ decNode p ps (encNode G fuel n) ∧ d.parents = ps ∧ Shows G (decNode p ps (encNode G fuel n)) p d n := by
  cases fuel with
  | zero =>
    refine ⟨_, by rw [encNode, decNode]; exact List.mem_cons_self, rfl, rfl, ?_, ?_⟩
    · simp [children_nil hG hf]
    · simp [children_nil hG hf]
  | succ fuel =>
    refine ⟨_, by rw [encNode, decNode]; exact List.mem_cons_self, rfl, rfl, by simp, ?_⟩
    intro j c hc
    have hj : j < (G.children n).length := by
      rcases Nat.lt_or_ge j (G.children n).length with h | h
      · exact h
      · rw [List.getElem?_eq_none h] at hc; cases hc
    obtain ⟨d', h1, h2, h3⟩ := decNode_head G (p ++ [0 + j]) [p] fuel c
    refine ⟨p ++ [j], d', by simp [hj], ?_, h2, h3⟩
    rw [encNode, decNode]
    refine List.mem_cons_of_mem _ ?_
    have := decNodes_sub p [p] ((G.children n).map (encNode G fuel)) 0 j (encNode G fuel c) (by simp [hc]) _ h1
    rwa [Nat.zero_add] at this

/-- Every object shows a node. -/
theorem all_show {G : DGraph} {height : Nat → Nat} (hG : G.Acyclic height) (roots : List Nat) (fuel : Nat) :
    ∀ (p : Pos) (ps : List Pos) (n : Nat), G.Reach roots n → height n ≤ fuel → ∀ q d, (q, d) ∈ decNode p ps (encNode G fuel n) →
      ∃ u, G.Reach roots u ∧ Shows G (decNode p ps (encNode G fuel n)) q d u := by
  induction fuel with
  | zero =>
    intro p ps n hr hf q d h
    obtain ⟨d', h1, -, h3⟩ := head_shows hG p ps 0 n hf
    rw [encNode, decNode, decNodes, List.mem_singleton] at h h1
    cases h1
    cases h
    exact ⟨n, hr, h3⟩
  | succ fuel ih =>
    intro p ps n hr hf q d h
    have h' := h
    rw [encNode, decNode, List.mem_cons] at h
    rcases h with h | h
    · refine ⟨n, hr, ?_⟩
      obtain ⟨d', h1, h2, h3⟩ := head_shows hG p ps (fuel + 1) n hf
      cases h
      refine ⟨rfl, by simp, ?_⟩
      intro j c hc
      have hj : j < (G.children n).length := by
        rcases Nat.lt_or_ge j (G.children n).length with h | h
        · exact h
        · rw [List.getElem?_eq_none h] at hc; cases hc
      obtain ⟨d', h1, h2, h3⟩ := decNode_head G (p ++ [0 + j]) [p] fuel c
      refine ⟨p ++ [j], d', by simp [hj], ?_, h2, h3⟩
      rw [encNode, decNode]
      refine List.mem_cons_of_mem _ ?_
      have := decNodes_sub p [p] ((G.children n).map (encNode G fuel)) 0 j (encNode G fuel c) (by simp [hc]) _ h1
      rwa [Nat.zero_add] at this
    · obtain ⟨j, t, h1, h2⟩ := decNodes_mem _ _ _ _ _ h
      rw [List.getElem?_map, Option.map_eq_some_iff] at h1
      obtain ⟨c, hc, rfl⟩ := h1
      have hcm : c ∈ G.children n := List.mem_of_getElem? hc
      have hlt := hG n c hcm
      obtain ⟨u, hu, hs⟩ := ih _ _ c (.child hr hcm) (by omega) q d h2
      refine ⟨u, hu, hs.mono ?_⟩
      intro x hx
      rw [encNode, decNode]
      exact List.mem_cons_of_mem _ (decNodes_sub p [p] _ 0 j _ (by simp [hc]) x hx)

/-- The objects of every node are among all. -/
theorem reach_sub {G : DGraph} {height : Nat → Nat} (hG : G.Acyclic height) (roots : List Nat) (fuel : Nat) (hf : ∀ n ∈ roots, height n ≤ fuel)
    (u : Nat) (hu : G.Reach roots u) :
    ∃ p ps f, height u ≤ f ∧ ∀ x ∈ decNode p ps (encNode G f u), x ∈ decGraph (encGraph G fuel roots) := by
  induction hu with
  | root h =>
    obtain ⟨j, hj⟩ := List.getElem?_of_mem h
    exact ⟨_, _, fuel, hf _ h, decNodes_sub [] [] _ 0 j _ (by simp [encGraph, hj])⟩
  | @child n c hr hc ih =>
    obtain ⟨p, ps, f, h1, h2⟩ := ih
    obtain ⟨j, hj⟩ := List.getElem?_of_mem hc
    have := hG n c hc
    cases f with
    | zero => omega
    | succ f =>
      refine ⟨p ++ [0 + j], [p], f, by omega, fun x hx => h2 x ?_⟩
      rw [encNode, decNode]
      exact List.mem_cons_of_mem _ (decNodes_sub p [p] _ 0 j _ (by simp [hj]) x hx)

/-- C36 (partial: sharing is lost): for every graph without cycles, each node the plugin sees shows a node of the graph with all its
children in order, and each node of the graph is shown. -/
theorem C36_graph_partial (G : DGraph) (height : Nat → Nat) (hG : G.Acyclic height) (roots : List Nat) (fuel : Nat) (hf : ∀ n ∈ roots, height n ≤ fuel) :
    (∀ q d, (q, d) ∈ decGraph (encGraph G fuel roots) → ∃ u, G.Reach roots u ∧ Shows G (decGraph (encGraph G fuel roots)) q d u) ∧
    (∀ u, G.Reach roots u → ∃ q d, (q, d) ∈ decGraph (encGraph G fuel roots) ∧ Shows G (decGraph (encGraph G fuel roots)) q d u) := by
  constructor
  · intro q d h
    obtain ⟨j, t, h1, h2⟩ := decNodes_mem _ _ _ _ _ h
    rw [encGraph, List.getElem?_map, Option.map_eq_some_iff] at h1
    obtain ⟨n, hn, rfl⟩ := h1
    obtain ⟨u, hu, hs⟩ := all_show hG roots fuel _ _ n (.root (List.mem_of_getElem? hn)) (hf n (List.mem_of_getElem? hn)) q d h2
    exact ⟨u, hu, hs.mono (decNodes_sub [] [] _ 0 j _ (by simp [encGraph, hn]))⟩
  · intro u hu
    obtain ⟨p, ps, f, h1, h2⟩ := reach_sub hG roots fuel hf u hu
    obtain ⟨d, h3, -, h4⟩ := head_shows hG p ps f u h1
    exact ⟨p, d, h2 _ h3, h4.mono h2⟩

/-- The roots are the first objects, in order, without parents. -/
theorem C36_graph_roots (G : DGraph) (height : Nat → Nat) (hG : G.Acyclic height) (roots : List Nat) (fuel : Nat) (hf : ∀ n ∈ roots, height n ≤ fuel)
    (j n : Nat) (h : roots[j]? = some n) :
    ∃ d, ([j], d) ∈ decGraph (encGraph G fuel roots) ∧ d.parents = [] ∧ Shows G (decGraph (encGraph G fuel roots)) [j] d n := by
  obtain ⟨d, h1, h2, h3⟩ := head_shows hG ([] ++ [0 + j]) [] fuel n (hf n (List.mem_of_getElem? h))
  have hs := decNodes_sub [] [] (encGraph G fuel roots) 0 j (encNode G fuel n) (by simp [encGraph, h])
  have h3' := h3.mono hs
  have h1' := hs _ h1
  simp only [List.nil_append, Nat.zero_add] at h1' h3'
  exact ⟨d, h1', h2, h3'⟩

mutual
theorem parent_node (p : Pos) (ps : List Pos) (hps : ps.length ≤ 1) : ∀ (t : PNode) (x : Pos × DNode), x ∈ decNode p ps t → x.2.parents.length ≤ 1
  | .node l cs, x, h => by
    rw [decNode, List.mem_cons] at h
    rcases h with rfl | h
    · exact hps
    · exact parent_nodes p [p] 0 (by simp) cs x h
theorem parent_nodes (p : Pos) (ps : List Pos) (i : Nat) (hps : ps.length ≤ 1) : ∀ (ts : List PNode) (x : Pos × DNode), x ∈ decNodes p ps i ts → x.2.parents.length ≤ 1
  | [], x, h => by simp [decNodes] at h
  | c :: cs, x, h => by
    rw [decNodes, List.mem_append] at h
    rcases h with h | h
    · exact parent_node (p ++ [i]) ps hps c x h
    · exact parent_nodes p ps (i + 1) hps cs x h
end

mutual
theorem node_prefix (p : Pos) (ps : List Pos) : ∀ (t : PNode) (q : Pos), q ∈ (decNode p ps t).map (·.1) → ∃ s, q = p ++ s
  | .node l cs, q, h => by
    rw [decNode, List.map_cons, List.mem_cons] at h
    rcases h with rfl | h
    · exact ⟨[], by simp⟩
    · obtain ⟨j, s, -, rfl⟩ := nodes_prefix p [p] 0 cs q h; exact ⟨j :: s, rfl⟩
theorem nodes_prefix (p : Pos) (ps : List Pos) (i : Nat) : ∀ (ts : List PNode) (q : Pos), q ∈ (decNodes p ps i ts).map (·.1) → ∃ j s, i ≤ j ∧ q = p ++ j :: s
  | [], q, h => by simp [decNodes] at h
  | c :: cs, q, h => by
    rw [decNodes, List.map_append, List.mem_append] at h
    rcases h with h | h
    · obtain ⟨s, rfl⟩ := node_prefix (p ++ [i]) ps c q h; exact ⟨i, s, Nat.le_refl _, by simp⟩
    · obtain ⟨j, s, hj, rfl⟩ := nodes_prefix p ps (i + 1) cs q h; exact ⟨j, s, by omega, rfl⟩
end

mutual
theorem node_nodup (p : Pos) (ps : List Pos) : ∀ t : PNode, ((decNode p ps t).map (·.1)).Nodup
  | .node l cs => by
    rw [decNode, List.map_cons, List.nodup_cons]
    refine ⟨fun h => ?_, nodes_nodup p [p] 0 cs⟩
    obtain ⟨j, s, -, e⟩ := nodes_prefix p [p] 0 cs p h
    have := congrArg List.length e
    simp at this
theorem nodes_nodup (p : Pos) (ps : List Pos) (i : Nat) : ∀ ts : List PNode, ((decNodes p ps i ts).map (·.1)).Nodup
  | [] => by simp [decNodes]
  | c :: cs => by
    rw [decNodes, List.map_append, List.nodup_append]
    refine ⟨node_nodup (p ++ [i]) ps c, nodes_nodup p ps (i + 1) cs, ?_⟩
    intro a ha b hb e
    subst e
    obtain ⟨s, e1⟩ := node_prefix (p ++ [i]) ps c a ha
    obtain ⟨j, s', hj, e2⟩ := nodes_prefix p ps (i + 1) cs a hb
    rw [e1, List.append_assoc] at e2
    have := List.append_cancel_left e2
    simp only [List.cons_append, List.nil_append, List.cons.injEq] at this
    omega
end

/-- The positions tell the objects apart. -/
theorem C36_graph_positions (ts : List PNode) : ((decGraph ts).map (·.1)).Nodup := nodes_nodup [] [] 0 ts

/-- C36 is false of the code for variables that several others use: no node the plugin sees has more than one parent, whatever the request. -/
theorem C36_graph_parents_false (ts : List PNode) (q : Pos) (d : DNode) (h : (q, d) ∈ decGraph ts) : d.parents.length ≤ 1 :=
  parent_nodes [] [] 0 (by simp) ts (q, d) h

/-- Two variables `a` and `b`, and a third that uses both: the plugin sees two nodes for the third, each with one parent. -/
example :
    let G : DGraph := ⟨fun n => if n < 2 then [2] else [], fun n => ("p.M".toList, [if n = 0 then 'a' else if n = 1 then 'b' else 'c'])⟩
    (decGraph (encGraph G 1 [0, 1])).map (fun x => (x.1, x.2.label.2, x.2.parents)) =
      [([0], ['a'], []), ([0, 0], ['c'], [[0]]), ([1], ['b'], []), ([1, 0], ['c'], [[1]])] := by decide +kernel

/-- It meets the hypotheses of the theorems. -/
example : DGraph.Acyclic ⟨fun n => if n < 2 then [2] else [], fun n => ("p.M".toList, [if n = 0 then 'a' else if n = 1 then 'b' else 'c'])⟩ (fun n => 2 - n) := by
  intro n c hc
  simp only at hc
  split at hc
  · simp at hc; simp only; omega
  · simp at hc

/-- Layers of two variables, each of which uses both variables of the layer below. -/
def ladder : DGraph := ⟨fun m => if m < 2 then [] else [2 * (m / 2) - 2, 2 * (m / 2) - 1], fun m => ("p.M".toList, List.replicate m 'x')⟩

theorem ladder_acyclic : ladder.Acyclic (fun m => m / 2) := by
  intro n c hc
  simp only [ladder] at hc
  split at hc
  · simp at hc
  · simp only [List.mem_cons, List.not_mem_nil, or_false] at hc
    simp only
    omega

theorem ladder_reach (k : Nat) (u : Nat) (h : ladder.Reach [2 * k] u) : u ≤ 2 * k := by
  induction h with
  | root h => simp at h; omega
  | @child n c hr hc ih =>
    simp only [ladder] at hc
    split at hc
    · simp at hc
    · simp only [List.mem_cons, List.not_mem_nil, or_false] at hc
      omega

theorem ladder_size (f : Nat) : ∀ (m : Nat) (p : Pos) (ps : List Pos), m / 2 = f → (decNode p ps (encNode ladder f m)).length + 1 = 2 ^ (f + 1) := by
  induction f with
  | zero => intro m p ps _; rw [encNode, decNode, decNodes]; rfl
  | succ f ih =>
    intro m p ps h
    have hm : ladder.children m = [2 * (m / 2) - 2, 2 * (m / 2) - 1] := by
      simp only [ladder]; rw [if_neg (by omega)]
    rw [encNode, decNode, hm]
    simp only [List.map_cons, List.map_nil, decNodes, List.length_cons, List.length_append, List.length_nil]
    have h1 := ih (2 * (m / 2) - 2) (p ++ [0]) [p] (by omega)
    have h2 := ih (2 * (m / 2) - 1) (p ++ [0 + 1]) [p] (by omega)
    rw [Nat.pow_succ]
    omega

/-- The size of a request is not bounded by any polynomial of that of the graph: for every `k` there is a graph of at most `2 * k + 1`
variables for which the request has `2 ^ (k + 1) - 1` nodes. -/
theorem C36_graph_size_false (k : Nat) :
    ∃ (G : DGraph) (height : Nat → Nat), G.Acyclic height ∧ height (2 * k) ≤ k ∧ (∀ u, G.Reach [2 * k] u → u < 2 * k + 1) ∧
      (decGraph (encGraph G k [2 * k])).length = 2 ^ (k + 1) - 1 := by
  refine ⟨ladder, fun m => m / 2, ladder_acyclic, by simp only; omega, fun u hu => by have := ladder_reach k u hu; omega, ?_⟩
  have := ladder_size k (2 * k) ([] ++ [0]) [] (by omega)
  simp only [decGraph, encGraph, List.map_cons, List.map_nil, decNodes, List.length_append, List.length_nil]
  omega

end Verif.Codegen
