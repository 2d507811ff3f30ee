import Verif.Meta.Model

/-! # C125: the incoming metadata of an expression is that of the request -/

namespace Verif.Meta

variable {V : Type}

/-! ## Specification -/

/-- The metadata of a request: no key twice. -/
def Keys (md : List (Text × V)) : Prop := (md.map (·.1)).Nodup

/-- A map has exactly these entries. -/
def Has (m md : List (Text × V)) : Prop :=
  (∀ k v, (k, v) ∈ md → index m k = some v) ∧ (∀ k, (∀ v, (k, v) ∉ md) → index m k = none) ∧ m.length = md.length

/-! ## Lemmas -/

theorem assign_new (k : Text) (v : V) : ∀ m : List (Text × V), k ∉ m.map (·.1) → assign k v m = m ++ [(k, v)]
  | [], _ => rfl
  | (k', v') :: m, h => by
    simp only [List.map_cons, List.mem_cons, not_or] at h
    simp only [assign, List.cons_append]
    rw [if_neg (fun e => h.1 e.symm), assign_new k v m h.2]

theorem fill_eq : ∀ (es m : List (Text × V)), Keys (m ++ es) → fill m es = m ++ es
  | [], m, _ => by simp [fill]
  | (k, v) :: es, m, h => by
    have hk : k ∉ m.map (·.1) := by
      intro hm
      rw [Keys, List.map_append, List.nodup_append] at h
      exact h.2.2 k hm k (by simp) rfl
    rw [fill, assign_new k v m hk, fill_eq es (m ++ [(k, v)]) (by simpa using h)]
    simp

theorem index_mem : ∀ {m : List (Text × V)}, Keys m → ∀ {k v}, (k, v) ∈ m → index m k = some v
  | (k', v') :: m, h, k, v, hm => by
    simp only [Keys, List.map_cons, List.nodup_cons] at h
    rcases List.mem_cons.1 hm with hm | hm
    · cases hm; simp [index]
    · have : k' ≠ k := fun e => h.1 (e ▸ List.mem_map.2 ⟨_, hm, rfl⟩)
      have ih := index_mem h.2 hm
      simpa [index, this] using ih

/-! ## Properties -/

/-- C125: whatever order Go visits the metadata in, the map of the expression has for each key of the request the values that were sent
with it, in their order, and no other key. -/
theorem C125_incoming (md visited : List (Text × List Text)) (hk : Keys md) (hv : visited.Perm md) :
    Has (incoming (some visited)) md := by
  have hk' : Keys visited := (hv.map _).nodup_iff.2 hk
  have he : incoming (some visited) = visited := by
    show fill [] visited = visited
    rw [fill_eq visited [] (by simpa using hk')]
    rfl
  rw [he]
  refine ⟨fun k v h => index_mem hk' (hv.mem_iff.2 h), fun k h => ?_, hv.length_eq⟩
  unfold index
  rw [List.find?_eq_none.2 (fun e he => by
    simp only [decide_eq_true_eq]
    rintro rfl
    exact h e.2 (hv.mem_iff.1 he))]
  rfl

/-- C125: an expression gives the same for every order in which Go visits the metadata. -/
theorem C125_order (md a b : List (Text × List Text)) (hk : Keys md) (ha : a.Perm md) (hb : b.Perm md) (k : Text) :
    index (incoming (some a)) k = index (incoming (some b)) k := by
  have A := C125_incoming md a hk ha
  have B := C125_incoming md b hk hb
  by_cases h : ∃ v, (k, v) ∈ md
  · obtain ⟨v, h⟩ := h
    rw [A.1 k v h, B.1 k v h]
  · rw [A.2.1 k (fun v hv => h ⟨v, hv⟩), B.2.1 k (fun v hv => h ⟨v, hv⟩)]

/-- C125: without metadata the map is empty, and there is no error. -/
theorem C125_none : Has (incoming none) ([] : List (Text × List Text)) :=
  ⟨fun _ _ h => absurd h (List.not_mem_nil), fun _ _ => rfl, rfl⟩

/-- C125: the function of a plugin sees the metadata of the request, whatever order Go visits it in, if all keys and values are UTF-8.
Missing: binary values, see `C125_binary_false`. -/
theorem C125_plugin_partial {A : Type} (utf8 : Text → Bool) (fn : Text) (md visited : List (Text × List Text)) (args : List A)
    (hk : Keys md) (hv : visited.Perm md) (hf : utf8 fn = true) (hu : ∀ k vs, (k, vs) ∈ md → utf8 k = true ∧ ∀ v ∈ vs, utf8 v = true) :
    ∃ r, send utf8 fn (some visited) (some args) = some r ∧ r.method = fn ∧ r.args = args ∧ Has (pluginMetadata r) md := by
  have hall : (visited.all fun e => utf8 e.1 && e.2.all utf8) = true := by
    rw [List.all_eq_true]
    intro e he
    obtain ⟨h1, h2⟩ := hu e.1 e.2 (hv.mem_iff.1 he)
    rw [h1, List.all_eq_true.2 h2]
    rfl
  refine ⟨⟨fn, visited, args⟩, ?_, rfl, rfl, C125_incoming md visited hk hv⟩
  simp only [send, Option.getD_some, transport, hf, hall, Bool.and_self, if_true]

/-- C125: without metadata the function of a plugin sees none. -/
theorem C125_plugin_none {A : Type} (utf8 : Text → Bool) (fn : Text) (args : List A) (hf : utf8 fn = true) :
    ∃ r, send utf8 fn none (some args) = some r ∧ Has (pluginMetadata r) [] :=
  ⟨⟨fn, [], args⟩, by simp [send, transport, hf], C125_none⟩

/-- C125, false of the code: if a request has any metadata that is not UTF-8, for example the binary value of a key that ends in `-bin`, every
call of every plugin function fails, whatever its arguments, while expressions read the value. -/
theorem C125_binary_false {A : Type} (utf8 : Text → Bool) (fn : Text) (md visited : List (Text × List Text)) (hk : Keys md)
    (hv : visited.Perm md) (k v : Text) (vs : List Text) (hm : (k, vs) ∈ md) (hx : v ∈ vs) (hu : utf8 v = false) (args : Option (List A)) :
    send utf8 fn (some visited) args = none ∧ index (incoming (some visited)) k = some vs := by
  refine ⟨?_, (C125_incoming md visited hk hv).1 k vs hm⟩
  cases args with
  | none => rfl
  | some as =>
    have hall : (visited.all fun e => utf8 e.1 && e.2.all utf8) = false := by
      rw [List.all_eq_false]
      refine ⟨(k, vs), hv.mem_iff.2 hm, ?_⟩
      simp only [Bool.and_eq_true, not_and]
      intro _ h
      rw [List.all_eq_true.1 h v hx] at hu
      cases hu
    simp only [send, Option.getD_some, transport, hall, Bool.and_false, Bool.false_eq_true, if_false]

/-! ## Examples: `user` with two values and `id` with none; a trace context in binary -/

example : Keys [([117, 115, 101, 114], [[97], [98]]), ([105, 100], ([] : List Text))] := by
  simp only [Keys]; decide

example : index (incoming (some [([105, 100], []), ([117, 115, 101, 114], [[97], [98]])])) [117, 115, 101, 114] = some [[97], [98]] :=
  (C125_incoming [([117, 115, 101, 114], [[97], [98]]), ([105, 100], [])] _ (by simp only [Keys]; decide) (.swap _ _ _)).1 _ _ (.head _)

example : send (fun t => t.all (· < 128)) [102] (some [([120, 45, 98, 105, 110], [[0, 255]])]) (some [()]) = none :=
  (C125_binary_false (fun t => t.all (· < 128)) [102] [([120, 45, 98, 105, 110], [[0, 255]])] _ (by simp [Keys]) (.refl _)
    [120, 45, 98, 105, 110] [0, 255] [[0, 255]] (.head _) (.head _) (by decide) (some [()])).1

end Verif.Meta
