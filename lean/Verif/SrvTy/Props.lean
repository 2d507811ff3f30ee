import Verif.SrvTy.Spec

/-! # C85: variables have the same type in the generator and in the server -/

namespace Verif.SrvTy

open Verif.CelTy

theorem asServer_listIf {r : Bool} {c d : CTy} (h : AsServer c d) : AsServer (listIf r c) (listIf r d) := by
  cases r with
  | false => exact h
  | true => exact .list h

theorem asServer_wellKnown (n : Name) : AsServer (objectType n) (objectType n) := by
  unfold objectType
  cases h : wellKnown.lookup n with
  | none => exact .obj n
  | some c =>
    have hm : ∀ (l : List (Name × CTy)) (c : CTy), l.lookup n = some c → ∃ m, (m, c) ∈ l := by
      intro l
      induction l with
      | nil => intro c hc; simp at hc
      | cons x l ih =>
        intro c hc
        obtain ⟨a, b⟩ := x
        rw [List.lookup_cons] at hc
        cases hb : n == a with
        | true => rw [hb] at hc; simp at hc; exact ⟨a, by simp [hc]⟩
        | false =>
          rw [hb] at hc
          obtain ⟨m, hm⟩ := ih c hc
          exact ⟨m, List.mem_cons_of_mem _ hm⟩
    obtain ⟨m, hm⟩ := hm wellKnown c h
    simp only [wellKnown, List.mem_cons, Prod.mk.injEq, List.not_mem_nil, or_false] at hm
    rcases hm with h | h | h | h | h | h | h | h | h | h | h | h | h | h | h | h <;> (rw [h.2]; repeat constructor)

theorem listIf_false (r : Bool) (c : CTy) : listIf (false && r) c = c := by simp [listIf]

theorem selector_object : objectType selectorName = .obj ["grpc", "federation", "private", "EnumSelector"] := by
  decide

theorem asServer_inner (t : Ty) (h : Flat t) (outer : Bool) (ho : outer = true ∨ isRep t = false) :
    AsServer (toCEL outer t) (native t) := by
  have hr : ∀ r : Bool, (outer = true ∨ r = false) → (outer && r) = r := by
    intro r hr
    rcases hr with h | h <;> simp [h]
  induction t generalizing outer with
  | null r => simp only [toCEL, native, hr r ho]; exact asServer_listIf .null
  | scalar k r => simp only [toCEL, native, hr r ho]; exact asServer_listIf (.prim _)
  | msg n r =>
    simp only [toCEL, native, hr r ho]
    refine asServer_listIf ?_
    unfold msgCEL
    rw [if_neg (show n ≠ selectorName from h)]
    exact asServer_wellKnown n
  | enum n r => simp only [toCEL, native, hr r ho]; exact asServer_listIf (.enum n)
  | map k v r ihk ihv =>
    simp only [toCEL, native, hr r ho]
    obtain ⟨hk, hv, ek, ev⟩ := h
    have el : ∀ t, Flat.elem t → isRep t = false := by intro t ht; cases t <;> exact ht
    refine asServer_listIf (.map (ihk hk false (Or.inr (el k ek)) ?_) (ihv hv false (Or.inr (el v ev)) ?_))
    · intro r hr; rcases hr with h | h <;> simp_all
    · intro r hr; rcases hr with h | h <;> simp_all
  | selector t f r =>
    simp only [toCEL, native, hr r ho, selector_object]
    exact asServer_listIf (.selector _ _)

/-- Variables and iterators have the type in the server that the generator checked their expressions with. Missing:
maps of lists, see `C85_map_of_lists_false`. -/
theorem C85_variable_partial (t : Ty) (h : Flat t) :
    AsServer (toCEL true t) (native t) ∧
    AsServer (toCEL true (single t)) (iterCEL t) := by
  refine ⟨asServer_inner t h true (Or.inl rfl), ?_⟩
  refine asServer_inner (single t) ?_ true (Or.inl rfl)
  cases t <;> exact h

/-- What `def { name: "x" by: "..." }` declares: a list of maps of enums. -/
example : Flat (.map (.scalar .string false) (.enum ["pkg", "Color"] false) true) ∧
    toCEL true (.map (.scalar .string false) (.enum ["pkg", "Color"] false) true) =
      .list (.map (.prim .string) (.opq ["pkg", "Color"] (.prim .int))) ∧
    native (.map (.scalar .string false) (.enum ["pkg", "Color"] false) true) =
      .list (.map (.prim .string) (.prim .int)) := by
  refine ⟨⟨trivial, trivial, rfl, rfl⟩, by decide, by decide⟩

theorem asServer_unique {c d d' : CTy} (h : AsServer c d) (h' : AsServer c d') : d = d' := by
  induction h generalizing d' with
  | list _ ih => cases h' with | list h'' => rw [ih h'']
  | map _ _ ihk ihv => cases h' with | map hk hv => rw [ihk hk, ihv hv]
  | _ => cases h'; rfl

/-- A map of lists (`{'a': [1, 2]}`) has another type in the server: the generator takes it for a map of integers. An
expression the generator accepted (`x['a'] + 1`) is rejected when the server runs, and an expression it would accept
(`x['a'][0]`) is rejected by the generator. -/
theorem C85_map_of_lists_false : ∃ (t : Ty) (K : Known),
    fromCEL K (.map (.prim .string) (.list (.prim .int))) = some t ∧
    toCEL true t = .map (.prim .string) (.prim .int) ∧
    native t = .map (.prim .string) (.list (.prim .int)) ∧
    ¬ AsServer (toCEL true t) (native t) := by
  refine ⟨.map (.scalar .string false) (.scalar .int64 true) false, ⟨fun _ => false, fun _ => false⟩, by decide,
    by decide, by decide, ?_⟩
  intro h
  have := asServer_unique h (.map (.prim .string) (.prim .int))
  revert this
  decide

theorem declare_native (t : Ty) (h : ¬ HasNull t) : declare t = some (native t) := by
  induction t with
  | null r => exact absurd (.null r) h
  | map k v r ihk ihv =>
    have hk := ihk (fun hn => h (.key hn))
    have hv := ihv (fun hn => h (.value hn))
    simp only [declare, native, hk, hv]
  | _ => rfl

theorem declare_null (t : Ty) (h : HasNull t) : declare t = none := by
  induction h with
  | null r => rfl
  | key _ ih => simp only [declare, ih]
  | @value k v r _ ih =>
    simp only [declare, ih]
    cases declare k <;> rfl

/-- Arguments of messages, variables of the service, environment variables and functions of plugins are declared with
the same type as variables of that type. Missing: null, see `C85_declared_iff`. -/
theorem C85_declared_partial (t : Ty) (h : Flat t) (hn : ¬ HasNull t) :
    declare t = some (native t) ∧ AsServer (toCEL true t) (native t) :=
  ⟨declare_native t hn, asServer_inner t h true (Or.inl rfl)⟩

example : Flat (.msg ["google", "protobuf", "Int32Value"] true) ∧
    ¬ HasNull (.msg ["google", "protobuf", "Int32Value"] true) ∧
    declare (.msg ["google", "protobuf", "Int32Value"] true) = some (.list (.wrapper .int)) := by
  refine ⟨by simp [Flat], ?_, by decide⟩
  intro h
  cases h

/-- The declaration compiles exactly for types without null. The generator rejects arguments and variables of the
service that are null before, because their message has no descriptor (`Verif.Descr`, C82). -/
theorem C85_declared_iff (t : Ty) : (∃ c, declare t = some c) ↔ ¬ HasNull t := by
  constructor
  · intro ⟨c, h⟩ hn
    rw [declare_null t hn] at h
    cases h
  · exact fun hn => ⟨_, declare_native t hn⟩

example : HasNull (.map (.scalar .string false) (.null false) false) ∧
    declare (.map (.scalar .string false) (.null false) false) = none := ⟨.value (.null _), rfl⟩

theorem protoGo_sliceIf {t : Ty} {g : GoTy} (h : ProtoGo (single t) g) (hs : isRep t = false → t = single t) :
    ProtoGo t (sliceIf (isRep t) g) := by
  cases hr : isRep t with
  | false => rw [hs hr]; exact h
  | true => exact .list hr h

/-- The Go type of a variable is the type protobuf has for it. Missing: lists of maps, see
`C85_list_of_maps_false`. -/
theorem C85_go_type_partial (t : Ty) (h : NoMapLists t) : ProtoGo t (goTy t) := by
  induction t with
  | null r => cases h; exact .null
  | scalar k r =>
    refine protoGo_sliceIf (t := .scalar k r) ?_ (by intro h; cases h; rfl)
    cases k <;> constructor
  | msg n r => exact protoGo_sliceIf (t := .msg n r) (.msg n) (by intro h; cases h; rfl)
  | enum n r => exact protoGo_sliceIf (t := .enum n r) (.enum n) (by intro h; cases h; rfl)
  | map k v r ihk ihv =>
    obtain ⟨hr, hk, hv⟩ := h
    subst hr
    exact .map (ihk hk) (ihv hv)
  | selector t f r =>
    exact protoGo_sliceIf (t := .selector t f r) (.selector t f) (by intro h; cases h; rfl)

example : NoMapLists (.map (.scalar .string false) (.msg ["pkg", "Post"] false) false) ∧
    goTy (.map (.scalar .string false) (.msg ["pkg", "Post"] false) false) = .map .string (.msg ["pkg", "Post"]) := by
  exact ⟨⟨rfl, trivial, trivial⟩, rfl⟩

theorem protoGo_unique {t : Ty} {g g' : GoTy} (h : ProtoGo t g) (h' : ProtoGo t g') : g = g' := by
  induction h generalizing g' with
  | map _ _ ihk ihv =>
    cases h' with
    | map hk hv => rw [ihk hk, ihv hv]
    | list hr _ => simp [isRep] at hr
  | list hr h ih =>
    cases h' with
    | list _ h'' => rw [ih h'']
    | _ => simp [isRep] at hr
  | _ =>
    cases h' with
    | list hr _ => simp [isRep] at hr
    | _ => rfl

/-- The Go type of every list of maps is the type of one map. `def { name: "x" by: "[{'a': 1}]" }` is accepted with the
CEL type of a list, and the server stores it in a variable of the type `map[string]int64`. -/
theorem C85_list_of_maps_false (k v : Ty) :
    goTy (.map k v true) = goTy (.map k v false) ∧
    (∃ c, native (.map k v true) = .list c) ∧
    ¬ ProtoGo (.map k v true) (goTy (.map k v true)) := by
  refine ⟨rfl, ⟨_, rfl⟩, ?_⟩
  intro h
  cases h

/-- The zero value of a type compiles and has the Go type of the variable. -/
theorem C85_zero (t : Ty) : (zero t).typ = some (goTy t) := by
  cases t with
  | null r => cases r <;> rfl
  | scalar k r => cases k <;> cases r <;> rfl
  | msg n r => cases r <;> rfl
  | enum n r => cases r <;> rfl
  | map k v r => cases r <;> rfl
  | selector t f r => cases r <;> rfl

example : zero (.enum ["pkg", "Color"] false) = .num (.enum ["pkg", "Color"]) ∧
    zero (.scalar .bytes false) = .nil .bytes ∧ zero (.scalar .string true) = .nil (.slice .string) := by decide

/-- The elements of a mapped list have the Go type of the expression. -/
theorem C85_iterator_go (t : Ty) (h : NoMapLists t) (hr : isRep t = true) :
    ProtoGo t (.slice (iterGo t)) := by
  have hs : NoMapLists (single t) := by cases t <;> first | exact h | rfl | exact trivial | (exact ⟨rfl, h.2⟩)
  exact .list hr (C85_go_type_partial _ hs)

example : iterGo (.msg ["pkg", "Post"] true) = .msg ["pkg", "Post"] := rfl

end Verif.SrvTy
