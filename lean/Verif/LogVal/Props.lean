import Verif.LogVal.Spec
import Std.Data.String.ToInt

/-! # C119: log lines have everything that is logged -/

namespace Verif.LogVal

theorem get_set {S : Type} (m : Ms S) (k k' : String) (o : O S) : (m.set k o).get k' = if k = k' then some o else m.get k' := by
  match m with
  | .nil => simp [Ms.set, Ms.get]
  | .cons j x m =>
    have ih := get_set m k k' o
    simp only [Ms.set]
    by_cases hj : j = k
    · subst hj
      simp only [if_true, Ms.get]
      split <;> simp_all
    · simp only [if_neg hj, Ms.get, ih]
      by_cases h : j = k'
      · subst h; simp [Ne.symm hj]
      · simp [h]

theorem get_expandMap_sound {S : Type} (es : Es S) (m : Ms S) (t : String) (o : O S) (h : (expandMap es m).get t = some o) :
    m.get t = some o ∨ ∃ k v, Entry es k v ∧ k.text = t ∧ o = expand v := by
  match es with
  | .nil => exact .inl (by simpa [expandMap] using h)
  | .cons k v es =>
    simp only [expandMap] at h
    rcases get_expandMap_sound es _ t o h with h | ⟨k', v', he, ht, ho⟩
    · rw [get_set] at h
      split at h
      · rename_i hk
        exact .inr ⟨k, v, .head .., hk, (Option.some.inj h).symm⟩
      · exact .inl h
    · exact .inr ⟨k', v', .tail _ _ he, ht, ho⟩

theorem get_expandMap_other {S : Type} (es : Es S) (m : Ms S) (t : String) (h : ∀ k v, Entry es k v → k.text ≠ t) :
    (expandMap es m).get t = m.get t := by
  match es with
  | .nil => simp [expandMap]
  | .cons k v es =>
    simp only [expandMap]
    rw [get_expandMap_other es _ t (fun k v he => h k v (.tail _ _ he)), get_set, if_neg (h k v (.head ..))]

theorem get_expandMap {S : Type} {es : Es S} (hd : TextsDiffer es) (m : Ms S) {k : Key} {v : V S} (h : Entry es k v) :
    (expandMap es m).get k.text = some (expand v) := by
  induction h generalizing m with
  | head k v es =>
    cases hd with
    | cons _ _ hk _ =>
      simp only [expandMap]
      rw [get_expandMap_other es _ _ hk, get_set, if_pos rfl]
  | tail k' v' _ ih =>
    cases hd with
    | cons _ _ _ ht => exact ih ht _

theorem nth_rest {S : Type} {vs : Vs S} {i : Nat} {v : V S} (h : Nth vs i v) : ONth (expandRest vs) i (expand v) := by
  induction h with
  | zero v vs => exact .zero ..
  | succ w _ ih => exact .succ _ ih

theorem rest_nth {S : Type} (vs : Vs S) (i : Nat) (o : O S) (h : ONth (expandRest vs) i o) : ∃ v, Nth vs i v ∧ o = expand v := by
  match vs with
  | .nil => simp only [expandRest] at h; cases h
  | .cons v vs =>
    simp only [expandRest] at h
    cases h with
    | zero => exact ⟨v, .zero .., rfl⟩
    | succ _ h =>
      obtain ⟨w, hw, ho⟩ := rest_nth vs _ o h
      exact ⟨w, .succ _ hw, ho⟩

/-- C119: nothing is logged that the value does not have: what is found on a path of the output is in the value, on a path with these
texts. -/
theorem C119_sound {S : Type} (v : V S) (p : List OStep) (s : S) (h : OLeaf (expand v) p s) : ∃ q, Leaf v q s ∧ q.map Step.text = p := by
  generalize ho : expand v = o at h
  induction h generalizing v with
  | here s =>
    cases v with
    | scalar s' => simp only [expand, O.scalar.injEq] at ho; subst ho; exact ⟨[], .here _, rfl⟩
    | list xs => cases xs <;> simp [expand, expandList] at ho
    | map es => simp [expand] at ho
  | @list o os i x p s hn _ ih =>
    cases v with
    | scalar s' => simp [expand] at ho
    | map es => simp [expand] at ho
    | list xs =>
      cases xs with
      | nil => simp [expand, expandList] at ho
      | cons w ws =>
        simp only [expand, expandList, O.list.injEq] at ho
        obtain ⟨rfl, rfl⟩ := ho
        obtain ⟨u, hu, rfl⟩ := rest_nth (.cons w ws) i x (by simpa only [expandRest] using hn)
        obtain ⟨q, hq, hp⟩ := ih u rfl
        exact ⟨.idx i :: q, .list hu hq, by simp [Step.text, hp]⟩
  | @map m k o p s hg _ ih =>
    cases v with
    | scalar s' => simp [expand] at ho
    | list xs => cases xs <;> simp [expand, expandList] at ho
    | map es =>
      simp only [expand, O.map.injEq] at ho
      subst ho
      rcases get_expandMap_sound es .nil k o hg with h | ⟨k', v', he, ht, rfl⟩
      · simp [Ms.get] at h
      · obtain ⟨q, hq, hp⟩ := ih v' rfl
        exact ⟨.key k' :: q, .map he hq, by simp [Step.text, hp, ht]⟩

/-- C119: everything in the value is logged on the path that leads to it, in lists and maps of any depth, if the keys of each map have
different texts. -/
theorem C119_complete_partial {S : Type} (v : V S) (hd : ∀ es, Inside v (.map es) → TextsDiffer es) (q : List Step) (s : S)
    (h : Leaf v q s) : OLeaf (expand v) (q.map Step.text) s := by
  induction h with
  | here s => simp only [expand, List.map_nil]; exact .here s
  | @list xs i v p s hn _ ih =>
    have ih := ih (fun es he => hd es (.list hn he))
    cases xs with
    | nil => cases hn
    | cons w ws =>
      have := nth_rest hn
      simp only [expandRest] at this
      simp only [expand, expandList, List.map_cons, Step.text]
      exact .list this ih
  | @map es k v p s he _ ih =>
    have ih := ih (fun es' he' => hd es' (.map he he'))
    simp only [expand, List.map_cons, Step.text]
    exact .map (get_expandMap (hd es (.refl _)) .nil he) ih

theorem text_inj {k k' : Key} (hk : k.kind = k'.kind) (h : k.text = k'.text) : k = k' := by
  cases k <;> cases k' <;> simp [Key.kind] at hk <;> simp only [Key.text] at h
  · exact congrArg _ (Int.repr_injective h)
  · rename_i a b
    have := Nat.toInt?_repr a
    rw [h, Nat.toInt?_repr b] at this
    exact congrArg _ (Int.ofNat.inj (Option.some.inj this).symm)
  · rename_i a b
    cases a <;> cases b <;> simp at h ⊢
  · exact congrArg _ h

theorem differ {S : Type} {es : Es S} (hd : KeysDiffer es) (t : Kind) (ht : ∀ k v, Entry es k v → k.kind = t) : TextsDiffer es := by
  induction hd with
  | nil => exact .nil
  | cons k v hk _ ih =>
    refine .cons k v ?_ (ih (fun k v he => ht k v (.tail _ _ he)))
    intro k' v' he htext
    exact hk k' v' he (text_inj ((ht k' v' (.tail _ _ he)).trans (ht k v (.head ..)).symm) htext)

/-- C119: what is logged of a value whose maps have keys of one type each, of any type, is exactly the value: the same things on the same
paths. -/
theorem C119_typed_iff {S : Type} (v : V S) (hv : Typed v) (p : List OStep) (s : S) :
    OLeaf (expand v) p s ↔ ∃ q, Leaf v q s ∧ q.map Step.text = p := by
  refine ⟨C119_sound v p s, ?_⟩
  rintro ⟨q, hq, rfl⟩
  refine C119_complete_partial v ?_ q s hq
  intro es he
  obtain ⟨hk, t, ht⟩ := hv es he
  exact differ hk t ht

theorem mem_attrs {S : Type} (es : Es S) (n : String) (o : O S) : (n, o) ∈ attrs es ↔ ∃ k v, Entry es k v ∧ n = k.text ∧ o = expand v := by
  match es with
  | .nil =>
    simp only [attrs, List.not_mem_nil, false_iff]
    rintro ⟨k, v, h, -⟩
    cases h
  | .cons k v es =>
    simp only [attrs, List.mem_cons, Prod.mk.injEq, mem_attrs es]
    constructor
    · rintro (⟨rfl, rfl⟩ | ⟨k', v', he, h⟩)
      · exact ⟨k, v, .head .., rfl, rfl⟩
      · exact ⟨k', v', .tail _ _ he, h⟩
    · rintro ⟨k', v', he, h⟩
      cases he with
      | head => exact .inl h
      | tail _ _ he => exact .inr ⟨k', v', he, h⟩

/-- C119: the attributes of a call are exactly the entries of the map, each value as it is expanded; also those with the same text. -/
theorem C119_attrs_iff {S : Type} (es : Es S) (n : String) (o : O S) :
    (n, o) ∈ attrs es ↔ ∃ k v, Entry es k v ∧ n = k.text ∧ o = expand v := mem_attrs es n o

/-- The attributes that the calls add. -/
def added {S : Type} : List (Call S) → List (String × O S)
  | [] => []
  | .add es :: cs => attrs es ++ added cs
  | _ :: cs => added cs

/-- The number of calls that log. -/
def lines {S : Type} : List (Call S) → Nat
  | [] => 0
  | .add _ :: cs => lines cs
  | _ :: cs => lines cs + 1

theorem run_append {S : Type} (st : St S) (a b : List (Call S)) : runCalls st (a ++ b) = runCalls (runCalls st a) b := by
  simp [runCalls]

theorem run_ctx {S : Type} (st : St S) (cs : List (Call S)) :
    (runCalls st cs).ctx = { st.ctx with attrs := st.ctx.attrs ++ added cs } := by
  induction cs generalizing st with
  | nil => simp [runCalls, added]
  | cons c cs ih =>
    rw [show runCalls st (c :: cs) = runCalls (call st c).1 cs from rfl, ih]
    cases c <;> simp [call, added]

theorem run_out {S : Type} (st : St S) (cs : List (Call S)) : ∃ o, (runCalls st cs).out = st.out ++ o ∧ o.length = lines cs := by
  induction cs generalizing st with
  | nil => exact ⟨[], by simp [runCalls], rfl⟩
  | cons c cs ih =>
    rw [show runCalls st (c :: cs) = runCalls (call st c).1 cs from rfl]
    obtain ⟨o, ho, hl⟩ := ih (call st c).1
    cases c with
    | log l m => exact ⟨⟨l, m, Log.logged st.ctx⟩ :: o, by rw [ho]; simp [call], by simp [lines, hl]⟩
    | logArgs l m es => exact ⟨⟨l, m, Log.logged st.ctx ++ attrs es⟩ :: o, by rw [ho]; simp [call], by simp [lines, hl]⟩
    | add es => exact ⟨o, by rw [ho]; simp [call], by simp [lines, hl]⟩

/-- C119: in any sequence of calls, a call with arguments outputs one line, with its level and message, at its place among the lines; the
line has the attributes of the context, then all that were added by the calls before it, then its own. -/
theorem C119_line {S : Type} (st : St S) (before after : List (Call S)) (l : Level) (msg : String) (es : Es S) :
    (runCalls st (before ++ .logArgs l msg es :: after)).out[st.out.length + lines before]? =
      some ⟨l, msg, st.ctx.logger ++ st.ctx.attrs ++ added before ++ attrs es⟩ := by
  rw [run_append, show ∀ st, runCalls st (.logArgs l msg es :: after) = runCalls (call st (.logArgs l msg es)).1 after from fun _ => rfl]
  obtain ⟨o, ho, hl⟩ := run_out st before
  obtain ⟨o', ho', -⟩ := run_out (call (runCalls st before) (.logArgs l msg es)).1 after
  rw [ho']
  simp only [call, ho, run_ctx, Log.logged]
  rw [← hl]
  simp

/-- C119: the same for a call without arguments. -/
theorem C119_plain_line {S : Type} (st : St S) (before after : List (Call S)) (l : Level) (msg : String) :
    (runCalls st (before ++ .log l msg :: after)).out[st.out.length + lines before]? =
      some ⟨l, msg, st.ctx.logger ++ st.ctx.attrs ++ added before⟩ := by
  rw [run_append, show ∀ st, runCalls st (.log l msg :: after) = runCalls (call st (.log l msg)).1 after from fun _ => rfl]
  obtain ⟨o, ho, hl⟩ := run_out st before
  obtain ⟨o', ho', -⟩ := run_out (call (runCalls st before) (.log l msg)).1 after
  rw [ho']
  simp only [call, ho, run_ctx, Log.logged]
  rw [← hl]
  simp

/-- C119: nothing else is output, and every call gives true, so that the functions can be used as conditions. -/
theorem C119_only {S : Type} (st : St S) (cs : List (Call S)) :
    (runCalls st cs).out.length = st.out.length + lines cs ∧ ∀ c, (call (runCalls st cs) c).2 = true := by
  obtain ⟨o, ho, hl⟩ := run_out st cs
  exact ⟨by simp [ho, hl], fun c => by cases c <;> rfl⟩

/-! ## What is lost -/

/-- `{'m': {1: 'a', '1': 'b'}}`. -/
def mixed : V String := .map (.cons (.int 1) (.scalar "a") (.cons (.string "1") (.scalar "b") .nil))

/-- C119 fails for maps with keys of different types: of two keys with the same text one is logged; which, depends on the order of the
iterator. -/
theorem C119_mixed_false : Leaf mixed [.key (.int 1)] "a" ∧ ¬ OLeaf (expand mixed) [.key (Key.int 1).text] "a" := by
  refine ⟨.map (.head ..) (.here _), ?_⟩
  have h1 : (Key.int 1).text = "1" := rfl
  have : expand mixed = .map (.cons "1" (.scalar "b") .nil) := by
    simp [mixed, expand, expandMap, Ms.set, h1, show (Key.string "1").text = "1" from rfl]
  rw [this, h1]
  intro h
  cases h with
  | map hg hl =>
    simp only [Ms.get, if_true, Option.some.injEq] at hg
    subst hg
    generalize ha : "a" = a at hl
    cases hl
    simp at ha

/-- C119 fails for empty lists: they are logged like no list, while empty maps are logged as empty. -/
theorem C119_empty_list_false : expand (.list .nil : V String) = .null ∧ expand (.map .nil : V String) = .map .nil := by
  simp [expand, expandList, expandMap]

/-! ## Examples -/

/-- `{'a': [1, {2: 3}]}`. -/
def sample : V Nat := .map (.cons (.string "a") (.list (.cons (.scalar 1) (.cons (.map (.cons (.int 2) (.scalar 3) .nil)) .nil))) .nil)

example : Typed sample := by
  intro es h
  cases h with
  | refl => exact ⟨.cons _ _ (fun _ _ h => by cases h) .nil, .string, fun k w h => by cases h with | head => rfl | tail _ _ h => cases h⟩
  | map he hi =>
    cases he with
    | tail _ _ h => cases h
    | head =>
      cases hi with
      | list hn hi =>
        cases hn with
        | zero => cases hi
        | succ _ hn =>
          cases hn with
          | succ _ hn => cases hn
          | zero =>
            cases hi with
            | refl => exact ⟨.cons _ _ (fun _ _ h => by cases h) .nil, .int, fun k w h => by cases h with | head => rfl | tail _ _ h => cases h⟩
            | map he hi =>
              cases he with
              | head => cases hi
              | tail _ _ h => cases h

example : OLeaf (expand sample) [.key "a", .idx 1, .key "2"] 3 := by
  have : Leaf sample [.key (.string "a"), .idx 1, .key (.int 2)] 3 := .map (.head ..) (.list (.succ _ (.zero ..)) (.map (.head ..) (.here _)))
  simp only [sample, expand, expandList, expandRest, expandMap, Ms.set, Key.text]
  exact .map rfl (.list (.succ _ (.zero ..)) (.map rfl (.here _)))

end Verif.LogVal
