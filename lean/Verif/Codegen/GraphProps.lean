import Verif.Codegen.Graph
import Verif.TypeConv.Props

/-! # C36: what a plugin receives is what the resolver has built (objects and references) -/

namespace Verif.Codegen
open Verif.TypeConv (visit visits_closed visits_pred)

/-- Specification: the objects that can be reached from the root files. -/
inductive Reach {D : Type} (H : Heap D) (roots : List Nat) : Nat → Prop
  | root (p : Nat) (h : p ∈ roots) : Reach H roots p
  | ref (p : Nat) (r : Ref) (hp : Reach H roots p) (hr : r ∈ (H p).refs) : Reach H roots r.to

/-- The decoder follows the references of the entries like the encoder those of objects. -/
theorem decodeVisit_ok {D : Type} (ref : Key → Option (Entry D)) (children : Key → List Key) (R : Key → Prop)
    (hR : ∀ k, R k → k.2 ≠ [] ∧ ∃ e, ref k = some e ∧ children k = e.refs ∧ ∀ c ∈ e.refs, R c) (n : Nat) :
    ∀ (vis : List Key) (objs : List Key) (out : List (Key × Entry D)) (k : Key), R k →
    out.map (·.1) = objs → (∀ x ∈ out, ref x.1 = some x.2) →
    ∃ out', decodeVisit ref n (vis, out) k = .ok ((visit (fun _ => true) id children n (vis, objs) k).1, out') ∧
      out'.map (·.1) = (visit (fun _ => true) id children n (vis, objs) k).2 ∧ ∀ x ∈ out', ref x.1 = some x.2 := by
  induction n with
  | zero => intro vis objs out k _ h1 h2; exact ⟨out, rfl, h1, h2⟩
  | succ n ih =>
    intro vis objs out k hk h1 h2
    obtain ⟨hne, e, he, hc, hcs⟩ := hR k hk
    simp only [decodeVisit, visit, hne, if_false, Bool.not_true, Bool.false_eq_true, id_eq]
    by_cases hv : k ∈ vis
    · rw [if_pos hv, if_pos hv]
      exact ⟨out, rfl, h1, h2⟩
    · rw [if_neg hv, if_neg hv, he, hc]
      simp only
      have hfold : ∀ (cs : List Key), (∀ c ∈ cs, R c) → ∀ (vis : List Key) (objs : List Key) (out : List (Key × Entry D)),
          out.map (·.1) = objs → (∀ x ∈ out, ref x.1 = some x.2) →
          ∃ out', cs.foldlM (decodeVisit ref n) (vis, out) = .ok ((cs.foldl (visit (fun _ => true) id children n) (vis, objs)).1, out') ∧
            out'.map (·.1) = (cs.foldl (visit (fun _ => true) id children n) (vis, objs)).2 ∧ ∀ x ∈ out', ref x.1 = some x.2 := by
        intro cs
        induction cs with
        | nil => intro _ vis objs out h1 h2; exact ⟨out, rfl, h1, h2⟩
        | cons c cs ihc =>
          intro hcs vis objs out h1 h2
          obtain ⟨o1, e1, m1, r1⟩ := ih vis objs out c (hcs c (by simp)) h1 h2
          obtain ⟨o2, e2, m2, r2⟩ := ihc (fun x hx => hcs x (by simp [hx])) _ _ o1 m1 r1
          refine ⟨o2, ?_, m2, r2⟩
          rw [List.foldlM_cons, e1]
          exact e2
      exact hfold e.refs hcs (k :: vis) (objs ++ [k]) (out ++ [(k, e)]) (by simp [h1]) (by
        intro x hx
        rcases List.mem_append.mp hx with hx | hx
        · exact h2 x hx
        · rw [List.mem_singleton.mp hx]; exact he)

theorem decode_ok {D : Type} (ref : Key → Option (Entry D)) (children : Key → List Key) (R : Key → Prop)
    (hR : ∀ k, R k → k.2 ≠ [] ∧ ∃ e, ref k = some e ∧ children k = e.refs ∧ ∀ c ∈ e.refs, R c) (n : Nat) (roots : List Key) (hroots : ∀ k ∈ roots, R k) :
    ∀ (vis objs : List Key) (out : List (Key × Entry D)), out.map (·.1) = objs → (∀ x ∈ out, ref x.1 = some x.2) →
    ∃ out', roots.foldlM (decodeVisit ref n) (vis, out) = .ok ((roots.foldl (visit (fun _ => true) id children n) (vis, objs)).1, out') ∧
      out'.map (·.1) = (roots.foldl (visit (fun _ => true) id children n) (vis, objs)).2 ∧ ∀ x ∈ out', ref x.1 = some x.2 := by
  induction roots with
  | nil => intro vis objs out h1 h2; exact ⟨out, rfl, h1, h2⟩
  | cons k ks ih =>
    intro vis objs out h1 h2
    obtain ⟨o1, e1, m1, r1⟩ := decodeVisit_ok ref children R hR n vis objs out k (hroots k (by simp)) h1 h2
    obtain ⟨o2, e2, m2, r2⟩ := ih (fun x hx => hroots x (by simp [hx])) _ _ o1 m1 r1
    refine ⟨o2, ?_, m2, r2⟩
    rw [List.foldlM_cons, e1]
    exact e2

theorem lookup_of_mem {α β : Type} [BEq α] [LawfulBEq α] (l : List (α × β)) (a : α) (h : a ∈ l.map (·.1)) : ∃ b, l.lookup a = some b ∧ (a, b) ∈ l := by
  induction l with
  | nil => cases h
  | cons x xs ih =>
    obtain ⟨k, v⟩ := x
    rw [List.lookup_cons]
    by_cases e : (a == k) = true
    · have := eq_of_beq e
      subst this
      exact ⟨v, by simp, by simp⟩
    · simp only [Bool.not_eq_true] at e
      rw [e]
      have : a ∈ xs.map (·.1) := by
        rcases List.mem_cons.mp h with h | h
        · simp only at h; subst h; simp at e
        · exact h
      obtain ⟨b, h1, h2⟩ := ih this
      exact ⟨b, h1, List.mem_cons_of_mem _ h2⟩

/-- C36 (partial: identifiers that tell objects of a kind apart, references that encode): for every heap of
objects, also with cycles, the request can be decoded, and the decoded objects are those that can be reached from
the root files, each with its data and its references, and no others. -/
theorem C36_objects_partial {D : Type} (H : Heap D) (U : List Nat) (hU : ∀ p ∈ U, ∀ r ∈ (H p).refs, r.to ∈ U ∧ r.encodes = true)
    (hid : ∀ p ∈ U, (H p).id ≠ []) (hkey : ∀ p ∈ U, ∀ q ∈ U, keyOf H p = keyOf H q → p = q) (roots : List Nat) (hroots : ∀ p ∈ roots, p ∈ U) :
    let m := encode H (U.length + 1) roots
    ∃ objs, decode m (m.length + 1) (roots.map (keyOf H)) = .ok objs ∧
      (∀ p, Reach H roots p → objs.lookup (keyOf H p) = some (entryOf H p)) ∧
      ∀ x ∈ objs, ∃ p, Reach H roots p ∧ keyOf H p = x.1 := by
  intro m
  -- the encoder
  let enc := (roots.foldl (visit (fun _ => true) (keyOf H) (fun p => ((H p).refs.filter (·.encodes)).map (·.to)) (U.length + 1)) ([], [])).2
  have hchildren : ∀ p ∈ U, ((H p).refs.filter (·.encodes)).map (·.to) = (H p).refs.map (·.to) := by
    intro p hp
    rw [List.filter_eq_self.mpr (fun r hr => (hU p hp r hr).2)]
  have hUc : ∀ p ∈ U, ∀ c ∈ ((H p).refs.filter (·.encodes)).map (·.to), c ∈ U := by
    intro p hp c hc
    rw [hchildren p hp] at hc
    obtain ⟨r, hr, rfl⟩ := List.mem_map.mp hc
    exact (hU p hp r hr).1
  obtain ⟨hr1, hr2⟩ := visits_closed (fun _ => true) (keyOf H) (fun p => ((H p).refs.filter (·.encodes)).map (·.to)) U hUc hkey roots hroots
  have hencU : ∀ p ∈ enc, p ∈ U := visits_pred (fun _ => true) (keyOf H) _ (· ∈ U) hUc roots hroots _ ([], []) (by simp)
  have hencR : ∀ p ∈ enc, Reach H roots p := by
    apply visits_pred (fun _ => true) (keyOf H) _ (Reach H roots) ?_ roots (fun p hp => .root p hp) _ ([], []) (by simp)
    intro p hp c hc
    obtain ⟨r, hr, rfl⟩ := List.mem_map.mp hc
    exact .ref p r hp (List.mem_filter.mp hr).1
  have hreach : ∀ p, Reach H roots p → p ∈ enc := by
    intro p hp
    induction hp with
    | root p h => exact hr1 p h rfl
    | ref p r _ hr ih =>
      refine hr2 p ih r.to ?_ rfl
      rw [hchildren p (hencU p ih)]
      exact List.mem_map.mpr ⟨r, hr, rfl⟩
  have hm : m = enc.map (fun p => (keyOf H p, entryOf H p)) := rfl
  -- lookups
  have hlook : ∀ p ∈ enc, m.lookup (keyOf H p) = some (entryOf H p) := by
    intro p hp
    obtain ⟨b, h1, h2⟩ := lookup_of_mem m (keyOf H p) (by
      rw [hm, List.map_map]; exact List.mem_map.mpr ⟨p, hp, rfl⟩)
    rw [hm] at h2
    obtain ⟨q, hq, e⟩ := List.mem_map.mp h2
    simp only [Prod.mk.injEq] at e
    have := hkey q (hencU q hq) p (hencU p hp) e.1
    subst this
    rw [h1, ← e.2]
  -- the decoder
  let children : Key → List Key := fun k => match m.lookup k with | some e => e.refs | none => []
  let R : Key → Prop := fun k => ∃ p ∈ enc, keyOf H p = k
  have hR : ∀ k, R k → k.2 ≠ [] ∧ ∃ e, m.lookup k = some e ∧ children k = e.refs ∧ ∀ c ∈ e.refs, R c := by
    rintro k ⟨p, hp, rfl⟩
    refine ⟨hid p (hencU p hp), entryOf H p, hlook p hp, ?_, ?_⟩
    · simp only [children, hlook p hp]
    · intro c hc
      obtain ⟨r, hr, rfl⟩ := List.mem_map.mp hc
      exact ⟨r.to, hr2 p hp r.to (by rw [hchildren p (hencU p hp)]; exact List.mem_map.mpr ⟨r, hr, rfl⟩) rfl, rfl⟩
  have hrootsR : ∀ k ∈ roots.map (keyOf H), R k := by
    intro k hk
    obtain ⟨p, hp, rfl⟩ := List.mem_map.mp hk
    exact ⟨p, hr1 p hp rfl, rfl⟩
  obtain ⟨out, ho, hmap, href⟩ := decode_ok (fun k => m.lookup k) children R hR (m.length + 1) (roots.map (keyOf H)) hrootsR [] [] [] rfl (by simp)
  let UK := m.map (·.1)
  have hUKlen : UK.length = m.length := by simp [UK]
  have hUKR : ∀ k, R k ↔ k ∈ UK := by
    intro k
    simp only [R, UK, hm, List.map_map]
    constructor
    · rintro ⟨p, hp, rfl⟩; exact List.mem_map.mpr ⟨p, hp, rfl⟩
    · intro hk
      obtain ⟨p, hp, rfl⟩ := List.mem_map.mp hk
      exact ⟨p, hp, rfl⟩
  have hUKc : ∀ k ∈ UK, ∀ c ∈ children k, c ∈ UK := by
    intro k hk c hc
    obtain ⟨_, e, _, h2, h3⟩ := hR k ((hUKR k).mpr hk)
    rw [h2] at hc
    exact (hUKR c).mp (h3 c hc)
  have hd := visits_closed (fun _ => true) id children UK hUKc (fun _ _ _ _ h => h) (roots.map (keyOf H)) (fun k hk => (hUKR k).mp (hrootsR k hk))
  rw [hUKlen] at hd
  simp only at hd
  rw [← hmap] at hd
  obtain ⟨hd1, hd2⟩ := hd
  refine ⟨out, ?_, ?_, ?_⟩
  · simp only [decode, ho, Except.map]
  · intro p hp
    have hkeys : keyOf H p ∈ out.map (·.1) := by
      induction hp with
      | root p h => exact hd1 _ (List.mem_map.mpr ⟨p, h, rfl⟩) trivial
      | ref p r hp' hr ih =>
        refine hd2 _ ih _ ?_ trivial
        simp only [children, hlook p (hreach p hp')]
        exact List.mem_map.mpr ⟨r, hr, rfl⟩
    obtain ⟨b, h1, h2⟩ := lookup_of_mem out (keyOf H p) hkeys
    have := href _ h2
    simp only [hlook p (hreach p hp), Option.some.injEq] at this
    rw [h1, this]
  · intro x hx
    have : ∀ k ∈ out.map (·.1), R k := by
      rw [hmap]
      exact visits_pred (fun _ => true) id children R (fun k hk c hc => by
        obtain ⟨_, e, _, h2, h3⟩ := hR k hk
        rw [h2] at hc
        exact h3 c hc) _ hrootsR _ ([], []) (by simp)
    obtain ⟨p, hp, e⟩ := this x.1 (List.mem_map.mpr ⟨x, hx, rfl⟩)
    exact ⟨p, hencR p hp, e⟩

theorem joinColon_split (a b : Name) (xs ys : List Name) (ha : ':' ∉ a) (hb : ':' ∉ b) (h : joinColon (a :: xs) = joinColon (b :: ys)) :
    a = b ∧ (xs = [] ↔ ys = []) ∧ joinColon xs = joinColon ys := by
  have key : ∀ (a b ra rb : Name), ':' ∉ a → ':' ∉ b → a ++ ':' :: ra = b ++ ':' :: rb → a = b ∧ ra = rb := by
    intro a
    induction a with
    | nil =>
      intro b ra rb _ hb h
      cases b with
      | nil => simpa using h
      | cons c cs => simp only [List.nil_append, List.cons_append, List.cons.injEq] at h; simp [← h.1] at hb
    | cons x xs ih =>
      intro b ra rb ha hb h
      cases b with
      | nil => simp only [List.nil_append, List.cons_append, List.cons.injEq] at h; simp [h.1] at ha
      | cons c cs =>
        simp only [List.cons_append, List.cons.injEq] at h
        obtain ⟨e1, e2⟩ := ih cs ra rb (fun hx => ha (List.mem_cons_of_mem _ hx)) (fun hx => hb (List.mem_cons_of_mem _ hx)) h.2
        exact ⟨by rw [h.1, e1], e2⟩
  cases xs with
  | nil =>
    cases ys with
    | nil => simp only [joinColon] at h; exact ⟨h, by simp, rfl⟩
    | cons y ys => simp only [joinColon] at h; rw [h] at ha; simp at ha
  | cons x xs =>
    cases ys with
    | nil => simp only [joinColon] at h; rw [← h] at hb; simp at hb
    | cons y ys =>
      simp only [joinColon] at h
      obtain ⟨e1, e2⟩ := key a b _ _ ha hb h
      exact ⟨e1, by simp, e2⟩

theorem joinColon_inj (xs ys : List Name) (hx : ∀ x ∈ xs, ':' ∉ x ∧ x ≠ []) (hy : ∀ y ∈ ys, ':' ∉ y ∧ y ≠ []) (h : joinColon xs = joinColon ys) : xs = ys := by
  induction xs generalizing ys with
  | nil =>
    cases ys with
    | nil => rfl
    | cons y ys => cases ys <;> simp [joinColon] at h; exact absurd h (hy y (by simp)).2
  | cons x xs ih =>
    cases ys with
    | nil => cases xs <;> simp [joinColon] at h; exact absurd h (hx x (by simp)).2
    | cons y ys =>
      obtain ⟨e1, _, e3⟩ := joinColon_split x y xs ys (hx x (by simp)).1 (hy y (by simp)).1 h
      rw [e1, ih ys (fun z hz => hx z (by simp [hz])) (fun z hz => hy z (by simp [hz])) e3]

/-- C36: identifiers of groups tell apart groups of different kinds or definitions, if the names of the
definitions do. -/
theorem C36_group_ids (a b : Bool) (xs ys : List Name) (hx : ∀ x ∈ xs, ':' ∉ x ∧ x ≠ []) (hy : ∀ y ∈ ys, ':' ∉ y ∧ y ≠ [])
    (h : groupId a xs = groupId b ys) : a = b ∧ xs = ys := by
  have hmap : ∀ l : List Name, l.map varDefId = l := fun l => by
    have : varDefId = id := rfl
    rw [this, List.map_id]
  cases a <;> cases b <;> simp only [groupId, hmap, if_true, Bool.false_eq_true, if_false] at h
  · exact ⟨rfl, joinColon_inj xs ys hx hy (by simpa using h)⟩
  · simp at h
  · simp at h
  · exact ⟨rfl, joinColon_inj xs ys hx hy (by simpa using h)⟩

/-! ## Failures -/

/-- Two messages, each with a definition `res`. -/
def twoDefs : Heap String := fun p => match p with
  | 0 => ⟨.file, fileId "p".toList "a.proto".toList, "", [⟨1, true⟩, ⟨2, true⟩]⟩
  | 1 => ⟨.message, "p.A".toList, "A", [⟨3, true⟩]⟩
  | 2 => ⟨.message, "p.B".toList, "B", [⟨4, true⟩]⟩
  | 3 => ⟨.varDef, varDefId "res".toList, "calls GetA", []⟩
  | _ => ⟨.varDef, varDefId "res".toList, "calls GetB", []⟩

/-- C36 is false of the code for definitions of different messages with the same name: both messages get the
definition of the first. -/
theorem C36_same_name_false :
    ∃ objs, decode (encode twoDefs 9 [0]) 9 [keyOf twoDefs 0] = .ok objs ∧
      objs.lookup (.message, "p.B".toList) = some ⟨"B", [(.varDef, "res".toList)]⟩ ∧
      objs.lookup (.varDef, "res".toList) = some ⟨"calls GetA", []⟩ :=
  ⟨_, rfl, by decide, by decide⟩

/-- C36 is false of the code for objects whose identifier is emitted without encoding them: decoding fails. -/
theorem C36_dangling_false :
    let H : Heap String := fun p => match p with
      | 0 => ⟨.file, "p:a.proto".toList, "", [⟨1, true⟩]⟩
      | 1 => ⟨.enum, "p.E".toList, "E", [⟨2, false⟩]⟩
      | _ => ⟨.enum, "q.E".toList, "E", []⟩
    decode (encode H 9 [0]) 9 [keyOf H 0] = .error (.enum, "q.E".toList) := rfl

/-- A cyclic heap meets the hypotheses: a file, a message of the file with a field, which refers back to the message. -/
example :
    let H : Heap String := fun p => match p with
      | 0 => ⟨.file, "p:a.proto".toList, "", [⟨1, true⟩]⟩
      | 1 => ⟨.message, "p.A".toList, "A", [⟨0, true⟩, ⟨2, true⟩]⟩
      | _ => ⟨.field, "p.A.f".toList, "f", [⟨1, true⟩]⟩
    (∀ p ∈ [0, 1, 2], ∀ r ∈ (H p).refs, r.to ∈ [0, 1, 2] ∧ r.encodes = true) ∧ (∀ p ∈ [0, 1, 2], (H p).id ≠ []) ∧
    (∀ p ∈ [0, 1, 2], ∀ q ∈ [0, 1, 2], keyOf H p = keyOf H q → p = q) := by decide

end Verif.Codegen
