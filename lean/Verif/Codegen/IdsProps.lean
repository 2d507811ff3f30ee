import Verif.Codegen.Ids
import Verif.Codegen.GraphProps

/-! # C36: identifiers -/

namespace Verif.Codegen

/-- Specification: a proto identifier. -/
def Ident (n : Name) : Prop := n ≠ [] ∧ ∀ c ∈ n, c ≠ '.' ∧ c ≠ '/' ∧ c ≠ ':'

/-- Specification: a package is a list of identifiers joined with dots; the empty name is the package of files without one. -/
structure Pkg where
  parts : List Name
  ok : ∀ p ∈ parts, Ident p

def Pkg.text (p : Pkg) : Name := joinDot p.parts

/-- Specification: the full path of names of an object in its package. -/
def Path (p : Pkg) (inside : List Name) : List Name := p.parts ++ inside

theorem split_at (s : Char) (a b ra rb : Name) (ha : s ∉ a) (hb : s ∉ b) (h : a ++ s :: ra = b ++ s :: rb) : a = b ∧ ra = rb := by
  induction a generalizing b with
  | nil =>
    cases b with
    | nil => simpa using h
    | cons c cs => simp only [List.nil_append, List.cons_append, List.cons.injEq] at h; simp [← h.1] at hb
  | cons x xs ih =>
    cases b with
    | nil => simp only [List.nil_append, List.cons_append, List.cons.injEq] at h; simp [h.1] at ha
    | cons c cs =>
      simp only [List.cons_append, List.cons.injEq] at h
      obtain ⟨e1, e2⟩ := ih cs (fun hx => ha (List.mem_cons_of_mem _ hx)) (fun hx => hb (List.mem_cons_of_mem _ hx)) h.2
      exact ⟨by rw [h.1, e1], e2⟩

theorem joinDot_inj (xs ys : List Name) (hx : ∀ x ∈ xs, Ident x) (hy : ∀ y ∈ ys, Ident y) (h : joinDot xs = joinDot ys) : xs = ys := by
  have nodot : ∀ {n}, Ident n → '.' ∉ n := fun hn hc => (hn.2 _ hc).1 rfl
  induction xs generalizing ys with
  | nil =>
    cases ys with
    | nil => rfl
    | cons y ys => cases ys <;> simp [joinDot] at h; exact absurd h (hy y (by simp)).1
  | cons x xs ih =>
    cases ys with
    | nil => cases xs <;> simp [joinDot] at h; exact absurd h (hx x (by simp)).1
    | cons y ys =>
      have hx1 := nodot (hx x (by simp))
      have hy1 := nodot (hy y (by simp))
      cases xs with
      | nil =>
        cases ys with
        | nil => simp only [joinDot] at h; rw [h]
        | cons z zs => simp only [joinDot] at h; rw [h] at hx1; simp at hx1
      | cons z zs =>
        cases ys with
        | nil => simp only [joinDot] at h; rw [← h] at hy1; simp at hy1
        | cons w ws =>
          simp only [joinDot] at h
          obtain ⟨e1, e2⟩ := split_at '.' x y _ _ hx1 hy1 h
          rw [e1, ih (w :: ws) (fun a ha => hx a (by simp [ha])) (fun a ha => hy a (by simp [ha])) e2]

theorem joinDot_append (xs ys : List Name) (hx : xs ≠ []) (hy : ys ≠ []) : joinDot (xs ++ ys) = joinDot xs ++ '.' :: joinDot ys := by
  induction xs with
  | nil => exact absurd rfl hx
  | cons x xs ih =>
    cases xs with
    | nil =>
      cases ys with
      | nil => exact absurd rfl hy
      | cons y ys => rfl
    | cons z zs =>
      have := ih (by simp)
      simp only [List.cons_append] at this ⊢
      rw [joinDot, this]
      · simp [joinDot]
      · simp

/-- An identifier with a package in front: the package and the path. -/
theorem pkg_text (p : Pkg) (ns : List Name) (hn : ns ≠ []) :
    joinDot (p.text :: ns) = if p.parts = [] then '.' :: joinDot ns else joinDot (p.parts ++ ns) := by
  cases ns with
  | nil => exact absurd rfl hn
  | cons n ns =>
    split
    · next h => simp [Pkg.text, h, joinDot]
    · next h => rw [joinDot_append _ _ h (by simp)]; rfl

theorem head_not_dot (xs : List Name) (hx : ∀ x ∈ xs, Ident x) (r : Name) (hn : xs ≠ []) : joinDot xs ≠ '.' :: r := by
  cases xs with
  | nil => exact absurd rfl hn
  | cons x xs =>
    have h := hx x (by simp)
    obtain ⟨c, cs, rfl⟩ := List.exists_cons_of_ne_nil h.1
    have hc := (h.2 c (by simp)).1
    intro e
    cases xs <;> simp [joinDot] at e <;> exact hc e.1

/-- Identifiers built from a package and a path are equal exactly when the packages are both empty or both not, and the full paths are
equal. -/
theorem path_iff (p q : Pkg) (xs ys : List Name) (hx : ∀ x ∈ xs, Ident x) (hy : ∀ y ∈ ys, Ident y) (h1 : xs ≠ []) (h2 : ys ≠ []) :
    joinDot (p.text :: xs) = joinDot (q.text :: ys) ↔ (p.parts = [] ↔ q.parts = []) ∧ Path p xs = Path q ys := by
  have hpx : ∀ x ∈ p.parts ++ xs, Ident x := fun x h => (List.mem_append.1 h).elim (p.ok x) (hx x)
  have hqy : ∀ x ∈ q.parts ++ ys, Ident x := fun x h => (List.mem_append.1 h).elim (q.ok x) (hy x)
  rw [pkg_text p xs h1, pkg_text q ys h2, Path, Path]
  by_cases hp : p.parts = [] <;> by_cases hq : q.parts = []
  · simp only [hp, hq, if_true, List.nil_append, true_and]
    constructor
    · intro h; simp only [List.cons.injEq, true_and] at h; exact joinDot_inj xs ys hx hy h
    · intro h; rw [h]
  · simp only [hp, hq, if_true, if_false, true_iff, iff_false, not_true_eq_false, false_and, not_false_eq_true]
    intro h
    exact head_not_dot _ hqy _ (by simp [hq]) h.symm
  · simp only [hp, hq, if_true, if_false, iff_true, false_and, iff_false]
    intro h
    exact head_not_dot _ hpx _ (by simp [hp]) h
  · simp only [hp, hq, if_false, true_and]
    exact ⟨joinDot_inj _ _ hpx hqy, fun h => by rw [h]⟩

/-- Specification: a message of a package, given by the names of the messages around it and its own. -/
structure MsgObj where
  pkg : Pkg
  parents : List Name
  name : Name
  ok : ∀ n ∈ parents ++ [name], Ident n

def MsgObj.names (m : MsgObj) : MsgName := ⟨m.pkg.text, m.parents, m.name⟩
def MsgObj.inside (m : MsgObj) : List Name := m.parents ++ [m.name]

theorem msg_text (m : MsgObj) : msgId m.names = joinDot (m.pkg.text :: m.inside) := by simp [msgId, MsgObj.names, MsgObj.inside]

/-- C36: two messages have the same identifier exactly when they have the same full name, which no two messages of a proto schema have.
Packages are both named or both not. -/
theorem C36_message_ids (a b : MsgObj) : msgId a.names = msgId b.names ↔ (a.pkg.parts = [] ↔ b.pkg.parts = []) ∧ Path a.pkg a.inside = Path b.pkg b.inside := by
  rw [msg_text, msg_text]
  exact path_iff _ _ _ _ a.ok b.ok (by simp [MsgObj.inside]) (by simp [MsgObj.inside])

theorem member_text (m : MsgObj) (n : Name) : memberId m.names n = joinDot (m.pkg.text :: (m.inside ++ [n])) := by
  rw [memberId, msg_text, show m.pkg.text :: (m.inside ++ [n]) = (m.pkg.text :: m.inside) ++ [n] by rfl, joinDot_append _ _ (by simp) (by simp)]
  rfl

/-- C36: the same for fields and for oneofs: the same message and the same name. -/
theorem C36_member_ids (a b : MsgObj) (x y : Name) (hx : Ident x) (hy : Ident y) : memberId a.names x = memberId b.names y ↔
    msgId a.names = msgId b.names ∧ x = y := by
  rw [member_text, member_text, C36_message_ids, path_iff]
  · simp only [Path, ← List.append_assoc]
    constructor
    · rintro ⟨h1, h2⟩
      have h3 := List.append_inj' h2 rfl
      exact ⟨⟨h1, h3.1⟩, by simpa using h3.2⟩
    · rintro ⟨⟨h1, h2⟩, rfl⟩; exact ⟨h1, by rw [h2]⟩
  · intro z hz; simp only [List.mem_append, List.mem_singleton] at hz; rcases hz with hz | rfl
    · exact a.ok z hz
    · exact hx
  · intro z hz; simp only [List.mem_append, List.mem_singleton] at hz; rcases hz with hz | rfl
    · exact b.ok z hz
    · exact hy
  · simp
  · simp

/-- C36: services and their methods. -/
theorem C36_service_ids (p q : Pkg) (x y : Name) (hx : Ident x) (hy : Ident y) : serviceId p.text x = serviceId q.text y ↔ p.parts = q.parts ∧ x = y := by
  have e : ∀ (p : Pkg) (x : Name), serviceId p.text x = joinDot (p.text :: [x]) := fun p x => rfl
  rw [e, e, path_iff p q [x] [y] (by simpa using hx) (by simpa using hy) (by simp) (by simp)]
  constructor
  · rintro ⟨-, h⟩
    have := List.append_inj' h rfl
    exact ⟨this.1, by simpa using this.2⟩
  · rintro ⟨h, rfl⟩
    exact ⟨by rw [h], by rw [Path, Path, h]⟩

theorem noslash_join (xs : List Name) (hx : ∀ x ∈ xs, Ident x) (c : Char) (hc : c = '/' ∨ c = ':') : c ∉ joinDot xs := by
  have hd : c ≠ '.' := by rcases hc with rfl | rfl <;> decide
  have hn : ∀ {x}, Ident x → c ∉ x := fun h hm => by
    have hk := h.2 c hm
    rcases hc with e | e
    · exact hk.2.1 e
    · exact hk.2.2 e
  induction xs with
  | nil => simp [joinDot]
  | cons x xs ih =>
    have h1 := hn (hx x (by simp))
    have h2 := ih (fun y hy => hx y (by simp [hy]))
    cases xs with
    | nil => simpa [joinDot] using h1
    | cons y ys => simp only [joinDot, List.mem_append, List.mem_cons, not_or]; exact ⟨h1, hd, h2⟩

theorem C36_method_ids (p q : Pkg) (s t x y : Name) (hs : Ident s) (ht : Ident t) :
    methodId p.text s x = methodId q.text t y ↔ (p.parts = q.parts ∧ s = t) ∧ x = y := by
  have ns : ∀ (p : Pkg) (s : Name), Ident s → '/' ∉ serviceId p.text s := by
    intro p s hs
    simp only [serviceId, List.mem_append, List.mem_cons, not_or]
    exact ⟨noslash_join _ p.ok _ (.inl rfl), by decide, fun h => (hs.2 _ h).2.1 rfl⟩
  rw [← C36_service_ids p q s t hs ht]
  constructor
  · intro h; exact split_at '/' _ _ _ _ (ns p s hs) (ns q t ht) h
  · rintro ⟨h, rfl⟩; rw [methodId, methodId, h]

/-- C36: files. Packages have no colons, so the package and the name of a file are known from its identifier. -/
theorem C36_file_ids (p q : Pkg) (x y : Name) : fileId p.text x = fileId q.text y ↔ p.text = q.text ∧ x = y := by
  constructor
  · intro h; exact split_at ':' _ _ _ _ (noslash_join _ p.ok _ (.inr rfl)) (noslash_join _ q.ok _ (.inr rfl)) h
  · rintro ⟨h, rfl⟩; rw [h]

/-- Specification: an enum of a package. -/
structure EnumObj where
  pkg : Pkg
  parents : List Name
  name : Name
  ok : ∀ n ∈ parents ++ [name], Ident n

/-- The names of the enum: the message around it is the last of its parents. -/
def EnumObj.names (e : EnumObj) : EnumName :=
  match e.parents.getLast? with
  | none => .top e.pkg.text e.name
  | some m => .nested ⟨e.pkg.text, e.parents.dropLast, m⟩ e.name

def EnumObj.inside (e : EnumObj) : List Name := e.parents ++ [e.name]

theorem enum_text (e : EnumObj) : enumId e.names = joinDot (e.pkg.text :: e.inside) := by
  simp only [EnumObj.names, EnumObj.inside]
  cases h : e.parents.getLast? with
  | none =>
    have : e.parents = [] := by simpa using h
    simp [enumId, this, joinDot]
  | some m =>
    have hp : e.parents = e.parents.dropLast ++ [m] := by
      have hne : e.parents ≠ [] := fun hn => by simp [hn] at h
      rw [List.getLast?_eq_some_getLast hne] at h
      simp only [Option.some.injEq] at h
      rw [← h, List.dropLast_concat_getLast hne]
    simp only [enumId, msgId]
    rw [List.cons_append, ← hp]
    rw [show e.pkg.text :: (e.parents ++ [e.name]) = (e.pkg.text :: e.parents) ++ [e.name] by rfl, joinDot_append _ _ (by simp) (by simp)]
    rfl

/-- C36: two enums, nested or not, have the same identifier exactly when they have the same full name. -/
theorem C36_enum_ids (a b : EnumObj) : enumId a.names = enumId b.names ↔ (a.pkg.parts = [] ↔ b.pkg.parts = []) ∧ Path a.pkg a.inside = Path b.pkg b.inside := by
  rw [enum_text, enum_text]
  exact path_iff _ _ _ _ a.ok b.ok (by simp [EnumObj.inside]) (by simp [EnumObj.inside])

/-- C36: two values have the same identifier exactly when they have the same name and are of enums with the same identifier. -/
theorem C36_enum_value_ids (a b : EnumObj) (x y : Name) (hx : Ident x) (hy : Ident y) :
    enumValueId a.names x = enumValueId b.names y ↔ enumId a.names = enumId b.names ∧ x = y := by
  have t : ∀ (e : EnumObj) (n : Name), enumValueId e.names n = joinDot (e.pkg.text :: (e.inside ++ [n])) := by
    intro e n
    rw [enumValueId, enum_text, show e.pkg.text :: (e.inside ++ [n]) = (e.pkg.text :: e.inside) ++ [n] by rfl, joinDot_append _ _ (by simp) (by simp)]
    rfl
  rw [t, t, C36_enum_ids, path_iff]
  · simp only [Path, ← List.append_assoc]
    constructor
    · rintro ⟨h1, h2⟩
      have h3 := List.append_inj' h2 rfl
      exact ⟨⟨h1, h3.1⟩, by simpa using h3.2⟩
    · rintro ⟨⟨h1, h2⟩, rfl⟩; exact ⟨h1, by rw [h2]⟩
  · intro z hz; simp only [List.mem_append, List.mem_singleton] at hz; rcases hz with hz | rfl
    · exact a.ok z hz
    · exact hx
  · intro z hz; simp only [List.mem_append, List.mem_singleton] at hz; rcases hz with hz | rfl
    · exact b.ok z hz
    · exact hy
  · simp
  · simp

/-- C36 is false of the code for graphs: those of different messages may have the same identifier, so that a plugin sees the graph of
`p.M` as that of `p.M_a`. -/
theorem C36_graph_ids_false :
    let a : MsgName := ⟨"p".toList, [], "M".toList⟩
    let b : MsgName := ⟨"p".toList, [], "M_a".toList⟩
    msgId a ≠ msgId b ∧ graphId [(a, "a_b".toList)] = graphId [(b, "b".toList)] := by decide

/-- C36 is false of the code for the graphs of one message: a graph only has the names of its roots as identifier, so all graphs of a
message (of its variables, and of the variables of its oneofs and errors) with roots of the same names are seen as the first. -/
theorem C36_graph_roots_false (m : MsgName) (G G' : List (Name × List Name)) (h : G.map (·.1) = G'.map (·.1)) :
    graphId (G.map (fun r => (m, r.1))) = graphId (G'.map (fun r => (m, r.1))) := by
  have e : ∀ l : List (Name × List Name), l.map (fun r => (m, r.1)) = (l.map (·.1)).map (fun n => (m, n)) := by intro l; simp
  rw [e, e, h]

/-- A message of package `a.b` with the name `M`, and a nested enum of it. -/
example : (∀ p ∈ [['a'], ['b']], Ident p) ∧ (∀ n ∈ ([] ++ [['M']] : List Name), Ident n) ∧ (∀ n ∈ ([['M']] ++ [['E']] : List Name), Ident n) := by
  simp [Ident]

end Verif.Codegen
