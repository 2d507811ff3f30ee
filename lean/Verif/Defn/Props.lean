import Verif.Defn.Model

/-! # C90: go to definition leads to the definition -/

namespace Verif.Defn

open Verif.Compile (Text join abs isAbs split)

/-! ## Specification -/

/-- The qualified name of the declaration at a position. -/
def lookup : List Decl → List Nat → Option QName
  | _, [] => none
  | ds, [i] => ds[i]?.map fun d => [d.name]
  | ds, i :: j :: pos =>
    match ds[i]? with
    | some (.msg n body) => (lookup body (j :: pos)).map (n :: ·)
    | _ => none

/-- The declaration at a position is not an enum of the file itself. -/
def NotTopEnum (ds : List Decl) : List Nat → Prop
  | [i] => ∃ n body, ds[i]? = some (.msg n body)
  | _ => True

/-- How a declared name is written in a file of the package `cur`: without the package in the same one. -/
def written (cur pkg q : QName) : QName := if pkg = cur then q else pkg ++ q

/-! ## Helpers -/

theorem qualify_written {cur pkg q : QName} (h : pkg = cur ∨ pkg ≠ []) : qualify cur pkg q = written cur pkg q := by
  unfold qualify written pkgParts
  by_cases e : pkg = cur
  · rw [if_pos e, if_pos e]
  · rw [if_neg e, if_neg e, if_neg (h.resolve_left e)]

/-- A name without a leading dot is the same in both ways of writing. -/
theorem qualify_ne {cur pkg q n : QName} (hn : n.head? ≠ some []) (h : written cur pkg q ≠ n) : qualify cur pkg q ≠ n := by
  by_cases hp : pkg = cur ∨ pkg ≠ []
  · rwa [qualify_written hp]
  · have h1 : pkg ≠ cur := fun e => hp (.inl e)
    have h2 : pkg = [] := Classical.byContradiction fun e => hp (.inr e)
    unfold qualify pkgParts
    rw [if_neg h1, if_pos h2]
    rintro rfl
    exact hn rfl

theorem qualify_cases (cur pkg q : QName) : qualify cur pkg q = written cur pkg q ∨ pkg = [] ∧ qualify cur pkg q = [] :: q := by
  by_cases hp : pkg = cur ∨ pkg ≠ []
  · exact .inl (qualify_written hp)
  · have h1 : pkg ≠ cur := fun e => hp (.inl e)
    have h2 : pkg = [] := Classical.byContradiction fun e => hp (.inr e)
    refine .inr ⟨h2, ?_⟩
    unfold qualify pkgParts
    rw [if_neg h1, if_pos h2]
    rfl

theorem lookup_cons_succ (d : Decl) (ds : List Decl) (i : Nat) (pos : List Nat) :
    lookup (d :: ds) ((i + 1) :: pos) = lookup ds (i :: pos) := by
  cases pos <;> simp [lookup]

/-- The last part of a found name, with a position. -/
theorem lookup_ne_nil : ∀ (pos : List Nat) (ds : List Decl) (q : QName), lookup ds pos = some q → q ≠ []
  | [], ds, q, h => by simp [lookup] at h
  | [i], ds, q, h => by
    simp only [lookup, Option.map_eq_some_iff] at h
    obtain ⟨d, _, rfl⟩ := h
    simp
  | i :: j :: pos, ds, q, h => by
    simp only [lookup] at h
    split at h
    · obtain ⟨r, _, rfl⟩ := Option.map_eq_some_iff.1 h
      simp
    · cases h

mutual
theorem walkDecl_mem : ∀ (d : Decl) (pre pos : List Nat) (n : Text),
    (pos, n) ∈ walkDecl pre d ↔
      (pos = pre ∧ n = d.name) ∨
        ∃ body rest q, d = .msg d.name body ∧ pos = pre ++ rest ∧ lookup body rest = some q ∧ q.getLast? = some n
  | .enum m, pre, pos, n => by
    simp [walkDecl, Decl.name]
  | .msg m body, pre, pos, n => by
    rw [walkDecl, List.mem_cons, walk_mem body pre 0 pos n]
    constructor
    · rintro (h | ⟨k, rest, q, h1, h2, h3⟩)
      · left; simpa [Decl.name] using h
      · exact .inr ⟨body, k :: rest, q, rfl, by simpa using h1, h2, h3⟩
    · rintro (⟨rfl, rfl⟩ | ⟨b, rest, q, h0, h1, h2, h3⟩)
      · left; rfl
      · simp only [Decl.name, Decl.msg.injEq, true_and] at h0
        subst h0
        cases rest with
        | nil => simp [lookup] at h2
        | cons k rest => exact .inr ⟨k, rest, q, by simpa using h1, h2, h3⟩
theorem walk_mem : ∀ (ds : List Decl) (pre : List Nat) (i : Nat) (pos : List Nat) (n : Text),
    (pos, n) ∈ walk pre i ds ↔
      ∃ (k : Nat) (rest : List Nat) (q : QName), pos = pre ++ (i + k) :: rest ∧ lookup ds (k :: rest) = some q ∧
        q.getLast? = some n
  | [], pre, i, pos, n => by
    constructor
    · intro h; simp [walk] at h
    · rintro ⟨k, rest, q, _, h, _⟩
      cases rest <;> simp [lookup] at h
  | d :: ds, pre, i, pos, n => by
    rw [walk, List.mem_append, walkDecl_mem d, walk_mem ds]
    constructor
    · rintro ((⟨rfl, rfl⟩ | ⟨body, rest, q, h0, h1, h2, h3⟩) | ⟨k, rest, q, h1, h2, h3⟩)
      · exact ⟨0, [], [d.name], by simp, by simp [lookup], by simp⟩
      · refine ⟨0, rest, d.name :: q, by simpa using h1, ?_, ?_⟩
        · cases rest with
          | nil => simp [lookup] at h2
          | cons j rest =>
            rw [h0]
            simp only [lookup, List.getElem?_cons_zero, h2, Option.map_some, Decl.name]
        · cases q with
          | nil => exact absurd rfl (lookup_ne_nil _ _ _ h2)
          | cons a as => rw [List.getLast?_cons_cons]; exact h3
      · refine ⟨k + 1, rest, q, by rw [h1]; congr 2; omega, ?_, h3⟩
        rw [lookup_cons_succ]; exact h2
    · rintro ⟨k, rest, q, h1, h2, h3⟩
      cases k with
      | succ k =>
        rw [lookup_cons_succ] at h2
        exact .inr ⟨k, rest, q, by rw [h1]; congr 2; omega, h2, h3⟩
      | zero =>
        left
        cases rest with
        | nil =>
          simp [lookup] at h2
          subst h2
          simp at h3
          exact .inl ⟨by simpa using h1, h3.symm⟩
        | cons j rest =>
          cases d with
          | enum m => simp [lookup] at h2
          | msg m body =>
            simp only [lookup, List.getElem?_cons_zero, Option.map_eq_some_iff] at h2
            obtain ⟨r, hr, rfl⟩ := h2
            refine .inr ⟨body, j :: rest, r, rfl, by simpa using h1, hr, ?_⟩
            cases r with
            | nil => exact absurd rfl (lookup_ne_nil _ _ _ hr)
            | cons a as => rw [List.getLast?_cons_cons] at h3; exact h3
end

theorem walk_iff (ds : List Decl) (pos : List Nat) (n : Text) :
    (pos, n) ∈ walk [] 0 ds ↔ ∃ q, lookup ds pos = some q ∧ q.getLast? = some n := by
  rw [walk_mem]
  constructor
  · rintro ⟨k, rest, q, h1, h2, h3⟩
    refine ⟨q, ?_, h3⟩
    rw [h1]; simpa using h2
  · rintro ⟨q, h1, h2⟩
    cases pos with
    | nil => simp [lookup] at h1
    | cons k rest => exact ⟨k, rest, q, by simp, h1, h2⟩

theorem findDecl_some {ds : List Decl} {n : Text} {pos : List Nat} (h : findDecl ds n = some pos) :
    ∃ q, lookup ds pos = some q ∧ q.getLast? = some n := by
  unfold findDecl at h
  obtain ⟨⟨pos', n'⟩, hx, rfl⟩ := Option.map_eq_some_iff.1 h
  have hm := List.mem_of_getLast? hx
  rw [List.mem_filter] at hm
  have : n' = n := by simpa using hm.2
  subst this
  exact (walk_iff ds pos' n').1 hm.1

theorem findDecl_unique {ds : List Decl} {pos : List Nat} {q : QName} {n : Text} (h : lookup ds pos = some q)
    (hq : q.getLast? = some n)
    (hu : ∀ pos' q', lookup ds pos' = some q' → q'.getLast? = some n → pos' = pos) : findDecl ds n = some pos := by
  cases hf : findDecl ds n with
  | some pos' =>
    obtain ⟨q', h1, h2⟩ := findDecl_some hf
    rw [hu pos' q' h1 h2]
  | none =>
    exfalso
    unfold findDecl at hf
    rw [Option.map_eq_none_iff, List.getLast?_eq_none_iff, List.filter_eq_nil_iff] at hf
    exact hf (pos, n) ((walk_iff ds pos n).2 ⟨q, h, hq⟩) (by simp)

theorem msgNames_mem {ds : List Decl} {d : Decl} (hd : d ∈ ds) {q : QName} (hq : q ∈ declNames d) : q ∈ msgNames ds := by
  induction ds with
  | nil => cases hd
  | cons e es ih =>
    rw [msgNames, List.mem_append]
    rcases List.mem_cons.1 hd with rfl | h
    · exact .inl hq
    · exact .inr (ih h)

theorem enumNames_mem {ds : List Decl} {n : Text} (h : Decl.enum n ∈ ds) : n ∈ enumNames ds := by
  induction ds with
  | nil => cases h
  | cons e es ih =>
    rcases List.mem_cons.1 h with h | h
    · subst h; simp [enumNames]
    · have := ih h
      cases e <;> simp [enumNames, this]

theorem declared_names : ∀ (pos : List Nat) (ds : List Decl) (q : QName), lookup ds pos = some q →
    NotTopEnum ds pos → q ∈ msgNames ds
  | [], ds, q, h, _ => by simp [lookup] at h
  | [i], ds, q, h, ⟨n, body, hd⟩ => by
    simp only [lookup, hd, Option.map_some, Option.some.injEq, Decl.name] at h
    subst h
    refine msgNames_mem (List.mem_of_getElem? hd) ?_
    simp [declNames]
  | i :: j :: pos, ds, q, h, _ => by
    simp only [lookup] at h
    split at h
    · rename_i n body hd
      obtain ⟨r, hr, rfl⟩ := Option.map_eq_some_iff.1 h
      refine msgNames_mem (List.mem_of_getElem? hd) ?_
      rw [declNames, List.mem_cons, List.mem_append]
      right
      cases pos with
      | cons k pos => exact .inl (List.mem_map.2 ⟨r, declared_names (j :: k :: pos) body r hr trivial, rfl⟩)
      | nil =>
        cases hj : body[j]? with
        | none => simp [lookup, hj] at hr
        | some d =>
          cases d with
          | msg m b => exact .inl (List.mem_map.2 ⟨r, declared_names [j] body r hr ⟨m, b, hj⟩, rfl⟩)
          | enum m =>
            simp [lookup, hj, Decl.name] at hr
            subst hr
            exact .inr (List.mem_map.2 ⟨m, enumNames_mem (List.mem_of_getElem? hj), rfl⟩)
    · cases h

theorem enumNames_iff {ds : List Decl} {n : Text} (h : n ∈ enumNames ds) : Decl.enum n ∈ ds := by
  induction ds with
  | nil => cases h
  | cons e es ih =>
    cases e with
    | msg m b => exact List.mem_cons_of_mem _ (ih h)
    | enum m =>
      rcases List.mem_cons.1 h with h | h
      · subst h; simp
      · exact List.mem_cons_of_mem _ (ih h)

mutual
theorem declNames_declared : (d : Decl) → (q : QName) → q ∈ declNames d →
    ∃ n body, d = .msg n body ∧ (q = [n] ∨ ∃ pos r, lookup body pos = some r ∧ q = n :: r)
  | .enum _, q, h => by simp [declNames] at h
  | .msg n body, q, h => by
    rw [declNames, List.mem_cons, List.mem_append, List.mem_map, List.mem_map] at h
    refine ⟨n, body, rfl, ?_⟩
    rcases h with h | h
    · exact .inl h
    rcases h with ⟨r, hr, rfl⟩ | ⟨e, he, rfl⟩
    · obtain ⟨pos, hp, _⟩ := msgNames_declared body r hr
      exact .inr ⟨pos, r, hp, rfl⟩
    · obtain ⟨i, hi⟩ := List.getElem?_of_mem (enumNames_iff he)
      exact .inr ⟨[i], [e], by simp [lookup, hi, Decl.name], rfl⟩
theorem msgNames_declared : (ds : List Decl) → (q : QName) → q ∈ msgNames ds →
    ∃ pos, lookup ds pos = some q ∧ NotTopEnum ds pos
  | [], q, h => by simp [msgNames] at h
  | d :: ds, q, h => by
    rw [msgNames, List.mem_append] at h
    rcases h with h | h
    · obtain ⟨n, body, hd, hq⟩ := declNames_declared d q h
      clear h
      subst hd
      rcases hq with rfl | ⟨pos, r, hr, rfl⟩
      · exact ⟨[0], by simp [lookup, Decl.name], n, body, rfl⟩
      · cases pos with
        | nil => simp [lookup] at hr
        | cons j pos => exact ⟨0 :: j :: pos, by simp [lookup, hr], trivial⟩
    · obtain ⟨pos, hp, he⟩ := msgNames_declared ds q h
      cases pos with
      | nil => simp [lookup] at hp
      | cons i pos =>
        refine ⟨(i + 1) :: pos, by rw [lookup_cons_succ]; exact hp, ?_⟩
        cases pos with
        | nil => exact he
        | cons j pos => trivial
end

theorem typeLoop_skip (w : World) (cur name : QName) (p : Text) (f : File) (post : List File)
    (hp : filePath w f = some p) (hn : name ∈ (msgNames f.decls).map (qualify cur f.pkg)) :
    ∀ pre : List File, (∀ g ∈ pre, filePath w g = none ∨ name ∉ (msgNames g.decls).map (qualify cur g.pkg)) →
      typeLoop w cur name (pre ++ f :: post) = some p
  | [], _ => by simp only [List.nil_append, typeLoop, hp]; rw [if_pos hn]
  | g :: gs, hpre => by
    have ih := typeLoop_skip w cur name p f post hp hn gs fun x hx => hpre x (List.mem_cons_of_mem _ hx)
    rw [List.cons_append, typeLoop]
    cases hg : filePath w g with
    | none => exact ih
    | some p' =>
      simp only
      rw [if_neg ((hpre g (by simp)).resolve_left (by rw [hg]; simp))]
      exact ih

theorem typeLoop_some (w : World) (cur name : QName) (p : Text) : ∀ files : List File,
    typeLoop w cur name files = some p →
      ∃ f ∈ files, filePath w f = some p ∧ ∃ q ∈ msgNames f.decls, name = qualify cur f.pkg q
  | [], h => by simp [typeLoop] at h
  | f :: fs, h => by
    rw [typeLoop] at h
    cases hp : filePath w f with
    | none =>
      rw [hp] at h
      obtain ⟨g, hg, r⟩ := typeLoop_some w cur name p fs h
      exact ⟨g, List.mem_cons_of_mem _ hg, r⟩
    | some p' =>
      rw [hp] at h
      simp only at h
      split at h
      · rename_i hm
        cases h
        obtain ⟨q, hq, he⟩ := List.mem_map.1 hm
        exact ⟨f, by simp, hp, q, hq, he.symm⟩
      · obtain ⟨g, hg, r⟩ := typeLoop_some w cur name p fs h
        exact ⟨g, List.mem_cons_of_mem _ hg, r⟩

theorem qualify_last (cur pkg q : QName) (h : q ≠ []) : (qualify cur pkg q).getLast? = q.getLast? := by
  unfold qualify
  split
  · rfl
  · rw [List.getLast?_append]
    cases hq : q.getLast? with
    | none => exact absurd (List.getLast?_eq_none_iff.1 hq) h
    | some x => rfl

/-! ## Types -/

/-- C90: a type leads to its declaration, if it is not an enum of the file itself, its file is the one that is found
for it and is saved, no other file before it has the name, no other declaration of the file has the same last
part, and the file has a package or that of the document.  Missing: see the theorems below. -/
theorem C90_type_partial (w : World) (pre : List File) (f : File) (post : List File) (cur : QName) (p : Text)
    (pos : List Nat) (q : QName)
    (hdecl : lookup f.decls pos = some q) (henum : NotTopEnum f.decls pos)
    (hcur : currentPackage w (pre ++ f :: post) = some cur)
    (hfile : filePath w f = some p) (hsaved : (w.disk p).map (·.1) = some f.decls)
    (hpkg : f.pkg = cur ∨ f.pkg ≠ []) (hdot : (written cur f.pkg q).head? ≠ some [])
    (hfirst : ∀ g ∈ pre, ∀ pos' q', lookup g.decls pos' = some q' → NotTopEnum g.decls pos' →
      written cur g.pkg q' ≠ written cur f.pkg q)
    (hu : ∀ pos' q', lookup f.decls pos' = some q' → q'.getLast? = q.getLast? → pos' = pos) :
    findType w (pre ++ f :: post) (written cur f.pkg q) = some (p, pos) := by
  rw [← qualify_written hpkg]
  have hne := lookup_ne_nil _ _ _ hdecl
  have hl := typeLoop_skip w cur (qualify cur f.pkg q) p f post hfile
    (List.mem_map.2 ⟨q, declared_names pos f.decls q hdecl henum, rfl⟩) pre fun g hg => by
      right
      intro hm
      obtain ⟨q', hq', he⟩ := List.mem_map.1 hm
      obtain ⟨pos', h1, h2⟩ := msgNames_declared g.decls q' hq'
      rw [qualify_written hpkg] at he
      exact qualify_ne hdot (hfirst g hg pos' q' h1 h2) he
  unfold findType
  simp only [hcur, hl]
  cases hd : w.disk p with
  | none => rw [hd] at hsaved; cases hsaved
  | some x =>
    rw [hd] at hsaved
    simp only [Option.map_some, Option.some.injEq] at hsaved
    simp only [hsaved]
    cases hq : q.getLast? with
    | none => exact absurd (List.getLast?_eq_none_iff.1 hq) hne
    | some n =>
      rw [qualify_last cur f.pkg q hne, hq]
      rw [show (some n : Option Text).getD [] = n from rfl,
        findDecl_unique hdecl hq fun pos' q' h1 h2 => hu pos' q' h1 (by rw [h2, hq])]
      rfl

/-- C90: whatever is found for a type is a declaration with its last part, in a file that declares the type. -/
theorem C90_found (w : World) (files : List File) (name : QName) (p : Text) (pos : List Nat)
    (h : findType w files name = some (p, pos)) :
    ∃ f ∈ files, filePath w f = some p ∧ (∃ cur, currentPackage w files = some cur ∧
      ∃ pos' q, lookup f.decls pos' = some q ∧ NotTopEnum f.decls pos' ∧
        (name = written cur f.pkg q ∨ f.pkg = [] ∧ name = [] :: q)) ∧
      ∃ decls svcs q, w.disk p = some (decls, svcs) ∧ lookup decls pos = some q ∧ q.getLast? = some (name.getLast?.getD []) := by
  unfold findType at h
  cases hc : currentPackage w files with
  | none => rw [hc] at h; cases h
  | some cur =>
    rw [hc] at h
    simp only at h
    cases hl : typeLoop w cur name files with
    | none => rw [hl] at h; cases h
    | some p' =>
      rw [hl] at h
      simp only at h
      cases hd : w.disk p' with
      | none => rw [hd] at h; cases h
      | some x =>
        obtain ⟨decls, svcs⟩ := x
        rw [hd] at h
        obtain ⟨pos', hf, he⟩ := Option.map_eq_some_iff.1 h
        cases he
        obtain ⟨f, hf', h1, r, hr, he⟩ := typeLoop_some w cur name p files hl
        obtain ⟨q, h3, h4⟩ := findDecl_some hf
        obtain ⟨pos'', h5, h6⟩ := msgNames_declared f.decls r hr
        have h7 := qualify_cases cur f.pkg r
        rw [← he] at h7
        exact ⟨f, hf', h1, ⟨cur, rfl, pos'', r, h5, h6, h7⟩, decls, svcs, q, hd, h3, h4⟩

/-! Witnesses -/

private def t (s : String) : Text := s.toList

/-- A server with one import path. -/
def world (path : Text) (files : List (Text × List Decl × List Service)) : World :=
  ⟨path, [t "/w"], t "/", fun p => (files.find? fun x => x.1 = p).map (·.2)⟩

def twoB : List Decl := [.msg (t "A") [.msg (t "B") []], .msg (t "C") [.msg (t "B") []]]

example : findType (world (t "/w/x.proto") [(t "/w/x.proto", twoB, [])]) [⟨t "x.proto", [t "p"], twoB, []⟩] [t "A"] =
    some (t "/w/x.proto", [0]) := by decide

/-- The hypotheses of `C90_type_partial` hold for a type of an imported file. -/
example : ∃ (w : World) (g f : File) (cur : QName),
    lookup f.decls [1, 0] = some [t "C", t "D"] ∧ NotTopEnum f.decls [1, 0] ∧ currentPackage w [g, f] = some cur ∧
    filePath w f = some (t "/w/y.proto") ∧ (w.disk (t "/w/y.proto")).map (·.1) = some f.decls ∧
    (f.pkg = cur ∨ f.pkg ≠ []) ∧ (written cur f.pkg [t "C", t "D"]).head? ≠ some [] ∧
    (∀ h ∈ [g], ∀ pos' q', lookup h.decls pos' = some q' → NotTopEnum h.decls pos' →
      written cur h.pkg q' ≠ written cur f.pkg [t "C", t "D"]) ∧
    findType w [g, f] (written cur f.pkg [t "C", t "D"]) = some (t "/w/y.proto", [1, 0]) := by
  refine ⟨world (t "/w/x.proto") [(t "/w/x.proto", [], []), (t "/w/y.proto", [.enum (t "E"), .msg (t "C") [.enum (t "D")]], [])],
    ⟨t "x.proto", [t "p"], [], []⟩, ⟨t "y.proto", [t "q"], [.enum (t "E"), .msg (t "C") [.enum (t "D")]], []⟩, [t "p"],
    by decide, trivial, by decide, by decide, rfl, by decide, by decide, ?_, by decide⟩
  intro h hh pos' q' hq' _
  simp at hh
  subst hh
  match pos', hq' with
  | [], h => simp [lookup] at h
  | [i], h => simp [lookup] at h
  | i :: j :: pos, h => simp [lookup] at h

/-- C90 is false of the code for types of the same last part in one file: `A.B` leads to `C.B`. -/
theorem C90_same_name_false :
    ∃ (w : World) (f : File), (w.disk w.path).map (·.1) = some f.decls ∧ lookup f.decls [0, 0] = some [t "A", t "B"] ∧
      lookup f.decls [1, 0] = some [t "C", t "B"] ∧ findType w [f] [t "A", t "B"] = some (w.path, [1, 0]) :=
  ⟨world (t "/w/x.proto") [(t "/w/x.proto", twoB, [])], ⟨t "x.proto", [t "p"], twoB, []⟩, rfl, by decide, by decide, by decide⟩

/-- C90 is false of the code for enums of a file itself: they are not found. -/
theorem C90_enum_false :
    ∃ (w : World) (f : File), (w.disk w.path).map (·.1) = some f.decls ∧ lookup f.decls [0] = some [t "E"] ∧
      findType w [f] [t "E"] = none :=
  ⟨world (t "/w/x.proto") [(t "/w/x.proto", [.enum (t "E")], [])], ⟨t "x.proto", [t "p"], [.enum (t "E")], []⟩, rfl,
    by decide, by decide⟩

/-- C90: the type of a field leads to its declaration in the message around the field, if that message declares it,
and otherwise to its declaration in the file, under the conditions of `C90_type_partial` for the document.  Missing:
messages further out, see `C90_field_false`. -/
theorem C90_field_partial (w : World) (pre : List File) (f : File) (post : List File) (p : Text) (pos : List Nat)
    (scope name q : QName)
    (hdecl : lookup f.decls pos = some q) (henum : NotTopEnum f.decls pos)
    (hq : q = scope ++ name ∨ q = name ∧ (scope ++ name).head? ≠ some [] ∧ ∀ g ∈ pre ++ f :: post, ∀ pos' q',
      lookup g.decls pos' = some q' → NotTopEnum g.decls pos' → written f.pkg g.pkg q' ≠ scope ++ name)
    (hcur : currentPackage w (pre ++ f :: post) = some f.pkg)
    (hfile : filePath w f = some p) (hsaved : (w.disk p).map (·.1) = some f.decls)
    (hdot : q.head? ≠ some [])
    (hfirst : ∀ g ∈ pre, ∀ pos' q', lookup g.decls pos' = some q' → NotTopEnum g.decls pos' → written f.pkg g.pkg q' ≠ q)
    (hu : ∀ pos' q', lookup f.decls pos' = some q' → q'.getLast? = q.getLast? → pos' = pos) :
    findFieldType w (pre ++ f :: post) scope name = some (p, pos) := by
  have hown : written f.pkg f.pkg q = q := if_pos rfl
  have hmain := C90_type_partial w pre f post f.pkg p pos q hdecl henum hcur hfile hsaved
    (.inl rfl) (by rw [hown]; exact hdot) (by rw [hown]; exact hfirst) hu
  rw [hown] at hmain
  unfold findFieldType
  rcases hq with rfl | ⟨rfl, hdot', hno⟩
  · rw [hmain]
  · cases h : findType w (pre ++ f :: post) (scope ++ q) with
    | none => exact hmain
    | some l =>
      exfalso
      obtain ⟨g, hg, _, ⟨cur, hc, pos', q', hq', ht, he⟩, _⟩ := C90_found w _ _ l.1 l.2 h
      rw [hcur] at hc
      cases hc
      rcases he with he | ⟨_, he⟩
      · exact hno g hg pos' q' hq' ht he.symm
      · rw [he] at hdot'
        exact hdot' rfl

/-- Both cases: `B` within `A`, and `C` of the file. -/
example :
    findFieldType (world (t "/w/x.proto") [(t "/w/x.proto", [.msg (t "A") [.msg (t "B") []], .msg (t "C") []], [])])
      [⟨t "x.proto", [t "p"], [.msg (t "A") [.msg (t "B") []], .msg (t "C") []], []⟩] [t "A"] [t "B"] =
      some (t "/w/x.proto", [0, 0]) ∧
    findFieldType (world (t "/w/x.proto") [(t "/w/x.proto", [.msg (t "A") [.msg (t "B") []], .msg (t "C") []], [])])
      [⟨t "x.proto", [t "p"], [.msg (t "A") [.msg (t "B") []], .msg (t "C") []], []⟩] [t "A"] [t "C"] =
      some (t "/w/x.proto", [1]) := by decide

/-- C90 is false of the code for types of a message further out: for a field of `A.B` with the type `D`, the type
`A.D` is meant, and `D` of the file is found. -/
theorem C90_field_false :
    ∃ (w : World) (f : File), (w.disk w.path).map (·.1) = some f.decls ∧
      lookup f.decls [0, 0] = some [t "A", t "B"] ∧ lookup f.decls [0, 1] = some [t "A", t "D"] ∧
      lookup f.decls [1] = some [t "D"] ∧ findFieldType w [f] [t "A", t "B"] [t "D"] = some (w.path, [1]) :=
  ⟨world (t "/w/x.proto") [(t "/w/x.proto", [.msg (t "A") [.msg (t "B") [], .msg (t "D") []], .msg (t "D") []], [])],
    ⟨t "x.proto", [t "p"], [.msg (t "A") [.msg (t "B") [], .msg (t "D") []], .msg (t "D") []], []⟩, rfl,
    by decide, by decide, by decide, by decide⟩

/-- C90 is false of the code for types written with the package of the file: they are not found. -/
theorem C90_own_package_false :
    ∃ (w : World) (f : File), (w.disk w.path).map (·.1) = some f.decls ∧ f.pkg = [t "p"] ∧
      findType w [f] [t "A"] = some (w.path, [0]) ∧ findType w [f] [t "p", t "A"] = none :=
  ⟨world (t "/w/x.proto") [(t "/w/x.proto", twoB, [])], ⟨t "x.proto", [t "p"], twoB, []⟩, rfl, rfl, by decide, by decide⟩

/-- C90 is false of the code for an imported file whose name is the end of the path of the document: the package of
the document is taken from it, and a type of it leads into the document. -/
theorem C90_package_false :
    ∃ (w : World) (g f : File), w.path = t "/w/x/user.proto" ∧ f.name = t "x/user.proto" ∧ g.name = t "user.proto" ∧
      (w.disk (t "/w/x/user.proto")).map (·.1) = some f.decls ∧ (w.disk (t "/w/user.proto")).map (·.1) = some g.decls ∧
      f.pkg ≠ g.pkg ∧ currentPackage w [g, f] = some g.pkg ∧
      lookup f.decls [1] = some [t "Post"] ∧ findType w [g, f] [t "Post"] = none ∧
      filePath w g = some w.path := by
  refine ⟨world (t "/w/x/user.proto") [(t "/w/x/user.proto", [.msg (t "Get") [], .msg (t "Post") []], []),
      (t "/w/user.proto", [.msg (t "User") []], [])],
    ⟨t "user.proto", [t "q"], [.msg (t "User") []], []⟩,
    ⟨t "x/user.proto", [t "p"], [.msg (t "Get") [], .msg (t "Post") []], []⟩, rfl, rfl, rfl, rfl, rfl, ?_⟩
  decide

/-- C90 is false of the code for types of files without a package: from a file with a package they are not found. -/
theorem C90_no_package_false :
    ∃ (w : World) (g f : File), filePath w g = some (t "/w/y.proto") ∧ (w.disk (t "/w/y.proto")).map (·.1) = some g.decls ∧
      lookup g.decls [0] = some [t "User"] ∧ findType w [g, f] (written f.pkg g.pkg [t "User"]) = none :=
  ⟨world (t "/w/x.proto") [(t "/w/x.proto", [], []), (t "/w/y.proto", [.msg (t "User") []], [])],
    ⟨t "y.proto", [], [.msg (t "User") []], []⟩, ⟨t "x.proto", [t "p"], [], []⟩, by decide, rfl, by decide, by decide⟩

/-- C90 is false of the code for texts that are not saved: the declaration is searched in the file on the disk. -/
theorem C90_unsaved_false :
    ∃ (w : World) (f : File), w.path = t "/w/x.proto" ∧ lookup f.decls [1] = some [t "B"] ∧
      lookup f.decls [0] = some [t "A"] ∧ findType w [f] [t "B"] = some (w.path, [0]) :=
  ⟨world (t "/w/x.proto") [(t "/w/x.proto", [.msg (t "B") []], [])],
    ⟨t "x.proto", [t "p"], [.msg (t "A") [], .msg (t "B") []], []⟩, rfl, by decide, by decide, by decide⟩

/-- C90 is false of the code for files that are not below an import path of the server: without import paths, a file
in the directory of the document is compiled, but no type of it is found; nor is one of the document itself. -/
theorem C90_directory_false :
    ∃ (w : World) (g f : File) (cw : Verif.Compile.World Unit) (src : Verif.Compile.Source Unit),
      w.importPaths = [] ∧ src.path = w.path ∧ cw.cwd = w.cwd ∧ (∀ p, (cw.disk p).isSome = (w.disk p).isSome) ∧
      Verif.Compile.find cw false w.importPaths src g.name = some () ∧
      Verif.Compile.relativePath cw.cwd src.path w.importPaths = f.name ∧
      lookup g.decls [0] = some [t "User"] ∧ findType w [g, f] (written f.pkg g.pkg [t "User"]) = none ∧
      lookup f.decls [0] = some [t "Post"] ∧ findType w [g, f] [t "Post"] = none := by
  refine ⟨⟨t "/w/x.proto", [], t "/", fun p => if p = t "/w/x.proto" ∨ p = t "/w/y.proto" then some ([], []) else none⟩,
    ⟨t "y.proto", [t "q"], [.msg (t "User") []], []⟩, ⟨t "/w/x.proto", [t "p"], [.msg (t "Post") []], []⟩,
    ⟨fun p => if p = t "/w/x.proto" ∨ p = t "/w/y.proto" then some () else none, t "/", [], fun _ => none⟩,
    ⟨t "/w/x.proto", (), [], []⟩, rfl, rfl, rfl, ?_, by decide, by decide, by decide, by decide, by decide, by decide⟩
  intro p
  show (if _ then _ else _ : Option Unit).isSome = (if _ then _ else _ : Option (List Decl × List Service)).isSome
  split <;> rfl

/-! ## Files -/

/-- C90: the path of an imported file is below the first import path that has a file of its name, if its name is not
that of the document without its directories.  Missing: see `C90_package_false` and `C90_directory_false`. -/
theorem C90_path_partial (w : World) (f : File) (p : Text) (hbase : base w.path ≠ f.name)
    (habs : ∀ i ∈ w.importPaths, isAbs (join i f.name) = true) :
    filePath w f = some p ↔
      ∃ pre i post, w.importPaths = pre ++ i :: post ∧ p = join i f.name ∧ (w.disk p).isSome ∧
        ∀ j ∈ pre, w.disk (join j f.name) = none := by
  have hmap : (w.importPaths.map fun i => if isAbs (join i f.name) then join i f.name else abs w.cwd (join i f.name)) =
      w.importPaths.map fun i => join i f.name := List.map_congr_left fun i hi => if_pos (habs i hi)
  unfold filePath
  rw [if_neg hbase, hmap]
  generalize w.importPaths = l
  induction l with
  | nil => simp
  | cons a l ih =>
    rw [List.map_cons, List.find?_cons]
    cases ha : (w.disk (join a f.name)).isSome with
    | true =>
      simp only [Option.some.injEq]
      constructor
      · rintro rfl
        exact ⟨[], a, l, rfl, rfl, ha, by simp⟩
      · rintro ⟨pre, i, post, he, rfl, _, hpre⟩
        cases pre with
        | nil =>
          rw [List.nil_append, List.cons.injEq] at he
          rw [he.1]
        | cons b bs =>
          rw [List.cons_append, List.cons.injEq] at he
          have := hpre b (by simp)
          rw [← he.1] at this
          rw [this] at ha
          cases ha
    | false =>
      refine Iff.trans ih ?_
      constructor
      · rintro ⟨pre, i, post, rfl, h2, h3, h4⟩
        refine ⟨a :: pre, i, post, rfl, h2, h3, ?_⟩
        intro j hj
        rcases List.mem_cons.1 hj with rfl | hj
        · simpa using ha
        · exact h4 j hj
      · rintro ⟨pre, i, post, he, h2, h3, h4⟩
        cases pre with
        | nil =>
          rw [List.nil_append, List.cons.injEq] at he
          rw [h2, ← he.1, ha] at h3
          cases h3
        | cons b bs =>
          rw [List.cons_append, List.cons.injEq] at he
          exact ⟨bs, i, post, he.2, h2, h3, fun j hj => h4 j (List.mem_cons_of_mem _ hj)⟩

/-- A file below the second import path. -/
example : filePath ⟨t "/w/x.proto", [t "/v", t "/w"], t "/", fun p => if p = t "/w/a/y.proto" then some ([], []) else none⟩
    ⟨t "a/y.proto", [], [], []⟩ = some (t "/w/a/y.proto") :=
  (C90_path_partial _ _ _ (by decide) (by decide)).2 ⟨[t "/v"], t "/w", [], rfl, by decide, by decide, by decide⟩

/-! ## Methods -/

theorem methodsFrom_mem : ∀ (ss : List Service) (i : Nat) (pos : List Nat) (svc m : Text),
    (pos, svc, m) ∈ methodsFrom i ss ↔
      ∃ (k j : Nat) (s : Service), pos = [i + k, j] ∧ ss[k]? = some s ∧ s.name = svc ∧ s.methods[j]? = some m
  | [], i, pos, svc, m => by simp [methodsFrom]
  | s :: ss, i, pos, svc, m => by
    rw [methodsFrom, List.mem_append, methodsFrom_mem ss (i + 1)]
    constructor
    · rintro (h | ⟨k, j, s', h1, h2, h3, h4⟩)
      · obtain ⟨⟨m', j⟩, hm, he⟩ := List.mem_map.1 h
        have := List.mk_mem_zipIdx_iff_getElem?.1 hm
        simp only [Prod.mk.injEq] at he
        obtain ⟨rfl, rfl, rfl⟩ := he
        exact ⟨0, j, s, by simp, by simp, rfl, this⟩
      · exact ⟨k + 1, j, s', by rw [h1]; congr 1; omega, by simpa using h2, h3, h4⟩
    · rintro ⟨k, j, s', h1, h2, h3, h4⟩
      cases k with
      | zero =>
        simp at h2
        subst h2
        exact .inl (List.mem_map.2 ⟨(m, j), List.mk_mem_zipIdx_iff_getElem?.2 h4, by simp [h1, h3]⟩)
      | succ k => exact .inr ⟨k, j, s', by rw [h1]; congr 1; omega, by simpa using h2, h3, h4⟩

theorem methodLoop_skip (w : World) (cur svc : QName) (m p : Text) (f : File) (post : List File)
    (hp : filePath w f = some p)
    (hn : (methodsFrom 0 f.services).any (fun x => qualifyService cur f.pkg x.2.1 = svc ∧ x.2.2 = m) = true) :
    ∀ pre : List File,
      (∀ g ∈ pre, (methodsFrom 0 g.services).any (fun x => qualifyService cur g.pkg x.2.1 = svc ∧ x.2.2 = m) = false) →
      methodLoop w cur svc m (pre ++ f :: post) = some p
  | [], _ => by simp only [List.nil_append, methodLoop, hp]; rw [if_pos hn]
  | g :: gs, hpre => by
    have ih := methodLoop_skip w cur svc m p f post hp hn gs fun x hx => hpre x (List.mem_cons_of_mem _ hx)
    rw [List.cons_append, methodLoop]
    cases hg : filePath w g with
    | none => exact ih
    | some p' =>
      simp only
      rw [if_neg (by rw [hpre g (by simp)]; simp)]
      exact ih

/-- C90: a method leads to its declaration, if its file is the one that is found for it and is saved, no other file
before it has the service, and no other service of the file has a method of the same name.  Missing: see
`C90_method_false`. -/
theorem C90_method_partial (w : World) (pre : List File) (f : File) (post : List File) (cur : QName) (p : Text)
    (k j : Nat) (s : Service) (m : Text)
    (hs : f.services[k]? = some s) (hm : s.methods[j]? = some m)
    (hcur : currentPackage w (pre ++ f :: post) = some cur)
    (hfile : filePath w f = some p) (hsaved : (w.disk p).map (·.2) = some f.services)
    (hpkg : f.pkg = cur ∨ f.pkg ≠ []) (hdot : (written cur f.pkg [s.name]).head? ≠ some [])
    (hfirst : ∀ g ∈ pre, ∀ s' ∈ g.services, written cur g.pkg [s'.name] ≠ written cur f.pkg [s.name])
    (hu : ∀ (k' j' : Nat) (s' : Service), f.services[k']? = some s' → s'.methods[j']? = some m → k' = k ∧ j' = j) :
    findMethod w (pre ++ f :: post) (written cur f.pkg [s.name]) m = some (p, [k, j]) := by
  rw [← qualify_written hpkg]
  have hmem : ([k, j], s.name, m) ∈ methodsFrom 0 f.services :=
    (methodsFrom_mem _ _ _ _ _).2 ⟨k, j, s, by simp, hs, rfl, hm⟩
  have hl := methodLoop_skip w cur (qualify cur f.pkg [s.name]) m p f post hfile
    (by
      rw [List.any_eq_true]
      exact ⟨_, hmem, by simp [qualifyService]⟩) pre (by
      intro g hg
      rw [List.any_eq_false]
      rintro ⟨pos, svc, m'⟩ hx
      obtain ⟨_, _, s', _, h2, rfl, _⟩ := (methodsFrom_mem _ _ _ _ _).1 hx
      have := qualify_ne hdot (hfirst g hg s' (List.mem_of_getElem? h2))
      rw [← qualify_written hpkg] at this
      simp only [qualifyService]
      exact fun h => this (of_decide_eq_true h).1)
  unfold findMethod
  simp only [hcur, hl]
  cases hd : w.disk p with
  | none => rw [hd] at hsaved; cases hsaved
  | some x =>
    rw [hd] at hsaved
    simp only [Option.map_some, Option.some.injEq] at hsaved
    simp only [hsaved]
    cases hf : ((methodsFrom 0 f.services).filter fun x => decide (x.2.2 = m)).getLast? with
    | none =>
      rw [List.getLast?_eq_none_iff, List.filter_eq_nil_iff] at hf
      exact absurd (by simp) (hf _ hmem)
    | some y =>
      obtain ⟨pos, svc, m'⟩ := y
      have hy := List.mem_of_getLast? hf
      rw [List.mem_filter] at hy
      have hm' : m' = m := by simpa using hy.2
      subst hm'
      obtain ⟨k', j', s', h1, h2, _, h4⟩ := (methodsFrom_mem _ _ _ _ _).1 hy.1
      obtain ⟨rfl, rfl⟩ := hu k' j' s' h2 h4
      simp [h1]

/-- The hypotheses of `C90_method_partial` hold for a method of an imported file. -/
example : findMethod (world (t "/w/x.proto") [(t "/w/x.proto", [], []),
      (t "/w/y.proto", [], [⟨t "R", [t "List"]⟩, ⟨t "S", [t "Put", t "Get"]⟩])])
    [⟨t "y.proto", [t "q"], [], [⟨t "R", [t "List"]⟩, ⟨t "S", [t "Put", t "Get"]⟩]⟩, ⟨t "x.proto", [t "p"], [], []⟩]
    [t "q", t "S"] (t "Get") = some (t "/w/y.proto", [1, 1]) :=
  C90_method_partial _ [] ⟨t "y.proto", [t "q"], [], [⟨t "R", [t "List"]⟩, ⟨t "S", [t "Put", t "Get"]⟩]⟩
    [⟨t "x.proto", [t "p"], [], []⟩] [t "p"] (t "/w/y.proto") 1 1 ⟨t "S", [t "Put", t "Get"]⟩ (t "Get")
    rfl rfl (by decide) (by decide) rfl (by decide) (by decide) (by simp) (by
      intro k' j' s' h1 h2
      match k', h1 with
      | 0, h1 =>
        simp at h1; subst h1
        match j', h2 with
        | 0, h2 => exact absurd h2 (by decide)
        | j' + 1, h2 => simp at h2
      | 1, h1 =>
        simp at h1; subst h1
        match j', h2 with
        | 0, h2 => exact absurd h2 (by decide)
        | 1, _ => exact ⟨rfl, rfl⟩
        | j' + 2, h2 => simp at h2
      | k' + 2, h1 => simp at h1)

/-- C90 is false of the code for services of one file with methods of the same name: `R/Get` leads to `S/Get`. -/
theorem C90_method_false :
    ∃ (w : World) (f : File) (r s : Service), (w.disk w.path).map (·.2) = some [r, s] ∧ f.services = [r, s] ∧
      r.name = t "R" ∧ r.methods = [t "Get"] ∧ s.name = t "S" ∧ s.methods = [t "Get"] ∧
      findMethod w [f] [t "R"] (t "Get") = some (w.path, [1, 0]) :=
  ⟨world (t "/w/x.proto") [(t "/w/x.proto", [], [⟨t "R", [t "Get"]⟩, ⟨t "S", [t "Get"]⟩])],
    ⟨t "x.proto", [t "p"], [], [⟨t "R", [t "Get"]⟩, ⟨t "S", [t "Get"]⟩]⟩, ⟨t "R", [t "Get"]⟩, ⟨t "S", [t "Get"]⟩,
    rfl, rfl, rfl, rfl, rfl, rfl, by decide⟩

/-! ## Imports -/

/-- C90: an import leads to its file, if the paths of files before it do not end with its name.  Missing: see
`C90_import_false`. -/
theorem C90_import_partial (w : World) (pre : List File) (f : File) (post : List File) (p name : Text)
    (hfile : filePath w f = some p) (hp : name <:+ p)
    (hfirst : ∀ g ∈ pre, ∀ p', filePath w g = some p' → ¬name <:+ p') :
    findImport w (pre ++ f :: post) name = some p := by
  unfold findImport
  rw [List.filterMap_append, List.filterMap_cons_some hfile, List.find?_append, List.find?_eq_none.2]
  · simp only [Option.none_or]
    rw [List.find?_cons_of_pos]
    exact List.isSuffixOf_iff_suffix.2 hp
  · intro p' hp'
    obtain ⟨g, hg, he⟩ := List.mem_filterMap.1 hp'
    intro h
    exact hfirst g hg p' he (List.isSuffixOf_iff_suffix.1 h)

example : findImport (world (t "/w/x.proto") [(t "/w/a/y.proto", [], []), (t "/w/z.proto", [], [])])
    [⟨t "z.proto", [], [], []⟩, ⟨t "a/y.proto", [], [], []⟩] (t "a/y.proto") = some (t "/w/a/y.proto") := by decide

/-- C90 is false of the code for files whose names end like another: the import of `user.proto` leads to
`xuser.proto`. -/
theorem C90_import_false :
    ∃ (w : World) (g f : File), g.name = t "xuser.proto" ∧ f.name = t "user.proto" ∧
      filePath w f = some (t "/w/user.proto") ∧ findImport w [g, f] (t "user.proto") = some (t "/w/xuser.proto") :=
  ⟨world (t "/w/x.proto") [(t "/w/xuser.proto", [], []), (t "/w/user.proto", [], [])], ⟨t "xuser.proto", [], [], []⟩,
    ⟨t "user.proto", [], [], []⟩, rfl, rfl, by decide, by decide⟩

end Verif.Defn
