import Verif.CelUrl.Model

/-!
# C95: URLs in expressions are those of Go

The documentation of the functions (`docs/cel/url.md`) describes those of Go's package `net/url`.
-/

namespace Verif.CelUrl

/-! ## Specification -/

/-- What the documentation says. -/
def go (N : Net) : Expr → Option Url
  | .lit m => some m.goURL
  | .parse s => N.parse s
  | .parseRequestURI s => N.parseRequestURI s
  | .unmarshalBinary e s => (go N e).bind fun _ => N.unmarshal s
  | .parseIn e s => (go N e).bind fun u => N.parseIn u s
  | .resolveReference e r => (go N e).bind fun u => (go N r).map fun v => N.resolveReference u v
  | .joinPath e elems => (go N e).map fun u => N.joinPath u elems

/-- No path is joined. -/
def NoJoin : Expr → Prop
  | .lit _ => True
  | .parse _ => True
  | .parseRequestURI _ => True
  | .unmarshalBinary e _ => NoJoin e
  | .parseIn e _ => NoJoin e
  | .resolveReference e r => NoJoin e ∧ NoJoin r
  | .joinPath _ _ => False

/-- What `net/url` does with paths that need no escaping and have no other meaning as URLs: they are parsed to themselves,
written as themselves, and joined to such paths. -/
structure PlainPaths (N : Net) (P : String → Prop) : Prop where
  parse : ∀ p, P p → N.parse p = some { path := p }
  string : ∀ p, P p → N.string { path := p } = p
  join : ∀ (u : Url) (es : List String), P u.path → u.rawPath = "" → (∀ x ∈ es, P x) →
    ∃ p, P p ∧ N.joinPath u es = { u with path := p } ∧ N.joinPath { path := u.path } es = { path := p }

/-! ## Lemmas -/

theorem goUserinfo_of (u : Userinfo) : (toUserinfoValue u.name u.password.1 u.password.2).goUserinfo = u := by
  cases u <;> rfl

/-! ## Properties -/

/-- No part of a URL is lost from one function to the next. -/
theorem C95_kept (u : Url) : (toURLValue u).goURL = u := by
  cases u with
  | mk scheme opaq user host path rawPath omitHost forceQuery rawQuery fragment rawFragment =>
    cases user with
    | none => rfl
    | some i => cases i <;> rfl

/-- Every function gives what Go gives.  Missing for the full property: the method `joinPath`, see `C95_join_partial` and
`C95_join_false`. -/
theorem C95_go_partial (N : Net) : ∀ (e : Expr), NoJoin e → (cel N e).map Msg.goURL = go N e
  | .lit m, _ => rfl
  | .parse s, _ => by
    simp only [cel, go, Option.map_map]
    cases N.parse s with
    | none => rfl
    | some u => simp [C95_kept]
  | .parseRequestURI s, _ => by
    simp only [cel, go, Option.map_map]
    cases N.parseRequestURI s with
    | none => rfl
    | some u => simp [C95_kept]
  | .unmarshalBinary e s, h => by
    have ih := C95_go_partial N e h
    simp only [cel, go, ← ih]
    cases cel N e with
    | none => rfl
    | some m =>
      simp only [Option.map_some, Option.bind_some, Option.map_map]
      cases N.unmarshal s with
      | none => rfl
      | some u => simp [C95_kept]
  | .parseIn e s, h => by
    have ih := C95_go_partial N e h
    simp only [cel, go, ← ih]
    cases cel N e with
    | none => rfl
    | some m =>
      simp only [Option.map_some, Option.bind_some, Option.map_map]
      cases N.parseIn m.goURL s with
      | none => rfl
      | some u => simp [C95_kept]
  | .resolveReference e r, h => by
    have ih := C95_go_partial N e h.1
    have ih' := C95_go_partial N r h.2
    simp only [cel, go, ← ih, ← ih']
    cases cel N e <;> cases cel N r <;> simp [C95_kept]
  | .joinPath _ _, h => absurd h id

/-- So does everything an expression tells about a URL. -/
theorem C95_reading_partial (N : Net) {e : Expr} (h : NoJoin e) {α : Type} (f : Url → α) :
    (cel N e).map (reading f) = (go N e).map f := by
  rw [← C95_go_partial N e h, Option.map_map]
  rfl

/-- The user of a URL, or the one made of a name and a password. -/
theorem C95_user (N : Net) {α : Type} (f : Userinfo → α) :
    (∀ n, (celUser N (.user n)).map (userReading f) = some (f (.user n))) ∧
    (∀ n p, (celUser N (.userPassword n p)).map (userReading f) = some (f (.userPassword n p))) ∧
    (∀ e u, NoJoin e → (go N e).bind (·.user) = some u →
      (celUser N (.userinfo e)).map (userReading f) = some (f u)) := by
  refine ⟨fun _ => rfl, fun _ _ => rfl, ?_⟩
  intro e u h hu
  have := C95_go_partial N e h
  simp only [celUser]
  cases hc : cel N e with
  | none => rw [hc] at this; rw [← this] at hu; cases hu
  | some m =>
    rw [hc] at this
    rw [← this] at hu
    simp only [Option.map_some, Option.bind_some] at hu
    simp only [hu, Option.map_some, userReading, goUserinfo_of]

/-- The method `joinPath` gives what Go gives for paths that need no escaping.  Missing for the full property:
`C95_join_false`. -/
theorem C95_join_partial {N : Net} {P : String → Prop} (hN : PlainPaths N P) {e : Expr} (h : NoJoin e) {u : Url}
    (hu : go N e = some u) (hp : P u.path) (hr : u.rawPath = "") {es : List String} (hes : ∀ x ∈ es, P x) :
    (cel N (.joinPath e es)).map Msg.goURL = go N (.joinPath e es) := by
  have hc := C95_go_partial N e h
  rw [hu] at hc
  cases hm : cel N e with
  | none => rw [hm] at hc; cases hc
  | some m =>
    rw [hm] at hc
    simp only [Option.map_some, Option.some.injEq] at hc
    obtain ⟨p, h1, h2, h3⟩ := hN.join u es hp hr hes
    simp only [cel, go, hm, hc, hu, Net.joinPathOfString, hN.parse _ hp, Option.map_some, h3, hN.string _ h1, h2, C95_kept]

/-! ## Examples -/

/-- Escaping of spaces only. -/
private def esc : List Char → List Char
  | [] => []
  | ' ' :: s => '%' :: '2' :: '0' :: esc s
  | c :: s => c :: esc s

private def unesc : List Char → List Char
  | '%' :: '2' :: '0' :: s => ' ' :: unesc s
  | c :: s => c :: unesc s
  | [] => []

/-- A part of `net/url`, for texts that are paths in which only spaces need escaping. -/
private def net : Net where
  parse s := some { path := String.ofList (unesc s.toList) }
  parseRequestURI s := some { path := String.ofList (unesc s.toList) }
  unmarshal s := some { path := String.ofList (unesc s.toList) }
  parseIn _ s := some { path := String.ofList (unesc s.toList) }
  resolveReference _ v := v
  joinPath u es := { u with path := es.foldl (fun p x => p ++ "/" ++ String.ofList (unesc x.toList)) u.path }
  string u := String.ofList (esc u.path.toList)

/-- The hypotheses of `C95_go_partial` are met by all functions but `joinPath`. -/
example : NoJoin (.resolveReference (.parse "http://u:p@example.com/a?b=c#d") (.parseIn (.parse "/x") "../y")) :=
  ⟨trivial, trivial⟩

/-- Those of `C95_join_partial`, by a part of `net/url` for paths of letters. -/
example : ∃ (N : Net) (P : String → Prop), PlainPaths N P ∧ P "/a/b" ∧ N.joinPath { path := "/a" } ["b"] = { path := "/a/b" } := by
  refine ⟨{ net with parse := fun s => some { path := s }, string := fun u => u.path, joinPath := fun u es => { u with path := es.foldl (fun p x => p ++ "/" ++ x) u.path } },
    fun _ => True, ⟨fun _ _ => rfl, fun _ _ => rfl, fun u es _ _ _ => ⟨_, trivial, rfl, rfl⟩⟩, trivial, by decide +kernel⟩

/-! ## Where the full property fails -/

/-- `parse("/a%20b").joinPath(["c"])` has the path `/a%20b/c`, and is written `/a%2520b/c` by Go then: the path is escaped
where Go keeps it as it is. -/
theorem C95_join_false : ∃ (N : Net) (e : Expr) (m : Msg) (u : Url), N.parse "/a%20b" = some { path := "/a b" } ∧
    N.string { path := "/a b/c" } = "/a%20b/c" ∧ cel N e = some m ∧ go N e = some u ∧
    m.path = "/a%20b/c" ∧ u.path = "/a b/c" := by
  refine ⟨net, .joinPath (.parse "/a%20b") ["c"], toURLValue { path := "/a%20b/c" }, { path := "/a b/c" }, ?_, ?_, ?_, ?_, rfl,
    rfl⟩ <;> decide +kernel

/-- The raw path stays the one before, so that what Go writes may not have the elements at all: `EscapedPath` gives the raw
path whenever it is an encoding of the path. -/
theorem C95_raw_false (N : Net) (m : Msg) (es : List String) (v : Msg) (h : cel N (.joinPath (.lit m) es) = some v) :
    v.rawPath = m.rawPath := by
  simp only [cel] at h
  split at h
  · cases h
  · cases h; rfl

/-- A URL without user and one with an empty user have the same `userinfo()`. -/
theorem C95_no_user_false : ∃ (N : Net) (e f : Expr), (go N e).map (·.user) = some none ∧
    (go N f).map (·.user) = some (some (.user "")) ∧ celUser N (.userinfo e) = celUser N (.userinfo f) ∧
    (celUser N (.userinfo e)).isSome = true :=
  ⟨net, .lit {}, .lit { user := some {} }, rfl, rfl, rfl, rfl⟩

/-- A message with a password but without `password_set` loses the password. -/
theorem C95_password_false : ∃ (N : Net) (m : UserMsg), m.password = "secret" ∧
    (celUser N (.lit m)).map (userReading fun u => u.password.1) = some "" :=
  ⟨net, { username := "u", password := "secret" }, rfl, rfl⟩

end Verif.CelUrl
