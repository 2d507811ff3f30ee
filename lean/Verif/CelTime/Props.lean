import Verif.CelTime.Model

/-!
# C93: times in expressions are those of Go

The documentation of the functions (`docs/cel/time.md`) refers to Go's package `time` for each of them.
-/

namespace Verif.CelTime

/-! ## Specification -/

mutual
/-- What the documentation says: the result of Go's functions. -/
def go (W : World) : Expr → Option T
  | .lit t => some t
  | .asTime ns => some ⟨ns, utc⟩
  | .date wall l => (goLoc W l).map fun l => dateIn l wall
  | .move f e => (go W e).map fun t => ⟨f t.ns, t.loc⟩
  | .addDate f e => (go W e).map fun t => dateIn t.loc (f t.wall)
  | .withLocation e l => (go W e).bind fun t => (goLoc W l).map fun l => ⟨t.ns, l⟩
  | .here e => (go W e).map fun t => ⟨t.ns, W.here⟩
  | .utc e => (go W e).map fun t => ⟨t.ns, utc⟩
def goLoc (W : World) : LExpr → Option Loc
  | .here => some W.here
  | .utc => some utc
  | .fixedZone name offset => some (fixed name offset)
  | .load name => load W name
  | .tzData _ l => some l
  | .location e => (go W e).map (·.loc)
end

/-- Locations are known by the names they are loaded by. -/
def Named (W : World) : Prop := W.here.name = "Local" ∧ ∀ n l, W.tz n = some l → l.name = n

/-- Two times that no function tells apart, except `isDST` and those that compute with the location. -/
def Alike (a b : T) : Prop := a.ns = b.ns ∧ a.zone.abbr = b.zone.abbr ∧ a.zone.offset = b.zone.offset

/-- The offset of the time is not zero, or its abbreviation is the name of a zone that always has this abbreviation and the
offset zero, as UTC and GMT. -/
def Kept (W : World) (t : T) : Prop :=
  t.zone.offset ≠ 0 ∨
    ∃ l, load W t.zone.abbr = some l ∧ ∀ s, (l.info s).abbr = t.zone.abbr ∧ (l.info s).offset = 0

/-- Locations given by their name in the database, or by an offset that is not zero. -/
def Simple : LExpr → Prop
  | .here => True
  | .utc => True
  | .fixedZone name offset => offset ≠ 0 ∨ name = "UTC"
  | .load _ => True
  | .tzData _ _ => False
  | .location _ => False

/-- No `addDate`, and only simple locations. -/
def Absolute : Expr → Prop
  | .lit _ => True
  | .asTime _ => True
  | .date _ l => Simple l
  | .move _ e => Absolute e
  | .addDate _ _ => False
  | .withLocation e l => Absolute e ∧ Simple l
  | .here e => Absolute e
  | .utc e => Absolute e

/-- Every time computed on the way is `Kept`, the zone does not change from one computed time to the next, local times of
`addDate` exist, and locations are simple. -/
def Fine (W : World) : Expr → Prop
  | .lit t => Kept W t
  | .asTime _ => True
  | .date wall l => Simple l ∧ ∀ l', goLoc W l = some l' → Kept W (dateIn l' wall)
  | .move f e => Fine W e ∧ ∀ t, go W e = some t →
      let u : T := ⟨f t.ns, t.loc⟩
      u.zone.abbr = t.zone.abbr ∧ u.zone.offset = t.zone.offset
  | .addDate f e => Fine W e ∧ ∀ t, go W e = some t →
      let u := dateIn t.loc (f t.wall)
      u.wall = f t.wall ∧ u.zone.abbr = t.zone.abbr ∧ u.zone.offset = t.zone.offset
  | .withLocation e l => Fine W e ∧ Simple l ∧ ∀ t l', go W e = some t → goLoc W l = some l' → Kept W ⟨t.ns, l'⟩
  | .here e => Fine W e ∧ ∀ t, go W e = some t → Kept W ⟨t.ns, W.here⟩
  | .utc e => Fine W e

/-! ## Lemmas -/

theorem value_shifted {W : World} {t : T} (h : t.zone.offset ≠ 0) :
    goTime W (toTimeValue t) = some ⟨t.ns, fixed t.zone.abbr t.zone.offset⟩ := by
  have : (toTimeValue t).loc.offset ≠ 0 := h
  unfold goTime goLocation
  rw [if_pos this]
  rfl

theorem value_zero {W : World} {t : T} (h : t.zone.offset = 0) :
    goTime W (toTimeValue t) = (load W t.zone.abbr).map fun l => ⟨t.ns, l⟩ := by
  have : ¬ (toTimeValue t).loc.offset ≠ 0 := fun hn => hn h
  unfold goTime goLocation
  rw [if_neg this]
  show (match load W t.zone.abbr with | none => none | some l => some (⟨t.ns, l⟩ : T)) = _
  cases load W t.zone.abbr <;> rfl

theorem kept_utc (W : World) (ns : Int) : Kept W ⟨ns, utc⟩ := .inr ⟨utc, by simp [load, utc, T.zone], fun _ => ⟨rfl, rfl⟩⟩

theorem load_name {W : World} (hW : Named W) {n : String} {l : Loc} (h : load W n = some l) : load W l.name = some l := by
  unfold load at h
  split at h
  · cases h; rfl
  · next h1 =>
    split at h
    · next h2 =>
      cases h
      rw [hW.1]; simp [load]
    · next h2 =>
      rw [hW.2 n l h]
      simp only [load]
      rw [if_neg h1, if_neg h2, h]

theorem simple_loc {W : World} (hW : Named W) {l : LExpr} (h : Simple l) :
    (celLoc W l).bind (goLocation W) = goLoc W l := by
  cases l with
  | here => simp [celLoc, goLocation, goLoc, load]
  | utc => simp [celLoc, goLocation, goLoc, load]
  | fixedZone name offset =>
    simp only [celLoc, goLoc, Option.bind_some, goLocation]
    rcases h with h | h
    · rw [if_pos h]
    · by_cases h0 : offset ≠ 0
      · rw [if_pos h0]
      · rw [if_neg h0]
        have : offset = 0 := by omega
        subst this
        subst h
        rfl
  | load name =>
    simp only [celLoc, goLoc]
    cases hl : load W name with
    | none => rfl
    | some l =>
      simp only [Option.bind_some, goLocation]
      rw [if_neg (by simp), load_name hW hl]
  | tzData => exact absurd h id
  | location => exact absurd h id

theorem kept_alike {W : World} {t : T} (h : Kept W t) : ∃ u, goTime W (toTimeValue t) = some u ∧ u.ns = t.ns ∧
    ∀ s, (u.loc.info s).abbr = t.zone.abbr ∧ (u.loc.info s).offset = t.zone.offset := by
  by_cases h0 : t.zone.offset = 0
  · rcases h with h | ⟨l, h1, h2⟩
    · exact absurd h0 h
    · rw [value_zero h0, h1]
      exact ⟨_, rfl, rfl, fun s => ⟨(h2 s).1, by rw [(h2 s).2, h0]⟩⟩
  · rw [value_shifted h0]
    exact ⟨_, rfl, rfl, fun s => ⟨rfl, rfl⟩⟩

theorem dateIn_const {l : Loc} {o : Int} (h : ∀ s, (l.info s).offset = o) (w : Int) :
    (dateIn l w).ns = w - o * 1000000000 := by
  simp only [dateIn, h]

/-- C93: in a zone whose offset changes once, at any instant and by any amount, `date` gives a time whose clock shows what was asked
for, if any time there does. -/
theorem C93_date (l : Loc) (c o o' : Int) (hl : ∀ s, (l.info s).offset = if s < c then o else o') (w : Int)
    (hw : ∃ t : T, t.loc = l ∧ t.wall = w) : (dateIn l w).wall = w := by
  obtain ⟨⟨n, l'⟩, h, hw⟩ := hw
  simp only at h
  subst h
  simp only [T.wall, T.zone, hl] at hw
  simp only [T.wall, T.zone, dateIn, hl]
  (repeat' split at hw) <;> (repeat' split) <;> omega

/-- Clocks go forward by an hour at 7 o'clock UTC: 3 o'clock is after the change, and 2:30 is never shown. -/
example : (dateIn ⟨"X", fun s => ⟨"", if s < 25200 then -18000 else -14400, false⟩⟩ (10800 * 1000000000)).ns = 25200 * 1000000000 ∧
    (dateIn ⟨"X", fun s => ⟨"", if s < 25200 then -18000 else -14400, false⟩⟩ (9000 * 1000000000)).wall ≠ 9000 * 1000000000 := by
  decide

theorem toTimeValue_congr {a b : T} (h1 : a.ns = b.ns) (h2 : a.zone.abbr = b.zone.abbr)
    (h3 : a.zone.offset = b.zone.offset) : toTimeValue a = toTimeValue b := by
  simp only [toTimeValue]
  rw [h1, h2, h3]

theorem fine_cel {W : World} (hW : Named W) : ∀ e, Fine W e →
    cel W e = (go W e).map toTimeValue ∧ ∀ t, go W e = some t → Kept W t
  | .lit t, h => ⟨rfl, by intro u hu; simp only [go, Option.some.injEq] at hu; subst hu; exact h⟩
  | .asTime ns, _ => ⟨rfl, by
      intro u hu; simp only [go, Option.some.injEq] at hu; subst hu; exact kept_utc W ns⟩
  | .date wall l, h => by
    obtain ⟨h1, h2⟩ := h
    have hl := simple_loc hW h1
    constructor
    · simp only [cel, go]
      cases hc : celLoc W l with
      | none => rw [hc] at hl; simp only [Option.bind_none] at hl; rw [← hl]; rfl
      | some lv =>
        rw [hc] at hl
        simp only [Option.bind_some] at hl
        simp only [hl]
        cases goLoc W l <;> rfl
    · intro t ht
      simp only [go] at ht
      cases hg : goLoc W l with
      | none => rw [hg] at ht; cases ht
      | some l' => rw [hg] at ht; cases ht; exact h2 l' hg
  | .move f e, h => by
    obtain ⟨h1, h2⟩ := h
    obtain ⟨i1, i2⟩ := fine_cel hW e h1
    simp only [cel, go, i1]
    cases hg : go W e with
    | none => exact ⟨rfl, by intro t ht; cases ht⟩
    | some t =>
      simp only [Option.map_some]
      obtain ⟨u, hu, hns, hinfo⟩ := kept_alike (i2 t hg)
      obtain ⟨ha, ho⟩ := h2 t hg
      simp only [hu]
      have z1 : ∀ n : Int, (⟨n, u.loc⟩ : T).zone.abbr = t.zone.abbr := fun n => (hinfo _).1
      have z2 : ∀ n : Int, (⟨n, u.loc⟩ : T).zone.offset = t.zone.offset := fun n => (hinfo _).2
      refine ⟨?_, ?_⟩
      · congr 1
        exact toTimeValue_congr (by simp only [hns]) (by rw [z1]; exact ha.symm) (by rw [z2]; exact ho.symm)
      · intro v hv
        cases hv
        rcases i2 t hg with hk | ⟨l, hk1, hk2⟩
        · exact .inl (by rw [ho]; exact hk)
        · exact .inr ⟨l, by rw [ha]; exact hk1, by rw [ha]; exact hk2⟩
  | .addDate f e, h => by
    obtain ⟨h1, h2⟩ := h
    obtain ⟨i1, i2⟩ := fine_cel hW e h1
    simp only [cel, go, i1]
    cases hg : go W e with
    | none => exact ⟨rfl, by intro t ht; cases ht⟩
    | some t =>
      simp only [Option.map_some]
      obtain ⟨u, hu, hns, hinfo⟩ := kept_alike (i2 t hg)
      obtain ⟨hw, ha, ho⟩ := h2 t hg
      simp only [hu]
      have hz : u.zone.offset = t.zone.offset := (hinfo _).2
      have hwall : u.wall = t.wall := by simp only [T.wall]; rw [hz, hns]
      refine ⟨?_, ?_⟩
      · congr 1
        rw [hwall]
        refine toTimeValue_congr ?_ ?_ ?_
        · rw [dateIn_const (fun s => (hinfo s).2)]
          rw [T.wall, ho] at hw
          omega
        · rw [ha]; exact (hinfo _).1
        · rw [ho]; exact (hinfo _).2
      · intro v hv
        cases hv
        rcases i2 t hg with hk | ⟨l, hk1, hk2⟩
        · exact .inl (by rw [ho]; exact hk)
        · exact .inr ⟨l, by rw [ha]; exact hk1, by rw [ha]; exact hk2⟩
  | .withLocation e l, h => by
    obtain ⟨h1, h2, h3⟩ := h
    obtain ⟨i1, i2⟩ := fine_cel hW e h1
    have hl := simple_loc hW h2
    constructor
    · simp only [cel, go, i1]
      cases hg : go W e with
      | none => rfl
      | some t =>
        obtain ⟨u, hu, hns, _⟩ := kept_alike (i2 t hg)
        simp only [Option.map_some, Option.bind_some]
        cases hc : celLoc W l with
        | none => rw [hc] at hl; simp only [Option.bind_none] at hl; rw [← hl]; rfl
        | some lv =>
          rw [hc] at hl
          simp only [Option.bind_some] at hl
          simp only [hl, hu]
          cases goLoc W l with
          | none => rfl
          | some l' => simp only [hns, Option.map_some]
    · intro v hv
      simp only [go] at hv
      cases hg : go W e with
      | none => rw [hg] at hv; cases hv
      | some t =>
        rw [hg] at hv
        cases hgl : goLoc W l with
        | none => rw [hgl] at hv; cases hv
        | some l' => rw [hgl] at hv; cases hv; exact h3 t l' hg hgl
  | .here e, h => by
    obtain ⟨h1, h2⟩ := h
    obtain ⟨i1, i2⟩ := fine_cel hW e h1
    simp only [cel, go, i1]
    cases hg : go W e with
    | none => exact ⟨rfl, by intro t ht; cases ht⟩
    | some t =>
      obtain ⟨u, hu, hns, _⟩ := kept_alike (i2 t hg)
      simp only [Option.map_some, hu, hns]
      exact ⟨trivial, by intro v hv; cases hv; exact h2 t hg⟩
  | .utc e, h => by
    obtain ⟨i1, i2⟩ := fine_cel hW e h
    simp only [cel, go, i1]
    cases hg : go W e with
    | none => exact ⟨rfl, by intro t ht; cases ht⟩
    | some t =>
      obtain ⟨u, hu, hns, _⟩ := kept_alike (i2 t hg)
      simp only [Option.map_some, hu, hns]
      exact ⟨trivial, by intro v hv; cases hv; exact kept_utc W _⟩

theorem goTime_ns {W : World} {v : Val} {t : T} (h : goTime W v = some t) : t.ns = v.ns := by
  unfold goTime at h
  split at h <;> cases h
  rfl

/-! ## Properties -/

/-- The instant of a time is that of Go, whatever its location does.  Missing for the full property: `addDate` and locations
that are not found by their name, see `C93_addDate_false`, `C93_fixedZone_false` and `C93_tzData_false`. -/
theorem C93_instant_partial {W : World} (hW : Named W) : ∀ (e : Expr), Absolute e → ∀ v, cel W e = some v →
    ∃ t, go W e = some t ∧ t.ns = v.ns
  | .lit t, _, v, h => by simp only [cel, Option.some.injEq] at h; subst h; exact ⟨t, rfl, rfl⟩
  | .asTime ns, _, v, h => by simp only [cel, Option.some.injEq] at h; subst h; exact ⟨_, rfl, rfl⟩
  | .date wall l, ha, v, h => by
    have hl := simple_loc hW ha
    simp only [cel] at h
    cases hc : celLoc W l with
    | none => rw [hc] at h; cases h
    | some lv =>
      rw [hc] at h hl
      simp only [Option.bind_some] at hl
      simp only [hl] at h
      cases hg : goLoc W l with
      | none => rw [hg] at h; cases h
      | some l' =>
        rw [hg] at h
        cases h
        exact ⟨_, by simp only [go, hg, Option.map_some], rfl⟩
  | .move f e, ha, v, h => by
    simp only [cel] at h
    cases hc : cel W e with
    | none => rw [hc] at h; cases h
    | some u =>
      obtain ⟨t, ht, hns⟩ := C93_instant_partial hW e ha u hc
      rw [hc] at h
      simp only at h
      cases hg : goTime W u with
      | none => rw [hg] at h; cases h
      | some x =>
        rw [hg] at h
        cases h
        exact ⟨⟨f t.ns, t.loc⟩, by simp only [go, ht, Option.map_some], by
          simp only [toTimeValue]; rw [goTime_ns hg, hns]⟩
  | .addDate f e, ha, v, h => absurd ha id
  | .withLocation e l, ha, v, h => by
    simp only [cel] at h
    have hl := simple_loc hW ha.2
    cases hc : cel W e with
    | none => rw [hc] at h; simp at h
    | some u =>
      obtain ⟨t, ht, hns⟩ := C93_instant_partial hW e ha.1 u hc
      cases hlc : celLoc W l with
      | none => rw [hc, hlc] at h; simp at h
      | some lv =>
        rw [hlc] at hl
        simp only [Option.bind_some] at hl
        simp only [hc, hlc, hl] at h
        cases hgl : goLoc W l with
        | none => rw [hgl] at h; simp at h
        | some l' =>
          cases hg : goTime W u with
          | none => rw [hgl, hg] at h; simp at h
          | some x =>
            rw [hgl, hg] at h
            cases h
            exact ⟨⟨t.ns, l'⟩, by simp only [go, ht, hgl, Option.bind_some, Option.map_some], by
              simp only [toTimeValue]; rw [goTime_ns hg, hns]⟩
  | .here e, ha, v, h => by
    simp only [cel] at h
    cases hc : cel W e with
    | none => rw [hc] at h; cases h
    | some u =>
      obtain ⟨t, ht, hns⟩ := C93_instant_partial hW e ha u hc
      rw [hc] at h
      simp only at h
      cases hg : goTime W u with
      | none => rw [hg] at h; cases h
      | some x =>
        rw [hg] at h
        cases h
        exact ⟨⟨t.ns, W.here⟩, by simp only [go, ht, Option.map_some], by
          simp only [toTimeValue]; rw [goTime_ns hg, hns]⟩
  | .utc e, ha, v, h => by
    simp only [cel] at h
    cases hc : cel W e with
    | none => rw [hc] at h; cases h
    | some u =>
      obtain ⟨t, ht, hns⟩ := C93_instant_partial hW e ha u hc
      rw [hc] at h
      simp only at h
      cases hg : goTime W u with
      | none => rw [hg] at h; cases h
      | some x =>
        rw [hg] at h
        cases h
        exact ⟨⟨t.ns, CelTime.utc⟩, by simp only [go, ht, Option.map_some], by
          simp only [toTimeValue]; rw [goTime_ns hg, hns]⟩

/-- Every function of the local time and the zone (`hour`, `day`, `format`, `string`, ...) gives what Go gives.  Missing for
the full property: computations in which the zone changes and times whose zone is lost, see below. -/
theorem C93_reading_partial {W : World} (hW : Named W) {e : Expr} (h : Fine W e) {α : Type}
    (f : Int → String → Int → α) :
    (cel W e).bind (reading W f) = (go W e).map fun t => f t.wall t.zone.abbr t.zone.offset := by
  obtain ⟨h1, h2⟩ := fine_cel hW e h
  rw [h1]
  cases hg : go W e with
  | none => rfl
  | some t =>
    obtain ⟨u, hu, hns, hinfo⟩ := kept_alike (h2 t hg)
    simp only [Option.map_some, Option.bind_some, reading, hu]
    have z1 : u.zone.abbr = t.zone.abbr := (hinfo _).1
    have z2 : u.zone.offset = t.zone.offset := (hinfo _).2
    rw [T.wall, T.wall, z1, z2, hns]

/-- Exactly when a time is read as it was computed. -/
theorem C93_kept (W : World) (t : T) : (∃ u, goTime W (toTimeValue t) = some u ∧ Alike u t) ↔
    t.zone.offset ≠ 0 ∨ ∃ l, load W t.zone.abbr = some l ∧
      (l.info (t.ns / 1000000000)).abbr = t.zone.abbr ∧ (l.info (t.ns / 1000000000)).offset = 0 := by
  by_cases h0 : t.zone.offset = 0
  · rw [value_zero h0]
    constructor
    · rintro ⟨u, hu, hns, ha, ho⟩
      cases hl : load W t.zone.abbr with
      | none => rw [hl] at hu; cases hu
      | some l =>
        rw [hl] at hu
        cases hu
        exact .inr ⟨l, rfl, ha, by rw [h0] at ho; exact ho⟩
    · rintro (h | ⟨l, hl, ha, ho⟩)
      · exact absurd h0 h
      · rw [hl]
        exact ⟨_, rfl, rfl, ha, by rw [h0]; exact ho⟩
  · rw [value_shifted h0]
    exact ⟨fun _ => .inl h0, fun _ => ⟨_, rfl, rfl, rfl, rfl⟩⟩

/-- Times in UTC are always read as they were computed. -/
theorem C93_utc (W : World) (ns : Int) : goTime W (toTimeValue ⟨ns, utc⟩) = some ⟨ns, utc⟩ := by
  simp [goTime, toTimeValue, goLocation, T.zone, utc, load]

/-! ## Where the full property fails -/

private def hour : Int := 3600 * 1000000000

/-- New York around 2024-03-10 07:00 UTC, when daylight saving time begins. -/
private def newYork : Loc :=
  ⟨"America/New_York", fun s => if s < 1710054000 then ⟨"EST", -18000, false⟩ else ⟨"EDT", -14400, true⟩⟩

/-- The Azores in summer. -/
private def azores : Loc := ⟨"Atlantic/Azores", fun _ => ⟨"+00", 0, true⟩⟩

private def world : World where
  here := ⟨"Local", fun _ => ⟨"JST", 32400, false⟩⟩
  tz n := if n = "America/New_York" then some newYork else if n = "Atlantic/Azores" then some azores
    else if n = "MST" then some (fixed "MST" (-25200)) else if n = "GMT" then some (fixed "GMT" 0) else none

private theorem world_named : Named world := by
  refine ⟨rfl, ?_⟩
  intro n l h
  simp only [world] at h
  split at h
  · next h1 => cases h; exact h1.symm
  · split at h
    · next h1 => cases h; exact h1.symm
    · split at h
      · next h1 => cases h; exact h1.symm
      · split at h
        · next h1 => cases h; exact h1.symm
        · cases h

/-- `date(2024, 3, 9, 12, 0, 0, 0, loadLocation("America/New_York"))`, in local time since 1970. -/
private def noon : Expr := .date (1709985600 * 1000000000) (.load "America/New_York")

/-- The hypotheses are met: noon in New York, two hours later, in UTC and in Tokyo. -/
example : Fine world (.here (.utc (.move (· + 2 * hour) noon))) := by
  refine ⟨⟨⟨trivial, ?_⟩, ?_⟩, ?_⟩
  · intro l h
    cases h
    exact .inl (by decide)
  · intro t h
    cases h
    decide
  · intro t h
    cases h
    exact .inl (by decide)

example : (cel world (.utc (.move (· + 2 * hour) noon))).map (·.ns) = some ((1709985600 + 18000 + 7200) * 1000000000) := by
  decide

/-- `isDST` is false for every time whose offset is not zero. -/
theorem C93_isDST_false : (∀ (W : World) (v : Val), v.loc.offset ≠ 0 → isDST W v = some false) ∧
    ∃ (W : World) (e : Expr) (v : Val) (t : T), Named W ∧ cel W e = some v ∧ go W e = some t ∧ v.loc.offset ≠ 0 ∧
      t.zone.dst = true := by
  constructor
  · intro W v h
    simp only [isDST, goTime, goLocation]
    rw [if_pos h]
    rfl
  · exact ⟨world, .date (1720000000 * 1000000000) (.load "America/New_York"), _, _, world_named, rfl, rfl, by decide,
      by decide⟩

/-- A day after noon it is 13 o'clock in New York, because daylight saving time has begun; expressions say 12 o'clock. -/
theorem C93_add_false : ∃ (W : World) (e : Expr) (v : Val) (t : T) (u : T), Named W ∧
    cel W (.move (· + 24 * hour) e) = some v ∧ go W (.move (· + 24 * hour) e) = some t ∧ goTime W v = some u ∧
    u.wall = t.wall - hour :=
  ⟨world, noon, _, _, _, world_named, rfl, rfl, rfl, by decide⟩

/-- `addDate(0, 0, 1)` gives another instant than Go. -/
theorem C93_addDate_false : ∃ (W : World) (e : Expr) (v : Val) (t : T), Named W ∧
    cel W (.addDate (· + 24 * hour) e) = some v ∧ go W (.addDate (· + 24 * hour) e) = some t ∧ v.ns = t.ns + hour :=
  ⟨world, noon, _, _, world_named, rfl, rfl, by decide⟩

/-- What Go gives for a parsed time with an abbreviation it does not know: a zone of that name with offset zero.  "MST" is
then read as the zone of that name in the database, seven hours off; "PST" gives an error. -/
theorem C93_parse_false : ∃ (W : World) (a b : T) (u : T), Named W ∧ a = ⟨1136214245 * 1000000000, fixed "MST" 0⟩ ∧
    b = ⟨1136214245 * 1000000000, fixed "PST" 0⟩ ∧ goTime W (toTimeValue a) = some u ∧ u.wall = a.wall - 7 * hour ∧
    reading W (fun w _ _ => w) (toTimeValue b) = none :=
  ⟨world, _, _, _, world_named, rfl, rfl, rfl, by decide, rfl⟩

/-- A place with the offset zero whose abbreviation is no zone: no function can be called on the time. -/
theorem C93_zero_offset_false : ∃ (W : World) (e : Expr) (v : Val) (t : T), Named W ∧ cel W e = some v ∧
    go W e = some t ∧ ∀ (α : Type) (f : Int → String → Int → α), reading W f v = none :=
  ⟨world, .date (1720000000 * 1000000000) (.load "Atlantic/Azores"), _, _, world_named, rfl, rfl, fun _ _ => rfl⟩

/-- `fixedZone` with the offset zero: an error, or the zone of that name. -/
theorem C93_fixedZone_false : ∃ (W : World) (w : Int), Named W ∧
    cel W (.date w (.fixedZone "London" 0)) = none ∧ (go W (.date w (.fixedZone "London" 0))).isSome = true ∧
    ∃ (v : Val) (t : T), cel W (.date w (.fixedZone "MST" 0)) = some v ∧ go W (.date w (.fixedZone "MST" 0)) = some t ∧
      v.ns = t.ns + 7 * hour :=
  ⟨world, 0, world_named, rfl, rfl, _, _, rfl, rfl, by decide⟩

/-- A zone loaded from data is an error, unless the database has one of the same name, which is used instead. -/
theorem C93_tzData_false : ∃ (W : World) (w : Int) (l : Loc), Named W ∧ cel W (.date w (.tzData "Mars" l)) = none ∧
    (go W (.date w (.tzData "Mars" l))).isSome = true ∧
    ∃ (v : Val) (t : T), cel W (.date w (.tzData "GMT" l)) = some v ∧ go W (.date w (.tzData "GMT" l)) = some t ∧
      v.ns = t.ns + hour :=
  ⟨world, 0, fixed "X" 3600, world_named, rfl, rfl, _, _, rfl, rfl, by decide⟩

/-- `location()` of a time gives the abbreviation of the zone at that time, not the location. -/
theorem C93_location_false : ∃ (W : World) (e : Expr) (l : LocVal), Named W ∧ celLoc W (.location e) = some l ∧
    locationString W l = some "EST" ∧ (goLoc W (.location e)).map (·.name) = some "America/New_York" :=
  ⟨world, noon, _, world_named, rfl, rfl, rfl⟩

end Verif.CelTime
