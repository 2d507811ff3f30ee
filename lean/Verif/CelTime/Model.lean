/-!
# Times in expressions

Models `grpc/federation/cel/time.go` lines 20-37, 63-80 and the functions in lines 211-976 that give times and locations:
how a Go time becomes a value of an expression and back, at each call.

Go's package `time` is modelled as documented: a location tells for each second the abbreviation of the zone, its offset and
whether it is daylight saving time; a time is an instant with a location.  Instants are nanoseconds since 1970 without
bounds (Go stops after 292 billion years), and monotonic clock readings are left out.  The calendar is a parameter: local
times are nanoseconds on a clock without zone, and functions of the calendar are functions of them.
-/

namespace Verif.CelTime

/-- What a location tells for a second. -/
structure Info where
  abbr : String
  offset : Int
  dst : Bool := false
deriving DecidableEq

/-- `time.Location`. -/
structure Loc where
  name : String
  info : Int → Info

/-- `time.Time`. -/
structure T where
  ns : Int
  loc : Loc

/-- `Time.Zone`, with the flag of `Time.IsDST`. -/
def T.zone (t : T) : Info := t.loc.info (t.ns / 1000000000)

/-- The local time, that `Time.Hour`, `Time.Format` and so on tell. -/
def T.wall (t : T) : Int := t.ns + t.zone.offset * 1000000000

/-- `time.UTC`. -/
def utc : Loc := ⟨"UTC", fun _ => ⟨"UTC", 0, false⟩⟩

/-- `time.FixedZone`. -/
def fixed (name : String) (offset : Int) : Loc := ⟨name, fun _ => ⟨name, offset, false⟩⟩

/-- The machine: its local zone, and its time zone database. -/
structure World where
  here : Loc
  tz : String → Option Loc

/-- `time.LoadLocation`. -/
def load (W : World) (name : String) : Option Loc :=
  if name = "" ∨ name = "UTC" then some utc
  else if name = "Local" then some W.here
  else W.tz name

/-- `time.Date` for a local time: the zone is looked up at the local time taken as UTC, and again with the offset found
there. -/
def dateIn (l : Loc) (wall : Int) : T :=
  let off := (l.info (wall / 1000000000)).offset
  ⟨wall - (l.info ((wall - off * 1000000000) / 1000000000)).offset * 1000000000, l⟩

/-- The message `Location`, `grpc/federation/cel/time.go` lines 78-80. -/
structure LocVal where
  name : String
  offset : Int

/-- The message `Time`, `grpc/federation/cel/time.go` lines 67-76. -/
structure Val where
  ns : Int
  loc : LocVal

/-- `GoLocation`, `grpc/federation/cel/time.go` lines 28-37. -/
def goLocation (W : World) (l : LocVal) : Option Loc :=
  if l.offset ≠ 0 then some (fixed l.name l.offset) else load W l.name

/-- `GoTime`, `grpc/federation/cel/time.go` lines 20-26. -/
def goTime (W : World) (v : Val) : Option T :=
  match goLocation W v.loc with
  | none => none
  | some l => some ⟨v.ns, l⟩

/-- `toTimeValue`, `grpc/federation/cel/time.go` lines 67-76. -/
def toTimeValue (t : T) : Val := ⟨t.ns, ⟨t.zone.abbr, t.zone.offset⟩⟩

mutual
/-- Expressions that give a time.  `lit` is for `now`, `parse`, `parseInLocation`, `unix`, `unixMicro` and `unixMilli`: any
time that Go gives; `move` for `add`, `round` and `truncate`: a function of the instant; `addDate` for `addDate`: a function
of the local time. -/
inductive Expr where
  | lit (t : T)
  | asTime (ns : Int)
  | date (wall : Int) (l : LExpr)
  | move (f : Int → Int) (e : Expr)
  | addDate (f : Int → Int) (e : Expr)
  | withLocation (e : Expr) (l : LExpr)
  | here (e : Expr)
  | utc (e : Expr)
/-- Expressions that give a location. -/
inductive LExpr where
  | here
  | utc
  | fixedZone (name : String) (offset : Int)
  | load (name : String)
  | tzData (name : String) (l : Loc)
  | location (e : Expr)
end

mutual
/-- The functions, `grpc/federation/cel/time.go` lines 430-466 (asTime, date), 468-526 (now, parse, unix), 527-565 (add,
addDate), 697-712 (withLocation), 737-748 (local), 798-818 (round), 861-893 (truncate, utc). -/
def cel (W : World) : Expr → Option Val
  | .lit t => some (toTimeValue t)
  | .asTime ns => some (toTimeValue ⟨ns, utc⟩)
  | .date wall l =>
    match celLoc W l with
    | none => none
    | some l =>
      match goLocation W l with
      | none => none
      | some l => some (toTimeValue (dateIn l wall))
  | .move f e =>
    match cel W e with
    | none => none
    | some v =>
      match goTime W v with
      | none => none
      | some t => some (toTimeValue ⟨f t.ns, t.loc⟩)
  | .addDate f e =>
    match cel W e with
    | none => none
    | some v =>
      match goTime W v with
      | none => none
      | some t => some (toTimeValue (dateIn t.loc (f t.wall)))
  | .withLocation e l =>
    match cel W e, celLoc W l with
    | some v, some l =>
      match goLocation W l, goTime W v with
      | some l, some t => some (toTimeValue ⟨t.ns, l⟩)
      | _, _ => none
    | _, _ => none
  | .here e =>
    match cel W e with
    | none => none
    | some v =>
      match goTime W v with
      | none => none
      | some t => some (toTimeValue ⟨t.ns, W.here⟩)
  | .utc e =>
    match cel W e with
    | none => none
    | some v =>
      match goTime W v with
      | none => none
      | some t => some (toTimeValue ⟨t.ns, utc⟩)

/-- `grpc/federation/cel/time.go` lines 212-227 (LOCAL, UTC), 380-416 (fixedZone, loadLocation, loadLocationFromTZData)
and 749-761 (location). -/
def celLoc (W : World) : LExpr → Option LocVal
  | .here => some ⟨"Local", 0⟩
  | .utc => some ⟨"UTC", 0⟩
  | .fixedZone name offset => some ⟨name, offset⟩
  | .load name =>
    match load W name with
    | none => none
    | some l => some ⟨l.name, 0⟩
  | .tzData name _ => some ⟨name, 0⟩
  | .location e =>
    match cel W e with
    | none => none
    | some v =>
      match goTime W v with
      | none => none
      | some t => some ⟨t.zone.abbr, t.zone.offset⟩
end

/-- `isDST`, `grpc/federation/cel/time.go` lines 713-724. -/
def isDST (W : World) (v : Val) : Option Bool := (goTime W v).map fun t => t.zone.dst

/-- `hour`, `format` and all other functions of the local time and the zone, for example `grpc/federation/cel/time.go` lines
685-696 and 673-684. -/
def reading {α : Type} (W : World) (f : Int → String → Int → α) (v : Val) : Option α :=
  (goTime W v).map fun t => f t.wall t.zone.abbr t.zone.offset

/-- `Location.string`, `grpc/federation/cel/time.go` lines 417-428. -/
def locationString (W : World) (l : LocVal) : Option String := (goLocation W l).map (·.name)

end Verif.CelTime
