import Verif.Model.Images
/-!
Model of the attributes with dates and times: `parser/src/tasks/time.rs` and `parser/src/parser.rs:61-68`.

The library `jiff` is not in the repository. What it does with seconds is modelled by what its documentation says: seconds since the first of January
1970, in the Gregorian calendar, up to the end of the 22nd hour of the 30th of December 9999. How it reads dates and times is left open (`Lib`).
-/
namespace Verif.Time
open Verif.OpenTag

/-- `jiff::civil::Date`. Simplification: no years before the year 0. -/
structure Date where
  year : Nat
  month : Nat
  day : Nat
deriving DecidableEq, Repr

/-- the time of a day, in a zone that many seconds ahead of UTC -/
structure Clock where
  hour : Nat
  minute : Nat
  second : Nat
  offset : Int := 0
deriving DecidableEq, Repr

/-- how `jiff` reads texts: `Date::strptime("%Y-%m-%d", s)` (`time.rs:49`), and the time and the zone of
`Zoned::strptime("%Y-%m-%d %H:%M:%S%z", "2000-01-01 " + s)` (`time.rs:56`) -/
structure Lib where
  date : Str → Option Date
  time : Str → Option Clock

/-- the days of a year, of the Gregorian calendar -/
def isLeap (y : Nat) : Bool := y % 4 == 0 && (y % 100 != 0 || y % 400 == 0)

/-- the months of a year -/
def months (y : Nat) : List Nat := [31, if isLeap y then 29 else 28, 31, 30, 31, 30, 31, 31, 30, 31, 30, 31]

/-- the year of a day that is `d` days after the beginning of the year `y`, and the days before it in its year -/
def yearFrom : Nat → Nat → Nat → Nat × Nat
  | 0, y, d => (y, d)
  | fuel + 1, y, d =>
    let n := if isLeap y then 366 else 365
    if d < n then (y, d) else yearFrom fuel (y + 1) (d - n)

/-- the months before a day, and the days before it in its month -/
def monthFrom : List Nat → Nat → Nat × Nat
  | [], d => (0, d)
  | n :: ns, d => if d < n then (0, d) else ((monthFrom ns (d - n)).1 + 1, (monthFrom ns (d - n)).2)

/-- the date of a day -/
def dateOf (days : Nat) : Date :=
  let y := yearFrom (days / 365 + 1) 1970 days
  let m := monthFrom (months y.1) y.2
  ⟨y.1, m.1 + 1, m.2 + 1⟩

/-- the last second that there is: `jiff::Timestamp::MAX` -/
def lastSecond : Nat := 253402207200

/-- `time.rs:41-45` — `to_zoned`; `none`: it panics -/
def toZoned (s : Nat) : Option (Date × Clock) :=
  if s ≤ lastSecond then some (dateOf (s / 86400), ⟨s % 86400 / 3600, s % 3600 / 60, s % 60, 0⟩) else none

/-- `Date::to_zoned(UTC)`: the last day is not over when time is -/
def inRange (d : Date) : Bool := !(d.year == 9999 && d.month == 12 && d.day == 31)

/-- `time.rs:47-52` — `date_from_attr_or`; `none`: it panics -/
def dateOr (lib : Lib) (attr : Option Str) (s : Nat) : Option Date :=
  match attr.bind lib.date with
  | some d => if inRange d then some d else none
  | none => (toZoned s).map (·.1)

/-- `time.rs:54-58` — `time_from_attr_or`; `none`: it panics -/
def timeOr (lib : Lib) (attr : Option Str) (s : Nat) : Option Clock :=
  match attr.bind lib.time with
  | some t => some t
  | none => (toZoned s).map (·.2)

def digit (n : Nat) : Char := Char.ofNat (48 + n % 10)
def two (n : Nat) : Str := [digit (n / 10), digit n]
def four (n : Nat) : Str := [digit (n / 1000), digit (n / 100), digit (n / 10), digit n]

/-- `strftime("%Y-%m-%d")` -/
def Date.show (d : Date) : Str := four d.year ++ '-' :: two d.month ++ '-' :: two d.day

/-- `strftime("%z")` -/
def zone (o : Int) : Str :=
  (if o < 0 then '-' else '+') :: two (o.natAbs / 3600) ++ two (o.natAbs % 3600 / 60) ++ (if o.natAbs % 60 = 0 then [] else two (o.natAbs % 60))

/-- `strftime("%H:%M:%S%z")` -/
def Clock.show (t : Clock) : Str := two t.hour ++ ':' :: two t.minute ++ ':' :: two t.second ++ zone t.offset

/-- `time.rs:8-38` — the attributes that `set_datetime_attrs` sets, in order; `none`: it panics -/
def datetimeAttrs (lib : Lib) (m : DocumentMeta) (now : Nat) (mtime reproducible : Option Nat) : Option (List (String × Str)) := do
  let docTs := reproducible.getD (mtime.getD now)
  let nowTs := reproducible.getD now
  let date ← dateOr lib (Images.str m "docdate") docTs
  let time ← timeOr lib (Images.str m "doctime") docTs
  let z ← toZoned nowTs
  return [("docyear", Nat.toDigits 10 date.year), ("docdate", date.show), ("doctime", time.show),
    ("docdatetime", date.show ++ ' ' :: time.show), ("localyear", Nat.toDigits 10 z.1.year), ("localdate", z.1.show), ("localtime", z.2.show),
    ("localdatetime", z.1.show ++ ' ' :: z.2.show)]

/-- `parser/src/tasks/attr_refs.rs:103-109` — `insert_job_attr`; `none`: it panics -/
def insertJob (m : DocumentMeta) (k : String) (v : Str) : Option DocumentMeta :=
  match m.insertJobAttr k ⟨true, .string (String.ofList v)⟩ with
  | (m, none) => some m
  | (_, some _) => none

/-- `parser/src/parser.rs:61-68` — `provide_timestamps`; `none`: it panics -/
def provideTimestamps (lib : Lib) (m : DocumentMeta) (now : Nat) (mtime reproducible : Option Nat) : Option DocumentMeta :=
  (datetimeAttrs lib m now mtime reproducible).bind fun l => l.foldlM (fun m a => insertJob m a.1 a.2) m

end Verif.Time
