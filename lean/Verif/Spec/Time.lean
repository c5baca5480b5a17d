import Verif.Model.OpenTag
import Verif.Model.Meta
/-!
The calendar and the clock, and how they are written.
-/
namespace Verif.Spec.Time
open Verif.OpenTag

/-- every fourth year is a leap year, but of the centuries only every fourth -/
def Leap (y : Nat) : Prop := 4 ∣ y ∧ (100 ∣ y → 400 ∣ y)

instance (y : Nat) : Decidable (Leap y) := by unfold Leap; infer_instance

def daysOfMonth (y m : Nat) : Nat :=
  if m = 4 ∨ m = 6 ∨ m = 9 ∨ m = 11 then 30 else if m = 2 then (if Leap y then 29 else 28) else 31

def daysOfYear (y : Nat) : Nat := if Leap y then 366 else 365

/-- the days from the first of January 1970 to the first of January -/
def daysToYear (y : Nat) : Nat := ((List.range' 1970 (y - 1970)).map daysOfYear).sum

/-- the days of a year before a month -/
def daysToMonth (y m : Nat) : Nat := ((List.range' 1 (m - 1)).map (daysOfMonth y)).sum

/-- the seconds from the beginning of 1970 -/
def seconds (y mo d h mi s : Nat) : Nat := ((daysToYear y + daysToMonth y mo + (d - 1)) * 24 + h) * 3600 + mi * 60 + s

/-- what a text of digits means -/
def value (s : Str) : Nat := s.foldl (fun n c => 10 * n + (c.toNat - 48)) 0

/-- a number, written with `n` digits -/
def Digits (n : Nat) (s : Str) (v : Nat) : Prop := s.length = n ∧ (∀ c ∈ s, '0' ≤ c ∧ c ≤ '9') ∧ value s = v

/-- a day, such as `2024-12-22` -/
def IsDate (s : Str) (y mo d : Nat) : Prop :=
  1 ≤ mo ∧ mo ≤ 12 ∧ 1 ≤ d ∧ d ≤ daysOfMonth y mo ∧ ∃ a b c, Digits 4 a y ∧ Digits 2 b mo ∧ Digits 2 c d ∧ s = a ++ '-' :: b ++ '-' :: c

/-- a time in UTC, such as `13:08:09+0000` -/
def IsTime (s : Str) (h mi sec : Nat) : Prop :=
  h < 24 ∧ mi < 60 ∧ sec < 60 ∧ ∃ a b c, Digits 2 a h ∧ Digits 2 b mi ∧ Digits 2 c sec ∧ s = a ++ ':' :: b ++ ':' :: c ++ "+0000".toList

/-- the four texts that tell a second of the years 1970 to 9999: the year, the day, the time, and the two together -/
def Tells (year date time both : Str) (ts : Nat) : Prop :=
  ∃ y mo d h mi s, 1970 ≤ y ∧ IsDate date y mo d ∧ IsTime time h mi s ∧ Digits 4 year y ∧ both = date ++ ' ' :: time ∧ seconds y mo d h mi s = ts

/-- the value of an attribute is a text -/
def Is (m : DocumentMeta) (name : String) (s : Str) : Prop := m.get name = some (.string (String.ofList s))

/-- four attributes tell a second -/
def AttrsTell (m : DocumentMeta) (year date time both : String) (ts : Nat) : Prop :=
  ∃ y d t b, Is m year y ∧ Is m date d ∧ Is m time t ∧ Is m both b ∧ Tells y d t b ts

/-- a time in some zone, such as `10:00:00-0700`: the zone is that many seconds ahead of UTC -/
def IsTimeIn (s : Str) (h mi sec : Nat) (ahead : Int) : Prop :=
  h < 24 ∧ mi < 60 ∧ sec < 60 ∧ ∃ a b c x y zh zm, Digits 2 a h ∧ Digits 2 b mi ∧ Digits 2 c sec ∧ Digits 2 x zh ∧ Digits 2 y zm ∧ zm < 60 ∧
    ((ahead = ((zh * 60 + zm) * 60 : Nat) ∧ s = a ++ ':' :: b ++ ':' :: c ++ '+' :: x ++ y) ∨
     (ahead = -((zh * 60 + zm) * 60 : Nat) ∧ 0 < zh + zm ∧ s = a ++ ':' :: b ++ ':' :: c ++ '-' :: x ++ y))

end Verif.Spec.Time
