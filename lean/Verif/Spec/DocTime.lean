import Verif.Model.Doc

/-!
# Dates in JSON documents

Written from RFC 3339, with the liberties Go takes when reading, and from the calendar.
-/
namespace Verif.Doc

/-- A leap year of the Gregorian calendar. -/
def LeapYear (y : Nat) : Prop := 4 ∣ y ∧ (100 ∣ y → 400 ∣ y)

/-- The last day of a month: thirty days have September, April, June and November … -/
def LastDay (year month d : Nat) : Prop :=
  (d = 30 ∧ (month = 9 ∨ month = 4 ∨ month = 6 ∨ month = 11)) ∨
  (d = 28 ∧ month = 2 ∧ ¬ LeapYear year) ∨ (d = 29 ∧ month = 2 ∧ LeapYear year) ∨
  (d = 31 ∧ (month = 1 ∨ month = 3 ∨ month = 5 ∨ month = 7 ∨ month = 8 ∨ month = 10 ∨ month = 12))

/-- A date that exists, in years 0 to 9999, with a time of day and nanoseconds. -/
structure Time.Exists (t : Time) : Prop where
  year : t.year ≤ 9999
  day : 1 ≤ t.day ∧ ∃ d, LastDay t.year t.month d ∧ t.day ≤ d
  hour : t.hour ≤ 23
  min : t.min ≤ 59
  sec : t.sec ≤ 59
  nano : t.nano < 10 ^ 9

/-- The same with a time zone less than a day away: what RFC 3339 can say. -/
structure Time.Valid (t : Time) : Prop where
  date : t.Exists
  off : t.off.natAbs < 24 * 60

/-- The number that a text of decimal digits writes. -/
def decimal (s : Str) : Nat := s.foldl (fun n c => 10 * n + (c.toNat - '0'.toNat)) 0

/-- Exactly `n` digits, writing `v`. -/
def Digs (n : Nat) (s : Str) (v : Nat) : Prop := s.length = n ∧ (∀ c ∈ s, '0' ≤ c ∧ c ≤ '9') ∧ decimal s = v

/-- The fraction of a second: nothing, or a point or comma and digits, of which the first nine count. -/
def FracOf (s : Str) (nano : Nat) : Prop :=
  (s = [] ∧ nano = 0) ∨
  ∃ p d, (p = '.' ∨ p = ',') ∧ s = p :: d ∧ d ≠ [] ∧ (∀ c ∈ d, '0' ≤ c ∧ c ≤ '9') ∧
    nano = decimal (d.take 9) * 10 ^ (9 - d.length)

/-- The time zone: `Z`, or a sign, hours up to 24 and minutes up to 60. -/
def ZoneOf (s : Str) (off : Int) : Prop :=
  (s = ['Z'] ∧ off = 0) ∨
  ∃ g h m H M, s = g :: (h ++ ':' :: m) ∧ Digs 2 h H ∧ Digs 2 m M ∧ H ≤ 24 ∧ M ≤ 60 ∧
    ((g = '+' ∧ off = H * 60 + M) ∨ (g = '-' ∧ off = -(H * 60 + M)))

/-- The texts Go takes for a time: a date that exists, `T`, an hour of one or two digits, minutes, seconds, a fraction and a
time zone. -/
def TimeText (s : Str) (t : Time) : Prop :=
  ∃ y mo d h mi se fr z : Str,
    s = y ++ '-' :: (mo ++ '-' :: (d ++ 'T' :: (h ++ ':' :: (mi ++ ':' :: (se ++ (fr ++ z)))))) ∧
    Digs 4 y t.year ∧ Digs 2 mo t.month ∧ Digs 2 d t.day ∧ (Digs 2 h t.hour ∨ Digs 1 h t.hour) ∧ Digs 2 mi t.min ∧
    Digs 2 se t.sec ∧ FracOf fr t.nano ∧ ZoneOf z t.off ∧ t.Exists

end Verif.Doc
