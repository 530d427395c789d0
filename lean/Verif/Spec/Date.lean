import Verif.Model.Date
/-!
# The calendar, and how a text is read as a date

The Gregorian calendar, continued into the past, is given by its first principles: how long the months are, which day comes after
which, and that 1 January 1970 is day 0.
-/

namespace Verif.DateSpec
open Json Date

/-- A day of the calendar. -/
structure Day where
  year : Int
  month : Nat
  day : Nat
deriving DecidableEq

/-- Leap years. -/
def leap (y : Int) : Bool := y % 4 = 0 ∧ (y % 100 ≠ 0 ∨ y % 400 = 0)

/-- The length of a month. -/
def monthLen (y : Int) (m : Nat) : Nat :=
  if m = 2 then (if leap y then 29 else 28) else if m = 4 ∨ m = 6 ∨ m = 9 ∨ m = 11 then 30 else 31

/-- The days that exist. -/
def Day.Exists (x : Day) : Prop := 1 ≤ x.month ∧ x.month ≤ 12 ∧ 1 ≤ x.day ∧ x.day ≤ monthLen x.year x.month

/-- The day after. -/
def Day.next (x : Day) : Day :=
  if x.day < monthLen x.year x.month then ⟨x.year, x.month, x.day + 1⟩
  else if x.month < 12 then ⟨x.year, x.month + 1, 1⟩
  else ⟨x.year + 1, 1, 1⟩

/-- `cal` numbers the days of the calendar, 1 January 1970 being day 0. -/
structure IsCalendar (cal : Int → Day) : Prop where
  valid : ∀ n, (cal n).Exists
  epoch : cal 0 = ⟨1970, 1, 1⟩
  next : ∀ n, cal (n + 1) = (cal n).next

/-- `x` is the date and time of day `secs` seconds after the beginning of 1970 (no leap seconds, as in Unix time). -/
structure IsAt (cal : Int → Day) (secs : Int) (x : DateTime) : Prop where
  date : (⟨x.year, x.month, x.day⟩ : Day) = cal (secs / 86400)
  time : (x.hour * 3600 + x.minute * 60 + x.second : Int) = secs % 86400
  hour : x.hour < 24
  minute : x.minute < 60
  second : x.second < 60

/-- What chrono promises: `from_timestamp_opt` is right and succeeds at least for the years -262143 to 262142; the local time is the
time of the calendar shifted by an offset that may depend on the time. -/
structure Promise (C : Chrono) (cal : Int → Day) (offset : Int64 → Int) : Prop where
  calendar : IsCalendar cal
  right : ∀ t x, C.naive t = some x → IsAt cal t.toInt x
  total : ∀ t : Int64, -262143 ≤ (cal (t.toInt / 86400)).year → (cal (t.toInt / 86400)).year ≤ 262142 → C.naive t ≠ none
  localTime : ∀ t x, C.naive t = some x → IsAt cal (t.toInt + offset t) (C.toLocal x)

/-- A decimal number without sign. -/
def readNat (s : Str) : Option Nat := if s ≠ [] ∧ s.all Char.isDigit then some (Nat.ofDigitChars 10 s 0) else none

/-- A decimal number with or without minus sign. -/
def readInt : Str → Option Int
  | '-' :: s => (readNat s).map fun n : Nat => -Int.ofNat n
  | s => (readNat s).map Int.ofNat

/-- How a reader understands `Y-MM-DD hh:mm:ss`, where the year has any number of digits (from the back, since the year may have a sign). -/
def readDate (s : Str) : Option DateTime :=
  match s.reverse with
  | s0 :: s1 :: ':' :: m0 :: m1 :: ':' :: h0 :: h1 :: ' ' :: d0 :: d1 :: '-' :: o0 :: o1 :: '-' :: y => do
    let year ← readInt y.reverse
    let month ← readNat [o1, o0]
    let day ← readNat [d1, d0]
    let hour ← readNat [h1, h0]
    let minute ← readNat [m1, m0]
    let second ← readNat [s1, s0]
    pure ⟨year, month, day, hour, minute, second⟩
  | _ => none

end Verif.DateSpec
