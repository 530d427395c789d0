import Verif.Model.Report
/-!
# Model of the texts of dates: `i64_secs_to_date_time_string`, `src/time_utils.rs` 31-64

The conversions are done by the crate chrono, which is a parameter; what it promises is in `Verif/Spec/Date.lean`.
-/

namespace Verif.Date
open Json Report

/-- The six numbers taken from a `NaiveDateTime` or `DateTime<Local>`, lines 35-42 and 45-52: `year()` is an `i32`, the others are `u32`. -/
structure DateTime where
  year : Int
  month : Nat
  day : Nat
  hour : Nat
  minute : Nat
  second : Nat
deriving DecidableEq

/-- What is used of chrono. -/
structure Chrono where
  /-- `NaiveDateTime::from_timestamp_opt(secs, 0)`, line 32 -/
  naive : Int64 → Option DateTime
  /-- `Local.from_utc_datetime(&x)`, line 44 -/
  toLocal : DateTime → DateTime

/-- `TimeMode`, lines 3-6. -/
inductive TimeMode
  | utc
  | loc

/-- `{}` of an `i32`. -/
def intText (n : Int) : Str := if n < 0 then '-' :: dec n.natAbs else dec n.natAbs

/-- `"{}-{:02}-{:02} {:02}:{:02}:{:02}"`, lines 59-62. -/
def format (x : DateTime) : Str :=
  intText x.year ++ '-' :: (pad2 x.month ++ '-' :: (pad2 x.day ++ ' ' :: (pad2 x.hour ++ ':' :: (pad2 x.minute ++ ':' :: pad2 x.second))))

/-- `i64_secs_to_date_time_string`, lines 31-64. -/
def dateTimeString (C : Chrono) (mode : TimeMode) (secs : Int64) : Option Str :=
  match C.naive secs with
  | none => none
  | some x => match mode with
    | .utc => some (format x)
    | .loc => some (format (C.toLocal x))

end Verif.Date
