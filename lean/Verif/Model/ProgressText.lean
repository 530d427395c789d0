import Verif.Model.Progress
import Verif.Model.Report
/-!
# The texts of progress reports: `make_message` and the printing in `print_progress` and `pause`, `src/progress_report.rs`

The events of `Verif/Model/Progress.lean` as text on standard error.  Rates, times and rounded counts are computed with `f64`; they are
parameters here, as texts and whole seconds.
-/

namespace Verif.Progress
open Json Report

/-- The results of the computations with `f64` of `make_message`, lines 449-486, for one message. -/
structure Times where
  /-- `make_readable_rate(cur_rate, unit)`, lines 581-598 -/
  cur : Str
  /-- `make_readable_rate(avg_rate, unit)` -/
  avg : Str
  /-- `time_used as i64` -/
  used : Int
  /-- `time_left as i64` -/
  left : Int
  /-- `cur_rate`, `avg_rate`, `time_used` and `time_left`, printed with `{}`; the first and the last only if there are any -/
  curNum : Option Str
  avgNum : Str
  usedNum : Str
  leftNum : Option Str

/-- What is fixed for a reporter: its header, the name of its unit, and how numbers above 1000 are shown (computed with `f64`). -/
structure Words where
  header : Str
  unit : Str
  big : Nat → Str

/-- `{:3}` of a number. -/
def padLeft (w : Nat) (s : Str) : Str := List.replicate (w - s.length) ' ' ++ s

/-- `{1:0$}` of a text: filled up with blanks. -/
def padRight (w : Nat) (s : Str) : Str := s ++ List.replicate (w - s.length) ' '

/-- `make_readable_count`, lines 561-579. -/
def readableCount (w : Words) (n : Nat) : Str := (if n ≤ 1000 then padLeft 7 (dec n) else w.big n) ++ " ".toList ++ w.unit

/-- `make_message` for the elements shown while a command is running (lines 129-136, 368-447 and 532-546): bar, percentage, count, current
rate, time used and time left, each followed by two blanks. -/
def activeMessage (w : Words) (t : Times) (units diff : Nat) (percent : Option Nat) : Str :=
  (match percent with
    | some p => makeProgressBar p ++ "  ".toList ++ padLeft 3 (dec p) ++ "%  ".toList
    | none => []) ++
  readableCount w units ++ "  cur : ".toList ++ (if diff = 0 then "N/A".toList else t.cur) ++ "  used : ".toList ++ timeText t.used ++ "  ".toList ++
  (if diff = 0 ∨ percent = none then "N/A".toList else "left : ".toList ++ timeText t.left) ++ "  ".toList

/-- `make_message` for the elements shown at the end, line 137. -/
def finishMessage (w : Words) (t : Times) (units : Nat) : Str :=
  "Processed : ".toList ++ readableCount w units ++ "  Time elapsed : ".toList ++ timeText t.used ++ "  Average rate : ".toList ++ t.avg ++ "  ".toList

/-- `", \"key\": value "`, e.g. lines 495-499; the keys are `to_camelcase` of words, e.g. `units so far`. -/
def jsonField (key : String) (v : Str) : Str := ",\"".toList ++ key.toList ++ "\": ".toList ++ v ++ " ".toList

def jsonOpt (key : String) : Option Str → Str
  | some v => jsonField key v
  | none => []

/-- The object printed with `--json`, lines 293-305 and 489-530, without the newline. -/
def objectText (w : Words) (t : Times) (units : Nat) (total : Option Nat) : Str :=
  "{\"header\": \"".toList ++ w.header ++ "\", \"unit\": \"".toList ++ w.unit ++ "\"".toList ++ jsonField "unitsSoFar" (dec units) ++
    jsonOpt "totalUnits" (total.map dec) ++ jsonOpt "curPerSec" t.curNum ++ jsonField "avgPerSec" t.avgNum ++
    jsonField "timeUsed" t.usedNum ++ jsonOpt "timeLeft" t.leftNum ++ "}".toList

/-- What appears on the terminal: reports, and lines that the command itself prints. -/
inductive Out
  | report (e : Event)
  | say (text : Str)

/-- What is written for one event, and `max_print_length` afterwards: lines 293-344 of `print_progress` and 207-215 of `pause`. -/
def emit (w : Words) (t : Times) (maxLen : Nat) : Out → Nat × Str
  | .report .header => (maxLen, w.header ++ ['\n'])
  | .report (.line units diff percent) =>
    let m := activeMessage w t units diff percent
    (max maxLen (byteLen m), '\r' :: padRight (max maxLen (byteLen m)) m)
  | .report (.finish units) =>
    let m := finishMessage w t units
    (max maxLen (byteLen m), '\r' :: padRight (max maxLen (byteLen m)) m ++ ['\n'])
  | .report (.object units total) => (maxLen, objectText w t units total ++ ['\n'])
  | .report .erase => (maxLen, '\r' :: List.replicate maxLen ' ' ++ ['\r'])
  | .say text => (maxLen, text ++ ['\n'])

/-- Everything that is written; `clock k` belongs to the `k`th event. -/
def render (w : Words) (clock : Nat → Times) : (k maxLen : Nat) → List Out → Str
  | _, _, [] => []
  | k, maxLen, o :: os =>
    (emit w (clock k) maxLen o).2 ++ render w clock (k + 1) (emit w (clock k) maxLen o).1 os

end Verif.Progress
