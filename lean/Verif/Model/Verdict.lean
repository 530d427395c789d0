import Verif.Model.Decode
import Verif.Model.Check
import Verif.Model.Repair
/-!
# Model of the last line of the statistics: what is said in words

Without `--json` the statistics of `decode`, `check` and `repair` end with a line that says in words what the numbers mean.
-/

namespace Verif.Verdict

/-- `src/decode_core.rs` 441-460. -/
def decode (r : Decode.Report) : String :=
  match r.recorded, r.computed with
  | some recorded, some computed =>
    if recorded.digest = computed.digest then "The output file hash matches the recorded hash"
    else "The output file hash does NOT match the recorded hash"
  | some _, none => "No hash is available for output file"
  | none, some _ => "No recorded hash is available"
  | none, none => "Neither recorded hash nor output file hash is available"

/-- `src/check_core.rs` 282-304; only with hashing.  `errText` is the text of an error.  That there is no recorded hash, or no result, does
not occur (line 519). -/
def check (errText : Scan.Err → String) (r : Check.Report) : Option String :=
  r.hash.map fun x =>
    match x.2 with
    | .ok computed =>
      if x.1.digest = computed.digest then "The hash of stored data matches the recorded hash"
      else "The hash of stored data does NOT match the recorded hash"
    | .error e => "Encountered error while hashing stored data, " ++ errText e

/-- `src/repair_core.rs` 154-167. -/
def repair (s : Repair.Stats) : String :=
  if s.failed = 0 then "No repairs required"
  else if s.repairFailed = 0 then "All corrupted/missing blocks were repaired successfully"
  else if s.failed = s.repairFailed then "All repairs failed"
  else "Some repairs failed"

end Verif.Verdict
