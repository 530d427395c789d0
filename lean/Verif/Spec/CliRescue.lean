import Verif.Model.CliRescue
import Verif.Spec.Rescue
/-!
# Specification: what rescuing leaves in the output directory (C70)
-/

namespace Verif.RescueSpec
open PathSpec Command

/-- The name of the file for the blocks with a uid: 12 upper case hexadecimal digits. -/
def hexName (u : Uid) : Name := text (Misc.upperHex u.bytes)

/-- The bytes of a file; none if it does not exist. -/
def bytesAt (fs : Fs) (q : Place) : List Byte := match fs q with | some (.file c) => c | _ => []

/-- The log, if it exists. -/
def logIn (fs : Fs) : Option Place → Option File
  | none => none
  | some q => match fs q with | some (.file c) => some c | _ => none

open Classical in
/-- The files for blocks in the directory `d`. -/
noncomputable def dirAt (fs : Fs) (d : Place) : Dir :=
  fun name => if ∃ u : Uid, name = Misc.upperHex u.bytes then bytesAt fs (d ++ [text name]) else []

/-- The files after any number of runs of `rescue i o` (with the log `l`), none of which met a read error; each may have been stopped by Ctrl-C,
or may have failed because of a file that could not be opened. -/
inductive Attempts (w : World) (p : Rescue.Param) (i o : List Char) (l : Option (List Char)) : Fs → Prop
  | start : Attempts w p i o l w.fs
  | again {fs : Fs} {E : Rescue.Env} {r : Fs × Bool} : Attempts w p i o l fs → Ok E → NoErr E →
      World.Rescued { w with fs := fs } E p i o l r → Attempts w p i o l r.1

/-- The file at `q` is a log, or there is none. -/
def IsLog (fs : Fs) (q : Place) : Prop := fs q = none ∨ ∃ c, fs q = some (.file c) ∧ Rescue.ascii "bytes_processed=" <+: c

end Verif.RescueSpec
