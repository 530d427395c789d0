import Verif.Spec.Cli
import Verif.Spec.CliRescue
/-!
# Specification: which files a command may write, and sequences of commands (C71)
-/

namespace Verif.SessionSpec
open PathSpec Command Cli CliSpec RescueSpec

/-- A command with these options may write the file at `q`.

`encode`, `decode` and `sort` write to the place the user named or may expect; a file that is there only if they are told to overwrite.  `repair`
and `update` write to the container named, unless this is a dry run.  `rescue` writes to files of the output directory named by 12 hexadecimal
digits, and to the log.  The others write nothing. -/
def MayWrite (w : World) (m : Matches) (q : Place) : Cmd → Prop
  | .calc | .check | .show => False
  | .encode => m.flag .infoOnly = false ∧ (w.fs q = none ∨ m.flag .force = true) ∧
      ∃ v dpb i o, GivenSettings m v dpb ∧ GivenName m .inFile i ∧ GivenNameOpt m .out o ∧
        OutPlace w.fs w.cwd (if v.usesRs then ".ecsbx".toList else ".sbx".toList) i o q
  | .decode => (w.fs q = none ∨ m.flag .force = true ∨ m.flag .multiPass = true ∨ m.flag .multiPassNoSkip = true) ∧
      ∃ o, GivenNameOpt m .out o ∧ DecodePlace w.fs w.cwd o q
  | .sort => m.flag .dryRun = false ∧
      (w.fs q = none ∨ m.flag .force = true ∨ m.flag .multiPass = true ∨ m.flag .multiPassNoSkip = true) ∧
      ∃ i o, GivenName m .inFile i ∧ GivenNameOpt m .out o ∧ OutPlace w.fs w.cwd ".sorted".toList i o q
  | .repair | .update => m.flag .dryRun = false ∧ (∃ f, w.fs q = some (.file f)) ∧ ∃ i, GivenName m .inFile i ∧ leads w.fs w.cwd i = some q
  | .rescue => (∃ o d u, GivenName m .outDir o ∧ leads w.fs w.cwd o = some d ∧ q = d ++ [hexName u]) ∨
      ∃ l, GivenName m .logFile l ∧ leads w.fs w.cwd l = some q ∧ IsLog w.fs q

/-- If the command is `rescue`: what it leaves is what rescuing may leave, and neither the image nor the log is among the files it writes. -/
def Faithful (T : Shell) (m : Matches) (c : Cmd) : Prop :=
  c = .rescue → ∀ p i o l, GivenRescue m p i o l → T.world.exists i = true → T.world.isDir o = true →
    (∃ E, T.world.Rescued E p i o l (T.rescued p i o l)) ∧ ∀ lp old, LogAt T.world l lp old → Apart T.world i o lp

/-- Any number of commands, one after the other, each started in any working directory with any options such that `P` holds, and in any
surroundings; the files are those which the command before has left. -/
inductive Session (P : World → Matches → Cmd → Prop) : Fs → Fs → Prop
  | start {fs : Fs} : Session P fs fs
  | run {fs : Fs} (T : Shell) (m : Matches) (c : Cmd) : Session P fs T.world.fs → Faithful T m c → P T.world m c → Session P fs (T.run m c).1

/-- A command with these options leaves the existing file at `q` alone: none of those which overwrite is used (`--force`, `--multi-pass`,
`--multi-pass-no-skip`), it is not repaired or updated, except for dry runs, and it is not in the directory to which files are rescued, and not the log. -/
def Spares (q : Place) (w : World) (m : Matches) : Cmd → Prop
  | .calc | .check | .show => True
  | .encode => m.flag .force = false
  | .decode | .sort => m.flag .force = false ∧ m.flag .multiPass = false ∧ m.flag .multiPassNoSkip = false
  | .repair | .update => m.flag .dryRun = true ∨ ∀ i, GivenName m .inFile i → leads w.fs w.cwd i ≠ some q
  | .rescue => (∀ o d n, GivenName m .outDir o → leads w.fs w.cwd o = some d → q ≠ d ++ [n]) ∧
      ∀ l, GivenName m .logFile l → leads w.fs w.cwd l ≠ some q

end Verif.SessionSpec
