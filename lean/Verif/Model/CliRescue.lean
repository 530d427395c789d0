import Verif.Model.Paths
import Verif.Model.Rescue
/-!
# Rescue on a file system

`rescue_from_file`, `src/rescue_core.rs` 237-455, with the names it is called with (`src/cli_rescue.rs` 73-99): where the files of the output
directory and the log are, and what is there afterwards.  What the threads do is `Verif/Model/Rescue.lean`; since the order of their steps and the
moments at which the log is written are not determined, the outcome is a relation.  The operating system takes all bytes it is given
(`Verif/Model/DeviceRescue.lean` is about one that does not).
-/

namespace Verif.Command
open PathSpec Rescue Pipeline

/-- A text of ASCII characters. -/
def text (bs : List Byte) : Name := bs.map fun b => Char.ofNat b.toNat

/-- `make_path(&[out_dir, &uid_str])`, `src/rescue_buffer/mod.rs` 116-117. -/
def rescuePath (outDir : List Char) (name : List Byte) : List Char := makePath [outDir, text name]

/-- What the writer does next, `src/rescue_buffer/mod.rs` 119-133: open the file for appending (creating it), append, close.  `none`: it cannot be
opened.  (The code opens a file once for all blocks of a group.) -/
def World.put (w : World) (outDir : List Char) (fs : Fs) : Event → Option Fs
  | .stats _ => some fs
  | .append name bs =>
    match { w with fs := fs }.open (rescuePath outDir name) with
    | none => none
    | some (q, old) => some (fs.set q (old ++ bs))

def World.putAll (w : World) (outDir : List Char) : Fs → List Event → Option Fs
  | fs, [] => some fs
  | fs, e :: es =>
    match w.put outDir fs e with
    | none => none
    | some fs => w.putAll outDir fs es

/-- The log file, `src/log.rs` 67-100 and 175-193: its place (`none`: there is no such option, or the path leads nowhere) and what is in it
(`none`: it does not exist).  A directory is neither; reading it fails. -/
inductive LogAt (w : World) : Option (List Char) → Option Place → Option File → Prop
  | noOption : LogAt w none none none
  | nowhere {path} : leads w.fs w.cwd path = none → LogAt w (some path) none none
  | new {path pl} : leads w.fs w.cwd path = some pl → w.fs pl = none → LogAt w (some path) (some pl) none
  | file {path pl c} : leads w.fs w.cwd path = some pl → w.fs pl = some (.file c) → LogAt w (some path) (some pl) (some c)

/-- The log thread could write to the log, `src/log.rs` 84-100. -/
def World.canLog (w : World) : Option Place → Prop
  | none => False
  | some pl => w.canOpen pl = true

/-- What the log holds when the process has ended, the writer having done `done`: what it held before, or the counters at some moment (`src/log.rs`
120-136; the last counters need not get there, C59_log_violated). -/
def World.LeftLog (w : World) (lp : Option Place) (old : Option File) (c : Counters) (done : List Event) (log : Option File) : Prop :=
  log = old ∨ w.canLog lp ∧ ∃ c', (c' = c ∨ .stats c' ∈ done) ∧ log = some c'.serialize

/-- The files with the log written. -/
def setLog (fs : Fs) : Option Place → Option File → Fs
  | some pl, some c => fs.set pl c
  | _, _ => fs

/-- No file the command may write to is its input, and the log is none of the files of blocks. -/
structure Apart (w : World) (i o : List Char) (lp : Option Place) : Prop where
  image : ∀ (u : Uid) q, leads w.fs w.cwd (rescuePath o (Misc.upperHex u.bytes)) = some q → leads w.fs w.cwd i ≠ some q
  log : ∀ (u : Uid) q, leads w.fs w.cwd (rescuePath o (Misc.upperHex u.bytes)) = some q → lp ≠ some q
  logImage : lp = none ∨ leads w.fs w.cwd i ≠ lp

/-- Why the writer may have stopped before doing `rest`: a file cannot be opened, or there was an error with the log,
`src/rescue_core.rs` 414-424. -/
def World.Hindered (w : World) (o : List Char) (l : Option (List Char)) (lp : Option Place) (fs : Fs) (rest : List Event) : Prop :=
  (∃ e es, rest = e :: es ∧ w.put o fs e = none) ∨ (l ≠ none ∧ ¬ w.canLog lp)

/-- `rescue_from_file` with the image `i`, the output directory `o` and the log `l`: the files afterwards, and whether success is reported. -/
inductive World.Rescued (w : World) (E : Rescue.Env) (p : Rescue.Param) (i o : List Char) (l : Option (List Char)) : Fs × Bool → Prop
  /-- the log cannot be read, lines 274-275 -/
  | badLog {path pl} : l = some path → leads w.fs w.cwd path = some pl → w.fs pl = some .dir → Rescued w E p i o l (w.fs, false)
  /-- the log cannot be read because its path leads through something that is no directory -/
  | noLog {path} : l = some path → leads w.fs w.cwd path = none → Rescued w E p i o l (w.fs, false)
  /-- it is no log -/
  | refused {ip f lp old} : leads w.fs w.cwd i = some ip → w.fs ip = some (.file f) → LogAt w l lp old → readLog (required p f) old = none →
      Rescued w E p i o l (w.fs, false)
  /-- the image is a directory: reading fails, perhaps after the log has been read (with the size a directory has) and written -/
  | directory {ip lp old log} {c : Counters} : leads w.fs w.cwd i = some ip → w.fs ip = some .dir → LogAt w l lp old → w.LeftLog lp old c [] log →
      (log = old ∨ ∃ size, readLog size old = some c) → Rescued w E p i o l (setLog w.fs lp log, false)
  /-- the threads have ended -/
  | ran {ip f lp old c k s done rest fs log} : leads w.fs w.cwd i = some ip → w.fs ip = some (.file f) → LogAt w l lp old → Apart w i o lp →
      readLog (required p f) old = some c →
      (ring E p f (required p f)).Steps k (initial E p f c) s → (∀ s', ¬ (ring E p f (required p f)).Step s s') → (s.thread 0).st.hung = false →
      (s.thread 2).st.events = done ++ rest → w.putAll o w.fs done = some fs → (rest = [] ∨ w.Hindered o l lp fs rest) →
      w.LeftLog lp old c done log →
      Rescued w E p i o l (setLog fs lp log, rest.isEmpty && !(s.thread 0).st.failed)
  /-- the image or the log is overwritten while it is used: anything may happen -/
  | mixed {ip lp old r} : leads w.fs w.cwd i = some ip → LogAt w l lp old → ¬ Apart w i o lp → Rescued w E p i o l r

end Verif.Command
