import Verif.Spec.Scan
import Verif.Model.Rescue
/-!
# Specification of rescuing: what the output directory has to contain, and what an interruption leaves behind

Only the events of `Verif/Model/Rescue.lean` (appends and counter updates, in the order in which the writer issues them), the log
text and the range calculation are referred to; buffers, groups and threads are not.
-/

namespace Verif.RescueSpec
open Format ScanSpec Misc Rescue

/-- The output directory: contents by file name.  A file that does not exist has no contents. -/
abbrev Dir := List Byte → List Byte

def carryOut (d : Dir) : Event → Dir
  | .append name bs => Function.update d name (d name ++ bs)
  | .stats _ => d

/-- The directory after some events. -/
def Dir.after (d : Dir) (evs : List Event) : Dir := evs.foldl carryOut d

/-- Where the scan starts. -/
def base (p : Param) (f : File) : Nat := seekTo p f 0

/-- Does the user want this block? -/
def Wanted (p : Param) (b : Block) : Prop :=
  (∀ t, p.onlyBlock = some t → b.blockType = t) ∧ (∀ u, p.onlyUid = some u → b.header.uid = u)

instance (p : Param) (b : Block) : Decidable (Wanted p b) := by
  unfold Wanted
  refine @instDecidableAnd _ _ ?_ ?_
  · cases h : p.onlyBlock with
    | none => exact isTrue (by simp)
    | some t => exact decidable_of_iff (b.blockType = t) (by simp)
  · cases h : p.onlyUid with
    | none => exact isTrue (by simp)
    | some t => exact decidable_of_iff (b.header.uid = t) (by simp)

/-- The blocks to be saved: those the walk over the selected range meets, if the user wants them.  Positions are relative to the
start of the scan. -/
def saved (p : Param) (f : File) : List (Nat × Block) :=
  (walk (required p f) 0 (f.drop (base p f))).filter fun x => Wanted p x.2

/-- The bytes of a block found. -/
def bytesOf (p : Param) (f : File) (x : Nat × Block) : List Byte :=
  f.readAt (base p f + x.1) (blockLen x.2.header.version)

/-- The name of the file a block belongs into. -/
def nameOf (b : Block) : List Byte := upperHex b.header.uid.bytes

/-- The blocks among `l` that belong into the file `name`, one after the other. -/
def contents (p : Param) (f : File) (name : List Byte) (l : List (Nat × Block)) : List Byte :=
  (l.filter fun x => nameOf x.2 = name).flatMap (bytesOf p f)

/-- What a process that dies while a rescue is running leaves of the appends it has issued: all of `done`, and of the next one an
arbitrary part. -/
def Dir.torn (d : Dir) (done : List Event) (next : Option Event) (cut : Nat) : Dir :=
  match next with
  | some (.append name bs) => (d.after done).after [.append name (bs.take cut)]
  | _ => d.after done

/-- What may then be in the log file, if `log` was there before and `c` was read from it: it may not have been written at all; or it
was last written when the counters had been set by some event of `done` (or not yet), and that write may have been cut short. -/
inductive LogAfter (log : Option File) (c : Counters) (done : List Event) : Option File → Prop
  | untouched : LogAfter log c done log
  | written {c' : Counters} (n : Nat) : c' = c ∨ .stats c' ∈ done → LogAfter log c done (some (c'.serialize.take n))

/-- The environments considered. -/
structure Ok (E : Env) : Prop where
  buffers : 1 ≤ E.buffers
  slots : 1 ≤ E.slots
  order : ∀ n g, (E.order n g).Perm g

/-- No read ever fails. -/
def NoErr (E : Env) : Prop := ∀ n, E.err n = .none

/-- The writer's events at some point of a run that started with the counters `c`. -/
def Issued (E : Env) (p : Param) (f : File) (c : Counters) (evs : List Event) : Prop :=
  ∃ k s, (ring E p f (required p f)).Steps k (initial E p f c) s ∧ (s.thread 2).st.events = evs

/-- Directory and log after any number of runs that were stopped or died at any moment, each resuming from the log the previous ones
left.  A run that does not accept the log changes nothing. -/
inductive Interrupted (p : Param) (f : File) (d0 : Dir) : Dir → Option File → Prop
  | fresh : Interrupted p f d0 d0 none
  | died {d : Dir} {log log' : Option File} {c : Counters} {E : Env} {done rest : List Event} (cut : Nat) :
      Interrupted p f d0 d log → Ok E → readLog (required p f) log = some c → Issued E p f c (done ++ rest) →
      LogAfter log c done log' → Interrupted p f d0 (d.torn done rest.head? cut) log'
  | logRemoved {d : Dir} {log : Option File} : Interrupted p f d0 d log → Interrupted p f d0 d none

/-- Directory and log after any number of runs that met no read errors and were stopped between two writes to output files (by
Ctrl-C, say), each resuming from the log the previous ones left. -/
inductive Paused (p : Param) (f : File) (d0 : Dir) : Dir → Option File → Prop
  | fresh : Paused p f d0 d0 none
  | stopped {d : Dir} {log log' : Option File} {c : Counters} {E : Env} {done rest : List Event} :
      Paused p f d0 d log → Ok E → NoErr E → readLog (required p f) log = some c → Issued E p f c (done ++ rest) →
      LogAfter log c done log' → Paused p f d0 (d.after done) log'
  | logRemoved {d : Dir} {log : Option File} : Paused p f d0 d log → Paused p f d0 d none

end Verif.RescueSpec
