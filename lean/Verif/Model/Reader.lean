import Verif.Model.Encode
/-!
# Model of `src/reader.rs`: reading a pipe that delivers its bytes in pieces, and encoding from it

`src/file_reader.rs` 97-117 and `src/file_writer.rs` 132-156 have the same loop.
-/

namespace Verif.Reader
open Encode Layout FileUtils

/-- `READ_RETRIES`, line 9. -/
def readRetries : Nat := 5

/-- The loop of `Reader::read`, lines 34-55, with room for `room` more bytes in the buffer and `tries` calls left: the bytes read, the
bytes still in the pipe, and the number of calls of `std::io::Stdin::read` so far.  The `n`-th call delivers as many bytes as there
is room for, at most `sizes n + 1`; it waits for at least one byte unless the pipe is at its end.  Errors are not modelled. -/
def readLoop (sizes : Nat → Nat) : (tries room : Nat) → (rest : List Byte) → (calls : Nat) → List Byte × List Byte × Nat
  | 0, _, rest, calls => ([], rest, calls)
  | tries + 1, room, rest, calls =>
    if room = 0 then ([], rest, calls)
    else
      let got := rest.take (min room (sizes calls + 1))
      let r := readLoop sizes tries (room - got.length) (rest.drop got.length) (calls + 1)
      (got ++ r.1, r.2)

/-- `Reader::read` into a buffer of `room` bytes. -/
def read (sizes : Nat → Nat) (room : Nat) (rest : List Byte) (calls : Nat) : List Byte × List Byte × Nat :=
  readLoop sizes readRetries room rest calls

/-! ### Encoding from standard input, `src/encode_core.rs` 594-814

The reader thread of `Verif/Model/Encode.lean` with `read` in the place of a read that is always complete; the other threads are the
same. -/

/-- State of a thread, with the number of read calls made. -/
structure St where
  base : Encode.St
  calls : Nat

/-- One iteration of the inner loop of the reader thread, lines 640-700: as `Encode.readAct` if the input were what `reader.read`
(line 659) delivers; if it is not reached nothing is read. -/
def readAct (sizes : Nat → Nat) (p : Param) (stop : Nat → Bool) (lastSeq : Nat) (st : RdSt) (calls : Nat) :
    Option ((RdSt × Nat) × RdAct) :=
  let r := read sizes p.version.dataSize st.rest calls
  match Encode.readAct p stop none lastSeq { st with rest := r.1 } with
  | none => none
  | some (st', .halt) => some (({ st' with rest := st.rest }, calls), .halt)
  | some (st', a) => some (({ st' with rest := r.2.1 }, r.2.2), a)

/-- The inner loop, lines 639-701, as `Encode.fillLoop`. -/
def fillLoop (sizes : Nat → Nat) (p : Param) (stop : Nat → Bool) (lastSeq : Nat) :
    Nat → RdSt → Nat → Buffer → Option ((RdSt × Nat) × Buffer)
  | 0, _, _, _ => none
  | fuel + 1, st, calls, b =>
    if b.isFull then some ((st, calls), b)
    else
      match readAct sizes p stop lastSeq st calls with
      | none => none
      | some (st', .halt) => some (st', b)
      | some (st', .undo chunk) => ((b.fill (Slot.load p.cfg chunk)).bind Buffer.cancelSlot).map fun b => (st', b)
      | some (st', .last chunk) => (b.fill (Slot.load p.cfg chunk)).map fun b => (st', b)
      | some (st', .keep chunk) =>
        match b.fill (Slot.load p.cfg chunk) with
        | none => none
        | some b => fillLoop sizes p stop lastSeq fuel st'.1 st'.2 b

/-- Loop body of the reader thread, lines 634-704. -/
def readerStep (sizes : Nat → Nat) (p : Param) (stop : Nat → Bool) (lastSeq fuel : Nat) (s : St) (b : Buffer) : St × Option (List Buffer) :=
  if !s.base.rd.run then (s, none)
  else
    match fillLoop sizes p stop lastSeq fuel s.base.rd s.calls b with
    | none => ({ s with base := { s.base with panicked := true } }, none)
    | some ((rd, calls), b) => (⟨{ s.base with rd := rd }, calls⟩, some [b])

/-- The three threads, lines 594-769. -/
def ring (sizes : Nat → Nat) (rs : RsCodec) (p : Param) (stop : Nat → Bool) (lastSeq fuel : Nat) : Pipeline.Ring 3 St Buffer where
  step i s b :=
    if i = 0 then readerStep sizes p stop lastSeq fuel s b
    else
      let r := if i = 1 then workerStep rs p s.base b else writerStep s.base b
      (⟨r.1, s.calls⟩, r.2)
  cap _ := buffersInRotation + 1

/-- The data part of `encode_file`, as `Encode.runThreads`. -/
def runThreads (sizes : Nat → Nat) (E : Env) (p : Param) (bytes : List Byte) (d : Disk) : Option Encode.St :=
  match lastDataSeqNumExcParity p.version p.dpb with
  | none => none
  | some lastSeq =>
    ((ring sizes E.rs p E.stop lastSeq (E.lotCount * p.cfg.direct + 1)).runSeq (bytes.length + 3)
      (fun _ => ⟨startSt p ⟨bytes, none⟩ d, 0⟩) (Buffer.newMulti p.cfg E.lotCount buffersInRotation)).map
      fun st => { rd := (st 0).base.rd, wk := (st 1).base.wk, wr := (st 2).base.wr, panicked := (st 0).base.panicked || (st 1).base.panicked }

/-- `encode_file` with standard input, lines 499-814. -/
def encodeStdin (sizes : Nat → Nat) (E : Env) (p : Param) (bytes : List Byte) : Disk × Except Err Report :=
  match dummyMeta E p ⟨bytes, none⟩ with
  | none => (⟨[], []⟩, .error .tooMuchMetadata)
  | some d =>
    match runThreads sizes E p bytes d with
    | none => (d, .error .panic)
    | some st => finish E p ⟨bytes, none⟩ st

end Verif.Reader
