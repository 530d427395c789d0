import Verif.Model.Encode
import Verif.Model.Decode
import Verif.Model.Sort
/-!
# Output through an operating system that may refuse, or take only a part

The other models issue writes and take for granted that they are carried out (`Verif/Model/File.lean`).  Here the operating system
answers every write call: with an error, or with the number of bytes it took.  The commands are those of the other models, with
their writes going through `src/writer.rs` and `src/file_writer.rs` to that system.  Errors of opening, seeking, reading and
`set_len` are left out.

`None` as the result of a command is "the command reports an error".  A thread which meets an error sends it to the error channel and
leaves its loop; the other threads then end as well (C20) and the command returns the error.
-/

namespace Verif.Device
open BlockRing

/-- Answers of the operating system: to the `call`-th write call, with `bytes` to write.  `none` is an error, `some k` says
that the first `k` bytes were taken.  (`BufWriter` repeats calls which fail with `Interrupted`; such calls are not counted there.) -/
abbrev Os := (call : Nat) → (bytes : List Byte) → Option Nat

/-- What a command can do with its output file: `seek(Start(pos))` and `write`, `seek(Start(pos))` and `read`; `none` is an error. -/
structure Out (D : Type) where
  write : D → (pos : Nat) → List Byte → Option D
  read : D → (pos len : Nat) → Option (D × List Byte)

/-! ### `FileHandle::Unbuffered`, used by `encode` (`src/encode_core.rs` 491-500) and `decode` (`src/decode_core.rs` 760-769) -/

/-- An open file and the number of write calls so far. -/
structure Plain where
  file : File
  calls : Nat

/-- `FileWriter::write`, `src/file_writer.rs` 125-130, unbuffered: a single call of `File::write`.  It returns the number of bytes
taken, which none of the callers looks at (`src/encode_core.rs` 467, `src/data_block_buffer/mod.rs` 597). -/
def Plain.write (A : Os) (d : Plain) (pos : Nat) (bs : List Byte) : Option Plain :=
  match A d.calls bs with
  | none => none
  | some k => some ⟨d.file.writeAt pos (bs.take k), d.calls + 1⟩

def plain (A : Os) : Out Plain where
  write := Plain.write A
  read d pos len := some (d, d.file.readAt pos len)

/-! ### `FileHandle::Buffered`, used by `sort` (`src/sort_core.rs` 391-402) -/

/-- `std::io::BufWriter`: the file, the position in it, the bytes not handed over yet, the number of write calls so far. -/
structure Buffered where
  file : File
  pos : Nat
  buf : List Byte
  calls : Nat

/-- Default capacity of `BufWriter`. -/
def capacity : Nat := 8192

namespace Buffered

/-- `BufWriter::flush_buf`: calls `write` until nothing is left; an answer of 0 is an error (`WriteZero`).  What was taken is removed
from the buffer also if there is an error.  `fuel`: every call that does not end the loop takes at least one byte. -/
def flushLoop (A : Os) : (fuel : Nat) → Buffered → Buffered × Bool
  | 0, d => (d, d.buf.isEmpty)
  | fuel + 1, d =>
    if d.buf = [] then (d, true)
    else
      match A d.calls d.buf with
      | none => ({ d with calls := d.calls + 1 }, false)
      | some 0 => ({ d with calls := d.calls + 1 }, false)
      | some (k + 1) =>
        flushLoop A fuel
          ⟨d.file.writeAt d.pos (d.buf.take (k + 1)), d.pos + (d.buf.take (k + 1)).length, d.buf.drop (k + 1), d.calls + 1⟩

def flush (A : Os) (d : Buffered) : Buffered × Bool := flushLoop A d.buf.length d

/-- `BufWriter::seek` (through `FileWriter::seek`, `src/file_writer.rs` 165-170): `flush_buf`, then `seek`. -/
def seek (A : Os) (d : Buffered) (pos : Nat) : Option Buffered :=
  match d.flush A with
  | (d, true) => some { d with pos := pos }
  | (_, false) => none

/-- `BufWriter::write`: if the bytes do not fit the buffer is flushed first; if they are too many for an empty buffer they are handed
over directly, with a single call, else they are put in the buffer. -/
def put (A : Os) (d : Buffered) (bs : List Byte) : Option Buffered :=
  match if capacity < d.buf.length + bs.length then d.flush A else (d, true) with
  | (_, false) => none
  | (d, true) =>
    if bs.length < capacity then some { d with buf := d.buf ++ bs }
    else
      match A d.calls bs with
      | none => none
      | some k => some ⟨d.file.writeAt d.pos (bs.take k), d.pos + (bs.take k).length, d.buf, d.calls + 1⟩

/-- `seek(Start(pos))` then `write`. -/
def write (A : Os) (d : Buffered) (pos : Nat) (bs : List Byte) : Option Buffered :=
  match d.seek A pos with
  | none => none
  | some d => d.put A bs

/-- `seek(Start(pos))` then `read` (`src/file_writer.rs` 30-44, 132-156: `flush` first); afterwards the callers seek again. -/
def read (A : Os) (d : Buffered) (pos len : Nat) : Option (Buffered × List Byte) :=
  match d.seek A pos with
  | none => none
  | some d => some (d, d.file.readAt pos len)

/-- `BufWriter::drop`: `let _r = self.flush_buf();`. -/
def close (A : Os) (d : Buffered) : File := (d.flush A).1.file

end Buffered

def buffered (A : Os) : Out Buffered where
  write := Buffered.write A
  read := Buffered.read A

/-! ### Data block buffers -/

variable {D : Type}

/-- Number of bytes read for the check of `skip_good`, `src/data_block_buffer/mod.rs` 547-551. -/
def checkLen (c : LotCfg) : Nat := match c.outputType with | .block => largestBlockSize | _ => c.version.dataSize

/-- One step of `Lot::write` with `seek = true`, `src/data_block_buffer/mod.rs` 536-598 (`Lot.writeSlot`). -/
def writeSlot (o : Out D) (c : LotCfg) (d : D) (s : Slot) : Option D :=
  match s.writePos with
  | none => some d
  | some pos =>
    if c.skipGood then
      match o.read d pos (checkLen c) with
      | none => none
      | some (d, buf) => if Lot.doWrite c s 0 buf then o.write d pos (Lot.slotBytes c s) else some d
    else o.write d pos (Lot.slotBytes c s)

/-- `Lot::write`, lines 532-605. -/
def writeLot (o : Out D) (d : D) (l : Lot) : Option D := l.used.foldlM (writeSlot o l.cfg) d

/-- `DataBlockBuffer::write`, lines 834-846. -/
def writeBuffer (o : Out D) (b : Buffer) (d : D) : Option (Buffer × D) :=
  (b.calcSlotWritePos.lots.foldlM (writeLot o) d).map fun d => (b.calcSlotWritePos, d)

/-! ### `encode` -/

/-- Writing one metadata block to all places, `src/encode_core.rs` 461-472. -/
def encodeMeta (o : Out D) (p : Encode.Param) (bytes : List Byte) (d : D) : Option D :=
  (Layout.metaAllPos p.version p.dpb).foldlM (fun d pos => o.write d pos bytes) d

/-- The three threads, `src/encode_core.rs` 594-769 (`Encode.ring`): the third uses the output file.  The first component of the
thread's state is that of `Encode.ring`, its output file is not used. -/
def encodeRing (o : Out D) (rs : RsCodec) (p : Encode.Param) (stop : Nat → Bool) (required : Option Nat) (lastSeq fuel : Nat) :
    Pipeline.Ring 3 (Encode.St × D) Buffer where
  step i s b :=
    if i = 0 then
      match Encode.readerStep p stop required lastSeq fuel s.1 b with
      | (t, out) => ((t, s.2), out)
    else if i = 1 then
      match Encode.workerStep rs p s.1 b with
      | (t, out) => ((t, s.2), out)
    else
      match writeBuffer o b s.2 with
      | none => (s, none)
      | some (b, d) => ((s.1, d), some [b.reset])
  cap _ := Encode.buffersInRotation + 1

/-- The data part (`Encode.runThreads`). -/
def encodeThreads (o : Out D) (E : Encode.Env) (p : Encode.Param) (inp : Encode.Input) (d : D) : Option (Encode.St × D) :=
  match lastDataSeqNumExcParity p.version p.dpb with
  | none => none
  | some lastSeq =>
    ((encodeRing o E.rs p E.stop (Encode.required p inp) lastSeq (E.lotCount * p.cfg.direct + 1)).runSeq (inp.bytes.length + 3)
      (fun _ => (Encode.startSt p inp ⟨[], []⟩, d)) (Buffer.newMulti p.cfg E.lotCount Encode.buffersInRotation)).map
      fun st => ({ rd := (st 0).1.rd, wk := (st 1).1.wk, wr := ⟨[], []⟩, panicked := (st 0).1.panicked || (st 1).1.panicked }, (st 2).2)

/-- The dummy metadata blocks, lines 559-571 (`Encode.dummyMeta`). -/
def encodeDummy (o : Out D) (E : Encode.Env) (p : Encode.Param) (inp : Encode.Input) (d : D) : Option D :=
  if p.metaEnabled then
    (Encode.metaBlockBytes p.version p.uid (Encode.packMetadata E.hash p inp 0 (Encode.required p inp) none)).bind
      fun b => encodeMeta o p b d
  else some d

/-- What is done after the threads have finished, lines 767-810 (`Encode.finish`). -/
def encodeFinish (o : Out D) (E : Encode.Env) (p : Encode.Param) (inp : Encode.Input) (st : Encode.St × D) :
    Option (D × Encode.Report) :=
  if st.1.panicked || st.1.rd.overflow then none
  else if p.metaEnabled then
    let h := E.hash.bytes p.hashType st.1.rd.hashed
    match Encode.metaBlockBytes p.version p.uid
        (Encode.packMetadata E.hash p inp E.startTime (some (st.1.wk.bytesEncoded p.version)) (some h)) with
    | none => none
    | some b => (encodeMeta o p b st.2).map fun d => (d, ⟨st.1.wk, some h⟩)
  else some (st.2, ⟨st.1.wk, none⟩)

/-- `encode_file` (`Encode.encodeFile`) with output `d`: the output afterwards and the report; `none`: an error is reported. -/
def encodeTo (o : Out D) (d : D) (E : Encode.Env) (p : Encode.Param) (inp : Encode.Input) : Option (D × Encode.Report) :=
  match Encode.tooLarge p inp with
  | none => none
  | some true => none
  | some false =>
    match encodeDummy o E p inp d with
    | none => none
    | some d =>
      match encodeThreads o E p inp d with
      | none => none
      | some st => encodeFinish o E p inp st

/-- `encode_file`: the output file when the command has ended with success, and the report. -/
def encode (A : Os) (E : Encode.Env) (p : Encode.Param) (inp : Encode.Input) : Option (File × Encode.Report) :=
  (encodeTo (plain A) ⟨[], 0⟩ E p inp).map fun r => (r.1.file, r.2)

/-! ### `decode` to a file -/

/-- The writer thread, `src/decode_core.rs` 966-981 (`BlockRing.fileWriter`). -/
def blockWriter (o : Out D) (d : D) (b : Buffer) : Option (D × Buffer) := (writeBuffer o b d).map fun x => (x.2, x.1.reset)

/-- `decode` with an output file, lines 723-990 and 1506-1548 (`Decode.decodeFile`); `set_len` is not refused. -/
def decodeFile (A : Os) (E : Decode.Env) (p : Decode.Param) (ref : Block) (f old : File) : Option (File × Decode.Stats) :=
  match Scan.dataParBurst p.ref true f ref with
  | .error _ => none
  | .ok dpb =>
    let r := Decode.rangeOf p.ref ref f
    match run2 (Encode.buffersInRotation + 1) (Decode.fileAct E.stop f r.seekTo r.requiredLen ref dpb) (f.length + 3)
        (blockWriter (plain A)) ⟨0, 0, Decode.Stats.zero⟩ ⟨Decode.openOut p.multiPass old, 0⟩
        (Buffer.newMulti (Decode.cfg ref dpb (p.multiPass == some .skipGood)) E.lotCount Encode.buffersInRotation) with
    | none => none
    | some (st, d) => some (Decode.truncated ref d.file, st.stats)

/-- `decode_file` with an output file, lines 1676-1776 (`Decode.toFile`); the hash is that of the output file. -/
def decode (A : Os) (E : Decode.Env) (p : Decode.Param) (f old : File) : Option (File × Decode.Report) :=
  match Scan.getRefBlockM p.ref p.ref.refChoice f E.stopRef (E.stop 0) with
  | .error _ => none
  | .ok (_, ref) =>
    (decodeFile A E p ref f old).map fun r =>
      (r.1, ⟨r.2, r.1.length, Decode.refHsh ref, Decode.hashFile E ref r.1⟩)

/-! ### `decode` to standard output -/

/-- Bytes that arrived and number of write calls so far. -/
structure Sink where
  bytes : List Byte
  calls : Nat

/-- `Writer::write` with standard output, `src/writer.rs` 24-32: a single call of `Stdout::write`; the number of bytes taken is not
looked at by the callers (`src/data_block_buffer/mod.rs` 597). -/
def Sink.write (A : Os) (d : Sink) (bs : List Byte) : Option Sink :=
  match A d.calls bs with
  | none => none
  | some k => some ⟨d.bytes ++ bs.take k, d.calls + 1⟩

/-- One step of `Lot::write` with `seek = false` (`Lot.emitSlot`). -/
def emitSlot (A : Os) (c : LotCfg) (d : Sink) (s : Slot) : Option Sink :=
  match s.writePos with
  | none => some d
  | some _ => d.write A (Lot.slotBytes c s)

/-- `Lot::write` with `seek = false`, lines 532-605. -/
def emitLot (A : Os) (d : Sink) (l : Lot) : Option Sink := l.used.foldlM (emitSlot A l.cfg) d

/-- `DataBlockBuffer::write_no_seek`, lines 834-850, then `reset` (`BlockRing.stdoutWriter`). -/
def sinkWriter (A : Os) (d : Sink) (b : Buffer) : Option (Sink × Buffer) :=
  (b.calcSlotWritePos.lots.foldlM (emitLot A) d).map fun d => (d, b.calcSlotWritePos.reset)

/-- A thread of the other models that collects bytes. -/
def collecting (mid : List Byte → Buffer → Option (List Byte × Buffer)) (d : Sink) (b : Buffer) : Option (Sink × Buffer) :=
  (mid d.bytes b).map fun x => (⟨x.1, d.calls⟩, x.2)

/-- The threads of either pattern, `src/decode_core.rs` 1049-1498 (`Decode.outThreads`). -/
def outThreads (A : Os) (E : Decode.Env) (p : Decode.Param) (ref : Block) (f : File) (dpb : Option Dpb)
    (mid : List Byte → Buffer → Option (List Byte × Buffer)) (fuel : Nat) : Option (Decode.OutSt × Sink × Sink) :=
  match dpb, p.ref.fromPos, p.ref.toPos with
  | some d, none, none =>
    match Decode.metaPass E.stop f ref (Layout.metaAllPos ref.header.version (some d)) 0 Block.dummy Decode.Stats.zero with
    | (k, st) =>
      run3 (Encode.buffersInRotation + 1) (Decode.burstAct E.stop f ref d) fuel (collecting mid) (sinkWriter A) ⟨1, 0, k, st⟩ ⟨[], 0⟩
        (Buffer.newMulti (Decode.cfg ref dpb false) E.lotCount Encode.buffersInRotation)
  | _, _, _ =>
    let r := Decode.rangeOf p.ref ref f
    run3 (Encode.buffersInRotation + 1) (Decode.seqAct E.stop f r.seekTo r.requiredLen ref dpb) fuel (collecting mid) (sinkWriter A)
      ⟨Scan.guessStart E.order f p.ref.fromPos p.ref.forceMisalign ref dpb, 0, 0, Decode.Stats.zero⟩ ⟨[], 0⟩
      (Buffer.newMulti (Decode.cfg ref dpb false) E.lotCount Encode.buffersInRotation)

/-- `decode` to standard output, lines 723-816 and 991-1548 (`Decode.decodeStdout`). -/
def decodeStdout (A : Os) (E : Decode.Env) (p : Decode.Param) (ref : Block) (f : File) :
    Option (List Byte × Decode.Stats × Option HashBytes) :=
  match Scan.dataParBurst p.ref true f ref with
  | .error _ => none
  | .ok dpb =>
    match outThreads A E p ref f dpb (Decode.midThread ref) (2 ^ 32 + f.length + 3) with
    | none => none
    | some (st, hashed, out) => some (out.bytes, st.stats, (Decode.hashTypeOf ref).map fun t => E.hash.bytes t hashed.bytes)

/-- `decode_file` with standard output as output file (`Decode.toStdout`). -/
def decodeOut (A : Os) (E : Decode.Env) (p : Decode.Param) (f : File) : Option (List Byte × Decode.Report) :=
  match Scan.getRefBlockM p.ref p.ref.refChoice f E.stopRef (E.stop 0) with
  | .error _ => none
  | .ok (_, ref) =>
    (decodeStdout A E p ref f).map fun r =>
      (r.1, ⟨r.2.1, (Decode.refFsz ref).getD (r.2.1.datas * ref.header.version.dataSize), Decode.refHsh ref, r.2.2⟩)

/-! ### `sort` -/

/-- One place of `write_meta_blocks_writer`, `src/sort_core.rs` 335-365. -/
def sortMeta (o : Out D) (ref : Block) (skipGood : Bool) (mb : List Byte) (d : D) (p : Nat) : Option D :=
  if skipGood then
    match o.read d p ref.header.version.blockSize with
    | none => none
    | some (d, buf) => if Sort.doWriteMeta ref true 0 buf then o.write d p mb else some d
  else o.write d p mb

/-- `write_meta_blocks_writer`, lines 318-369 (`Sort.writeMetas`). -/
def sortMetas (o : Out D) (ref : Block) (dpb : Option Dpb) (skipGood : Bool) (mb : List Byte) (d : D) : Option D :=
  (Layout.metaAllPos ref.header.version dpb).foldlM (sortMeta o ref skipGood mb) d

/-- The three threads, lines 477-691 (`Sort.ring`): the second uses the output file. -/
def sortRing (o : Out D) (a : Sort.RdSt → Act Sort.RdSt) (fuel : Nat) (ref : Block) (dpb : Option Dpb) (skipGood : Bool)
    (readOffset : Nat) : Pipeline.Ring 3 (Sort.St × D) Sort.Msg where
  step i s m :=
    if i = 0 then
      match Sort.readerStep a fuel s.1 m with
      | (t, out) => ((t, s.2), out)
    else if i = 1 then
      match m with
      | .metaBlock mb =>
        match sortMetas o ref dpb skipGood mb s.2 with
        | none => (s, none)
        | some d => ((s.1, d), some [])
      | .buf b =>
        match writeBuffer o b s.2 with
        | none => (s, none)
        | some (b, d) => ((s.1, d), some [.buf b])
    else
      match Sort.counterStep readOffset dpb s.1 m with
      | (t, out) => ((t, s.2), out)
  cap i := if i = 1 then Sort.buffersInRotation + 2 else Sort.buffersInRotation + 1

/-- Lines 381-709 (`Sort.sortWith`) with an output `d`. -/
def sortWith (o : Out D) (d : D) (E : Sort.Env) (p : Sort.Param) (ref : Block) (dpb : Option Dpb) (f : File) :
    Option (D × Sort.Stats × Sort.Order) :=
  let r := Decode.rangeOf p.ref ref f
  match (sortRing o (Sort.act E.stop f r.seekTo r.requiredLen ref dpb p.reportBlank) (f.length + 3) ref dpb
      (p.multiPass == some .skipGood) (r.seekTo % ref.header.version.blockSize)).runSeq (f.length + 4) (fun _ => (Sort.start none, d))
      ((Buffer.newMulti (Sort.cfg ref dpb (p.multiPass == some .skipGood)) E.lotCount Sort.buffersInRotation).map .buf) with
  | none => none
  | some st =>
    if (st 0).1.panicked || (st 1).1.panicked || (st 2).1.panicked then none
    else some ((st 1).2, (st 0).1.rd.stats, (st 2).1.order)

/-- `sort_file`, lines 371-710, with an output file whose contents were `old`: the output file when the command has ended with
success (the writer thread drops the writer), and the report. -/
def sort (A : Os) (E : Sort.Env) (p : Sort.Param) (f old : File) : Option (File × Sort.Stats × Sort.Order) :=
  match Scan.getRefBlockM p.ref p.ref.refChoice f E.stopRef (E.stop 0) with
  | .error _ => none
  | .ok (_, ref) =>
    match Scan.dataParBurst p.ref true f ref with
    | .error _ => none
    | .ok dpb =>
      (sortWith (buffered A) ⟨Decode.openOut p.multiPass old, 0, [], 0⟩ E p ref dpb f).map fun r => (r.1.close A, r.2)

end Verif.Device
