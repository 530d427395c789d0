import Verif.Model.DataBlockBuffer
import Verif.Model.FileUtils
import Verif.Model.MiscUtils
import Verif.Model.Pipeline
/-!
# Model of `encode_file` (`src/encode_core.rs`)

Input is read completely unless the end comes first (see `Verif/Model/Reader.lean` for short reads); read and write errors
reported by the operating system are not modelled.  `Ctrl-C` is a predicate telling at which check of the stop flag it is
found set.
-/

namespace Verif

/-- Hash functions (external crates `sha1`, `ring`, `blake2_c`), as functions of the bytes fed to the context. -/
structure HashFn where
  digest : HashType → List Byte → List Byte
  len : ∀ t bs, (digest t bs).length = t.digestLen

/-- `Ctx::new(t)`, `update` with `bs` altogether, `finish_into_hash_bytes` (`src/multihash.rs` 176-311). -/
def HashFn.bytes (H : HashFn) (t : HashType) (bs : List Byte) : HashBytes :=
  ⟨t.ctxType, H.digest t.ctxType bs, H.len _ _⟩

/-- The reader of the encoder puts a chunk into a slot, lines 652-683: the chunk overwrites the beginning of the payload
(the rest stays), and the length is recorded if the chunk is short. -/
def Slot.load (c : LotCfg) (chunk : List Byte) (s : Slot) : Slot :=
  { s with
    data := s.data.take 16 ++ chunk ++ s.data.drop (16 + chunk.length)
    contentLen := if chunk.length < c.version.dataSize then some chunk.length else s.contentLen }

namespace Encode
open Misc

/-- `struct Param`, lines 255-304.  `metaRequested` is the argument of `Param::new`. -/
structure Param where
  version : Version
  uid : Uid
  dpb : Option Dpb
  metaRequested : Bool
  hashType : HashType
  fromPos : Option Nat
  toPos : Option RangeEnd
  /-- file name part of `out_file` -/
  sbxName : String

/-- `param.meta_enabled`, line 290. -/
def Param.metaEnabled (p : Param) : Bool := p.version.forcesMeta || p.metaRequested

/-- What is encoded: a file (its name part, its modification time if available) or standard input. -/
structure Input where
  bytes : List Byte
  file : Option (String × Option Int64)

/-- The parts of the environment that matter. -/
structure Env where
  hash : HashFn
  rs : RsCodec
  /-- `num_cpus * 50`, `src/data_block_buffer/mod.rs` 636 -/
  lotCount : Nat
  /-- `stats.start_time as i64` after `reporter.start()` -/
  startTime : Int64
  /-- is the stop flag found set at the `n`-th check? -/
  stop : Nat → Bool

/-- `PIPELINE_BUFFER_IN_ROTATION`, line 34. -/
def buffersInRotation : Nat := 9

/-- Configuration of the buffers, lines 604-613. -/
def Param.cfg (p : Param) : LotCfg :=
  { version := p.version, uid := p.uid, inputData := true, outputType := .block, dpb := p.dpb,
    metaEnabled := p.metaEnabled, skipGood := false, defaultLotSize := 100 }

/-- The RS fields of `pack_metadata`, lines 419-425 (`as u8`; absent setting: `unwrap` panics, see `Param.Ok`). -/
def rsMetas (p : Param) : List Metadata :=
  match p.version.usesRs, p.dpb with
  | true, some d => [.rsd (UInt8.ofNat d.data), .rsp (UInt8.ofNat d.parity)]
  | _, _ => []

/-- `pack_metadata`, lines 357-426: `startTime` is 0 until the reporter is started; `hash = none` gives the hash of nothing. -/
def packMetadata (H : HashFn) (p : Param) (inp : Input) (startTime : Int64) (fileSize : Option Nat)
    (hash : Option HashBytes) : List Metadata :=
  (match inp.file with | some (name, _) => [.fnm name] | none => []) ++
  [.snm p.sbxName] ++
  (match fileSize with | some n => [.fsz (UInt64.ofNat n)] | none => []) ++
  (match inp.file with | some (_, some t) => [.fdt t] | _ => []) ++
  [.sdt startTime, .hsh (hash.getD (H.bytes p.hashType []))] ++
  rsMetas p

/-- Bytes of a metadata block, lines 437-459: `Block::new`, `set_seq_num(0)`, `sync_to_buffer` into a zeroed buffer, first
`block_size` bytes; `none` is `TooMuchMetadata`. -/
def metaBlockBytes (v : Version) (uid : Uid) (ms : List Metadata) : Option (List Byte) :=
  match (({ Block.new v uid .metadata with data := .metadata ms } : Block)).syncTo none (List.replicate largestBlockSize 0) with
  | .ok (_, buf) => some (buf.take v.blockSize)
  | .error _ => none

/-- Writing one metadata block to all places, lines 461-472. -/
def writeMeta (p : Param) (bytes : List Byte) (d : Disk) : Disk :=
  (Layout.metaAllPos p.version p.dpb).foldl (fun d pos => d.writeAt pos bytes) d

/-- State of the reader thread, lines 621-634. -/
structure RdSt where
  /-- input not read yet -/
  rest : List Byte
  processed : Nat
  /-- sequence number of `block_for_seq_num_check` -/
  seq : Nat
  lastSeen : Bool
  run : Bool
  /-- everything fed to `hash_ctx` -/
  hashed : List Byte
  /-- `SEQ_NUM_OVERFLOW_MSG` was sent -/
  overflow : Bool
  /-- checks of the stop flag so far -/
  checks : Nat

/-- What one iteration of the inner loop does to the buffer. -/
inductive RdAct
  /-- leave before taking a slot -/
  | halt
  /-- put this into a slot, then cancel the slot and leave -/
  | undo (chunk : List Byte)
  /-- put this into a slot and continue -/
  | keep (chunk : List Byte)
  /-- put this into a slot and leave -/
  | last (chunk : List Byte)

/-- Going through the sequence numbers of the parity blocks, lines 691-701; `none` is the `unwrap` panic. -/
def skipParity (dpb : Option Dpb) (seq : Nat) : Option Nat :=
  match dpb with
  | none => some seq
  | some d =>
    if (seq - 1) % (d.data + d.parity) = d.data - 1 then
      if lastSeqNum < seq + d.parity then none else some (seq + d.parity)
    else some seq

/-- Has as much been read as required?  Lines 641-646. -/
def reached (required : Option Nat) (processed : Nat) : Bool :=
  match required with
  | some r => decide (r ≤ processed)
  | none => false

/-- One iteration of the inner loop of the reader thread, lines 643-705. -/
def readAct (p : Param) (stop : Nat → Bool) (required : Option Nat) (lastSeq : Nat) (st : RdSt) : Option (RdSt × RdAct) :=
  let chunk := st.rest.take p.version.dataSize
  let st' := { st with rest := st.rest.drop p.version.dataSize, processed := st.processed + chunk.length, checks := st.checks + 1 }
  if stop st.checks then some ({ st with run := false }, .halt)
  else if reached required st.processed then some ({ st with run := false }, .halt)
  else if chunk = [] then some ({ st' with run := false }, .undo [])
  else if st.lastSeen ∨ st.seq = lastSeqNum then some ({ st' with run := false, overflow := true }, .undo chunk)
  else
    let st' := { st' with seq := st.seq + 1, hashed := if p.metaEnabled then st.hashed ++ chunk else st.hashed }
    if chunk.length < p.version.dataSize then some ({ st' with run := false }, .last chunk)
    else
      match skipParity p.dpb (st.seq + 1) with
      | none => none
      | some seq => some ({ st' with lastSeen := st.lastSeen || decide (st.seq + 1 = lastSeq), seq := seq }, .keep chunk)

/-- The inner loop, lines 641-706; `none` is a panic (or fuel exhausted, which does not happen: a buffer has
`lotCount * direct` slots). -/
def fillLoop (p : Param) (stop : Nat → Bool) (required : Option Nat) (lastSeq : Nat) :
    Nat → RdSt → Buffer → Option (RdSt × Buffer)
  | 0, _, _ => none
  | fuel + 1, st, b =>
    if b.isFull then some (st, b)
    else
      match readAct p stop required lastSeq st with
      | none => none
      | some (st', .halt) => some (st', b)
      | some (st', .undo chunk) => ((b.fill (Slot.load p.cfg chunk)).bind Buffer.cancelSlot).map fun b => (st', b)
      | some (st', .last chunk) => (b.fill (Slot.load p.cfg chunk)).map fun b => (st', b)
      | some (st', .keep chunk) =>
        match b.fill (Slot.load p.cfg chunk) with
        | none => none
        | some b => fillLoop p stop required lastSeq fuel st' b

/-- `struct Stats`, lines 38-54, the counters. -/
structure Counters where
  dataBlocks : Nat
  parityBlocks : Nat
  paddingBytes : Nat

/-- State of the threads: each uses its own part. -/
structure St where
  rd : RdSt
  wk : Counters
  wr : Disk
  panicked : Bool

/-- Loop body of the reader thread, lines 636-709. -/
def readerStep (p : Param) (stop : Nat → Bool) (required : Option Nat) (lastSeq fuel : Nat) (s : St) (b : Buffer) :
    St × Option (List Buffer) :=
  if !s.rd.run then (s, none)
  else
    match fillLoop p stop required lastSeq fuel s.rd b with
    | none => ({ s with panicked := true }, none)
    | some (rd, b) => ({ s with rd := rd }, some [b])

/-- Loop body of the encoder thread, lines 720-740 (`encode` only fails by panicking). -/
def workerStep (rs : RsCodec) (p : Param) (s : St) (b : Buffer) : St × Option (List Buffer) :=
  match b.encode rs with
  | none => ({ s with panicked := true }, none)
  | some b =>
    ({ s with wk :=
        { dataBlocks := s.wk.dataBlocks + b.counts.1
          parityBlocks := s.wk.parityBlocks + b.counts.2.2
          paddingBytes := s.wk.paddingBytes + (b.paddingBytes + b.counts.2.1 * p.version.dataSize) } }, some [b])

/-- Loop body of the writer thread, lines 753-762. -/
def writerStep (s : St) (b : Buffer) : St × Option (List Buffer) :=
  let r := b.write s.wr
  ({ s with wr := r.2 }, some [r.1.reset])

/-- The three threads, lines 594-774. -/
def ring (rs : RsCodec) (p : Param) (stop : Nat → Bool) (required : Option Nat) (lastSeq fuel : Nat) :
    Pipeline.Ring 3 St Buffer where
  step i s b := if i = 0 then readerStep p stop required lastSeq fuel s b else if i = 1 then workerStep rs p s b else writerStep s b
  cap _ := buffersInRotation + 1

/-- `data_bytes_encoded`, lines 329-333. -/
def Counters.bytesEncoded (v : Version) (c : Counters) : Nat := c.dataBlocks * v.dataSize - c.paddingBytes

inductive Err
  | tooLarge | tooMuchMetadata | seqNumOverflow | panic
  deriving DecidableEq

/-- What `encode_file` reports: the counters and the recorded hash. -/
structure Report where
  counters : Counters
  hash : Option HashBytes

/-- The reader's state when the threads are started, and the number of bytes wanted, lines 512-528 and 570-575. -/
def rangeOf (p : Param) (inp : Input) : Option Range :=
  inp.file.map fun _ => byteRange p.fromPos p.toPos true 0 (.len inp.bytes.length) none

/-- The bytes the reader thread starts with, lines 570-575. -/
def startBytes (p : Param) (inp : Input) : List Byte :=
  match rangeOf p inp with
  | some r => inp.bytes.drop r.seekTo
  | none => inp.bytes

def required (p : Param) (inp : Input) : Option Nat := (rangeOf p inp).map (·.requiredLen)

/-- State of the threads at the start, given the output file after the dummy metadata. -/
def startSt (p : Param) (inp : Input) (d : Disk) : St :=
  { rd := { rest := startBytes p inp, processed := 0, seq := 0, lastSeen := false, run := true, hashed := [],
            overflow := false, checks := 0 }
    wk := ⟨0, 0, 0⟩, wr := d, panicked := false }

/-- The data part of `encode_file`: the threads run one after the other on each buffer; by `C20_equals_sequential` every
schedule ends the same way.  `none`: a thread panicked (or the fuel was not enough, which does not happen). -/
def runThreads (E : Env) (p : Param) (inp : Input) (d : Disk) : Option St :=
  match lastDataSeqNumExcParity p.version p.dpb with
  | none => none
  | some lastSeq =>
    ((ring E.rs p E.stop (required p inp) lastSeq (E.lotCount * p.cfg.direct + 1)).runSeq (inp.bytes.length + 3)
      (fun _ => startSt p inp d) (Buffer.newMulti p.cfg E.lotCount buffersInRotation)).map
      fun st => { rd := (st 0).rd, wk := (st 1).wk, wr := (st 2).wr, panicked := (st 0).panicked || (st 1).panicked }

/-- The dummy metadata blocks, lines 580-592: the output file, or `TooMuchMetadata`. -/
def dummyMeta (E : Env) (p : Param) (inp : Input) : Option Disk :=
  if p.metaEnabled then
    (metaBlockBytes p.version p.uid (packMetadata E.hash p inp 0 (required p inp) none)).map fun b => writeMeta p b ⟨[], []⟩
  else some ⟨[], []⟩

/-- What is done after the threads have finished, lines 776-812. -/
def finish (E : Env) (p : Param) (inp : Input) (st : St) : Disk × Except Err Report :=
  if st.panicked then (st.wr, .error .panic)
  else if st.rd.overflow then (st.wr, .error .seqNumOverflow)
  else if p.metaEnabled then
    let h := E.hash.bytes p.hashType st.rd.hashed
    match metaBlockBytes p.version p.uid
        (packMetadata E.hash p inp E.startTime (some (st.wk.bytesEncoded p.version)) (some h)) with
    | none => (st.wr, .error .tooMuchMetadata)
    | some b => (writeMeta p b st.wr, .ok ⟨st.wk, some h⟩)
  else (st.wr, .ok ⟨st.wk, none⟩)

/-- Is the range too large? Lines 542-556; `none` is a panic. -/
def tooLarge (p : Param) (inp : Input) : Option Bool :=
  match required p inp with
  | none => some false
  | some r => (maxDataFileSize p.version p.dpb).map fun m => decide (m < r)

/-- `encode_file`, lines 477-814: the output file and what is reported (the computed `out_file_size`, which may not
terminate, see C15, is left out). -/
def encodeFile (E : Env) (p : Param) (inp : Input) : Disk × Except Err Report :=
  match tooLarge p inp with
  | none => (⟨[], []⟩, .error .panic)
  | some true => (⟨[], []⟩, .error .tooLarge)
  | some false =>
    match dummyMeta E p inp with
    | none => (⟨[], []⟩, .error .tooMuchMetadata)
    | some d =>
      match runThreads E p inp d with
      | none => (d, .error .panic)
      | some st => finish E p inp st

/-- The threads when they are spawned, lines 594-617. -/
def spawned (E : Env) (p : Param) (inp : Input) (d : Disk) : Pipeline.Sys 3 St Buffer :=
  Pipeline.initial (fun _ => startSt p inp d) (Buffer.newMulti p.cfg E.lotCount buffersInRotation)

/-- What is left by the threads: each thread's own part. -/
def collect (s : Pipeline.Sys 3 St Buffer) : St :=
  { rd := (s.thread 0).st.rd, wk := (s.thread 1).st.wk, wr := (s.thread 2).st.wr
    panicked := (s.thread 0).st.panicked || (s.thread 1).st.panicked }

/-- The states of the output file during a run of `encode_file`, after each group of writes, for any scheduling of the threads:
opened (truncated), with placeholder metadata, while the threads are running, at the end. -/
inductive Reached (E : Env) (p : Param) (inp : Input) : Disk → Prop
  | opened : Reached E p inp ⟨[], []⟩
  | placeholder {d} : tooLarge p inp = some false → dummyMeta E p inp = some d → Reached E p inp d
  | threads {d lastSeq k s} : tooLarge p inp = some false → dummyMeta E p inp = some d →
      lastDataSeqNumExcParity p.version p.dpb = some lastSeq →
      (ring E.rs p E.stop (required p inp) lastSeq (E.lotCount * p.cfg.direct + 1)).Steps k (spawned E p inp d) s →
      Reached E p inp (s.thread 2).st.wr
  | ended {d lastSeq k s} : tooLarge p inp = some false → dummyMeta E p inp = some d →
      lastDataSeqNumExcParity p.version p.dpb = some lastSeq →
      (ring E.rs p E.stop (required p inp) lastSeq (E.lotCount * p.cfg.direct + 1)).Steps k (spawned E p inp d) s →
      Pipeline.Finished s → Reached E p inp (finish E p inp (collect s)).1

/-- The file found after a crash: some of the writes issued are done, the next one up to `cut` bytes. -/
def CrashFile (E : Env) (p : Param) (inp : Input) (done : List (Nat × List Byte)) (next : Option (Nat × List Byte)) (cut : Nat)
    (f : File) : Prop :=
  ∃ d rest, Reached E p inp d ∧ d.ops = done ++ rest ∧ next = rest.head? ∧
    f = File.writes d.init (done ++ (next.map fun w => (w.1, w.2.take cut)).toList)

end Encode

end Verif
