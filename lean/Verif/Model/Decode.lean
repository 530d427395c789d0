import Verif.Model.BlockRing
import Verif.Model.Encode
import Verif.Model.Scan
/-!
# Model of `src/decode_core.rs`

Errors reported by the operating system and progress reports are left out.  `Ctrl-C` is a predicate telling at which check of
the stop flag it is found set.
-/

namespace Verif.Decode
open Misc Scan BlockRing

/-- `enum MultiPassType`, `src/misc_utils.rs` 26-29. -/
inductive MultiPass
  | overwriteAll | skipGood
  deriving DecidableEq, Repr

/-- The options that matter for decoding, `struct Param`, lines 466-483. -/
structure Param where
  ref : RefParam
  multiPass : Option MultiPass

/-- The parts of the environment that matter. -/
structure Env where
  hash : HashFn
  /-- `num_cpus * 50`, `src/data_block_buffer/mod.rs` 636 -/
  lotCount : Nat
  /-- iteration order of the hash map of `guess_starting_block_index` -/
  order : List Nat → List Nat
  /-- is the stop flag found set at the `n`-th check while looking for the reference block -/
  stopRef : Nat → Bool
  /-- ... while decoding -/
  stop : Nat → Bool
  /-- ... while hashing the output file -/
  stopHash : Nat → Bool

/-- The counters of `struct Stats`, lines 82-100, with `DecodeFailStats`, lines 48-53 and 76-80: `failed` is the total when decoding to a
file, the other three are the breakdown when decoding to standard output. -/
structure Stats where
  metas : Nat
  datas : Nat
  parities : Nat
  failed : Nat
  metaFailed : Nat
  dataFailed : Nat
  parityFailed : Nat
  deriving DecidableEq, Repr

def Stats.zero : Stats := ⟨0, 0, 0, 0, 0, 0, 0⟩

/-- `orig_file_size`, lines 733-737. -/
def refFsz (ref : Block) : Option Nat := match getFsz ref with | .ok x => x | .error _ => none

/-- `recorded_hash`, lines 784-788. -/
def refHsh (ref : Block) : Option HashBytes := match getHsh ref with | .ok x => x | .error _ => none

/-- Configuration of the buffers, lines 850-859, 1079-1088 and 1272-1281. -/
def cfg (ref : Block) (dpb : Option Dpb) (skipGood : Bool) : LotCfg :=
  { version := ref.header.version, uid := ref.header.uid, inputData := false, outputType := .data, dpb := dpb,
    metaEnabled := true, skipGood := skipGood, defaultLotSize := 100 }

/-- The range of the container that is read, lines 806-816. -/
def rangeOf (p : RefParam) (ref : Block) (f : File) : Range :=
  byteRange p.fromPos p.toPos p.forceMisalign 0 (.len f.length) (some ref.header.version.blockSize)

/-! ### Output to a file, lines 819-990 -/

/-- State of the reader thread. -/
structure RdSt where
  processed : Nat
  checks : Nat
  stats : Stats

/-- Lines 912-928. -/
def Stats.count (st : Stats) (dpb : Option Dpb) (b : Block) : Stats :=
  if b.blockType = .metadata then { st with metas := st.metas + 1 }
  else if Layout.isParityDpb b.header.seq.toNat dpb then { st with parities := st.parities + 1 }
  else { st with datas := st.datas + 1 }

/-- What is done with a slot, lines 894-941. -/
def fileSlot (f : File) (seekTo : Nat) (ref : Block) (dpb : Option Dpb) (r : RdSt) (s : Slot) : RdSt × Slot × Bool × Bool :=
  let buf := f.readAt (seekTo + r.processed) s.data.length
  let data := buf ++ s.data.drop buf.length
  let r' := { r with processed := r.processed + buf.length, checks := r.checks + 1 }
  if buf.length < s.data.length then (r', { s with data := data }, true, false)
  else
    match s.block.syncFrom data (some (sameVerUid ref)) none with
    | (b, none) => ({ r' with stats := r.stats.count dpb b }, { s with block := b, data := data }, false, true)
    | (b, some _) =>
      ({ r' with stats := { r.stats with failed := r.stats.failed + 1 } }, { s with block := b, data := data }, true, true)

/-- One iteration of the reader's inner loop, lines 889-942. -/
def fileAct (stop : Nat → Bool) (f : File) (seekTo required : Nat) (ref : Block) (dpb : Option Dpb) (r : RdSt) : Act RdSt :=
  if stop r.checks then .halt r
  else if required ≤ r.processed then .halt r
  else .slot (fileSlot f seekTo ref dpb r)

/-- What the output file contains when it is opened, lines 760-771: truncated unless in a multi-pass mode. -/
def openOut (mp : Option MultiPass) (old : File) : File := if mp = none then [] else old

/-- `set_len`, lines 1508-1516. -/
def truncated (ref : Block) (out : File) : File :=
  match refFsz ref with
  | none => out
  | some n => out.setLen n

/-- `decode` with an output file (`old` are its contents before), lines 723-990 and 1506-1548. -/
def decodeFile (E : Env) (p : Param) (ref : Block) (f old : File) : Except Err (File × Stats) :=
  match dataParBurst p.ref true f ref with
  | .error e => .error e
  | .ok dpb =>
    let r := rangeOf p.ref ref f
    match run2 (Encode.buffersInRotation + 1) (fileAct E.stop f r.seekTo r.requiredLen ref dpb) (f.length + 3) fileWriter
        ⟨0, 0, Stats.zero⟩ ⟨openOut p.multiPass old, []⟩
        (Buffer.newMulti (cfg ref dpb (p.multiPass == some .skipGood)) E.lotCount Encode.buffersInRotation) with
    | none => .error .panic
    | some (st, d) => .ok (truncated ref d.file, st.stats)

/-! ### Output to standard output, lines 991-1504 -/

/-- `data_size_of_last_data_block`, lines 742-748. -/
def lastDataSize (ref : Block) : Option Nat :=
  (refFsz ref).map fun n =>
    if n % ref.header.version.dataSize = 0 then ref.header.version.dataSize else n % ref.header.version.dataSize

/-- `total_data_chunk_count`, lines 1030-1035. -/
def totalChunks (ref : Block) : Option Nat := (refFsz ref).map (FileUtils.dataChunkCount ref.header.version)

/-- State of the reader threads: `next` is the sequence number (line 1102) or block index (1291) of the next block. -/
structure OutSt where
  next : Nat
  processed : Nat
  checks : Nat
  stats : Stats

/-- Replace an unusable block with a blank one, lines 1167-1174 and 1388-1395; an error of `sync_to_buffer` would panic, but the
block is a data block (`setSeq`), so there is none. -/
def blank (ref : Block) (seq : Nat) (s : Slot) : Slot :=
  let b := ((s.block.setVersion ref.header.version).setUid ref.header.uid).setSeq (UInt32.ofNat seq)
  match b.syncTo none (List.replicate s.data.length 0) with
  | .ok (b, d) => { s with block := b, data := d }
  | .error _ => { s with block := b, data := List.replicate s.data.length 0 }

/-- Is this the last chunk? Lines 1177-1186 and 1402-1411. -/
def isLast (ref : Block) (st : Stats) : Bool :=
  match totalChunks ref with
  | none => false
  | some n => st.datas + st.dataFailed == n

/-- A data block has been read (or not) into a slot, lines 1160-1187 and 1381-1412, then line 1194 or 1419 (`last` tells
whether `next` cannot be incremented). -/
def dataSlot (ref : Block) (seq : Nat) (ok last : Bool) (r : OutSt) (s : Slot) : OutSt × Slot × Bool × Bool :=
  let st := if ok then { r.stats with datas := r.stats.datas + 1 } else { r.stats with dataFailed := r.stats.dataFailed + 1 }
  let s := if ok then s else blank ref seq s
  if isLast ref st then ({ r with stats := st }, { s with contentLen := lastDataSize ref }, false, false)
  else if last then ({ r with stats := st }, s, false, false)
  else ({ r with stats := st, next := r.next + 1 }, s, false, true)

/-- A block that is not stored: the slot is cancelled, lines 1147-1159, 1359-1380 and 1399-1400. -/
def dropSlot (st : Stats) (last : Bool) (r : OutSt) (s : Slot) : OutSt × Slot × Bool × Bool :=
  if last then ({ r with stats := st }, s, true, false) else ({ r with stats := st, next := r.next + 1 }, s, true, true)

/-- Reading a block into a slot and checking that it is the expected one, lines 1134-1145 and 1333-1355: the slot
afterwards, whether the read was complete, whether the block is the expected one. -/
def expect (f : File) (pos : Nat) (ref : Block) (seq : Nat) (s : Slot) : Slot × Bool × Bool :=
  let buf := f.readAt pos s.data.length
  let data := buf ++ s.data.drop buf.length
  if buf.length < s.data.length then ({ s with data := data }, false, false)
  else
    match s.block.syncFrom data (some (sameVerUid ref)) none with
    | (b, none) => ({ s with block := b, data := data }, true, b.header.seq.toNat == seq)
    | (b, some _) => ({ s with block := b, data := data }, true, false)

/-- One iteration of the reader of the burst error resistant pattern, lines 1116-1195. -/
def burstAct (stop : Nat → Bool) (f : File) (ref : Block) (d : Dpb) (r : OutSt) : Act OutSt :=
  if stop r.checks then .halt r
  else .slot fun s =>
    match expect f (Layout.dataWritePos ref.header.version r.next none (some d)) ref r.next s with
    | (s, _, ok) =>
      let r := { r with checks := r.checks + 1 }
      if Layout.isParity r.next d.data d.parity then
        dropSlot (if ok then { r.stats with parities := r.stats.parities + 1 }
          else { r.stats with parityFailed := r.stats.parityFailed + 1 }) (r.next == lastSeqNum) r s
      else dataSlot ref r.next ok (r.next == lastSeqNum) r s

/-- One iteration of the reader of the sequential pattern, lines 1318-1420.  A failed metadata block is counted as a failed
parity block (lines 1427-1429).  At the end of the file the slot is *not* cancelled (lines 1337-1340). -/
def seqAct (stop : Nat → Bool) (f : File) (seekTo required : Nat) (ref : Block) (dpb : Option Dpb) (r : OutSt) : Act OutSt :=
  if stop r.checks then .halt r
  else if required ≤ r.processed then .halt r
  else .slot fun s =>
    let seq := Layout.seqAtIndex r.next (some true) dpb
    match expect f (seekTo + r.processed) ref seq s with
    | (s', whole, ok) =>
      let r := { r with
        checks := r.checks + 1
        processed := r.processed + (f.readAt (seekTo + r.processed) s.data.length).length }
      if !whole then (r, s', false, false)
      else if seq = 0 then
        dropSlot (if ok then { r.stats with metas := r.stats.metas + 1 }
          else { r.stats with parityFailed := r.stats.parityFailed + 1 }) (r.next == 2 ^ 64 - 1) r s'
      else if Layout.isParityDpb seq dpb then
        dropSlot (if ok then { r.stats with parities := r.stats.parities + 1 }
          else { r.stats with parityFailed := r.stats.parityFailed + 1 }) (r.next == 2 ^ 64 - 1) r s'
      else dataSlot ref seq ok (r.next == 2 ^ 64 - 1) r s'

/-- The metadata blocks, lines 1051-1074 (`checks` counts the checks of the stop flag). -/
def metaPass (stop : Nat → Bool) (f : File) (ref : Block) : List Nat → Nat → Block → Stats → Nat × Stats
  | [], k, _, st => (k, st)
  | pos :: rest, k, block, st =>
    if stop k then (k, st)
    else
      let buf := f.readAt pos ref.size
      if buf.length < ref.size then metaPass stop f ref rest (k + 1) block { st with metaFailed := st.metaFailed + 1 }
      else
        match block.syncFrom buf (some (sameVerUid ref)) none with
        | (b, none) => metaPass stop f ref rest (k + 1) b { st with metas := st.metas + 1 }
        | (b, some _) => metaPass stop f ref rest (k + 1) b { st with metaFailed := st.metaFailed + 1 }

/-- The threads of either pattern, lines 1049-1498: the bytes hashed (if there is a hash context), the bytes written, the
counters.  `fuel` only bounds the number of iterations. -/
def outThreads (E : Env) (p : Param) (ref : Block) (f : File) (dpb : Option Dpb) (mid : List Byte → Buffer → Option (List Byte × Buffer))
    (fuel : Nat) : Option (OutSt × List Byte × List Byte) :=
  match dpb, p.ref.fromPos, p.ref.toPos with
  | some d, none, none =>
    match metaPass E.stop f ref (Layout.metaAllPos ref.header.version (some d)) 0 Block.dummy Stats.zero with
    | (k, st) =>
      run3 (Encode.buffersInRotation + 1) (burstAct E.stop f ref d) fuel mid stdoutWriter ⟨1, 0, k, st⟩ []
        (Buffer.newMulti (cfg ref dpb false) E.lotCount Encode.buffersInRotation)
  | _, _, _ =>
    let r := rangeOf p.ref ref f
    run3 (Encode.buffersInRotation + 1) (seqAct E.stop f r.seekTo r.requiredLen ref dpb) fuel mid stdoutWriter
      ⟨guessStart E.order f p.ref.fromPos p.ref.forceMisalign ref dpb, 0, 0, Stats.zero⟩ []
      (Buffer.newMulti (cfg ref dpb false) E.lotCount Encode.buffersInRotation)

/-- The hash type of the hash context, lines 1016-1028. -/
def hashTypeOf (ref : Block) : Option HashType :=
  match refHsh ref with
  | none => none
  | some h => if h.ty.supported then some h.ty else none

/-- The hasher thread, lines 1218-1235 and 1449-1466. -/
def midThread (ref : Block) : List Byte → Buffer → Option (List Byte × Buffer) :=
  match hashTypeOf ref with
  | some _ => hasher
  | none => fun bytes b => some (bytes, b)

/-- `decode` to standard output, lines 723-816 and 991-1548: the bytes written, the counters, the hash. -/
def decodeStdout (E : Env) (p : Param) (ref : Block) (f : File) : Except Err (List Byte × Stats × Option HashBytes) :=
  match dataParBurst p.ref true f ref with
  | .error e => .error e
  | .ok dpb =>
    match outThreads E p ref f dpb (midThread ref) (2 ^ 32 + f.length + 3) with
    | none => .error .panic
    | some (st, hashed, out) => .ok (out, st.stats, (hashTypeOf ref).map fun t => E.hash.bytes t hashed)

/-! ### The whole command -/

/-- `HASH_FILE_BUFFER_SIZE`, line 37. -/
def hashBufferSize : Nat := 4096 * 50

/-- Reading the output file for hashing, lines 1599-1663; the two threads hand the buffers over in order (C20). -/
def hashBytes (stop : Nat → Bool) (out : File) : (fuel : Nat) → (k : Nat) → List Byte
  | 0, _ => []
  | fuel + 1, k =>
    if stop k then []
    else
      let buf := out.readAt (k * hashBufferSize) hashBufferSize
      if buf.length < hashBufferSize then buf else buf ++ hashBytes stop out fuel (k + 1)

/-- `hash`, lines 1550-1674. -/
def hashFile (E : Env) (ref : Block) (out : File) : Option HashBytes :=
  (hashTypeOf ref).map fun t => E.hash.bytes t (hashBytes E.stopHash out (out.length + 1) 0)

/-- What `decode_file` reports. -/
structure Report where
  stats : Stats
  outSize : Nat
  recorded : Option HashBytes
  computed : Option HashBytes

/-- `decode_file` with an output file whose contents were `old`, lines 1676-1776 without the computation of the file name
(1683-1740): the output file afterwards and the report. -/
def toFile (E : Env) (p : Param) (f old : File) : Except Err (File × Report) :=
  match getRefBlockM p.ref p.ref.refChoice f E.stopRef (E.stop 0) with
  | .error e => .error e
  | .ok (_, ref) =>
    match decodeFile E p ref f old with
    | .error e => .error e
    | .ok (out, st) => .ok (out, ⟨st, out.length, refHsh ref, hashFile E ref out⟩)

/-- `decode_file` with standard output as output file. -/
def toStdout (E : Env) (p : Param) (f : File) : Except Err (List Byte × Report) :=
  match getRefBlockM p.ref p.ref.refChoice f E.stopRef (E.stop 0) with
  | .error e => .error e
  | .ok (_, ref) =>
    match decodeStdout E p ref f with
    | .error e => .error e
    | .ok (out, st, h) =>
      .ok (out, ⟨st, (refFsz ref).getD (st.datas * ref.header.version.dataSize), refHsh ref, h⟩)

end Verif.Decode
