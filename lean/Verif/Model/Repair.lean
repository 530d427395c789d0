import Verif.Model.File
import Verif.Model.FileUtils
import Verif.Model.Scan
/-!
# Model of `repair`, `src/repair_core.rs` and `src/rs_codec/repairer.rs`

Progress reports, messages and JSON output are left out.  Reads and writes never fail (see `Verif/Model/File.lean`).
-/

namespace Verif.Repair
open Layout FileUtils Scan

/-- The counters of `struct Stats`, `src/repair_core.rs` 23-37. -/
structure Stats where
  metaDecoded : Nat
  dataDecoded : Nat
  failed : Nat
  metaRepaired : Nat
  dataRepaired : Nat
  repairFailed : Nat
  deriving DecidableEq, Repr

def Stats.zero : Stats := ⟨0, 0, 0, 0, 0, 0⟩

/-- `Stats::blocks_so_far`, lines 58-60. -/
def Stats.blocks (s : Stats) : Nat := s.metaDecoded + s.dataDecoded + s.failed

/-- The fields of `RSRepairer` that change, `src/rs_codec/repairer.rs` 14-24. -/
structure Codec where
  index : Nat
  buf : List (List Byte)
  present : List Bool
  ref : Block

/-- `RSRepairer::new`, lines 185-210; `ReedSolomon::new(..).unwrap()` panics for impossible shard numbers. -/
def Codec.new (ref : Block) (d : Dpb) : Except Err Codec :=
  if d.data = 0 ∨ d.parity = 0 ∨ 256 < d.data + d.parity then .error .panic
  else .ok ⟨0, List.replicate (d.data + d.parity) (List.replicate ref.size 0), List.replicate (d.data + d.parity) false, ref⟩

/-- Reading into `get_block_buffer()`, lines 212-216: a short read leaves the rest of the buffer as it was. -/
def Codec.load (c : Codec) (bytes : List Byte) : Codec :=
  { c with buf := c.buf.modify c.index fun b => bytes ++ b.drop bytes.length }

/-- `mark_present` and `mark_missing`, lines 230-260. -/
def Codec.mark (c : Codec) (ok : Bool) : Codec :=
  { c with present := c.present.set c.index ok, index := c.index + 1 }

/-- What is handed to `reconstruct`, lines 289-293. -/
def Codec.shards (c : Codec) : List (List Byte × Bool) := (c.buf.zip c.present).map fun x => (x.1.drop 16, x.2)

/-- The missing shards get their headers, lines 313-322. -/
def Codec.resync (first : Nat) : List Nat → Codec → Except Err Codec
  | [], c => .ok c
  | i :: is, c =>
    match c.present[i]?, c.buf[i]? with
    | some true, some _ => resync first is c
    | some false, some b =>
      match (c.ref.setSeq (UInt32.ofNat (first + i))).syncTo none b with
      | .error _ => .error .panic
      | .ok (r, b) => resync first is { c with ref := r, buf := c.buf.set i b }
    | _, _ => .error .panic

/-- The blocks to be written, lines 323-334. -/
def Codec.repaired (v : Version) (d : Dpb) (first : Nat) (c : Codec) : List (Nat × List Byte) :=
  (List.range (d.data + d.parity)).filterMap fun i =>
    match c.present[i]?, c.buf[i]? with
    | some false, some b => some (dataWritePos v (first + i) none (some d), b)
    | _, _ => none

/-- `missing_count`, lines 262-274. -/
def Codec.missing (c : Codec) (d : Dpb) : Nat := d.data + d.parity - c.present.countP (· = true)

/-- `repair_with_block_sync`, lines 276-354: the codec afterwards, whether reconstruction was successful, the number of missing
blocks and the blocks to be written. -/
def Codec.repair (rs : RsCodec) (v : Version) (d : Dpb) (seq : Nat) (c : Codec) :
    Except Err (Codec × Bool × Nat × List (Nat × List Byte)) :=
  let first := (seq - 1) / (d.data + d.parity) * (d.data + d.parity) + 1
  match rs.reconstruct d.data d.parity c.shards with
  | none => .ok ({ c with index := 0 }, false, c.missing d, [])
  | some out =>
    match Codec.resync first (List.range (d.data + d.parity))
        { c with buf := List.zipWith (fun b o => b.take 16 ++ o) c.buf out } with
    | .error e => .error e
    | .ok c => .ok ({ c with index := 0 }, true, c.missing d, c.repaired v d first)

/-- State of the loop over the metadata blocks, `src/repair_core.rs` 352-401. -/
structure MetaSt where
  disk : Disk
  buffer : List Byte
  block : Block
  ref : Block
  stats : Stats

/-- One metadata place, lines 361-399. -/
def metaStep (ref : Block) (dry : Bool) (s : MetaSt) (p : Nat) : Except Err MetaSt :=
  let v := ref.header.version
  let bytes := s.disk.file.readAt p v.blockSize
  let buffer := bytes ++ s.buffer.drop bytes.length
  let r := if bytes.length < v.blockSize then (s.block, true)
    else match s.block.syncFrom buffer (some (sameVerUid ref)) none with
      | (b, none) => (b, false)
      | (b, some _) => (b, true)
  if r.2 then
    match s.ref.syncTo none buffer with
    | .error _ => .error .panic
    | .ok (ref', buffer) =>
      .ok { s with
        disk := if dry then s.disk else s.disk.writeAt p (buffer.take v.blockSize)
        buffer := buffer
        block := r.1
        ref := ref'
        stats := { s.stats with failed := s.stats.failed + 1, metaRepaired := s.stats.metaRepaired + 1 } }
  else .ok { s with
    buffer := buffer
    block := r.1
    stats := { s.stats with metaDecoded := s.stats.metaDecoded + 1 } }

/-- The loop, line 360; `stop k` is the state of the interrupt flag when the `k`-th place is reached. -/
def metaLoop (ref : Block) (dry : Bool) (stop : Nat → Bool) : Nat → List Nat → MetaSt → Except Err MetaSt
  | _, [], s => .ok s
  | k, p :: ps, s =>
    if stop k then .ok s
    else
      match metaStep ref dry s p with
      | .error e => .error e
      | .ok s => metaLoop ref dry stop (k + 1) ps s

/-- State of the loop over the data and parity blocks, lines 410-451. -/
structure DataSt where
  disk : Disk
  codec : Codec
  block : Block
  stats : Stats

/-- `update_rs_codec_and_stats`, lines 204-238, for the bytes read: the new state (before a repair). -/
def mark (ref : Block) (seq : Nat) (bytes : List Byte) (s : DataSt) : DataSt :=
  let codec := s.codec.load bytes
  let missing (b : Block) : DataSt :=
    { s with codec := codec.mark false, block := b, stats := { s.stats with failed := s.stats.failed + 1 } }
  if bytes.length < ref.header.version.blockSize then missing s.block
  else
    match s.block.syncFrom bytes (some (sameVerUid ref)) none with
    | (b, some _) => missing b
    | (b, none) =>
      if b.header.seq.toNat ≠ seq then missing b
      else
        { s with
          codec := codec.mark true
          block := b
          stats := if b.blockType = .metadata then { s.stats with metaDecoded := s.stats.metaDecoded + 1 }
            else { s.stats with dataDecoded := s.stats.dataDecoded + 1 } }

/-- `repair_blocks_and_update_stats_using_repair_stats`, lines 240-270. -/
def repairSet (rs : RsCodec) (v : Version) (d : Dpb) (dry : Bool) (seq : Nat) (s : DataSt) : Except Err DataSt :=
  match s.codec.repair rs v d seq with
  | .error e => .error e
  | .ok (codec, ok, missing, blocks) =>
    .ok { s with
      codec := codec
      stats := if ok then { s.stats with dataRepaired := s.stats.dataRepaired + missing }
        else { s.stats with repairFailed := s.stats.repairFailed + missing }
      disk := if dry then s.disk else blocks.foldl (fun dk w => dk.writeAt w.1 w.2) s.disk }

/-- One sequence number, lines 420-448. -/
def dataStep (rs : RsCodec) (ref : Block) (d : Dpb) (dry : Bool) (seq : Nat) (s : DataSt) : Except Err DataSt :=
  let v := ref.header.version
  let s := mark ref seq (s.disk.file.readAt (dataWritePos v seq none (some d)) v.blockSize) s
  if s.codec.index = d.data + d.parity then repairSet rs v d dry seq s else .ok s

/-- The loop, lines 410-451, over the sequence numbers from `seq` to the largest one; the first argument is how many of them there
are left. -/
def dataLoop (rs : RsCodec) (ref : Block) (d : Dpb) (dry : Bool) (total : Nat) (stop : Nat → Bool) :
    Nat → Nat → DataSt → Except Err DataSt
  | 0, _, s => .ok s
  | n + 1, seq, s =>
    if stop seq then .ok s
    else if total ≤ s.stats.blocks then .ok s
    else
      match dataStep rs ref d dry seq s with
      | .error e => .error e
      | .ok s => dataLoop rs ref d dry total stop n (seq + 1) s

/-- What is outside the program: the codec and the state of the interrupt flag whenever it is looked at. -/
structure Env where
  rs : RsCodec
  stopRef : Nat → Bool
  stopMeta : Nat → Bool
  stopData : Nat → Bool

/-- `total_block_count`, lines 295-313. -/
def totalBlocks (ref : Block) (d : Dpb) (f : File) : Except Err Nat :=
  match getFsz ref with
  | .error _ => .error .panic
  | .ok (some size) => .ok (totalBlockCount ref.header.version none (some d) size)
  | .ok none => .ok (f.length / ref.header.version.blockSize)

/-- From line 315 on, once reference block and layout are known. -/
def repairWith (E : Env) (dry : Bool) (ref : Block) (d : Dpb) (total : Nat) (f : File) : Except Err (Disk × Stats) :=
  match Codec.new ref d with
  | .error e => .error e
  | .ok codec =>
    match ref.syncTo none (List.replicate 4096 0) with
    | .error _ => .error .panic
    | .ok (ref', buffer) =>
      match metaLoop ref dry E.stopMeta 0 (metaAllPos ref.header.version (some d)) ⟨⟨f, []⟩, buffer, Block.dummy, ref', Stats.zero⟩ with
      | .error e => .error e
      | .ok m =>
        match dataLoop E.rs ref d dry total E.stopData lastSeqNum 1 ⟨m.disk, codec, m.block, m.stats⟩ with
        | .error e => .error e
        | .ok s => .ok (s.disk, s.stats)

/-- `repair_file`, lines 272-463: the container afterwards (with the list of writes made to it) and the counters; `none` if the
version has no Reed-Solomon code.  `burst` is the option of that name. -/
def repairFile (E : Env) (burst : Option Nat) (dry : Bool) (f : File) : Except Err (Option (Disk × Stats)) :=
  let p : RefParam := ⟨.mustBe .metadata, none, none, none, none, none, false, burst⟩
  match getRefBlockAligned p (.mustBe .metadata) f E.stopRef (E.stopMeta 0) with
  | .error e => .error e
  | .ok (_, ref) =>
    if ref.header.version.usesRs then
      match dataParBurst p false f ref with
      | .error e => .error e
      | .ok none => .error .panic
      | .ok (some d) =>
        match totalBlocks ref d f with
        | .error e => .error e
        | .ok total =>
          match repairWith E dry ref d total f with
          | .error e => .error e
          | .ok x => .ok (some x)
    else .ok none

end Verif.Repair
