import Verif.Model.BlockRing
import Verif.Model.Decode
/-!
# Model of `sort`, `src/sort_core.rs`

Progress reports, messages and JSON output are left out.  Reads and writes never fail (see `Verif/Model/File.lean`); the input
file is not the output file.
-/

namespace Verif.Sort
open Misc Scan BlockRing

/-- The options that matter, `struct Param`, lines 38-54; `toFile` is `out_file.is_some()`. -/
structure Param where
  ref : RefParam
  multiPass : Option Decode.MultiPass
  reportBlank : Bool
  toFile : Bool

/-- The parts of the environment that matter. -/
structure Env where
  /-- `num_cpus * 50`, `src/data_block_buffer/mod.rs` 636 -/
  lotCount : Nat
  /-- is the stop flag found set at the `n`-th check while looking for the reference block -/
  stopRef : Nat → Bool
  /-- ... while sorting -/
  stop : Nat → Bool

/-- The counters the reader thread changes, of `struct Stats`, lines 97-116. -/
structure Stats where
  metas : Nat
  datas : Nat
  parities : Nat
  failed : Nat
  okayBlank : Nat
  metaSame : Nat
  metaDiff : Nat
  deriving DecidableEq, Repr

def Stats.zero : Stats := ⟨0, 0, 0, 0, 0, 0, 0⟩

/-- `Stats::blocks_so_far`, lines 144-150. -/
def Stats.blocks (s : Stats) : Nat := s.metas + s.datas + s.parities + s.failed + s.okayBlank

/-- The counters the counter thread changes. -/
structure Order where
  dataSame : Nat
  dataDiff : Nat
  paritySame : Nat
  parityDiff : Nat
  deriving DecidableEq, Repr

/-- Configuration of the buffers, lines 450-459. -/
def cfg (ref : Block) (dpb : Option Dpb) (skipGood : Bool) : LotCfg :=
  { version := ref.header.version, uid := ref.header.uid, inputData := false, outputType := .block, dpb := dpb,
    metaEnabled := true, skipGood := skipGood, defaultLotSize := 100 }

/-- `check_meta_blocks_reader`, lines 278-316: how many metadata places hold exactly the bytes `mb`, and how many do not. -/
def checkMetas (v : Version) (dpb : Option Dpb) (offset : Nat) (mb : List Byte) (f : File) : Nat × Nat :=
  let same := (Layout.metaAllPos v dpb).countP fun p => f.readAt (p + offset) v.blockSize == mb
  (same, (Layout.metaAllPos v dpb).length - same)

/-- State of the reader thread; `found` is the metadata block sent to the writer (`meta_written`, line 475, is `found.isSome`). -/
structure RdSt where
  processed : Nat
  checks : Nat
  found : Option (List Byte)
  stats : Stats

/-- What is done with a slot, lines 495-581. -/
def slotStep (f : File) (seekTo : Nat) (ref : Block) (dpb : Option Dpb) (reportBlank : Bool) (r : RdSt) (s : Slot) :
    RdSt × Slot × Bool × Bool :=
  let buf := f.readAt (seekTo + r.processed) s.data.length
  let data := buf ++ s.data.drop buf.length
  let r' := { r with processed := r.processed + buf.length, checks := r.checks + 1 }
  if buf.length < s.data.length then (r', { s with data := data }, true, false)
  else
    match s.block.syncFrom data (some (sameVerUid ref)) none with
    | (b, none) =>
      if b.blockType = .metadata then
        let st := if r.found.isSome then r.stats else
          let x := checkMetas ref.header.version dpb seekTo data f
          { r.stats with metaSame := r.stats.metaSame + x.1, metaDiff := r.stats.metaDiff + x.2 }
        ({ r' with found := r.found.or (some data), stats := { st with metas := st.metas + 1 } }, { s with block := b, data := data },
          true, true)
      else
        ({ r' with
          stats := if Layout.isParityDpb b.header.seq.toNat dpb then { r.stats with parities := r.stats.parities + 1 }
            else { r.stats with datas := r.stats.datas + 1 } },
          { s with block := b, data := data, readPos := some (seekTo + r.processed) }, false, true)
    | (b, some _) =>
      ({ r' with
        stats := if bufferIsBlank data && !reportBlank then { r.stats with okayBlank := r.stats.okayBlank + 1 }
          else { r.stats with failed := r.stats.failed + 1 } },
        { s with block := b, data := data }, true, true)

/-- One iteration of the reader's inner loop, lines 490-582. -/
def act (stop : Nat → Bool) (f : File) (seekTo required : Nat) (ref : Block) (dpb : Option Dpb) (reportBlank : Bool) (r : RdSt) :
    Act RdSt :=
  if stop r.checks then .halt r
  else if required ≤ r.processed then .halt r
  else .slot (slotStep f seekTo ref dpb reportBlank r)

/-- Whether a metadata block is written to position `p`, lines 335-358.  The block used for checking is overwritten at each place;
what it contained before does not matter to the result of `sync_from_buffer`. -/
def doWriteMeta (ref : Block) (skipGood : Bool) (p : Nat) (out : File) : Bool :=
  !skipGood ||
    (let buf := out.readAt p ref.header.version.blockSize
     decide (buf.length < ref.header.version.blockSize) ||
      match Block.dummy.read? buf (some (sameVerUid ref)) with
      | some b => b.header.seq ≠ 0
      | none => true)

/-- `write_meta_blocks_writer`, lines 318-369. -/
def writeMetas (ref : Block) (dpb : Option Dpb) (skipGood : Bool) (mb : List Byte) (d : Disk) : Disk :=
  (Layout.metaAllPos ref.header.version dpb).foldl
    (fun d p => if doWriteMeta ref skipGood p d.file then d.writeAt p mb else d) d

/-- `enum SendToWriter`, lines 33-36. -/
inductive Msg
  | metaBlock (mb : List Byte)
  | buf (b : Buffer)

/-- Thread states: the reader uses `rd` and `run`, the writer `out` (`none` without output file), the counter `order`. -/
structure St where
  rd : RdSt
  run : Bool
  out : Option Disk
  order : Order
  panicked : Bool

/-- Loop body of the reader thread, lines 477-597.  The metadata block found while filling the buffer is sent before the buffer. -/
def readerStep (a : RdSt → Act RdSt) (fuel : Nat) (s : St) : Msg → St × Option (List Msg)
  | .metaBlock _ => ({ s with panicked := true }, none)
  | .buf b =>
    if !s.run then (s, none)
    else
      match fillLoop a fuel s.rd b with
      | none => ({ s with panicked := true }, none)
      | some (r, run, b) =>
        ({ s with rd := r, run := run },
          some ((if s.rd.found.isNone then (r.found.map Msg.metaBlock).toList else []) ++ [.buf b]))

/-- Loop body of the writer thread, lines 608-639. -/
def writerStep (ref : Block) (dpb : Option Dpb) (skipGood : Bool) (s : St) : Msg → St × Option (List Msg)
  | .metaBlock mb => ({ s with out := s.out.map (writeMetas ref dpb skipGood mb) }, some [])
  | .buf b =>
    match s.out with
    | none => (s, some [.buf b.calcSlotWritePos])
    | some d => ({ s with out := some (b.write d).2 }, some [.buf (b.write d).1])

/-- One slot in the counter thread, lines 656-677; `none` is the panic of `unwrap`. -/
def countSlot (readOffset : Nat) (dpb : Option Dpb) (o : Order) (s : Slot) : Option Order :=
  match s.readPos, s.writePos with
  | some rp, some wp =>
    let parity := Layout.isParityDpb s.block.header.seq.toNat dpb
    if rp - readOffset = wp then
      some (if parity then { o with paritySame := o.paritySame + 1 } else { o with dataSame := o.dataSame + 1 })
    else some (if parity then { o with parityDiff := o.parityDiff + 1 } else { o with dataDiff := o.dataDiff + 1 })
  | _, _ => none

/-- Loop body of the counter thread, lines 650-691. -/
def counterStep (readOffset : Nat) (dpb : Option Dpb) (s : St) : Msg → St × Option (List Msg)
  | .metaBlock _ => ({ s with panicked := true }, none)
  | .buf b =>
    match b.used.foldlM (countSlot readOffset dpb) s.order with
    | none => ({ s with panicked := true }, none)
    | some o => ({ s with order := o }, some [.buf b.reset])

/-- `PIPELINE_BUFFER_IN_ROTATION`, line 31. -/
def buffersInRotation : Nat := 9

/-- The three threads and the channels between them, lines 436-438 (the channel to the writer has one extra place). -/
def ring (a : RdSt → Act RdSt) (fuel : Nat) (ref : Block) (dpb : Option Dpb) (skipGood : Bool) (readOffset : Nat) :
    Pipeline.Ring 3 St Msg where
  step i s m :=
    if i = 0 then readerStep a fuel s m
    else if i = 1 then writerStep ref dpb skipGood s m
    else counterStep readOffset dpb s m
  cap i := if i = 1 then buffersInRotation + 2 else buffersInRotation + 1

/-- State before the threads start. -/
def start (out : Option Disk) : St := ⟨⟨0, 0, none, Stats.zero⟩, true, out, ⟨0, 0, 0, 0⟩, false⟩

/-- Lines 381-709 for the reference block and layout found: the output file (if any; `old` are its contents before) and the
counters.  The threads run one after the other on each buffer; by C20 every schedule ends the same way. -/
def sortWith (E : Env) (p : Param) (ref : Block) (dpb : Option Dpb) (f old : File) : Except Err (Option Disk × Stats × Order) :=
  let r := Decode.rangeOf p.ref ref f
  let out := if p.toFile then some ⟨Decode.openOut p.multiPass old, []⟩ else none
  match (ring (act E.stop f r.seekTo r.requiredLen ref dpb p.reportBlank) (f.length + 3) ref dpb (p.multiPass == some .skipGood)
      (r.seekTo % ref.header.version.blockSize)).runSeq (f.length + 4) (fun _ => start out)
      ((Buffer.newMulti (cfg ref dpb (p.multiPass == some .skipGood)) E.lotCount buffersInRotation).map .buf) with
  | none => .error .panic
  | some st =>
    if (st 0).panicked || (st 1).panicked || (st 2).panicked then .error .panic
    else .ok ((st 1).out, (st 0).rd.stats, (st 2).order)

/-- `sort_file`, lines 371-710. -/
def sortFile (E : Env) (p : Param) (f old : File) : Except Err (Option Disk × Stats × Order) :=
  match getRefBlockM p.ref p.ref.refChoice f E.stopRef (E.stop 0) with
  | .error e => .error e
  | .ok (_, ref) =>
    match dataParBurst p.ref true f ref with
    | .error e => .error e
    | .ok dpb => sortWith E p ref dpb f old

end Verif.Sort
