import Verif.Model.Scan
import Verif.Model.Pipeline
/-!
# Model of `src/rescue_core.rs`, `src/rescue_buffer/mod.rs` and of the log file, `src/log.rs`

Progress reporting and printing are left out.  Writes to the output files do not fail; a failing write, or an error of the
log thread noticed by the writer (lines 416-424), makes the writer leave its loop without writing anything more, which leaves
the files as a crash at that point does (the crash points of `Verif/Spec/Rescue.lean` cover it).
-/

namespace Verif.Rescue
open Scan Misc

/-! ### The log file -/

/-- Text as bytes. -/
def ascii (s : String) : List Byte := s.toList.map fun c => UInt8.ofNat c.toNat

/-- The counters of `struct Stats`, lines 76-84, and of `struct SendToWriter`, lines 231-235. -/
structure Counters where
  bytes : Nat
  metas : Nat
  datas : Nat
  deriving DecidableEq, Repr

/-- `Stats::new`, lines 87-98. -/
def Counters.zero : Counters := ⟨0, 0, 0⟩

/-- At most `k` decimal digits of `n`, most significant first. -/
def digitsOf : (k : Nat) → Nat → List Byte
  | 0, _ => []
  | k + 1, n => if n < 10 then [UInt8.ofNat (48 + n)] else digitsOf k (n / 10) ++ [UInt8.ofNat (48 + n % 10)]

/-- `format!("{}", n)` of a `u64`, which has at most 20 digits. -/
def decimal (n : Nat) : List Byte := digitsOf 20 n

def keyBytes : List Byte := ascii "bytes_processed="
def keyBlocks : List Byte := ascii "blocks_processed="
def keyMetas : List Byte := ascii "meta_blocks_processed="
def keyDatas : List Byte := ascii "data_blocks_processed="

/-- `serialize`, lines 158-175.  The sum of the block counters is a `u64` addition. -/
def Counters.serialize (c : Counters) : List Byte :=
  keyBytes ++ decimal c.bytes ++ [10] ++
  (keyBlocks ++ decimal ((c.metas + c.datas) % 2 ^ 64) ++ [10]) ++
  (keyMetas ++ decimal c.metas ++ [10]) ++
  (keyDatas ++ decimal c.datas ++ [10])

def isDigit (b : Byte) : Bool := 48 ≤ b && b ≤ 57

/-- `parse::<u64>()` of a string of digits, lines 134-139: fails on overflow. -/
def parseU64 (ds : List Byte) : Option Nat :=
  let n := ds.foldl (fun acc d => acc * 10 + (d.toNat - 48)) 0
  if n < 2 ^ 64 then some n else none

/-- One line of the log: `tag!(key) >> digit1 >> newline`, lines 144-151.  Returns the digits and the rest. -/
def lineP (key s : List Byte) : Option (List Byte × List Byte) :=
  if key.isPrefixOf s then
    let s := s.drop key.length
    let ds := s.takeWhile isDigit
    if ds = [] then none
    else
      match s.drop ds.length with
      | 10 :: rest => some (ds, rest)
      | _ => none
  else none

/-- `stats_p`, lines 142-154, together with `parse_digits`, lines 126-140. -/
def statsP (s : List Byte) : Option (Nat × Nat × Nat × Nat) :=
  match lineP keyBytes s with
  | none => none
  | some (b, s) =>
    match lineP keyBlocks s with
    | none => none
    | some (n, s) =>
      match lineP keyMetas s with
      | none => none
      | some (m, s) =>
        match lineP keyDatas s with
        | none => none
        | some (d, _) =>
          match parseU64 b, parseU64 n, parseU64 m, parseU64 d with
          | some b, some n, some m, some d => some (b, n, m, d)
          | _, _, _, _ => none

/-- `deserialize`, lines 177-190; `total` is `total_bytes`. -/
def deserialize (total : Nat) (s : List Byte) : Option Counters :=
  match statsP s with
  | none => none
  | some (b, _, m, d) => some ⟨roundDown (min b total) scanBlockSize, m, d⟩

/-- `LOG_MAX_SIZE`, `src/log.rs` 13. -/
def logMaxSize : Nat := 1024

/-- `LogHandler::read_from_file`, `src/log.rs` 175-193 and 67-82: the first 1024 bytes of the log file, followed by zeros if there
are fewer.  `none` for the file: it does not exist.  `none` as result: `ParseError`. -/
def readLog (total : Nat) : Option File → Option Counters
  | none => some .zero
  | some f => deserialize total (f.readAt 0 logMaxSize ++ List.replicate (logMaxSize - f.length) 0)

/-! ### The buffer, `src/rescue_buffer/mod.rs` -/

/-- One entry of `blocks` with its part of `data`, lines 59-65. -/
structure Slot where
  block : Block
  data : List Byte
  deriving DecidableEq

/-- `struct RescueBuffer`.  `uid_to_slot_indices` is a list of pairs in order of insertion; the order in which a `HashMap` is
traversed is given by `Env.order`. -/
structure Buffer where
  slots : List Slot
  used : Nat
  groups : List (Uid × List Nat)
  deriving DecidableEq

namespace Buffer

/-- `RescueBuffer::new`, lines 68-84. -/
def new (size : Nat) : Buffer := ⟨List.replicate size ⟨Block.dummy, List.replicate 4096 0⟩, 0, []⟩

/-- `is_full`, lines 166-168. -/
def isFull (b : Buffer) : Bool := b.used = b.slots.length

end Buffer

/-- `reset_slot`, lines 151-156, and the loop of `reset`, lines 144-148. -/
def Slot.reset (s : Slot) : Slot := { s with block := ((s.block.setVersion .v1).setUid Block.zeroUid).setSeq 1 }

namespace Buffer

/-- `cancel_slot`, lines 158-164. -/
def cancel (b : Buffer) : Buffer := { b with used := b.used - 1, slots := b.slots.modify (b.used - 1) Slot.reset }

/-- `reset`, lines 139-149. -/
def reset (b : Buffer) : Buffer := { slots := b.slots.map Slot.reset, used := 0, groups := [] }

/-- Lines 103-110: add a slot index under a uid. -/
def addGroup (g : List (Uid × List Nat)) (uid : Uid) (i : Nat) : List (Uid × List Nat) :=
  match g with
  | [] => [(uid, [i])]
  | (u, l) :: rest => if u = uid then (u, l ++ [i]) :: rest else (u, l) :: addGroup rest uid i

/-- `group_by_uid`, lines 99-112. -/
def groupByUid (b : Buffer) : Buffer :=
  { b with groups := ((b.slots.take b.used).zipIdx).foldl (fun g x => addGroup g x.1.block.header.uid x.2) b.groups }

end Buffer

/-! ### The threads -/

/-- Whether a call of `read_block_lazily` fails, and in which of its two reads (`src/block_utils.rs` 87 and 113). -/
inductive ReadErr
  | none | first | rest
  deriving DecidableEq

/-- What the environment decides. -/
structure Env where
  /-- `PIPELINE_BUFFER_IN_ROTATION`, line 24: 9 in the code -/
  buffers : Nat
  /-- `BLOCK_COUNT_IN_BUFFER`, line 26: 1000 in the code -/
  slots : Nat
  /-- is the stop flag found set at the `n`-th check? -/
  stop : Nat → Bool
  /-- result of the `n`-th call of `read_block_lazily` -/
  err : Nat → ReadErr
  /-- order in which the groups of the `n`-th buffer are visited -/
  order : Nat → List (Uid × List Nat) → List (Uid × List Nat)

/-- `struct Param`, lines 28-39. -/
structure Param where
  fromPos : Option Nat
  toPos : Option RangeEnd
  forceMisalign : Bool
  onlyBlock : Option BlockType
  onlyUid : Option Uid

/-- What the writer does, in order: it appends bytes to the file with the given name in the output directory, or it updates the
counters that the log thread writes to the log file. -/
inductive Event
  | append (name : List Byte) (bytes : List Byte)
  | stats (c : Counters)
  deriving DecidableEq

/-- Locals of the threads: the reader uses the first six, the writer the last two.  `hung` marks a reader that stays in its inner
loop for ever. -/
structure St where
  run : Bool
  pos : Nat
  count : Counters
  checks : Nat
  failed : Bool
  hung : Bool
  turn : Nat
  events : List Event

/-- `read_block_lazily` (`src/block_utils.rs` 76-142) into a slot; `none` is a read error (the bytes of a failed read are not
stored, which is a simplification: a read may fail after delivering some). -/
def readSlot (err : ReadErr) (s : Slot) (f : File) (pos : Nat) : Slot × Option LazyRead :=
  if err = .first then (s, none)
  else
    let buf := f.readAt pos scanBlockSize
    let data := buf ++ s.data.drop buf.length
    if buf.length < scanBlockSize then (⟨s.block, data⟩, some ⟨buf.length, false, true⟩)
    else
      match s.block.syncHeader buf with
      | .error _ => (⟨s.block, data⟩, some ⟨buf.length, false, false⟩)
      | .ok block =>
        if err = .rest then (⟨block, data⟩, none)
        else
          let buf := buf ++ f.readAt (pos + buf.length) (block.size - scanBlockSize)
          let data := buf ++ s.data.drop buf.length
          if buf.length < block.size then (⟨block, data⟩, some ⟨buf.length, false, true⟩)
          else
            match block.syncFrom buf none none with
            | (block, none) => (⟨block, data⟩, some ⟨buf.length, true, false⟩)
            | (block, some _) => (⟨block, data⟩, some ⟨buf.length, false, false⟩)

/-- Lines 347-354: count a usable block (`u64`, wrapping in a release build). -/
def Counters.count (c : Counters) (b : Block) : Counters :=
  match b.blockType with
  | .metadata => { c with metas := (c.metas + 1) % 2 ^ 64 }
  | .data => { c with datas := (c.datas + 1) % 2 ^ 64 }

/-- Lines 356-374: whether the block passes the filters. -/
def Param.picks (p : Param) (b : Block) : Bool :=
  p.onlyBlock.all (· = b.blockType) && p.onlyUid.all (· = b.header.uid)

/-- The inner loop of the reader, lines 330-378.  `none`: it has not ended after `fuel` iterations. -/
def fill (E : Env) (p : Param) (f : File) (required : Nat) : (fuel : Nat) → St → Buffer → Option (St × Buffer)
  | 0, _, _ => none
  | fuel + 1, st, buf =>
    if buf.isFull then some (st, buf)
    else if E.stop st.checks then some ({ st with run := false }, buf)
    else if required ≤ st.count.bytes then some ({ st with run := false }, buf)
    else
      match buf.slots[buf.used]? with
      | none => none
      | some s =>
        match readSlot (E.err st.checks) s f st.pos with
        | (s, none) =>
          some ({ st with run := false, failed := true }, { buf with slots := buf.slots.set buf.used s, used := buf.used + 1 })
        | (s, some r) =>
          let buf := { buf with slots := buf.slots.set buf.used s, used := buf.used + 1 }
          let count := { st.count with bytes := st.count.bytes + r.lenRead }
          let st := { st with pos := st.pos + r.lenRead, checks := st.checks + 1, count }
          if r.usable then
            let st := { st with count := st.count.count s.block }
            if p.picks s.block then fill E p f required fuel st buf else fill E p f required fuel st buf.cancel
          else fill E p f required fuel st buf.cancel

/-- A message: the counters of `SendToWriter` (meaningless on the way from the writer to the reader) and the buffer. -/
abbrev Msg := Counters × Buffer

/-- The reader, lines 322-390. -/
def readerStep (E : Env) (p : Param) (f : File) (required : Nat) (st : St) (m : Msg) : St × Option (List Msg) :=
  if !st.run then (st, none)
  else
    match fill E p f required (f.length + 2) st m.2 with
    | none => ({ st with hung := true }, none)
    | some (st, buf) => (st, some [(st.count, buf)])

/-- The grouper, lines 396-401. -/
def grouperStep (st : St) (m : Msg) : St × Option (List Msg) := (st, some [(m.1, m.2.groupByUid)])

/-- `RescueBuffer::write`, `src/rescue_buffer/mod.rs` 114-137: for every group the file is opened for appending, the blocks of the group are written
and the file is closed. -/
def Buffer.write (b : Buffer) (groups : List (Uid × List Nat)) : List Event :=
  groups.flatMap fun g => g.2.filterMap fun i =>
    b.slots[i]?.map fun s => .append (upperHex g.1.bytes) (s.data.take s.block.size)

/-- The writer, lines 413-443. -/
def writerStep (E : Env) (st : St) (m : Msg) : St × Option (List Msg) :=
  let events := m.2.write (E.order st.turn m.2.groups) ++ [.stats m.1]
  ({ st with events := st.events ++ events, turn := st.turn + 1 }, some [(m.1, m.2.reset)])

/-- The three threads, lines 294-300 and 312-447. -/
def ring (E : Env) (p : Param) (f : File) (required : Nat) : Pipeline.Ring 3 St Msg where
  step := fun i st m => match i with
    | 0 => readerStep E p f required st m
    | 1 => grouperStep st m
    | 2 => writerStep E st m
  cap := fun _ => E.buffers + 1

/-- `required_len`, lines 243-253. -/
def required (p : Param) (f : File) : Nat :=
  (byteRange p.fromPos p.toPos p.forceMisalign 0 (.len f.length) none).requiredLen

/-- `seek_to`, lines 281-292, `soFar` being the byte counter taken from the log. -/
def seekTo (p : Param) (f : File) (soFar : Nat) : Nat :=
  (byteRange p.fromPos p.toPos p.forceMisalign soFar (.len f.length) none).seekTo

/-- State before the threads start, with the counters `c` read from the log. -/
def St.start (p : Param) (f : File) (c : Counters) : St := ⟨true, seekTo p f c.bytes, c, 0, false, false, 0, []⟩

/-- The pipeline before the threads start, lines 302-320. -/
def initial (E : Env) (p : Param) (f : File) (c : Counters) : Pipeline.Sys 3 St Msg :=
  Pipeline.initial (fun _ => St.start p f c) (List.replicate E.buffers (.zero, Buffer.new E.slots))

end Verif.Rescue
