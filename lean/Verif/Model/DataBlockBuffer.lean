import Verif.Model.Block
import Verif.Model.Layout
import Verif.Model.File
/-!
# Model of `src/data_block_buffer/mod.rs`

A `DataBlockBuffer` is a fixed number of `Lot`s of a fixed number of slots.  The parallel vectors of a Rust `Lot`
(`blocks`, `data`, `slot_read_pos`, ...) are one list of `Slot`s here.  `none` stands for a panic (failed assertion,
`unwrap`).  Slot bytes are never cleared by `reset`, so they are carried along ("stale").  `par_iter_mut` over lots is
modelled by `map`: the closure only touches its own lot.
-/

namespace Verif

/-- `enum OutputType`, lines 111-116. -/
inductive OutputType
  | block | data | disabled
  deriving DecidableEq, Repr

/-- The immutable fields of a `Lot`, lines 133-157.  `inputData` is `input_type == InputType::Data`. -/
structure LotCfg where
  version : Version
  uid : Uid
  inputData : Bool
  outputType : OutputType
  dpb : Option Dpb
  metaEnabled : Bool
  skipGood : Bool
  /-- `default_lot_size`, line 176 (`DEFAULT_SINGLE_LOT_SIZE = 100` in the program) -/
  defaultLotSize : Nat
  deriving DecidableEq

namespace LotCfg

/-- `lot_size`, lines 185-191. -/
def lotSize (c : LotCfg) : Nat :=
  if c.inputData then
    match c.dpb with
    | none => c.defaultLotSize
    | some d => d.data + d.parity
  else c.defaultLotSize

/-- `directly_writable_slots`, lines 185-191. -/
def direct (c : LotCfg) : Nat :=
  if c.inputData then
    match c.dpb with
    | none => c.defaultLotSize
    | some d => d.data
  else c.defaultLotSize

end LotCfg

/-- One slot: the `i`-th entries of the vectors of a `Lot`, lines 146-154. -/
structure Slot where
  block : Block
  /-- `block_size` bytes -/
  data : List Byte
  readPos : Option Nat
  writePos : Option Nat
  contentLen : Option Nat
  isPadding : Bool

/-- Mutable part of `struct Lot`, lines 133-157 (`check_block`, `check_buffer` are scratch space of `write`). -/
structure Lot where
  cfg : LotCfg
  slots : List Slot
  slotsUsed : Nat
  /-- `padding_byte_count_in_non_padding_blocks` -/
  paddingBytes : Nat

namespace Slot

/-- State of a slot in a new lot, lines 203-229. -/
def fresh (c : LotCfg) : Slot :=
  { block := Block.new c.version c.uid .data, data := List.replicate c.version.blockSize 0,
    readPos := none, writePos := none, contentLen := none, isPadding := false }

/-- `Lot::reset_slot`, lines 452-462.  The bytes stay. -/
def reset (c : LotCfg) (s : Slot) : Slot :=
  { s with
    block := ((s.block.setVersion c.version).setUid c.uid).setSeq 1
    readPos := none, writePos := none, contentLen := none, isPadding := false }

end Slot

namespace Lot

/-- `Lot::new`, lines 168-233. -/
def new (c : LotCfg) : Lot :=
  { cfg := c, slots := List.replicate c.lotSize (Slot.fresh c), slotsUsed := 0, paddingBytes := 0 }

/-- `Lot::get_slot`, lines 235-260: the slot index handed out is the old `slots_used`; the flag says `LastSlot`. -/
def getSlot (l : Lot) : Option (Lot × Bool) :=
  if l.slotsUsed < l.cfg.direct then
    some ({ l with slotsUsed := l.slotsUsed + 1 }, l.slotsUsed + 1 == l.cfg.direct)
  else none

/-- The used slots, in order: what `view_slots` (262-276) shows and what `hash` and `write` go through. -/
def used (l : Lot) : List Slot := l.slots.take l.slotsUsed

/-- `Lot::cancel_slot`, lines 278-285. -/
def cancelSlot (l : Lot) : Option Lot :=
  if 0 < l.slotsUsed ∧ l.slotsUsed ≤ l.cfg.direct then
    some { l with slotsUsed := l.slotsUsed - 1, slots := l.slots.modify (l.slotsUsed - 1) (Slot.reset l.cfg) }
  else none

/-- `Lot::active`, lines 287-289. -/
def active (l : Lot) : Bool := 0 < l.slotsUsed

/-- Apply `f` (given the slot index) to the slots with index below `n`. -/
def mapBelow (n : Nat) (f : Nat → Slot → Slot) (slots : List Slot) : List Slot :=
  slots.mapIdx fun i s => if i < n then f i s else s

/-- The write position of a slot, lines 295-315; `none` in the outer option is the panic of line 314. -/
def slotWritePos (c : LotCfg) (seq : Nat) : Option Nat :=
  match c.outputType with
  | .block => some (Layout.dataWritePos c.version seq (some c.metaEnabled) c.dpb)
  | .data => Layout.chunkWritePos c.version seq (c.dpb.map fun d => (d.data, d.parity))
  | .disabled => none

/-- `Lot::calc_slot_write_pos`, lines 291-321. -/
def calcSlotWritePos (l : Lot) : Lot :=
  { l with
    slots := mapBelow l.slotsUsed
      (fun _ s => { s with writePos := slotWritePos l.cfg s.block.header.seq.toNat }) l.slots }

/-- Padding of one slot with recorded content length, lines 327-339. -/
def padSlot (c : LotCfg) (s : Slot) : Slot :=
  match s.contentLen with
  | none => s
  | some len => if len < c.version.dataSize then { s with data := writePadding c.version len s.data } else s

/-- Number of bytes `write_padding` reports for one slot, lines 334-337 and `src/sbx_block/mod.rs` 170-179. -/
def padCount (c : LotCfg) (s : Slot) : Nat :=
  match s.contentLen with
  | none => 0
  | some len => if len < c.version.dataSize then c.version.dataSize - len else 0

/-- The assertions of lines 329-330. -/
def lenOk (c : LotCfg) (s : Slot) : Bool :=
  match s.contentLen with
  | none => true
  | some len => 0 < len && len ≤ c.version.dataSize

/-- Turn a slot into a padding slot, lines 344-350. -/
def makePadding (c : LotCfg) (s : Slot) : Slot := { s with data := writePadding c.version 0 s.data, isPadding := true }

/-- `Lot::fill_in_padding`, lines 323-355. -/
def fillInPadding (l : Lot) : Option Lot :=
  if !l.cfg.inputData then none
  else if !l.active then some l
  else if !(l.used.all (lenOk l.cfg)) then none
  else
    let slots := mapBelow l.slotsUsed (fun _ => padSlot l.cfg) l.slots
    let pb := l.paddingBytes + (l.used.map (padCount l.cfg)).sum
    match l.cfg.dpb with
    | none => some { l with slots := slots, paddingBytes := pb }
    | some d =>
      if l.slotsUsed ≤ d.data then
        some { l with
          slots := mapBelow d.data (fun i s => if i < l.slotsUsed then s else makePadding l.cfg s) slots
          paddingBytes := pb, slotsUsed := d.data }
      else none

/-- Payload of a slot: `slice_data_buf`, `src/sbx_block/mod.rs` 204-214. -/
def payloadOf (s : Slot) : List Byte := s.data.drop 16

/-- Overwrite the payload of a slot. -/
def setPayload (p : List Byte) (s : Slot) : Slot := { s with data := s.data.take 16 ++ p }

/-- `Lot::rs_encode`, lines 357-376: the codec gets the payloads of all slots, the first `data` of which are data shards. -/
def rsEncode (rs : RsCodec) (l : Lot) : Option Lot :=
  if !l.cfg.inputData then none
  else if !l.active then some l
  else
    match l.cfg.dpb with
    | none => some l
    | some d =>
      if l.slotsUsed = d.data then
        let parity := rs.encode d.data d.parity ((l.slots.take d.data).map payloadOf)
        some { l with
          slots := l.slots.take d.data ++ (l.slots.drop d.data).zipWith (fun s p => setPayload p s) parity
          slotsUsed := l.cfg.lotSize }
      else none

/-- `set_block_seq_num_based_on_lot_start_seq_num`, lines 378-392, with the assertion of line 385. -/
def setSeqNums (l : Lot) (start : Nat) : Option Lot :=
  if !l.cfg.inputData then none
  else if 0 < l.slotsUsed ∧ lastSeqNum < start + (l.slotsUsed - 1) then none
  else some { l with
    slots := mapBelow l.slotsUsed
      (fun i s => { s with block := s.block.setSeq (UInt32.ofNat (start + i)) }) l.slots }

/-- `sync_to_buffer(None, slot)` on one slot, line 397.  A data block of the right size cannot fail; an error leaves the
slot as it is here and panics in Rust (`unwrap`), see `syncOk`. -/
def syncSlot (s : Slot) : Slot :=
  match s.block.syncTo none s.data with
  | .ok (b, d) => { s with block := b, data := d }
  | .error _ => s

/-- The `unwrap` of line 397 succeeds. -/
def syncOk (s : Slot) : Bool :=
  match s.block.syncTo none s.data with
  | .ok _ => true
  | .error _ => false

/-- `sync_blocks_to_slots`, lines 394-402. -/
def syncBlocks (l : Lot) : Option Lot :=
  if l.used.all syncOk then some { l with slots := mapBelow l.slotsUsed (fun _ => syncSlot) l.slots } else none

/-- `Lot::encode`, lines 404-414. -/
def encode (rs : RsCodec) (l : Lot) (start : Nat) : Option Lot :=
  (l.fillInPadding.bind (rsEncode rs)).bind fun l => (l.setSeqNums start).bind syncBlocks

/-- The bytes one slot contributes to the hash, lines 427-445; `none` is the panic of lines 436-437. -/
def hashPart (c : LotCfg) (s : Slot) : Option (List Byte) :=
  if s.block.blockType = .data ∧ !s.isPadding ∧ !Layout.isParityDpb s.block.header.seq.toNat c.dpb then
    match s.contentLen with
    | none => some (payloadOf s)
    | some len => if 0 < len ∧ len ≤ c.version.dataSize then some ((payloadOf s).take len) else none
  else some []

/-- `Lot::reset`, lines 464-492. -/
def reset (l : Lot) : Lot :=
  { l with slotsUsed := 0, paddingBytes := 0, slots := l.slots.map (Slot.reset l.cfg) }

/-- `Lot::data_padding_parity_block_count`, lines 494-526. -/
def counts (l : Lot) : Nat × Nat × Nat :=
  let padding := l.used.countP (·.isPadding)
  match l.cfg.dpb with
  | none => (l.slotsUsed, padding, 0)
  | some d => (min d.data l.slotsUsed, padding, if l.slotsUsed < d.data then 0 else l.slotsUsed - d.data)

/-- What is written for a slot, lines 585-597. -/
def slotBytes (c : LotCfg) (s : Slot) : List Byte :=
  match c.outputType with
  | .data =>
    match s.contentLen with
    | none => payloadOf s
    | some len => (payloadOf s).take len
  | _ => s.data

/-- Whether a slot is written although `skip_good` is on, lines 543-583, given the output file. -/
def doWrite (c : LotCfg) (s : Slot) (pos : Nat) (f : File) : Bool :=
  match c.outputType with
  | .block =>
    let buf := f.readAt pos largestBlockSize
    decide (buf.length < largestBlockSize) ||
      match Block.dummy.read? buf none with
      | some b => b.header.version ≠ s.block.header.version || b.header.uid ≠ s.block.header.uid ||
          b.header.seq ≠ s.block.header.seq
      | none => true
  | _ =>
    let buf := f.readAt pos c.version.dataSize
    decide (buf.length < c.version.dataSize) || buf.all (· == 0)

/-- One step of `Lot::write` with `seek = true`, lines 536-598. -/
def writeSlot (c : LotCfg) (d : Disk) (s : Slot) : Disk :=
  match s.writePos with
  | none => d
  | some pos => if c.skipGood && !doWrite c s pos d.file then d else d.writeAt pos (slotBytes c s)

/-- `Lot::write` with `seek = true`, lines 532-605. -/
def write (l : Lot) (d : Disk) : Disk := l.used.foldl (writeSlot l.cfg) d

/-- One step of `Lot::write` with `seek = false` (standard output), lines 536-598: only slots with a write position are
appended.  `skip_good` is never combined with standard output (`writer.cur_pos()` would be `None`). -/
def emitSlot (c : LotCfg) (s : Slot) : List Byte :=
  match s.writePos with
  | none => []
  | some _ => slotBytes c s

/-- `Lot::write` with `seek = false`: the bytes sent to standard output. -/
def emit (l : Lot) : List Byte := l.used.flatMap (emitSlot l.cfg)

end Lot

/-- `struct DataBlockBuffer`, lines 159-165. -/
structure Buffer where
  lots : List Lot
  lotsUsed : Nat
  startSeq : Option Nat
  incre : Nat

namespace Buffer

/-- `DataBlockBuffer::new`, lines 609-662 (`lot_count = num_cpus * 50` in the program).  The casts to `u32` truncate. -/
def new (c : LotCfg) (lotCount index total : Nat) : Buffer :=
  { lots := List.replicate lotCount (Lot.new c), lotsUsed := 0,
    startSeq := some ((1 + index * (lotCount * c.lotSize) % 2 ^ 32) % 2 ^ 32),
    incre := lotCount * c.lotSize * total % 2 ^ 32 }

/-- `DataBlockBuffer::new_multi`, lines 664-691. -/
def newMulti (c : LotCfg) (lotCount total : Nat) : List Buffer := (List.range total).map fun i => new c lotCount i total

/-- `is_full`, lines 701-703. -/
def isFull (b : Buffer) : Bool := b.lotsUsed == b.lots.length

/-- `active`, lines 705-707; `none` is the out-of-range panic. -/
def active (b : Buffer) : Option Bool :=
  if 0 < b.lotsUsed then some true
  else (b.lots[b.lotsUsed]?).map fun l => decide (0 < l.slotsUsed)

/-- `get_slot`, lines 709-737: the buffer afterwards and the place (lot, slot) of the slot handed out. -/
def getSlot (b : Buffer) : Buffer × Option (Nat × Nat) :=
  match b.lots[b.lotsUsed]? with
  | none => (b, none)
  | some l =>
    match l.getSlot with
    | none => ({ b with lotsUsed := b.lotsUsed + 1 }, none)
    | some (l', last) =>
      ({ b with lots := b.lots.set b.lotsUsed l', lotsUsed := if last then b.lotsUsed + 1 else b.lotsUsed },
       some (b.lotsUsed, l.slotsUsed))

/-- Mutation through the references of the `Slot` handed out by `get_slot` (lines 118-123). -/
def update (b : Buffer) (place : Nat × Nat) (f : Slot → Slot) : Buffer :=
  { b with lots := b.lots.modify place.1 fun l => { l with slots := l.slots.modify place.2 f } }

/-- `get_slot().unwrap()` followed by the caller's changes `f` to the slot. -/
def fill (b : Buffer) (f : Slot → Slot) : Option Buffer :=
  match b.getSlot with
  | (_, none) => none
  | (b, some place) => some (b.update place f)

/-- The used slots in order: `view_slots`, lines 739-749. -/
def used (b : Buffer) : List Slot := b.lots.flatMap Lot.used

/-- `shift_back_one_slot`, line 754. -/
def shiftBack (b : Buffer) : Bool :=
  match b.lots[b.lotsUsed]? with
  | none => true
  | some l => l.slotsUsed == 0

/-- `cancel_slot`, lines 751-761. -/
def cancelSlot (b : Buffer) : Option Buffer :=
  match b.active with
  | none | some false => none
  | some true =>
    let k := if b.shiftBack then b.lotsUsed - 1 else b.lotsUsed
    match b.lots[k]? with
    | none => none
    | some l =>
      match l.cancelSlot with
      | none => none
      | some l' => some { b with lotsUsed := k, lots := b.lots.set k l' }

/-- Encoding of the lots, lines 767-774; `start + lot_index * lot_size` wraps in release mode. -/
def encodeLots (rs : RsCodec) (lotSize : Nat) : Nat → List Lot → Option (List Lot)
  | _, [] => some []
  | start, l :: ls =>
    match l.encode rs (start % 2 ^ 32), encodeLots rs lotSize (start + lotSize) ls with
    | some l', some ls' => some (l' :: ls')
    | _, _ => none

/-- `self.lot_size`, line 647: the size of the first lot. -/
def lotSize (b : Buffer) : Nat := match b.lots with | [] => 0 | l :: _ => l.cfg.lotSize

/-- `encode`, lines 763-786. -/
def encode (rs : RsCodec) (b : Buffer) : Option Buffer :=
  match b.startSeq with
  | none => none
  | some start =>
    match encodeLots rs b.lotSize start b.lots with
    | none => none
    | some lots =>
      some { b with
        lots := lots
        startSeq := if b.isFull ∧ ¬ (lastSeqNum - b.incre < start) then some (start + b.incre) else none }

/-- `reset`, lines 788-794. -/
def reset (b : Buffer) : Buffer := { b with lotsUsed := 0, lots := b.lots.map Lot.reset }

/-- `data_padding_parity_block_count`, lines 796-810. -/
def counts (b : Buffer) : Nat × Nat × Nat :=
  b.lots.foldl (fun acc l => (acc.1 + l.counts.1, acc.2.1 + l.counts.2.1, acc.2.2 + l.counts.2.2)) (0, 0, 0)

/-- `padding_byte_count_in_non_padding_blocks`, lines 812-820. -/
def paddingBytes (b : Buffer) : Nat := (b.lots.map (·.paddingBytes)).sum

/-- `hash`, lines 822-826: the bytes fed to the hash context; `none` is a panic. -/
def hashPart (b : Buffer) : Option (List Byte) :=
  (b.lots.flatMap fun l => l.used.map (Lot.hashPart l.cfg)).foldr
    (fun x acc => match x, acc with | some x, some acc => some (x ++ acc) | _, _ => none) (some [])

/-- `calc_slot_write_pos`, lines 828-832. -/
def calcSlotWritePos (b : Buffer) : Buffer := { b with lots := b.lots.map Lot.calcSlotWritePos }

/-- `write`, lines 834-846: the buffer (write positions filled in) and the output file. -/
def write (b : Buffer) (d : Disk) : Buffer × Disk :=
  (b.calcSlotWritePos, b.calcSlotWritePos.lots.foldl (fun d l => l.write d) d)

/-- `write_no_seek`, lines 834-850: the buffer and the bytes appended to standard output. -/
def emit (b : Buffer) : Buffer × List Byte :=
  (b.calcSlotWritePos, b.calcSlotWritePos.lots.flatMap Lot.emit)

end Buffer

end Verif
