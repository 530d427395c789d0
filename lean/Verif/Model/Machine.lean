import Verif.Model.FileUtils
import Verif.Model.MiscUtils
/-!
# The arithmetic of `src/sbx_block/mod.rs` 216-543, `src/file_utils.rs` 52-228 and `src/misc_utils.rs` 118-174 on machine integers

The functions of `Verif/Model/Layout.lean`, `Verif/Model/FileUtils.lean` and `Verif/Model/MiscUtils.lean` once more, statement by
statement, with the operations of `u64` (`usize` is taken to have 64 bits) and `u32` as they are in a debug build: `none` is the panic
of an operation whose result does not fit or which divides by zero, or of an assertion.  A release build computes the same whenever the
result here is not `none`.
-/

namespace Verif.Machine
open Misc Layout

/-- `a + b` in an unsigned type with `w` bits. -/
def add (w a b : Nat) : Option Nat := if a + b < 2 ^ w then some (a + b) else none

/-- `a - b`. -/
def sub (a b : Nat) : Option Nat := if b ≤ a then some (a - b) else none

/-- `a * b`. -/
def mul (w a b : Nat) : Option Nat := if a * b < 2 ^ w then some (a * b) else none

/-- `a / b`. -/
def div (a b : Nat) : Option Nat := if b = 0 then none else some (a / b)

/-- `a % b`. -/
def rem (a b : Nat) : Option Nat := if b = 0 then none else some (a % b)

/-- `assert!`. -/
def assert (p : Prop) [Decidable p] : Option Unit := if p then some () else none

/-! ### `src/sbx_block/mod.rs` -/

/-- `seq_num_is_parity`, lines 222-232. -/
def isParity (seq data parity : Nat) : Option Bool :=
  if seq = 0 then some false
  else do
    let index ← sub seq 1
    let shards ← add 64 data parity
    let inSet ← rem index (shards % 2 ^ 32)
    return decide (data % 2 ^ 32 ≤ inSet)

/-- `calc_meta_block_dup_write_indices`, lines 261-276. -/
def metaDupIndices : Option Dpb → Option (List Nat)
  | none => some []
  | some d => do
    let last ← add 64 1 d.parity
    (List.range' 1 (last - 1)).mapM fun i => do
      let gap ← add 64 1 d.burst
      mul 64 i gap

/-- `calc_meta_block_dup_write_pos_s`, lines 244-259. -/
def metaDupPos (v : Version) (dpb : Option Dpb) : Option (List Nat) := do
  let l ← metaDupIndices dpb
  l.mapM (mul 64 · v.blockSize)

/-- `calc_meta_block_all_write_pos_s`, lines 278-289. -/
def metaAllPos (v : Version) (dpb : Option Dpb) : Option (List Nat) := do
  let l ← metaDupPos v dpb
  return (l ++ [0]).mergeSort (· ≤ ·)

/-- `calc_data_block_write_index`, lines 316-415. -/
def dataWriteIndex (seq : Nat) (metaEnabled : Option Bool) (dpb : Option Dpb) : Option Nat := do
  assert (1 ≤ seq)
  let index ← sub seq 1
  match dpb with
  | none => if metaEnabled.getD true then add 64 1 index else some index
  | some ⟨data, parity, burst⟩ =>
    if burst = 0 then do
      let metaCount ← add 64 1 parity
      add 64 metaCount index
    else do
      let shards ← add 64 data parity
      let superSize ← mul 64 shards burst
      let subASize ← add 64 data parity
      let superIndex ← div index superSize
      let inSuper ← rem index superSize
      let subAIndex ← div inSuper subASize
      let inSubA ← rem inSuper subASize
      let scaled ← mul 64 inSubA burst
      let newInSuper ← add 64 scaled subAIndex
      let metas ← add 64 1 parity
      let metaCount ← if superIndex = 0 then if inSubA < metas then add 64 1 inSubA else add 64 1 parity else add 64 1 parity
      let base ← mul 64 superSize superIndex
      let x ← add 64 metaCount base
      add 64 x newInSuper

/-- `calc_data_block_write_pos`, lines 303-314. -/
def dataWritePos (v : Version) (seq : Nat) (metaEnabled : Option Bool) (dpb : Option Dpb) : Option Nat := do
  let i ← dataWriteIndex seq metaEnabled dpb
  mul 64 i v.blockSize

/-- `calc_data_chunk_write_index`, lines 417-437; the inner `none` is the one the function returns. -/
def chunkWriteIndex (seq : Nat) (dataPar : Option (Nat × Nat)) : Option (Option Nat) :=
  if seq < 1 then some none
  else do
    let index ← sub seq 1
    match dataPar with
    | none => return some index
    | some (data, parity) =>
      if ← isParity seq data parity then return none
      else do
        let shards ← add 64 data parity
        let setIndex ← div index shards
        let inSet ← rem index shards
        let x ← mul 64 setIndex data
        let y ← add 64 x inSet
        return some y

/-- `calc_data_chunk_write_pos`, lines 439-452. -/
def chunkWritePos (v : Version) (seq : Nat) (dataPar : Option (Nat × Nat)) : Option (Option Nat) := do
  match ← chunkWriteIndex seq dataPar with
  | none => return none
  | some x => do
    let y ← mul 64 x v.dataSize
    return some y

/-- `calc_seq_num_at_index`, lines 454-543. -/
def seqAtIndex (index : Nat) (metaEnabled : Option Bool) : Option Dpb → Option Nat
  | none => if metaEnabled.getD true then some (index % 2 ^ 32) else add 32 1 (index % 2 ^ 32)
  | some ⟨data, parity, burst⟩ =>
    if burst = 0 then do
      let metas ← add 64 1 parity
      if index < metas then return 0
      else do
        let dataIndex ← sub index metas
        let x ← add 64 dataIndex 1
        return x % 2 ^ 32
    else do
      let metas ← add 64 1 parity
      let gap ← add 64 1 burst
      let front ← mul 64 metas gap
      let inGap ← rem index gap
      if index < front ∧ inGap = 0 then return 0
      else do
        let metaCount ← if index < front then do { let q ← div index gap; add 64 1 q } else add 64 1 parity
        let shards ← add 64 data parity
        let superSize ← mul 64 shards burst
        let subASize ← add 64 data parity
        let noMeta ← sub index metaCount
        let superIndex ← div noMeta superSize
        let inSuper ← rem noMeta superSize
        let subBIndex ← div inSuper burst
        let inSubB ← rem inSuper burst
        let scaled ← mul 64 inSubB subASize
        let oldInSuper ← add 64 scaled subBIndex
        let base ← mul 64 superSize superIndex
        let oldIndex ← add 64 base oldInSuper
        add 32 (oldIndex % 2 ^ 32) 1

/-! ### `src/file_utils.rs` -/

/-- `from_container_size::calc_total_block_count`, lines 79-82. -/
def containerBlockCount (v : Version) (size : Nat) : Option Nat := do
  let u ← sub v.blockSize 1
  let x ← add 64 size u
  div x v.blockSize

/-- `calc_data_chunk_count`, lines 88-91. -/
def dataChunkCount (v : Version) (size : Nat) : Option Nat := do
  let u ← sub v.dataSize 1
  let x ← add 64 size u
  div x v.dataSize

/-- `calc_data_only_and_parity_block_count_exc_burst_gaps`, lines 93-127. -/
def dataParityBlockCount (v : Version) (dpb : Option Dpb) (size : Nat) : Option (Nat × Nat) := do
  let u ← sub v.dataSize 1
  let x ← add 64 size u
  let chunks ← div x v.dataSize
  match dpb with
  | none => do
    assert (v.usesRs = false)
    return (chunks, 0)
  | some d => do
    assert (v.usesRs = true)
    let u ← sub d.data 1
    let x ← add 64 chunks u
    let sets ← div x d.data
    let a ← mul 64 sets d.data
    let b ← mul 64 sets d.parity
    return (a, b)

/-- `calc_meta_block_count_exc_burst_gaps`, lines 52-75. -/
def metaBlockCount (v : Version) (metaEnabled : Option Bool) : Option Dpb → Option Nat
  | none => do
    assert (v.usesRs = false)
    return if metaEnabled.getD true then 1 else 0
  | some d => do
    assert (v.usesRs = true)
    add 64 1 d.parity

/-- `calc_data_block_count_exc_burst_gaps`, lines 129-138. -/
def dataBlockCount (v : Version) (dpb : Option Dpb) (size : Nat) : Option Nat := do
  let (a, b) ← dataParityBlockCount v dpb size
  add 64 a b

/-- `calc_total_block_count_exc_burst_gaps`, lines 140-152. -/
def totalBlockCount (v : Version) (metaEnabled : Option Bool) (dpb : Option Dpb) (size : Nat) : Option Nat := do
  let m ← metaBlockCount v metaEnabled dpb
  let n ← dataBlockCount v dpb size
  add 64 m n

/-- The loop of `calc_container_size`, lines 209-222, from `seq` with `fuel` more numbers. -/
def maxIndexLoop (metaEnabled : Option Bool) (dpb : Option Dpb) : Nat → Nat → Nat → Option Nat
  | 0, _, lastIndex => some lastIndex
  | fuel + 1, seq, lastIndex => do
    let index ← dataWriteIndex seq metaEnabled dpb
    let next ← add 32 seq 1
    maxIndexLoop metaEnabled dpb fuel next (if lastIndex < index then index else lastIndex)

/-- `calc_container_size`, lines 154-227. -/
def containerSize (v : Version) (metaEnabled : Option Bool) (dpb : Option Dpb) (size : Nat) : Option Nat :=
  match dpb with
  | none => do
    let n ← totalBlockCount v metaEnabled none size
    mul 64 v.blockSize n
  | some d =>
    if d.burst = 0 then do
      let n ← totalBlockCount v metaEnabled (some d) size
      mul 64 v.blockSize n
    else do
      let count ← dataBlockCount v (some d) size
      if count = 0 then do
        let l ← metaAllPos v (some d)
        let last ← l.getLast?
        add 64 last v.blockSize
      else do
        let lastSeq := count % 2 ^ 32
        let lastIndex ← sub lastSeq 1
        let shards ← add 64 d.data d.parity
        let superSize ← mul 64 shards d.burst
        let q ← div lastIndex (superSize % 2 ^ 32)
        let firstIndex ← mul 32 q (superSize % 2 ^ 32)
        let first ← add 32 firstIndex 1
        let m ← maxIndexLoop metaEnabled (some d) (lastSeq + 1 - first) first 0
        let n ← add 64 m 1
        mul 64 v.blockSize n

/-! ### `src/misc_utils.rs` -/

/-- `round_down_to_multiple`, `src/integer_utils.rs` 17-21. -/
def roundDown (val m : Nat) : Option Nat := do
  let q ← div val m
  mul 64 q m

/-- `align`, lines 146-152. -/
def align (forceMisalign : Bool) (multipleOf x : Nat) : Option Nat := if forceMisalign then some x else roundDown x multipleOf

/-- Lines 131-140. -/
def lastPossiblePos : PosOrLen → Option Nat
  | .pos x => some x
  | .len x => if x = 0 then some 0 else sub x 1

/-- `from_byte`, lines 153-156. -/
def startPos (fromByte : Option Nat) (forceMisalign : Bool) (m last : Nat) : Option Nat :=
  match fromByte with
  | none => some 0
  | some n => align forceMisalign m (min n last)

/-- `to_byte_inc`, lines 157-167. -/
def endInc (toByte : Option RangeEnd) (start last : Nat) : Option Nat :=
  match toByte with
  | none => some last
  | some (.inc n) => some (min (max n start) last)
  | some (.exc n) => do
    let n ← sub n 1
    return min (max n start) last

/-- `calc_required_len_and_seek_to_from_byte_range`, lines 123-174. -/
def byteRange (fromByte : Option Nat) (toByte : Option RangeEnd) (forceMisalign : Bool) (soFar : Nat) (last : PosOrLen)
    (multipleOf : Option Nat) : Option Range := do
  let last ← lastPossiblePos last
  let start ← startPos fromByte forceMisalign (multipleOf.getD scanBlockSize) last
  let stop ← endInc toByte start last
  let x ← add 64 start soFar
  let y ← align forceMisalign (multipleOf.getD scanBlockSize) x
  let len ← sub stop start
  let len ← add 64 len 1
  return ⟨len, min y last⟩

end Verif.Machine
