import Verif.Model.Layout
/-!
# Model of the size calculations in `src/file_utils.rs` 52-228

`none` models a panic (failed assertion, `unwrap`, division by zero, or `u32` overflow, which in release mode makes the loop at
lines 208-222 run forever).
-/

namespace Verif.FileUtils
open Layout

/-- `calc_meta_block_count_exc_burst_gaps`, lines 52-75. -/
def metaBlockCount (metaEnabled : Option Bool) : Option Dpb → Nat
  | none => if metaEnabled.getD true then 1 else 0
  | some d => 1 + d.parity

/-- `from_container_size::calc_total_block_count`, lines 79-82. -/
def containerBlockCount (v : Version) (size : Nat) : Nat := (size + (v.blockSize - 1)) / v.blockSize

/-- `from_orig_file_size::calc_data_chunk_count`, lines 88-91. -/
def dataChunkCount (v : Version) (size : Nat) : Nat := (size + (v.dataSize - 1)) / v.dataSize

/-- `calc_data_only_and_parity_block_count_exc_burst_gaps`, lines 93-127 (the version / setting assertions are
`verConsistent`, a hypothesis of the theorems). -/
def dataParityBlockCount (v : Version) (dpb : Option Dpb) (size : Nat) : Nat × Nat :=
  let chunks := (size + (v.dataSize - 1)) / v.dataSize
  match dpb with
  | none => (chunks, 0)
  | some d =>
    let sets := (chunks + (d.data - 1)) / d.data
    (sets * d.data, sets * d.parity)

/-- `calc_data_block_count_exc_burst_gaps`, lines 129-138. -/
def dataBlockCount (v : Version) (dpb : Option Dpb) (size : Nat) : Nat :=
  (dataParityBlockCount v dpb size).1 + (dataParityBlockCount v dpb size).2

/-- `calc_total_block_count_exc_burst_gaps`, lines 140-152. -/
def totalBlockCount (v : Version) (metaEnabled : Option Bool) (dpb : Option Dpb) (size : Nat) : Nat :=
  metaBlockCount metaEnabled dpb + dataBlockCount v dpb size

/-- The loop of lines 208-222: the largest write index among sequence numbers `first ..= last`. -/
def maxIndexLoop (metaEnabled : Option Bool) (dpb : Option Dpb) (first last : Nat) : Nat :=
  (List.range' first (last + 1 - first)).foldl
    (fun lastIndex seq =>
      if dataWriteIndex seq metaEnabled dpb > lastIndex then dataWriteIndex seq metaEnabled dpb else lastIndex) 0

/-- `calc_container_size`, lines 154-227. -/
def containerSize (v : Version) (metaEnabled : Option Bool) (dpb : Option Dpb) (size : Nat) : Option Nat :=
  match dpb with
  | none => some (v.blockSize * totalBlockCount v metaEnabled none size)
  | some d =>
    if d.burst = 0 then some (v.blockSize * totalBlockCount v metaEnabled (some d) size)
    else
      let count := dataBlockCount v (some d) size
      if count = 0 then (metaAllPos v (some d)).getLast?.map (· + v.blockSize)
      else
        let lastSeq := count % 2 ^ 32                       -- line 197: `as u32`
        if lastSeq = 0 then none                            -- line 199: `last_seq_num - 1` underflows
        else if lastSeq = 2 ^ 32 - 1 then none              -- line 221: `seq_num += 1` overflows
        else if (d.data + d.parity) * d.burst % 2 ^ 32 = 0 then none  -- line 204: division by zero
        else
          let superSize := (d.data + d.parity) * d.burst % 2 ^ 32     -- line 201: `as u32`
          let firstInLast := (lastSeq - 1) / superSize * superSize
          some (v.blockSize * (maxIndexLoop metaEnabled (some d) (firstInLast + 1) lastSeq + 1))

end Verif.FileUtils
