import Verif.Model.Bytes
/-!
# Model of `src/sbx_specs.rs`

`usize` is taken to be 64 bits; `u32` arithmetic that may wrap is written with an explicit check.
-/

namespace Verif

/-- `enum Version`, `src/sbx_specs.rs` 22-30. -/
inductive Version
  | v1 | v2 | v3 | v17 | v18 | v19
  deriving DecidableEq, Repr

/-- `data_par_burst : (usize, usize, usize)`: data shards, parity shards, burst error resistance level.
The code passes `Option<(usize, usize, usize)>` around, `None` for versions without Reed-Solomon. -/
structure Dpb where
  data : Nat
  parity : Nat
  burst : Nat
  deriving DecidableEq, Repr

namespace Version

/-- `ver_to_usize`, `src/sbx_specs.rs` 83-93. -/
def num : Version → Nat
  | v1 => 1 | v2 => 2 | v3 => 3 | v17 => 17 | v18 => 18 | v19 => 19

/-- `string_to_ver`, `src/sbx_specs.rs` 95-106. -/
def ofString : String → Option Version
  | "1" => some v1
  | "2" => some v2
  | "3" => some v3
  | "17" => some v17
  | "18" => some v18
  | "19" => some v19
  | _ => none

/-- `ver_to_block_size`, `src/sbx_specs.rs` 41-81 and 108-118. -/
def blockSize : Version → Nat
  | v1 => 512 | v2 => 128 | v3 => 4096 | v17 => 512 | v18 => 128 | v19 => 4096

/-- `ver_to_data_size`, `src/sbx_specs.rs` 41-81 and 120-130 (`BLOCK_SIZE - HEADER_SIZE`). -/
def dataSize : Version → Nat
  | v1 => 512 - 16 | v2 => 128 - 16 | v3 => 4096 - 16 | v17 => 512 - 16 | v18 => 128 - 16 | v19 => 4096 - 16

/-- `ver_uses_rs`, `src/sbx_specs.rs` 132-138. -/
def usesRs : Version → Bool
  | v1 | v2 | v3 => false
  | v17 | v18 | v19 => true

/-- `ver_forces_meta_enabled`, `src/sbx_specs.rs` 140-146. -/
def forcesMeta : Version → Bool
  | v1 | v2 | v3 => false
  | v17 | v18 | v19 => true

end Version

/-- `SBX_LAST_SEQ_NUM = SBX_MAX_DATA_BLOCK_COUNT = u32::max_value()`, `src/sbx_specs.rs` 6 and 18. -/
def lastSeqNum : Nat := 2 ^ 32 - 1

/-- `SBX_SCAN_BLOCK_SIZE`, `src/sbx_specs.rs` 10. -/
def scanBlockSize : Nat := 128

/-- `SBX_LARGEST_BLOCK_SIZE`, `src/sbx_specs.rs` 2. -/
def largestBlockSize : Nat := 4096

/-- `SBX_HEADER_SIZE`, `src/sbx_specs.rs` 16 and 37. -/
def headerSize : Nat := 16

/-- `SBX_MAX_BURST_ERR_RESISTANCE`, `src/sbx_specs.rs` 20. -/
def maxBurst : Nat := 1000

/-- The assertions `assert!(!ver_uses_rs)` / `assert!(ver_uses_rs)` spread over the code
(`check_ver_consistent_with_opt!`, `src/sbx_block/mod.rs` 71-80): a shard setting is given exactly for RS versions. -/
def verConsistent (v : Version) (dpb : Option Dpb) : Bool := v.usesRs == dpb.isSome

/-- `ver_to_max_block_set_count`, `src/sbx_specs.rs` 148-163.  `none` models the panics
(`unwrap` of a missing setting, failed assertion) and the `None` result for non-RS versions;
`(data + parity) as u32` is exact because shard counts are at most 256. -/
def maxBlockSetCount (v : Version) (dpb : Option Dpb) : Option Nat :=
  match v.usesRs, dpb with
  | true, some d => if d.data + d.parity = 0 then none else some (lastSeqNum / (d.data + d.parity))
  | _, _ => none

/-- `ver_to_last_data_seq_num_exc_parity`, `src/sbx_specs.rs` 165-181.  `none` = panic. -/
def lastDataSeqNumExcParity (v : Version) (dpb : Option Dpb) : Option Nat :=
  match v.usesRs, dpb with
  | true, some d => (maxBlockSetCount v (some d)).map fun c => c * (d.data + d.parity) - d.parity
  | false, none => some lastSeqNum
  | _, _ => none

/-- `ver_to_max_data_file_size`, `src/sbx_specs.rs` 183-201.  `none` = panic. -/
def maxDataFileSize (v : Version) (dpb : Option Dpb) : Option Nat :=
  match v.usesRs, dpb with
  | true, some d => (maxBlockSetCount v (some d)).map fun c => c * d.data * v.dataSize
  | false, none => some (lastSeqNum * v.dataSize)
  | _, _ => none

end Verif
