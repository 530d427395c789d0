import Verif.Model.Specs
/-!
# Model of the container layout functions, `src/sbx_block/mod.rs` 216-543

Indices are `u64` in Rust and at most `2^33` for 32-bit sequence numbers, so natural numbers are exact; the casts to
`u32` in `calc_seq_num_at_index` are kept as `% 2^32`.
-/

namespace Verif.Layout

/-- `calc_meta_block_dup_write_indices`, lines 261-276: `i * (1 + burst)` for `i` in `1 .. 1 + parity`. -/
def metaDupIndices : Option Dpb → List Nat
  | some d => (List.range' 1 d.parity).map fun i => i * (1 + d.burst)
  | none => []

/-- `calc_meta_block_all_write_indices`, lines 291-301: push 0, then sort.  The duplicates are produced in increasing
order, all positive or (for `burst = 0`) still positive, so sorting puts the 0 in front. -/
def metaAllIndices (dpb : Option Dpb) : List Nat := (metaDupIndices dpb ++ [0]).mergeSort (· ≤ ·)

/-- `calc_meta_block_dup_write_pos_s`, lines 244-259. -/
def metaDupPos (v : Version) (dpb : Option Dpb) : List Nat := (metaDupIndices dpb).map (· * v.blockSize)

/-- `calc_meta_block_all_write_pos_s`, lines 278-289. -/
def metaAllPos (v : Version) (dpb : Option Dpb) : List Nat := (metaDupPos v dpb ++ [0]).mergeSort (· ≤ ·)

/-- `calc_data_block_write_index`, lines 316-415, for `seq ≥ 1` (the assertion of line 323). -/
def dataWriteIndex (seq : Nat) (metaEnabled : Option Bool) : Option Dpb → Nat
  | none => if metaEnabled.getD true then 1 + (seq - 1) else seq - 1
  | some ⟨data, parity, burst⟩ =>
    let index := seq - 1
    if burst = 0 then 1 + parity + index
    else
      let superSize := (data + parity) * burst
      let superIndex := index / superSize
      let inSuper := index % superSize
      let subAIndex := inSuper / (data + parity)
      let inSubA := inSuper % (data + parity)
      let newInSuper := inSubA * burst + subAIndex
      let metaCount :=
        if superIndex = 0 then
          if inSubA < 1 + parity then 1 + inSubA else 1 + parity
        else 1 + parity
      metaCount + superSize * superIndex + newInSuper

/-- `calc_data_block_write_pos`, lines 303-314. -/
def dataWritePos (v : Version) (seq : Nat) (metaEnabled : Option Bool) (dpb : Option Dpb) : Nat :=
  dataWriteIndex seq metaEnabled dpb * v.blockSize

/-- `seq_num_is_parity`, lines 222-232. -/
def isParity (seq data parity : Nat) : Bool :=
  if seq = 0 then false else decide (data ≤ (seq - 1) % (data + parity))

/-- `seq_num_is_parity_w_data_par_burst`, lines 234-242. -/
def isParityDpb (seq : Nat) : Option Dpb → Bool
  | some d => isParity seq d.data d.parity
  | none => false

/-- `calc_data_chunk_write_index`, lines 417-437. -/
def chunkWriteIndex (seq : Nat) (dataPar : Option (Nat × Nat)) : Option Nat :=
  if seq < 1 then none
  else
    match dataPar with
    | none => some (seq - 1)
    | some (data, parity) =>
      if isParity seq data parity then none
      else some ((seq - 1) / (data + parity) * data + (seq - 1) % (data + parity))

/-- `calc_data_chunk_write_pos`, lines 439-452. -/
def chunkWritePos (v : Version) (seq : Nat) (dataPar : Option (Nat × Nat)) : Option Nat :=
  (chunkWriteIndex seq dataPar).map (· * v.dataSize)

/-- `calc_seq_num_at_index`, lines 454-543.  `as u32` truncates; `+ 1` on `u32` is the release-mode wrapping one. -/
def seqAtIndex (index : Nat) (metaEnabled : Option Bool) : Option Dpb → Nat
  | none => if metaEnabled.getD true then index % 2 ^ 32 else (1 + index % 2 ^ 32) % 2 ^ 32
  | some ⟨data, parity, burst⟩ =>
    if burst = 0 then
      if index < 1 + parity then 0 else (index - (1 + parity) + 1) % 2 ^ 32
    else if index < (1 + parity) * (1 + burst) ∧ index % (1 + burst) = 0 then 0
    else
      let metaCount := if index < (1 + parity) * (1 + burst) then 1 + index / (1 + burst) else 1 + parity
      let superSize := (data + parity) * burst
      let noMeta := index - metaCount
      let superIndex := noMeta / superSize
      let inSuper := noMeta % superSize
      let subBIndex := inSuper / burst
      let inSubB := inSuper % burst
      let oldInSuper := inSubB * (data + parity) + subBIndex
      let oldIndex := superSize * superIndex + oldInSuper
      (oldIndex % 2 ^ 32 + 1) % 2 ^ 32

end Verif.Layout
