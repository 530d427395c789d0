import Verif.Model.Machine
import Verif.Lemmas.Layout
import Verif.Lemmas.Container
/-!
# C62: the positions computed with machine integers are the right ones

The other theorems are about natural numbers.  Here it is shown that the computations of the code, with 64 and 32 bit integers, neither
overflow nor divide by zero and give the same numbers.
-/

namespace Verif.Machine
open Layout Misc

/-- Shard numbers that Reed-Solomon works with, and a burst error resistance level that is not absurd. -/
def Usable (dpb : Option Dpb) : Prop :=
  ∀ d, dpb = some d → 1 ≤ d.data ∧ 1 ≤ d.parity ∧ d.data + d.parity ≤ 256 ∧ d.burst ≤ 2 ^ 40

theorem add_eq {w a b : Nat} (h : a + b < 2 ^ w) : add w a b = some (a + b) := if_pos h
theorem sub_eq {a b : Nat} (h : b ≤ a) : sub a b = some (a - b) := if_pos h
theorem mul_eq {w a b : Nat} (h : a * b < 2 ^ w) : mul w a b = some (a * b) := if_pos h
theorem div_eq {a b : Nat} (h : 0 < b) : div a b = some (a / b) := if_neg (by omega)
theorem rem_eq {a b : Nat} (h : 0 < b) : rem a b = some (a % b) := if_neg (by omega)

/-- **C62.** The place of the block with number `seq`. -/
theorem C62_data_index (seq : Nat) (h1 : 1 ≤ seq) (h2 : seq < 2 ^ 32) (me : Option Bool) (dpb : Option Dpb) (hd : Usable dpb) :
    dataWriteIndex seq me dpb = some (Layout.dataWriteIndex seq me dpb) ∧ Layout.dataWriteIndex seq me dpb < 2 ^ 50 := by
  unfold dataWriteIndex
  rw [show assert (1 ≤ seq) = some () from if_pos h1, sub_eq h1]
  cases dpb with
  | none =>
    simp only [Option.bind_eq_bind, Option.bind_some, Layout.dataWriteIndex]
    split
    · rw [add_eq (by omega)]; exact ⟨rfl, by omega⟩
    · exact ⟨rfl, by omega⟩
  | some d =>
    obtain ⟨data, parity, burst⟩ := d
    obtain ⟨d1, d2, d3, d4⟩ := hd _ rfl
    simp only at d1 d2 d3 d4
    simp only [Option.bind_eq_bind, Option.bind_some, Layout.dataWriteIndex]
    by_cases hb : burst = 0
    · rw [if_pos hb, if_pos hb, add_eq (by omega), Option.bind_some, add_eq (by omega)]
      exact ⟨rfl, by omega⟩
    rw [if_neg hb, if_neg hb]
    have hsh : 0 < data + parity := by omega
    have hsup : 0 < (data + parity) * burst := Nat.mul_pos hsh (by omega)
    have hle : (data + parity) * burst ≤ 256 * 2 ^ 40 := Nat.mul_le_mul d3 d4
    have hq : (data + parity) * burst * ((seq - 1) / ((data + parity) * burst)) ≤ seq - 1 := Nat.mul_div_le _ _
    have hr : (seq - 1) % ((data + parity) * burst) < (data + parity) * burst := Nat.mod_lt _ hsup
    have hm : (seq - 1) % ((data + parity) * burst) % (data + parity) < data + parity := Nat.mod_lt _ hsh
    have hmb : (seq - 1) % ((data + parity) * burst) % (data + parity) * burst ≤ 256 * 2 ^ 40 := Nat.mul_le_mul (by omega) d4
    have hqa : (seq - 1) % ((data + parity) * burst) / (data + parity) ≤ seq - 1 :=
      Nat.le_trans (Nat.div_le_self _ _) (Nat.mod_le _ _)
    rw [add_eq (show data + parity < 2 ^ 64 by omega), Option.bind_some, mul_eq (by omega), Option.bind_some]
    simp only [Option.bind_some]
    rw [div_eq hsup, Option.bind_some, rem_eq hsup, Option.bind_some, div_eq hsh, Option.bind_some, rem_eq hsh, Option.bind_some,
      mul_eq (by omega), Option.bind_some, add_eq (by omega), Option.bind_some, add_eq (show 1 + parity < 2 ^ 64 by omega), Option.bind_some]
    generalize (seq - 1) / ((data + parity) * burst) = idx at *
    generalize (seq - 1) % ((data + parity) * burst) / (data + parity) = subA at *
    generalize (seq - 1) % ((data + parity) * burst) % (data + parity) = inA at *
    generalize inA * burst = scaled at *
    generalize (data + parity) * burst = super at *
    by_cases hs : idx = 0
    · by_cases ht : inA < 1 + parity
      · simp only [if_pos hs, if_pos ht]
        rw [add_eq (by omega), Option.bind_some, mul_eq (by omega), Option.bind_some, add_eq (by omega), Option.bind_some, add_eq (by omega)]
        exact ⟨rfl, by omega⟩
      · simp only [if_pos hs, if_neg ht, Option.bind_some]
        rw [mul_eq (by omega), Option.bind_some, add_eq (by omega), Option.bind_some, add_eq (by omega)]
        exact ⟨rfl, by omega⟩
    · simp only [if_neg hs, Option.bind_some]
      rw [mul_eq (by omega), Option.bind_some, add_eq (by omega), Option.bind_some, add_eq (by omega)]
      exact ⟨rfl, by omega⟩

/-- **C62.** Its position in bytes. -/
theorem C62_data_pos (v : Version) (seq : Nat) (h1 : 1 ≤ seq) (h2 : seq < 2 ^ 32) (me : Option Bool) (dpb : Option Dpb) (hd : Usable dpb) :
    dataWritePos v seq me dpb = some (Layout.dataWritePos v seq me dpb) := by
  obtain ⟨h, hlt⟩ := C62_data_index seq h1 h2 me dpb hd
  unfold dataWritePos Layout.dataWritePos
  rw [h]
  have hv : v.blockSize ≤ 4096 := by cases v <;> decide
  have := Nat.mul_le_mul (Nat.le_sub_one_of_lt hlt) hv
  simp only [Option.bind_eq_bind, Option.bind_some]
  exact mul_eq (by omega)

/-- **C62.** Which numbers are those of parity blocks. -/
theorem C62_parity (seq : Nat) (h2 : seq < 2 ^ 32) (d : Dpb) (hd : Usable (some d)) :
    isParity seq d.data d.parity = some (Layout.isParity seq d.data d.parity) := by
  obtain ⟨d1, d2, d3, d4⟩ := hd _ rfl
  unfold isParity Layout.isParity
  split
  · rfl
  · rw [sub_eq (by omega), add_eq (by omega)]
    simp only [Option.bind_eq_bind, Option.bind_some]
    rw [Nat.mod_eq_of_lt (show d.data + d.parity < 2 ^ 32 by omega), Nat.mod_eq_of_lt (show d.data < 2 ^ 32 by omega), rem_eq (by omega)]
    rfl

/-- **C62.** Which part of the file the block with number `seq` holds. -/
theorem C62_chunk_pos (v : Version) (seq : Nat) (h2 : seq < 2 ^ 32) (dpb : Option Dpb) (hd : Usable dpb) :
    chunkWriteIndex seq (dpb.map fun d => (d.data, d.parity)) = some (Layout.chunkWriteIndex seq (dpb.map fun d => (d.data, d.parity))) ∧
    chunkWritePos v seq (dpb.map fun d => (d.data, d.parity)) = some (Layout.chunkWritePos v seq (dpb.map fun d => (d.data, d.parity))) := by
  have key : chunkWriteIndex seq (dpb.map fun d => (d.data, d.parity)) = some (Layout.chunkWriteIndex seq (dpb.map fun d => (d.data, d.parity))) ∧
      ∀ x, Layout.chunkWriteIndex seq (dpb.map fun d => (d.data, d.parity)) = some x → x < 2 ^ 33 := by
    unfold chunkWriteIndex Layout.chunkWriteIndex
    split
    · exact ⟨rfl, by simp⟩
    rw [sub_eq (by omega)]
    cases dpb with
    | none =>
      refine ⟨rfl, ?_⟩
      intro x hx
      simp only [Option.map_none, Option.some.injEq] at hx
      omega
    | some d =>
      simp only [Option.bind_eq_bind, Option.bind_some, Option.map_some]
      rw [C62_parity seq h2 d hd]
      obtain ⟨d1, d2, d3, d4⟩ := hd _ rfl
      simp only [Option.bind_some]
      split
      · exact ⟨rfl, by simp⟩
      · have hq : (seq - 1) / (d.data + d.parity) * d.data ≤ seq - 1 :=
          Nat.le_trans (Nat.mul_le_mul_left _ (by omega)) (Nat.div_mul_le_self _ (d.data + d.parity))
        have hr : (seq - 1) % (d.data + d.parity) < d.data + d.parity := Nat.mod_lt _ (by omega)
        rw [add_eq (by omega), Option.bind_some, div_eq (by omega), Option.bind_some, rem_eq (by omega), Option.bind_some, mul_eq (by omega),
          Option.bind_some, add_eq (by omega)]
        refine ⟨rfl, ?_⟩
        intro x hx
        simp only [Option.some.injEq] at hx
        omega
  obtain ⟨h, hlt⟩ := key
  refine ⟨h, ?_⟩
  unfold chunkWritePos Layout.chunkWritePos
  rw [h]
  simp only [Option.bind_eq_bind, Option.bind_some]
  cases hx : Layout.chunkWriteIndex seq (dpb.map fun d => (d.data, d.parity)) with
  | none => rfl
  | some x =>
    have hv : v.dataSize ≤ 4096 := by cases v <;> decide
    have := Nat.mul_le_mul (Nat.le_sub_one_of_lt (hlt x hx)) hv
    simp only
    rw [mul_eq (by omega)]
    rfl

theorem mapM_some {α β : Type} {f : α → Option β} {g : α → β} : ∀ {l : List α}, (∀ a ∈ l, f a = some (g a)) → l.mapM f = some (l.map g)
  | [], _ => rfl
  | a :: l, h => by
    rw [List.mapM_cons, h a List.mem_cons_self, mapM_some fun x hx => h x (List.mem_cons_of_mem _ hx)]
    rfl

/-- **C62.** The positions of the metadata blocks. -/
theorem C62_meta_pos (v : Version) (dpb : Option Dpb) (hd : Usable dpb) :
    metaDupIndices dpb = some (Layout.metaDupIndices dpb) ∧ metaDupPos v dpb = some (Layout.metaDupPos v dpb) ∧
      metaAllPos v dpb = some (Layout.metaAllPos v dpb) := by
  have key : metaDupIndices dpb = some (Layout.metaDupIndices dpb) ∧ ∀ i ∈ Layout.metaDupIndices dpb, i ≤ 256 * (1 + 2 ^ 40) := by
    cases dpb with
    | none => exact ⟨rfl, by simp [Layout.metaDupIndices]⟩
    | some d =>
      obtain ⟨d1, d2, d3, d4⟩ := hd _ rfl
      have hb : ∀ i ∈ List.range' 1 d.parity, i * (1 + d.burst) ≤ 256 * (1 + 2 ^ 40) := by
        intro i hi
        rw [List.mem_range'_1] at hi
        exact Nat.mul_le_mul (by omega) (by omega)
      simp only [metaDupIndices, Layout.metaDupIndices, Option.bind_eq_bind]
      rw [add_eq (show 1 + d.parity < 2 ^ 64 by omega)]
      simp only [Option.bind_some, Nat.add_sub_cancel_left]
      refine ⟨mapM_some fun i hi => ?_, ?_⟩
      · have := hb i hi
        rw [add_eq (by omega), Option.bind_some, mul_eq (by omega)]
      · intro x hx
        obtain ⟨i, hi, rfl⟩ := List.mem_map.1 hx
        exact hb i hi
  obtain ⟨h1, h2⟩ := key
  have h3 : metaDupPos v dpb = some (Layout.metaDupPos v dpb) := by
    unfold metaDupPos Layout.metaDupPos
    rw [h1]
    simp only [Option.bind_eq_bind, Option.bind_some]
    refine mapM_some fun i hi => mul_eq ?_
    have hv : v.blockSize ≤ 4096 := by cases v <;> decide
    have := Nat.mul_le_mul (h2 i hi) hv
    omega
  refine ⟨h1, h3, ?_⟩
  unfold metaAllPos Layout.metaAllPos
  rw [h3]
  rfl

/-- **C62.** Which number belongs to the block at place `index`, for places in the range of 32-bit numbers. -/
theorem C62_seq_at_index (index : Nat) (me : Option Bool) (dpb : Option Dpb) (hd : Usable dpb)
    (hi : index + (match dpb with | some d => (d.data + d.parity) * d.burst | none => 0) < 2 ^ 32 - 1) :
    seqAtIndex index me dpb = some (Layout.seqAtIndex index me dpb) := by
  cases dpb with
  | none =>
    simp only at hi
    simp only [seqAtIndex, Layout.seqAtIndex]
    split
    · rfl
    · rw [Nat.mod_eq_of_lt (show index < 2 ^ 32 by omega), add_eq (by omega), Nat.mod_eq_of_lt (by omega)]
  | some d =>
    obtain ⟨data, parity, burst⟩ := d
    obtain ⟨d1, d2, d3, d4⟩ := hd _ rfl
    simp only at d1 d2 d3 d4 hi
    have hR := Layout.seqAtIndex.eq_2 index me data parity burst
    generalize Layout.seqAtIndex index me (some ⟨data, parity, burst⟩) = r at *
    by_cases hb : burst = 0
    · rw [if_pos hb] at hR
      simp only [seqAtIndex, if_pos hb, Option.bind_eq_bind]
      rw [add_eq (by omega), Option.bind_some]
      subst hR
      split
      · rfl
      · rw [sub_eq (by omega), Option.bind_some, add_eq (by omega)]
        rfl
    rw [if_neg hb] at hR
    have hsh : 0 < data + parity := by omega
    have hsup : 0 < (data + parity) * burst := Nat.mul_pos hsh (by omega)
    have hfront : (1 + parity) * (1 + burst) ≤ 256 * (1 + 2 ^ 40) := Nat.mul_le_mul (by omega) (by omega)
    simp only [seqAtIndex, if_neg hb, Option.bind_eq_bind]
    rw [add_eq (show 1 + parity < 2 ^ 64 by omega), Option.bind_some, add_eq (show 1 + burst < 2 ^ 64 by omega), Option.bind_some,
      mul_eq (by omega), Option.bind_some, rem_eq (by omega), Option.bind_some]
    by_cases hnf : index < (1 + parity) * (1 + burst) ∧ index % (1 + burst) = 0
    · rw [if_pos hnf] at hR
      rw [if_pos hnf, hR]
      rfl
    rw [if_neg hnf] at hR
    rw [if_neg hnf]
    have fin : ∀ mc, mc ≤ index → ((sub index mc).bind fun noMeta => (div noMeta ((data + parity) * burst)).bind fun superIndex =>
        (rem noMeta ((data + parity) * burst)).bind fun inSuper => (div inSuper burst).bind fun subBIndex => (rem inSuper burst).bind fun inSubB =>
          (mul 64 inSubB (data + parity)).bind fun scaled => (add 64 scaled subBIndex).bind fun oldInSuper =>
            (mul 64 ((data + parity) * burst) superIndex).bind fun base => (add 64 base oldInSuper).bind fun oldIndex =>
              add 32 (oldIndex % 2 ^ 32) 1) =
        some (((data + parity) * burst * ((index - mc) / ((data + parity) * burst)) +
          ((index - mc) % ((data + parity) * burst) % burst * (data + parity) + (index - mc) % ((data + parity) * burst) / burst)) % 2 ^ 32 + 1) ∧
        ((data + parity) * burst * ((index - mc) / ((data + parity) * burst)) +
          ((index - mc) % ((data + parity) * burst) % burst * (data + parity) + (index - mc) % ((data + parity) * burst) / burst)) % 2 ^ 32 + 1 < 2 ^ 32 := by
      intro mc hmci
      rw [sub_eq hmci, Option.bind_some, div_eq hsup, Option.bind_some, rem_eq hsup, Option.bind_some, div_eq (by omega), Option.bind_some,
        rem_eq (by omega), Option.bind_some]
      have e1 := Nat.div_add_mod (index - mc) ((data + parity) * burst)
      have e2 : (index - mc) % ((data + parity) * burst) < (data + parity) * burst := Nat.mod_lt _ hsup
      have e3 : (index - mc) % ((data + parity) * burst) % burst < burst := Nat.mod_lt _ (by omega)
      have e4 : (index - mc) % ((data + parity) * burst) / burst < data + parity := by
        rw [Nat.div_lt_iff_lt_mul (by omega)]; exact e2
      have e5 : (index - mc) % ((data + parity) * burst) % burst * (data + parity) + (index - mc) % ((data + parity) * burst) / burst <
          (data + parity) * burst := by
        have : ((index - mc) % ((data + parity) * burst) % burst + 1) * (data + parity) ≤ burst * (data + parity) := Nat.mul_le_mul_right _ e3
        rw [Nat.mul_comm burst, Nat.add_mul, Nat.one_mul] at this
        omega
      have e6 := Nat.lt_of_le_of_lt (Nat.le_add_right _ _) e5
      clear hR
      rw [mul_eq (Nat.lt_trans e6 (by omega)), Option.bind_some, add_eq (Nat.lt_trans e5 (by omega)), Option.bind_some]
      generalize (index - mc) % ((data + parity) * burst) % burst * (data + parity) = p1 at *
      generalize (index - mc) % ((data + parity) * burst) / burst = p2 at *
      rw [mul_eq (by omega), Option.bind_some, add_eq (by omega), Option.bind_some]
      rw [Nat.mod_eq_of_lt (show (data + parity) * burst * ((index - mc) / ((data + parity) * burst)) + (p1 + p2) < 2 ^ 32 by omega)]
      exact ⟨add_eq (by omega), by omega⟩
    by_cases hf : index < (1 + parity) * (1 + burst)
    · have hmci : 1 + index / (1 + burst) ≤ index := by
        have hm : index % (1 + burst) ≠ 0 := fun h => hnf ⟨hf, h⟩
        have := Nat.div_add_mod index (1 + burst)
        have h2 : index / (1 + burst) ≤ (1 + burst) * (index / (1 + burst)) := Nat.le_mul_of_pos_left _ (by omega)
        omega
      rw [if_pos hf] at hR ⊢
      rw [div_eq (by omega), Option.bind_some, add_eq (by omega), Option.bind_some, add_eq (show data + parity < 2 ^ 64 by omega),
        Option.bind_some, mul_eq (by omega), Option.bind_some, Option.bind_some, (fin _ hmci).1, hR]
      exact congrArg some (Nat.mod_eq_of_lt (fin _ hmci).2).symm
    · have hmci : 1 + parity ≤ index := by
        have : 1 + parity ≤ (1 + parity) * (1 + burst) := Nat.le_mul_of_pos_right _ (by omega)
        omega
      rw [if_neg hf] at hR ⊢
      rw [Option.bind_some, add_eq (show data + parity < 2 ^ 64 by omega), Option.bind_some, mul_eq (by omega), Option.bind_some,
        Option.bind_some, (fin _ hmci).1, hR]
      exact congrArg some (Nat.mod_eq_of_lt (fin _ hmci).2).symm

/-- **C62.** The numbers of blocks, for files of up to 4 EiB. -/
theorem C62_block_counts (v : Version) (me : Option Bool) (dpb : Option Dpb) (hd : Usable dpb) (hv : v.usesRs = dpb.isSome) (size : Nat)
    (hs : size ≤ 2 ^ 62) :
    containerBlockCount v size = some (FileUtils.containerBlockCount v size) ∧ dataChunkCount v size = some (FileUtils.dataChunkCount v size) ∧
      dataParityBlockCount v dpb size = some (FileUtils.dataParityBlockCount v dpb size) ∧
      totalBlockCount v me dpb size = some (FileUtils.totalBlockCount v me dpb size) := by
  have hb : 128 ≤ v.blockSize ∧ v.blockSize ≤ 4096 := by cases v <;> decide
  have hds : 112 ≤ v.dataSize ∧ v.dataSize ≤ 4096 := by cases v <;> decide
  have hc : (size + (v.dataSize - 1)) / v.dataSize ≤ (2 ^ 62 + 4096) / 112 :=
    Nat.le_trans (Nat.div_le_div_right (by omega)) (Nat.div_le_div_left hds.1 (by omega))
  have key : dataParityBlockCount v dpb size = some (FileUtils.dataParityBlockCount v dpb size) ∧
      (FileUtils.dataParityBlockCount v dpb size).1 + (FileUtils.dataParityBlockCount v dpb size).2 < 2 ^ 64 - 1000 := by
    unfold dataParityBlockCount FileUtils.dataParityBlockCount
    simp only [Option.bind_eq_bind]
    rw [sub_eq (by omega), Option.bind_some, add_eq (by omega), Option.bind_some, div_eq (by omega), Option.bind_some]
    generalize (size + (v.dataSize - 1)) / v.dataSize = n at *
    cases dpb with
    | none =>
      simp only [Option.isSome_none] at hv
      rw [show assert (v.usesRs = false) = some () from if_pos hv]
      exact ⟨rfl, by simp only; omega⟩
    | some d =>
      obtain ⟨d1, d2, d3, d4⟩ := hd _ rfl
      simp only [Option.isSome_some] at hv
      simp only
      rw [show assert (v.usesRs = true) = some () from if_pos hv, Option.bind_some, sub_eq d1, Option.bind_some, add_eq (by omega),
        Option.bind_some, div_eq d1, Option.bind_some]
      have h1 : (n + (d.data - 1)) / d.data * d.data ≤ n + (d.data - 1) := Nat.div_mul_le_self _ _
      have h2 : (n + (d.data - 1)) / d.data ≤ n := by
        rcases Nat.eq_zero_or_pos n with rfl | hn
        · rw [Nat.div_eq_of_lt (by omega)]
        · rw [Nat.div_le_iff_le_mul_add_pred d1]
          have : n * 1 ≤ d.data * n := by rw [Nat.mul_comm]; exact Nat.mul_le_mul_right _ d1
          omega
      have h3 : (n + (d.data - 1)) / d.data * d.parity ≤ n * 255 := Nat.mul_le_mul h2 (by omega)
      rw [mul_eq (by omega), Option.bind_some, mul_eq (by omega)]
      exact ⟨rfl, by omega⟩
  obtain ⟨h1, h2⟩ := key
  refine ⟨?_, ?_, h1, ?_⟩
  · unfold containerBlockCount FileUtils.containerBlockCount
    simp only [Option.bind_eq_bind]
    rw [sub_eq (by omega), Option.bind_some, add_eq (by omega), Option.bind_some, div_eq (by omega)]
  · unfold dataChunkCount FileUtils.dataChunkCount
    simp only [Option.bind_eq_bind]
    rw [sub_eq (by omega), Option.bind_some, add_eq (by omega), Option.bind_some, div_eq (by omega)]
  · have hm : metaBlockCount v me dpb = some (FileUtils.metaBlockCount me dpb) ∧ FileUtils.metaBlockCount me dpb ≤ 256 := by
      unfold metaBlockCount FileUtils.metaBlockCount
      cases dpb with
      | none =>
        simp only [Option.isSome_none] at hv
        simp only [Option.bind_eq_bind]
        rw [show assert (v.usesRs = false) = some () from if_pos hv]
        exact ⟨rfl, by split <;> omega⟩
      | some d =>
        obtain ⟨d1, d2, d3, d4⟩ := hd _ rfl
        simp only [Option.isSome_some] at hv
        simp only [Option.bind_eq_bind]
        rw [show assert (v.usesRs = true) = some () from if_pos hv, Option.bind_some]
        exact ⟨add_eq (by omega), by omega⟩
    unfold totalBlockCount FileUtils.totalBlockCount dataBlockCount FileUtils.dataBlockCount
    rw [hm.1, h1]
    simp only [Option.bind_eq_bind, Option.bind_some]
    rw [add_eq (by omega), Option.bind_some, add_eq (by have := hm.2; omega)]

/-- **C62.** The range of bytes to be read, for every `--from` and `--to` (other than an exclusive end of 0) and files below 8 EiB. -/
theorem C62_byte_range (fromByte : Option Nat) (toByte : Option RangeEnd) (mis : Bool) (soFar len : Nat) (m : Option Nat)
    (ht : toByte ≠ some (.exc 0)) (hl : len < 2 ^ 63) (hs : soFar < 2 ^ 63) (hm : ∀ x, m = some x → 0 < x) :
    byteRange fromByte toByte mis soFar (.len len) m = some (Misc.byteRange fromByte toByte mis soFar (.len len) m) := by
  have hal : ∀ k x, 0 < k → x < 2 ^ 64 → align mis k x = some (Misc.align mis k x) ∧ Misc.align mis k x ≤ x := by
    intro k x hk hx
    have := Nat.div_mul_le_self x k
    unfold align Misc.align
    split
    · exact ⟨rfl, Nat.le_refl _⟩
    · unfold roundDown Misc.roundDown
      rw [div_eq hk]
      exact ⟨mul_eq (by omega), this⟩
  have hm' : 0 < m.getD scanBlockSize := by
    cases m with
    | none => decide
    | some x => exact hm x rfl
  unfold byteRange Misc.byteRange
  simp only [Option.bind_eq_bind, Misc.lastPossiblePos]
  have h1 : lastPossiblePos (.len len) = some (if len = 0 then 0 else len - 1) := by
    unfold lastPossiblePos
    simp only
    split
    · rfl
    · exact sub_eq (by omega)
  rw [h1, Option.bind_some]
  have hlast : (if len = 0 then 0 else len - 1) < 2 ^ 63 := by split <;> omega
  generalize (if len = 0 then 0 else len - 1) = last at *
  have h2 : startPos fromByte mis (m.getD scanBlockSize) last =
      some (Misc.startPos fromByte mis (m.getD scanBlockSize) last) ∧ Misc.startPos fromByte mis (m.getD scanBlockSize) last ≤ last := by
    unfold startPos Misc.startPos
    cases fromByte with
    | none => exact ⟨rfl, Nat.zero_le _⟩
    | some n =>
      obtain ⟨a, b⟩ := hal _ (min n last) hm' (by omega)
      exact ⟨a, by simp only; omega⟩
  rw [h2.1, Option.bind_some]
  have hle := h2.2
  generalize Misc.startPos fromByte mis (m.getD scanBlockSize) last = start at *
  have h3 : endInc toByte start last = some (Misc.endInc toByte start last) ∧
      start ≤ Misc.endInc toByte start last ∧ Misc.endInc toByte start last ≤ last := by
    unfold endInc Misc.endInc
    cases toByte with
    | none => exact ⟨rfl, hle, Nat.le_refl _⟩
    | some t =>
      cases t with
      | inc n => exact ⟨rfl, by simp only; omega, by simp only; omega⟩
      | exc n =>
        have hn : n ≠ 0 := fun h => ht (by rw [h])
        simp only
        rw [sub_eq (by omega), wrapPred, if_neg hn]
        exact ⟨rfl, by omega, by omega⟩
  rw [h3.1, Option.bind_some]
  have hs3 := h3.2
  rw [add_eq (by omega), Option.bind_some, (hal _ (start + soFar) hm' (by omega)).1, Option.bind_some, sub_eq hs3.1, Option.bind_some,
    add_eq (by omega)]
  rfl

theorem maxIndexLoop_eq (me : Option Bool) (dpb : Option Dpb) (hd : Usable dpb) : ∀ (fuel seq li : Nat), 1 ≤ seq → seq + fuel ≤ 2 ^ 32 → li < 2 ^ 50 →
    (fuel ≠ 0 → seq + fuel = 2 ^ 32 → maxIndexLoop me dpb fuel seq li = none) ∧
    (seq + fuel < 2 ^ 32 → maxIndexLoop me dpb fuel seq li = some ((List.range' seq fuel).foldl
      (fun lastIndex seq => if Layout.dataWriteIndex seq me dpb > lastIndex then Layout.dataWriteIndex seq me dpb else lastIndex) li)) ∧
    (List.range' seq fuel).foldl
      (fun lastIndex seq => if Layout.dataWriteIndex seq me dpb > lastIndex then Layout.dataWriteIndex seq me dpb else lastIndex) li < 2 ^ 50
  | 0, seq, li, _, _, h3 => ⟨fun h => absurd rfl h, fun _ => rfl, h3⟩
  | fuel + 1, seq, li, h1, h2, h3 => by
    obtain ⟨a, b⟩ := C62_data_index seq h1 (by omega) me dpb hd
    simp only [maxIndexLoop, Option.bind_eq_bind, List.range'_succ, List.foldl_cons]
    rw [a, Option.bind_some]
    have h3' : (if Layout.dataWriteIndex seq me dpb > li then Layout.dataWriteIndex seq me dpb else li) < 2 ^ 50 := by split <;> assumption
    obtain ⟨x, y, z⟩ := maxIndexLoop_eq me dpb hd fuel (seq + 1) _ (by omega) (by omega) h3'
    refine ⟨fun _ he => ?_, fun hlt => ?_, z⟩
    · rcases Nat.eq_zero_or_pos fuel with rfl | hf
      · rw [show add 32 seq 1 = none from if_neg (by omega)]
        rfl
      · rw [add_eq (by omega), Option.bind_some]
        exact x (by omega) (by omega)
    · rw [add_eq (by omega), Option.bind_some]
      exact y (by omega)

theorem total_le (v : Version) (me : Option Bool) (dpb : Option Dpb) (hd : Usable dpb) (size : Nat) (hs : size ≤ 2 ^ 50) :
    FileUtils.dataBlockCount v dpb size ≤ ((2 ^ 50 + 4096) / 112 + 256) * 256 ∧
      FileUtils.totalBlockCount v me dpb size ≤ ((2 ^ 50 + 4096) / 112 + 257) * 256 := by
  have hds : 112 ≤ v.dataSize ∧ v.dataSize ≤ 4096 := by cases v <;> decide
  have hc : (size + (v.dataSize - 1)) / v.dataSize ≤ (2 ^ 50 + 4096) / 112 :=
    Nat.le_trans (Nat.div_le_div_right (by omega)) (Nat.div_le_div_left hds.1 (by omega))
  unfold FileUtils.totalBlockCount FileUtils.dataBlockCount FileUtils.metaBlockCount FileUtils.dataParityBlockCount
  simp only
  generalize (size + (v.dataSize - 1)) / v.dataSize = n at *
  cases dpb with
  | none => exact ⟨by simp only; omega, by simp only; split <;> omega⟩
  | some d =>
    obtain ⟨d1, d2, d3, d4⟩ := hd _ rfl
    have h2 : (n + (d.data - 1)) / d.data ≤ n := by
      rcases Nat.eq_zero_or_pos n with rfl | hn
      · rw [Nat.div_eq_of_lt (by omega)]
      · rw [Nat.div_le_iff_le_mul_add_pred d1]
        have : n * 1 ≤ d.data * n := by rw [Nat.mul_comm]; exact Nat.mul_le_mul_right _ d1
        omega
    have h3 : (n + (d.data - 1)) / d.data * (d.data + d.parity) ≤ n * 256 := Nat.mul_le_mul h2 d3
    rw [Nat.mul_add] at h3
    exact ⟨Nat.le_trans h3 (by omega), Nat.le_trans (Nat.add_le_add_left h3 _) (by simp only [Nat.reduceAdd]; omega)⟩

/-- **C62.** The size of the container, for files of up to 1 PiB. -/
theorem C62_container_size (v : Version) (me : Option Bool) (dpb : Option Dpb) (hd : Usable dpb) (hv : v.usesRs = dpb.isSome) (size : Nat)
    (hs : size ≤ 2 ^ 50) :
    containerSize v me dpb size = FileUtils.containerSize v me dpb size := by
  obtain ⟨_, _, hc, ht⟩ := C62_block_counts v me dpb hd hv size (by omega)
  have hb : 128 ≤ v.blockSize ∧ v.blockSize ≤ 4096 := by cases v <;> decide
  obtain ⟨hsum, htot⟩ := total_le v me dpb hd size hs
  have htotal : (totalBlockCount v me dpb size).bind (mul 64 v.blockSize) = some (v.blockSize * FileUtils.totalBlockCount v me dpb size) := by
    rw [ht, Option.bind_some]
    have := Nat.mul_le_mul hb.2 htot
    exact mul_eq (by omega)
  cases dpb with
  | none => exact htotal
  | some d =>
    obtain ⟨d1, d2, d3, d4⟩ := hd _ rfl
    unfold containerSize FileUtils.containerSize
    simp only [Option.bind_eq_bind]
    by_cases hb0 : d.burst = 0
    · rw [if_pos hb0, if_pos hb0]
      exact htotal
    rw [if_neg hb0, if_neg hb0]
    have hdc : dataBlockCount v (some d) size = some (FileUtils.dataBlockCount v (some d) size) := by
      unfold dataBlockCount FileUtils.dataBlockCount
      rw [hc]
      exact add_eq (Nat.lt_of_le_of_lt (show _ ≤ ((2 ^ 50 + 4096) / 112 + 256) * 256 from hsum) (by omega))
    rw [hdc, Option.bind_some]
    generalize FileUtils.dataBlockCount v (some d) size = count at *
    split
    · rw [(C62_meta_pos v (some d) hd).2.2, Option.bind_some]
      cases hl : (Layout.metaAllPos v (some d)).getLast? with
      | none => rfl
      | some x =>
        have hx : x ∈ Layout.metaAllPos v (some d) := List.mem_of_getLast? hl
        have : x ≤ 256 * (1 + 2 ^ 40) * 4096 := by
          simp only [Layout.metaAllPos, List.mem_mergeSort, List.mem_append, List.mem_singleton, Layout.metaDupPos, Layout.metaDupIndices,
            List.mem_map] at hx
          rcases hx with ⟨i, ⟨j, hj, rfl⟩, rfl⟩ | rfl
          · rw [List.mem_range'_1] at hj
            exact Nat.mul_le_mul (Nat.mul_le_mul (by omega) (by omega)) hb.2
          · omega
        exact add_eq (by omega)
    · have hlast : count % 2 ^ 32 < 2 ^ 32 := Nat.mod_lt _ (by decide)
      generalize count % 2 ^ 32 = last at *
      by_cases h0 : last = 0
      · rw [if_pos h0, show sub last 1 = none from if_neg (by omega)]
        rfl
      rw [if_neg h0, sub_eq (by omega), Option.bind_some, add_eq (by omega), Option.bind_some,
        mul_eq (Nat.lt_of_le_of_lt (Nat.mul_le_mul d3 d4) (by omega)), Option.bind_some]
      generalize (d.data + d.parity) * d.burst % 2 ^ 32 = sup at *
      by_cases hz : sup = 0
      · rw [if_pos hz, show div (last - 1) sup = none from if_pos hz]
        split <;> rfl
      rw [if_neg hz, div_eq (by omega), Option.bind_some]
      have hq : (last - 1) / sup * sup ≤ last - 1 := Nat.div_mul_le_self _ _
      rw [mul_eq (by omega), Option.bind_some]
      simp only [FileUtils.maxIndexLoop]
      generalize (last - 1) / sup * sup = first at *
      rw [add_eq (by omega), Option.bind_some]
      obtain ⟨x, y, z⟩ := maxIndexLoop_eq me (some d) hd (last + 1 - (first + 1)) (first + 1) 0 (by omega) (by omega) (by decide)
      by_cases hl : last = 2 ^ 32 - 1
      · rw [if_pos hl, x (by omega) (by omega)]
        rfl
      · rw [if_neg hl, y (by omega), Option.bind_some, add_eq (by omega), Option.bind_some]
        have := Nat.mul_le_mul hb.2 (Nat.succ_le_of_lt z)
        exact mul_eq (by rw [Nat.succ_eq_add_one] at this; omega)

/-! ### Examples and what goes wrong -/

/-- The settings used by default, and the extreme ones. -/
example : Usable (some ⟨10, 2, 12⟩) ∧ Usable (some ⟨1, 255, 2 ^ 40⟩) ∧ Usable none := by
  refine ⟨fun d h => ?_, fun d h => ?_, fun d h => nomatch h⟩ <;> cases h <;> decide

example : dataWritePos .v17 4294967295 none (some ⟨10, 2, 12⟩) = some 2199023216640 := by decide
example : chunkWritePos .v17 13 (some (10, 2)) = some (some 4960) ∧ seqAtIndex 40 none (some ⟨10, 2, 12⟩) = some 16 := by decide
example : metaDupPos .v17 (some ⟨10, 2, 12⟩) = some [6656, 13312] := by decide
example : totalBlockCount .v17 none (some ⟨10, 2, 12⟩) 100000 = some 255 := by decide
example : containerSize .v1 none none 100000 = some 103936 := by decide
example : byteRange (some 1000) (some (.inc 5000)) false 0 (.len 4000) none = some ⟨3104, 896⟩ := by decide

/-- **C62 is violated** by burst levels that the command line accepts: with 2^62 the size of a super block set overflows.  A debug build
panics; in a release build the size of the set is 0, and the division by it panics. -/
theorem C62_burst_violated : dataWriteIndex 1 none (some ⟨2, 2, 2 ^ 62⟩) = none ∧ (2 + 2) * 2 ^ 62 % 2 ^ 64 = 0 := by decide

/-- **C62 is violated** by recorded file sizes near 2^64, for every version: the number of chunks (`src/decode_core.rs` 1032) overflows. A
release build computes 0. -/
theorem C62_size_violated (v : Version) : dataChunkCount v (2 ^ 64 - 1) = none ∧ (2 ^ 64 - 1 + (v.dataSize - 1)) % 2 ^ 64 / v.dataSize = 0 := by
  cases v <;> decide

/-- **C62 is violated** by a recorded file size of 2^63 with a shard ratio of 1 to 255: the number of parity blocks overflows, which `repair`
(`src/repair_core.rs` 296) computes for its progress report. -/
theorem C62_parity_count_violated : totalBlockCount .v18 none (some ⟨1, 255, 0⟩) (2 ^ 63) = none := by decide

/-- **C62 is violated** by an exclusive end of 0 (see C17), and by a rescue log that says that nearly 2^64 bytes have been processed. -/
theorem C62_range_violated :
    byteRange none (some (.exc 0)) false 0 (.len 4000) none = none ∧
      byteRange (some 1000) none false (2 ^ 64 - 1) (.len 4000) none = none := by decide

/-- **C62 is violated** at place 2^32 - 1 of a container without metadata: the sequence number does not exist. -/
theorem C62_last_place_violated : seqAtIndex (2 ^ 32 - 1) (some false) none = none := by decide

end Verif.Machine
