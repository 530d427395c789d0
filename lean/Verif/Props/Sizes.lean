import Verif.Lemmas.Sizes
import Verif.Props.Layout
/-!
# C15, C16: block counts, container size, maximum file size
-/

namespace Verif
open Layout LayoutSpec FileUtils

/-- Block indices an encoder writes for a file of `size` bytes: the metadata copies and sequence numbers `1 ..= count`. -/
def writtenIndices (v : Version) (me : Option Bool) (dpb : Option Dpb) (size : Nat) : List Nat :=
  metaCopies me dpb ++ (List.range' 1 (blocksFor v.dataSize dpb size)).map fun s => dataWriteIndex s me dpb

/-- `n` is one past the last byte of the blocks at `indices`. -/
def IsEndOf (v : Version) (n : Nat) (indices : List Nat) : Prop :=
  (∀ i ∈ indices, (i + 1) * v.blockSize ≤ n) ∧ (n = 0 ∧ indices = [] ∨ ∃ i ∈ indices, (i + 1) * v.blockSize = n)

/-- **C15 (partial).** The reported container size is one past the last byte written.  Missing from the full claim: files
that need sequence number `2^32 - 1` itself, for which the computation does not terminate normally
(`C15_last_seq_violated`), and burst levels for which the size of a super block set is a multiple of `2^32`, where it divides
by zero (`C15_super_set_violated`). -/
theorem C15_container_size_partial (v : Version) (me : Option Bool) (dpb : Option Dpb) (hv : Valid dpb) (size : Nat)
    (hsup : ∀ d, dpb = some d → 1 ≤ d.burst → (d.data + d.parity) * d.burst % 2 ^ 32 ≠ 0)
    (hcount : blocksFor v.dataSize dpb size < 2 ^ 32 - 1) :
    ∃ n, containerSize v me dpb size = some n ∧ IsEndOf v n (writtenIndices v me dpb size) := by
  have hbs := blockSize_pos v
  have hmem : ∀ i, i ∈ writtenIndices v me dpb size ↔
      i ∈ metaCopies me dpb ∨ ∃ s, 1 ≤ s ∧ s ≤ blocksFor v.dataSize dpb size ∧ i = dataWriteIndex s me dpb := by
    intro i
    unfold writtenIndices
    rw [List.mem_append, List.mem_map]
    constructor
    · rintro (h | ⟨s, hs, rfl⟩)
      · exact .inl h
      · rw [List.mem_range'_1] at hs; exact .inr ⟨s, by omega, by omega, rfl⟩
    · rintro (h | ⟨s, h1, h2, rfl⟩)
      · exact .inl h
      · exact .inr ⟨s, by rw [List.mem_range'_1]; omega, rfl⟩
  -- it is enough to find the largest index
  have fin : ∀ m, m ∈ writtenIndices v me dpb size → (∀ i ∈ writtenIndices v me dpb size, i ≤ m) →
      IsEndOf v (v.blockSize * (m + 1)) (writtenIndices v me dpb size) := by
    intro m hm hmax
    refine ⟨fun i hi => ?_, .inr ⟨m, hm, Nat.mul_comm _ _⟩⟩
    rw [Nat.mul_comm]
    exact Nat.mul_le_mul_left _ (by have := hmax i hi; omega)
  cases dpb with
  | none =>
    refine ⟨_, rfl, ?_⟩
    unfold totalBlockCount metaBlockCount
    rw [dataBlockCount_eq v none hv]
    set cnt := blocksFor v.dataSize none size with hcnt
    have hdis : (me = some false ∧ me.getD true = false) ∨ (me ≠ some false ∧ me.getD true = true) := by
      cases me with
      | none => simp
      | some b => cases b <;> simp
    rcases hdis with ⟨h1, h2⟩ | ⟨h1, h2⟩
    · by_cases hc : cnt = 0
      · simp only [h2, hc]
        refine ⟨?_, .inl ⟨rfl, ?_⟩⟩
        · intro i hi; rw [hmem] at hi
          rcases hi with hi | ⟨s, h3, h4, _⟩
          · simp [metaCopies, h1] at hi
          · omega
        · simp [writtenIndices, metaCopies, h1, ← hcnt, hc]
      · have := fin (cnt - 1) ?_ ?_
        · simp only [h2]
          rw [show cnt - 1 + 1 = cnt by omega] at this
          simpa using this
        · rw [hmem]; right; exact ⟨cnt, by omega, by omega, by simp [dataWriteIndex, h2]⟩
        · intro i hi; rw [hmem] at hi
          rcases hi with hi | ⟨s, h3, h4, rfl⟩
          · simp [metaCopies, h1] at hi
          · simp [dataWriteIndex, h2]; omega
    · have := fin cnt ?_ ?_
      · simp only [h2]
        rw [Nat.add_comm cnt 1] at this
        exact this
      · rw [hmem]
        by_cases hc : cnt = 0
        · left; simp [metaCopies, h1, hc]
        · right; exact ⟨cnt, by omega, by omega, by simp [dataWriteIndex, h2]; omega⟩
      · intro i hi; rw [hmem] at hi
        rcases hi with hi | ⟨s, h3, h4, rfl⟩
        · simp [metaCopies, h1] at hi; omega
        · simp [dataWriteIndex, h2]; omega
  | some d =>
    obtain ⟨M, N, B⟩ := d
    have hM : 0 < M := hv _ rfl
    have hmeta : ∀ i, i ∈ metaCopies me (some ⟨M, N, B⟩) ↔ ∃ k, k ≤ N ∧ i = k * (1 + B) := by
      intro i; rw [← (C10_meta_positions ⟨M, N, B⟩ me).1, mem_metaAll]
    have hmul : ∃ sets, blocksFor v.dataSize (some ⟨M, N, B⟩) size = sets * (M + N) := ⟨_, rfl⟩
    obtain ⟨sets, hsets⟩ := hmul
    unfold containerSize
    by_cases hB : B = 0
    · subst hB
      simp only [if_true]
      refine ⟨_, rfl, ?_⟩
      unfold totalBlockCount metaBlockCount
      rw [dataBlockCount_eq v _ hv]
      set cnt := blocksFor v.dataSize (some ⟨M, N, 0⟩) size with hcnt
      have := fin (N + cnt) ?_ ?_
      · simp only
        rw [show 1 + N + cnt = N + cnt + 1 by omega]; exact this
      · rw [hmem]
        by_cases hc : cnt = 0
        · left; rw [hmeta]; exact ⟨N, by omega, by simp [hc]⟩
        · right; exact ⟨cnt, by omega, by omega, by simp [dataWriteIndex]; omega⟩
      · intro i hi; rw [hmem] at hi
        rcases hi with hi | ⟨s, h3, h4, rfl⟩
        · rw [hmeta] at hi; obtain ⟨k, hk, rfl⟩ := hi; simp; omega
        · simp [dataWriteIndex]; omega
    · simp only [hB, if_false]
      rw [dataBlockCount_eq v _ hv]
      by_cases hc : blocksFor v.dataSize (some ⟨M, N, B⟩) size = 0
      · rw [if_pos hc]
        have hlast : (metaAllPos v (some ⟨M, N, B⟩)).getLast? = some (N * (1 + B) * v.blockSize) := by
          have hpos : metaAllPos v (some ⟨M, N, B⟩) =
              (List.range (1 + N)).map fun k => k * (1 + B) * v.blockSize := by
            refine List.Perm.eq_of_pairwise (le := (· ≤ ·)) ?_ ?_ ?_ ?_
            · intro a b _ _ h1 h2; exact Nat.le_antisymm h1 h2
            · have := List.pairwise_mergeSort (le := fun a b : Nat => decide (a ≤ b)) (by intro a b c; simp; omega)
                (by intro a b; simp; omega) (metaDupPos v (some ⟨M, N, B⟩) ++ [0])
              exact this.imp (by simp)
            · rw [List.pairwise_map]
              exact (List.pairwise_lt_range).imp
                (fun h => Nat.mul_le_mul_right _ (Nat.mul_le_mul_right _ (Nat.le_of_lt h)))
            · refine (List.mergeSort_perm _ _).trans ?_
              have h0 : (metaDupIndices (some ⟨M, N, B⟩) ++ [0]).Perm (metaCopies me (some ⟨M, N, B⟩)) := by
                rw [← (C10_meta_positions ⟨M, N, B⟩ me).1]
                exact (List.mergeSort_perm _ _).symm
              have h1 := h0.map (· * v.blockSize)
              simpa [metaDupPos, metaCopies, Function.comp_def] using h1
          rw [hpos, Nat.add_comm 1 N, List.range_succ, List.map_append]
          simp
        rw [hlast]
        refine ⟨_, rfl, ?_⟩
        have := fin (N * (1 + B)) ?_ ?_
        · change IsEndOf v (N * (1 + B) * v.blockSize + v.blockSize) _
          rw [show N * (1 + B) * v.blockSize + v.blockSize = v.blockSize * (N * (1 + B) + 1) by ring]; exact this
        · rw [hmem]; left; rw [hmeta]; exact ⟨N, by omega, rfl⟩
        · intro i hi; rw [hmem] at hi
          rcases hi with hi | ⟨s, h3, h4, rfl⟩
          · rw [hmeta] at hi; obtain ⟨k, hk, rfl⟩ := hi; exact Nat.mul_le_mul_right _ hk
          · omega
      · rw [if_neg hc]
        set cnt := blocksFor v.dataSize (some ⟨M, N, B⟩) size with hcnt
        have hsup := hsup _ rfl (show 1 ≤ B by omega)
        simp only at hsup
        have hmod : cnt % 2 ^ 32 = cnt := Nat.mod_eq_of_lt (by omega)
        simp only [hmod]
        rw [if_neg hc, if_neg (by omega), if_neg hsup]
        refine ⟨_, rfl, ?_⟩
        set S := (M + N) * B % 2 ^ 32 with hS
        set first := (cnt - 1) / S * S + 1 with hfirst
        have hfl : first ≤ cnt := by
          have := Nat.div_mul_le_self (cnt - 1) S
          omega
        obtain ⟨hmax, hex⟩ := maxIndexLoop_spec me (some ⟨M, N, B⟩) first cnt hfl
        obtain ⟨sm, hsm1, hsm2, hsm⟩ := hex (fun s h1 _ => write_pos_pos M N B me hM (by omega) s (by omega))
        -- the last sequence number is the last shard of its set
        have hs0 : 0 < sets := by
          rcases Nat.eq_zero_or_pos sets with h | h
          · rw [h] at hsets; omega
          · exact h
        have hend : (sets - 1) * (M + N) + (M + N - 1) + 1 = cnt := by
          rw [hsets]
          have : sets * (M + N) = (sets - 1) * (M + N) + (M + N) := by
            conv_lhs => rw [show sets = sets - 1 + 1 by omega]
            ring
          omega
        have hlast := hmax cnt hfl (Nat.le_refl _)
        apply fin
        · rw [hmem]; right; exact ⟨sm, by omega, hsm2, hsm⟩
        · intro i hi; rw [hmem] at hi
          rcases hi with hi | ⟨s, h3, h4, rfl⟩
          · rw [hmeta] at hi
            obtain ⟨k, hk, rfl⟩ := hi
            have hl := last_shard_after_meta M N B me hM (by omega) (sets - 1) k hk
            rw [hend] at hl
            omega
          · have hl := last_shard_max M N B me hM (by omega) (sets - 1) s h3 (by omega)
            rw [hend] at hl
            omega

example : containerSize .v17 none (some ⟨10, 2, 10⟩) 1000 = some (512 * 114) ∧
    blocksFor (Version.dataSize .v17) (some ⟨10, 2, 10⟩) 1000 = 12 := by decide

/-- **C15 violated**: with (2, 1) shards and burst level 10, a file of the advertised maximum size needs sequence number
`2^32 - 1`; the size computation then overflows its 32-bit loop counter. -/
theorem C15_last_seq_violated :
    ∃ size, maxDataFileSize .v17 (some ⟨2, 1, 10⟩) = some size ∧
      blocksFor (Version.dataSize .v17) (some ⟨2, 1, 10⟩) size = 2 ^ 32 - 1 ∧
      containerSize .v17 none (some ⟨2, 1, 10⟩) size = none := by
  refine ⟨_, rfl, by decide, ?_⟩
  unfold containerSize
  have h : dataBlockCount .v17 (some ⟨2, 1, 10⟩)
      (lastSeqNum / ((⟨2, 1, 10⟩ : Dpb).data + (⟨2, 1, 10⟩ : Dpb).parity) * (⟨2, 1, 10⟩ : Dpb).data * Version.v17.dataSize)
      = 2 ^ 32 - 1 := by decide
  simp only [h]
  rfl

/-- **C15 violated**: with (3, 1) shards and burst level `2^30` the size computation divides by zero, for any file that is
not empty and fits.  The layout itself is well defined: the last block of a file of one byte has index `3 * 2^30 + 2`. -/
theorem C15_super_set_violated :
    (∀ size, 0 < size → blocksFor (Version.dataSize .v17) (some ⟨3, 1, 2 ^ 30⟩) size < 2 ^ 32 - 1 →
      containerSize .v17 none (some ⟨3, 1, 2 ^ 30⟩) size = none) ∧
    blocksFor (Version.dataSize .v17) (some ⟨3, 1, 2 ^ 30⟩) 1 = 4 ∧
    dataWriteIndex 4 none (some ⟨3, 1, 2 ^ 30⟩) = 3 * 2 ^ 30 + 2 := by
  refine ⟨fun size h0 h => ?_, by decide, by decide⟩
  have hv : Valid (some ⟨3, 1, 2 ^ 30⟩) := by
    simp [Valid]
  have hg := dataBlockCount_eq .v17 _ hv size
  have hn : dataBlockCount .v17 (some ⟨3, 1, 2 ^ 30⟩) size ≠ 0 := by
    unfold dataBlockCount dataParityBlockCount
    simp only [Version.dataSize, Version.blockSize]
    omega
  rw [← hg] at h
  unfold containerSize
  simp only
  rw [if_neg (by decide)]
  rw [if_neg hn, Nat.mod_eq_of_lt (by omega), if_neg hn, if_neg (by omega), if_pos (by decide)]

/-! ### C16 -/

private theorem ceilDiv_le {a b c : Nat} (hb : 0 < b) (h : a ≤ c * b) : ceilDiv a b ≤ c := by
  rw [← ceil_eq a b hb]
  apply Nat.le_of_lt_succ
  rw [Nat.div_lt_iff_lt_mul hb, Nat.succ_mul]
  omega

private theorem ceilDiv_gt {a b c : Nat} (hb : 0 < b) (h : c * b < a) : c < ceilDiv a b := by
  rw [← ceil_eq a b hb]
  rw [Nat.lt_div_iff_mul_lt hb]
  omega

/-- **C16.** For a file within the advertised maximum, every sequence number (`1 ..= blocksFor`) fits in 32 bits, and the
last non-parity one is at most the advertised last data sequence number. -/
theorem C16_no_overflow (v : Version) (dpb : Option Dpb) (hc : verConsistent v dpb = true) (hv : Valid dpb) (size mx : Nat)
    (hm : maxDataFileSize v dpb = some mx) (hsz : size ≤ mx) :
    blocksFor v.dataSize dpb size ≤ 2 ^ 32 - 1 ∧
    ∃ last, lastDataSeqNumExcParity v dpb = some last ∧
      ∀ d, dpb = some d → blocksFor v.dataSize dpb size - d.parity ≤ last := by
  have hds := dataSize_pos v
  cases dpb with
  | none =>
    have hu : v.usesRs = false := by simpa [verConsistent] using hc
    simp only [maxDataFileSize, lastDataSeqNumExcParity, hu, Option.some.injEq] at hm ⊢
    subst hm
    refine ⟨?_, lastSeqNum, rfl, by simp⟩
    exact ceilDiv_le hds hsz
  | some d =>
    have hu : v.usesRs = true := by simpa [verConsistent] using hc
    have hM := hv d rfl
    simp only [maxDataFileSize, lastDataSeqNumExcParity, maxBlockSetCount, hu] at hm ⊢
    rw [if_neg (by omega)] at hm ⊢
    simp only [Option.map_some, Option.some.injEq] at hm ⊢
    subst hm
    have h1 : ceilDiv size v.dataSize ≤ lastSeqNum / (d.data + d.parity) * d.data := ceilDiv_le hds hsz
    have h2 : ceilDiv (ceilDiv size v.dataSize) d.data ≤ lastSeqNum / (d.data + d.parity) := ceilDiv_le (by omega) h1
    have h3 : blocksFor v.dataSize (some d) size ≤ lastSeqNum / (d.data + d.parity) * (d.data + d.parity) :=
      Nat.mul_le_mul_right _ h2
    refine ⟨Nat.le_trans h3 (Nat.div_mul_le_self _ _), _, rfl, ?_⟩
    rintro d' h
    subst h
    omega

/-- **C16.** The bound is tight up to one block set: a file one byte larger needs at least one more set, and one set
beyond the maximum set count does not fit in 32 bits. -/
theorem C16_tight (v : Version) (dpb : Option Dpb) (hc : verConsistent v dpb = true) (hv : Valid dpb) (mx : Nat)
    (hm : maxDataFileSize v dpb = some mx) : 2 ^ 32 - 1 < blocksFor v.dataSize dpb (mx + 1) := by
  have hds := dataSize_pos v
  cases dpb with
  | none =>
    have hu : v.usesRs = false := by simpa [verConsistent] using hc
    simp only [maxDataFileSize, hu, Option.some.injEq] at hm
    subst hm
    exact ceilDiv_gt hds (by unfold lastSeqNum; omega)
  | some d =>
    have hu : v.usesRs = true := by simpa [verConsistent] using hc
    have hM := hv d rfl
    simp only [maxDataFileSize, maxBlockSetCount, hu] at hm
    rw [if_neg (by omega)] at hm
    simp only [Option.map_some, Option.some.injEq] at hm
    subst hm
    have h1 := ceilDiv_gt (a := lastSeqNum / (d.data + d.parity) * d.data * v.dataSize + 1) hds (Nat.lt_succ_self _)
    have h2 := ceilDiv_gt (b := d.data) (by omega) h1
    have h3 : (lastSeqNum / (d.data + d.parity) + 1) * (d.data + d.parity) ≤
        ceilDiv (ceilDiv (lastSeqNum / (d.data + d.parity) * d.data * v.dataSize + 1) v.dataSize) d.data *
          (d.data + d.parity) := Nat.mul_le_mul_right _ h2
    have h4 := Nat.div_add_mod lastSeqNum (d.data + d.parity)
    have h5 := Nat.mod_lt lastSeqNum (show 0 < d.data + d.parity by omega)
    rw [Nat.succ_mul, Nat.mul_comm] at h3
    unfold blocksFor
    simp only
    unfold lastSeqNum at *
    omega

/-- **C16.** The program's block counts are the number of blocks that must exist. -/
theorem C16_counts (v : Version) (me : Option Bool) (dpb : Option Dpb) (hv : Valid dpb) (size : Nat) :
    dataBlockCount v dpb size = blocksFor v.dataSize dpb size ∧
    totalBlockCount v me dpb size = (writtenIndices v me dpb size).length ∧
    dataChunkCount v size = ceilDiv size v.dataSize := by
  refine ⟨dataBlockCount_eq v dpb hv size, ?_, ceil_eq _ _ (dataSize_pos v)⟩
  unfold totalBlockCount
  rw [dataBlockCount_eq v dpb hv]
  simp only [writtenIndices, List.length_append, List.length_map, List.length_range', metaBlockCount]
  congr 1
  cases dpb with
  | none =>
    cases me with
    | none => rfl
    | some b => cases b <;> rfl
  | some d => simp [metaCopies]

/-- **C16.** The number of blocks of a file of which only the size is known (the total of the progress displays): those that begin
within the file, be the last one cut off or not. -/
theorem C16_container_blocks (v : Version) (size k : Nat) : k < containerBlockCount v size ↔ k * v.blockSize < size := by
  have hb : 0 < v.blockSize := by cases v <;> decide
  unfold containerBlockCount
  rw [← Nat.add_one_le_iff, Nat.le_div_iff_mul_le hb, Nat.add_mul]
  omega

example : containerBlockCount .v1 513 = 2 := by decide

example : verConsistent .v17 (some ⟨10, 2, 10⟩) = true ∧
    maxDataFileSize .v17 (some ⟨10, 2, 10⟩) = some 1775253147360 := by decide

end Verif
