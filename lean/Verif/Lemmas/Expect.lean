import Verif.Lemmas.Decode
import Verif.Lemmas.Assemble
import Verif.Lemmas.RepairWhole
import Verif.Model.ContentHash
/-!
# Reading blocks at the places where they belong

Used by decoding to standard output and by the container hash.
-/

namespace Verif.Expect
open Format Scan ScanSpec Decode BlockRing Layout LayoutSpec DecodeSpec RepairSpec

/-- The payload of the block with number `s`, if that block is at its place. -/
def atPlace (ref : Block) (f : File) (k s : Nat) : Option (List Byte) :=
  match blockAt ref f (k * blockLen ref.header.version) with
  | none => none
  | some b => if b.header.seq.toNat = s then some ((piece ref.header.version f k).drop 16) else none

theorem atPlace_some {ref : Block} {f : File} {k s : Nat} {p : List Byte} :
    atPlace ref f k s = some p ↔ s < 2 ^ 32 ∧ IsBlock (piece ref.header.version f k) ref.header.version ref.header.uid (UInt32.ofNat s) p := by
  unfold atPlace
  constructor
  · intro h
    split at h
    · simp at h
    · rename_i b hb
      split at h
      · rename_i hs
        simp only [Option.some.injEq] at h
        obtain ⟨seq, p', h1, rfl⟩ := blockAt_iff.1 hb
        change seq.toNat = s at hs
        subst hs
        change IsBlock (piece ref.header.version f k) _ _ _ _ at h1
        rw [h1.bytes, blockBytes_drop] at h
        rw [UInt32.ofNat_toNat, ← h]
        exact ⟨UInt32.toNat_lt _, h1⟩
      · simp at h
  · rintro ⟨h0, h1⟩
    rw [blockAt_iff.2 ⟨_, p, h1, rfl⟩]
    have e : (blockOf ref.header.version ref.header.uid (UInt32.ofNat s) p).header.seq.toNat = s := ofNat_toNat32 h0
    simp only [e, if_true]
    rw [h1.bytes, blockBytes_drop]

/-- Reading the expected block. -/
theorem expect_some {ref : Block} {f : File} {k s : Nat} {p : List Byte} (h : atPlace ref f k s = some p) {c : LotCfg}
    (hv : c.version = ref.header.version) {sl : Slot} (hf : sl.Fresh c) :
    expect f (k * ref.header.version.blockSize) ref s sl = (loaded ref.header.version ref.header.uid (s, p) sl, true, true) := by
  obtain ⟨h0, h1⟩ := atPlace_some.1 h
  have hlen : sl.data.length = blockLen ref.header.version := by rw [hf.len, hv, blockLen_eq]
  have hl := isBlock_length h1
  have hrd : f.readAt (k * ref.header.version.blockSize) sl.data.length = piece ref.header.version f k := by
    rw [hlen]; unfold piece; rw [blockLen_eq]
  unfold expect
  simp only [hrd]
  rw [if_neg (by omega), List.drop_eq_nil_of_le (by omega), List.append_nil]
  have hyes : sl.block.syncFrom (piece ref.header.version f k) (some (sameVerUid ref)) none =
      (blockOf ref.header.version ref.header.uid (UInt32.ofNat s) p, none) := by
    rw [Block.syncFrom_none]
    exact (readSame_iff (by rw [hl])).2 ⟨_, _, h1, rfl⟩
  rw [hyes]
  simp only [loaded, h1.bytes, blockOf]
  rw [ofNat_toNat32 h0]
  simp

/-- Another block, or none. -/
theorem expect_none {ref : Block} {f : File} {k s : Nat} (h : atPlace ref f k s = none) {c : LotCfg}
    (hv : c.version = ref.header.version) {sl : Slot} (hf : sl.Fresh c) :
    (expect f (k * ref.header.version.blockSize) ref s sl).2.2 = false ∧
    (expect f (k * ref.header.version.blockSize) ref s sl).1.data.length = c.version.blockSize ∧
    (expect f (k * ref.header.version.blockSize) ref s sl).1.contentLen = none ∧
    ((expect f (k * ref.header.version.blockSize) ref s sl).2.1 = true ↔ (k + 1) * blockLen ref.header.version ≤ f.length) := by
  have hlen : sl.data.length = blockLen ref.header.version := by rw [hf.len, hv, blockLen_eq]
  have hle := Repair.piece_length_le ref.header.version f k
  have hpos := blockLen_pos ref.header.version
  have hrd : f.readAt (k * ref.header.version.blockSize) sl.data.length = piece ref.header.version f k := by
    rw [hlen]; unfold piece; rw [blockLen_eq]
  have hfull : (piece ref.header.version f k).length < blockLen ref.header.version ↔ ¬ (k + 1) * blockLen ref.header.version ≤ f.length := by
    unfold piece; rw [File.readAt_length, Nat.succ_mul]; omega
  unfold expect
  simp only [hrd]
  rw [hlen]
  split
  · rename_i hlt
    refine ⟨rfl, ?_, hf.contentLen, ?_⟩
    · simp only [List.length_append, List.length_drop, hlen]; rw [hv, ← blockLen_eq]; omega
    · simpa using hfull.1 hlt
  · rename_i hnl
    have hpl : (piece ref.header.version f k).length = blockLen ref.header.version := by omega
    have hyes : (k + 1) * blockLen ref.header.version ≤ f.length := by
      by_contra hc; exact hnl (hfull.2 hc)
    rw [List.drop_eq_nil_of_le (by omega), List.append_nil]
    rcases hsy : sl.block.syncFrom (piece ref.header.version f k) (some (sameVerUid ref)) none with ⟨b, e⟩
    cases e with
    | none =>
      simp only
      have hb : ∃ seq p, IsBlock (piece ref.header.version f k) ref.header.version ref.header.uid seq p ∧
          b = blockOf ref.header.version ref.header.uid seq p := by
        rw [Block.syncFrom_none] at hsy
        exact (readSame_iff (by rw [hpl])).1 hsy
      obtain ⟨seq, p, h1, rfl⟩ := hb
      refine ⟨?_, by rw [hpl, hv, blockLen_eq], hf.contentLen, by simpa using hyes⟩
      simp only [beq_eq_false_iff_ne, ne_eq]
      rintro rfl
      have : atPlace ref f k seq.toNat = some p := by
        rw [atPlace_some]
        exact ⟨UInt32.toNat_lt _, by rw [UInt32.ofNat_toNat]; exact h1⟩
      simp only [blockOf] at h
      rw [this] at h
      simp at h
    | some e =>
      exact ⟨rfl, by simp only; rw [hpl, hv, blockLen_eq], hf.contentLen, by simpa using hyes⟩

/-! ### Sequence numbers in order -/

theorem isParity_iff {dpb : Option Dpb} {s : Nat} (hs : 1 ≤ s) : isParityDpb s dpb = true ↔ chunkOf dpb s = none := by
  cases dpb with
  | none => simp [isParityDpb, chunkOf, chunkWriteIndex]; omega
  | some d =>
    unfold isParityDpb chunkOf chunkWriteIndex
    simp only [Option.map_some]
    rw [if_neg (by omega)]
    split <;> simp_all

theorem seqOf_succ {dpb : Option Dpb} (hv : Valid dpb) (j : Nat) : seqOf dpb j < seqOf dpb (j + 1) := by
  cases dpb with
  | none => simp [seqOf]
  | some d =>
    have hd := hv d rfl
    have h1 := Nat.div_add_mod j d.data
    have h2 := Nat.mod_lt j (show 0 < d.data by omega)
    unfold seqOf
    simp only
    by_cases h : j % d.data + 1 < d.data
    · have h3 : (j + 1) / d.data = j / d.data ∧ (j + 1) % d.data = j % d.data + 1 := by
        have := Layout.divmod_eq (m := d.data) (q := j / d.data) (r := j % d.data + 1) h
        have e : j / d.data * d.data + (j % d.data + 1) = j + 1 := by rw [Nat.mul_comm]; omega
        rw [e] at this
        exact this
      rw [h3.1, h3.2]; omega
    · have h3 : (j + 1) / d.data = j / d.data + 1 ∧ (j + 1) % d.data = 0 := by
        have := Layout.divmod_eq (m := d.data) (q := j / d.data + 1) (r := 0) (by omega)
        have e : (j / d.data + 1) * d.data + 0 = j + 1 := by rw [Nat.succ_mul, Nat.mul_comm]; omega
        rw [e] at this
        exact this
      rw [h3.1, h3.2, Nat.succ_mul]; omega

theorem seqOf_mono {dpb : Option Dpb} (hv : Valid dpb) {i j : Nat} (h : i < j) : seqOf dpb i < seqOf dpb j := by
  induction j with
  | zero => omega
  | succ j ih =>
    rcases Nat.lt_succ_iff_lt_or_eq.1 h with h | rfl
    · exact Nat.lt_trans (ih h) (seqOf_succ hv j)
    · exact seqOf_succ hv i

theorem seqOf_zero {dpb : Option Dpb} : seqOf dpb 0 = 1 := by cases dpb <;> simp [seqOf]

/-- Numbers between those of consecutive chunks belong to parity blocks. -/
theorem between_parity {dpb : Option Dpb} (hv : Valid dpb) {s j : Nat} (h1 : seqOf dpb j < s) (h2 : s < seqOf dpb (j + 1)) :
    isParityDpb s dpb = true := by
  rw [isParity_iff (by omega)]
  cases h : chunkOf dpb s with
  | none => rfl
  | some i =>
    exfalso
    rw [chunkOf_iff hv] at h
    subst h
    rcases Nat.lt_or_ge j i with h | h
    · rcases Nat.lt_or_ge i (j + 1) with h' | h'
      · omega
      · rcases Nat.eq_or_lt_of_le h' with h' | h'
        · rw [h'] at h2; omega
        · have := seqOf_mono hv h'; omega
    · rcases Nat.eq_or_lt_of_le h with h' | h'
      · rw [h'] at h1; omega
      · have := seqOf_mono hv h'; omega

theorem seqOf_not_parity {dpb : Option Dpb} (hv : Valid dpb) (j : Nat) : isParityDpb (seqOf dpb j) dpb = false := by
  cases h : isParityDpb (seqOf dpb j) dpb with
  | false => rfl
  | true =>
    rw [isParity_iff (seqOf_pos dpb j), (chunkOf_iff hv).2 rfl] at h
    simp at h

end Verif.Expect
