import Verif.Lemmas.Utils
import Verif.Lemmas.MetadataParse
/-!
# C17, C18, C45, C46: byte ranges, hexadecimal text, shard validation, elapsed time
-/

namespace Verif
open Misc UtilSpec

/-! ### C17 -/

/-- Which positions the user asked for with the end option. -/
def inRequested (toByte : Option RangeEnd) (p : Nat) : Prop :=
  match toByte with
  | none => True
  | some (.inc n) => p ≤ n
  | some (.exc n) => p < n

/-- The starting point: `FROM` clamped to the last byte of the file, rounded down to the alignment. -/
def IsStart (fromByte : Option Nat) (misalign : Bool) (m len start : Nat) : Prop :=
  ∃ f, f = min (fromByte.getD 0) (len - 1) ∧
    if misalign then start = f else start ≤ f ∧ f < start + m ∧ m ∣ start

theorem align_isStart (fromByte : Option Nat) (misalign : Bool) (m len : Nat) (hm : 1 ≤ m) :
    IsStart fromByte misalign m len (startPos fromByte misalign m (len - 1)) := by
  refine ⟨_, rfl, ?_⟩
  unfold startPos
  cases fromByte with
  | none =>
    by_cases h : misalign
    · simp [h]
    · simp only [h]; simp; omega
  | some n =>
    by_cases h : misalign
    · simp [h, align]
    · simp only [h, align, roundDown, Option.getD_some]
      have h1 := Nat.div_add_mod (min n (len - 1)) m
      have h2 := Nat.mod_lt (min n (len - 1)) hm
      have h3 : min n (len - 1) / m * m = m * (min n (len - 1) / m) := Nat.mul_comm _ _
      simp only [Bool.false_eq_true, if_false]
      refine ⟨by omega, by omega, ⟨_, h3⟩⟩

/-- **C17 (partial).** For a non-empty file and an end option other than "exclusive 0": the scan starts at `FROM`
clamped to the file and rounded down, the bytes it covers are exactly those from there on that lie in the file and in
the requested range (always including the start itself), so it never extends past the end of the file.
Missing: an empty file and `--to-exc 0`, where the claim is false (`C17_*_violated`). -/
theorem C17_byte_range_partial (fromByte : Option Nat) (toByte : Option RangeEnd) (misalign : Bool)
    (len m : Nat) (hlen : 1 ≤ len) (hm : 1 ≤ m) (hexc : toByte ≠ some (.exc 0)) :
    let r := byteRange fromByte toByte misalign 0 (.len len) (some m)
    IsStart fromByte misalign m len r.seekTo ∧
    r.seekTo + r.requiredLen ≤ len ∧
    ∀ p, (r.seekTo ≤ p ∧ p < r.seekTo + r.requiredLen) ↔
      (r.seekTo ≤ p ∧ p < len ∧ (inRequested toByte p ∨ p = r.seekTo)) := by
  intro r
  have hs := align_isStart fromByte misalign m len hm
  have hlast : lastPossiblePos (.len len) = len - 1 := by simp [lastPossiblePos]; omega
  generalize hst : startPos fromByte misalign m (len - 1) = start at hs
  have hle : start ≤ len - 1 := by
    obtain ⟨f, hf, h⟩ := hs
    split at h <;> omega
  have hal : align misalign m (start + 0) = start := by
    obtain ⟨f, hf, h⟩ := hs
    by_cases hmis : misalign
    · simp [align, hmis]
    · simp only [hmis, Bool.false_eq_true, if_false] at h
      simp only [align, hmis, roundDown, Bool.false_eq_true, if_false, Nat.add_zero]
      exact Nat.div_mul_cancel h.2.2
  have hseek : r.seekTo = start := by
    show min (align misalign m (startPos fromByte misalign m (lastPossiblePos (.len len)) + 0)) _ = _
    rw [hlast, hst, hal]; omega
  have hreq : r.requiredLen = endInc toByte start (len - 1) - start + 1 := by
    show endInc toByte (startPos fromByte misalign m (lastPossiblePos (.len len))) _ - _ + 1 = _
    simp only [hlast, hst, Option.getD_some]
  rw [hseek, hreq]
  refine ⟨hs, ?_, ?_⟩
  · rcases toByte with _ | n | n <;> simp only [endInc] <;> omega
  · intro p
    rcases toByte with _ | n | n
    · simp [inRequested, endInc]; omega
    · simp [inRequested, endInc]; omega
    · have hn : n ≠ 0 := fun h => hexc (by rw [h])
      simp [inRequested, endInc, wrapPred, hn]; omega

/-- Bytes 256.. of a 1000-byte file up to and including 600, `FROM` 300 rounded down to 256. -/
example : byteRange (some 300) (some (.inc 600)) false 0 (.len 1000) (some 128) = ⟨345, 256⟩ := by decide

/-- `FROM` past the end is clamped to the last byte before rounding. -/
example : byteRange (some 5000) none false 0 (.len 1000) none = ⟨104, 896⟩ := by decide

/-- **C17.** Resuming after `soFar` bytes never skips a byte: the scan resumes at or before `start + soFar`, at most one
alignment step before it, and inside the file. -/
theorem C17_resume (fromByte : Option Nat) (toByte : Option RangeEnd) (misalign : Bool) (soFar len m : Nat)
    (hlen : 1 ≤ len) (hm : 1 ≤ m) :
    let r0 := byteRange fromByte toByte misalign 0 (.len len) (some m)
    let r := byteRange fromByte toByte misalign soFar (.len len) (some m)
    r.requiredLen = r0.requiredLen ∧ r.seekTo ≤ r0.seekTo + soFar ∧ r.seekTo < len ∧
    (r0.seekTo + soFar < len → r0.seekTo + soFar < r.seekTo + m) := by
  intro r0 r
  refine ⟨rfl, ?_⟩
  have hlast : lastPossiblePos (.len len) = len - 1 := by simp [lastPossiblePos]; omega
  have hs := align_isStart fromByte misalign m len hm
  generalize hst : startPos fromByte misalign m (len - 1) = start at hs
  have hle : start ≤ len - 1 := by
    obtain ⟨f, hf, h⟩ := hs
    split at h <;> omega
  have hseek : ∀ s, (byteRange fromByte toByte misalign s (.len len) (some m)).seekTo
      = min (align misalign m (start + s)) (len - 1) := by
    intro s
    show min (align misalign m (startPos fromByte misalign m (lastPossiblePos (.len len)) + s)) _ = _
    rw [hlast, hst]
  have hal : align misalign m (start + 0) = start := by
    obtain ⟨f, hf, h⟩ := hs
    by_cases hmis : misalign
    · simp [align, hmis]
    · simp only [hmis, Bool.false_eq_true, if_false] at h
      simp only [align, hmis, roundDown, Bool.false_eq_true, if_false, Nat.add_zero]
      exact Nat.div_mul_cancel h.2.2
  have h0 : r0.seekTo = start := by rw [hseek 0, hal]; omega
  have h1 : r.seekTo = min (align misalign m (start + soFar)) (len - 1) := hseek soFar
  have h2 : align misalign m (start + soFar) ≤ start + soFar ∧
      start + soFar < align misalign m (start + soFar) + m := by
    unfold align roundDown
    split
    · omega
    · have := Nat.div_add_mod (start + soFar) m
      have := Nat.mod_lt (start + soFar) hm
      have : (start + soFar) / m * m = m * ((start + soFar) / m) := Nat.mul_comm _ _
      omega
  rw [h0, h1]
  omega

/-- **C17 violated**: on an empty file the range is one byte long, past the end of the file. -/
theorem C17_empty_file_violated (misalign : Bool) :
    (byteRange none none misalign 0 (.len 0) none).seekTo +
      (byteRange none none misalign 0 (.len 0) none).requiredLen = 1 := by
  cases misalign <;> decide

/-- **C17 violated**: "up to but excluding byte 0" selects the whole file (`n - 1` wraps in a release build; a debug
build panics). -/
theorem C17_to_exc_zero_violated :
    byteRange none (some (.exc 0)) false 0 (.len 1000) none = ⟨1000, 0⟩ := by decide

/-! ### C18 -/

/-- **C18.** Printing bytes in lower or upper case and parsing the text gives the bytes back, for any byte string. -/
theorem C18_print_parse (bs : List Byte) :
    hexToBytes (lowerHex bs) = some (.ok bs) ∧ hexToBytes (upperHex bs) = some (.ok bs) := by
  constructor
  · unfold hexToBytes lowerHex
    rw [print_length, print_valid _ (fun n => (digit_lower n).2.1), hexPairs_print _ (fun n => (digit_lower n).1)]
    simp
  · unfold hexToBytes upperHex
    rw [print_length, print_valid _ (fun n => (digit_upper n).2.1), hexPairs_print _ (fun n => (digit_upper n).1)]
    simp

/-- **C18.** The printed text is two digits per byte, high digit first. -/
theorem C18_print_digits (bs : List Byte) (i : Nat) (b : Byte) (h : bs[i]? = some b) :
    (lowerHex bs)[2 * i]? = digits[b.toNat / 16]? ∧ (lowerHex bs)[2 * i + 1]? = digits[b.toNat % 16]? ∧
    (upperHex bs)[2 * i]? = upperDigits[b.toNat / 16]? ∧ (upperHex bs)[2 * i + 1]? = upperDigits[b.toNat % 16]? ∧
    (lowerHex bs).length = 2 * bs.length ∧ (upperHex bs).length = 2 * bs.length := by
  have key : ∀ a (bs : List Byte) i b, bs[i]? = some b →
      (bs.flatMap (hexByte a))[2 * i]? = some (hexDigit a (b.toNat / 16)) ∧
      (bs.flatMap (hexByte a))[2 * i + 1]? = some (hexDigit a (b.toNat % 16)) := by
    intro a bs
    induction bs with
    | nil => simp
    | cons c cs ih =>
      intro i b h
      rw [List.flatMap_cons]
      cases i with
      | zero => simp at h; subst h; simp [hexByte]
      | succ i =>
        have e1 : 2 * (i + 1) = (2 * i) + 2 := by omega
        have e2 : 2 * (i + 1) + 1 = (2 * i + 1) + 2 := by omega
        rw [e2, e1]
        simpa [hexByte] using ih i b (by simpa using h)
  have hb := b.toNat_lt
  refine ⟨?_, ?_, ?_, ?_, print_length _ _, print_length _ _⟩
  · rw [lowerHex, (key _ _ _ _ h).1]; exact (digit_lower ⟨b.toNat / 16, by omega⟩).2.2.symm
  · rw [lowerHex, (key _ _ _ _ h).2]; exact (digit_lower ⟨b.toNat % 16, by omega⟩).2.2.symm
  · rw [upperHex, (key _ _ _ _ h).1]; exact (digit_upper ⟨b.toNat / 16, by omega⟩).2.2.symm
  · rw [upperHex, (key _ _ _ _ h).2]; exact (digit_upper ⟨b.toNat % 16, by omega⟩).2.2.symm

/-- **C18.** Parsing never panics, and accepts exactly hexadecimal text of even length; odd lengths and foreign
characters are told apart. -/
theorem C18_accept_iff (s : List Byte) :
    ((∃ bs, hexToBytes s = some (.ok bs)) ↔ IsHex s) ∧
    (s.length % 2 ≠ 0 → hexToBytes s = some (.error .invalidLen)) ∧
    (s.length % 2 = 0 → ¬ IsHex s → hexToBytes s = some (.error .invalidHexString)) := by
  have hall : s.all isValidHexChar = true ↔ ∀ c ∈ s, c ∈ digits ∨ c ∈ upperDigits := by
    rw [List.all_eq_true]
    exact forall_congr' fun c => imp_congr_right fun _ => valid_iff c
  unfold hexToBytes IsHex
  rw [← hall]
  by_cases h1 : s.length % 2 = 0
  · by_cases h2 : s.all isValidHexChar = true
    · obtain ⟨bs, h3, _⟩ := hexPairs_valid s h1 h2
      simp [h1, h2, h3]
    · simp [h1, h2]
  · simp [h1]

/-- **C18.** What is parsed prints back as the same text up to letter case. -/
theorem C18_parse_print (s bs : List Byte) (h : hexToBytes s = some (.ok bs)) :
    lowerHex bs = s.map toLower := by
  unfold hexToBytes at h
  split at h
  · split at h
    · obtain ⟨bs', h3, h4⟩ := hexPairs_valid s ‹_› ‹_›
      rw [h3] at h
      simp at h
      rw [← h]; exact h4
    · simp at h
  · simp at h

/-- **C18.** A uid printed by one command is accepted by every other, and a uid option is accepted exactly when it is
12 hexadecimal digits. -/
theorem C18_uid (uid : Uid) (s : List Byte) :
    parseUid (upperHex uid.bytes) = some uid ∧ parseUid (lowerHex uid.bytes) = some uid ∧
    ((∃ u, parseUid s = some u) ↔ IsHex s ∧ s.length = 12) := by
  refine ⟨?_, ?_, ?_⟩
  · rw [parseUid, (C18_print_parse uid.bytes).2]; simp [uid.len]
  · rw [parseUid, (C18_print_parse uid.bytes).1]; simp [uid.len]
  · constructor
    · rintro ⟨u, hu⟩
      unfold parseUid at hu
      split at hu
      · rename_i x hx
        refine ⟨(C18_accept_iff s).1.1 ⟨x, hx⟩, ?_⟩
        split at hu
        · have h1 := congrArg List.length (C18_parse_print s x hx)
          have h2 : (lowerHex x).length = 2 * x.length := print_length _ _
          rw [List.length_map] at h1
          omega
        · simp at hu
      · simp at hu
    · rintro ⟨h1, h2⟩
      obtain ⟨x, hx⟩ := (C18_accept_iff s).1.2 h1
      have h3 := congrArg List.length (C18_parse_print s x hx)
      have h4 : (lowerHex x).length = 2 * x.length := print_length _ _
      rw [List.length_map] at h3
      have h5 : x.length = 6 := by omega
      exact ⟨⟨x, h5⟩, by unfold parseUid; rw [hx]; simp [h5]⟩

/-- `0aF0` and an odd-length text. -/
example : hexToBytes [0x30, 0x61, 0x46, 0x30] = some (.ok [0x0A, 0xF0]) ∧
    hexToBytes [0x30] = some (.error .invalidLen) ∧
    hexToBytes [0x30, 0x67] = some (.error .invalidHexString) := ⟨rfl, rfl, rfl⟩

/-! ### C45 -/

/-- **C45.** The accepted settings are exactly `1 ≤ data`, `1 ≤ parity`, `data + parity ≤ 256`. -/
theorem C45_accepted (data parity : Nat) :
    checkShards data parity = .ok () ↔ 1 ≤ data ∧ 1 ≤ parity ∧ data + parity ≤ 256 := by
  unfold checkShards
  split
  · simp; omega
  · split
    · simp; omega
    · split
      · simp; omega
      · simp; omega

/-- **C45.** And these are exactly the settings that survive being recorded (`RSD(data as u8)`, `RSP(parity as u8)`,
`src/encode_core.rs` pack_metadata) in a metadata payload and read back, among whatever other fields are recorded. -/
theorem C45_survive (data parity n : Nat) (others : List Metadata) (bs : List Byte)
    (hst : ∀ m ∈ others, m.Storable) (hno : ∀ m ∈ others, m.id ≠ .rsd ∧ m.id ≠ .rsp)
    (hw : metasToBytes (others ++ [.rsd (UInt8.ofNat data), .rsp (UInt8.ofNat parity)]) n = some bs) :
    (firstRsd (metasFromBytes bs) = some data ∧ firstRsp (metasFromBytes bs) = some parity) ↔
      checkShards data parity = .ok () := by
  have hfd : firstRsd (others ++ [.rsd (UInt8.ofNat data), .rsp (UInt8.ofNat parity)]) = some (data % 256) := by
    have : firstRsd others = none := by
      unfold firstRsd
      rw [List.findSome?_eq_none_iff]
      intro m hm
      have := (hno m hm).1
      cases m <;> simp [Metadata.id] at this ⊢
    unfold firstRsd at this ⊢
    rw [List.findSome?_append, this]; simp
  have hfp : firstRsp (others ++ [.rsd (UInt8.ofNat data), .rsp (UInt8.ofNat parity)]) = some (parity % 256) := by
    have : firstRsp others = none := by
      unfold firstRsp
      rw [List.findSome?_eq_none_iff]
      intro m hm
      have := (hno m hm).2
      cases m <;> simp [Metadata.id] at this ⊢
    unfold firstRsp at this ⊢
    rw [List.findSome?_append, this]; simp
  rw [C45_accepted]
  constructor
  · rintro ⟨h1, h2⟩
    obtain ⟨h3, h4, _⟩ := metasFromBytes_sane bs
    refine ⟨?_, ?_, h4 _ _ h1 h2⟩
    · unfold firstRsd at h1
      obtain ⟨m, hm, hm'⟩ := List.exists_of_findSome?_eq_some h1
      have := h3 m hm
      cases m <;> simp [Metadata.Storable] at this hm'
      omega
    · unfold firstRsp at h2
      obtain ⟨m, hm, hm'⟩ := List.exists_of_findSome?_eq_some h2
      have := h3 m hm
      cases m <;> simp [Metadata.Storable] at this hm'
      omega
  · rintro ⟨h1, h2, h3⟩
    have hrt := metas_roundtrip (ms := others ++ [.rsd (UInt8.ofNat data), .rsp (UInt8.ofNat parity)]) (n := n)
      (bs := bs) ?_ ?_ hw
    · rw [hrt, hfd, hfp]
      constructor <;> congr 1 <;> omega
    · intro m hm
      rcases List.mem_append.1 hm with hm | hm
      · exact hst m hm
      · simp at hm
        rcases hm with rfl | rfl <;> simp [Metadata.Storable] <;> omega
    · intro d p hd hp
      rw [hfd] at hd; rw [hfp] at hp
      simp at hd hp
      omega

/-- Boundary: 255 + 1 accepted, 255 + 2 not. -/
example : checkShards 255 1 = .ok () ∧ checkShards 255 2 = .error .tooMany ∧ checkShards 1 0 = .error .tooFewParity :=
  ⟨rfl, rfl, rfl⟩

example : ∃ bs, metasToBytes ([.fnm "x"] ++ [.rsd (UInt8.ofNat 10), .rsp (UInt8.ofNat 2)]) 112 = some bs := ⟨_, rfl⟩

/-! ### C46 -/

/-- **C46.** Splitting a non-negative number of seconds is exact with minutes and seconds below 60; for a negative one
every component is non-positive and the split is still exact. -/
theorem C46_hms (t : Int) :
    let r := secondsToHms t
    r.1 * 3600 + r.2.1 * 60 + r.2.2 = t ∧
    (0 ≤ t → 0 ≤ r.1 ∧ 0 ≤ r.2.1 ∧ r.2.1 < 60 ∧ 0 ≤ r.2.2 ∧ r.2.2 < 60) ∧
    (t ≤ 0 → r.1 ≤ 0 ∧ -60 < r.2.1 ∧ r.2.1 ≤ 0 ∧ -60 < r.2.2 ∧ r.2.2 ≤ 0) := by
  have pos : ∀ t : Int, 0 ≤ t → 0 ≤ (secondsToHms t).1 ∧ 0 ≤ (secondsToHms t).2.1 ∧ (secondsToHms t).2.1 < 60 ∧
      0 ≤ (secondsToHms t).2.2 ∧ (secondsToHms t).2.2 < 60 := by
    intro t ht
    unfold secondsToHms
    simp only
    rw [Int.tdiv_eq_ediv_of_nonneg ht]
    rw [Int.tdiv_eq_ediv_of_nonneg (by omega)]
    omega
  have neg : ∀ t : Int, secondsToHms (-t) =
      (-(secondsToHms t).1, -(secondsToHms t).2.1, -(secondsToHms t).2.2) := by
    intro t
    unfold secondsToHms
    simp only
    rw [Int.neg_tdiv]
    have : (-t - -t.tdiv (60 * 60) * 60 * 60) = -(t - t.tdiv (60 * 60) * 60 * 60) := by omega
    rw [this, Int.neg_tdiv]
    ext <;> simp <;> omega
  intro r
  refine ⟨?_, pos t, ?_⟩
  · show (secondsToHms t).1 * 3600 + (secondsToHms t).2.1 * 60 + (secondsToHms t).2.2 = t
    unfold secondsToHms
    simp only
    omega
  · intro ht
    have h1 := pos (-t) (by omega)
    rw [neg] at h1
    simp only at h1
    simp only [r]
    omega

example : secondsToHms 86399 = (23, 59, 59) ∧ secondsToHms 3600 = (1, 0, 0) ∧ secondsToHms (-61) = (0, -1, -1) := by
  decide

/-! ### C47 -/

/-- **C47.** Rounding down gives the greatest multiple that is not larger. -/
theorem C47_round_down (val m : Nat) (hm : 0 < m) :
    m ∣ roundDown val m ∧ roundDown val m ≤ val ∧ ∀ k, m ∣ k → k ≤ val → k ≤ roundDown val m := by
  unfold roundDown
  refine ⟨Nat.dvd_mul_left _ _, Nat.div_mul_le_self _ _, ?_⟩
  rintro _ ⟨q, rfl⟩ h
  rw [Nat.mul_comm] at h ⊢
  exact Nat.mul_le_mul_right _ ((Nat.le_div_iff_mul_le hm).2 h)

/-- **C47.** Rounding up gives the least multiple that is not smaller. -/
theorem C47_round_up (val m : Nat) (hm : 0 < m) :
    m ∣ roundUp val m ∧ val ≤ roundUp val m ∧ ∀ k, m ∣ k → val ≤ k → roundUp val m ≤ k := by
  unfold roundUp
  have h1 := Nat.div_add_mod (val + (m - 1)) m
  have h2 := Nat.mod_lt (val + (m - 1)) hm
  rw [Nat.mul_comm] at h1
  refine ⟨Nat.dvd_mul_left _ _, by omega, ?_⟩
  rintro _ ⟨q, rfl⟩ h
  rw [Nat.mul_comm m q] at h ⊢
  refine Nat.mul_le_mul_right _ ?_
  rw [← Nat.lt_succ_iff, Nat.div_lt_iff_lt_mul hm, Nat.succ_mul]
  omega

example : roundDown 300 128 = 256 ∧ roundDown 256 128 = 256 ∧ roundUp 257 128 = 384 ∧ roundUp 256 128 = 256 ∧ roundUp 0 128 = 0 := by
  decide

end Verif
