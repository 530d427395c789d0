import Verif.Lemmas.Block
/-!
# C01, C02: the block checksum
-/

namespace Verif
open CrcSpec Format

/-- **C01.** The table-driven checksum is the bit-serial CRC-16/CCITT of `Verif/Spec/Crc.lean`, for every start value
and every byte string. -/
theorem C01_crc_is_ccitt (start : BitVec 16) (bs : List Byte) : Crc.crcCcitt start bs = crc16 start bs :=
  Crc.crcCcitt_eq start bs

/-- **C01.** Feeding a string in pieces gives the same checksum as feeding it at once (how blocks are checksummed). -/
theorem C01_crc_incremental (start : BitVec 16) (a b : List Byte) :
    Crc.crcCcitt (Crc.crcCcitt start a) b = crc16 start (a ++ b) := by
  rw [← Crc.crcCcitt_append, Crc.crcCcitt_eq]

/-- The published check value of CRC-16/XMODEM (start 0) on "123456789" is 0x31C3, with start 0xFFFF it is 0x29B1. -/
example : crc16 0 [0x31, 0x32, 0x33, 0x34, 0x35, 0x36, 0x37, 0x38, 0x39] = 0x31C3#16 ∧
    crc16 0xFFFF#16 [0x31, 0x32, 0x33, 0x34, 0x35, 0x36, 0x37, 0x38, 0x39] = 0x29B1#16 := by decide +kernel

/-- What a block reader sees of a buffer: `none` if rejected. -/
private theorem read_none_of_checksum {v : Version} {crc : BitVec 16} {uid : Uid} {seq : UInt32} {payload : List Byte}
    (hl : payload.length = blockLen v - 16) (hc : crc ≠ checksum v uid.bytes seq payload) (b : Block)
    (hp : Option (Header → Bool)) : b.read? (headerBytes v crc uid.bytes seq ++ payload) hp = none := by
  have h16 : 16 ≤ blockLen v := by cases v <;> decide
  by_contra hne
  obtain ⟨b', hb'⟩ := Option.ne_none_iff_exists'.1 hne
  rw [Block.read?_iff] at hb'
  obtain ⟨v', uid', seq', payload', rest, ⟨hbytes, hlen'⟩, _, _, _⟩ := hb'
  have hh := headerBytes_length v crc uid seq
  have hh' := headerBytes_length v' (checksum v' uid'.bytes seq' payload') uid' seq'
  have h16' : 16 ≤ blockLen v' := by cases v' <;> decide
  have e16 : headerBytes v crc uid.bytes seq = headerBytes v' (checksum v' uid'.bytes seq' payload') uid'.bytes seq' := by
    have := congrArg (List.take 16) hbytes
    rw [List.take_take, Nat.min_eq_left h16', List.take_append_of_le_length (by omega),
      List.take_of_length_le (by omega), blockBytes, List.take_append_of_le_length (by omega),
      List.take_of_length_le (by omega)] at this
    exact this
  have := (Header.fromBytes_iff (headerBytes v crc uid.bytes seq) ⟨v, crc, uid, seq⟩).2 rfl
  have h2 := (Header.fromBytes_iff (headerBytes v crc uid.bytes seq)
    ⟨v', checksum v' uid'.bytes seq' payload', uid', seq'⟩).2 e16
  rw [this] at h2
  simp only [Option.some.injEq, Header.mk.injEq] at h2
  obtain ⟨rfl, rfl, rfl, rfl⟩ := h2
  apply hc
  congr 1
  have := congrArg (List.drop 16) hbytes
  rw [List.take_of_length_le (by simp [hh, hl]; omega), blockBytes_drop, headerBytes_drop] at this
  exact this.symm

/-- **C02.** A valid block whose uid / sequence number / payload bytes are altered by a non-empty error whose altered
bits lie within 16 consecutive bits is rejected by every reader (whatever its current state and header predicate). -/
theorem C02_burst_rejected (v : Version) (uid uid' : Uid) (seq seq' : UInt32) (payload payload' : List Byte)
    (hl : payload.length = blockLen v - 16) (hl' : payload'.length = blockLen v - 16)
    (hd : DifferInBurst 16 (uid.bytes ++ be32 seq ++ payload) (uid'.bytes ++ be32 seq' ++ payload'))
    (b : Block) (hp : Option (Header → Bool)) :
    b.read? (headerBytes v (checksum v uid.bytes seq payload) uid'.bytes seq' ++ payload') hp = none := by
  apply read_none_of_checksum hl'
  exact Crc.crc16_burst_ne hd _

/-- **C02.** A valid block with only its stored checksum altered is rejected. -/
theorem C02_checksum_field_rejected (v : Version) (uid : Uid) (seq : UInt32) (payload : List Byte) (crc : BitVec 16)
    (hl : payload.length = blockLen v - 16) (hc : crc ≠ checksum v uid.bytes seq payload)
    (b : Block) (hp : Option (Header → Bool)) :
    b.read? (headerBytes v crc uid.bytes seq ++ payload) hp = none :=
  read_none_of_checksum hl hc b hp

/-- **C02.** A valid block whose version byte is changed to another version of the same block size is rejected. -/
theorem C02_version_byte_rejected (v v' : Version) (uid : Uid) (seq : UInt32) (payload : List Byte)
    (hl : payload.length = blockLen v - 16) (hv : v ≠ v') (hsz : blockLen v = blockLen v')
    (b : Block) (hp : Option (Header → Bool)) :
    b.read? (headerBytes v' (checksum v uid.bytes seq payload) uid.bytes seq ++ payload) hp = none := by
  apply read_none_of_checksum (hsz ▸ hl)
  apply Crc.crc16_start_ne
  intro h
  apply hv
  revert h
  cases v <;> cases v' <;> decide

/-- Non-vacuity: a version 2 block whose uid has bits 3..12 flipped. -/
example : DifferInBurst 16 ([0x00, 0x00, 1, 2, 3, 4] ++ be32 7 ++ List.replicate 112 0xAA)
    ([0x1F, 0xF8, 1, 2, 3, 4] ++ be32 7 ++ List.replicate 112 0xAA) :=
  ⟨[], bits [0, 0], bits [0x1F, 0xF8], bits ([1, 2, 3, 4] ++ be32 7 ++ List.replicate 112 0xAA),
    by simp [bits], by simp [bits], by decide, by decide, by decide⟩

end Verif
