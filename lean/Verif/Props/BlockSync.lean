import Verif.Props.Block
/-!
# C08: the checksum option when writing a block
-/

namespace Verif
open Format

/-- **C08.** A metadata block gets a fresh checksum even if the caller asks to keep the one recorded: the option makes no difference, so what
`C08_metadata_roundtrip` says holds for every value of it. -/
theorem C08_option_metadata (v : Version) (uid : Uid) (ms : List Metadata) (buf : List Byte) (crc : BitVec 16) (upd : Option Bool) :
    Block.syncTo ⟨⟨v, crc, uid, 0⟩, .metadata ms⟩ upd buf = Block.syncTo ⟨⟨v, crc, uid, 0⟩, .metadata ms⟩ none buf := rfl

/-- **C08.** A data block gets a fresh checksum unless the caller asks to keep the one recorded; then this one is written, and only the 16
bytes of the header change. -/
theorem C08_option_data (v : Version) (uid : Uid) (seq : UInt32) (buf : List Byte) (crc : BitVec 16) (hl : blockLen v ≤ buf.length) :
    Block.syncTo ⟨⟨v, crc, uid, seq⟩, .data⟩ (some true) buf = Block.syncTo ⟨⟨v, crc, uid, seq⟩, .data⟩ none buf ∧
    Block.syncTo ⟨⟨v, crc, uid, seq⟩, .data⟩ (some false) buf =
      .ok (⟨⟨v, crc, uid, seq⟩, .data⟩, headerBytes v crc uid.bytes seq ++ buf.drop 16) := by
  refine ⟨rfl, ?_⟩
  have hsz : Block.size ⟨⟨v, crc, uid, seq⟩, .data⟩ = v.blockSize := rfl
  rw [blockLen_eq] at hl
  unfold Block.syncTo
  rw [hsz, if_neg (by omega)]
  simp only [Block.blockType, Option.getD_some, Bool.false_eq_true, if_false]
  rw [Header.toBytes_eq]

/-- **C08.** So a metadata block written with the option to keep the checksum is read back all the same. -/
theorem C08_option_roundtrip (v : Version) (uid : Uid) (ms : List Metadata) (buf : List Byte) (crc : BitVec 16) (upd : Option Bool)
    (hl : blockLen v ≤ buf.length) (hst : ∀ m ∈ ms, m.Storable) (hsh : ShardsOk ms) (hfit : metaSpace ms ≤ blockLen v - 16) :
    ∃ b' out, Block.syncTo ⟨⟨v, crc, uid, 0⟩, .metadata ms⟩ upd buf = .ok (b', out) ∧
      ∀ reader : Block, ∃ r, reader.syncFrom out none none = (r, none) ∧
        r.header.version = v ∧ r.header.uid = uid ∧ r.header.seq = 0 ∧ r.data = .metadata ms := by
  obtain ⟨b', out, h1, -, -, h2⟩ := C08_metadata_roundtrip v uid ms buf crc hl hst hsh hfit
  exact ⟨b', out, by rw [C08_option_metadata]; exact h1, h2⟩

/-- Instances: a version 17 block of 512 bytes and a wrong checksum. -/
example : (∃ b' out, Block.syncTo ⟨⟨.v17, 0xBEEF, ⟨[1, 2, 3, 4, 5, 6], rfl⟩, 0⟩, .metadata [.fnm "x", .rsd 10, .rsp 2]⟩ (some false)
      (List.replicate 512 0) = .ok (b', out) ∧ ∀ reader : Block, ∃ r, reader.syncFrom out none none = (r, none) ∧
        r.data = .metadata [.fnm "x", .rsd 10, .rsp 2]) ∧
    Block.syncTo ⟨⟨.v17, 0xBEEF, ⟨[1, 2, 3, 4, 5, 6], rfl⟩, 9⟩, .data⟩ (some false) (List.replicate 512 0) =
      .ok (⟨⟨.v17, 0xBEEF, ⟨[1, 2, 3, 4, 5, 6], rfl⟩, 9⟩, .data⟩, headerBytes .v17 0xBEEF [1, 2, 3, 4, 5, 6] 9 ++ (List.replicate 512 0).drop 16) := by
  constructor
  · obtain ⟨b', out, h1, h2⟩ := C08_option_roundtrip .v17 ⟨[1, 2, 3, 4, 5, 6], rfl⟩ [.fnm "x", .rsd 10, .rsp 2] (List.replicate 512 0) 0xBEEF
      (some false) (by rw [List.length_replicate]; decide) (by
        intro m hm
        simp only [List.mem_cons, List.not_mem_nil, or_false] at hm
        rcases hm with rfl | rfl | rfl
        · exact ⟨by decide +kernel, by decide +kernel⟩
        · exact (by decide : 1 ≤ (10 : UInt8).toNat)
        · exact (by decide : 1 ≤ (2 : UInt8).toNat)) (by
        intro d p hd hp
        cases hd
        cases hp
        decide) (by decide +kernel)
    refine ⟨b', out, h1, fun reader => ?_⟩
    obtain ⟨r, a, -, -, -, b⟩ := h2 reader
    exact ⟨r, a, b⟩
  · exact (C08_option_data .v17 ⟨[1, 2, 3, 4, 5, 6], rfl⟩ 9 (List.replicate 512 0) 0xBEEF (by rw [List.length_replicate]; decide)).2

end Verif
