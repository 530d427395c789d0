import Verif.Model.Block
import Verif.Spec.Crc
/-!
# Specification of the on-disk block format (SBX_FORMAT.md)

A second, independent description of one block as a byte string: offsets written out, checksum as the textbook
bit-serial CRC of `Verif/Spec/Crc.lean`.  The theorems about `Header::to_bytes`, `Block::sync_to_buffer` and
`Block::sync_from_buffer` are stated against it.
-/

namespace Verif.Format

/-- Byte at offset 3 of every block of that version. -/
def versionByte : Version → Byte
  | .v1 => 0x01 | .v2 => 0x02 | .v3 => 0x03 | .v17 => 0x11 | .v18 => 0x12 | .v19 => 0x13

/-- Block length in bytes. -/
def blockLen : Version → Nat
  | .v1 | .v17 => 512
  | .v2 | .v18 => 128
  | .v3 | .v19 => 4096

/-- Big-endian encoding of a 16-bit word. -/
def be16 (x : BitVec 16) : List Byte := [⟨x.extractLsb' 8 8⟩, ⟨x.extractLsb' 0 8⟩]

/-- Big-endian encoding of a 32-bit word. -/
def be32 (x : UInt32) : List Byte :=
  [⟨x.toBitVec.extractLsb' 24 8⟩, ⟨x.toBitVec.extractLsb' 16 8⟩, ⟨x.toBitVec.extractLsb' 8 8⟩,
   ⟨x.toBitVec.extractLsb' 0 8⟩]

/-- Checksum stored in a block: CRC-16/CCITT, started at the version number, over everything after the
checksum field, i.e. uid, sequence number, payload. -/
def checksum (v : Version) (uid : List Byte) (seq : UInt32) (payload : List Byte) : BitVec 16 :=
  CrcSpec.crc16 ((versionByte v).toBitVec.setWidth 16) (uid ++ be32 seq ++ payload)

/-- The 16 header bytes: `SBx`, version, checksum, uid, sequence number. -/
def headerBytes (v : Version) (crc : BitVec 16) (uid : List Byte) (seq : UInt32) : List Byte :=
  [0x53, 0x42, 0x78, versionByte v] ++ be16 crc ++ uid ++ be32 seq

/-- A complete block. -/
def blockBytes (v : Version) (uid : List Byte) (seq : UInt32) (payload : List Byte) : List Byte :=
  headerBytes v (checksum v uid seq payload) uid seq ++ payload

/-- `buf` is a valid block of version `v` with that uid, sequence number and payload. -/
structure IsBlock (buf : List Byte) (v : Version) (uid : Uid) (seq : UInt32) (payload : List Byte) : Prop where
  bytes : buf = blockBytes v uid.bytes seq payload
  len : payload.length = blockLen v - 16

/-- The block a reader obtains from a valid block buffer. -/
def _root_.Verif.blockOf (v : Version) (uid : Uid) (seq : UInt32) (payload : List Byte) : Block :=
  ⟨⟨v, checksum v uid.bytes seq payload, uid, seq⟩,
    if seq = 0 then .metadata (metasFromBytes payload) else .data⟩

end Verif.Format
