import Verif.Model.Specs
import Verif.Model.Crc
/-!
# Model of `src/sbx_block/header.rs` and `src/sbx_block/crc.rs`
-/

namespace Verif

/-- `[u8; SBX_FILE_UID_LEN]`, `src/sbx_specs.rs` 12 and 35. -/
structure Uid where
  bytes : List Byte
  len : bytes.length = 6
  deriving DecidableEq

/-- `struct Header`, `src/sbx_block/header.rs` 8-14. -/
structure Header where
  version : Version
  crc : BitVec 16
  uid : Uid
  seq : UInt32
  deriving DecidableEq

/-- `enum BlockType`, `src/sbx_block/mod.rs` 82-86. -/
inductive BlockType
  | data | metadata
  deriving DecidableEq, Repr

/-- `SBX_SIGNATURE = b"SBx"`, `src/sbx_specs.rs` 14 and 36. -/
def signature : List Byte := [0x53, 0x42, 0x78]

namespace Header

/-- `Header::new`, lines 17-24. -/
def new (v : Version) (uid : Uid) (seq : UInt32) : Header := ⟨v, 0, uid, seq⟩

/-- `Header::to_bytes`, lines 26-54: the 16 bytes written. -/
def toBytes (h : Header) : List Byte :=
  signature ++ [UInt8.ofNat h.version.num] ++ beBytes 2 h.crc.toNat ++ h.uid.bytes ++ beBytes 4 h.seq.toNat

/-- `parsers::ver_p`, lines 92-102. -/
def verP : List Byte → Option (Version × List Byte)
  | [] => none
  | b :: rest =>
    if b = 1 then some (.v1, rest)
    else if b = 2 then some (.v2, rest)
    else if b = 3 then some (.v3, rest)
    else if b = 17 then some (.v17, rest)
    else if b = 18 then some (.v18, rest)
    else if b = 19 then some (.v19, rest)
    else none

/-- `parsers::header_p`, lines 90 and 104-124. -/
def headerP (input : List Byte) : Option Header :=
  if signature.isPrefixOf input then
    match verP (input.drop 3) with
    | none => none
    | some (v, rest) =>
      if h : 12 ≤ rest.length then
        some ⟨v, BitVec.ofNat 16 (beNat (rest.take 2)),
          ⟨(rest.drop 2).take 6, by simp; omega⟩,
          UInt32.ofNat (beNat ((rest.drop 8).take 4))⟩
      else none
  else none

/-- `Header::from_bytes`, lines 56-68: `none` is `Err`. -/
def fromBytes (buf : List Byte) : Option Header :=
  if buf.length ≠ 16 then none else headerP buf

/-- `Header::calc_crc`, lines 70-74, with `sbx_crc_ccitt`, `src/sbx_block/crc.rs` 6-8. -/
def calcCrc (h : Header) : BitVec 16 :=
  Crc.crcCcitt (Crc.crcCcitt (BitVec.ofNat 16 h.version.num) h.uid.bytes) (beBytes 4 h.seq.toNat)

/-- `Header::header_type`, lines 76-82. -/
def type (h : Header) : BlockType := if h.seq.toNat < 1 then .metadata else .data

end Header
end Verif
