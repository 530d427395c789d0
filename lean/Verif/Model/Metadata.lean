import Verif.Model.Multihash
/-!
# Model of `src/sbx_block/metadata.rs`

Buffers written through `&mut [u8]` become returned byte lists.  Rust `String`s are Lean `String`s
(both are exactly the valid UTF-8 byte strings).
-/

namespace Verif

/-- `enum Metadata`, `src/sbx_block/metadata.rs` 9-19. -/
inductive Metadata
  | fnm (s : String)
  | snm (s : String)
  | fsz (n : UInt64)
  | fdt (t : Int64)
  | sdt (t : Int64)
  | hsh (h : HashBytes)
  | rsd (n : UInt8)
  | rsp (n : UInt8)
  deriving DecidableEq

/-- `enum UncheckedMetadata`, `src/sbx_block/metadata.rs` 50-59. -/
inductive Unchecked
  | fnm (s : List Byte)
  | snm (s : List Byte)
  | fsz (n : UInt64)
  | fdt (t : Int64)
  | sdt (t : Int64)
  | hsh (h : HashBytes)
  | rsd (n : UInt8)
  | rsp (n : UInt8)
  deriving DecidableEq

/-- `enum MetadataID`, `src/sbx_block/metadata.rs` 61-71. -/
inductive MetaId
  | fnm | snm | fsz | fdt | sdt | hsh | rsd | rsp
  deriving DecidableEq, Repr

/-- Bytes of a Rust string (`as_bytes`). -/
def strBytes (s : String) : List Byte := s.toByteArray.data.toList

/-- `String::from_utf8`, used at `src/sbx_block/metadata.rs` 306 and 310. -/
def fromUtf8? (bs : List Byte) : Option String := String.fromUTF8? ⟨bs.toArray⟩

/-- Two's complement value of 8 big-endian bytes (`be_i64`). -/
def i64OfNat (n : Nat) : Int64 := Int64.ofBitVec (BitVec.ofNat 64 n)

/-- Unsigned value of an `i64` bit pattern (`x.to_be()` of an `i64`). -/
def i64ToNat (t : Int64) : Nat := t.toBitVec.toNat

namespace MetaId

/-- `id_to_bytes`, `src/sbx_block/metadata.rs` 90-102 (ASCII codes of the three letters). -/
def bytes : MetaId → List Byte
  | fnm => [0x46, 0x4E, 0x4D]
  | snm => [0x53, 0x4E, 0x4D]
  | fsz => [0x46, 0x53, 0x5A]
  | fdt => [0x46, 0x44, 0x54]
  | sdt => [0x53, 0x44, 0x54]
  | hsh => [0x48, 0x53, 0x48]
  | rsd => [0x52, 0x53, 0x44]
  | rsp => [0x52, 0x53, 0x50]

end MetaId

namespace Metadata

/-- `meta_to_id`, `src/sbx_block/metadata.rs` 118-129. -/
def id : Metadata → MetaId
  | fnm _ => .fnm | snm _ => .snm | fsz _ => .fsz | fdt _ => .fdt
  | sdt _ => .sdt | hsh _ => .hsh | rsd _ => .rsd | rsp _ => .rsp

/-- `single_info_size`, `src/sbx_block/metadata.rs` 75-84. -/
def infoSize : Metadata → Nat
  | fnm s | snm s => (strBytes s).length
  | fsz _ | fdt _ | sdt _ => 8
  | hsh h => h.ty.totalLen
  | rsd _ | rsp _ => 1

/-- `single_meta_size`, `src/sbx_block/metadata.rs` 73 and 86-88. -/
def size (m : Metadata) : Nat := 4 + m.infoSize

/-- The info bytes written by `single_to_bytes`, `src/sbx_block/metadata.rs` 153-171. -/
def infoBytes : Metadata → List Byte
  | fnm s | snm s => strBytes s
  | fsz n => beBytes 8 n.toNat
  | fdt t | sdt t => beBytes 8 (i64ToNat t)
  | hsh h => h.toBytes
  | rsd n | rsp n => [n]

/-- Bytes written by `single_to_bytes`, `src/sbx_block/metadata.rs` 141-171.  The length byte is
`info_size as u8`: it silently wraps for contents longer than 255 bytes (line 148). -/
def singleBytes (m : Metadata) : List Byte :=
  m.id.bytes ++ [UInt8.ofNat m.infoSize] ++ m.infoBytes

/-- `single_to_bytes`, `src/sbx_block/metadata.rs` 131-174: `none` is `Err(())`. -/
def singleToBytes (m : Metadata) (bufLen : Nat) : Option (List Byte) :=
  if bufLen < m.size then none else some m.singleBytes

end Metadata

/-- `to_bytes`, `src/sbx_block/metadata.rs` 176-195, on a buffer of `bufLen` bytes: `none` is
`Err(TooMuchMetadata)`, `some bs` the final buffer contents (all `bufLen` bytes are overwritten). -/
def metasToBytes : List Metadata → Nat → Option (List Byte)
  | [], bufLen => some (List.replicate bufLen 0x1A)
  | m :: ms, bufLen =>
    match m.singleToBytes bufLen with
    | none => none
    | some bs => (metasToBytes ms (bufLen - bs.length)).map (bs ++ ·)

/-! ### Parsers, `src/sbx_block/metadata.rs` 228-295 -/

/-- `make_meta_parser!(.. => num, n_must_be, ..)`, lines 239-252: tag, length byte equal to `w`, then `w` bytes. -/
def numP (id : MetaId) (w : Nat) (k : List Byte → Unchecked) (input : List Byte) :
    Option (Unchecked × List Byte) :=
  match tag id.bytes input with
  | none => none
  | some [] => none
  | some (n :: rest) =>
    if n.toNat ≥ 1 ∧ n.toNat = w ∧ w ≤ rest.length then some (k (rest.take w), rest.drop w) else none

/-- `make_meta_parser!(.. => str)`, lines 253-265: tag, length byte `n ≥ 1`, then `n` bytes. -/
def strP (id : MetaId) (k : List Byte → Unchecked) (input : List Byte) : Option (Unchecked × List Byte) :=
  match tag id.bytes input with
  | none => none
  | some [] => none
  | some (n :: rest) =>
    if n.toNat ≥ 1 ∧ n.toNat ≤ rest.length then some (k (rest.take n.toNat), rest.drop n.toNat) else none

/-- `hsh_p`, lines 276-279. -/
def hshP (input : List Byte) : Option (Unchecked × List Byte) :=
  match tag MetaId.hsh.bytes input with
  | none => none
  | some rest => (multihashP rest).map fun r => (.hsh r.1, r.2)

/-- `be_u8` result as a byte. -/
def headByte : List Byte → Byte
  | [] => 0
  | b :: _ => b

/-- The alternatives of `meta_p`, lines 282-293, in order; the number parsers are those of lines 268-274. -/
def metaAltP (input : List Byte) : Option (Unchecked × List Byte) :=
  strP .fnm .fnm input <|>
  strP .snm .snm input <|>
  numP .fsz 8 (fun b => .fsz (UInt64.ofNat (beNat b))) input <|>
  numP .fdt 8 (fun b => .fdt (i64OfNat (beNat b))) input <|>
  numP .sdt 8 (fun b => .sdt (i64OfNat (beNat b))) input <|>
  hshP input <|>
  numP .rsd 1 (fun b => .rsd (headByte b)) input <|>
  numP .rsp 1 (fun b => .rsp (headByte b)) input

/-- `many0!`, lines 281-294: parse until the first failure.  Every successful parse consumes at least one byte, so
`input.length` iterations always suffice (`metaManyP_fuel`). -/
def metaManyP : Nat → List Byte → List Unchecked
  | 0, _ => []
  | fuel + 1, input =>
    match metaAltP input with
    | none => []
    | some (m, rest) => m :: metaManyP fuel rest

/-- `parsers::meta_p`. -/
def metaP (input : List Byte) : List Unchecked := metaManyP input.length input

/-- Loop state of `filter_invalid_metadata`: `(res, rsd, rsp)`, lines 299-302. -/
structure FilterState where
  res : List Metadata
  rsd : Option Nat
  rsp : Option Nat

/-- Loop body of `filter_invalid_metadata`, lines 304-346. -/
def filterStep (st : FilterState) : Unchecked → FilterState
  | .fnm x => match fromUtf8? x with
    | some s => { st with res := st.res ++ [.fnm s] }
    | none => st
  | .snm x => match fromUtf8? x with
    | some s => { st with res := st.res ++ [.snm s] }
    | none => st
  | .fsz n => { st with res := st.res ++ [.fsz n] }
  | .fdt t => { st with res := st.res ++ [.fdt t] }
  | .sdt t => { st with res := st.res ++ [.sdt t] }
  | .hsh h => { st with res := st.res ++ [.hsh h] }
  | .rsd d =>
    if 1 ≤ d.toNat then
      { st with rsd := some (st.rsd.getD d.toNat), res := st.res ++ [.rsd d] }
    else st
  | .rsp p =>
    if 1 ≤ p.toNat then
      { st with rsp := some (st.rsp.getD p.toNat), res := st.res ++ [.rsp p] }
    else st

/-- `filter_invalid_metadata`, lines 297-359. -/
def filterInvalid (input : List Unchecked) : List Metadata :=
  let st := input.foldl filterStep ⟨[], none, none⟩
  match st.rsd, st.rsp with
  | some d, some p =>
    if d + p > 256 then st.res.filter (fun m => m.id != .rsd && m.id != .rsp) else st.res
  | _, _ => st.res

/-- `from_bytes`, lines 361-366 (`meta_p` never fails). -/
def metasFromBytes (bytes : List Byte) : List Metadata := filterInvalid (metaP bytes)

/-- `get_meta_ref_by_id`, lines 368-375: first field with that id. -/
def getMeta (metas : List Metadata) (id : MetaId) : Option Metadata := metas.find? (fun m => m.id = id)

end Verif
