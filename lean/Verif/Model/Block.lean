import Verif.Model.Header
import Verif.Model.Metadata
/-!
# Model of `Block`, `src/sbx_block/mod.rs` 82-216 and 545-860
-/

namespace Verif

/-- `enum Data`, `src/sbx_block/mod.rs` 99-103. -/
inductive BlockData
  | data
  | metadata (ms : List Metadata)
  deriving DecidableEq

/-- `struct Block`, lines 105-109. -/
structure Block where
  header : Header
  data : BlockData
  deriving DecidableEq

/-- `enum Error`, lines 88-97, plus `panic` for the `check_buffer!` panic (lines 144-152) and out-of-range slices. -/
inductive BlockErr
  | incorrectBlockType | tooMuchMetadata | invalidCrc | seqNumOverflow | parseError | failedPred | panic
  deriving DecidableEq, Repr

namespace Block

/-- `Block::new`, lines 546-563. -/
def new (v : Version) (uid : Uid) : BlockType → Block
  | .data => ⟨Header.new v uid 1, .data⟩
  | .metadata => ⟨Header.new v uid 0, .metadata []⟩

/-- The all-zero uid. -/
def zeroUid : Uid := ⟨[0, 0, 0, 0, 0, 0], rfl⟩

/-- `Block::dummy`, lines 565-572. -/
def dummy : Block := ⟨Header.new .v1 zeroUid 1, .data⟩

/-- `Block::block_type`, lines 623-628. -/
def blockType (b : Block) : BlockType :=
  match b.data with
  | .data => .data
  | .metadata _ => .metadata

/-- `switch_block_type`, lines 781-789. -/
def switchType (b : Block) : Block :=
  if b.blockType = .metadata then { b with data := .data } else { b with data := .metadata [] }

/-- `switch_block_type_to_match_header`, lines 791-795. -/
def matchHeader (b : Block) : Block :=
  if b.header.type ≠ b.blockType then b.switchType else b

/-- `set_version`, line 578. -/
def setVersion (b : Block) (v : Version) : Block := { b with header := { b.header with version := v } }

/-- `set_uid`, line 586. -/
def setUid (b : Block) (u : Uid) : Block := { b with header := { b.header with uid := u } }

/-- `set_seq_num`, lines 598-602. -/
def setSeq (b : Block) (s : UInt32) : Block := matchHeader { b with header := { b.header with seq := s } }

/-- `add_seq_num`, lines 604-617 (`checked_add`). -/
def addSeq (b : Block) (n : UInt32) : Except BlockErr Block :=
  if b.header.seq.toNat + n.toNat < 2 ^ 32 then .ok (b.setSeq (b.header.seq + n)) else .error .seqNumOverflow

/-- `block_size!`, lines 154-160. -/
def size (b : Block) : Nat := b.header.version.blockSize

/-- `slice_buf!(data => ..)`, lines 132-136. -/
def payload (b : Block) (buf : List Byte) : List Byte := (buf.take b.size).drop 16

/-- `Block::calc_crc`, lines 731-737 (the caller has checked the buffer length). -/
def calcCrc (b : Block) (buf : List Byte) : BitVec 16 :=
  Crc.crcCcitt b.header.calcCrc (b.payload buf)

/-- `update_crc`, lines 739-741. -/
def updateCrc (b : Block) (buf : List Byte) : Block :=
  { b with header := { b.header with crc := b.calcCrc buf } }

/-- `sync_to_buffer`, lines 747-779.  Returns the block (its checksum may be updated) and the buffer.
On `TooMuchMetadata` Rust leaves a partially written payload behind; every caller discards the buffer then. -/
def syncTo (b : Block) (updCrc : Option Bool) (buf : List Byte) : Except BlockErr (Block × List Byte) :=
  if buf.length < b.size then .error .panic
  else
    let updCrc := updCrc.getD true
    -- lines 756-765: serialise metadata into the payload
    let r : Except BlockErr (List Byte) :=
      match b.data with
      | .metadata ms =>
        if b.header.seq = 0 then
          match metasToBytes ms (b.size - 16) with
          | none => .error .tooMuchMetadata
          | some bs => .ok (buf.take 16 ++ bs ++ buf.drop b.size)
        else .ok buf
      | .data => .ok buf
    match r with
    | .error e => .error e
    | .ok buf =>
      -- lines 767-774: update the checksum
      let b := match b.blockType with
        | .data => if updCrc then b.updateCrc buf else b
        | .metadata => b.updateCrc buf
      -- line 776: write the header
      .ok (b, b.header.toBytes ++ buf.drop 16)

/-- `sync_from_buffer_header_only`, lines 797-803. -/
def syncHeader (b : Block) (buf : List Byte) : Except BlockErr Block :=
  if buf.length < 16 then .error .panic
  else match Header.fromBytes (buf.take 16) with
    | none => .error .parseError
    | some h => .ok (matchHeader { b with header := h })

/-- Re-reading the fields of a metadata block, lines 823-835. -/
def parseMetas (b : Block) (buf : List Byte) : Block :=
  match b.data with
  | .metadata ms =>
    if b.header.seq = 0 then { b with data := .metadata (metasFromBytes (b.payload buf)) }
    else { b with data := .metadata ms }
  | .data => b

/-- An optional predicate, `Some(pred) => pred(..)`, lines 813-817 and 837-846. -/
def optPred {α : Type} : Option (α → Bool) → α → Bool
  | none, _ => true
  | some p, x => p x

/-- `sync_from_buffer`, lines 805-847.  Returns the mutated block together with `none` for `Ok(())`.
A buffer shorter than the block size of the version found in it makes Rust panic (`check_buffer!`, line 819);
it is checked after the header predicate. -/
def syncFrom (b : Block) (buf : List Byte) (headerPred : Option (Header → Bool)) (pred : Option (Block → Bool)) :
    Block × Option BlockErr :=
  match b.syncHeader buf with
  | .error e => (b, some e)
  | .ok b =>
    if !optPred headerPred b.header then (b, some .failedPred)
    else if buf.length < b.size then (b, some .panic)
    else if b.header.crc ≠ b.calcCrc buf then (b, some .invalidCrc)
    else
      let b := b.parseMetas buf
      if !optPred pred b then (b, some .failedPred) else (b, none)

/-- Success of `sync_from_buffer`: the parsed block, or `none`. -/
def read? (b : Block) (buf : List Byte) (headerPred : Option (Header → Bool)) : Option Block :=
  match b.syncFrom buf headerPred none with
  | (b, none) => some b
  | (_, some _) => none

/-- `metas`, lines 683-688. -/
def metas (b : Block) : Option (List Metadata) :=
  match b.data with
  | .data => none
  | .metadata ms => some ms

/-- Replace the first element satisfying `p` (assignment through `get_meta_ref_mut_by_id`,
`src/sbx_block/metadata.rs` 377-385). -/
def replaceFirst (p : Metadata → Bool) (m : Metadata) : List Metadata → List Metadata
  | [] => []
  | x :: xs => if p x then m :: xs else x :: replaceFirst p m xs

/-- The effect of `update_meta` on the field list, lines 700-708. -/
def updateMetaList (ms : List Metadata) (m : Metadata) : List Metadata :=
  match getMeta ms m.id with
  | none => ms ++ [m]
  | some _ => replaceFirst (fun x => x.id = m.id) m ms

/-- `update_meta`, lines 697-710. -/
def updateMeta (b : Block) (m : Metadata) : Except BlockErr Block :=
  match b.data with
  | .data => .error .incorrectBlockType
  | .metadata ms => .ok { b with data := .metadata (updateMetaList ms m) }

/-- `update_metas`, lines 712-719. -/
def updateMetas (b : Block) : List Metadata → Except BlockErr Block
  | [] => .ok b
  | m :: rest =>
    match b.updateMeta m with
    | .error e => .error e
    | .ok b => updateMetas b rest

/-- `remove_metas`, lines 721-729. -/
def removeMetas (b : Block) (ids : List MetaId) : Except BlockErr Block :=
  match b.data with
  | .data => .error .incorrectBlockType
  | .metadata ms => .ok { b with data := .metadata (ms.filter fun m => !ids.contains m.id) }

end Block


/-- `write_padding`, lines 170-179, on a buffer of exactly one block: bytes from `16 + skip` on become 0x1A. -/
def writePadding (v : Version) (skip : Nat) (buf : List Byte) : List Byte :=
  buf.take (16 + skip) ++ List.replicate (v.blockSize - (16 + skip)) 0x1A ++ buf.drop v.blockSize

/-- `header_pred_same_ver_uid!`, `src/header_preds.rs`: same version and uid as the reference block. -/
def sameVerUid (ref : Block) (h : Header) : Bool :=
  ref.header.version = h.version && ref.header.uid = h.uid

end Verif
