import Verif.Spec.Format
/-!
# Specification of scanning: which blocks a byte stream shows

Independent of readers, buffers and counters.
-/

namespace Verif.ScanSpec
open Format

/-- The block a byte string holds, if it is one (C09: exactly when its bytes are those of a valid block). -/
def parse (buf : List Byte) : Option Block := Block.dummy.read? buf none

/-- The blocks found by walking over `bytes` from offset `off` on, starting nowhere at or after `required`: where 128 bytes begin
with a block header the walk steps over a block of that version, elsewhere over 128 bytes. -/
def walk (required off : Nat) (bytes : List Byte) : List (Nat × Block) :=
  if _h : bytes.length < 128 ∨ required ≤ off then []
  else
    match Header.fromBytes (bytes.take 16) with
    | none => walk required (off + 128) (bytes.drop 128)
    | some hd =>
      if bytes.length < blockLen hd.version then []
      else
        match parse (bytes.take (blockLen hd.version)) with
        | none => walk required (off + blockLen hd.version) (bytes.drop (blockLen hd.version))
        | some b => (off, b) :: walk required (off + blockLen hd.version) (bytes.drop (blockLen hd.version))
termination_by bytes.length
decreasing_by
  all_goals simp only [not_or, Nat.not_lt] at _h
  · simp; omega
  · have : 0 < blockLen hd.version := by cases hd.version <;> decide
    simp; omega
  · have : 0 < blockLen hd.version := by cases hd.version <;> decide
    simp; omega

/-- A piece of an archive or disk image: a valid block, or junk: 128 bytes that do not begin with a block header, or a damaged block which
still begins with a header of its version. -/
inductive Piece
  | block (v : Version) (uid : Uid) (seq : UInt32) (payload : List Byte)
  | junk (bytes : List Byte)

namespace Piece

def Ok : Piece → Prop
  | .block v _ _ payload => payload.length = blockLen v - 16
  | .junk bs => (bs.length = 128 ∧ ∀ v crc (uid : Uid) seq, ¬ headerBytes v crc uid.bytes seq <+: bs) ∨
    ∃ v, bs.length = blockLen v ∧ (∃ crc, ∃ uid : Uid, ∃ seq, headerBytes v crc uid.bytes seq <+: bs) ∧
      ∀ uid seq payload, ¬ IsBlock bs v uid seq payload

def bytes : Piece → List Byte
  | .block v uid seq payload => blockBytes v uid.bytes seq payload
  | .junk bs => bs

end Piece

/-- The blocks among the pieces with their offsets, the first piece being at `off`. -/
def located : (off : Nat) → List Piece → List (Nat × Block)
  | _, [] => []
  | off, .junk bs :: rest => located (off + bs.length) rest
  | off, .block v uid seq payload :: rest =>
    (off, blockOf v uid seq payload) :: located (off + blockLen v) rest

/-- The valid block with version and uid of `ref` at position `pos`, if there is one. -/
def blockAt (ref : Block) (f : List Byte) (pos : Nat) : Option Block :=
  Block.dummy.read? ((f.drop pos).take (blockLen ref.header.version)) (some (sameVerUid ref))

/-- Going through found blocks one by one until the visitor has enough. -/
def visitAll {S : Type} (visit : S → Nat → Block → S × Bool) : S → List (Nat × Block) → S
  | s, [] => s
  | s, (pos, b) :: rest =>
    match visit s pos b with
    | (s, true) => visitAll visit s rest
    | (s, false) => s

end Verif.ScanSpec
