import Verif.Spec.Decode
import Verif.Spec.Repair
/-!
# Specification: which chunks of a file are stored in a container, at the place where they belong
-/

namespace Verif.StoredSpec
open Format DecodeSpec RepairSpec

/-- The container has, at the place where it belongs, a valid block with chunk number `j` of the file, and `payload` is what it
carries. -/
def ChunkAt (v : Version) (uid : Uid) (dpb : Option Dpb) (f : File) (j : Nat) (payload : List Byte) : Prop :=
  ∃ seq, seq < 2 ^ 32 ∧ chunkOf dpb seq = some j ∧
    IsBlock (piece v f (Layout.dataWriteIndex seq none dpb)) v uid (UInt32.ofNat seq) payload

/-- All of `bytes` is stored: every chunk is there, and its payload starts with the bytes of the chunk. -/
def Stored (v : Version) (uid : Uid) (dpb : Option Dpb) (f : File) (bytes : List Byte) : Prop :=
  ∀ j, j * (blockLen v - 16) < bytes.length →
    ∃ payload, ChunkAt v uid dpb f j payload ∧ (bytes.drop (j * (blockLen v - 16))).take (blockLen v - 16) <+: payload

/-- Chunk number `j` can be given a sequence number. -/
def Numbered (dpb : Option Dpb) (j : Nat) : Prop := ∃ seq, seq < 2 ^ 32 ∧ chunkOf dpb seq = some j

end Verif.StoredSpec
