import Verif.Model.File
import Verif.Model.Layout
import Verif.Spec.Format
import Verif.Spec.Layout
import Verif.Spec.Metadata
/-!
# Specification of a container (BLKAR_SPECS.md): which payload has which sequence number and where the blocks are

Independent of the buffers and threads of the encoder.
-/

namespace Verif.ContainerSpec
open Format LayoutSpec

/-- Cut a list into pieces of `n` elements (the last one may be shorter). -/
def chunksOf {α : Type} (n : Nat) (l : List α) : List (List α) :=
  if _h : n = 0 ∨ l = [] then [] else l.take n :: chunksOf n (l.drop n)
termination_by l.length
decreasing_by
  simp only [not_or] at _h
  have := List.length_pos_iff.2 _h.2
  simp; omega

/-- The chunks of a file. -/
def fileChunks (v : Version) (file : List Byte) : List (List Byte) := chunksOf (blockLen v - 16) file

/-- A chunk filled up to the payload size with the padding byte. -/
def pad (n : Nat) (chunk : List Byte) : List Byte := chunk ++ List.replicate (n - chunk.length) 0x1A

/-- Data shards of a set of at most `d` chunks of up to `n` bytes: missing chunks are all padding. -/
def dataShards (n d : Nat) (chunks : List (List Byte)) : List (List Byte) :=
  chunks.map (pad n) ++ List.replicate (d - chunks.length) (pad n [])

/-- Payloads of the blocks with sequence numbers 1, 2, 3, ...: the chunks padded; with Reed-Solomon each group of `data`
chunks is followed by its parity shards. -/
def payloads (rs : RsCodec) (v : Version) (dpb : Option Dpb) (chunks : List (List Byte)) : List (List Byte) :=
  match dpb with
  | none => chunks.map (pad (blockLen v - 16))
  | some d => (chunksOf d.data chunks).flatMap fun cs =>
      dataShards (blockLen v - 16) d.data cs ++ rs.encode d.data d.parity (dataShards (blockLen v - 16) d.data cs)

/-- Number of blocks for `n` chunks, without metadata. -/
def blockCount (dpb : Option Dpb) (n : Nat) : Nat :=
  match dpb with
  | none => n
  | some d => ceilDiv n d.data * (d.data + d.parity)

/-- `f` is the container with payloads `ps` for the sequence numbers 1, 2, 3, ... and metadata block `mb`: whole blocks, every
block at its place, a copy of `mb` at every metadata place, zeros in between, nothing behind the last block.  (Where the
block with a given sequence number belongs is the subject of C10 - C13.) -/
structure Image (v : Version) (uid : List Byte) (me : Option Bool) (dpb : Option Dpb) (ps : List (List Byte))
    (mb : List Byte) (f : File) : Prop where
  aligned : blockLen v ∣ f.length
  data : ∀ (i : Nat) p, ps[i]? = some p →
    f.readAt (Layout.dataWriteIndex (i + 1) me dpb * blockLen v) (blockLen v) = blockBytes v uid (UInt32.ofNat (i + 1)) p
  metas : ∀ k ∈ metaCopies me dpb, f.readAt (k * blockLen v) (blockLen v) = mb
  gaps : ∀ k, k * blockLen v < f.length → k ∉ metaCopies me dpb →
    (∀ i < ps.length, Layout.dataWriteIndex (i + 1) me dpb ≠ k) →
    f.readAt (k * blockLen v) (blockLen v) = List.replicate (blockLen v) 0
  tight : ∀ k, f.length = (k + 1) * blockLen v →
    k ∈ metaCopies me dpb ∨ ∃ i < ps.length, Layout.dataWriteIndex (i + 1) me dpb = k

/-- `f` is the container of `bytes`: the chunks of `bytes` (and their parity) with sequence numbers 1, 2, 3, ... and metadata
block `mb`. -/
def IsContainer (rs : RsCodec) (v : Version) (uid : List Byte) (me : Bool) (dpb : Option Dpb) (bytes mb : List Byte) (f : File) :
    Prop :=
  Image v uid (some me) dpb (payloads rs v dpb (fileChunks v bytes)) mb f

/-- `mb` is a metadata block with fields `ms`. -/
def Records (v : Version) (uid : Uid) (mb : List Byte) (ms : List Metadata) : Prop :=
  ∃ payload, IsBlock mb v uid 0 payload ∧ metasFromBytes payload = ms

end Verif.ContainerSpec
