import Verif.Model.File
import Verif.Model.Layout
import Verif.Spec.Layout
import Verif.Spec.Scan
/-!
# Specification of decoding: which blocks are found and what a file made of them contains

Independent of readers, buffers and threads.
-/

namespace Verif.DecodeSpec
open Format ScanSpec LayoutSpec

/-- Sequence number and payload of the valid block with version and uid of `ref` at the `k`-th place, counted in blocks from
position `start`; `none` if there is no such block. -/
def look (ref : Block) (f : File) (start k : Nat) : Option (Nat × List Byte) :=
  (blockAt ref f (start + k * blockLen ref.header.version)).map fun b =>
    (b.header.seq.toNat, (f.readAt (start + k * blockLen ref.header.version) (blockLen ref.header.version)).drop 16)

/-- Number of places with a complete block among the `required` bytes from `start` on (a block that begins inside counts). -/
def places (ref : Block) (f : File) (start required : Nat) : Nat :=
  min (ceilDiv required (blockLen ref.header.version)) ((f.length - start) / blockLen ref.header.version)

/-- The blocks found, in the order of their places. -/
def found (ref : Block) (f : File) (start required : Nat) : List (Nat × List Byte) :=
  (List.range (places ref f start required)).filterMap (look ref f start)

/-- The number of the chunk a block carries: none for metadata and parity blocks (C14). -/
def chunkOf (dpb : Option Dpb) (seq : Nat) : Option Nat := Layout.chunkWriteIndex seq (dpb.map fun d => (d.data, d.parity))

/-- The chunks carried by a list of blocks, with their numbers. -/
def chunks (dpb : Option Dpb) (bs : List (Nat × List Byte)) : List (Nat × List Byte) :=
  bs.filterMap fun b => (chunkOf dpb b.1).map fun j => (j, b.2)

/-- The last entry with number `j`. -/
def lastOf (cs : List (Nat × List Byte)) (j : Nat) : Option (List Byte) :=
  (cs.reverse.find? fun c => c.1 = j).map (·.2)

/-- `out` consists of the chunks `cs` of `u` bytes each: at its place the last chunk with each number, zeros where there is no
chunk; nothing behind the last chunk. -/
structure Assembled (u : Nat) (cs : List (Nat × List Byte)) (out : File) : Prop where
  at_place : ∀ j p, lastOf cs j = some p → out.readAt (j * u) u = p
  blank : ∀ j, lastOf cs j = none → j * u < out.length → out.readAt (j * u) u = List.replicate u 0
  length : ∀ n, out.length ≤ n * u ↔ ∀ c ∈ cs, c.1 < n
  aligned : u ∣ out.length

/-- `f` contains, at a place counted in whole blocks from its beginning, a valid block with this version, uid, sequence number
and payload. -/
def HasBlock (v : Version) (uid : Uid) (f : File) (seq : UInt32) (payload : List Byte) : Prop :=
  ∃ k, IsBlock (f.readAt (k * blockLen v) (blockLen v)) v uid seq payload

/-- `f` contains a block that carries chunk number `j`. -/
def HasChunk (v : Version) (uid : Uid) (dpb : Option Dpb) (f : File) (j : Nat) : Prop :=
  ∃ seq payload, HasBlock v uid f seq payload ∧ chunkOf dpb seq.toNat = some j

end Verif.DecodeSpec
