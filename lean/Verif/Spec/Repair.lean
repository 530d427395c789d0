import Verif.Model.File
import Verif.Model.Layout
import Verif.Spec.Format
import Verif.Spec.Layout
/-!
# Specification of repairing: which blocks of a container are intact
-/

namespace Verif.RepairSpec
open Format

/-- The bytes at the `k`-th place of a container. -/
def piece (v : Version) (f : File) (k : Nat) : List Byte := f.readAt (k * blockLen v) (blockLen v)

/-- At the `k`-th place is a valid block of the container. -/
def ValidAt (v : Version) (uid : Uid) (f : File) (k : Nat) : Prop := ∃ seq payload, IsBlock (piece v f k) v uid seq payload

/-- The place of the data or parity block with number `seq`. -/
def placeOf (d : Dpb) (seq : Nat) : Nat := Layout.dataWriteIndex seq none (some d)

/-- The data or parity block with number `seq` is there: at its place is a valid block of the container with this number. -/
def Present (v : Version) (uid : Uid) (d : Dpb) (f : File) (seq : Nat) : Prop :=
  ∃ payload, IsBlock (piece v f (placeOf d seq)) v uid (UInt32.ofNat seq) payload

open Classical in
/-- How many blocks of the `t`-th Reed-Solomon set are there. -/
noncomputable def presentIn (v : Version) (uid : Uid) (d : Dpb) (f : File) (t : Nat) : Nat :=
  (List.range (d.data + d.parity)).countP fun j => decide (Present v uid d f (t * (d.data + d.parity) + j + 1))

/-- The file filled up with zeros to whole blocks (unchanged if it consists of whole blocks). -/
def fill (v : Version) (f : File) : File := f ++ List.replicate ((blockLen v - f.length % blockLen v) % blockLen v) 0

/-- `f` is what is left of the container `c` with blocks numbered up to `last` after damage: at every place is what was there, or
nothing that could be taken for the block belonging there; the end may be cut off. -/
structure Damaged (v : Version) (uid : Uid) (d : Dpb) (last : Nat) (c f : File) : Prop where
  short : f.length ≤ c.length
  metas : ∀ k ∈ LayoutSpec.metaCopies (some true) (some d), piece v f k = piece v c k ∨ ¬ ValidAt v uid (fill v f) k
  blocks : ∀ s, 1 ≤ s → s ≤ last → piece v f (placeOf d s) = piece v c (placeOf d s) ∨ ¬ Present v uid d (fill v f) s

/-- Between the blocks there are still only zeros. -/
def GapsClean (v : Version) (d : Dpb) (last : Nat) (f : File) : Prop :=
  ∀ k, k ∉ LayoutSpec.metaCopies (some true) (some d) → (∀ s, 1 ≤ s → s ≤ last → placeOf d s ≠ k) → ∃ n, piece v f k = List.replicate n 0

/-- How many blocks of the `t`-th set of `c` are unchanged in `f`. -/
def unchangedIn (v : Version) (d : Dpb) (c f : File) (t : Nat) : Nat :=
  (List.range (d.data + d.parity)).countP fun j =>
    decide (piece v f (placeOf d (t * (d.data + d.parity) + j + 1)) = piece v c (placeOf d (t * (d.data + d.parity) + j + 1)))

open Classical in
/-- How many of the metadata places hold a valid block. -/
noncomputable def metasIn (v : Version) (uid : Uid) (d : Dpb) (f : File) : Nat :=
  (LayoutSpec.metaCopies (some true) (some d)).countP fun k => decide (ValidAt v uid f k)

open Classical in
/-- How many of the data and parity blocks with numbers up to `m` are there. -/
noncomputable def blocksIn (v : Version) (uid : Uid) (d : Dpb) (f : File) (m : Nat) : Nat :=
  (List.range m).countP fun j => decide (Present v uid d f (j + 1))

/-- How many blocks are missing in those of the first `n` sets that can be repaired (`ok`) or cannot. -/
noncomputable def missingIn (v : Version) (uid : Uid) (d : Dpb) (f : File) (ok : Bool) (n : Nat) : Nat :=
  ((List.range n).map fun t =>
    if decide (d.data ≤ presentIn v uid d f t) = ok then d.data + d.parity - presentIn v uid d f t else 0).sum

/-- Bytes that look nowhere like the start of a block (at multiples of 128 bytes, where a scan looks). -/
def Dead (bs : List Byte) : Prop := ∀ i v crc (uid : Uid) seq, ¬ headerBytes v crc uid.bytes seq <+: bs.drop (i * 128)

/-- What is left of a block of version `v` after damage: nothing that looks like the start of a block, or still a header of the same
version, but no valid block. -/
def Broken (v : Version) (bs : List Byte) : Prop :=
  Dead bs ∨ (∃ crc, ∃ uid : Uid, ∃ seq, headerBytes v crc uid.bytes seq <+: bs) ∧ ∀ uid seq payload, ¬ IsBlock bs v uid seq payload

/-- Of the block `a`, which has kept signature and version, the checksum has been altered, or up to 16 consecutive bits of what follows
it. -/
def ShortError (a b : List Byte) : Prop :=
  a.length = b.length ∧ a.take 4 = b.take 4 ∧
    (a.drop 6 = b.drop 6 ∧ a ≠ b ∨ a.take 6 = b.take 6 ∧ CrcSpec.DifferInBurst 16 (a.drop 6) (b.drop 6))

/-- `g` is what a crash may leave of a file `f` of whole blocks to which the blocks `ops` are being written (position and bytes): of
each write, whatever their order, everything, nothing, or a beginning that contains at least signature and version.  In the last case
the result is not by accident a valid block. -/
def Crashed (v : Version) (ops : List (Nat × List Byte)) (f g : File) : Prop :=
  g.length = f.length ∧ ∀ k, piece v g k = piece v f k ∨
    ∃ b n, (k * blockLen v, b) ∈ ops ∧ 4 ≤ n ∧ piece v g k = b.take n ++ (piece v f k).drop n ∧
      (n < blockLen v → ∀ uid seq payload, ¬ IsBlock (piece v g k) v uid seq payload)

end Verif.RepairSpec
