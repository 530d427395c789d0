import Verif.Spec.Scan
import Verif.Spec.Decode
import Verif.Spec.Container
/-!
# Specification: what is left of a container on a disk image (C55)

The blocks of a container with payloads `pl` and metadata payload `mp` lie somewhere on an image, in any order, some perhaps several
times, between blocks of other containers and junk.
-/

namespace Verif.RecoverSpec
open Format ScanSpec

/-- The pieces of an image on which lie blocks of the container with the given version, uid, payloads and metadata, among them a
metadata block.  All blocks with this uid are blocks of this container. -/
structure Scattered (v : Version) (uid : Uid) (pl : List (List Byte)) (mp : List Byte) (ps : List Piece) : Prop where
  ok : ∀ q ∈ ps, q.Ok
  own : ∀ v' seq payload, Piece.block v' uid seq payload ∈ ps →
    v' = v ∧ (seq = 0 ∧ payload = mp ∨ seq ≠ 0 ∧ pl[seq.toNat - 1]? = some payload)
  known : Piece.block v uid 0 mp ∈ ps

/-- The block with number `s` of the container is on the image. -/
def OnImage (v : Version) (uid : Uid) (ps : List Piece) (s : Nat) : Prop := ∃ payload, Piece.block v uid (UInt32.ofNat s) payload ∈ ps

open Classical in
/-- How many blocks of the `t`-th set are on the image. -/
noncomputable def foundIn (v : Version) (uid : Uid) (d : Dpb) (ps : List Piece) (t : Nat) : Nat :=
  (List.range (d.data + d.parity)).countP fun j => decide (OnImage v uid ps (t * (d.data + d.parity) + j + 1))

open Classical in
/-- How many blocks of the `t`-th set are in the file `f`, at multiples of the block size. -/
noncomputable def heldIn (v : Version) (uid : Uid) (d : Dpb) (f : File) (t : Nat) : Nat :=
  (List.range (d.data + d.parity)).countP fun j =>
    decide (∃ payload, DecodeSpec.HasBlock v uid f (UInt32.ofNat (t * (d.data + d.parity) + j + 1)) payload)

end Verif.RecoverSpec
