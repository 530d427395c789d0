import Verif.Spec.Repair
/-!
# Specification of what can be saved of a damaged container
-/

namespace Verif.RepairSpec
open Format

/-- The data block that carries chunk number `j` of the file is unchanged in what is left of the container `c`. -/
def ChunkKept (v : Version) (d : Dpb) (c f : File) (j : Nat) : Prop :=
  piece v f (placeOf d (j / d.data * (d.data + d.parity) + j % d.data + 1)) =
    piece v c (placeOf d (j / d.data * (d.data + d.parity) + j % d.data + 1))

/-- Chunk number `j` of the file can be saved: its block is unchanged, or enough blocks of its set are. -/
def Savable (v : Version) (d : Dpb) (c f : File) (j : Nat) : Prop :=
  ChunkKept v d c f j ∨ d.data ≤ unchangedIn v d c f (j / d.data)

end Verif.RepairSpec
