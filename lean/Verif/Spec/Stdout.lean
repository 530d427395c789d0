import Verif.Spec.Decode
/-!
# Containers whose blocks are at their places
-/

namespace Verif.StdoutSpec
open Format

/-- Every valid data or parity block of the archive, at a place counted in whole blocks from the beginning of `f`, is at the place
that belongs to its sequence number (the places of C11).  Blocks may be missing. -/
def InPlace (v : Version) (uid : Uid) (dpb : Option Dpb) (f : File) : Prop :=
  ∀ k seq payload, seq ≠ 0 → IsBlock (f.readAt (k * blockLen v) (blockLen v)) v uid seq payload →
    k = Layout.dataWriteIndex seq.toNat none dpb

end Verif.StdoutSpec
