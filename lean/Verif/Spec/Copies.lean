import Verif.Spec.Repair
import Verif.Spec.Decode
/-!
# Specification: several damaged copies of one container (C69)
-/

namespace Verif.CopiesSpec
open Format RepairSpec

/-- `g` is what is left of a copy of the container `c`: whole blocks, perhaps not all of them, each unchanged or broken. -/
structure LeftOf (v : Version) (c g : File) : Prop where
  aligned : blockLen v ∣ g.length
  short : g.length ≤ c.length
  places : ∀ k, k * blockLen v < g.length → piece v g k = piece v c k ∨ Broken v (piece v g k)

/-- What is at the `k`-th place of `c` is still there in one of the copies. -/
def Survives (v : Version) (c : File) (copies : List File) (k : Nat) : Prop :=
  ∃ g ∈ copies, k * blockLen v < g.length ∧ piece v g k = piece v c k

/-- One of the copies of the block with number `s` is intact. -/
def BlockSurvives (v : Version) (dpb : Option Dpb) (c : File) (copies : List File) (s : Nat) : Prop :=
  Survives v c copies (Layout.dataWriteIndex s (some true) dpb)

open Classical in
/-- Of how many blocks of the `t`-th Reed-Solomon set one of the copies is intact. -/
noncomputable def survivingIn (v : Version) (d : Dpb) (c : File) (copies : List File) (t : Nat) : Nat :=
  (List.range (d.data + d.parity)).countP fun j => decide (BlockSurvives v (some d) c copies (t * (d.data + d.parity) + j + 1))

end Verif.CopiesSpec
