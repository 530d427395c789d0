import Verif.Spec.Container
import Verif.Spec.Repair
/-!
# What the numbers displayed by `encode` and `calc` should be
-/

namespace Verif.CalcSpec
open Format RepairSpec LayoutSpec

open Classical in
/-- Number of places of the file with a valid block of the container `uid` whose number satisfies `P`. -/
noncomputable def blocksHeld (v : Version) (uid : Uid) (f : File) (P : Nat → Prop) : Nat :=
  (List.range (f.length / blockLen v)).countP fun k => decide (∃ seq payload, IsBlock (piece v f k) v uid seq payload ∧ P seq.toNat)

end Verif.CalcSpec
