import Verif.Spec.Crc
/-!
# Specification of scattered bit errors
-/

namespace Verif.CrcSpec
open Verif

/-- In how many places two bit strings differ. -/
def differences : List Bool → List Bool → Nat
  | x :: xs, y :: ys => (if x = y then 0 else 1) + differences xs ys
  | _, _ => 0

/-- How many bits of two byte strings of the same length differ. -/
def bitErrors (a b : List Byte) : Nat := differences (bits a) (bits b)

/-- One, two, three or any odd number of the bits of `a` have been flipped, wherever they are; the result is `b`. -/
def Flipped (a b : List Byte) : Prop :=
  a.length = b.length ∧ (1 ≤ bitErrors a b ∧ bitErrors a b ≤ 3 ∨ bitErrors a b % 2 = 1)

/-- The same for a block that has kept its version byte. -/
def FewBits (a b : List Byte) : Prop := Flipped a b ∧ a[3]? = b[3]?

end Verif.CrcSpec
