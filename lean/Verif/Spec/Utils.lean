import Verif.Model.Bytes
/-!
# Specification vocabulary for hexadecimal text and byte ranges
-/

namespace Verif.UtilSpec

/-- The digits in order of value: `0123456789abcdef`. -/
def digits : List Byte :=
  [0x30, 0x31, 0x32, 0x33, 0x34, 0x35, 0x36, 0x37, 0x38, 0x39, 0x61, 0x62, 0x63, 0x64, 0x65, 0x66]

/-- The digits in order of value: `0123456789ABCDEF`. -/
def upperDigits : List Byte :=
  [0x30, 0x31, 0x32, 0x33, 0x34, 0x35, 0x36, 0x37, 0x38, 0x39, 0x41, 0x42, 0x43, 0x44, 0x45, 0x46]

/-- ASCII lower-casing. -/
def toLower (c : Byte) : Byte := if 0x41 ≤ c ∧ c ≤ 0x5A then c + 0x20 else c

/-- Hexadecimal text: an even number of digits in either case. -/
def IsHex (s : List Byte) : Prop := s.length % 2 = 0 ∧ ∀ c ∈ s, c ∈ digits ∨ c ∈ upperDigits

end Verif.UtilSpec
