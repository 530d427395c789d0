import Verif.Model.Bytes
/-!
# Specification of CRC-16/CCITT (polynomial 0x1021, most significant bit first, no reflection, no final XOR)

A plain 16-bit shift register, one message bit at a time, as in any textbook; nothing here mentions a table.
-/

namespace Verif.CrcSpec

open Verif

/-- Shift one message bit into the register: the bit leaving the register is compared with the message bit, and the
polynomial is subtracted (XORed) when they differ. -/
def pushBit (reg : BitVec 16) (bit : Bool) : BitVec 16 :=
  if reg.msb ^^ bit then (reg <<< 1) ^^^ 0x1021#16 else reg <<< 1

/-- The bits of a byte, most significant first. -/
def bitsOfByte (b : Byte) : List Bool :=
  [b.toBitVec.getLsbD 7, b.toBitVec.getLsbD 6, b.toBitVec.getLsbD 5, b.toBitVec.getLsbD 4,
   b.toBitVec.getLsbD 3, b.toBitVec.getLsbD 2, b.toBitVec.getLsbD 1, b.toBitVec.getLsbD 0]

/-- The bits of a byte string, in transmission order. -/
def bits (bs : List Byte) : List Bool := bs.flatMap bitsOfByte

/-- Register contents after feeding a bit string. -/
def feed (reg : BitVec 16) (bs : List Bool) : BitVec 16 := bs.foldl pushBit reg

/-- CRC-16/CCITT with start value `start`. -/
def crc16 (start : BitVec 16) (bs : List Byte) : BitVec 16 := feed start (bits bs)

/-- Two byte strings differ, and all differing bits lie within a window of at most `w` consecutive bits. -/
def DifferInBurst (w : Nat) (a b : List Byte) : Prop :=
  ∃ u e e' v, bits a = u ++ e ++ v ∧ bits b = u ++ e' ++ v ∧ e.length = e'.length ∧ e.length ≤ w ∧ e ≠ e'

end Verif.CrcSpec
