import Verif.Model.Bytes
/-!
# Model of the CRC-CCITT code

* `build.rs` 47-73 (`make_crcccitt_tab`): run at compile time, its output is `CRCCCITT_TABLE`.
* `src/crc_ccitt.rs` 44-54 (`crc_ccitt_generic`).

`u16` values are `BitVec 16`, so shifts drop bits exactly as in Rust.
-/

namespace Verif.Crc

open Verif

/-- `CRC_POLY_CCITT`, `build.rs` 47. -/
def poly : BitVec 16 := 0x1021#16

/-- One iteration of the inner loop of `make_crcccitt_tab`, `build.rs` 59-67, on `(crc, c)`. -/
def tabStep (s : BitVec 16 × BitVec 16) : BitVec 16 × BitVec 16 :=
  (if (s.1 ^^^ s.2) &&& 0x8000#16 ≠ 0#16 then (s.1 <<< 1) ^^^ poly else s.1 <<< 1, s.2 <<< 1)

/-- Apply a function `n` times (a `for _ in 0..n` loop). -/
def iter {α : Type} (f : α → α) : Nat → α → α
  | 0, x => x
  | n + 1, x => iter f n (f x)

/-- Entry `i` of the table, `build.rs` 55-70: `crc = 0; c = i << 8; 8 iterations`. -/
def tabEntry (i : Nat) : BitVec 16 :=
  (iter tabStep 8 (0#16, BitVec.ofNat 16 i <<< 8)).1

/-- `CRCCCITT_TABLE`, `build.rs` 53-73. -/
def table : List (BitVec 16) := (List.range 256).map tabEntry

/-- Loop body of `crc_ccitt_generic`, `src/crc_ccitt.rs` 48-50.  The index is masked with `0xFF`, so the lookup is
always inside the table (`table_index_lt`). -/
def crcStep (crc : BitVec 16) (b : Byte) : BitVec 16 :=
  (crc <<< 8) ^^^ table.getD (((crc >>> 8) ^^^ b.toBitVec.setWidth 16) &&& 0x00FF#16).toNat 0#16

/-- `crc_ccitt_generic`, `src/crc_ccitt.rs` 44-54. -/
def crcCcitt (start : BitVec 16) (input : List Byte) : BitVec 16 :=
  input.foldl crcStep start

/-- The table lookup in `crcStep` never leaves the table (Rust would panic otherwise). -/
theorem table_index_lt (crc : BitVec 16) (b : Byte) :
    (((crc >>> 8) ^^^ b.toBitVec.setWidth 16) &&& 0x00FF#16).toNat < table.length := by
  simp only [table, List.length_map, List.length_range, BitVec.toNat_and]
  exact Nat.lt_succ_of_le (Nat.and_le_right)

end Verif.Crc
