import Mathlib.Data.List.Induction
/-!
# Bytes and big-endian integers

Models the `transmute(x.to_be())` / `be_u16`, `be_u32`, `be_u64`, `be_i64` conversions used by
`src/sbx_block/header.rs` lines 39-53 and 106-124 and `src/sbx_block/metadata.rs` lines 157-164 and 234-236.
-/

namespace Verif

/-- A byte (`u8`). -/
abbrev Byte := UInt8

/-- The `k` low-order bytes of `n`, most significant first.
`src/sbx_block/header.rs` 41, 50-51: `transmute::<u32, [u8; 4]>(x.to_be())`. -/
def beBytes : Nat → Nat → List Byte
  | 0, _ => []
  | k + 1, n => beBytes k (n / 256) ++ [UInt8.ofNat n]

/-- Big-endian value of a byte string.  `nom::number::complete::{be_u16, be_u32, be_u64}` used in
`src/sbx_block/header.rs` 88 and `src/sbx_block/metadata.rs` 234-236. -/
def beNat (bs : List Byte) : Nat := bs.foldl (fun acc b => acc * 256 + b.toNat) 0

@[simp] theorem beBytes_length (k n : Nat) : (beBytes k n).length = k := by
  induction k generalizing n with
  | zero => rfl
  | succ k ih => simp [beBytes, ih]

theorem beNat_append_singleton (bs : List Byte) (b : Byte) :
    beNat (bs ++ [b]) = beNat bs * 256 + b.toNat := by
  simp [beNat, List.foldl_append]

/-- Reading back `k` big-endian bytes gives the number modulo `256^k`. -/
theorem beNat_beBytes (k n : Nat) : beNat (beBytes k n) = n % 256 ^ k := by
  induction k generalizing n with
  | zero => simp [beBytes, beNat, Nat.mod_one]
  | succ k ih =>
    rw [beBytes, beNat_append_singleton, ih]
    have h1 : (UInt8.ofNat n).toNat = n % 256 := by simp
    rw [h1, Nat.pow_succ, Nat.mul_comm (256 ^ k) 256, Nat.mod_mul]
    omega

theorem beNat_lt (bs : List Byte) : beNat bs < 256 ^ bs.length := by
  induction bs using List.reverseRecOn with
  | nil => simp [beNat]
  | append_singleton bs b ih =>
    rw [beNat_append_singleton]
    have := b.toNat_lt
    simp only [List.length_append, List.length_singleton, Nat.pow_succ]
    omega

/-- Writing back a big-endian number of the right width gives the same bytes. -/
theorem beBytes_beNat (bs : List Byte) : beBytes bs.length (beNat bs) = bs := by
  induction bs using List.reverseRecOn with
  | nil => rfl
  | append_singleton bs b ih =>
    rw [List.length_append, List.length_singleton, beBytes, beNat_append_singleton]
    have hb := b.toNat_lt
    have h1 : (beNat bs * 256 + b.toNat) / 256 = beNat bs := by omega
    have h2 : UInt8.ofNat (beNat bs * 256 + b.toNat) = b := by
      apply UInt8.toNat_inj.mp
      simp
    rw [h1, ih, h2]

theorem beBytes_inj {k a b : Nat} (ha : a < 256 ^ k) (hb : b < 256 ^ k)
    (h : beBytes k a = beBytes k b) : a = b := by
  have := congrArg beNat h
  rw [beNat_beBytes, beNat_beBytes, Nat.mod_eq_of_lt ha, Nat.mod_eq_of_lt hb] at this
  exact this

end Verif
