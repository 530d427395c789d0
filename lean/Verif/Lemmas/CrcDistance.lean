import Mathlib.Dynamics.PeriodicPts.Defs
import Mathlib.Data.Nat.Prime.Basic
import Mathlib.Tactic.NormNum.Prime
import Verif.Lemmas.Crc
import Verif.Spec.BitErrors
/-! The CRC of `Spec/Crc.lean` as a code: fewer than four flipped bits, or an odd number of them, change it. -/

namespace Verif.Crc
open Verif Verif.CrcSpec

/-! ### The order of the register -/

/-- `n` zero steps on a register given as a number. -/
def runz : Nat → Nat → Nat
  | 0, s => s
  | n + 1, s => if s < 32768 then runz n (2 * s) else runz n ((2 * s - 65536) ^^^ 0x1021)

theorem z_toNat (s : BitVec 16) :
    (z s).toNat = if s.toNat < 32768 then 2 * s.toNat else (2 * s.toNat - 65536) ^^^ 0x1021 := by
  have hl := s.isLt
  have hm : s.msb = decide (32768 ≤ s.toNat) := by rw [BitVec.msb_eq_decide]
  unfold z
  by_cases h : s.toNat < 32768
  · rw [if_pos h, if_neg (by simp [hm]; omega), BitVec.toNat_shiftLeft, Nat.shiftLeft_eq]
    omega
  · rw [if_neg h, if_pos (by simp [hm]; omega), BitVec.toNat_xor, BitVec.toNat_shiftLeft, Nat.shiftLeft_eq]
    have : s.toNat * 2 ^ 1 % 2 ^ 16 = 2 * s.toNat - 65536 := by omega
    rw [this]
    rfl

theorem iter_toNat (n : Nat) (s : BitVec 16) : (iter z n s).toNat = runz n s.toNat := by
  induction n generalizing s with
  | zero => rfl
  | succ n ih =>
    show (iter z n (z s)).toNat = _
    rw [ih, z_toNat, runz]
    split <;> rfl

theorem iter_eq_iterate (n : Nat) (s : BitVec 16) : iter z n s = z^[n] s := by
  induction n generalizing s with
  | zero => rfl
  | succ n ih => exact ih (z s)

/-- The powers of `x` modulo the polynomial. -/
def pow (n : Nat) : BitVec 16 := iter z n 1#16

set_option maxRecDepth 1000000 in
theorem pow_217 : pow 217 ≠ 1#16 := by
  intro h
  have h := congrArg BitVec.toNat h
  rw [pow, iter_toNat] at h
  revert h; decide +kernel

set_option maxRecDepth 1000000 in
theorem pow_1057 : pow 1057 ≠ 1#16 := by
  intro h
  have h := congrArg BitVec.toNat h
  rw [pow, iter_toNat] at h
  revert h; decide +kernel

set_option maxRecDepth 1000000 in
theorem pow_4681 : pow 4681 ≠ 1#16 := by
  intro h
  have h := congrArg BitVec.toNat h
  rw [pow, iter_toNat] at h
  revert h; decide +kernel

set_option maxRecDepth 1000000 in
theorem pow_32767 : pow 32767 = 1#16 := by
  have : (32767 : Nat) = 4681 + (4681 + (4681 + (4681 + (4681 + (4681 + 4681))))) := rfl
  rw [pow, this]
  simp only [iter_add]
  apply BitVec.eq_of_toNat_eq
  simp only [iter_toNat]
  decide +kernel

/-- The powers of `x` repeat only after 32767 steps. -/
theorem pow_ne_one {n : Nat} (h0 : 0 < n) (hn : n < 32767) : pow n ≠ 1#16 := by
  intro h
  have hp : Function.IsPeriodicPt z n 1#16 := by
    show z^[n] 1#16 = 1#16
    rw [← iter_eq_iterate]; exact h
  have hq : Function.IsPeriodicPt z 32767 1#16 := by
    show z^[32767] 1#16 = 1#16
    rw [← iter_eq_iterate]; exact pow_32767
  have hg := hp.gcd hq
  have hgn : Nat.gcd n 32767 ≤ n := Nat.gcd_le_left _ h0
  obtain ⟨k, hk⟩ := Nat.gcd_dvd_right n 32767
  generalize Nat.gcd n 32767 = g at *
  have hk1 : k ≠ 1 := by rintro rfl; omega
  obtain ⟨p, hp, hpk⟩ := Nat.exists_prime_and_dvd hk1
  obtain ⟨l, rfl⟩ := hpk
  have h32 : 32767 = 7 * (31 * 151) := by norm_num
  have hd : p ∣ 7 * (31 * 151) := ⟨g * l, by rw [← h32, hk, Nat.mul_left_comm]⟩
  have hcase : p = 7 ∨ p = 31 ∨ p = 151 := by
    rcases (Nat.Prime.dvd_mul hp).1 hd with h | h
    · exact .inl ((Nat.prime_dvd_prime_iff_eq hp (by norm_num)).1 h)
    · rcases (Nat.Prime.dvd_mul hp).1 h with h | h
      · exact .inr (.inl ((Nat.prime_dvd_prime_iff_eq hp (by norm_num)).1 h))
      · exact .inr (.inr ((Nat.prime_dvd_prime_iff_eq hp (by norm_num)).1 h))
  have hper : ∀ m, g * l = m → pow m = 1#16 := by
    rintro m rfl
    rw [pow, iter_eq_iterate]
    exact hg.mul_const l
  have hkl : 32767 = p * (g * l) := by rw [hk, Nat.mul_left_comm]
  rcases hcase with rfl | rfl | rfl
  · exact pow_4681 (hper _ (by omega))
  · exact pow_1057 (hper _ (by omega))
  · exact pow_217 (hper _ (by omega))

/-! ### Differences of fed strings -/

/-- The places where two bit strings differ. -/
def diff (a b : List Bool) : List Bool := List.zipWith (fun x y => x ^^ y) a b

theorem pushBit_xor (s t : BitVec 16) (a b : Bool) : pushBit s a ^^^ pushBit t b = pushBit (s ^^^ t) (a ^^ b) := by
  rw [pushBit_eq, pushBit_eq, pushBit_eq, ← z_xor]
  congr 1
  have e : ∀ u v w x : BitVec 16, u ^^^ v ^^^ (w ^^^ x) = u ^^^ w ^^^ (v ^^^ x) := by intros; ac_rfl
  rw [e]
  cases a <;> cases b <;> simp

theorem feed_xor {a b : List Bool} (h : a.length = b.length) (s t : BitVec 16) :
    feed s a ^^^ feed t b = feed (s ^^^ t) (diff a b) := by
  induction a generalizing b s t with
  | nil => cases b with
    | nil => rfl
    | cons => simp at h
  | cons x xs ih => cases b with
    | nil => simp at h
    | cons y ys =>
      show feed (pushBit s x) xs ^^^ feed (pushBit t y) ys = feed (pushBit (s ^^^ t) (x ^^ y)) (diff xs ys)
      rw [ih (by simpa using h), pushBit_xor]

theorem count_diff (a b : List Bool) : (diff a b).count true = differences a b := by
  induction a generalizing b with
  | nil => cases b <;> rfl
  | cons x xs ih => cases b with
    | nil => rfl
    | cons y ys =>
      show ((x ^^ y) :: diff xs ys).count true = _
      rw [List.count_cons, ih, differences]
      cases x <;> cases y <;> simp <;> omega

theorem diff_length {a b : List Bool} (h : a.length = b.length) : (diff a b).length = a.length := by
  simp [diff, h]

theorem differences_append {a a' b b' : List Bool} (h : a.length = a'.length) :
    differences (a ++ b) (a' ++ b') = differences a a' + differences b b' := by
  induction a generalizing a' with
  | nil => cases a' with
    | nil => simp [differences]
    | cons => simp at h
  | cons x xs ih => cases a' with
    | nil => simp at h
    | cons y ys => simp only [List.cons_append, differences, ih (by simpa using h)]; omega

theorem differences_self (a : List Bool) : differences a a = 0 := by
  induction a with
  | nil => rfl
  | cons x xs ih => simp [differences, ih]

/-! ### One and two flipped bits -/

theorem z_zero : z 0#16 = 0#16 := by decide

theorem feed_none (w : List Bool) (h : w.count true = 0) : feed 0#16 w = 0#16 := by
  induction w with
  | nil => rfl
  | cons b bs ih =>
    cases b with
    | true => simp at h
    | false =>
      have : feed 0#16 (false :: bs) = feed 0#16 bs := by
        show feed (pushBit 0#16 false) bs = _
        rfl
      rw [this]; exact ih (by simpa using h)

theorem feed_zeros (s : BitVec 16) (w : List Bool) (h : w.count true = 0) : feed s w = iter z w.length s := by
  induction w generalizing s with
  | nil => rfl
  | cons b bs ih =>
    cases b with
    | true => simp at h
    | false =>
      show feed (pushBit s false) bs = iter z bs.length (z s)
      rw [ih _ (by simpa using h), pushBit_eq]
      simp

/-- A register and a string have separate effects. -/
theorem feed_split (s : BitVec 16) (w : List Bool) : feed s w = iter z w.length s ^^^ feed 0#16 w := by
  have h := feed_xor (a := List.replicate w.length false) (b := w) (by simp) s 0#16
  rw [feed_zeros s _ (by simp [List.count_replicate])] at h
  rw [List.length_replicate, BitVec.xor_zero] at h
  have hd : ∀ w : List Bool, diff (List.replicate w.length false) w = w := by
    intro w
    induction w with
    | nil => rfl
    | cons b bs ih =>
      show (false ^^ b) :: diff (List.replicate bs.length false) bs = _
      rw [ih]; simp
  rw [hd] at h
  exact h.symm

theorem pow_16 : pow 16 = pushBit 0#16 true := by decide +kernel

theorem feed_true (w : List Bool) : feed 0#16 (true :: w) = pow (16 + w.length) ^^^ feed 0#16 w := by
  show feed (pushBit 0#16 true) w = _
  rw [feed_split, ← pow_16, pow, pow, iter_add]

theorem feed_false (w : List Bool) : feed 0#16 (false :: w) = feed 0#16 w := rfl

theorem pow_ne_zero (n : Nat) : pow n ≠ 0#16 := by
  intro h
  have hz : ∀ m, iter z m 0#16 = 0#16 := by
    intro m
    induction m with
    | zero => rfl
    | succ m ih => show iter z m (z 0#16) = _; rw [z_zero, ih]
  have : pow n = iter z n 0#16 := by rw [h, hz]
  exact absurd (iter_z_inj n this) (by decide)

theorem feed_one (w : List Bool) (h : w.count true = 1) : ∃ k < w.length, feed 0#16 w = pow (16 + k) := by
  induction w with
  | nil => simp at h
  | cons b bs ih =>
    cases b with
    | true =>
      refine ⟨bs.length, by simp, ?_⟩
      rw [feed_true, feed_none bs (by simpa using h), BitVec.xor_zero]
    | false =>
      obtain ⟨k, hk, e⟩ := ih (by simpa using h)
      exact ⟨k, by simp; omega, e⟩

theorem feed_two (w : List Bool) (h : w.count true = 2) :
    ∃ j k, j < k ∧ k < w.length ∧ feed 0#16 w = pow (16 + k) ^^^ pow (16 + j) := by
  induction w with
  | nil => simp at h
  | cons b bs ih =>
    cases b with
    | true =>
      obtain ⟨j, hj, e⟩ := feed_one bs (by simpa using h)
      exact ⟨j, bs.length, hj, by simp, by rw [feed_true, e]⟩
    | false =>
      obtain ⟨j, k, hj, hk, e⟩ := ih (by simpa using h)
      exact ⟨j, k, hj, by simp; omega, e⟩

theorem pow_inj {j k : Nat} (h : j < k) (hk : k - j < 32767) : pow k ≠ pow j := by
  intro e
  have : pow k = iter z j (pow (k - j)) := by
    rw [pow, pow, ← iter_add]; congr 1; omega
  rw [this] at e
  exact pow_ne_one (by omega) hk (iter_z_inj j e)

/-! ### An odd number of flipped bits -/

/-- The parity of the register. -/
def par (x : BitVec 16) : Bool :=
  x.getLsbD 0 ^^ x.getLsbD 1 ^^ x.getLsbD 2 ^^ x.getLsbD 3 ^^ x.getLsbD 4 ^^ x.getLsbD 5 ^^ x.getLsbD 6 ^^ x.getLsbD 7 ^^
  x.getLsbD 8 ^^ x.getLsbD 9 ^^ x.getLsbD 10 ^^ x.getLsbD 11 ^^ x.getLsbD 12 ^^ x.getLsbD 13 ^^ x.getLsbD 14 ^^ x.getLsbD 15

instance : Std.Commutative Bool.xor := ⟨Bool.xor_comm⟩

theorem par_xor (x y : BitVec 16) : par (x ^^^ y) = (par x ^^ par y) := by
  simp only [par, BitVec.getLsbD_xor]
  ac_rfl

theorem par_shift (x : BitVec 16) : par (x <<< 1) = (par x ^^ x.msb) := by
  rw [BitVec.msb_eq_getLsbD_last]
  simp only [par, BitVec.getLsbD_shiftLeft]
  simp

theorem par_z (x : BitVec 16) : par (z x) = par x := by
  unfold z
  cases h : x.msb
  · simp [par_shift, h]
  · have : par 0x1021#16 = true := by decide
    simp [par_xor, par_shift, h, this]

theorem par_feed (s : BitVec 16) (w : List Bool) : par (feed s w) = (par s ^^ decide (w.count true % 2 = 1)) := by
  induction w generalizing s with
  | nil => simp [feed]
  | cons b bs ih =>
    show par (feed (pushBit s b) bs) = _
    rw [ih, pushBit_eq, par_z, par_xor]
    have : par 0x8000#16 = true := by decide
    have h0 : par 0#16 = false := by decide
    cases b
    · simp [h0]
    · have hc : decide ((true :: bs).count true % 2 = 1) = !decide (bs.count true % 2 = 1) := by
        rw [List.count_cons_self]
        by_cases h : bs.count true % 2 = 1
        · have : ¬ (bs.count true + 1) % 2 = 1 := by omega
          simp [h, this]
        · have : (bs.count true + 1) % 2 = 1 := by omega
          simp [h, this]
      rw [hc]
      simp [this]

/-! ### The distance -/

/-- A string that leaves an empty register empty has an even number of ones, and none or at least four of them. -/
theorem distance (w : List Bool) (hl : w.length ≤ 32767) (h : feed 0#16 w = 0#16) :
    w.count true % 2 = 0 ∧ (w.count true = 0 ∨ 4 ≤ w.count true) := by
  have hp := par_feed 0#16 w
  have h0 : par 0#16 = false := by decide
  rw [h, h0] at hp
  have heven : w.count true % 2 = 0 := by
    have : ¬ w.count true % 2 = 1 := by
      intro hc
      simp [hc] at hp
    omega
  refine ⟨heven, ?_⟩
  by_contra hc
  have h2 : w.count true = 2 := by omega
  obtain ⟨j, k, hj, hk, e⟩ := feed_two w h2
  rw [h] at e
  exact pow_inj (j := 16 + j) (k := 16 + k) (by omega) (by omega) (xor_eq_zero e.symm)

end Verif.Crc
