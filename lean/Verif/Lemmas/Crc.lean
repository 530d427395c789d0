import Verif.Model.Crc
import Verif.Spec.Crc
/-! Helper lemmas about the CRC shift register. -/

namespace Verif.Crc

open Verif Verif.CrcSpec

/-- Register step with a zero message bit. -/
def z (s : BitVec 16) : BitVec 16 := if s.msb then (s <<< 1) ^^^ 0x1021#16 else s <<< 1

theorem xor_cancel_mid {n : Nat} (x y p : BitVec n) : x ^^^ p ^^^ (y ^^^ p) = x ^^^ y := by
  rw [BitVec.xor_assoc, BitVec.xor_comm p, BitVec.xor_assoc, BitVec.xor_self, BitVec.xor_zero]

theorem z_xor (a b : BitVec 16) : z (a ^^^ b) = z a ^^^ z b := by
  unfold z
  rw [BitVec.msb_xor, BitVec.shiftLeft_xor_distrib]
  cases ha : a.msb <;> cases hb : b.msb <;> simp only [Bool.false_bne, Bool.bne_false, Bool.true_bne, if_true,
    Bool.not_true, Bool.not_false, Bool.false_eq_true, if_false, Bool.xor_true]
  · rw [BitVec.xor_assoc]
  · rw [BitVec.xor_assoc, BitVec.xor_assoc, BitVec.xor_comm (b <<< 1)]
  · rw [xor_cancel_mid]

theorem pushBit_eq (s : BitVec 16) (b : Bool) :
    pushBit s b = z (s ^^^ (if b then 0x8000#16 else 0#16)) := by
  have h : (s ^^^ (if b then 0x8000#16 else 0#16)) <<< 1 = s <<< 1 := by
    rw [BitVec.shiftLeft_xor_distrib]; cases b <;> simp
  unfold pushBit z
  rw [h, BitVec.msb_xor]
  have hm : (0x8000#16).msb = true := by decide
  cases b <;> simp [hm]

theorem iter_z_xor (n : Nat) (a b : BitVec 16) : iter z n (a ^^^ b) = iter z n a ^^^ iter z n b := by
  induction n generalizing a b with
  | zero => rfl
  | succ n ih => simp [iter, z_xor, ih]

theorem iter_add {α : Type} (f : α → α) (m n : Nat) (x : α) : iter f (m + n) x = iter f n (iter f m x) := by
  induction m generalizing x with
  | zero => simp [iter]
  | succ m ih => rw [Nat.succ_add]; simp [iter, ih]

/-- The zero step is injective: the polynomial has constant term 1, a shifted register has not. -/
theorem z_eq_zero {d : BitVec 16} (h : z d = 0#16) : d = 0#16 := by
  unfold z at h
  split at h
  · exfalso
    have := congrArg (fun x => x.getLsbD 0) h
    simp at this
  · rename_i hm
    apply BitVec.eq_of_getLsbD_eq
    intro i hi
    by_cases h15 : i = 15
    · subst h15
      have : d.msb = false := by simpa using hm
      rw [BitVec.msb_eq_getLsbD_last] at this
      simpa using this
    · have := congrArg (fun x => x.getLsbD (i + 1)) h
      simp only [BitVec.getLsbD_shiftLeft, BitVec.getLsbD_zero] at this
      have hlt : i + 1 < 16 := by omega
      simpa [hlt] using this

theorem xor_eq_zero {n : Nat} {a b : BitVec n} (h : a ^^^ b = 0#n) : a = b := by
  have := congrArg (fun x => x ^^^ b) h
  simpa [BitVec.xor_assoc] using this

theorem z_inj {a b : BitVec 16} (h : z a = z b) : a = b := by
  apply xor_eq_zero
  apply z_eq_zero
  rw [z_xor, h, BitVec.xor_self]

theorem iter_z_inj (n : Nat) {a b : BitVec 16} (h : iter z n a = iter z n b) : a = b := by
  induction n generalizing a b with
  | zero => exact h
  | succ n ih => exact z_inj (ih h)

theorem pushBit_inj (b : Bool) {s t : BitVec 16} (h : pushBit s b = pushBit t b) : s = t := by
  rw [pushBit_eq, pushBit_eq] at h
  have := z_inj h
  have := congrArg (fun x => x ^^^ (if b then 0x8000#16 else 0#16)) this
  simpa [BitVec.xor_assoc] using this

theorem feed_append (s : BitVec 16) (u v : List Bool) : feed s (u ++ v) = feed (feed s u) v := by
  simp [feed]

theorem feed_inj (bs : List Bool) {s t : BitVec 16} (h : feed s bs = feed t bs) : s = t := by
  induction bs generalizing s t with
  | nil => exact h
  | cons b bs ih => exact pushBit_inj b (ih h)

/-- A bit string of length at most 16 placed at the top of the register. -/
def top : List Bool → BitVec 16
  | [] => 0#16
  | b :: bs => (if b then 0x8000#16 else 0#16) ^^^ (top bs >>> 1)

theorem top_getLsbD (w : List Bool) (i : Nat) (hi : i < 16) :
    (top w).getLsbD i = w.getD (15 - i) false := by
  induction w generalizing i with
  | nil => simp [top]
  | cons b bs ih =>
    rw [top, BitVec.getLsbD_xor, BitVec.getLsbD_ushiftRight]
    by_cases h : i = 15
    · subst h
      have : (top bs).getLsbD (1 + 15) = false := BitVec.getLsbD_of_ge _ _ (by omega)
      rw [this]
      cases b <;> simp
    · have hb : (if b = true then 0x8000#16 else 0#16).getLsbD i = false := by
        cases b
        · simp
        · have : i = 0 ∨ i = 1 ∨ i = 2 ∨ i = 3 ∨ i = 4 ∨ i = 5 ∨ i = 6 ∨ i = 7 ∨ i = 8 ∨ i = 9 ∨ i = 10 ∨
              i = 11 ∨ i = 12 ∨ i = 13 ∨ i = 14 := by omega
          rcases this with h | h | h | h | h | h | h | h | h | h | h | h | h | h | h <;> subst h <;> decide
      rw [hb, Nat.add_comm 1 i, ih (i + 1) (by omega)]
      have : 15 - i = (15 - (i + 1)) + 1 := by omega
      rw [this, List.getD_cons_succ, Bool.false_xor]

theorem top_inj {w w' : List Bool} (hl : w.length = w'.length) (h16 : w.length ≤ 16) (h : top w = top w') :
    w = w' := by
  apply List.ext_getElem hl
  intro i h1 h2
  have hi : i < 16 := by omega
  have := congrArg (fun x => x.getLsbD (15 - i)) h
  simp only [top_getLsbD _ (15 - i) (by omega)] at this
  have h15 : 15 - (15 - i) = i := by omega
  rw [h15] at this
  simpa [List.getD_eq_getElem?_getD, h1, h2] using this

/-- Feeding up to 16 bits is XORing them into the top of the register and then clocking. -/
theorem feed_eq_iter (w : List Bool) (s : BitVec 16) (h : w.length ≤ 16) :
    feed s w = iter z w.length (s ^^^ top w) := by
  induction w generalizing s with
  | nil => simp [feed, iter, top]
  | cons b bs ih =>
    have hb : bs.length ≤ 15 := by simpa using h
    have hz : z (top bs >>> 1) = top bs := by
      unfold z
      have hm : (top bs >>> 1).msb = false := by
        rw [BitVec.msb_eq_getLsbD_last, BitVec.getLsbD_ushiftRight]
        exact BitVec.getLsbD_of_ge _ _ (by omega)
      rw [if_neg (by simp [hm])]
      apply BitVec.eq_of_getLsbD_eq
      intro i hi
      rw [BitVec.getLsbD_shiftLeft, BitVec.getLsbD_ushiftRight]
      by_cases h0 : i = 0
      · subst h0
        rw [top_getLsbD _ 0 (by omega)]
        simp [List.getD_eq_getElem?_getD, List.getElem?_eq_none hb]
      · have : 1 + (i - 1) = i := by omega
        simp [this, hi, h0]
    have : feed s (b :: bs) = feed (pushBit s b) bs := rfl
    rw [this, ih _ (by omega), pushBit_eq]
    show _ = iter z bs.length (z _)
    rw [top, ← BitVec.xor_assoc, z_xor _ (top bs >>> 1), hz]

theorem feed_window_ne {w w' : List Bool} (hl : w.length = w'.length) (h16 : w.length ≤ 16) (hne : w ≠ w')
    (s : BitVec 16) : feed s w ≠ feed s w' := by
  intro h
  rw [feed_eq_iter w s h16, feed_eq_iter w' s (hl ▸ h16), hl] at h
  have := iter_z_inj _ h
  have := congrArg (fun x => s ^^^ x) this
  simp only [← BitVec.xor_assoc, BitVec.xor_self, BitVec.zero_xor] at this
  exact hne (top_inj hl h16 this)

/-! ### The table -/

theorem tabStep_inv (s : BitVec 16 × BitVec 16) :
    (tabStep s).1 ^^^ (tabStep s).2 = z (s.1 ^^^ s.2) ∧ (tabStep s).2 = s.2 <<< 1 := by
  have hm : ((s.1 ^^^ s.2) &&& 0x8000#16 ≠ 0#16) ↔ (s.1 ^^^ s.2).msb = true := by
    generalize s.1 ^^^ s.2 = x
    constructor
    · intro h
      cases hx : x.msb
      · exfalso
        apply h
        apply BitVec.eq_of_getLsbD_eq
        intro i hi
        rw [BitVec.getLsbD_and, BitVec.getLsbD_zero]
        by_cases h15 : i = 15
        · subst h15
          rw [BitVec.msb_eq_getLsbD_last] at hx
          simp at hx; simp [hx]
        · have : (0x8000#16).getLsbD i = false := by
            have : i = 0 ∨ i = 1 ∨ i = 2 ∨ i = 3 ∨ i = 4 ∨ i = 5 ∨ i = 6 ∨ i = 7 ∨ i = 8 ∨ i = 9 ∨ i = 10 ∨
              i = 11 ∨ i = 12 ∨ i = 13 ∨ i = 14 := by omega
            rcases this with h | h | h | h | h | h | h | h | h | h | h | h | h | h | h <;> subst h <;> decide
          simp [this]
      · rfl
    · intro h h0
      have := congrArg (fun y => y.getLsbD 15) h0
      rw [BitVec.msb_eq_getLsbD_last] at h
      simp at h
      simp [h] at this
  unfold tabStep z
  refine ⟨?_, rfl⟩
  simp only [hm, BitVec.shiftLeft_xor_distrib, poly]
  split
  · rw [BitVec.xor_assoc, BitVec.xor_comm 0x1021#16, ← BitVec.xor_assoc]
  · rfl

theorem iter_tabStep (n : Nat) (s : BitVec 16 × BitVec 16) :
    (iter tabStep n s).1 ^^^ (iter tabStep n s).2 = iter z n (s.1 ^^^ s.2) ∧
      (iter tabStep n s).2 = s.2 <<< n := by
  induction n generalizing s with
  | zero => simp [iter]
  | succ n ih =>
    have h := tabStep_inv s
    have h2 := ih (tabStep s)
    rw [h.1] at h2
    refine ⟨h2.1, ?_⟩
    have := h2.2
    rw [h.2, ← BitVec.shiftLeft_add, Nat.add_comm] at this
    exact this

theorem tabEntry_eq (i : Nat) : tabEntry i = iter z 8 (BitVec.ofNat 16 i <<< 8) := by
  have h := iter_tabStep 8 (0#16, BitVec.ofNat 16 i <<< 8)
  unfold tabEntry
  have h2 : (iter tabStep 8 (0#16, BitVec.ofNat 16 i <<< 8)).2 = 0#16 := by
    rw [h.2, ← BitVec.shiftLeft_add]
    exact BitVec.shiftLeft_eq_zero (by omega)
  rw [h2] at h
  simpa using h.1

theorem z_shift (s : BitVec 16) (h : s.msb = false) : z s = s <<< 1 := by
  simp [z, h]

theorem iter_z_low (s : BitVec 16) (k n : Nat) (hk : k + n ≤ 16) (h : ∀ i, k ≤ i → s.getLsbD i = false) :
    iter z n s = s <<< n := by
  induction n generalizing s k with
  | zero => simp [iter]
  | succ n ih =>
    have hm : s.msb = false := by
      rw [BitVec.msb_eq_getLsbD_last]; exact h _ (by omega)
    show iter z n (z s) = _
    rw [z_shift s hm, ih (s <<< 1) (k + 1) (by omega), ← BitVec.shiftLeft_add, Nat.add_comm]
    intro i hi
    rw [BitVec.getLsbD_shiftLeft, h (i - 1) (by omega)]
    simp

theorem crcStep_eq (crc : BitVec 16) (b : Byte) : crcStep crc b = feed crc (bitsOfByte b) := by
  have htop : top (bitsOfByte b) = b.toBitVec.setWidth 16 <<< 8 := by
    apply BitVec.eq_of_getLsbD_eq
    intro i hi
    rw [top_getLsbD _ _ hi, BitVec.getLsbD_shiftLeft]
    by_cases h8 : i < 8
    · have : (bitsOfByte b).getD (15 - i) false = false := by
        rw [List.getD_eq_getElem?_getD, List.getElem?_eq_none (by simp [bitsOfByte]; omega)]; rfl
      simpa [h8] using this
    · have : i = 8 ∨ i = 9 ∨ i = 10 ∨ i = 11 ∨ i = 12 ∨ i = 13 ∨ i = 14 ∨ i = 15 := by omega
      rcases this with h | h | h | h | h | h | h | h <;> subst h <;> simp [bitsOfByte]
  rw [feed_eq_iter _ _ (by simp [bitsOfByte]), htop]
  -- split the register into high and low halves
  let hi := ((crc >>> 8) ^^^ b.toBitVec.setWidth 16) &&& 0x00FF#16
  let lo := crc &&& 0x00FF#16
  have hff : ∀ i, (0x00FF#16).getLsbD i = decide (i < 8) := by
    intro i
    by_cases h : i < 16
    · have : i = 0 ∨ i = 1 ∨ i = 2 ∨ i = 3 ∨ i = 4 ∨ i = 5 ∨ i = 6 ∨ i = 7 ∨ i = 8 ∨ i = 9 ∨ i = 10 ∨
              i = 11 ∨ i = 12 ∨ i = 13 ∨ i = 14 ∨ i = 15 := by omega
      rcases this with h | h | h | h | h | h | h | h | h | h | h | h | h | h | h | h <;> subst h <;> decide
    · rw [BitVec.getLsbD_of_ge _ _ (by omega)]
      simp; omega
  have hsplit : crc ^^^ (b.toBitVec.setWidth 16 <<< 8) = (hi <<< 8) ^^^ lo := by
    apply BitVec.eq_of_getLsbD_eq
    intro i hi'
    simp only [hi, lo, BitVec.getLsbD_xor, BitVec.getLsbD_shiftLeft, BitVec.getLsbD_and, hff,
      BitVec.getLsbD_ushiftRight]
    by_cases h8 : i < 8
    · simp [h8]
    · have h1 : 8 + (i - 8) = i := by omega
      have h2 : i - 8 < 8 := by omega
      simp [h8, h1, h2, hi']
  have hlo : iter z 8 lo = lo <<< 8 := by
    apply iter_z_low lo 8 8 (by omega)
    intro i hi
    simp only [lo, BitVec.getLsbD_and, hff]
    have : ¬ i < 8 := by omega
    simp [this]
  have hlo2 : lo <<< 8 = crc <<< 8 := by
    apply BitVec.eq_of_getLsbD_eq
    intro i hi'
    simp only [lo, BitVec.getLsbD_shiftLeft, BitVec.getLsbD_and, hff]
    by_cases h8 : i < 8
    · simp [h8]
    · have h2 : i - 8 < 8 := by omega
      simp [h2]
  have htab : table.getD hi.toNat 0#16 = iter z 8 (hi <<< 8) := by
    have hlt : hi.toNat < 256 := by
      have := table_index_lt crc b
      rw [table, List.length_map, List.length_range] at this
      exact this
    rw [List.getD_eq_getElem?_getD, table, List.getElem?_map, List.getElem?_range hlt]
    simp only [Option.map_some, Option.getD_some]
    rw [tabEntry_eq, BitVec.ofNat_toNat]
    simp
  have hlen : (bitsOfByte b).length = 8 := by simp [bitsOfByte]
  rw [hlen, hsplit, iter_z_xor, hlo, hlo2, ← htab, BitVec.xor_comm]
  rfl

theorem crcCcitt_eq (start : BitVec 16) (bs : List Byte) : crcCcitt start bs = crc16 start bs := by
  unfold crcCcitt crc16
  induction bs generalizing start with
  | nil => rfl
  | cons b bs ih =>
    have hb : bits (b :: bs) = bitsOfByte b ++ bits bs := rfl
    rw [List.foldl_cons, ih, crcStep_eq, hb, feed_append]

theorem crcCcitt_append (s : BitVec 16) (a b : List Byte) :
    crcCcitt s (a ++ b) = crcCcitt (crcCcitt s a) b := by
  simp [crcCcitt]

theorem bits_append (a b : List Byte) : bits (a ++ b) = bits a ++ bits b := by
  simp [bits]

/-- The CRC of two strings differing in a burst of at most 16 bits differs. -/
theorem crc16_burst_ne {a b : List Byte} (h : DifferInBurst 16 a b) (s : BitVec 16) :
    crc16 s a ≠ crc16 s b := by
  obtain ⟨u, e, e', v, ha, hb, hl, h16, hne⟩ := h
  unfold crc16
  rw [ha, hb, feed_append, feed_append, feed_append, feed_append]
  intro h
  exact feed_window_ne hl h16 hne _ (feed_inj v h)

/-- Different start values give different CRCs. -/
theorem crc16_start_ne (bs : List Byte) {s t : BitVec 16} (h : s ≠ t) : crc16 s bs ≠ crc16 t bs :=
  fun he => h (feed_inj _ he)

end Verif.Crc
