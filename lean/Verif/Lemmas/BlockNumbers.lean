import Verif.Lemmas.BufferEncode
import Verif.Lemmas.Layout
import Verif.Spec.Layout
/-!
# Numbers of data and parity blocks
-/

namespace Verif
open LayoutSpec

theorem numbers_total (dpb : Option Dpb) (n : Nat) : dataNumbers dpb n + parityNumbers dpb n = n := by
  have h := List.length_eq_countP_add_countP (fun s => parityNumber dpb s) (l := List.range' 1 n)
  rw [List.length_range'] at h
  have e : dataNumbers dpb n = (List.range' 1 n).countP fun s => decide ¬parityNumber dpb s = true := by
    unfold dataNumbers
    congr 1
    funext s
    cases parityNumber dpb s <;> rfl
  unfold parityNumbers
  omega

theorem dataNumbers_none (n : Nat) : dataNumbers none n = n ∧ parityNumbers none n = 0 := by
  have h := numbers_total none n
  have : parityNumbers none n = 0 := by
    unfold parityNumbers
    rw [List.countP_eq_zero]
    intro s _
    simp [parityNumber]
  omega

theorem dataNumbers_sets (d : Dpb) (hd : 1 ≤ d.data) (q : Nat) :
    dataNumbers (some d) (q * (d.data + d.parity)) = q * d.data ∧
      parityNumbers (some d) (q * (d.data + d.parity)) = q * d.parity := by
  have h := numbers_total (some d) (q * (d.data + d.parity))
  have hS : 0 < d.data + d.parity := by omega
  have h1 : dataNumbers (some d) (q * (d.data + d.parity)) = q * d.data := by
    have hc := Layout.chunks_closed d.data d.parity hd (q * (d.data + d.parity))
    rw [Nat.mul_div_cancel _ hS, Nat.mul_mod_left, Nat.zero_min, Nat.add_zero] at hc
    rw [← hc]
    unfold dataNumbers
    rw [List.range'_eq_map_range, List.countP_map]
    congr 1
    funext i
    simp only [Function.comp_apply, parityNumber, Nat.add_sub_cancel_left]
    rw [Bool.eq_iff_iff]
    simp
  rw [Nat.mul_add] at h h1
  rw [Nat.mul_add]
  exact ⟨h1, by omega⟩

/-- The counters of the encoder in terms of sequence numbers. -/
theorem ParityShare.numbers {dpb : Option Dpb} {D P n q : Nat} (hv : Valid dpb) (h : ParityShare dpb P n) (ht : D + P = n)
    (hn : ∀ d, dpb = some d → n = q * (d.data + d.parity)) : D = dataNumbers dpb n ∧ P = parityNumbers dpb n := by
  cases dpb with
  | none =>
    have := dataNumbers_none n
    simp only [ParityShare] at h
    omega
  | some d =>
    have hd := hv d rfl
    have hq := hn d rfl
    subst hq
    have h1 := dataNumbers_sets d hd q
    have h2 := numbers_total (some d) (q * (d.data + d.parity))
    simp only [ParityShare] at h
    have hP : P = q * d.parity := by
      apply Nat.eq_of_mul_eq_mul_right (show 0 < d.data + d.parity by omega)
      rw [h]; ring
    rw [h1.1, h1.2] at *
    omega

end Verif
