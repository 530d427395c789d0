import Verif.Model.MiscUtils
import Verif.Spec.Utils
/-!
# Lemmas about the utility functions
-/

namespace Verif.Misc
open UtilSpec

theorem valid_iff (c : Byte) : isValidHexChar c = true ↔ c ∈ digits ∨ c ∈ upperDigits := by
  have h : ∀ n : Fin 256, isValidHexChar (UInt8.ofNat n.val) = true ↔
      UInt8.ofNat n.val ∈ digits ∨ UInt8.ofNat n.val ∈ upperDigits := by decide +kernel
  have := h ⟨c.toNat, c.toNat_lt⟩
  simpa using this

theorem digit_lower : ∀ n : Fin 16, hexCharToValue (hexDigit 0x61 n.val) = some (UInt8.ofNat n.val) ∧
    isValidHexChar (hexDigit 0x61 n.val) = true ∧ digits[n.val]? = some (hexDigit 0x61 n.val) := by decide +kernel

theorem digit_upper : ∀ n : Fin 16, hexCharToValue (hexDigit 0x41 n.val) = some (UInt8.ofNat n.val) ∧
    isValidHexChar (hexDigit 0x41 n.val) = true ∧ upperDigits[n.val]? = some (hexDigit 0x41 n.val) := by decide +kernel

/-- A valid character has a value below 16 whose lower-case digit is the lower-cased character. -/
theorem value_of_valid (c : Byte) (h : isValidHexChar c = true) :
    ∃ n : Fin 16, hexCharToValue c = some (UInt8.ofNat n.val) ∧ hexDigit 0x61 n.val = toLower c := by
  have h' : ∀ m : Fin 256, isValidHexChar (UInt8.ofNat m.val) = true →
      ∃ n : Fin 16, hexCharToValue (UInt8.ofNat m.val) = some (UInt8.ofNat n.val) ∧
        hexDigit 0x61 n.val = toLower (UInt8.ofNat m.val) := by decide +kernel
  have := h' ⟨c.toNat, c.toNat_lt⟩ (by simpa using h)
  simpa using this

theorem join_digits (b : Byte) : UInt8.ofNat (b.toNat / 16) * 0x10 + UInt8.ofNat (b.toNat % 16) = b := by
  apply UInt8.toNat_inj.1
  have := b.toNat_lt
  simp
  omega

theorem hexPairs_print (a : Byte) (h : ∀ n : Fin 16, hexCharToValue (hexDigit a n.val) = some (UInt8.ofNat n.val))
    (bs : List Byte) : hexPairs (bs.flatMap (hexByte a)) = some bs := by
  induction bs with
  | nil => rfl
  | cons b bs ih =>
    have hb := b.toNat_lt
    have h1 := h ⟨b.toNat / 16, by omega⟩
    have h2 := h ⟨b.toNat % 16, by omega⟩
    simp only at h1 h2
    rw [List.flatMap_cons, hexByte, List.cons_append, List.cons_append, List.nil_append, hexPairs, h1, h2]
    simp only [Option.bind_eq_bind, Option.bind_some, ih]
    rw [join_digits]; rfl

theorem print_length (a : Byte) (bs : List Byte) : (bs.flatMap (hexByte a)).length = 2 * bs.length := by
  induction bs with
  | nil => rfl
  | cons b bs ih => rw [List.flatMap_cons, List.length_append, ih]; simp [hexByte]; omega

theorem print_valid (a : Byte) (h : ∀ n : Fin 16, isValidHexChar (hexDigit a n.val) = true) (bs : List Byte) :
    (bs.flatMap (hexByte a)).all isValidHexChar = true := by
  rw [List.all_eq_true]
  intro c hc
  obtain ⟨b, _, hb⟩ := List.mem_flatMap.1 hc
  have hb' := b.toNat_lt
  simp only [hexByte, List.mem_cons, List.not_mem_nil, or_false] at hb
  rcases hb with hb | hb
  · rw [hb]; exact h ⟨b.toNat / 16, by omega⟩
  · rw [hb]; exact h ⟨b.toNat % 16, by omega⟩

/-- Pairs of valid characters never hit the panic, and their value prints as the lower-cased text. -/
theorem hexPairs_valid : ∀ s : List Byte, s.length % 2 = 0 → s.all isValidHexChar = true →
    ∃ bs, hexPairs s = some bs ∧ bs.flatMap (hexByte 0x61) = s.map toLower
  | [], _, _ => ⟨[], rfl, rfl⟩
  | [_], h, _ => by simp at h
  | a :: b :: rest, hl, hv => by
    simp only [List.all_cons, Bool.and_eq_true] at hv
    obtain ⟨bs, h1, h2⟩ := hexPairs_valid rest (by simp at hl; omega) hv.2.2
    obtain ⟨n, hn, hn'⟩ := value_of_valid a hv.1
    obtain ⟨m, hm, hm'⟩ := value_of_valid b hv.2.1
    refine ⟨(UInt8.ofNat n.val * 0x10 + UInt8.ofNat m.val) :: bs, ?_, ?_⟩
    · rw [hexPairs, hn, hm]; simp [h1]
    · have hnm : (UInt8.ofNat n.val * 0x10 + UInt8.ofNat m.val).toNat = n.val * 16 + m.val := by
        have := n.isLt
        have := m.isLt
        simp
        omega
      rw [List.flatMap_cons, h2, hexByte, hnm]
      have e1 : (n.val * 16 + m.val) / 16 = n.val := by have := m.isLt; omega
      have e2 : (n.val * 16 + m.val) % 16 = m.val := by have := m.isLt; omega
      rw [e1, e2, hn', hm']
      rfl

end Verif.Misc
