import Verif.Spec.Range
import Verif.Lemmas.DecodeWhole
import Verif.Lemmas.Decode
import Verif.Lemmas.Guess
/-!
# Lemmas about the blocks selected by a range
-/

namespace Verif.RangeSpec
open Misc Format ScanSpec DecodeSpec LayoutSpec Scan

theorem isStart_unique {fromByte : Option Nat} {misalign : Bool} {L len a b : Nat} (hL : 0 < L)
    (ha : IsStart fromByte misalign L len a) (hb : IsStart fromByte misalign L len b) : a = b := by
  obtain ⟨x, rfl, ha⟩ := ha
  obtain ⟨y, rfl, hb⟩ := hb
  cases misalign with
  | true => simp only [if_true] at ha hb; omega
  | false =>
    simp only [Bool.false_eq_true, if_false] at ha hb
    obtain ⟨a1, a2, c, rfl⟩ := ha
    obtain ⟨b1, b2, d, rfl⟩ := hb
    have h1 : L * c < L * (d + 1) := by rw [Nat.mul_add, Nat.mul_one]; omega
    have h2 : L * d < L * (c + 1) := by rw [Nat.mul_add, Nat.mul_one]; omega
    have h3 := Nat.lt_of_mul_lt_mul_left h1
    have h4 := Nat.lt_of_mul_lt_mul_left h2
    have : c = d := by omega
    rw [this]

theorem lt_iff_eq {a b : Nat} (h : ∀ k, k < a ↔ k < b) : a = b := by
  have h1 := h a
  have h2 := h b
  omega

/-- The places looked at are the selected ones. -/
theorem places_iff {fromByte : Option Nat} {toByte : Option RangeEnd} {mis : Bool} {ref : Block} {f : File} (hf : f ≠ [])
    (hto : toByte ≠ some (.exc 0)) :
    let L := blockLen ref.header.version
    let r := byteRange fromByte toByte mis 0 (.len f.length) (some L)
    IsStart fromByte mis L f.length r.seekTo ∧
    ∀ k, k < places ref f r.seekTo r.requiredLen ↔
      r.seekTo + (k + 1) * L ≤ f.length ∧ (k = 0 ∨ inRequested toByte (r.seekTo + k * L)) := by
  intro L r
  have hL : 0 < L := blockLen_pos _
  obtain ⟨h1, h2, h3⟩ := C17_byte_range_partial fromByte toByte mis f.length L (List.length_pos_iff.2 hf) hL hto
  have h2 : r.seekTo + r.requiredLen ≤ f.length := h2
  have h3 : ∀ p, (r.seekTo ≤ p ∧ p < r.seekTo + r.requiredLen) ↔
      (r.seekTo ≤ p ∧ p < f.length ∧ (inRequested toByte p ∨ p = r.seekTo)) := h3
  refine ⟨h1, fun k => ?_⟩
  have h4 := h3 (r.seekTo + k * L)
  have e1 : k < ceilDiv r.requiredLen L ↔ k * L < r.requiredLen := by
    rw [← Nat.not_le, ← Nat.not_le, Encode.ceilDiv_le_iff hL]
  have e2 : k < (f.length - r.seekTo) / L ↔ (k + 1) * L ≤ f.length - r.seekTo := by
    rw [← Nat.le_div_iff_mul_le hL]; rfl
  have e3 : (r.seekTo + k * L = r.seekTo) ↔ k = 0 := by
    constructor
    · intro h
      have : k * L = 0 := by omega
      rcases Nat.mul_eq_zero.1 this with h | h <;> omega
    · rintro rfl; omega
  have e4 : (k + 1) * L = k * L + L := Nat.succ_mul _ _
  show k < min (ceilDiv r.requiredLen L) ((f.length - r.seekTo) / L) ↔ _
  rw [Nat.lt_min, e1, e2]
  have h4' : (k * L < r.requiredLen) ↔ (r.seekTo + k * L < f.length ∧ (inRequested toByte (r.seekTo + k * L) ∨ k = 0)) := by
    constructor
    · intro h
      obtain ⟨-, a, b⟩ := h4.1 ⟨by omega, by omega⟩
      exact ⟨a, b.imp_right e3.1⟩
    · rintro ⟨a, b⟩
      have := h4.2 ⟨by omega, a, b.imp_right e3.2⟩
      omega
  rw [h4', e4]
  constructor
  · rintro ⟨⟨a, b⟩, c⟩
    exact ⟨by omega, b.symm⟩
  · rintro ⟨a, b⟩
    exact ⟨⟨by omega, b.symm⟩, by omega⟩

/-- Reading and selecting agree: what is read is `m` blocks from `start` on. -/
theorem Cut.spec {fromByte : Option Nat} {toByte : Option RangeEnd} {mis : Bool} {ref : Block} {f g : File} (hf : f ≠ [])
    (hto : toByte ≠ some (.exc 0)) (h : Cut fromByte toByte mis (blockLen ref.header.version) f g) :
    let L := blockLen ref.header.version
    let r := byteRange fromByte toByte mis 0 (.len f.length) (some L)
    g.length = places ref f r.seekTo r.requiredLen * L ∧
    ∀ k < places ref f r.seekTo r.requiredLen, f.readAt (r.seekTo + k * L) L = g.readAt (0 + k * L) L := by
  intro L r
  obtain ⟨start, m, h1, h2, h3⟩ := h
  have h3 : g = f.readAt start (m * L) := h3
  have h2 : ∀ k, k < m ↔ start + (k + 1) * L ≤ f.length ∧ (k = 0 ∨ inRequested toByte (start + k * L)) := h2
  obtain ⟨g1, g2⟩ := places_iff (fromByte := fromByte) (mis := mis) (ref := ref) hf hto
  have hL : 0 < L := blockLen_pos _
  have hst : r.seekTo = start := isStart_unique hL g1 h1
  have hm : places ref f r.seekTo r.requiredLen = m := by
    refine lt_iff_eq fun k => ?_
    rw [g2 k, h2 k, hst]
  rw [hm, hst, h3]
  have hin : ∀ k < m, start + (k + 1) * L ≤ f.length := fun k hk => ((h2 k).1 hk).1
  refine ⟨?_, fun k hk => ?_⟩
  · rw [File.readAt_length]
    cases m with
    | zero => simp
    | succ m => have := hin m (by omega); omega
  · apply List.ext_getElem?
    intro i
    have e4 : (k + 1) * L = k * L + L := Nat.succ_mul _ _
    have e5 : (k + 1) * L ≤ m * L := Nat.mul_le_mul_right _ hk
    rw [File.getElem?_readAt, File.getElem?_readAt, File.getElem?_readAt]
    by_cases hi : i < L
    · rw [if_pos hi, if_pos hi, if_pos (by omega)]
      congr 1; omega
    · rw [if_neg hi, if_neg hi]

theorem look_congr {ref : Block} {f g : File} {a b k : Nat}
    (h : f.readAt (a + k * blockLen ref.header.version) (blockLen ref.header.version) =
      g.readAt (b + k * blockLen ref.header.version) (blockLen ref.header.version)) : look ref f a k = look ref g b k := by
  unfold look blockAt
  rw [h]
  unfold File.readAt at h
  rw [h]

/-- What a command sees when it goes through the selected blocks of `f` is what it sees when it goes through all of `g`. -/
theorem Cut.same {fromByte : Option Nat} {toByte : Option RangeEnd} {mis mis' : Bool} {ref : Block} {f g : File} (hf : f ≠ [])
    (hto : toByte ≠ some (.exc 0)) (h : Cut fromByte toByte mis (blockLen ref.header.version) f g) (L : Nat)
    (hL : L = blockLen ref.header.version) (r r' : Range) (hr : r = byteRange fromByte toByte mis 0 (.len f.length) (some L))
    (hr' : r' = byteRange none none mis' 0 (.len g.length) (some L)) :
    r'.seekTo = 0 ∧ places ref g r'.seekTo r'.requiredLen = places ref f r.seekTo r.requiredLen ∧
    (∀ k < places ref f r.seekTo r.requiredLen, f.readAt (r.seekTo + k * blockLen ref.header.version) (blockLen ref.header.version) =
      g.readAt (0 + k * blockLen ref.header.version) (blockLen ref.header.version)) ∧
    ∀ k < places ref f r.seekTo r.requiredLen, look ref f r.seekTo k = look ref g 0 k := by
  subst hL hr hr'
  obtain ⟨h1, h2⟩ := h.spec hf hto
  refine ⟨by rw [Decode.range_all], ?_, h2, fun k hk => look_congr (h2 k hk)⟩
  rw [Decode.places_all, h1, Nat.mul_div_cancel _ (blockLen_pos _)]

end Verif.RangeSpec
