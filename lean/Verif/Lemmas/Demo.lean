import Verif.Props.Decode
/-!
# Concrete containers for the instances beside the theorems
-/

namespace Verif.Demo
open Format Scan ContainerSpec LayoutSpec Layout Decode

/-- 1000 bytes encoded with version 17, 10 data and 2 parity shards, burst level 3. -/
theorem rs_container : ∃ f mb ms, IsContainer RsWitness.codec .v17 [1, 2, 3, 4, 5, 6] true (some ⟨10, 2, 3⟩) (List.replicate 1000 7) mb f ∧
    Records .v17 ⟨[1, 2, 3, 4, 5, 6], rfl⟩ mb ms ∧ firstFsz ms = some 1000 ∧ firstRsd ms = some 10 ∧ firstRsp ms = some 2 ∧
    firstHsh ms = some (calmEnv.hash.bytes .sha256 (List.replicate 1000 7)) ∧
    (payloads RsWitness.codec .v17 (some ⟨10, 2, 3⟩) (fileChunks .v17 (List.replicate 1000 7))).length ≤ lastSeqNum ∧
    RsLen RsWitness.codec .v17 (some ⟨10, 2, 3⟩) := by
  obtain ⟨h1, h2⟩ := Encode.demo_ok (v := .v17) (dpb := some ⟨10, 2, 3⟩) none rfl (by simp) (fun _ => false)
  obtain ⟨d, rep, h⟩ := Encode.C24_succeeds _ _ h2 h1 ⟨List.replicate 1000 7, some ("a.txt", some 5)⟩ (by
    intro mx hmx
    rw [Encode.maxSize_eq h1] at hmx
    cases hmx
    decide +kernel) (by intro _; decide +kernel)
  have hh := Encode.C24_whole_input _ _ h2 h1 _ (by
    refine ⟨by decide +kernel, ?_⟩
    intro n t ht
    simp only [Option.some.injEq, Prod.mk.injEq] at ht
    rw [← ht.1]
    decide +kernel) d rep (.inr ⟨rfl, rfl⟩) (fun _ => rfl) h
  obtain ⟨mb, hc, hrec⟩ := hh.container
  obtain ⟨ms, r1, r2, r3, r4, r5, -⟩ := hrec rfl
  rw [List.length_replicate] at r2
  exact ⟨d.file, mb, ms, hc, r1, r2, r4, r5, r3, hh.numbers, h2.rsLen h1⟩

/-- The container of `demoBytes` (600 bytes) of version 1, written out. -/
def file (mp : List Byte) : File := [demoBlock 0 mp, demoBlock 1 demoPayload1, demoBlock 2 demoPayload2].flatten

theorem rsLen_none (rs : RsCodec) (v : Version) : RsLen rs v none := by intro d hd; simp at hd

theorem plain_container (rs : RsCodec) (mp : List Byte) (hl : mp.length = 496) :
    IsContainer rs .v1 demoUid.bytes true none demoBytes (demoBlock 0 mp) (file mp) := by
  have hi0 := demo_is 0 mp hl
  have hi1 := demo_is 1 demoPayload1 List.length_replicate
  have hi2 := demo_is 2 demoPayload2 demo_len2
  have hb : ∀ b ∈ [demoBlock 0 mp, demoBlock 1 demoPayload1, demoBlock 2 demoPayload2], b.length = blockLen .v1 := by
    intro b hb
    simp only [List.mem_cons, List.not_mem_nil, or_false] at hb
    rcases hb with rfl | rfl | rfl
    · exact isBlock_length hi0
    · exact isBlock_length hi1
    · exact isBlock_length hi2
  have hu := File.unit_flatten _ hb
  unfold File.unit at hu
  have hlen : (file mp).length = 3 * blockLen .v1 := by
    unfold file
    simp only [List.flatten_cons, List.flatten_nil, List.append_nil, List.length_append, isBlock_length hi0, isBlock_length hi1,
      isBlock_length hi2]
    omega
  have hbl : blockLen .v1 = 512 := rfl
  unfold IsContainer
  rw [demo_payloads]
  refine ⟨⟨3, by rw [hlen, Nat.mul_comm]⟩, ?_, ?_, ?_, ?_⟩
  · intro i p hp
    have hi : i = 0 ∨ i = 1 := by
      have := (List.getElem?_eq_some_iff.1 hp).1
      simp at this; omega
    rcases hi with rfl | rfl
    · simp only [List.getElem?_cons_zero, Option.some.injEq] at hp
      subst hp
      exact hu 1
    · simp only [List.getElem?_cons_succ, List.getElem?_cons_zero, Option.some.injEq] at hp
      subst hp
      exact hu 2
  · intro k hk
    simp only [metaCopies] at hk
    have : k = 0 := by simpa using hk
    subst this
    exact hu 0
  · intro k hk h0 h1
    exfalso
    have hk3 : k < 3 := by rw [hlen, hbl] at hk; omega
    have h0' : k ≠ 0 := by simpa [metaCopies] using h0
    have h1' := h1 (k - 1) (by simp; omega)
    have : dataWriteIndex (k - 1 + 1) (some true) none = k - 1 + 1 := by unfold dataWriteIndex; simp; omega
    omega
  · intro k hk
    right
    refine ⟨1, by simp, ?_⟩
    have : k = 2 := by rw [hlen, hbl] at hk; omega
    rw [this]; rfl

end Verif.Demo
