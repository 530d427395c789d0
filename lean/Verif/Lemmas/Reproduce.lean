import Verif.Spec.Reproduce
import Verif.Lemmas.Assemble
/-!
# Payloads as functions of the bytes of their set
-/

namespace Verif.Reproduce
open Format ContainerSpec LayoutSpec Layout Decode Encode

theorem slice_take_drop {α : Type} (l : List α) (a b j n : Nat) (h : (j + 1) * n ≤ b) :
    (((l.drop a).take b).drop (j * n)).take n = (l.drop (a + j * n)).take n := by
  rw [List.drop_take, List.take_take, List.drop_drop]
  congr 1
  rw [Nat.succ_mul] at h
  omega

/-- The chunks of a group of chunks. -/
theorem group_chunks {α : Type} {n m : Nat} (hn : 0 < n) (hm : 0 < m) (l : List α) (t : Nat) :
    (chunksOf m (chunksOf n l))[t]? =
      if (l.drop (t * (m * n))).take (m * n) = [] then none else some (chunksOf n ((l.drop (t * (m * n))).take (m * n))) := by
  rw [chunksOf_getElem? hm, chunksOf_length hn]
  have hmn : 0 < m * n := Nat.mul_pos hm hn
  have hc : t * m < ceilDiv l.length n ↔ ¬ (l.drop (t * (m * n))).take (m * n) = [] := by
    rw [List.take_eq_nil_iff, List.drop_eq_nil_iff, ← Nat.not_le, ceilDiv_le_iff hn, Nat.mul_assoc]
    omega
  by_cases h : t * m < ceilDiv l.length n
  · rw [if_pos h, if_neg (hc.1 h)]
    congr 1
    apply List.ext_getElem?
    intro j
    rw [chunksOf_getElem? hn]
    by_cases hj : j < m
    · rw [List.getElem?_take_of_lt hj, List.getElem?_drop, chunksOf_getElem? hn]
      have hjn : (j + 1) * n ≤ m * n := Nat.mul_le_mul_right _ hj
      rw [slice_take_drop _ _ _ _ _ hjn, List.length_take, List.length_drop, Nat.add_mul, Nat.mul_assoc]
      rw [Nat.succ_mul] at hjn
      have : t * (m * n) + j * n < l.length ↔ j * n < min (m * n) (l.length - t * (m * n)) := by omega
      simp only [this]
    · rw [List.getElem?_eq_none (by rw [List.length_take]; omega), if_neg]
      rw [List.length_take]
      have : m * n ≤ j * n := Nat.mul_le_mul_right _ (by omega)
      omega
  · rw [if_neg h, if_pos (by by_contra h'; exact h (hc.2 h'))]

/-- The payloads of one set, from the bytes in it. -/
def groupPayloads (rs : RsCodec) (v : Version) (dpb : Option Dpb) (s : List Byte) : List (List Byte) :=
  match dpb with
  | none => [pad (blockLen v - 16) s]
  | some d => dataShards (blockLen v - 16) d.data (chunksOf (blockLen v - 16) s) ++
      rs.encode d.data d.parity (dataShards (blockLen v - 16) d.data (chunksOf (blockLen v - 16) s))

/-- Blocks per set. -/
def perGroup : Option Dpb → Nat
  | none => 1
  | some d => d.data + d.parity

theorem dlen_pos (v : Version) : 0 < blockLen v - 16 := by cases v <;> decide

/-- The payload of block `t * perGroup + r + 1`. -/
theorem payload_group {rs : RsCodec} {v : Version} {dpb : Option Dpb} (hrs : RsLen rs v dpb) (hval : Valid dpb) (bytes : List Byte)
    (t r : Nat) (hr : r < perGroup dpb) :
    (payloads rs v dpb (fileChunks v bytes))[t * perGroup dpb + r]? =
      if groupBytes v dpb bytes t = [] then none else (groupPayloads rs v dpb (groupBytes v dpb bytes t))[r]? := by
  have hn := dlen_pos v
  unfold payloads fileChunks groupBytes groupPayloads groupLen
  cases dpb with
  | none =>
    have h0 : r = 0 := by simp only [perGroup] at hr; omega
    subst h0
    simp only [perGroup, Nat.mul_one, Nat.add_zero]
    rw [List.getElem?_map, chunksOf_getElem? hn]
    have : t * (blockLen v - 16) < bytes.length ↔ ¬ (bytes.drop (t * (blockLen v - 16))).take (blockLen v - 16) = [] := by
      rw [List.take_eq_nil_iff, List.drop_eq_nil_iff]; omega
    by_cases h : t * (blockLen v - 16) < bytes.length
    · rw [if_pos h, if_neg (this.1 h)]; rfl
    · rw [if_neg h, if_pos (by by_contra h'; exact h (this.2 h'))]; rfl
  | some d =>
    have hd := hval d rfl
    simp only [perGroup] at hr ⊢
    rw [flatMap_getElem? (m := d.data + d.parity) _ _ ?_ t r hr, group_chunks hn hd]
    · split <;> rfl
    · intro g hg
      obtain ⟨_, h2, h3⟩ := mem_chunksOf _ g hg
      have k1 : (dataShards (blockLen v - 16) d.data g).length = d.data := dataShards_length h2
      have k2 : ∀ x ∈ dataShards (blockLen v - 16) d.data g, x.length = blockLen v - 16 :=
        mem_dataShards fun c hc => (mem_chunksOf _ c (h3 c hc)).2.1
      rw [List.length_append, k1, (hrs d rfl _ k1 (by rw [dataSize_eq]; exact k2)).1]

/-- The data shards of a set: the chunks in it, padded; a missing chunk is all padding. -/
theorem dataShards_getElem? {n m : Nat} (hn : 0 < n) (s : List Byte) (hs : s.length ≤ m * n) {r : Nat} (hr : r < m) :
    (dataShards n m (chunksOf n s))[r]? = some (pad n ((s.drop (r * n)).take n)) := by
  unfold dataShards
  have hl : (chunksOf n s).length ≤ m := by rw [chunksOf_length hn, ceilDiv_le_iff hn]; exact hs
  by_cases h : r * n < s.length
  · have : r < (chunksOf n s).length := by
      rw [chunksOf_length hn, ← Nat.not_le, ceilDiv_le_iff hn]; omega
    rw [List.getElem?_append_left (by rw [List.length_map]; exact this), List.getElem?_map, chunksOf_getElem? hn, if_pos h]
    rfl
  · have : (chunksOf n s).length ≤ r := by rw [chunksOf_length hn, ceilDiv_le_iff hn]; omega
    rw [List.getElem?_append_right (by rw [List.length_map]; exact this), List.getElem?_replicate,
      if_pos (by rw [List.length_map]; omega), List.drop_eq_nil_iff.2 (by omega), List.take_nil]

end Verif.Reproduce
