import Verif.Lemmas.Decode
import Verif.Lemmas.Sizes
import Verif.Lemmas.Layout
/-!
# Lemmas: from the blocks found to the bytes of the output file
-/

namespace Verif.Decode
open Format ScanSpec DecodeSpec LayoutSpec ContainerSpec BlockRing Scan

theorem put_plain (u : Nat) (dpb : Option Dpb) (l : List (Nat × List Byte)) :
    ∀ out : File, l.foldl (put u dpb false) out = File.writes out (File.atPos u (chunks dpb l)) := by
  induction l with
  | nil => intro out; rfl
  | cons x l ih =>
    intro out
    rw [List.foldl_cons, ih]
    unfold chunks put
    rw [List.filterMap_cons]
    cases chunkOf dpb x.1 with
    | none => rfl
    | some j => rfl

theorem lastOf_eq (cs : List (Nat × List Byte)) (j : Nat) : lastOf cs j = File.lastWrite cs j := by
  unfold lastOf File.lastWrite
  congr 2

theorem mem_chunks {dpb : Option Dpb} {l : List (Nat × List Byte)} {c : Nat × List Byte} :
    c ∈ chunks dpb l ↔ ∃ s, (s, c.2) ∈ l ∧ chunkOf dpb s = some c.1 := by
  unfold chunks
  rw [List.mem_filterMap]
  constructor
  · rintro ⟨⟨s, p⟩, h1, h2⟩
    rw [Option.map_eq_some_iff] at h2
    obtain ⟨j, h3, rfl⟩ := h2
    exact ⟨s, h1, h3⟩
  · rintro ⟨s, h1, h2⟩
    exact ⟨(s, c.2), h1, by rw [h2]; rfl⟩

/-- Decoding into an empty file without skipping. -/
theorem assembled {u : Nat} (hu : 0 < u) (dpb : Option Dpb) (l : List (Nat × List Byte)) (hl : ∀ x ∈ l, x.2.length = u) :
    Assembled u (chunks dpb l) (l.foldl (put u dpb false) []) := by
  rw [put_plain]
  have hlen : ∀ w ∈ chunks dpb l, w.2.length = u := by
    intro w hw
    obtain ⟨s, h1, -⟩ := mem_chunks.1 hw
    exact hl (s, w.2) h1
  obtain ⟨h1, h2⟩ := File.unit_writes hu (chunks dpb l) hlen (f := []) (by simp)
  simp only [List.length_nil, Nat.zero_div] at h1 h2
  refine ⟨?_, ?_, ?_, ?_⟩
  · intro j p hp
    rw [lastOf_eq] at hp
    have hj : j < File.maxUnits 0 (chunks dpb l) :=
      (File.maxUnits_le.1 (Nat.le_refl _)).2 _ (File.lastWrite_some hp)
    have := h2 j hj
    rw [hp] at this
    exact this
  · intro j hj hlt
    rw [lastOf_eq] at hj
    rw [h1] at hlt
    have := h2 j (Nat.lt_of_mul_lt_mul_right hlt)
    rw [hj, Option.getD_none, File.unit0, if_neg (by simp)] at this
    exact this
  · intro n
    rw [h1, Nat.mul_le_mul_right_iff hu, File.maxUnits_le]
    exact ⟨fun h => h.2, fun h => ⟨Nat.zero_le _, h⟩⟩
  · rw [h1]; exact Nat.dvd_mul_left _ _

/-- Bytes of an assembled file. -/
theorem assembled_get {u : Nat} (hu : 0 < u) {cs : List (Nat × List Byte)} {out : File} (h : Assembled u cs out) {i : Nat}
    (hi : i < out.length) :
    out[i]? = match lastOf cs (i / u) with
      | some p => p[i % u]?
      | none => some 0 := by
  have e : i / u * u + i % u = i := by rw [Nat.mul_comm]; exact Nat.div_add_mod i u
  have hm := Nat.mod_lt i hu
  have hr : (out.readAt (i / u * u) u)[i % u]? = out[i]? := by
    rw [File.getElem?_readAt, if_pos hm, e]
  cases hl : lastOf cs (i / u) with
  | some p => simp only; rw [← hr, h.at_place _ _ hl]
  | none =>
    simp only
    rw [← hr, h.blank _ hl (by omega), List.getElem?_replicate, if_pos hm]

/-! ### Sequence numbers and chunks -/

/-- Sequence number of the block that carries chunk `j`. -/
def seqOf (dpb : Option Dpb) (j : Nat) : Nat :=
  match dpb with
  | none => j + 1
  | some d => j / d.data * (d.data + d.parity) + j % d.data + 1

theorem chunkOf_iff {dpb : Option Dpb} (hv : Valid dpb) {s j : Nat} : chunkOf dpb s = some j ↔ s = seqOf dpb j := by
  cases dpb with
  | none =>
    simp only [chunkOf, Option.map_none, Layout.chunkWriteIndex, seqOf]
    split
    · constructor
      · intro h; simp at h
      · intro h; omega
    · simp only [Option.some.injEq]; omega
  | some d =>
    have hd := hv d rfl
    obtain ⟨s0, h0, h1⟩ := C14_chunk_bijective d.data d.parity hd j
    have hseq : Layout.chunkWriteIndex (seqOf (some d) j) (some (d.data, d.parity)) = some j := by
      have hm := Nat.mod_lt j (show 0 < d.data by omega)
      have := Layout.divmod_eq (m := d.data + d.parity) (q := j / d.data) (r := j % d.data) (by omega)
      unfold Layout.chunkWriteIndex Layout.isParity seqOf
      simp only [Nat.add_sub_cancel, this.1, this.2]
      rw [if_neg (by omega), if_neg (by simp; omega)]
      have := Nat.div_add_mod j d.data
      rw [Nat.mul_comm] at this
      simp only [Option.some.injEq]; exact this
    constructor
    · intro h; rw [h1 s h, h1 _ hseq]
    · rintro rfl; exact hseq

theorem seqOf_pos (dpb : Option Dpb) (j : Nat) : 1 ≤ seqOf dpb j := by cases dpb <;> simp [seqOf]

theorem chunkOf_zero (dpb : Option Dpb) : chunkOf dpb 0 = none := rfl

theorem seqOf_inj {dpb : Option Dpb} (hv : Valid dpb) {j k : Nat} (h : seqOf dpb j = seqOf dpb k) : j = k := by
  have h1 := (chunkOf_iff hv).2 (rfl : seqOf dpb j = seqOf dpb j)
  have h2 := (chunkOf_iff hv).2 h
  rw [h1] at h2
  simpa using h2

theorem chunksOf_getElem? {α : Type} {n : Nat} (hn : 0 < n) (l : List α) (q : Nat) :
    (chunksOf n l)[q]? = if q * n < l.length then some ((l.drop (q * n)).take n) else none := by
  induction q generalizing l with
  | zero =>
    by_cases hl : l = []
    · subst hl; simp [chunksOf_nil]
    · have := List.length_pos_iff.2 hl
      rw [chunksOf_cons (by omega) hl]; simp [this]
  | succ q ih =>
    by_cases hl : l = []
    · subst hl; simp [chunksOf_nil]
    · rw [chunksOf_cons (by omega) hl, List.getElem?_cons_succ, ih, List.length_drop, List.drop_drop, Nat.succ_mul]
      have e : q * n + n = n + q * n := Nat.add_comm _ _
      by_cases h : q * n < l.length - n
      · rw [if_pos h, if_pos (by omega), e]
      · rw [if_neg h, if_neg (by omega)]

theorem flatMap_getElem? {α β : Type} {m : Nat} (g : α → List β) (l : List α) (hg : ∀ a ∈ l, (g a).length = m) (q r : Nat)
    (hr : r < m) : (l.flatMap g)[q * m + r]? = (l[q]?).bind fun a => (g a)[r]? := by
  induction l generalizing q with
  | nil => simp
  | cons a l ih =>
    have ha := hg a List.mem_cons_self
    cases q with
    | zero =>
      rw [List.flatMap_cons, List.getElem?_append_left (by omega)]
      simp
    | succ q =>
      rw [List.flatMap_cons, List.getElem?_append_right (by rw [Nat.succ_mul]; omega), ha,
        show (q + 1) * m + r - m = q * m + r by rw [Nat.succ_mul]; omega, ih fun b hb => hg b (List.mem_cons_of_mem _ hb)]
      simp

/-- The payload of the block that carries chunk `j`. -/
theorem payload_chunk {rs : RsCodec} {v : Version} {dpb : Option Dpb} (hrs : RsLen rs v dpb) (hv : Valid dpb)
    {cs : List (List Byte)} (hc : ∀ c ∈ cs, c.length ≤ v.dataSize) (j : Nat) :
    (∀ p, (payloads rs v dpb cs)[seqOf dpb j - 1]? = some p → p = pad v.dataSize ((cs[j]?).getD [])) ∧
    (j < cs.length → (payloads rs v dpb cs)[seqOf dpb j - 1]? = some (pad v.dataSize ((cs[j]?).getD []))) := by
  have hdec : ∀ o : Option (List Byte), (o = none ∨ o = some (pad v.dataSize ((cs[j]?).getD []))) → (j < cs.length → o ≠ none) →
      (∀ p, o = some p → p = pad v.dataSize ((cs[j]?).getD [])) ∧ (j < cs.length → o = some (pad v.dataSize ((cs[j]?).getD []))) := by
    intro o h1 h2
    rcases h1 with rfl | rfl
    · exact ⟨by simp, fun h => absurd rfl (h2 h)⟩
    · refine ⟨?_, fun _ => rfl⟩
      intro p hp; simp only [Option.some.injEq] at hp; exact hp.symm
  apply hdec
  all_goals unfold payloads seqOf; rw [← dataSize_eq]
  · cases dpb with
    | none =>
      simp only [Nat.add_sub_cancel, List.getElem?_map]
      cases cs[j]? with
      | none => left; rfl
      | some c => right; rfl
    | some d =>
      have hd := hv d rfl
      simp only [Nat.add_sub_cancel]
      rw [flatMap_getElem? (m := d.data + d.parity) _ _ _ _ _ (by have := Nat.mod_lt j (show 0 < d.data by omega); omega)]
      · rw [chunksOf_getElem? (by omega)]
        split
        · rename_i hq
          right
          simp only [Option.bind_some]
          have hm := Nat.mod_lt j (show 0 < d.data by omega)
          have hdm := Nat.div_add_mod j d.data
          rw [Nat.mul_comm] at hdm
          rw [List.getElem?_append_left (by rw [dataShards_length (by simp)]; exact hm)]
          unfold dataShards
          by_cases hj : j < cs.length
          · rw [List.getElem?_append_left (by simp; omega), List.getElem?_map, List.getElem?_take_of_lt hm, List.getElem?_drop, hdm,
              List.getElem?_eq_getElem hj]
            rfl
          · rw [List.getElem?_append_right (by simp; omega), List.getElem?_replicate, if_pos (by simp; omega),
              List.getElem?_eq_none (by omega)]
            rfl
        · left; rfl
      · intro g hg
        obtain ⟨-, h2, h3⟩ := mem_chunksOf cs g hg
        have k1 := dataShards_length (n := v.dataSize) h2
        have k2 := mem_dataShards (d := d.data) (n := v.dataSize) fun c hcg => hc c (h3 c hcg)
        rw [List.length_append, k1, (hrs d rfl _ k1 k2).1]
  · intro hj
    cases dpb with
    | none => simp [hj]
    | some d =>
      have hd := hv d rfl
      simp only [Nat.add_sub_cancel]
      have hm := Nat.mod_lt j (show 0 < d.data by omega)
      have hdm := Nat.div_add_mod j d.data
      rw [Nat.mul_comm] at hdm
      rw [flatMap_getElem? (m := d.data + d.parity) _ _ _ _ _ (by omega)]
      · rw [chunksOf_getElem? (by omega), if_pos (by omega), Option.bind_some,
          List.getElem?_append_left (by rw [dataShards_length (by simp)]; exact hm)]
        rw [List.getElem?_eq_getElem (by rw [dataShards_length (by simp)]; exact hm)]
        simp
      · intro g hg
        obtain ⟨-, h2, h3⟩ := mem_chunksOf cs g hg
        have k1 := dataShards_length (n := v.dataSize) h2
        have k2 := mem_dataShards (d := d.data) (n := v.dataSize) fun c hcg => hc c (h3 c hcg)
        rw [List.length_append, k1, (hrs d rfl _ k1 k2).1]

/-- The bytes in the payload of the block that carries chunk `j` of a file. -/
theorem payload_bytes {rs : RsCodec} {v : Version} {dpb : Option Dpb} (hrs : RsLen rs v dpb) (hv : Valid dpb) (bytes : List Byte)
    (j : Nat) :
    (∀ p, (payloads rs v dpb (fileChunks v bytes))[seqOf dpb j - 1]? = some p →
      p.length = v.dataSize ∧ ∀ t < v.dataSize, p[t]? = some ((bytes[j * v.dataSize + t]?).getD 0x1A)) ∧
    (j * v.dataSize < bytes.length → ∃ p, (payloads rs v dpb (fileChunks v bytes))[seqOf dpb j - 1]? = some p) := by
  have hds := FileUtils.dataSize_pos v
  have hc : ∀ c ∈ fileChunks v bytes, c.length ≤ v.dataSize := by
    intro c hcm
    unfold fileChunks at hcm
    rw [← dataSize_eq] at hcm
    exact (mem_chunksOf _ c hcm).2.1
  obtain ⟨h1, h2⟩ := payload_chunk hrs hv hc j
  have hcj : (fileChunks v bytes)[j]? = if j * v.dataSize < bytes.length then some (File.readAt bytes (j * v.dataSize) v.dataSize) else none := by
    unfold fileChunks
    rw [← dataSize_eq, chunksOf_getElem? hds]
    rfl
  constructor
  · intro p hp
    have := h1 p hp
    subst this
    refine ⟨?_, ?_⟩
    · rw [pad_length]
      rw [hcj]
      split
      · simp [File.readAt]
      · simp
    · intro t ht
      unfold pad
      rw [hcj]
      split
      · rename_i hlt
        simp only [Option.getD_some]
        by_cases hin : j * v.dataSize + t < bytes.length
        · rw [List.getElem?_append_left (by rw [File.readAt_length]; omega), File.getElem?_readAt, if_pos ht,
            List.getElem?_eq_getElem hin]
          rfl
        · rw [List.getElem?_append_right (by rw [File.readAt_length]; omega), List.getElem?_replicate,
            if_pos (by rw [File.readAt_length]; omega), List.getElem?_eq_none (by omega)]
          rfl
      · rename_i hlt
        simp only [Option.getD_none, List.nil_append, List.length_nil]
        rw [List.getElem?_replicate, if_pos (by omega), List.getElem?_eq_none (by omega)]
        rfl
  · intro hlt
    refine ⟨_, h2 ?_⟩
    have : (fileChunks v bytes)[j]? ≠ none := by rw [hcj, if_pos hlt]; simp
    by_contra hge
    exact this (List.getElem?_eq_none (by omega))

/-- What the output file contains if all data blocks found belong to the container of `bytes`. -/
theorem assembled_bytes {rs : RsCodec} {v : Version} {dpb : Option Dpb} (hrs : RsLen rs v dpb) (hv : Valid dpb) {bytes : List Byte}
    {bs : List (Nat × List Byte)}
    (hbs : ∀ x ∈ bs, x.1 ≠ 0 → (payloads rs v dpb (fileChunks v bytes))[x.1 - 1]? = some x.2) {out : File}
    (ha : Assembled v.dataSize (chunks dpb bs) out) (i : Nat) (hi : i < out.length) :
    ((∃ p, (seqOf dpb (i / v.dataSize), p) ∈ bs) ∧ out[i]? = some ((bytes[i]?).getD 0x1A)) ∨
    ((∀ p, (seqOf dpb (i / v.dataSize), p) ∉ bs) ∧ out[i]? = some 0) := by
  have hds := FileUtils.dataSize_pos v
  have e : i / v.dataSize * v.dataSize + i % v.dataSize = i := by rw [Nat.mul_comm]; exact Nat.div_add_mod i _
  rw [assembled_get hds ha hi]
  cases hl : lastOf (chunks dpb bs) (i / v.dataSize) with
  | some p =>
    left
    rw [lastOf_eq] at hl
    obtain ⟨s, h1, h2⟩ := mem_chunks.1 (File.lastWrite_some hl)
    rw [chunkOf_iff hv] at h2
    subst h2
    refine ⟨⟨p, h1⟩, ?_⟩
    have hp := hbs _ h1 (by have := seqOf_pos dpb (i / v.dataSize); simp only; omega)
    obtain ⟨-, h3⟩ := (payload_bytes hrs hv bytes (i / v.dataSize)).1 p hp
    have := h3 (i % v.dataSize) (Nat.mod_lt _ hds)
    rw [e] at this
    exact this
  | none =>
    right
    refine ⟨?_, rfl⟩
    intro p hp
    rw [lastOf_eq, File.lastWrite_none] at hl
    exact hl (i / v.dataSize, p) (mem_chunks.2 ⟨_, hp, (chunkOf_iff hv).2 rfl⟩) rfl

theorem setLen_length (f : File) (n : Nat) : (f.setLen n).length = n := by
  simp [File.setLen]; omega

theorem setLen_get (f : File) (n i : Nat) (hi : i < n) : (f.setLen n)[i]? = if i < f.length then f[i]? else some 0 := by
  unfold File.setLen
  split
  · rw [List.getElem?_append_left (by simp; omega), List.getElem?_take_of_lt hi]
  · rw [List.getElem?_append_right (by simp; omega), List.getElem?_replicate, if_pos (by simp; omega)]

end Verif.Decode
