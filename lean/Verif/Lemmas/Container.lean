import Verif.Lemmas.EncodeRun
import Verif.Props.Layout
/-!
# Lemmas about containers as files
-/

namespace Verif
open Format ContainerSpec LayoutSpec Layout

theorem blockLen_pos (v : Version) : 0 < blockLen v := by cases v <;> decide

theorem chunksOf_length {α : Type} {n : Nat} (hn : 0 < n) (l : List α) : (chunksOf n l).length = ceilDiv l.length n := by
  induction h : l.length using Nat.strong_induction_on generalizing l with
  | _ k ih =>
    by_cases hl : l = []
    · subst hl; simp at h; subst h; simp [chunksOf_nil, ceilDiv]
    · have hpos := List.length_pos_iff.2 hl
      rw [chunksOf_cons (by omega) hl, List.length_cons, ih (l.drop n).length (by simp; omega) _ rfl, List.length_drop]
      unfold ceilDiv
      by_cases hle : n ≤ k
      · have h1 : (l.length - n) % n = k % n := by rw [h, ← Nat.mod_eq_sub_mod hle]
        have h2 : k / n = (k - n) / n + 1 := Nat.div_eq_sub_div hn hle
        rw [h1, h, h2]; split <;> omega
      · rw [show l.length - n = 0 by omega]
        have hkn : k < n := by omega
        have hk0 : ¬ k = 0 := by omega
        simp [Nat.mod_eq_of_lt hkn, Nat.div_eq_of_lt hkn, hk0]

theorem pad_length {n : Nat} {c : List Byte} (h : c.length ≤ n) : (pad n c).length = n := by
  simp [pad]; omega

theorem dataShards_length {n d : Nat} {cs : List (List Byte)} (h : cs.length ≤ d) : (dataShards n d cs).length = d := by
  simp [dataShards]; omega

theorem mem_dataShards {n d : Nat} {cs : List (List Byte)} (h : ∀ c ∈ cs, c.length ≤ n) :
    ∀ x ∈ dataShards n d cs, x.length = n := by
  intro x hx
  simp only [dataShards, List.mem_append, List.mem_map, List.mem_replicate] at hx
  rcases hx with ⟨c, hc, rfl⟩ | ⟨_, rfl⟩
  · exact pad_length (h c hc)
  · exact pad_length (by simp)

/-- Lengths promised by the codec. -/
def RsLen (rs : RsCodec) (v : Version) (dpb : Option Dpb) : Prop :=
  ∀ d, dpb = some d → ∀ sh : List (List Byte), sh.length = d.data → (∀ x ∈ sh, x.length = v.dataSize) →
    (rs.encode d.data d.parity sh).length = d.parity ∧ ∀ x ∈ rs.encode d.data d.parity sh, x.length = v.dataSize

/-- Number and size of the payloads. -/
theorem payloads_spec {rs : RsCodec} {v : Version} {dpb : Option Dpb} (hrs : RsLen rs v dpb) (hd : Valid dpb)
    {cs : List (List Byte)} (hc : ∀ c ∈ cs, c.length ≤ v.dataSize) :
    (payloads rs v dpb cs).length = blockCount dpb cs.length ∧
    ∀ p ∈ payloads rs v dpb cs, p.length = v.dataSize := by
  unfold payloads blockCount
  rw [← dataSize_eq]
  cases dpb with
  | none =>
    refine ⟨by simp, ?_⟩
    intro p hp
    simp only [List.mem_map] at hp
    obtain ⟨c, hcm, rfl⟩ := hp
    exact pad_length (hc c hcm)
  | some d =>
    have hd1 := hd d rfl
    have key : ∀ g ∈ chunksOf d.data cs, (dataShards v.dataSize d.data g).length = d.data ∧
        (∀ x ∈ dataShards v.dataSize d.data g, x.length = v.dataSize) := by
      intro g hg
      obtain ⟨_, h2, h3⟩ := mem_chunksOf cs g hg
      exact ⟨dataShards_length h2, mem_dataShards fun c hcg => hc c (h3 c hcg)⟩
    constructor
    · simp only
      rw [← chunksOf_length hd1]
      generalize chunksOf d.data cs = gs at key
      induction gs with
      | nil => simp
      | cons g gs ih =>
        obtain ⟨k1, k2⟩ := key g List.mem_cons_self
        rw [List.flatMap_cons, List.length_append, ih fun g hg => key g (List.mem_cons_of_mem _ hg), List.length_append, k1,
          (hrs d rfl _ k1 k2).1, List.length_cons, Nat.succ_mul]
        omega
    · intro p hp
      simp only [List.mem_flatMap, List.mem_append] at hp
      obtain ⟨g, hg, hp⟩ := hp
      obtain ⟨k1, k2⟩ := key g hg
      rcases hp with hp | hp
      · exact k2 p hp
      · exact (hrs d rfl _ k1 k2).2 p hp

theorem metaAllPos_eq (v : Version) (dpb : Option Dpb) : metaAllPos v dpb = (metaAllIndices dpb).map (· * v.blockSize) := by
  unfold metaAllPos metaAllIndices metaDupPos
  refine List.Perm.eq_of_pairwise (le := (· ≤ ·)) ?_ ?_ ?_ ?_
  · intro a b _ _ h1 h2; exact Nat.le_antisymm h1 h2
  · have := List.pairwise_mergeSort (le := fun a b : Nat => decide (a ≤ b)) (by intro a b c; simp; omega)
      (by intro a b; simp; omega) ((metaDupIndices dpb).map (· * v.blockSize) ++ [0])
    exact this.imp (by simp)
  · have := List.pairwise_mergeSort (le := fun a b : Nat => decide (a ≤ b)) (by intro a b c; simp; omega)
      (by intro a b; simp; omega) (metaDupIndices dpb ++ [0])
    rw [List.pairwise_map]
    exact this.imp (by intro a b h; simp at h; exact Nat.mul_le_mul_right _ h)
  · refine (List.mergeSort_perm _ _).trans ?_
    refine List.Perm.trans ?_ ((List.mergeSort_perm _ _).map _).symm
    simp

theorem metaAllIndices_eq (dpb : Option Dpb) : metaAllIndices dpb = metaCopies (some true) dpb := by
  cases dpb with
  | none => rw [(C10_meta_positions ⟨1, 1, 0⟩ none).2]; simp [metaCopies]
  | some d => exact (C10_meta_positions d (some true)).1

/-- Metadata places, as the writes that fill them. -/
def metaWrites (dpb : Option Dpb) (mb : List Byte) : List (Nat × List Byte) := (metaCopies (some true) dpb).map fun k => (k, mb)

theorem writeMeta_eq (p : Encode.Param) (mb : List Byte) (d : Disk) :
    Encode.writeMeta p mb d = d.writes (File.atPos p.version.blockSize (metaWrites p.dpb mb)) := by
  unfold Encode.writeMeta File.atPos metaWrites
  rw [metaAllPos_eq, metaAllIndices_eq, List.map_map, List.foldl_map, ← Disk.foldl_writeAt]
  rfl

/-- Metadata writes actually done. -/
def metaWrites' (me : Bool) (dpb : Option Dpb) (mb : List Byte) : List (Nat × List Byte) :=
  if me then metaWrites dpb mb else []

theorem mem_dataWrites {v : Version} {uid : List Byte} {me : Option Bool} {dpb : Option Dpb} {start : Nat} {ps : List (List Byte)}
    {w : Nat × List Byte} (h : w ∈ Encode.dataWrites v uid me dpb start ps) :
    ∃ i p, ps[i]? = some p ∧ w = (dataWriteIndex (start + i) me dpb, blockBytes v uid (UInt32.ofNat (start + i)) p) := by
  unfold Encode.dataWrites at h
  rw [List.mem_mapIdx] at h
  obtain ⟨i, hi, rfl⟩ := h
  exact ⟨i, ps[i], List.getElem?_eq_getElem hi, rfl⟩

theorem dataWrites_mem {v : Version} {uid : List Byte} {me : Option Bool} {dpb : Option Dpb} {start : Nat} {ps : List (List Byte)}
    {i : Nat} {p : List Byte} (h : ps[i]? = some p) :
    (dataWriteIndex (start + i) me dpb, blockBytes v uid (UInt32.ofNat (start + i)) p) ∈
      Encode.dataWrites v uid me dpb start ps := by
  unfold Encode.dataWrites
  rw [List.mem_mapIdx]
  obtain ⟨hi, rfl⟩ := List.getElem?_eq_some_iff.1 h
  exact ⟨i, hi, rfl⟩

theorem metaWrites'_iff {me : Bool} {dpb : Option Dpb} {mb : List Byte} (hme : dpb ≠ none → me = true) {w : Nat × List Byte} :
    w ∈ metaWrites' me dpb mb ↔ w.1 ∈ metaCopies (some me) dpb ∧ w.2 = mb := by
  unfold metaWrites' metaWrites
  cases me with
  | true =>
    simp only [if_true, List.mem_map]
    constructor
    · rintro ⟨k, hk, rfl⟩; exact ⟨hk, rfl⟩
    · rintro ⟨h1, h2⟩; exact ⟨w.1, h1, by rw [← h2]⟩
  | false =>
    cases dpb with
    | none => simp [metaCopies]
    | some d => simp at hme

/-- The container made by writing provisional metadata, the data blocks, then the final metadata. -/
theorem image_of_writes {v : Version} {uid : Uid} {me : Bool} {dpb : Option Dpb} (hv : Valid dpb) (hme : dpb ≠ none → me = true)
    {ps : List (List Byte)} (hps : ∀ p ∈ ps, p.length = v.dataSize) {mb0 mb : List Byte} (hm0 : me = true → mb0.length = v.blockSize)
    (hm : me = true → mb.length = v.blockSize) :
    Image v uid.bytes (some me) dpb ps mb (File.writes [] (File.atPos v.blockSize
      (metaWrites' me dpb mb0 ++ Encode.dataWrites v uid.bytes (some me) dpb 1 ps ++ metaWrites' me dpb mb))) := by
  have hu : 0 < v.blockSize := by rw [← blockLen_eq]; exact blockLen_pos v
  have hbs := v.blockSize_eq
  set ws := metaWrites' me dpb mb0 ++ Encode.dataWrites v uid.bytes (some me) dpb 1 ps ++ metaWrites' me dpb mb with hws
  have hlen : ∀ w ∈ ws, w.2.length = v.blockSize := by
    intro w hw
    simp only [hws, List.mem_append] at hw
    have hmt : ∀ b, (me = true → b.length = v.blockSize) → w ∈ metaWrites' me dpb b → w.2.length = v.blockSize := by
      intro b hb h
      have hmt : me = true := by
        by_contra h'
        simp only [Bool.not_eq_true] at h'
        simp [metaWrites', h'] at h
      rw [((metaWrites'_iff hme).1 h).2]; exact hb hmt
    rcases hw with (h | h) | h
    · exact hmt _ hm0 h
    · obtain ⟨i, p, hp, rfl⟩ := mem_dataWrites h
      simp only
      rw [blockBytes_length, hps p (List.mem_of_getElem? hp), hbs]
    · exact hmt _ hm h
  obtain ⟨hL, hU⟩ := File.unit_writes hu ws hlen (f := []) (by simp)
  simp only [List.length_nil, Nat.zero_div] at hL hU
  set f := File.writes [] (File.atPos v.blockSize ws) with hf
  have hmax : ∀ w ∈ ws, w.1 < File.maxUnits 0 ws := (File.maxUnits_le.1 (Nat.le_refl (File.maxUnits 0 ws))).2
  have hdm : ∀ i, dataWriteIndex (1 + i) (some me) dpb ∉ metaCopies (some me) dpb :=
    fun i => C10_data_not_meta (some me) dpb hv (1 + i) (by omega)
  have hdata : ∀ (i : Nat) p, ps[i]? = some p → File.lastWrite ws (dataWriteIndex (1 + i) (some me) dpb) =
      some (blockBytes v uid.bytes (UInt32.ofNat (1 + i)) p) := by
    intro i p hp
    apply File.lastWrite_of_all
    · exact ⟨_, by simp only [hws, List.mem_append]; exact .inl (.inr (dataWrites_mem hp)), rfl⟩
    · intro w hw hk
      simp only [hws, List.mem_append] at hw
      rcases hw with (h | h) | h
      · have := ((metaWrites'_iff hme).1 h).1
        rw [hk] at this
        exact absurd this (hdm i)
      · obtain ⟨j, q, hq, rfl⟩ := mem_dataWrites h
        simp only at hk ⊢
        have := C10_data_injective (some me) dpb hv (1 + j) (1 + i) (by omega) (by omega) hk
        have hij : j = i := by omega
        subst hij
        rw [hp] at hq
        simp at hq
        rw [hq]
      · have := ((metaWrites'_iff hme).1 h).1
        rw [hk] at this
        exact absurd this (hdm i)
  have hmeta : ∀ k ∈ metaCopies (some me) dpb, File.lastWrite ws k = some mb := by
    intro k hk
    rw [hws, File.lastWrite_append, File.lastWrite_of_all (d := mb) (ws := metaWrites' me dpb mb)]
    · rfl
    · exact ⟨(k, mb), (metaWrites'_iff hme).2 ⟨hk, rfl⟩, rfl⟩
    · intro w hw _; exact ((metaWrites'_iff hme).1 hw).2
  refine ⟨?_, ?_, ?_, ?_, ?_⟩
  · rw [blockLen_eq, hL]; exact Nat.dvd_mul_left _ _
  · intro i p hp
    rw [blockLen_eq, Nat.add_comm i 1]
    have := hU _ (hmax _ (by simp only [hws, List.mem_append]; exact .inl (.inr (dataWrites_mem (start := 1) hp))))
    simp only [hdata i p hp, Option.getD_some] at this
    exact this
  · intro k hk
    rw [blockLen_eq]
    have := hU k (hmax (k, mb) (by simp only [hws, List.mem_append]; exact .inr ((metaWrites'_iff hme).2 ⟨hk, rfl⟩)))
    simp only [hmeta k hk, Option.getD_some] at this
    exact this
  · intro k hk hkm hkd
    rw [blockLen_eq] at hk ⊢
    have hk' : k < File.maxUnits 0 ws := by
      rw [hL] at hk; exact Nat.lt_of_mul_lt_mul_right hk
    have := hU k hk'
    rw [File.lastWrite_none.2] at this
    · rw [Option.getD_none, File.unit0, if_neg (by simp)] at this
      exact this
    · intro w hw hwk
      simp only [hws, List.mem_append] at hw
      rcases hw with (h | h) | h
      · have := ((metaWrites'_iff hme).1 h).1
        rw [hwk] at this; exact hkm this
      · obtain ⟨j, q, hq, rfl⟩ := mem_dataWrites h
        simp only at hwk
        exact hkd j (List.getElem?_eq_some_iff.1 hq).1 (by rw [Nat.add_comm]; exact hwk)
      · have := ((metaWrites'_iff hme).1 h).1
        rw [hwk] at this; exact hkm this
  · intro k hk
    rw [blockLen_eq, hL] at hk
    have hk' : File.maxUnits 0 ws = k + 1 := Nat.eq_of_mul_eq_mul_right hu hk
    by_contra hno
    rw [not_or, not_exists] at hno
    have : File.maxUnits 0 ws ≤ k := by
      rw [File.maxUnits_le]
      refine ⟨by omega, ?_⟩
      intro w hw
      have hlt := hmax w hw
      rw [hk'] at hlt
      have hne : w.1 ≠ k := by
        intro hwk
        simp only [hws, List.mem_append] at hw
        rcases hw with (h | h) | h
        · have := ((metaWrites'_iff hme).1 h).1
          rw [hwk] at this; exact hno.1 this
        · obtain ⟨j, q, hq, rfl⟩ := mem_dataWrites h
          simp only at hwk
          exact hno.2 j ⟨(List.getElem?_eq_some_iff.1 hq).1, by rw [Nat.add_comm]; exact hwk⟩
        · have := ((metaWrites'_iff hme).1 h).1
          rw [hwk] at this; exact hno.1 this
      omega
    omega

/-- A container is determined by its payloads and metadata. -/
theorem Image.unique {v : Version} {uid : Uid} {me : Option Bool} {dpb : Option Dpb} {ps : List (List Byte)}
    (hps : ∀ p ∈ ps, p.length = v.dataSize) {mb : List Byte} (hm : metaCopies me dpb ≠ [] → mb.length = v.blockSize) {f g : File}
    (hf : Image v uid.bytes me dpb ps mb f) (hg : Image v uid.bytes me dpb ps mb g) : f = g := by
  have hu : 0 < blockLen v := blockLen_pos v
  -- used places lie within any image
  have hin : ∀ {f : File}, Image v uid.bytes me dpb ps mb f → ∀ k,
      (k ∈ metaCopies me dpb ∨ ∃ i < ps.length, dataWriteIndex (i + 1) me dpb = k) → (k + 1) * blockLen v ≤ f.length := by
    intro f hf k hk
    have hl : (f.readAt (k * blockLen v) (blockLen v)).length = blockLen v := by
      rcases hk with hk | ⟨i, hi, rfl⟩
      · rw [hf.metas k hk, hm (by intro h'; rw [h'] at hk; simp at hk), blockLen_eq]
      · rw [hf.data i _ (List.getElem?_eq_getElem hi), blockBytes_length, hps _ (List.getElem_mem hi), blockLen_eq,
          v.blockSize_eq]
    rw [File.readAt_length] at hl
    rw [Nat.succ_mul]
    omega
  have hle : ∀ {f g : File}, Image v uid.bytes me dpb ps mb f → Image v uid.bytes me dpb ps mb g → f.length ≤ g.length := by
    intro f g hf hg
    obtain ⟨n, hn⟩ := hf.aligned
    cases n with
    | zero => rw [hn]; simp
    | succ k =>
      rw [Nat.mul_comm] at hn
      have := hin hg k (hf.tight k hn)
      omega
  have hlen := Nat.le_antisymm (hle hf hg) (hle hg hf)
  obtain ⟨n, hn⟩ := hf.aligned
  refine File.ext_units hu n (by rw [hn, Nat.mul_comm]) (by rw [← hlen, hn, Nat.mul_comm]) ?_
  intro k hk
  unfold File.unit
  have hkl : k * blockLen v < f.length := by rw [hn, Nat.mul_comm]; exact Nat.mul_lt_mul_of_pos_left hk hu
  by_cases h1 : k ∈ metaCopies me dpb
  · rw [hf.metas k h1, hg.metas k h1]
  · by_cases h2 : ∃ i < ps.length, dataWriteIndex (i + 1) me dpb = k
    · obtain ⟨i, hi, rfl⟩ := h2
      rw [hf.data i _ (List.getElem?_eq_getElem hi), hg.data i _ (List.getElem?_eq_getElem hi)]
    · have h2' : ∀ i < ps.length, dataWriteIndex (i + 1) me dpb ≠ k := fun i hi he => h2 ⟨i, hi, he⟩
      rw [hf.gaps k hkl h1 h2', hg.gaps k (by omega) h1 h2']

end Verif
