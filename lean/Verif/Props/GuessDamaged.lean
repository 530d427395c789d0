import Verif.Props.Repair
/-!
# C58: damage does not mislead the commands about the burst level
-/

namespace Verif.Scan
open ScanSpec Format LayoutSpec Layout ContainerSpec RepairSpec FileUtils

/-- The samples taken from any file. -/
theorem samples_of {v : Version} {uid : Uid} {d : Dpb} {ps : List (List Byte)} {c : File} {ref : Block} (h : Intact v uid d ps c ref) (f : File) :
    ∃ samples : List (Option Nat), guessBurst f none false ref = .ok (guessLevel d.data d.parity samples) ∧
      (∀ k, k < d.parity + 1002 → samples[k]? = some ((blockAt ref f (k * blockLen v)).map (·.header.seq.toNat))) ∧
      samples.length = d.parity + 1002 := by
  obtain ⟨ms, hm, hrd, hrp⟩ := h.fields
  refine ⟨sampleLoop f ref (fun _ b => some b.header.seq.toNat) (1 + d.parity + maxBurst + 1) 0 Block.dummy 0, ?_, ?_, ?_⟩
  · unfold guessBurst
    rw [h.version, h.usesRs, getRsd_meta hm, getRsp_meta hm, hrd, hrp]
    rfl
  · intro k hk
    rw [sampleLoop_spec, List.getElem?_map, List.getElem?_range (by unfold maxBurst; omega)]
    simp only [Option.map_some, Nat.zero_add, Option.some.injEq]
    rw [Block.size, h.version, ← blockLen_eq]
    cases blockAt ref f (k * blockLen v) <;> rfl
  · rw [sampleLoop_spec, List.length_map, List.length_range]; unfold maxBurst; omega

/-- Level `l` agrees with every block that can be read among the first `parity + 1002` places. -/
def Fits (d : Dpb) (f : File) (ref : Block) (l : Nat) : Prop :=
  ∀ k < d.parity + 1002, ∀ b, blockAt ref f (k * blockLen ref.header.version) = some b →
    b.header.seq.toNat = seqAtIndex k none (some ⟨d.data, d.parity, l⟩)

/-- **C58.** In a container with blocks that are damaged but none that are misplaced, the smallest level is taken that agrees with every block that
can be read; it is at most the true one.  If all levels agree none is taken. -/
theorem C58_fits {v : Version} {uid : Uid} {d : Dpb} {ps : List (List Byte)} {c f : File} {ref : Block} (h : Intact v uid d ps c ref)
    (hf : ∀ k < d.parity + 1002, piece v f k = piece v c k ∨ ¬ ValidAt v uid f k) :
    (guessBurst f none false ref = .ok none ∧ ∀ l ≤ 1000, Fits d f ref l) ∨
    ∃ l ≤ d.burst, guessBurst f none false ref = .ok (some l) ∧ Fits d f ref l ∧
      (∀ j < l, ¬ Fits d f ref j) ∧ ∃ j ≤ 1000, ¬ Fits d f ref j := by
  obtain ⟨samples, hg, hs, hsl⟩ := samples_of h f
  have hv := h.version
  have hfit : ∀ l, mismatches ⟨d.data, d.parity, l⟩ 0 samples = 0 ↔ Fits d f ref l := by
    intro l
    rw [mismatches_eq_zero]
    unfold Fits
    rw [hv]
    constructor
    · intro hm k hk b hb
      have := hm k b.header.seq.toNat (by rw [hs k hk, hb]; rfl)
      rwa [Nat.zero_add] at this
    · intro hm k seq hk
      have hkl : k < d.parity + 1002 := by
        have := (List.getElem?_eq_some_iff.1 hk).1
        omega
      rw [hs k hkl] at hk
      cases hb : blockAt ref f (k * blockLen v) with
      | none => rw [hb] at hk; simp at hk
      | some b =>
        rw [hb] at hk
        simp only [Option.map_some, Option.some.injEq] at hk
        subst hk
        rw [Nat.zero_add]
        exact hm k hkl b hb
  have h0 : mismatches ⟨d.data, d.parity, d.burst⟩ 0 samples = 0 := by
    refine (hfit _).2 fun k hk b hb => ?_
    rw [hv] at hb
    refine true_level_fits h ?_
    rw [blockAt_iff, hv, h.refUid] at hb ⊢
    rcases hf k hk with e | e
    · unfold piece File.readAt at e
      rwa [e] at hb
    · obtain ⟨s, p, hb, -⟩ := hb
      exact absurd ⟨s, p, hb⟩ e
  have hb := h.burst
  rw [hg]
  rcases guessLevel_spec d.data d.parity samples _ rfl with ⟨h1, h2⟩ | ⟨l, h1, h2, h3, h4, h5⟩
  · refine .inl ⟨by rw [h1], ?_⟩
    intro l hl
    exact (hfit l).1 (by rw [h2 l hl d.burst hb]; exact h0)
  · have hl0 : mismatches ⟨d.data, d.parity, l⟩ 0 samples = 0 := by
      have := h3 d.burst hb
      omega
    refine .inr ⟨l, ?_, by rw [h1], (hfit l).1 hl0, ?_, ?_⟩
    · by_contra hc
      have := h4 d.burst (by omega)
      omega
    · intro j hj hF
      have := h4 j hj
      rw [(hfit j).2 hF] at this
      omega
    · obtain ⟨j, hj, hlt⟩ := h5
      refine ⟨j, hj, fun hF => ?_⟩
      rw [(hfit j).2 hF] at hlt
      omega

/-! ### Which blocks rule out the wrong levels -/

/-- Place of a block of the first set. -/
theorem place_first {D P l j : Nat} (hj : j < D + P) :
    dataWriteIndex (j + 1) none (some ⟨D, P, l⟩) = if l = 0 then 1 + P + j else 1 + min j P + j * l := by
  unfold dataWriteIndex
  by_cases h0 : l = 0
  · simp [h0]
  · simp only [if_neg h0, Nat.add_sub_cancel]
    have h1 : j < (D + P) * l := Nat.lt_of_lt_of_le hj (Nat.le_mul_of_pos_right _ (by omega))
    rw [Nat.div_eq_of_lt h1, Nat.mod_eq_of_lt h1, Nat.div_eq_of_lt hj, Nat.mod_eq_of_lt hj]
    simp only [if_true, Nat.mul_zero, Nat.add_zero]
    split <;> omega

/-- The number predicted for a place that is not meant for metadata is that of the block placed there. -/
theorem place_of_seqAt {D P l k s : Nat} (hD : 1 ≤ D) (hDP : D + P ≤ 256) (hl : l ≤ 1000) (hk : k ≤ 2000) (hs : 1 ≤ s)
    (h : seqAtIndex k none (some ⟨D, P, l⟩) = s) : dataWriteIndex s none (some ⟨D, P, l⟩) = k := by
  have hval : Valid (some ⟨D, P, l⟩) := by intro x hx; cases hx; exact hD
  rcases C11_no_gaps none (some ⟨D, P, l⟩) hval k with hm | ⟨s', h1, h2, -⟩
  · rw [C11_seq_of_meta none _ k hm] at h
    omega
  · have hlt : s' < 2 ^ 32 := by
      unfold dataWriteIndex at h2
      by_cases h0 : l = 0
      · simp only [h0, if_true] at h2
        omega
      · simp only [if_neg h0] at h2
        have hS : (D + P) * l ≤ 256 * 1000 := Nat.mul_le_mul hDP hl
        have hS0 : 0 < (D + P) * l := Nat.mul_pos (by omega) (by omega)
        have hd := Nat.div_add_mod (s' - 1) ((D + P) * l)
        have hm := Nat.mod_lt (s' - 1) hS0
        generalize (s' - 1) % ((D + P) * l) = r at *
        generalize hq : (D + P) * l * ((s' - 1) / ((D + P) * l)) = q at *
        have : q ≤ 2000 := by
          refine Nat.le_trans ?_ hk
          rw [← h2]
          generalize r / (D + P) = x
          omega
        omega
    rw [← h2, C11_seq_of_position none _ hval s' h1 hlt] at h
    rw [← h, h2]

/-- A level that agrees with a block that is still there puts it where the true level does. -/
theorem same_place {v : Version} {uid : Uid} {d : Dpb} {ps : List (List Byte)} {c f : File} {ref : Block} (h : Intact v uid d ps c ref)
    {j : Nat} (h2 : j < d.data + d.parity) (h3 : j < ps.length) (h4 : j * d.burst ≤ 1000)
    (h5 : piece v f (placeOf d (j + 1)) = piece v c (placeOf d (j + 1))) {l : Nat} (hl : l ≤ 1000) (hF : Fits d f ref l) :
    (if l = 0 then 1 + d.parity + j else 1 + min j d.parity + j * l) =
      if d.burst = 0 then 1 + d.parity + j else 1 + min j d.parity + j * d.burst := by
  have hD := h.data
  have hDP := h.total
  have hpl := place_first (D := d.data) (P := d.parity) (l := d.burst) h2
  have hplace : placeOf d (j + 1) ≤ d.parity + 1001 := by
    unfold placeOf
    rw [hpl]
    split <;> omega
  obtain ⟨mb, mp, hmb, him⟩ := h.image
  have hget := List.getElem?_eq_getElem h3
  have hcnt := h.count
  have hat : blockAt ref f (placeOf d (j + 1) * blockLen ref.header.version) = some (blockOf v uid (UInt32.ofNat (j + 1)) ps[j]) := by
    rw [blockAt_iff, h.version, h.refUid]
    refine ⟨_, _, ⟨?_, ?_⟩, rfl⟩
    · have hd := him.data _ _ hget
      unfold piece File.readAt at h5
      unfold File.readAt at hd
      rw [h5]
      exact hd
    · rw [h.payloads _ (List.getElem_mem h3), dataSize_eq]
  have := hF _ (by omega) _ hat
  have hseq : (blockOf v uid (UInt32.ofNat (j + 1)) ps[j]).header.seq.toNat = j + 1 := ofNat_toNat32 (by omega)
  rw [hseq] at this
  have := place_of_seqAt hD hDP hl (by omega) (by omega) this.symm
  rw [place_first h2] at this
  unfold placeOf at this
  rw [hpl] at this
  exact this

/-- **C58.** The true level is guessed if of the first set there are still a block other than the first and, unless the level is 0, one whose
place differs from that in a container of level 0. -/
theorem C58_exact {v : Version} {uid : Uid} {d : Dpb} {ps : List (List Byte)} {c f : File} {ref : Block} (h : Intact v uid d ps c ref)
    (hf : ∀ k < d.parity + 1002, piece v f k = piece v c k ∨ ¬ ValidAt v uid f k) (i j : Nat)
    (hi : i < d.data + d.parity ∧ i < ps.length ∧ i * d.burst ≤ 1000 ∧ piece v f (placeOf d (i + 1)) = piece v c (placeOf d (i + 1)))
    (hj : j < d.data + d.parity ∧ j < ps.length ∧ j * d.burst ≤ 1000 ∧ piece v f (placeOf d (j + 1)) = piece v c (placeOf d (j + 1)))
    (h1 : 1 ≤ j) (h2 : d.burst = 0 ∨ placeOf d (i + 1) ≠ placeOf ⟨d.data, d.parity, 0⟩ (i + 1)) :
    guessBurst f none false ref = .ok (some d.burst) := by
  have hB := h.burst
  unfold maxBurst at hB
  have hDP := h.total
  have hnot : ∀ l ≤ 1000, l ≠ d.burst → Fits d f ref l → l ≠ 0 ∧ d.burst = 0 ∧ j * l + min j d.parity = d.parity + j := by
    intro l hl hne hF
    have ei := same_place h hi.1 hi.2.1 hi.2.2.1 hi.2.2.2 hl hF
    have ej := same_place h hj.1 hj.2.1 hj.2.2.1 hj.2.2.2 hl hF
    unfold placeOf at h2
    rw [place_first hi.1, place_first hi.1] at h2
    by_cases hl0 : l = 0
    · subst hl0
      rcases h2 with h2 | h2
      · exact absurd h2.symm hne
      · exact absurd ei.symm h2
    · rw [if_neg hl0] at ej
      by_cases hb0 : d.burst = 0
      · rw [if_pos hb0] at ej
        exact ⟨hl0, hb0, by omega⟩
      · exfalso
        rw [if_neg hb0] at ej
        exact hne (Nat.eq_of_mul_eq_mul_left h1 (by omega))
  rcases C58_fits h hf with ⟨-, hall⟩ | ⟨l, hl, hg, hF, -⟩
  · exfalso
    by_cases hb0 : d.burst = 0
    · have := (hnot 1000 (by omega) (by omega) (hall 1000 (by omega))).2.2
      omega
    · exact (hnot 0 (by omega) (by omega) (hall 0 (by omega))).1 rfl
  · by_cases hne : l = d.burst
    · rw [hg, hne]
    · have := hnot l (by omega) hne hF
      omega

/-- **C58.** The true level is guessed if the last copy of the metadata is still there, provided it is among the blocks that are looked at. -/
theorem C58_exact_meta {v : Version} {uid : Uid} {d : Dpb} {ps : List (List Byte)} {c f : File} {ref : Block} (h : Intact v uid d ps c ref)
    (hf : ∀ k < d.parity + 1002, piece v f k = piece v c k ∨ ¬ ValidAt v uid f k) (h1 : d.parity * d.burst ≤ 1001)
    (h2 : piece v f (d.parity * (1 + d.burst)) = piece v c (d.parity * (1 + d.burst))) :
    guessBurst f none false ref = .ok (some d.burst) := by
  have hB := h.burst
  unfold maxBurst at hB
  have hDP := h.total
  have hD := h.data
  have hP := h.parity
  obtain ⟨mb, mp, hmb, him⟩ := h.image
  have hk : d.parity * (1 + d.burst) = d.parity + d.parity * d.burst := by rw [Nat.mul_add, Nat.mul_one]
  have hat : blockAt ref f (d.parity * (1 + d.burst) * blockLen ref.header.version) = some (blockOf v uid 0 mp) := by
    rw [blockAt_iff, h.version, h.refUid]
    refine ⟨_, _, ?_, rfl⟩
    have := him.metas (d.parity * (1 + d.burst)) (by
      simp only [metaCopies, List.mem_map, List.mem_range]
      exact ⟨d.parity, by omega, rfl⟩)
    unfold piece File.readAt at h2
    unfold File.readAt at this
    rw [h2, this]
    exact hmb
  -- a level that takes this place for that of a copy of the metadata is not smaller than the true one
  have hnot : ∀ l ≤ 1000, Fits d f ref l → ∃ x ≤ d.parity, x * (1 + l) = d.parity * (1 + d.burst) := by
    intro l hl hF
    have e := hF _ (by omega) _ hat
    have e : 0 = seqAtIndex (d.parity * (1 + d.burst)) none (some ⟨d.data, d.parity, l⟩) := e
    by_contra hc
    refine seqAtIndex_pos hD hDP hl (by omega) ?_ e.symm
    intro x hx hx'
    exact hc ⟨x, hx, hx'.symm⟩
  have hsmall : ∀ l ≤ 1000, Fits d f ref l → d.burst ≤ l := by
    intro l hl hF
    obtain ⟨x, hx, e⟩ := hnot l hl hF
    have g1 : x * (1 + l) ≤ d.parity * (1 + l) := Nat.mul_le_mul_right _ hx
    have := Nat.le_of_mul_le_mul_left (e ▸ g1) hP
    omega
  rcases C58_fits h hf with ⟨-, hall⟩ | ⟨l, hl, hg, hF, -⟩
  · exfalso
    have hb0 := hsmall 0 (by omega) (hall 0 (by omega))
    obtain ⟨x, -, e⟩ := hnot 1000 (by omega) (hall 1000 (by omega))
    rw [Nat.le_zero.1 hb0] at e
    omega
  · rw [hg, Nat.le_antisymm hl (hsmall l (by omega) hF)]

open Classical in
/-- Of the first `parity + 2` blocks of the first set two are unchanged if all but `parity` of the set are. -/
theorem two_unchanged {v : Version} {d : Dpb} {c f : File} (hD : 2 ≤ d.data) (hrec : d.data ≤ unchangedIn v d c f 0) :
    2 ≤ ((Finset.range (d.parity + 2)).filter fun j => piece v f (placeOf d (j + 1)) = piece v c (placeOf d (j + 1))).card := by
  have e : unchangedIn v d c f 0 =
      ((Finset.range (d.data + d.parity)).filter fun j => piece v f (placeOf d (j + 1)) = piece v c (placeOf d (j + 1))).card := by
    unfold unchangedIn
    rw [List.countP_eq_length_filter]
    simp only [Nat.zero_mul, Nat.zero_add]
    rw [Finset.card_def]
    simp only [Finset.filter_val, Finset.range_val, Multiset.range, Multiset.filter_coe, Multiset.coe_card]
  rw [e] at hrec
  have hsub : ((Finset.range (d.data + d.parity)).filter fun j => piece v f (placeOf d (j + 1)) = piece v c (placeOf d (j + 1))) ⊆
      ((Finset.range (d.parity + 2)).filter fun j => piece v f (placeOf d (j + 1)) = piece v c (placeOf d (j + 1))) ∪
        Finset.Ico (d.parity + 2) (d.data + d.parity) := by
    intro j hj
    simp only [Finset.mem_filter, Finset.mem_range, Finset.mem_union, Finset.mem_Ico] at hj ⊢
    by_cases h : j < d.parity + 2
    · exact .inl ⟨h, hj.2⟩
    · exact .inr ⟨by omega, hj.1⟩
  have h1 := (Finset.card_le_card hsub).trans (Finset.card_union_le _ _)
  rw [Nat.card_Ico] at h1
  omega

/-- **C58.** The true level is guessed if no more blocks of the first set are lost than can be restored, provided the sets have at least two data
blocks and the level is not 1. -/
theorem C58_recoverable {v : Version} {uid : Uid} {d : Dpb} {ps : List (List Byte)} {c f : File} {ref : Block} (h : Intact v uid d ps c ref)
    (hf : ∀ k < d.parity + 1002, piece v f k = piece v c k ∨ ¬ ValidAt v uid f k) (hD : 2 ≤ d.data) (hset : d.data + d.parity ≤ ps.length)
    (hrec : d.data ≤ unchangedIn v d c f 0) (hlook : (d.parity + 1) * d.burst ≤ 1000) (hB : d.burst ≠ 1) :
    guessBurst f none false ref = .ok (some d.burst) := by
  classical
  have hP := h.parity
  have h2 := two_unchanged hD hrec
  have hsample : ∀ i, i < d.parity + 2 → i * d.burst ≤ 1000 := fun i hi => (Nat.mul_le_mul_right _ (by omega)).trans hlook
  obtain ⟨i, hi, hi'⟩ : ∃ i ∈ (Finset.range (d.parity + 2)).filter fun j => piece v f (placeOf d (j + 1)) = piece v c (placeOf d (j + 1)),
      d.burst = 0 ∨ i * d.burst ≠ d.parity := by
    by_contra hc
    push Not at hc
    have : ((Finset.range (d.parity + 2)).filter fun j => piece v f (placeOf d (j + 1)) = piece v c (placeOf d (j + 1))) ⊆
        {d.parity / d.burst} := by
      intro i hi
      obtain ⟨g1, g2⟩ := hc i hi
      rw [Finset.mem_singleton, ← g2, Nat.mul_div_cancel _ (by omega)]
    have := Finset.card_le_card this
    simp only [Finset.card_singleton] at this
    omega
  obtain ⟨j, hj, hj'⟩ : ∃ j ∈ (Finset.range (d.parity + 2)).filter fun j => piece v f (placeOf d (j + 1)) = piece v c (placeOf d (j + 1)),
      1 ≤ j := by
    by_contra hc
    push Not at hc
    have : ((Finset.range (d.parity + 2)).filter fun j => piece v f (placeOf d (j + 1)) = piece v c (placeOf d (j + 1))) ⊆ {0} := by
      intro i hi
      have := hc i hi
      rw [Finset.mem_singleton]
      omega
    have := Finset.card_le_card this
    simp only [Finset.card_singleton] at this
    omega
  simp only [Finset.mem_filter, Finset.mem_range] at hi hj
  refine C58_exact h hf i j ⟨by omega, by omega, hsample i hi.1, hi.2⟩ ⟨by omega, by omega, hsample j hj.1, hj.2⟩ hj' ?_
  by_cases h0 : d.burst = 0
  · exact .inl h0
  refine .inr ?_
  unfold placeOf
  rw [place_first (by omega), place_first (by omega)]
  simp only [if_true]
  rw [if_neg h0]
  rcases Nat.lt_or_ge d.parity i with hgt | hle
  · have : i * 2 ≤ i * d.burst := Nat.mul_le_mul_left _ (by omega)
    omega
  · omega

end Verif.Scan

namespace Verif.Repair
open Format LayoutSpec Layout ContainerSpec RepairSpec FileUtils Scan

/-- A container as the guess sees it. -/
theorem Sound.intact {rs : RsCodec} (laws : rs.Laws) {v : Version} {uid : Uid} {d : Dpb} {bytes mp : List Byte} {c : File}
    (h : Sound rs v uid d bytes mp c) (hB : d.burst ≤ 1000) :
    Intact v uid d (payloads rs v (some d) (fileChunks v bytes)) c (blockOf v uid 0 mp) := by
  obtain ⟨h1, h2, h3⟩ := shards_ok h.data h.parity
  obtain ⟨hcnt, hps⟩ := payloads_count laws (v := v) h1 h2 h3 bytes
  have hmp : mp.length = blockLen v - 16 := metasToBytes_length h.plain
  have hn := h.numbers
  unfold lastSeqNum at hn
  exact {
    usesRs := h.rs
    data := h1
    parity := h2
    total := h3
    burst := hB
    payloads := fun p hp => by rw [hps p hp, dataSize_eq]
    count := by omega
    image := ⟨_, mp, ⟨rfl, hmp⟩, h.container⟩
    version := rfl
    refUid := rfl
    fields := ⟨_, rfl, h.data, h.parity⟩ }

/-- A container of a non-empty file has at least one set. -/
theorem first_set {rs : RsCodec} (laws : rs.Laws) {v : Version} {d : Dpb} {bytes : List Byte} (h1 : 1 ≤ d.data) (h2 : 1 ≤ d.parity)
    (h3 : d.data + d.parity ≤ 256) (hne : bytes ≠ []) :
    d.data + d.parity ≤ (payloads rs v (some d) (fileChunks v bytes)).length := by
  rw [(payloads_count laws (v := v) h1 h2 h3 bytes).1]
  unfold blocksFor
  exact Nat.le_mul_of_pos_left _ (ceilDiv_pos (ceilDiv_pos (List.length_pos_iff.2 hne) _) _)

/-- The level is guessed right whenever the damage is within what the level promises. -/
theorem guess_of_bursts {rs : RsCodec} (laws : rs.Laws) {v : Version} {uid : Uid} {d : Dpb} {bytes mp : List Byte} {c f : File}
    (h : Sound rs v uid d bytes mp c) (hB : 1 ≤ d.burst) (hD : 2 ≤ d.data) (hlook : (d.parity + 1) * d.burst ≤ 1000) (hne : bytes ≠ [])
    {bursts : List (Nat × Nat)} (hsize : ∀ b ∈ bursts, b.2 ≤ d.burst) (hcount : ∀ s, (within d bursts s).length ≤ d.parity)
    (hdmg : ∀ k, piece v f k = piece v c k ∨ hit bursts k = true ∧ ¬ ValidAt v uid f k) :
    guessBurst f none false (blockOf v uid 0 mp) = .ok (some d.burst) := by
  obtain ⟨h1, h2, h3⟩ := shards_ok h.data h.parity
  have hB' : d.burst ≤ 1000 := (Nat.le_mul_of_pos_left _ (by omega)).trans hlook
  have hI := h.intact laws hB'
  have hset := first_set laws (v := v) h1 h2 h3 hne
  have hf : ∀ k < d.parity + 1002, piece v f k = piece v c k ∨ ¬ ValidAt v uid f k := fun k _ => (hdmg k).imp_right (·.2)
  have hout : ∀ k, hit bursts k = false → piece v f k = piece v c k := by
    intro k hk
    rcases hdmg k with h | h
    · exact h
    · rw [hk] at h; simp at h
  have hrec : d.data ≤ unchangedIn v d c f 0 := by
    refine (C12_super_sets d hB none bursts hsize hcount 0).trans ?_
    unfold unchangedIn
    apply List.countP_mono_left
    intro j _ hj
    simp only [decide_eq_true_eq]
    apply hout
    show hit bursts (dataWriteIndex (0 * (d.data + d.parity) + j + 1) none (some d)) = false
    simpa using hj
  by_cases hB1 : d.burst = 1
  · classical
    by_cases hex : ∃ i < d.parity, hit bursts (placeOf d (i + 1)) = false
    · obtain ⟨i, hi, hi'⟩ := hex
      obtain ⟨j, hj, hj'⟩ : ∃ j ∈ (Finset.range (d.parity + 2)).filter fun j => piece v f (placeOf d (j + 1)) = piece v c (placeOf d (j + 1)),
          1 ≤ j := by
        by_contra hc
        push Not at hc
        have : ((Finset.range (d.parity + 2)).filter fun j => piece v f (placeOf d (j + 1)) = piece v c (placeOf d (j + 1))) ⊆ {0} := by
          intro i hi
          have := hc i hi
          rw [Finset.mem_singleton]
          omega
        have := Finset.card_le_card this
        have h2 := two_unchanged hD hrec
        simp only [Finset.card_singleton] at this
        omega
      simp only [Finset.mem_filter, Finset.mem_range] at hj
      refine C58_exact hI hf i j ⟨by omega, by omega, by rw [hB1]; omega, hout _ hi'⟩ ⟨by omega, by omega, by rw [hB1]; omega, hj.2⟩ hj' ?_
      refine .inr ?_
      unfold placeOf
      rw [place_first (by omega), place_first (by omega), hB1]
      simp only [if_true, if_neg (show ¬ (1 = 0) by omega)]
      omega
    · -- the bursts are used up
      push Not at hex
      refine C58_exact_meta hI hf (by rw [hB1]; omega) (hout _ ?_)
      rw [hB1]
      by_contra hlast
      have hstart : ∀ k, superSet d k = 0 → hit bursts k = true → k ∈ ((within d bursts 0).map (·.1)).toFinset := by
        intro k hk hh
        simp only [hit, List.any_eq_true, Bool.and_eq_true, decide_eq_true_eq] at hh
        obtain ⟨b, hb, g1, g2⟩ := hh
        have g3 := hsize b hb
        rw [List.mem_toFinset, List.mem_map]
        refine ⟨b, List.mem_filter.2 ⟨hb, ?_⟩, by omega⟩
        simp only [List.any_eq_true, List.mem_range, beq_iff_eq]
        exact ⟨0, by omega, by rw [Nat.add_zero, show b.1 = k by omega, hk]⟩
      have hsup : ∀ k, k ≤ 2 * d.parity → superSet d k = 0 := by
        intro k hk
        unfold superSet
        rw [hB1, Nat.mul_one]
        exact Nat.div_eq_of_lt (by omega)
      have hsub : insert (2 * d.parity) ((Finset.range d.parity).image fun i => 1 + 2 * i) ⊆ ((within d bursts 0).map (·.1)).toFinset := by
        intro k hk
        rw [Finset.mem_insert, Finset.mem_image] at hk
        rcases hk with rfl | ⟨i, hi, rfl⟩
        · refine hstart _ (hsup _ (Nat.le_refl _)) ?_
          simp only [Bool.not_eq_false] at hlast
          rwa [show d.parity * (1 + 1) = 2 * d.parity by omega] at hlast
        · rw [Finset.mem_range] at hi
          refine hstart _ (hsup _ (by omega)) ?_
          have := hex i hi
          unfold placeOf at this
          rw [place_first (by omega), hB1, if_neg (by omega), show 1 + min i d.parity + i * 1 = 1 + 2 * i by omega] at this
          simpa using this
      have hcard := Finset.card_le_card hsub
      rw [Finset.card_insert_of_notMem (by
        rw [Finset.mem_image]
        rintro ⟨i, -, e⟩
        omega), Finset.card_image_of_injective _ (by intro a b e; simp only at e; omega), Finset.card_range] at hcard
      have := hcard.trans (List.toFinset_card_le _)
      rw [List.length_map] at this
      have := hcount 0
      omega
  · exact C58_recoverable hI hf hD hset hrec hlook hB1

/-- **C58.** The promise of the burst error resistance level holds as well if `repair` is not told the level, for containers of non-empty files
whose sets have at least two data blocks, provided the blocks that `repair` looks at in order to guess the level reach far enough
(`(parity + 1) * burst ≤ 1000`). -/
theorem C58_repair_partial (E : Env) (laws : E.rs.Laws) (hE : E.Calm) (v : Version) (uid : Uid) (d : Dpb) (bytes mp : List Byte) (c f : File)
    (h : Sound E.rs v uid d bytes mp c) (hB : 1 ≤ d.burst) (hD : 2 ≤ d.data) (hlook : (d.parity + 1) * d.burst ≤ 1000) (hne : bytes ≠ [])
    (bursts : List (Nat × Nat)) (hlen : f.length = c.length)
    (hsize : ∀ b ∈ bursts, b.2 ≤ d.burst) (hcount : ∀ s, (within d bursts s).length ≤ d.parity)
    (hdmg : ∀ k, piece v f k = piece v c k ∨ hit bursts k = true ∧ Broken v (piece v f k)) :
    ∃ dk st, repairFile E none false f = .ok (some (dk, st)) ∧ st.repairFailed = 0 ∧
      (∀ k ∈ metaCopies (some true) (some d), piece v dk.file k = piece v c k) ∧
      (∀ s, 1 ≤ s → s ≤ (payloads E.rs v (some d) (fileChunks v bytes)).length →
        piece v dk.file (placeOf d s) = piece v c (placeOf d s)) ∧
      (GapsClean v d (payloads E.rs v (some d) (fileChunks v bytes)).length f → dk.file = c) := by
  obtain ⟨hc, hdam, hrec⟩ := case_of_bursts laws hE h hB hlen hsize hcount hdmg
  have hg := guess_of_bursts laws h hB hD hlook hne hsize hcount fun k => (hdmg k).imp_right fun hh => ⟨hh.1, by
    rintro ⟨sq, p, hb⟩
    exact Broken.not_block hh.2 hb⟩
  have hc' : Case E none v uid d bytes mp c f := ⟨hc.container, hc.numbers, hc.plain, hc.sized,
    ⟨hc.sees.found, hc.sees.rs, hc.sees.data, hc.sees.parity, .inr ⟨rfl, hg⟩⟩⟩
  obtain ⟨h1, h2, h3⟩ := shards_ok h.data h.parity
  obtain ⟨hcnt, hps⟩ := payloads_count laws (v := v) h1 h2 h3 bytes
  have hmp := metasToBytes_length h.plain
  obtain ⟨dk, st, r1, r2, r3, r4, r5⟩ := blocks_restored laws hE hc' hdam hrec
  exact ⟨dk, st, r1, r2, r4, r5, fun hgap => near_complete h.container hps hmp hgap r3 r4 r5⟩

/-- **C58, C21.** Encoding, damage in bursts within the promise (none of it between the blocks), repairing and decoding give back the input, without the
level being stated to any command but `encode`. -/
theorem C58_roundtrip_partial (E : Encode.Env) (p : Encode.Param) (hE : E.Ok p) (hok : p.Ok) (inp : Encode.Input) (hn : Encode.NamesOk p inp)
    (dk : Disk) (rep : Encode.Report) (hrange : inp.file = none ∨ p.fromPos = none ∧ p.toPos = none) (hs : ∀ n, E.stop n = false)
    (henc : Encode.encodeFile E p inp = (dk, .ok rep)) (d : Dpb) (hd : p.dpb = some d) (hB : 1 ≤ d.burst) (hD : 2 ≤ d.data)
    (hlook : (d.parity + 1) * d.burst ≤ 1000) (hne : inp.bytes ≠ []) (hsup : p.hashType.supported = true)
    (f : File) (bursts : List (Nat × Nat)) (hlen : f.length = dk.file.length)
    (hsize : ∀ b ∈ bursts, b.2 ≤ d.burst) (hcount : ∀ s, (within d bursts s).length ≤ d.parity)
    (hdmg : ∀ k, piece p.version f k = piece p.version dk.file k ∨ hit bursts k = true ∧ Broken p.version (piece p.version f k))
    (hgaps : GapsClean p.version d (payloads E.rs p.version (some d) (fileChunks p.version inp.bytes)).length f)
    (R : Env) (hR : R.Calm) (hrs : R.rs = E.rs)
    (D : Decode.Env) (hDc : D.Calm) (hash : D.hash = E.hash) (q : Decode.Param) (hq : Decode.Whole q) (hr : Decode.DefaultRef q.ref)
    (hb : q.ref.burst = none) (hbf : q.ref.guessBurstFrom = none) (old : File) :
    ∃ dk' st out, repairFile R none false f = .ok (some (dk', st)) ∧ Decode.toFile D q dk'.file old = .ok (inp.bytes, out) ∧
      out.recorded = some (E.hash.bytes p.hashType inp.bytes) ∧ out.computed = out.recorded := by
  have hme : p.metaEnabled = true := hok.meta (by rw [hd]; simp)
  have hh := Encode.C24_whole_input E p hE hok inp hn dk rep hrange hs henc
  obtain ⟨mb, hc, hrec⟩ := hh.container
  obtain ⟨ms, ⟨mp, hmb, rfl⟩, h2, h3, h4, h5, h6⟩ := hrec hme
  rw [hme] at hc
  have hnum := hh.numbers
  rw [hd] at hc h4 h5 hnum
  rw [hmb.bytes, blockBytes_drop] at h6
  have hcons : p.version.usesRs = true := by
    have := hok.consistent
    rw [hd] at this
    simpa [verConsistent] using this
  obtain ⟨dk', st, r1, r2, r3, r4, r5⟩ := C58_repair_partial R (by rw [hrs]; exact hE.laws) hR p.version p.uid d inp.bytes mp dk.file f
    ⟨by rw [hrs, ← hmb.bytes]; exact hc, by rw [hrs]; exact hnum, h6, h2, hcons, h4, h5⟩ hB hD hlook hne bursts hlen hsize hcount hdmg
  rw [hrs] at r5
  obtain ⟨out, o1, o2, o3, -⟩ := Decode.C21_roundtrip E p hE hok inp hn dk rep hrange hs henc hme hsup D hDc hash q hq hr
    (.inr ⟨hbf, fun y hy => by rw [hd] at hy; cases hy; exact (Nat.le_mul_of_pos_left _ (by omega)).trans hlook⟩) old
  exact ⟨dk', st, out, r1, by rw [r5 hgaps]; exact o1, o2, o3⟩

end Verif.Repair

namespace Verif.Scan
open Format LayoutSpec Layout ContainerSpec RepairSpec FileUtils Repair

/-- **C58.** Every command that is not told the level takes the true one, with the same damage: without `--guess-burst-from`, and
without `--force-misalign` if there is `--from`, `get_data_par_burst` yields what it would yield if the level were given. -/
theorem C58_level_partial (rs : RsCodec) (laws : rs.Laws) (v : Version) (uid : Uid) (d : Dpb) (bytes mp : List Byte) (c f : File)
    (h : Sound rs v uid d bytes mp c) (hB : 1 ≤ d.burst) (hD : 2 ≤ d.data) (hlook : (d.parity + 1) * d.burst ≤ 1000) (hne : bytes ≠ [])
    (bursts : List (Nat × Nat)) (hsize : ∀ b ∈ bursts, b.2 ≤ d.burst) (hcount : ∀ s, (within d bursts s).length ≤ d.parity)
    (hdmg : ∀ k, piece v f k = piece v c k ∨ hit bursts k = true ∧ ¬ ValidAt v uid f k)
    (q : RefParam) (hq : q.burst = none) (offset : Bool) (hoff : offset = false ∨ q.guessBurstFrom = none ∧ (q.fromPos = none ∨ q.forceMisalign = false)) :
    dataParBurst q offset f (blockOf v uid 0 mp) = .ok (some d) ∧
    dataParBurst { q with burst := some d.burst } offset f (blockOf v uid 0 mp) = .ok (some d) := by
  obtain ⟨h1, h2, h3⟩ := shards_ok h.data h.parity
  have hg := guess_of_bursts laws h hB hD hlook hne hsize hcount hdmg
  have hm := metas_blockOf v uid mp
  have hsame : guessBurst f (if offset then q.guessFrom else none) (offset && q.forceMisalign) (blockOf v uid 0 mp) =
      guessBurst f none false (blockOf v uid 0 mp) := by
    have : guessFromPos (blockOf v uid 0 mp).size (offset && q.forceMisalign) (if offset then q.guessFrom else none) = 0 := by
      rcases hoff with e | ⟨e1, e2⟩
      · subst e; rfl
      · cases offset
        · rfl
        · simp only [if_true, Bool.true_and]
          unfold RefParam.guessFrom
          rw [e1]
          rcases e2 with e2 | e2
          · rw [e2]; rfl
          · rw [e2]
            cases q.fromPos <;> rfl
    unfold guessBurst
    rw [this]
    rfl
  have hv : (blockOf v uid 0 mp).header.version.usesRs = true := h.rs
  have ht : ¬ (blockOf v uid 0 mp).blockType = .data := by intro e; cases e
  unfold dataParBurst
  rw [if_pos hv, if_pos hv, getRsd_meta hm, getRsp_meta hm, h.data, h.parity]
  simp only [fieldOrErr]
  rw [hq]
  unfold burstOrGuess
  simp only [hv, ht, hsame, hg, if_true, if_false, and_self]

end Verif.Scan

namespace Verif.Repair
open Format LayoutSpec Layout ContainerSpec RepairSpec FileUtils Scan

/-- The file in which only the first `n` blocks are left, the rest is zeros. -/
def keepFirst (v : Version) (n : Nat) (c : File) : File := c.take (n * blockLen v) ++ List.replicate (c.length - n * blockLen v) 0

theorem keepFirst_spec (v : Version) (n : Nat) (c : File) (h2 : n * blockLen v ≤ c.length) :
    (keepFirst v n c).length = c.length ∧ (∀ k < n, piece v (keepFirst v n c) k = piece v c k) ∧
    ∀ k, n ≤ k → piece v (keepFirst v n c) k = List.replicate (piece v c k).length 0 := by
  have hl : (c.take (n * blockLen v)).length = n * blockLen v := by rw [List.length_take]; omega
  refine ⟨?_, ?_, ?_⟩
  · unfold keepFirst
    rw [List.length_append, hl, List.length_replicate]
    omega
  · intro k hk
    have : (k + 1) * blockLen v ≤ n * blockLen v := Nat.mul_le_mul_right _ (by omega)
    rw [Nat.succ_mul] at this
    unfold piece File.readAt keepFirst
    rw [List.drop_append_of_le_length (by omega), List.take_append_of_le_length (by rw [List.length_drop]; omega), List.drop_take,
      List.take_take]
    congr 1
    omega
  · intro k hk
    have : n * blockLen v ≤ k * blockLen v := Nat.mul_le_mul_right _ hk
    unfold piece File.readAt keepFirst
    rw [List.drop_append, List.drop_eq_nil_of_le (by omega), List.nil_append, List.drop_replicate, List.take_replicate, hl]
    congr 1
    rw [List.length_take, List.length_drop]
    omega

/-- **C58 violated** for sets with a single data block.  Of a container with one set, of burst level two or more, the damage may leave the first metadata
block and the first data block.  That is within the promise of the level: `parity` bursts of two blocks.  `repair` restores the container if it is told the
level (C25), but otherwise takes the level to be 1 and writes the blocks to the places for that level: the container is not restored. -/
theorem C58_single_violated (E : Env) (laws : E.rs.Laws) (hE : E.Calm) (v : Version) (uid : Uid) (P B : Nat) (bytes mp : List Byte) (c : File)
    (h : Sound E.rs v uid ⟨1, P, B⟩ bytes mp c) (hB : 2 ≤ B) (hB' : B ≤ 1000) (hne : bytes ≠ []) (hone : bytes.length ≤ v.dataSize) :
    ∃ f bursts dk st dk' st', f.length = c.length ∧ (∀ b ∈ bursts, b.2 ≤ B) ∧ (∀ s, (within ⟨1, P, B⟩ bursts s).length ≤ P) ∧
      (∀ k, piece v f k = piece v c k ∨ hit bursts k = true ∧ Broken v (piece v f k)) ∧
      repairFile E none false f = .ok (some (dk, st)) ∧ dk.file ≠ c ∧
      repairFile E (some B) false f = .ok (some (dk', st')) ∧ dk'.file = c := by
  obtain ⟨h1, h2, h3⟩ := shards_ok h.data h.parity
  simp only at h1 h2 h3
  obtain ⟨hcnt, hps⟩ := payloads_count laws (v := v) (d := ⟨1, P, B⟩) h1 h2 h3 bytes
  have hmp := metasToBytes_length h.plain
  have hu := blockLen_pos v
  have hlen : (payloads E.rs v (some ⟨1, P, B⟩) (fileChunks v bytes)).length = 1 + P := by
    rw [hcnt]
    have hpos := List.length_pos_iff.2 hne
    have : ceilDiv bytes.length v.dataSize = 1 := by
      unfold ceilDiv
      split
      · rename_i hz
        have := Nat.div_add_mod bytes.length v.dataSize
        rw [hz] at this
        have hle : bytes.length = v.dataSize := by
          refine Nat.le_antisymm hone (Nat.le_of_dvd hpos (Nat.dvd_of_mod_eq_zero hz))
        rw [hle, Nat.div_self (dataSize_pos v)]
      · rename_i hz
        have : bytes.length < v.dataSize := by
          refine Nat.lt_of_le_of_ne hone fun e => hz ?_
          rw [e, Nat.mod_self]
        rw [Nat.div_eq_of_lt this]
    unfold blocksFor
    simp only
    rw [this]
    simp [ceilDiv]
  have hplace : ∀ l j, j < 1 + P → placeOf ⟨1, P, l + 1⟩ (j + 1) = 1 + j * (l + 2) := by
    intro l j hj
    unfold placeOf
    rw [place_first (by omega), if_neg (by omega), Nat.min_eq_left (by omega)]
    ring
  obtain ⟨b, rfl⟩ : ∃ b, B = b + 1 := ⟨B - 1, by omega⟩
  have hlast := image_data h.container hps (s := P + 1) (by omega) (by omega)
  obtain ⟨pl, -, hbl, hinl⟩ := hlast
  have hfirst := image_data h.container hps (s := 1) (by omega) (by omega)
  obtain ⟨p1, -, hb1, hin1⟩ := hfirst
  rw [show (1 : Nat) = 0 + 1 by rfl, hplace b 0 (by omega)] at hb1 hin1
  rw [hplace b P (by omega)] at hbl hinl
  simp only [Nat.zero_mul, Nat.add_zero, Nat.zero_add] at hb1 hin1
  obtain ⟨m0, hin0⟩ := image_meta h.container hmp (k := 0) (by simp [metaCopies])
  have hb0 : IsBlock (piece v c 0) v uid 0 mp := ⟨m0, hmp⟩
  obtain ⟨f1, f2, f3⟩ := keepFirst_spec v 2 c hin1
  have hbz : ∀ k, 2 ≤ k → ∀ u s p, ¬ IsBlock (piece v (keepFirst v 2 c) k) v u s p := by
    intro k hk u s p hb
    rw [f3 k hk] at hb
    exact zeros_not_block hb
  generalize hfd : keepFirst v 2 c = f at *
  clear hfd
  generalize hbd : (List.range P).map (fun j => ((j + 1) * (b + 2), 2)) = bursts
  have hhit : ∀ j < P, ∀ i < 2, hit bursts ((j + 1) * (b + 2) + i) = true := by
    intro j hj i hi
    simp only [hit, List.any_eq_true, Bool.and_eq_true, decide_eq_true_eq]
    refine ⟨((j + 1) * (b + 2), 2), ?_, ?_, ?_⟩
    · rw [← hbd]; exact List.mem_map.2 ⟨j, List.mem_range.2 hj, rfl⟩
    · simp only; omega
    · simp only; omega
  have hmem : ∀ k, k ∈ metaCopies (some true) (some ⟨1, P, b + 1⟩) ↔ ∃ j < 1 + P, j * (b + 2) = k := by
    intro k
    simp only [metaCopies, List.mem_map, List.mem_range]
    rw [show 1 + (b + 1) = b + 2 by omega]
  have hsize : ∀ x ∈ bursts, x.2 ≤ b + 1 := by
    intro x hx
    rw [← hbd, List.mem_map] at hx
    obtain ⟨j, -, rfl⟩ := hx
    exact hB
  have hcount : ∀ s, (within ⟨1, P, b + 1⟩ bursts s).length ≤ P := by
    intro s
    refine (List.length_filter_le _ _).trans ?_
    rw [← hbd, List.length_map, List.length_range]
  have hother : ∀ k, 2 ≤ k → hit bursts k = false → k ∉ metaCopies (some true) (some ⟨1, P, b + 1⟩) ∧
      ∀ i < 1 + P, placeOf ⟨1, P, b + 1⟩ (i + 1) ≠ k := by
    intro k hk hh
    constructor
    · intro hm
      obtain ⟨j, hj, rfl⟩ := (hmem k).1 hm
      cases j with
      | zero => omega
      | succ j =>
        have := hhit j (by omega) 0 (by omega)
        rw [Nat.add_zero, hh] at this
        simp at this
    · rintro i hi rfl
      rw [hplace b i hi] at hh hk
      cases i with
      | zero => omega
      | succ j =>
        have := hhit j (by omega) 1 (by omega)
        rw [Nat.add_comm 1, this] at hh
        simp at hh
  have hdmg : ∀ k, piece v f k = piece v c k ∨ hit bursts k = true ∧ Broken v (piece v f k) := by
    intro k
    rcases Nat.lt_or_ge k 2 with hk | hk
    · exact .inl (f2 k hk)
    · cases hh : hit bursts k with
      | true => exact .inr ⟨rfl, .inl (by rw [f3 k hk]; exact dead_zeros _)⟩
      | false =>
        left
        obtain ⟨g1, g2⟩ := hother k hk hh
        rw [f3 k hk]
        rcases Nat.lt_or_ge (k * blockLen v) c.length with hin | hout
        · have := h.container.gaps k hin g1 (by rw [hlen]; exact g2)
          have e : piece v c k = List.replicate (blockLen v) 0 := this
          rw [e, List.length_replicate]
        · rw [piece_beyond hout]; rfl
  have hgaps : GapsClean v ⟨1, P, b + 1⟩ (payloads E.rs v (some ⟨1, P, b + 1⟩) (fileChunks v bytes)).length f := by
    intro k hk hs
    rcases Nat.lt_or_ge k 2 with hk2 | hk2
    · exfalso
      rcases Nat.lt_or_ge k 1 with hk1 | hk1
      · exact hk ((hmem k).2 ⟨0, by omega, by omega⟩)
      · refine hs 1 (by omega) (by omega) ?_
        rw [show (1 : Nat) = 0 + 1 by rfl, hplace b 0 (by omega)]
        omega
    · exact ⟨_, f3 k hk2⟩
  obtain ⟨hc, -, -⟩ := case_of_bursts laws hE h (by simp only; omega) f1 hsize hcount hdmg
  obtain ⟨dk', st', r1, -, -, -, r2⟩ := C25_bursts E laws hE v uid _ bytes mp c f h (by simp only; omega) bursts f1 hsize hcount hdmg
  -- the guess
  have hI := h.intact laws hB'
  have hval : ∀ l, Valid (some ⟨1, P, l⟩) := by intro l x hx; cases hx; exact Nat.le_refl 1
  have hp1 : placeOf ⟨1, P, 1⟩ 1 = 1 := by
    have := hplace 0 0 (by omega)
    simpa using this
  have hF1 : Fits ⟨1, P, b + 1⟩ f (blockOf v uid 0 mp) 1 := by
    intro k hk bl hbl
    rw [blockAt_iff] at hbl
    obtain ⟨s, p, hbk, rfl⟩ := hbl
    have hbk : IsBlock (piece v f k) v uid s p := hbk
    rcases Nat.lt_or_ge k 2 with hk2 | hk2
    · rw [f2 k hk2] at hbk
      rcases Nat.lt_or_ge k 1 with hk1 | hk1
      · rw [show k = 0 by omega] at hbk ⊢
        rw [(isBlock_seq hbk hb0).1, C11_seq_of_meta none _ 0 (by simp [metaCopies])]
        rfl
      · rw [show k = 1 by omega] at hbk ⊢
        rw [(isBlock_seq hbk hb1).1]
        have := C11_seq_of_position none _ (hval 1) 1 (Nat.le_refl 1) (by decide)
        unfold placeOf at hp1
        rw [hp1] at this
        rw [this]
        rfl
    · exact absurd hbk (hbz k hk2 _ _ _)
  have hF0 : ¬ Fits ⟨1, P, b + 1⟩ f (blockOf v uid 0 mp) 0 := by
    intro hF
    have := hF 1 (by simp only; omega) (blockOf v uid (UInt32.ofNat 1) p1) (by
      rw [blockAt_iff]
      exact ⟨_, _, by rw [← f2 1 (by omega)] at hb1; exact hb1, rfl⟩)
    rw [C11_seq_of_meta none _ 1 (by
      simp only [metaCopies, List.mem_map, List.mem_range]
      exact ⟨1, by omega, rfl⟩)] at this
    have hz : (blockOf v uid (UInt32.ofNat 1) p1).header.seq.toNat = 1 := rfl
    omega
  have hguess : guessBurst f none false (blockOf v uid 0 mp) = .ok (some 1) := by
    rcases C58_fits hI (fun k _ => (hdmg k).imp_right fun hh => by
      rintro ⟨sq, p, hb⟩
      exact Broken.not_block hh.2 hb) with ⟨-, hall⟩ | ⟨l, -, hg, hF, hmin, -⟩
    · exact absurd (hall 0 (by omega)) hF0
    · rw [hg]
      rcases Nat.lt_trichotomy l 1 with hl | hl | hl
      · rw [show l = 0 by omega] at hF
        exact absurd hF hF0
      · rw [hl]
      · exact absurd hF1 (hmin 1 hl)
  have hsees : Sees E none f v uid mp ⟨1, P, 1⟩ := ⟨hc.sees.found, hc.sees.rs, hc.sees.data, hc.sees.parity, .inr ⟨rfl, hguess⟩⟩
  obtain ⟨dk, st, hrep⟩ := C26_total E laws none false f v uid mp _ hsees
  refine ⟨f, bursts, dk, st, dk', st', f1, hsize, hcount, hdmg, hrep, ?_, r1, r2 hgaps⟩
  obtain ⟨-, hinit, top, mp', hmp', hops⟩ := ops_of_sees laws hsees hrep
  have hbig : 1 + P * 2 < 1 + P * (b + 2) := by
    have : P * 2 < P * (b + 2) := Nat.mul_lt_mul_of_pos_left (by omega) h2
    omega
  have hfill : fill v f = f := fill_aligned (by rw [f1]; exact h.container.aligned)
  have hmb : (blockBytes v uid.bytes 0 mp').length = blockLen v := by
    rw [blockBytes_length, hmp']; have := h16 v; omega
  have hfile : dk.file = f.writes dk.ops := by rw [← hinit]; rfl
  have hkeep : piece v dk.file (1 + P * (b + 2)) = piece v f (1 + P * (b + 2)) := by
    rw [hfile]
    refine piece_writes_full ?_ (piece_full (by rw [f1]; exact hinl))
    intro w hw
    refine ⟨(hops w hw).length hmb, ?_⟩
    rcases hops w hw with ⟨k, hk, -, rfl⟩ | ⟨s, p', a1, -, -, -, a5, rfl⟩
    · refine ⟨k, ?_, rfl⟩
      simp only [metaCopies, List.mem_map, List.mem_range] at hk
      obtain ⟨j, hj, rfl⟩ := hk
      omega
    · refine ⟨_, ?_, rfl⟩
      by_cases hs : s - 1 < 1 + P
      · rw [show s = s - 1 + 1 by omega, hplace 0 (s - 1) hs]
        omega
      · exfalso
        have ht : 1 ≤ (s - 1) / (1 + P) := (Nat.le_div_iff_mul_le (by omega)).2 (by omega)
        unfold presentIn at a5
        simp only at a5
        obtain ⟨j, hj, hpj⟩ := List.countP_pos_iff.1 a5
        simp only [decide_eq_true_eq] at hpj
        generalize (s - 1) / (1 + P) = t at *
        have hst : 1 + P ≤ t * (1 + P) := Nat.le_mul_of_pos_left _ ht
        generalize hs' : t * (1 + P) + j + 1 = s' at *
        obtain ⟨q, hq⟩ := hpj
        rw [hfill] at hq
        rcases Nat.lt_or_ge (placeOf ⟨1, P, 1⟩ s') 2 with hk | hk
        · rcases Nat.lt_or_ge (placeOf ⟨1, P, 1⟩ s') 1 with hk1 | hk1
          · refine C10_data_not_meta (some true) _ (hval 1) s' (by omega) ?_
            rw [← placeOf_eq, show placeOf ⟨1, P, 1⟩ s' = 0 by omega]
            simp [metaCopies]
          · have := C10_data_injective none _ (hval 1) s' 1 (by omega) (Nat.le_refl 1) (by
              show placeOf ⟨1, P, 1⟩ s' = placeOf ⟨1, P, 1⟩ 1
              omega)
            omega
        · exact hbz _ hk _ _ _ hq
  intro e
  rw [e, f3 _ (by omega)] at hkeep
  rw [hkeep] at hbl
  exact zeros_not_block hbl

/-- **C58 violated** for the container of an empty file, which consists of the copies of the metadata block.  If only the first of them is left (`parity` bursts
of one block), `repair` restores the container if it is told the level, but otherwise gives up: all levels agree with what is left. -/
theorem C58_empty_violated (E : Env) (laws : E.rs.Laws) (hE : E.Calm) (v : Version) (uid : Uid) (d : Dpb) (mp : List Byte) (c : File)
    (h : Sound E.rs v uid d [] mp c) (hB : 1 ≤ d.burst) (hB' : d.burst ≤ 1000) :
    ∃ f bursts dk st, f.length = c.length ∧ (∀ b ∈ bursts, b.2 ≤ d.burst) ∧ (∀ s, (within d bursts s).length ≤ d.parity) ∧
      (∀ k, piece v f k = piece v c k ∨ hit bursts k = true ∧ Broken v (piece v f k)) ∧
      repairFile E none false f = .error .guessFailed ∧ repairFile E (some d.burst) false f = .ok (some (dk, st)) ∧ dk.file = c := by
  obtain ⟨h1, h2, h3⟩ := shards_ok h.data h.parity
  obtain ⟨hcnt, hps⟩ := payloads_count laws (v := v) h1 h2 h3 []
  have hmp := metasToBytes_length h.plain
  have hlen : (payloads E.rs v (some d) (fileChunks v [])).length = 0 := by
    rw [hcnt]
    simp [blocksFor, ceilDiv]
  obtain ⟨m0, hin0⟩ := image_meta h.container hmp (k := 0) (by simp [metaCopies])
  have hb0 : IsBlock (piece v c 0) v uid 0 mp := ⟨m0, hmp⟩
  obtain ⟨f1, f2, f3⟩ := keepFirst_spec v 1 c (by simpa using hin0)
  have hbz : ∀ k, 1 ≤ k → ∀ u s p, ¬ IsBlock (piece v (keepFirst v 1 c) k) v u s p := by
    intro k hk u s p hb
    rw [f3 k hk] at hb
    exact zeros_not_block hb
  generalize hfd : keepFirst v 1 c = f at *
  clear hfd
  generalize hbd : (List.range d.parity).map (fun j => ((j + 1) * (1 + d.burst), 1)) = bursts
  have hhit : ∀ j < d.parity, hit bursts ((j + 1) * (1 + d.burst)) = true := by
    intro j hj
    simp only [hit, List.any_eq_true, Bool.and_eq_true, decide_eq_true_eq]
    refine ⟨((j + 1) * (1 + d.burst), 1), ?_, ?_, ?_⟩
    · rw [← hbd]; exact List.mem_map.2 ⟨j, List.mem_range.2 hj, rfl⟩
    · simp only; omega
    · simp only; omega
  have hmem : ∀ k, k ∈ metaCopies (some true) (some d) ↔ ∃ j < 1 + d.parity, j * (1 + d.burst) = k := by
    intro k
    simp only [metaCopies, List.mem_map, List.mem_range]
  have hsize : ∀ x ∈ bursts, x.2 ≤ d.burst := by
    intro x hx
    rw [← hbd, List.mem_map] at hx
    obtain ⟨j, -, rfl⟩ := hx
    exact hB
  have hcount : ∀ s, (within d bursts s).length ≤ d.parity := by
    intro s
    refine (List.length_filter_le _ _).trans ?_
    rw [← hbd, List.length_map, List.length_range]
  have hdmg : ∀ k, piece v f k = piece v c k ∨ hit bursts k = true ∧ Broken v (piece v f k) := by
    intro k
    rcases Nat.lt_or_ge k 1 with hk | hk
    · exact .inl (f2 k hk)
    · cases hh : hit bursts k with
      | true => exact .inr ⟨rfl, .inl (by rw [f3 k hk]; exact dead_zeros _)⟩
      | false =>
        left
        have g1 : k ∉ metaCopies (some true) (some d) := by
          intro hm
          obtain ⟨j, hj, rfl⟩ := (hmem k).1 hm
          cases j with
          | zero => omega
          | succ j =>
            rw [hhit j (by omega)] at hh
            simp at hh
        rw [f3 k hk]
        rcases Nat.lt_or_ge (k * blockLen v) c.length with hin | hout
        · have := h.container.gaps k hin g1 (by rw [hlen]; intro i hi; omega)
          have e : piece v c k = List.replicate (blockLen v) 0 := this
          rw [e, List.length_replicate]
        · rw [piece_beyond hout]; rfl
  have hgaps : GapsClean v d (payloads E.rs v (some d) (fileChunks v [])).length f := by
    intro k hk hs
    rcases Nat.lt_or_ge k 1 with hk2 | hk2
    · exact absurd ((hmem k).2 ⟨0, by omega, by omega⟩) hk
    · exact ⟨_, f3 k hk2⟩
  obtain ⟨hc, -, -⟩ := case_of_bursts laws hE h hB f1 hsize hcount hdmg
  obtain ⟨dk, st, r1, -, -, -, r2⟩ := C25_bursts E laws hE v uid _ [] mp c f h hB bursts f1 hsize hcount hdmg
  have hF : ∀ l, Fits d f (blockOf v uid 0 mp) l := by
    intro l k hk bl hbl
    rw [blockAt_iff] at hbl
    obtain ⟨s, p, hbk, rfl⟩ := hbl
    have hbk : IsBlock (piece v f k) v uid s p := hbk
    rcases Nat.lt_or_ge k 1 with hk2 | hk2
    · rw [f2 k hk2] at hbk
      rw [show k = 0 by omega] at hbk ⊢
      rw [(isBlock_seq hbk hb0).1, C11_seq_of_meta none _ 0 (by simp [metaCopies])]
      rfl
    · exact absurd hbk (hbz k hk2 _ _ _)
  refine ⟨f, bursts, dk, st, f1, hsize, hcount, hdmg, ?_, r1, r2 hgaps⟩
  have hguess : guessBurst f none false (blockOf v uid 0 mp) = .ok none := by
    rcases C58_fits (h.intact laws hB') (fun k _ => (hdmg k).imp_right fun hh => by
      rintro ⟨sq, p, hb⟩
      exact Broken.not_block hh.2 hb) with ⟨hg, -⟩ | ⟨l, -, -, -, -, j, -, hj⟩
    · exact hg
    · exact absurd (hF j) hj
  obtain ⟨pos, hp, -⟩ := hc.sees.found
  unfold repairFile getRefBlockAligned
  simp only
  rw [hp]
  simp only
  have hv : (blockOf v uid 0 mp).header.version.usesRs = true := h.rs
  have ht : ¬ (blockOf v uid 0 mp).blockType = .data := by intro e; cases e
  rw [if_pos hv]
  unfold dataParBurst
  rw [if_pos hv, getRsd_meta (metas_blockOf v uid mp), getRsp_meta (metas_blockOf v uid mp), h.data, h.parity]
  simp only [fieldOrErr, Bool.false_eq_true, if_false, Bool.false_and, burstOrGuess, hv, ht, hguess, if_true]

/-! ### Instances -/

/-- Containers with one data and one parity shard and burst level 2, of 100 bytes and of the empty file. -/
theorem small_sound (n : Nat) (hn : n = 0 ∨ n = 100) : ∃ mp c, Sound RsWitness.codec .v17 demoOwner ⟨1, 1, 2⟩ (List.replicate n 7) mp c := by
  obtain ⟨h1, h2⟩ := Encode.demo_ok (v := .v17) (dpb := some ⟨1, 1, 2⟩) none rfl (by simp) (fun _ => false)
  obtain ⟨dk, rep, h⟩ := Encode.C24_succeeds _ _ h2 h1 ⟨List.replicate n 7, some ("a.txt", some 5)⟩ (by
    intro mx hmx
    rw [Encode.maxSize_eq h1] at hmx
    cases hmx
    rcases hn with rfl | rfl <;> decide +kernel) (by intro _; rcases hn with rfl | rfl <;> decide +kernel)
  have hh : Encode.Holds (Encode.demoEnv fun _ => false) (Encode.demoParam .v17 (some ⟨1, 1, 2⟩) none) dk rep (List.replicate n 7) := by
    refine Encode.C24_whole_input _ _ h2 h1 _ ?_ dk rep (.inr ⟨rfl, rfl⟩) (fun _ => rfl) h
    refine ⟨by decide +kernel, ?_⟩
    intro n t ht
    simp only [Option.some.injEq, Prod.mk.injEq] at ht
    rw [← ht.1]
    decide +kernel
  obtain ⟨mb, hc, hrec⟩ := hh.container
  obtain ⟨ms, ⟨mp, hmb, rfl⟩, g2, g3, g4, g5, g6⟩ := hrec rfl
  rw [hmb.bytes, blockBytes_drop] at g6
  have hb := hmb.bytes
  subst hb
  exact ⟨mp, dk.file, hc, hh.numbers, g6, g2, rfl, g4, g5⟩

/-- C58_repair_partial, C58_level_partial, C58_recoverable: in the container of 1000 bytes (10 data and 2 parity shards, level 3) the first two blocks are wiped
out. -/
example : ∃ mp c f dk st, f ≠ c ∧ repairFile demoEnv none false f = .ok (some (dk, st)) ∧ dk.file = c ∧
    guessBurst f none false (blockOf .v17 demoOwner 0 mp) = .ok (some 3) ∧
    ∀ q : RefParam, q.burst = none → dataParBurst q false f (blockOf .v17 demoOwner 0 mp) = .ok (some demoDpb) := by
  obtain ⟨mp, c, h⟩ := demo_sound
  obtain ⟨f, hne, hlen, hdmg, hgaps⟩ := demo_damage h
  have hb : (List.replicate 1000 7 : List Byte) ≠ [] := List.ne_nil_of_length_pos (by rw [List.length_replicate]; decide)
  obtain ⟨dk, st, r1, -, -, -, r2⟩ := C58_repair_partial demoEnv demo_laws demo_calm .v17 demoOwner demoDpb _ mp c f h (by decide) (by decide)
    (by decide) hb [(0, 2)] hlen (by decide) (few (by decide)) hdmg
  have hdmg' : ∀ k, piece .v17 f k = piece .v17 c k ∨ hit [(0, 2)] k = true ∧ ¬ ValidAt .v17 demoOwner f k := fun k =>
    (hdmg k).imp_right fun hh => ⟨hh.1, by rintro ⟨sq, p, hb⟩; exact Broken.not_block hh.2 hb⟩
  refine ⟨mp, c, f, dk, st, hne, r1, r2 hgaps, guess_of_bursts demo_laws h (by decide) (by decide) (by decide) hb (bursts := [(0, 2)]) (by decide)
    (few (by decide)) hdmg', fun q hq => ?_⟩
  exact (C58_level_partial _ demo_laws .v17 demoOwner demoDpb _ mp c f h (by decide) (by decide) (by decide) hb [(0, 2)] (by decide)
    (few (by decide)) hdmg' q hq false (.inl rfl)).1

/-- C58_fits, C58_exact, C58_exact_meta, C58_recoverable: the same container and damage. -/
example : ∃ mp c f, f ≠ c ∧ Intact .v17 demoOwner demoDpb (payloads RsWitness.codec .v17 (some demoDpb) (fileChunks .v17 (List.replicate 1000 7))) c
      (blockOf .v17 demoOwner 0 mp) ∧
    (∀ k < 2 + 1002, piece .v17 f k = piece .v17 c k ∨ ¬ ValidAt .v17 demoOwner f k) ∧
    (∀ j, 1 ≤ j → j < 12 → placeOf demoDpb (j + 1) ≠ placeOf ⟨10, 2, 0⟩ (j + 1) ∧
      piece .v17 f (placeOf demoDpb (j + 1)) = piece .v17 c (placeOf demoDpb (j + 1))) ∧
    piece .v17 f (2 * (1 + 3)) = piece .v17 c (2 * (1 + 3)) := by
  obtain ⟨mp, c, h⟩ := demo_sound
  obtain ⟨f, hne, hlen, hdmg, hgaps⟩ := demo_damage h
  have hout : ∀ k, hit [(0, 2)] k = false → piece .v17 f k = piece .v17 c k := by
    intro k hk
    rcases hdmg k with h | h
    · exact h
    · rw [hk] at h; simp at h
  refine ⟨mp, c, f, hne, h.intact demo_laws (by decide), ?_, ?_, hout _ (by decide)⟩
  · intro k _
    exact (hdmg k).imp_right fun hh => by rintro ⟨sq, p, hb⟩; exact Broken.not_block hh.2 hb
  · intro j h1 h2
    exact ⟨by revert j; decide, hout _ (by revert j; decide)⟩

/-- C58_roundtrip_partial: encode, lose two blocks, repair, decode. -/
example : ∃ f dk st out, repairFile demoEnv none false f = .ok (some (dk, st)) ∧
    Decode.toFile Decode.calmEnv Decode.plainParam dk.file [] = .ok (List.replicate 1000 7, out) := by
  obtain ⟨h1, h2⟩ := Encode.demo_ok (v := .v17) (dpb := some ⟨10, 2, 3⟩) none rfl (by simp) (fun _ => false)
  obtain ⟨dk, rep, mp, henc, h⟩ := demo_sound'
  obtain ⟨f, -, e2, e3, e5⟩ := demo_damage h
  obtain ⟨dk', st, out, r1, r2, -⟩ := C58_roundtrip_partial _ _ h2 h1 _ (by
    refine ⟨by decide +kernel, ?_⟩
    intro n t ht
    simp only [Option.some.injEq, Prod.mk.injEq] at ht
    rw [← ht.1]
    decide +kernel) dk rep (.inr ⟨rfl, rfl⟩) (fun _ => rfl) henc demoDpb rfl (by decide) (by decide) (by decide)
    (List.ne_nil_of_length_pos (by rw [List.length_replicate]; decide)) rfl f [(0, 2)] e2 (by decide) (few (by decide)) e3 e5
    demoEnv demo_calm rfl Decode.calmEnv Decode.calm rfl Decode.plainParam Decode.plain_whole Decode.plain_ref rfl rfl []
  exact ⟨f, dk', st, out, r1, r2⟩

/-- C58_single_violated, C58_empty_violated. -/
example : (∃ c f dk st, repairFile demoEnv none false f = .ok (some (dk, st)) ∧ dk.file ≠ c ∧
      ∃ dk' st', repairFile demoEnv (some 2) false f = .ok (some (dk', st')) ∧ dk'.file = c) ∧
    ∃ f dk st, repairFile demoEnv none false f = .error .guessFailed ∧ repairFile demoEnv (some 2) false f = .ok (some (dk, st)) := by
  constructor
  · obtain ⟨mp, c, h⟩ := small_sound 100 (.inr rfl)
    obtain ⟨f, bursts, dk, st, dk', st', -, -, -, -, r1, r2, r3, r4⟩ := C58_single_violated demoEnv demo_laws demo_calm .v17 demoOwner 1 2 _ mp c h
      (by decide) (by decide) (List.ne_nil_of_length_pos (by rw [List.length_replicate]; decide)) (by rw [List.length_replicate]; decide)
    exact ⟨c, f, dk, st, r1, r2, dk', st', r3, r4⟩
  · obtain ⟨mp, c, h⟩ := small_sound 0 (.inl rfl)
    obtain ⟨f, bursts, dk, st, -, -, -, -, r1, r2, -⟩ := C58_empty_violated demoEnv demo_laws demo_calm .v17 demoOwner ⟨1, 1, 2⟩ mp c h
      (by decide) (by decide)
    exact ⟨f, dk, st, r1, r2⟩

end Verif.Repair
