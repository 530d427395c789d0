import Verif.Model.Calc
import Verif.Spec.Calc
import Verif.Lemmas.Guess
import Verif.Lemmas.RepairWhole
import Verif.Props.Encode
import Verif.Props.Sizes
/-!
# C53: the numbers displayed by `encode` and `calc` are those of the container
-/

namespace Verif.Calc
open Format ContainerSpec LayoutSpec RepairSpec CalcSpec FileUtils Layout Encode Repair Scan

/-- `r` describes the file `f`: its size, and how many metadata, data and parity blocks there are in it. -/
structure Describes (v : Version) (uid : Uid) (dpb : Option Dpb) (f : File) (r : Numbers) : Prop where
  size : r.containerSize = f.length
  metas : r.metaBlocks = blocksHeld v uid f fun s => s = 0
  data : r.dataBlocks = blocksHeld v uid f fun s => 1 ≤ s ∧ parityNumber dpb s = false
  parity : r.parityBlocks = blocksHeld v uid f fun s => 1 ≤ s ∧ parityNumber dpb s = true
  total : r.totalBlocks = blocksHeld v uid f fun _ => True

theorem countP_places {K : Nat} {Q : Nat → Bool} {places : List Nat} (hnd : places.Nodup)
    (h : ∀ k, k ∈ places ↔ k < K ∧ Q k = true) : (List.range K).countP Q = places.length := by
  rw [List.countP_eq_length_filter]
  apply List.Perm.length_eq
  rw [List.perm_ext_iff_of_nodup (List.nodup_range.filter _) hnd]
  intro k
  rw [h, List.mem_filter, List.mem_range]

section
variable {v : Version} {uid : Uid} {me : Option Bool} {dpb : Option Dpb} {ps : List (List Byte)} {mb : List Byte} {f : File}

theorem meta_nodup (me : Option Bool) (dpb : Option Dpb) : (metaCopies me dpb).Nodup := by
  cases dpb with
  | none =>
    simp only [metaCopies]
    split
    · exact List.nodup_nil
    · exact List.nodup_singleton _
  | some d => exact (C10_meta_distinct d me).1

open Classical in
/-- The blocks of an image. -/
theorem blocksHeld_image (hval : Valid dpb) (him : Image v uid.bytes me dpb ps mb f)
    (hmb : metaCopies me dpb ≠ [] → ∃ mp, IsBlock mb v uid 0 mp) (hps : ∀ p ∈ ps, p.length = v.dataSize)
    (hlen : ps.length < 2 ^ 32) (P : Nat → Prop) :
    blocksHeld v uid f P = (if P 0 then (metaCopies me dpb).length else 0) +
      (List.range' 1 ps.length).countP fun s => decide (P s) := by
  have hbl := blockLen_pos v
  have hin : ∀ {k : Nat}, k < f.length / blockLen v ↔ k * blockLen v < f.length := by
    intro k
    obtain ⟨n, hn⟩ := him.aligned
    rw [hn, Nat.mul_div_cancel_left _ hbl, Nat.mul_comm (blockLen v)]
    exact (Nat.mul_lt_mul_right hbl).symm
  have hdata : ∀ s, 1 ≤ s → s ≤ ps.length → ∃ p, IsBlock (piece v f (dataWriteIndex s me dpb)) v uid (UInt32.ofNat s) p := by
    intro s h1 h2
    have hi : ps[s - 1]? = some ps[s - 1] := List.getElem?_eq_getElem (by omega)
    have := him.data _ _ hi
    rw [show s - 1 + 1 = s by omega] at this
    exact ⟨ps[s - 1], this, by rw [hps _ (List.getElem_mem _), dataSize_eq]⟩
  have hins : ∀ {k : Nat} {s : UInt32} {p : List Byte}, IsBlock (piece v f k) v uid s p → k * blockLen v < f.length := by
    intro k s p h
    by_contra hn
    rw [piece_beyond (by omega)] at h
    exact nil_not_block h
  have hfind : ∀ {k : Nat} {s : UInt32} {p : List Byte}, IsBlock (piece v f k) v uid s p →
      (k ∈ metaCopies me dpb ∧ s = 0) ∨ ∃ t, 1 ≤ t ∧ t ≤ ps.length ∧ dataWriteIndex t me dpb = k ∧ s.toNat = t := by
    intro k s p h
    have hk := hins h
    by_cases hm : k ∈ metaCopies me dpb
    · obtain ⟨mp, hmp⟩ := hmb (List.ne_nil_of_mem hm)
      have := him.metas k hm
      unfold piece at h
      rw [this] at h
      exact .inl ⟨hm, (isBlock_seq h hmp).1⟩
    · by_cases hd : ∃ i < ps.length, dataWriteIndex (i + 1) me dpb = k
      · obtain ⟨i, hi, rfl⟩ := hd
        obtain ⟨q, hq⟩ := hdata (i + 1) (by omega) (by omega)
        refine .inr ⟨i + 1, by omega, by omega, rfl, ?_⟩
        rw [(isBlock_seq h hq).1]
        exact ofNat_toNat32 (by omega)
      · exfalso
        have := him.gaps k hk hm (by intro i hi h; exact hd ⟨i, hi, h⟩)
        unfold piece at h
        rw [this] at h
        exact zeros_not_block h
  have hnd : ((if P 0 then metaCopies me dpb else []) ++
      ((List.range' 1 ps.length).filter fun s => decide (P s)).map fun s => dataWriteIndex s me dpb).Nodup := by
    rw [List.nodup_append]
    refine ⟨by split; exact meta_nodup _ _; exact List.nodup_nil, ?_, ?_⟩
    · rw [List.nodup_map_iff_inj_on ((List.nodup_range' _).filter _)]
      intro a ha b hb hab
      rw [List.mem_filter, List.mem_range'_1] at ha hb
      exact C10_data_injective me dpb hval a b (by omega) (by omega) hab
    · intro a ha b hb hab
      subst hab
      obtain ⟨s, hs, rfl⟩ := List.mem_map.1 hb
      rw [List.mem_filter, List.mem_range'_1] at hs
      split at ha
      · exact C10_data_not_meta me dpb hval s (by omega) ha
      · simp at ha
  unfold blocksHeld
  rw [countP_places hnd]
  · rw [List.length_append, List.length_map, List.countP_eq_length_filter]
    split <;> rfl
  · intro k
    rw [hin, decide_eq_true_iff, List.mem_append, List.mem_map]
    constructor
    · rintro (h | ⟨s, hs, rfl⟩)
      · split at h
        · rename_i h0
          obtain ⟨mp, hmp⟩ := hmb (List.ne_nil_of_mem h)
          have hp : IsBlock (piece v f k) v uid 0 mp := by
            unfold piece; rw [him.metas k h]; exact hmp
          exact ⟨hins hp, 0, mp, hp, h0⟩
        · simp at h
      · rw [List.mem_filter, List.mem_range'_1, decide_eq_true_iff] at hs
        obtain ⟨p, hp⟩ := hdata s (by omega) (by omega)
        exact ⟨hins hp, _, p, hp, by rw [ofNat_toNat32 (by omega)]; exact hs.2⟩
    · rintro ⟨-, s, p, hp, hP⟩
      rcases hfind hp with ⟨hm, rfl⟩ | ⟨t, h1, h2, h3, h4⟩
      · have h0 : P 0 := hP
        rw [if_pos h0]
        exact .inl hm
      · refine .inr ⟨t, ?_, h3⟩
        rw [List.mem_filter, List.mem_range'_1, decide_eq_true_iff, ← h4]
        exact ⟨by omega, hP⟩

/-- The length of an image. -/
theorem image_length (him : Image v uid.bytes me dpb ps mb f) (hmb : metaCopies me dpb ≠ [] → mb.length = blockLen v)
    (hps : ∀ p ∈ ps, p.length = v.dataSize) {n : Nat} {indices : List Nat}
    (hi : ∀ i, i ∈ indices ↔ i ∈ metaCopies me dpb ∨ ∃ s, 1 ≤ s ∧ s ≤ ps.length ∧ i = dataWriteIndex s me dpb)
    (hend : IsEndOf v n indices) : f.length = n := by
  have hbl := blockLen_pos v
  obtain ⟨h1, h2⟩ := hend
  rw [← blockLen_eq] at *
  have hge : ∀ i ∈ indices, (i + 1) * blockLen v ≤ f.length := by
    intro i hi'
    have hl : (f.readAt (i * blockLen v) (blockLen v)).length = blockLen v := by
      rcases (hi i).1 hi' with h | ⟨s, h3, h4, rfl⟩
      · rw [him.metas i h, hmb (List.ne_nil_of_mem h)]
      · have hg : ps[s - 1]? = some ps[s - 1] := List.getElem?_eq_getElem (by omega)
        have := him.data _ _ hg
        rw [show s - 1 + 1 = s by omega] at this
        rw [this, blockBytes_length, hps _ (List.getElem_mem _), blockLen_eq, v.blockSize_eq]
    rw [File.readAt_length] at hl
    rw [Nat.succ_mul]
    omega
  apply Nat.le_antisymm
  · obtain ⟨m, hm⟩ := him.aligned
    rcases Nat.eq_zero_or_pos m with h0 | h0
    · rw [hm, h0]; simp
    · have hk := him.tight (m - 1) (by rw [hm, Nat.mul_comm]; congr 1; omega)
      have : m - 1 ∈ indices := by
        rw [hi]
        refine hk.imp_right fun ⟨i, h3, h4⟩ => ⟨i + 1, by omega, by omega, h4.symm⟩
      have := h1 _ this
      rw [show m - 1 + 1 = m by omega] at this
      rw [hm, Nat.mul_comm]
      exact this
  · rcases h2 with ⟨rfl, -⟩ | ⟨i, h3, rfl⟩
    · omega
    · exact hge i h3

end

/-- With Reed-Solomon the option `--no-meta` changes nothing. -/
theorem calc_rs (v : Version) (a b : Bool) (d : Dpb) (size : Nat) : calcNumbers v a (some d) size = calcNumbers v b (some d) size := rfl

theorem chunks_length (v : Version) (bytes : List Byte) : (fileChunks v bytes).length = ceilDiv bytes.length v.dataSize := by
  unfold fileChunks
  rw [← dataSize_eq, chunksOf_length (dataSize_pos v)]

/-- **C53, `encode`.**  After every successful run, interrupted by Ctrl-C or not, the numbers displayed by `encode` describe the
file that has been written, the size displayed is the number of bytes stored, and `calc` with the same options displays the same
for a file of that size. -/
theorem C53_encode_partial (E : Encode.Env) (p : Param) (hE : E.Ok p) (hok : p.Ok) (inp : Input) (hn : NamesOk p inp) (d : Disk) (rep : Report)
    (h : encodeFile E p inp = (d, .ok rep))
    (hsup : ∀ d, p.dpb = some d → 1 ≤ d.burst → (d.data + d.parity) * d.burst % 2 ^ 32 ≠ 0) :
    ∃ stored, Holds E p d rep stored ∧ stored <+: startBytes p inp ∧
      (blocksFor p.version.dataSize p.dpb stored.length < 2 ^ 32 - 1 →
        ∃ r, encodeNumbers p rep.counters = some r ∧ Describes p.version p.uid p.dpb d.file r ∧ r.fileSize = stored.length ∧
          calcNumbers p.version p.metaRequested p.dpb stored.length = some r) := by
  obtain ⟨stored, hh, hpre⟩ := C24_recorded E p hE hok inp hn d rep h
  refine ⟨stored, hh, hpre, fun hcount => ?_⟩
  obtain ⟨out, ho, hend⟩ := C15_container_size_partial p.version (some p.metaEnabled) p.dpb hok.valid stored.length hsup hcount
  obtain ⟨⟨mb, him, hrec⟩, hsize, -, hnum, hdat, hpar⟩ := hh
  unfold IsContainer at him
  have hcs : ∀ c ∈ fileChunks p.version stored, c.length ≤ p.version.dataSize := by
    unfold fileChunks
    rw [← dataSize_eq]
    intro c hc
    exact (mem_chunksOf _ c hc).2.1
  obtain ⟨hpc, hps⟩ := payloads_spec (hE.rsLen hok) hok.valid hcs
  set ps := payloads E.rs p.version p.dpb (fileChunks p.version stored) with hpsdef
  have hbc : ps.length = blocksFor p.version.dataSize p.dpb stored.length := by
    rw [hpc, chunks_length]
    unfold blockCount blocksFor
    cases p.dpb <;> rfl
  have hmeta : metaCopies (some p.metaEnabled) p.dpb ≠ [] → p.metaEnabled = true := by
    intro hne
    by_contra hc
    cases hd : p.dpb with
    | none =>
      rw [hd] at hne
      simp [metaCopies, hc] at hne
    | some x => exact hc (hok.meta (by simp [hd]))
  have hmb : metaCopies (some p.metaEnabled) p.dpb ≠ [] → ∃ mp, IsBlock mb p.version p.uid 0 mp := by
    intro hne
    obtain ⟨ms, ⟨pl, hpl, -⟩, -⟩ := hrec (hmeta hne)
    exact ⟨pl, hpl⟩
  have hlen : d.file.length = out := by
    refine image_length him (fun hne => ?_) hps ?_ hend
    · obtain ⟨mp, hmp⟩ := hmb hne
      exact isBlock_length hmp
    · intro i
      rw [hbc]
      unfold writtenIndices
      rw [List.mem_append, List.mem_map]
      refine or_congr_right ⟨?_, ?_⟩
      · rintro ⟨s, hs, rfl⟩
        rw [List.mem_range'_1] at hs
        exact ⟨s, by omega, by omega, rfl⟩
      · rintro ⟨s, h1, h2, rfl⟩
        exact ⟨s, by rw [List.mem_range'_1]; omega, rfl⟩
  have hcnt := blocksHeld_image hok.valid him hmb hps (by omega)
  have hmc : (if p.metaEnabled then (metaAllPos p.version p.dpb).length else 0) = (metaCopies (some p.metaEnabled) p.dpb).length := by
    unfold metaAllPos metaDupPos metaDupIndices
    rw [List.length_mergeSort]
    cases hd : p.dpb with
    | none => cases p.metaEnabled <;> simp [metaCopies]
    | some x =>
      rw [hok.meta (by simp [hd])]
      simp [metaCopies]; omega
  have hmb' : metaBlockCount (some p.metaEnabled) p.dpb = (metaCopies (some p.metaEnabled) p.dpb).length := by
    cases hd : p.dpb with
    | none => cases p.metaEnabled <;> simp [metaCopies, metaBlockCount]
    | some x => simp [metaCopies, metaBlockCount]
  have hdp : dataParityBlockCount p.version p.dpb stored.length = (rep.counters.dataBlocks, rep.counters.parityBlocks) := by
    rw [hdat, hpar, hpc, chunks_length]
    have hds := ceil_eq stored.length p.version.dataSize (dataSize_pos _)
    unfold dataParityBlockCount blockCount
    cases hd : p.dpb with
    | none =>
      simp only [hds]
      rw [(dataNumbers_none _).1, (dataNumbers_none _).2]
    | some x =>
      have hx := hok.valid x hd
      simp only [hds, ceil_eq _ _ hx]
      rw [(dataNumbers_sets x hx _).1, (dataNumbers_sets x hx _).2]
  have hr : encodeNumbers p rep.counters = some
      { metaBlocks := (metaCopies (some p.metaEnabled) p.dpb).length
        dataBlocks := rep.counters.dataBlocks
        parityBlocks := rep.counters.parityBlocks
        totalBlocks := (metaCopies (some p.metaEnabled) p.dpb).length + rep.counters.dataBlocks + rep.counters.parityBlocks
        fileSize := stored.length
        containerSize := out } := by
    unfold encodeNumbers; rw [hsize, ho, hmc]; rfl
  have hg : ∀ (P : Nat → Prop) (Q : Nat → Bool), (∀ s, 1 ≤ s → (P s ↔ Q s = true)) →
      (P 0 → blocksHeld p.version p.uid d.file P =
        (metaCopies (some p.metaEnabled) p.dpb).length + (List.range' 1 ps.length).countP Q) ∧
      (¬ P 0 → blocksHeld p.version p.uid d.file P = (List.range' 1 ps.length).countP Q) := by
    intro P Q hPQ
    have e : (List.range' 1 ps.length).countP (fun s => @decide (P s) (Classical.propDecidable _)) =
        (List.range' 1 ps.length).countP Q := by
      apply List.countP_congr
      intro s hs
      rw [List.mem_range'_1] at hs
      rw [@decide_eq_true_iff (P s) (Classical.propDecidable _)]
      exact hPQ s (by omega)
    refine ⟨fun h0 => ?_, fun h0 => ?_⟩
    · rw [hcnt, if_pos h0, e]
    · rw [hcnt, if_neg h0, e, Nat.zero_add]
  refine ⟨_, hr, ⟨hlen.symm, ?_, ?_, ?_, ?_⟩, rfl, ?_⟩
  · rw [(hg (fun s => s = 0) (fun _ => false) (by intro s hs; simp; omega)).1 rfl, List.countP_false]
    rfl
  · rw [(hg _ (fun s => !parityNumber p.dpb s) (by intro s hs; simp; omega)).2 (by omega)]
    exact hdat
  · rw [(hg _ (fun s => parityNumber p.dpb s) (by intro s hs; simp; omega)).2 (by omega)]
    exact hpar
  · rw [(hg (fun _ => True) (fun _ => true) (by simp)).1 trivial, List.countP_true, List.length_range']
    simp only
    rw [hdat, hpar, Nat.add_assoc, numbers_total]
  · have hc : calcNumbers p.version p.metaRequested p.dpb stored.length = calcNumbers p.version p.metaEnabled p.dpb stored.length := by
      cases hd : p.dpb with
      | some x => exact calc_rs ..
      | none =>
        have := hok.consistent
        rw [hd] at this
        have hf : p.version.forcesMeta = false := by
          revert this; cases p.version <;> decide
        simp [Param.metaEnabled, hf]
    rw [hc]
    unfold calcNumbers
    rw [if_pos hok.consistent, ho, hmb', Option.map_some]
    unfold totalBlockCount dataBlockCount
    rw [hdp, hmb', Nat.add_assoc]

/-- **C53, `calc`.**  For a file encoded without range options and without interruption, `calc` with the same options and the size of
the file displays the number of bytes of the container and its numbers of metadata, data and parity blocks. -/
theorem C53_calc_partial (E : Encode.Env) (p : Param) (hE : E.Ok p) (hok : p.Ok) (inp : Input) (hn : NamesOk p inp) (d : Disk)
    (rep : Report) (hr : inp.file = none ∨ p.fromPos = none ∧ p.toPos = none) (hs : ∀ n, E.stop n = false)
    (h : encodeFile E p inp = (d, .ok rep))
    (hsup : ∀ d, p.dpb = some d → 1 ≤ d.burst → (d.data + d.parity) * d.burst % 2 ^ 32 ≠ 0)
    (hcount : blocksFor p.version.dataSize p.dpb inp.bytes.length < 2 ^ 32 - 1) :
    ∃ r, calcNumbers p.version p.metaRequested p.dpb inp.bytes.length = some r ∧
      encodeNumbers p rep.counters = some r ∧ Describes p.version p.uid p.dpb d.file r := by
  obtain ⟨stored, h1, -, h3⟩ := C53_encode_partial E p hE hok inp hn d rep h hsup
  have hw := C24_whole_input E p hE hok inp hn d rep hr hs h
  have hl : stored.length = inp.bytes.length := by rw [← h1.size, ← hw.size]
  rw [hl] at h3
  obtain ⟨r, r1, r2, -, r4⟩ := h3 hcount
  exact ⟨r, r4, r1, r2⟩

/-- C53: a file of 1000 bytes, encoded with version 17, 10 + 2 shards and burst level 3: 15 blocks, the last one at the 37th place. -/
example : ∃ d rep r, encodeFile (demoEnv fun _ => false) (demoParam .v17 (some ⟨10, 2, 3⟩) none)
      ⟨List.replicate 1000 7, some ("a.txt", some 5)⟩ = (d, .ok rep) ∧
    calcNumbers .v17 true (some ⟨10, 2, 3⟩) 1000 = some r ∧ Describes .v17 (demoParam .v17 (some ⟨10, 2, 3⟩) none).uid (some ⟨10, 2, 3⟩) d.file r ∧
    d.file.length = 512 * 37 ∧ r.metaBlocks = 3 ∧ r.dataBlocks = 10 ∧ r.parityBlocks = 2 := by
  obtain ⟨h1, h2⟩ := demo_ok (v := .v17) (dpb := some ⟨10, 2, 3⟩) none rfl (by simp) (fun _ => false)
  obtain ⟨d, rep, h⟩ := C24_succeeds _ _ h2 h1 ⟨List.replicate 1000 7, some ("a.txt", some 5)⟩ (by
    intro mx hmx
    rw [maxSize_eq h1] at hmx
    cases hmx
    decide +kernel) (by intro _; decide +kernel)
  obtain ⟨r, r1, -, r3⟩ := C53_calc_partial _ _ h2 h1 _ (by
    refine ⟨by decide +kernel, ?_⟩
    intro n t ht
    simp only [Option.some.injEq, Prod.mk.injEq] at ht
    rw [← ht.1]
    decide +kernel) d rep (.inr ⟨rfl, rfl⟩) (fun _ => rfl) h (by
      intro x hx _
      cases hx
      decide) (by decide +kernel)
  have hl : (List.replicate 1000 (7 : Byte)).length = 1000 := List.length_replicate
  rw [hl] at r1
  have hc : calcNumbers .v17 true (some ⟨10, 2, 3⟩) 1000 = some ⟨3, 10, 2, 15, 1000, 512 * 37⟩ := by decide
  have e : (some r : Option Numbers) = some ⟨3, 10, 2, 15, 1000, 512 * 37⟩ := by rw [← hc, ← r1]; rfl
  cases e
  exact ⟨d, rep, _, h, hc, r3, r3.size.symm, rfl, rfl, rfl⟩

/-- **C53 violated**: `calc` does not check the size of the file and truncates the number of blocks to 32 bits.  For a file of
1775253152320 bytes, more than `encode` accepts, it displays 4294967304 data and parity blocks of 512 bytes, and a container of
12800 bytes. -/
theorem C53_too_large_violated :
    ∃ size r m, calcNumbers .v17 true (some ⟨10, 2, 3⟩) size = some r ∧ r.dataBlocks + r.parityBlocks = 4294967304 ∧
      r.containerSize = 12800 ∧ maxDataFileSize .v17 (some ⟨10, 2, 3⟩) = some m ∧ m < size :=
  ⟨1775253152320, _, _, rfl, by decide, by decide, rfl, by decide⟩

/-- **C53 violated**: a file of exactly the maximum size, with (2, 1) shards and burst level 10.  When everything has been written,
the computation of the container size fails and no numbers are displayed. -/
theorem C53_last_seq_violated :
    ∃ size, maxDataFileSize .v17 (some ⟨2, 1, 10⟩) = some size ∧
      ∀ (p : Param) (c : Counters), p.version = .v17 → p.dpb = some ⟨2, 1, 10⟩ → c.bytesEncoded .v17 = size →
        encodeNumbers p c = none := by
  obtain ⟨size, h1, -, h3⟩ := C15_last_seq_violated
  refine ⟨size, h1, fun p c hv hd hc => ?_⟩
  unfold encodeNumbers
  rw [hv, hd, hc]
  have : containerSize .v17 (some p.metaEnabled) (some ⟨2, 1, 10⟩) size = containerSize .v17 none (some ⟨2, 1, 10⟩) size := rfl
  rw [this, h3]
  rfl

end Verif.Calc
