import Verif.Lemmas.EncodeCrash
import Verif.Props.Encode
import Verif.Props.Block
/-!
# C43: a crash while encoding never yields a silently wrong archive
-/

namespace Verif.Encode
open Format ContainerSpec LayoutSpec FileUtils Misc

/-- All data and parity blocks of `stored` are in place. -/
def Complete (E : Env) (p : Param) (stored : List Byte) (f : File) : Prop :=
  ∀ (i : Nat) q, (payloads E.rs p.version p.dpb (fileChunks p.version stored))[i]? = some q →
    f.readAt (Layout.dataWriteIndex (i + 1) (some p.metaEnabled) p.dpb * blockLen p.version) (blockLen p.version) =
      blockBytes p.version p.uid.bytes (UInt32.ofNat (i + 1)) q

/-- What may be found at block index `k` of the partial container `f`, if `stored` is being encoded. -/
inductive PlaceOk (E : Env) (p : Param) (inp : Input) (stored : List Byte) (f : File) (k : Nat) : List Byte → Prop
  /-- not written yet -/
  | blank : PlaceOk E p inp stored f k (List.replicate (blockLen p.version) 0)
  /-- the block that belongs there -/
  | data {i q} : (payloads E.rs p.version p.dpb (fileChunks p.version stored))[i]? = some q →
      k = Layout.dataWriteIndex (i + 1) (some p.metaEnabled) p.dpb → i + 1 < 2 ^ 32 →
      PlaceOk E p inp stored f k (blockBytes p.version p.uid.bytes (UInt32.ofNat (i + 1)) q)
  /-- placeholder metadata: the hash is that of no bytes at all -/
  | placeholder {mb ms} : p.metaEnabled = true → k ∈ metaCopies (some true) p.dpb → Records p.version p.uid mb ms →
      firstHsh ms = some (E.hash.bytes p.hashType []) → PlaceOk E p inp stored f k mb
  /-- final metadata, only if all data is in place -/
  | final {mb ms} : p.metaEnabled = true → k ∈ metaCopies (some true) p.dpb → Records p.version p.uid mb ms →
      firstFsz ms = some stored.length → firstHsh ms = some (E.hash.bytes p.hashType stored) → Complete E p stored f →
      PlaceOk E p inp stored f k mb

theorem prefix_map {α β : Type} {g : α → β} {a : List β} {l : List α} (h : a <+: l.map g) : ∃ l', l' <+: l ∧ a = l'.map g := by
  refine ⟨l.take a.length, List.take_prefix _ _, ?_⟩
  rw [List.prefix_iff_eq_take] at h
  rw [List.map_take]; exact h

/-- **C43.**  At every point of the run, under every schedule of the three threads, with any number of the writes issued so far
having reached the file and the next one only up to an arbitrary byte: there are bytes, read consecutively from the start of the
selected range (if Ctrl-C is not pressed and the sequence numbers suffice: all of them), such that every complete block of the
file, other than the one that was just being written, is as `PlaceOk` says. -/
theorem C43_crash (E : Env) (p : Param) (hE : E.Ok p) (hok : p.Ok) (inp : Input) (hn : NamesOk p inp)
    (done : List (Nat × List Byte)) (next : Option (Nat × List Byte)) (cut : Nat) (f : File) (h : CrashFile E p inp done next cut f) :
    ∃ stored, stored <+: startBytes p inp ∧
      ((∀ n, E.stop n = false) → (encodeFile E p inp).2 ≠ .error .seqNumOverflow →
        stored = clip p (required p inp) (startBytes p inp)) ∧
      ∀ k, (k + 1) * blockLen p.version ≤ f.length → (∀ w, next = some w → w.1 ≠ k * blockLen p.version) →
        PlaceOk E p inp stored f k (f.readAt (k * blockLen p.version) (blockLen p.version)) := by
  obtain ⟨d, rest, hr, hops, hnext, hf⟩ := h
  have hds := dataSize_pos p.version
  have hclip : clip p (required p inp) (startBytes p inp) <+: startBytes p inp := by
    unfold clip
    split
    · exact List.prefix_rfl
    · exact List.take_prefix _ _
  rcases reached_prefix hE hok hr with rfl | ⟨hsz, hdm, hinit, hpre⟩
  · refine ⟨_, hclip, fun _ _ => rfl, ?_⟩
    intro k hk
    simp only [List.nil_eq, List.append_eq_nil_iff] at hops
    rw [hops.2] at hnext
    rw [hf, hops.1, hnext] at hk
    simp only [List.head?_nil, Option.map_none, Option.toList_none, List.append_nil, File.writes, List.foldl_nil,
      List.length_nil, Nat.succ_mul] at hk
    have := blockLen_pos p.version
    omega
  · obtain ⟨cs, mb0, d', res, e, _, h1, h2, h3, h4, hout⟩ := encodeFile_spec hE hok inp hsz hdm
    rw [e] at hinit hpre
    have hcs := chunks_of_prefix h1
    rw [wanted_eq] at h1 h3
    obtain ⟨hp1, hp2⟩ := prefix_chunks hds h1
    have hsm := stored_small hcs h2
    refine ⟨cs.flatten, hp1.trans hclip, ?_, ?_⟩
    · intro hs hr
      rw [e] at hr
      rw [h3 hs hr, chunksOf_flatten (by omega)]
    · have hm0 : p.metaEnabled = true → mb0.length = p.version.blockSize := fun h => metaBlockBytes_length (h4 h)
      have hfc : fileChunks p.version cs.flatten = cs := by
        unfold fileChunks; rw [← dataSize_eq]; exact hp2.symm
      have hps := (payloads_spec (hE.rsLen hok) hok.valid hcs).2
      -- all writes of the run
      obtain ⟨mb, hmb, hd', hdi⟩ : ∃ mb, (p.metaEnabled = true → (metaBlockBytes p.version p.uid (finalMetas E p inp cs.flatten) = some mb)
            ∨ d'.ops = File.atPos p.version.blockSize (beforeFinal E p cs mb0)) ∧
          d'.ops <+: File.atPos p.version.blockSize (beforeFinal E p cs mb0 ++ metaWrites' p.metaEnabled p.dpb mb) ∧ d'.init = [] := by
        have hpp : ∀ mb, File.atPos p.version.blockSize (beforeFinal E p cs mb0) <+:
            File.atPos p.version.blockSize (beforeFinal E p cs mb0 ++ metaWrites' p.metaEnabled p.dpb mb) := by
          intro mb
          rw [File.atPos, File.atPos, List.map_append]; exact List.prefix_append _ _
        cases hout with
        | overflow _ _ => exact ⟨[], fun _ => .inr rfl, hpp _, rfl⟩
        | tooMuch _ _ => exact ⟨[], fun _ => .inr rfl, hpp _, rfl⟩
        | @done mb rep ha _ _ => exact ⟨mb, fun h => .inl (ha h).1, List.prefix_rfl, rfl⟩
      have hu : 0 < p.version.blockSize := by rw [← blockLen_eq]; exact blockLen_pos _
      -- either the final metadata has not been started, or it has
      have hmetaLen : ∀ b, (p.metaEnabled = true → b.length = p.version.blockSize) → ∀ w ∈ metaWrites' p.metaEnabled p.dpb b,
          w.2.length = p.version.blockSize := by
        intro b hb w hw
        by_cases hme : p.metaEnabled = true
        · rw [((metaWrites'_iff hok.meta).1 hw).2]; exact hb hme
        · simp [metaWrites', hme] at hw
      have hbefore : ∀ w ∈ beforeFinal E p cs mb0, w.2.length = p.version.blockSize := by
        intro w hw
        rcases List.mem_append.1 hw with hw | hw
        · exact hmetaLen _ hm0 w hw
        · obtain ⟨i, q, hq, rfl⟩ := mem_dataWrites hw
          simp only
          rw [blockBytes_length, hps q (List.mem_of_getElem? hq), p.version.blockSize_eq]
      obtain ⟨W, hW, hWlen⟩ : ∃ W, d.ops <+: File.atPos p.version.blockSize W ∧
          (W = beforeFinal E p cs mb0 ∨ (p.metaEnabled = true → metaBlockBytes p.version p.uid (finalMetas E p inp cs.flatten) = some mb) ∧
            W = beforeFinal E p cs mb0 ++ metaWrites' p.metaEnabled p.dpb mb) := by
        by_cases hme : p.metaEnabled = true
        · rcases hmb hme with hmb | hmb
          · exact ⟨_, hpre.trans hd', .inr ⟨fun _ => hmb, rfl⟩⟩
          · exact ⟨_, by rw [← hmb]; exact hpre, .inl rfl⟩
        · exact ⟨_, hpre.trans hd', .inr ⟨fun h => absurd h hme, rfl⟩⟩
      have hWl : ∀ w ∈ W, w.2.length = p.version.blockSize := by
        rcases hWlen with rfl | ⟨hfin, rfl⟩
        · exact hbefore
        · intro w hw
          rcases List.mem_append.1 hw with hw | hw
          · exact hbefore w hw
          · exact hmetaLen _ (fun h => metaBlockBytes_length (hfin h)) w hw
      obtain ⟨Wd, hWd, hWdo⟩ := prefix_map hW
      rw [hWdo] at hops
      obtain ⟨ws, rs, rfl, rfl, rfl⟩ := List.map_eq_append_iff.1 hops
      have hnext' : next = rs.head?.map fun w => (w.1 * p.version.blockSize, w.2) := by
        rw [hnext, List.head?_map]
      have hff : f = File.writes [] (File.atPos p.version.blockSize ws ++
          File.atPos p.version.blockSize (rs.head?.map fun w => (w.1, w.2.take cut)).toList) := by
        rw [hf, hinit, hdi, hnext']
        cases rs.head? <;> simp [File.atPos]
      have hsub : ∀ w ∈ ws, w ∈ W := fun w hw => hWd.subset (List.mem_append_left _ hw)
      have hsubr : ∀ w ∈ rs, w ∈ W := fun w hw => hWd.subset (List.mem_append_right _ hw)
      obtain ⟨hc1, hc2⟩ := File.unit_crash hu ws (fun w hw => hWl w (hsub w hw)) (rs.head?.map fun w => (w.1, w.2.take cut)) (by
        intro w hw
        rw [Option.map_eq_some_iff] at hw
        obtain ⟨w', hw', rfl⟩ := hw
        rw [List.length_take, hWl w' (hsubr w' (List.mem_of_mem_head? hw'))]
        omega)
      rw [← hff] at hc1 hc2
      -- a block that has been written before the final metadata
      have hplain : ∀ k b, (k, b) ∈ beforeFinal E p cs mb0 → PlaceOk E p inp cs.flatten f k b := by
        intro k b hkb
        rcases List.mem_append.1 hkb with hw | hw
        · have hme : p.metaEnabled = true := by
            by_contra hme
            simp [metaWrites', hme] at hw
          have hw := (metaWrites'_iff hok.meta).1 hw
          simp only [hme] at hw
          rw [hw.2]
          refine .placeholder hme hw.1 (records_pack (bytes := none) hok hn (h4 hme)) ?_
          rw [(pack_fields _ _ _ _ _ _).2]; rfl
        · obtain ⟨i, q, hq, hkq⟩ := mem_dataWrites hw
          simp only [Prod.mk.injEq] at hkq
          rw [hkq.2, Nat.add_comm 1 i]
          refine .data (i := i) (by rw [hfc]; exact hq) (by rw [hkq.1, Nat.add_comm 1 i]) ?_
          have hfit := payloads_fit hok (hE.rsLen hok) hcs h2
          have := (List.getElem?_eq_some_iff.1 hq).1
          unfold lastSeqNum at hfit
          omega
      intro k hk hkn
      have hunit := hc2 k (by rw [← blockLen_eq]; exact hk) (by
        intro w hw hwk
        rw [Option.map_eq_some_iff] at hw
        obtain ⟨w', hw', rfl⟩ := hw
        refine hkn (w'.1 * p.version.blockSize, w'.2) (by rw [hnext', hw']; rfl) ?_
        simp only at hwk
        rw [blockLen_eq, hwk])
      rw [blockLen_eq]
      change PlaceOk E p inp cs.flatten f k (File.unit p.version.blockSize f k)
      rw [hunit]
      cases hl : File.lastWrite ws k with
      | none => rw [Option.getD_none, ← blockLen_eq]; exact .blank
      | some b =>
        have hmem := File.lastWrite_some hl
        rw [Option.getD_some]
        rcases hWlen with rfl | ⟨hfin, rfl⟩
        · exact hplain k b (hsub _ hmem)
        · by_cases hlen : ws.length ≤ (beforeFinal E p cs mb0).length
          · have : ws <+: beforeFinal E p cs mb0 := by
              refine List.prefix_of_prefix_length_le ((List.prefix_append _ _).trans hWd) (List.prefix_append _ _) hlen
            exact hplain k b (this.subset hmem)
          · -- everything before the final metadata is there
            have hall : beforeFinal E p cs mb0 <+: ws :=
              List.prefix_of_prefix_length_le (List.prefix_append _ _) ((List.prefix_append _ _).trans hWd) (by omega)
            obtain ⟨ws', rfl⟩ := hall
            rw [List.append_assoc, List.prefix_append_right_inj] at hWd
            have hmeta : ∀ w ∈ ws' ++ rs, p.metaEnabled = true ∧ w.1 ∈ metaCopies (some true) p.dpb ∧ w.2 = mb := by
              intro w hw
              have hw := hWd.subset hw
              have hme : p.metaEnabled = true := by
                by_contra hme
                simp [metaWrites', hme] at hw
              have := (metaWrites'_iff hok.meta).1 hw
              rw [hme] at this
              exact ⟨hme, this⟩
            rcases List.mem_append.1 hmem with hm | hm
            · exact hplain k b hm
            · obtain ⟨hme, hkm, hb⟩ := hmeta _ (List.mem_append_left _ hm)
              simp only at hkm hb
              subst hb
              refine .final (ms := finalMetas E p inp cs.flatten) hme hkm (records_pack (bytes := some cs.flatten) hok hn (hfin hme))
                ?_ ?_ ?_
              · rw [finalMetas, (pack_fields _ _ _ _ _ _).1, Option.map_some, UInt64.toNat_ofNat_of_lt' (by exact hsm)]
              · rw [finalMetas, (pack_fields _ _ _ _ _ _).2]; rfl
              · intro i q hq
                rw [hfc] at hq
                have hdm : ∀ i, Layout.dataWriteIndex (1 + i) (some p.metaEnabled) p.dpb ∉ metaCopies (some true) p.dpb := by
                  intro i hi
                  refine C10_data_not_meta (some p.metaEnabled) p.dpb hok.valid (1 + i) (by omega) ?_
                  rw [hme] at hi ⊢
                  exact hi
                have hdw := dataWrites_mem (v := p.version) (uid := p.uid.bytes) (me := some p.metaEnabled) (dpb := p.dpb) (start := 1) hq
                have hin : (Layout.dataWriteIndex (1 + i) (some p.metaEnabled) p.dpb,
                    blockBytes p.version p.uid.bytes (UInt32.ofNat (1 + i)) q) ∈ beforeFinal E p cs mb0 ++ ws' :=
                  List.mem_append_left _ (List.mem_append_right _ hdw)
                have hmax := (File.maxUnits_le.1 (Nat.le_refl (File.maxUnits 0 (beforeFinal E p cs mb0 ++ ws')))).2 _ hin
                simp only at hmax
                have := hc2 (Layout.dataWriteIndex (1 + i) (some p.metaEnabled) p.dpb)
                  (Nat.le_trans (Nat.mul_le_mul_right _ hmax) hc1) (by
                    intro w hw hwk
                    rw [Option.map_eq_some_iff] at hw
                    obtain ⟨w', hw', rfl⟩ := hw
                    have := (hmeta w' (List.mem_append_right _ (List.mem_of_mem_head? hw'))).2.1
                    simp only at hwk
                    rw [hwk] at this
                    exact hdm i this)
                rw [blockLen_eq, Nat.add_comm i 1]
                change File.unit p.version.blockSize f _ = _
                rw [this, File.lastWrite_of_all (d := blockBytes p.version p.uid.bytes (UInt32.ofNat (1 + i)) q) ⟨_, hin, rfl⟩]
                · rfl
                · intro w hw hwk
                  rcases List.mem_append.1 hw with hw | hw
                  · rcases List.mem_append.1 hw with hw | hw
                    · have := ((metaWrites'_iff hok.meta).1 hw).1
                      rw [hwk, hme] at this
                      refine absurd this (fun h => hdm i ?_)
                      rw [hme]; exact h
                    · obtain ⟨j, q', hq', rfl⟩ := mem_dataWrites hw
                      simp only at hwk ⊢
                      have := C10_data_injective (some p.metaEnabled) p.dpb hok.valid (1 + j) (1 + i) (by omega) (by omega) hwk
                      have hij : j = i := by omega
                      subst hij
                      rw [hq] at hq'
                      simp at hq'
                      rw [hq']
                  · have := (hmeta w (List.mem_append_left _ hw)).2.1
                    rw [hwk] at this
                    exact absurd this (hdm i)

/-- **C43, metadata.**  A complete metadata block found after a crash which records the hash of some bytes `D` either belongs to
the finished data, which then is all there and is `D`; or is the placeholder, whose hash is that of no bytes; or there is a hash
collision. -/
theorem C43_metadata (E : Env) (p : Param) (hE : E.Ok p) (hok : p.Ok) (inp : Input) (hn : NamesOk p inp)
    (done : List (Nat × List Byte)) (next : Option (Nat × List Byte)) (cut : Nat) (f : File) (h : CrashFile E p inp done next cut f)
    (k : Nat) (hk : (k + 1) * blockLen p.version ≤ f.length) (hkn : ∀ w, next = some w → w.1 ≠ k * blockLen p.version)
    (ms : List Metadata) (hms : Records p.version p.uid (f.readAt (k * blockLen p.version) (blockLen p.version)) ms)
    (D : List Byte) (hD : firstHsh ms = some (E.hash.bytes p.hashType D)) :
    (D <+: startBytes p inp ∧ firstFsz ms = some D.length ∧ Complete E p D f) ∨ D = [] ∨
      ∃ D', D' ≠ D ∧ E.hash.bytes p.hashType D' = E.hash.bytes p.hashType D := by
  obtain ⟨stored, h1, _, h3⟩ := C43_crash E p hE hok inp hn done next cut f h
  have hpl := h3 k hk hkn
  have huniq : ∀ {b : List Byte} {ms ms' : List Metadata}, Records p.version p.uid b ms → Records p.version p.uid b ms' → ms = ms' := by
    rintro b ms ms' ⟨q, hq, rfl⟩ ⟨q', hq', rfl⟩
    rw [(hq.unique hq').2.2.2]
  generalize f.readAt (k * blockLen p.version) (blockLen p.version) = b at hms hpl
  cases hpl with
  | blank =>
    obtain ⟨q, hq, _⟩ := hms
    have := hq.bytes
    unfold blockBytes headerBytes at this
    have hz : (List.replicate (blockLen p.version) (0 : Byte))[0]? = some 0x53 := by rw [this]; rfl
    rw [List.getElem?_replicate] at hz
    split at hz
    · simp at hz
    · simp at hz
  | @data i q hq hi hi2 =>
    obtain ⟨q', hq', _⟩ := hms
    have hlen : q.length = blockLen p.version - 16 := by
      have := congrArg List.length hq'.bytes
      rw [blockBytes_length, blockBytes_length, hq'.len] at this
      omega
    have := (hq'.unique ⟨rfl, hlen⟩).2.2.1
    have := congrArg UInt32.toNat this
    rw [UInt32.toNat_ofNat_of_lt' (by exact hi2)] at this
    simp at this
  | placeholder hme hkm hr hh =>
    rw [huniq hms hr, hh] at hD
    by_cases h0 : D = []
    · exact .inr (.inl h0)
    · exact .inr (.inr ⟨[], fun h => h0 h.symm, by simpa using hD⟩)
  | final hme hkm hr hs hh hc =>
    rw [huniq hms hr, hh] at hD
    by_cases h0 : D = stored
    · subst h0
      exact .inl ⟨h1, by rw [huniq hms hr]; exact hs, hc⟩
    · exact .inr (.inr ⟨stored, fun h => h0 h.symm, by simpa using hD⟩)

/-- **C24, schedules.**  Every complete run of the threads, however they are scheduled, has the result that C24 is about; and
every incomplete run can be continued to such a complete one. -/
theorem C24_any_schedule (E : Env) (p : Param) (hE : E.Ok p) (hok : p.Ok) (inp : Input) (d : Disk) (lastSeq k : Nat)
    (s : Pipeline.Sys 3 St Buffer) (h1 : tooLarge p inp = some false) (h2 : dummyMeta E p inp = some d)
    (h3 : lastDataSeqNumExcParity p.version p.dpb = some lastSeq)
    (h4 : (ring E.rs p E.stop (required p inp) lastSeq (E.lotCount * p.cfg.direct + 1)).Steps k (spawned E p inp d) s)
    (h5 : Pipeline.Finished s) : finish E p inp (collect s) = encodeFile E p inp := by
  obtain ⟨z, hz1, _, _, _, _, hz⟩ := ring_end hE hok h1 h2 h3
  rw [hz1, (hz k s h4).2.2 h5]

/-! ### Instances -/

/-- The writes of a complete run, cut anywhere, are a crash. -/
theorem crash_exists {E : Env} {p : Param} (hE : E.Ok p) (hok : p.Ok) {inp : Input} {d : Disk} {rep : Report}
    (h : encodeFile E p inp = (d, .ok rep)) (n cut : Nat) :
    ∃ f, CrashFile E p inp (d.ops.take n) d.ops[n]? cut f := by
  have hsz : tooLarge p inp = some false := by
    unfold encodeFile at h
    cases ht : tooLarge p inp with
    | none => rw [ht] at h; simp at h
    | some b => cases b with
      | false => rfl
      | true => rw [ht] at h; simp at h
  have hdm : dummyMeta E p inp ≠ none := by
    intro hd
    unfold encodeFile at h
    rw [hsz, hd] at h; simp at h
  have := reached_end hE hok hsz hdm
  rw [h] at this
  exact ⟨_, d, d.ops.drop n, this, (List.take_append_drop n _).symm, by rw [List.head?_drop], rfl⟩

/-- Encoding 1000 bytes in version 17 with 3 + 1 shards: a crash in the middle of the third write. -/
example : ∃ (d : Disk) (f : File), CrashFile (demoEnv fun _ => false) (demoParam .v17 (some ⟨3, 1, 0⟩) none)
      ⟨List.replicate 1000 7, some ("a.txt", some 5)⟩ (d.ops.take 2) d.ops[2]? 100 f ∧
    NamesOk (demoParam .v17 (some ⟨3, 1, 0⟩) none) ⟨List.replicate 1000 7, some ("a.txt", some 5)⟩ := by
  obtain ⟨h1, h2⟩ := demo_ok (v := .v17) (dpb := some ⟨3, 1, 0⟩) none rfl (by simp) (fun _ => false)
  obtain ⟨d, rep, h⟩ := C24_succeeds _ _ h2 h1 ⟨List.replicate 1000 7, some ("a.txt", some 5)⟩ (by
    intro mx hmx
    rw [maxSize_eq h1] at hmx
    cases hmx
    decide +kernel) (by intro _; decide +kernel)
  obtain ⟨f, hf⟩ := crash_exists h2 h1 h 2 100
  refine ⟨d, f, hf, by decide +kernel, ?_⟩
  intro n t ht
  simp only [Option.some.injEq, Prod.mk.injEq] at ht
  rw [← ht.1]
  decide +kernel

/-- **C43 violated by Ctrl-C**: pressing it while a 1000 byte file is encoded ends the run successfully with a container that
verifies as complete but holds only the first 496 bytes. -/
theorem C43_interrupt_violated : ∃ E p inp d rep stored, p.Ok ∧ Env.Ok E p ∧ inp.bytes.length = 1000 ∧ p.toPos = none ∧
    p.fromPos = none ∧ encodeFile E p inp = (d, .ok rep) ∧ Holds E p d rep stored ∧ stored.length = 496 := by
  obtain ⟨h1, h2⟩ := demo_ok (v := .v1) (dpb := none) none rfl (by simp) (fun n => n == 1)
  obtain ⟨d, rep, h⟩ := C24_succeeds _ _ h2 h1 ⟨List.replicate 1000 7, some ("a.txt", some 5)⟩ (by
    intro mx hmx
    rw [maxSize_eq h1] at hmx
    cases hmx
    decide +kernel) (by intro _; decide +kernel)
  obtain ⟨stored, h3, _, _, h6⟩ := holds_of_done h2 h1 (by
    refine ⟨by decide +kernel, ?_⟩
    intro n t ht
    simp only [Option.some.injEq, Prod.mk.injEq] at ht
    rw [← ht.1]
    decide +kernel) h
  refine ⟨_, _, _, d, rep, stored, h1, h2, List.length_replicate, rfl, rfl, h, h3, ?_⟩
  have := h6 _ h1.lastSeq
  have h7 : ((plan (demoParam .v1 none none) (fun n => n == 1) (required (demoParam .v1 none none)
      ⟨List.replicate 1000 7, some ("a.txt", some 5)⟩) 4294967295
      ((startBytes (demoParam .v1 none none) ⟨List.replicate 1000 7, some ("a.txt", some 5)⟩).length + 1)
      (startSt (demoParam .v1 none none) ⟨List.replicate 1000 7, some ("a.txt", some 5)⟩ ⟨[], []⟩).rd).map (·.1.flatten)).map
        List.length = some 496 := by decide +kernel
  have h8 := congrArg (Option.map List.length) this
  rw [Option.map_some] at h8
  exact Option.some.inj (h8.symm.trans h7)

end Verif.Encode
