import Verif.Lemmas.Container
/-!
# Lemmas about `encode_file` as a whole
-/

namespace Verif.Encode
open Format ContainerSpec LayoutSpec

/-- What the surroundings of the encoder must satisfy: the codec keeps its promises, and the buffers are of the sizes the
program makes them (`lotCount = num_cpus * 50` is even). -/
structure Env.Ok (E : Env) (p : Param) : Prop where
  laws : E.rs.Laws
  pos : 0 < E.lotCount
  even : 2 ∣ E.lotCount
  room : buffersInRotation * (E.lotCount * p.cfg.lotSize) < 2 ^ 32

theorem Param.Ok.valid {p : Param} (h : p.Ok) : Valid p.dpb := fun d hd => (h.shards d hd).1

theorem Env.Ok.rsOk {E : Env} {p : Param} (hE : E.Ok p) (h : p.Ok) : RsOk E.rs p.cfg := hE.laws.rsOk h.shards

theorem Env.Ok.rsLen {E : Env} {p : Param} (hE : E.Ok p) (h : p.Ok) : RsLen E.rs p.version p.dpb := hE.rsOk h

theorem Param.Ok.meta {p : Param} (h : p.Ok) (hd : p.dpb ≠ none) : p.metaEnabled = true := by
  have hc := h.consistent
  unfold Param.metaEnabled
  cases hdp : p.dpb with
  | none => exact absurd hdp hd
  | some d =>
    have hu : p.version.usesRs = true := by simpa [verConsistent, hdp] using hc
    have : p.version.forcesMeta = true := by
      revert hu; cases p.version <;> decide
    simp [this]

theorem maxChunks_pos {p : Param} (h : p.Ok) : 0 < maxChunks p := by
  obtain ⟨h1, h2⟩ := h.shards_pos
  unfold maxChunks
  refine Nat.mul_pos ?_ h1
  rw [Nat.div_pos_iff]
  unfold lastSeqNum
  omega

theorem atChunk_start {p : Param} (h : p.Ok) (inp : Input) (f : Disk) : AtChunk p 0 (startSt p inp f).rd := by
  have := maxChunks_pos h
  refine ⟨Nat.zero_le _, by simp [startSt], by simp [startSt, seqAfter], ?_, rfl, rfl⟩
  simp only [startSt]
  rw [eq_comm, decide_eq_false_iff_not]
  omega

theorem wanted_le {p : Param} {required : Option Nat} {k : Nat} {rest : List Byte} :
    ∀ c ∈ wanted p required k rest, c ≠ [] ∧ c.length ≤ p.version.dataSize := by
  intro c hc
  unfold wanted at hc
  have : c ∈ chunksOf p.version.dataSize rest := by
    cases required with
    | none => exact hc
    | some r => exact List.mem_of_mem_take hc
  exact ⟨(mem_chunksOf rest c this).1, (mem_chunksOf rest c this).2.1⟩

/-- The blocks of an allowed number of chunks can all be numbered. -/
theorem payloads_fit {rs : RsCodec} {p : Param} (hok : p.Ok) (hrs : RsLen rs p.version p.dpb) {cs : List (List Byte)}
    (hc : ∀ c ∈ cs, c.length ≤ p.version.dataSize) (hl : cs.length ≤ maxChunks p) :
    (payloads rs p.version p.dpb cs).length ≤ lastSeqNum := by
  rw [(payloads_spec hrs hok.valid hc).1]
  unfold maxChunks shards at hl
  unfold blockCount
  cases hd : p.dpb with
  | none => rw [hd] at hl; simpa using hl
  | some d =>
    rw [hd] at hl
    simp only at hl ⊢
    have h1 := (hok.shards d hd).1
    have := (ceilDiv_le_iff (r := cs.length) (k := lastSeqNum / (d.data + d.parity)) (by omega : 0 < d.data)).2 hl
    exact Nat.le_trans (Nat.mul_le_mul_right _ this) (Nat.div_mul_le_self _ _)

/-- The threads: which chunks are stored, what is written and counted. -/
theorem runThreads_spec {E : Env} {p : Param} (hE : E.Ok p) (hok : p.Ok) (inp : Input) (f : Disk) :
    ∃ cs st, runThreads E p inp f = some st ∧ st.panicked = false ∧
      (∀ lastSeq, lastDataSeqNumExcParity p.version p.dpb = some lastSeq →
        (plan p E.stop (required p inp) lastSeq ((startBytes p inp).length + 1) (startSt p inp ⟨[], []⟩).rd).map (·.1) = some cs) ∧
      (∃ j, cs = (wanted p (required p inp) 0 (startBytes p inp)).take j) ∧ cs.length ≤ maxChunks p ∧
      st.rd.hashed = (if p.metaEnabled then cs.flatten else []) ∧
      (st.rd.overflow = true → cs.length = maxChunks p ∧ cs.length < (wanted p (required p inp) 0 (startBytes p inp)).length) ∧
      ((∀ n, E.stop n = false) → st.rd.overflow = false → cs = wanted p (required p inp) 0 (startBytes p inp)) ∧
      st.wr = f.writes (File.atPos p.version.blockSize
        (dataWrites p.version p.uid.bytes (some p.metaEnabled) p.dpb 1 (payloads E.rs p.version p.dpb cs))) ∧
      st.wk.dataBlocks + st.wk.parityBlocks = (payloads E.rs p.version p.dpb cs).length ∧
      st.wk.dataBlocks * p.version.dataSize = st.wk.paddingBytes + cs.flatten.length ∧
      ParityShare p.dpb st.wk.parityBlocks (payloads E.rs p.version p.dpb cs).length := by
  have hls := hok.lastSeq
  obtain ⟨cs, stF, h1, h2, h3, h4, h5, h6⟩ := plan_spec hok (stop := E.stop) (required := required p inp) hls
    ((startSt p inp f).rd.rest.length + 1) 0 (startSt p inp f).rd (atChunk_start hok inp f) (by omega)
  have hrest : (startSt p inp f).rd.rest = startBytes p inp := rfl
  rw [hrest] at h1 h2 h5 h6
  simp only [Nat.zero_add] at h3 h5
  have hcs : ∀ c ∈ cs, c.length ≤ p.version.dataSize := by
    obtain ⟨j, rfl⟩ := h2
    intro c hc
    exact (wanted_le c (List.mem_of_mem_take hc)).2
  have hfit := payloads_fit hok (hE.rsLen hok) hcs h3
  have hsl : (startBytes p inp).length ≤ inp.bytes.length := by
    unfold startBytes; split <;> simp
  have hp : p.cfg.Pos := by
    unfold LotCfg.Pos LotCfg.direct
    simp only [Param.cfg, if_true]
    cases hd : p.dpb with
    | none => simp
    | some d => exact (hok.shards d hd).1
  obtain ⟨st', r1, r2, r3, r4, r5, r6⟩ := rounds (stop := E.stop) (required := required p inp) hok (hE.rsOk hok) hE.pos hE.even
    (N := buffersInRotation) hE.room (by decide) ((startBytes p inp).length + 1) 0 (fun _ => startSt p inp f)
    (Buffer.newMulti p.cfg E.lotCount buffersInRotation) cs stF (inp.bytes.length + 3) (Rot.new hp hE.room) h1 rfl
    (by unfold lastSeqNum at hfit; omega) (by omega)
  obtain ⟨D, P, B, e1, e2, e3, e4⟩ := r5
  refine ⟨cs, _, by unfold runThreads; rw [hls]; simp only; rw [r1]; rfl, ?_, ?_, h2, h3, ?_, ?_, ?_, ?_, ?_, ?_, ?_⟩
  · simp [r3, r4, startSt]
  · intro ls hls'
    rw [hls] at hls'
    cases hls'
    have : (startSt p inp ⟨[], []⟩).rd = (startSt p inp f).rd := rfl
    rw [this, h1]; rfl
  · simp only [r2]; rw [h4]; simp [startSt]
  · simp only [r2]; exact h5
  · simp only [r2]; exact h6
  · simp only [r6]
    rw [Nat.zero_mul, Nat.add_zero]; rfl
  · simp only [e1]; simpa [startSt] using e2
  · simp only [e1]; simpa [startSt] using e3
  · simp only [e1]; simpa [startSt] using e4

/-- Bytes of a metadata block. -/
theorem metaBlockBytes_eq (v : Version) (uid : Uid) (ms : List Metadata) :
    metaBlockBytes v uid ms = (metasToBytes ms v.dataSize).map fun pl => blockBytes v uid.bytes 0 pl := by
  unfold metaBlockBytes
  have hsz : Block.size ({ Block.new v uid .metadata with data := .metadata ms } : Block) = v.blockSize := rfl
  have hbl : v.blockSize ≤ largestBlockSize := by cases v <;> decide
  have hds : v.blockSize - 16 = v.dataSize := by have := v.blockSize_eq; omega
  rw [Block.syncTo_meta _ _ ms rfl rfl (by rw [hsz]; simpa using hbl), hsz, hds]
  cases hm : metasToBytes ms v.dataSize with
  | none => rfl
  | some pl =>
    simp only [Option.map_some]
    congr 1
    refine List.take_left' ?_
    have := blockBytes_length v uid 0 pl
    rw [metasToBytes_length hm] at this
    rw [v.blockSize_eq]
    exact this

theorem metaBlockBytes_length {v : Version} {uid : Uid} {ms : List Metadata} {b : List Byte} (h : metaBlockBytes v uid ms = some b) :
    b.length = v.blockSize := by
  rw [metaBlockBytes_eq, Option.map_eq_some_iff] at h
  obtain ⟨pl, h1, rfl⟩ := h
  rw [blockBytes_length, metasToBytes_length h1, v.blockSize_eq]

/-- Metadata recorded before anything has been read. -/
def dummyMetas (E : Env) (p : Param) (inp : Input) : List Metadata := packMetadata E.hash p inp 0 (required p inp) none

/-- Metadata recorded at the end, if `bytes` were stored. -/
def finalMetas (E : Env) (p : Param) (inp : Input) (bytes : List Byte) : List Metadata :=
  packMetadata E.hash p inp E.startTime (some bytes.length) (some (E.hash.bytes p.hashType bytes))

/-- Everything written before the final metadata: the placeholder metadata and the data. -/
def beforeFinal (E : Env) (p : Param) (cs : List (List Byte)) (mb0 : List Byte) : List (Nat × List Byte) :=
  metaWrites' p.metaEnabled p.dpb mb0 ++
    dataWrites p.version p.uid.bytes (some p.metaEnabled) p.dpb 1 (payloads E.rs p.version p.dpb cs)

/-- The output file after these writes (of blocks at block indices). -/
def diskOf (p : Param) (ws : List (Nat × List Byte)) : Disk := ⟨[], File.atPos p.version.blockSize ws⟩

theorem diskOf_writes (p : Param) (a b : List (Nat × List Byte)) :
    (diskOf p a).writes (File.atPos p.version.blockSize b) = diskOf p (a ++ b) := by
  simp [diskOf, Disk.writes, File.atPos]

/-- The final step and its result. -/
inductive Outcome (E : Env) (p : Param) (inp : Input) (cs : List (List Byte)) (mb0 : List Byte) : Disk → Except Err Report → Prop
  | overflow : cs.length = maxChunks p → cs.length < (wanted p (required p inp) 0 (startBytes p inp)).length →
      Outcome E p inp cs mb0 (diskOf p (beforeFinal E p cs mb0)) (.error .seqNumOverflow)
  | tooMuch : p.metaEnabled = true → metaBlockBytes p.version p.uid (finalMetas E p inp cs.flatten) = none →
      Outcome E p inp cs mb0 (diskOf p (beforeFinal E p cs mb0)) (.error .tooMuchMetadata)
  | done {mb} (rep : Report) :
      (p.metaEnabled = true → metaBlockBytes p.version p.uid (finalMetas E p inp cs.flatten) = some mb ∧
        rep.hash = some (E.hash.bytes p.hashType cs.flatten)) →
      rep.counters.bytesEncoded p.version = cs.flatten.length →
      rep.counters.dataBlocks + rep.counters.parityBlocks = (payloads E.rs p.version p.dpb cs).length →
      ParityShare p.dpb rep.counters.parityBlocks (payloads E.rs p.version p.dpb cs).length →
      Outcome E p inp cs mb0 (diskOf p (beforeFinal E p cs mb0 ++ metaWrites' p.metaEnabled p.dpb mb)) (.ok rep)

theorem dummyMeta_spec {E : Env} {p : Param} {inp : Input} {d : Disk} (h : dummyMeta E p inp = some d) :
    ∃ mb0, (p.metaEnabled = true → metaBlockBytes p.version p.uid (dummyMetas E p inp) = some mb0) ∧
      d = diskOf p (metaWrites' p.metaEnabled p.dpb mb0) := by
  unfold dummyMeta at h
  by_cases hm : p.metaEnabled = true
  · rw [if_pos hm, Option.map_eq_some_iff] at h
    obtain ⟨b, hb, rfl⟩ := h
    refine ⟨b, fun _ => hb, ?_⟩
    rw [writeMeta_eq, metaWrites', if_pos hm]
    simp [diskOf, Disk.writes]
  · rw [if_neg hm] at h
    simp only [Option.some.injEq] at h
    refine ⟨[], fun h => absurd h hm, ?_⟩
    rw [metaWrites', if_neg hm, ← h]; rfl

/-- What is done with the result of the threads. -/
theorem finish_spec {E : Env} {p : Param} {inp : Input} {cs : List (List Byte)} {mb0 : List Byte} {st : St}
    (h0 : st.panicked = false)
    (h3 : st.rd.hashed = (if p.metaEnabled then cs.flatten else []))
    (h4 : st.rd.overflow = true → cs.length = maxChunks p ∧ cs.length < (wanted p (required p inp) 0 (startBytes p inp)).length)
    (h6 : st.wr = diskOf p (beforeFinal E p cs mb0))
    (h7 : st.wk.dataBlocks + st.wk.parityBlocks = (payloads E.rs p.version p.dpb cs).length)
    (h8 : st.wk.dataBlocks * p.version.dataSize = st.wk.paddingBytes + cs.flatten.length)
    (h9 : ParityShare p.dpb st.wk.parityBlocks (payloads E.rs p.version p.dpb cs).length) :
    ∃ d res, finish E p inp st = (d, res) ∧ (res ≠ .error .seqNumOverflow → st.rd.overflow = false) ∧
      Outcome E p inp cs mb0 d res := by
  have hbytes : st.wk.bytesEncoded p.version = cs.flatten.length := by
    unfold Counters.bytesEncoded; omega
  by_cases hov : st.rd.overflow = true
  · refine ⟨_, .error .seqNumOverflow, ?_, by simp, .overflow (h4 hov).1 (h4 hov).2⟩
    unfold finish; rw [h0, if_neg (by simp), if_pos hov, h6]
  · have hov' : st.rd.overflow = false := by simpa using hov
    by_cases hme : p.metaEnabled = true
    · rw [if_pos hme] at h3
      have hfm : packMetadata E.hash p inp E.startTime (some (st.wk.bytesEncoded p.version))
          (some (E.hash.bytes p.hashType st.rd.hashed)) = finalMetas E p inp cs.flatten := by
        unfold finalMetas; rw [hbytes, h3]
      cases hmb : metaBlockBytes p.version p.uid (finalMetas E p inp cs.flatten) with
      | none =>
        refine ⟨_, .error .tooMuchMetadata, ?_, fun _ => hov', .tooMuch hme hmb⟩
        unfold finish; rw [h0, if_neg (by simp), if_neg hov, if_pos hme]; simp only [hfm, hmb, h6]
      | some mb =>
        refine ⟨_, .ok ⟨st.wk, some (E.hash.bytes p.hashType cs.flatten)⟩, ?_, fun _ => hov',
          .done (mb := mb) _ (fun _ => ⟨hmb, rfl⟩) hbytes h7 h9⟩
        unfold finish; rw [h0, if_neg (by simp), if_neg hov, if_pos hme]; simp only [hfm, hmb]
        rw [h3, writeMeta_eq, h6, diskOf_writes, metaWrites', if_pos hme]
    · refine ⟨_, .ok ⟨st.wk, none⟩, ?_, fun _ => hov', .done (mb := mb0) _ (fun h => absurd h hme) hbytes h7 h9⟩
      unfold finish; rw [h0, if_neg (by simp), if_neg hov, if_neg hme, h6, metaWrites', if_neg hme, List.append_nil]

/-- Everything `encode_file` does once it has started writing. -/
theorem encodeFile_spec {E : Env} {p : Param} (hE : E.Ok p) (hok : p.Ok) (inp : Input) (hsz : tooLarge p inp = some false)
    (hd : dummyMeta E p inp ≠ none) :
    ∃ cs mb0 d res, encodeFile E p inp = (d, res) ∧
      (∀ lastSeq, lastDataSeqNumExcParity p.version p.dpb = some lastSeq →
        (plan p E.stop (required p inp) lastSeq ((startBytes p inp).length + 1) (startSt p inp ⟨[], []⟩).rd).map (·.1) = some cs) ∧
      (∃ j, cs = (wanted p (required p inp) 0 (startBytes p inp)).take j) ∧ cs.length ≤ maxChunks p ∧
      ((∀ n, E.stop n = false) → res ≠ .error .seqNumOverflow → cs = wanted p (required p inp) 0 (startBytes p inp)) ∧
      (p.metaEnabled = true → metaBlockBytes p.version p.uid (dummyMetas E p inp) = some mb0) ∧
      Outcome E p inp cs mb0 d res := by
  obtain ⟨d0, hd0⟩ := Option.ne_none_iff_exists'.1 hd
  obtain ⟨mb0, hmb0, hd0'⟩ := dummyMeta_spec hd0
  obtain ⟨cs, st, e, h0, hpl, h1, h2, h3, h4, h5, h6, h7, h8, h9⟩ := runThreads_spec hE hok inp d0
  have h6' : st.wr = diskOf p (beforeFinal E p cs mb0) := by
    rw [h6, hd0', diskOf_writes]; rfl
  obtain ⟨d, res, hf, hov, hout⟩ := finish_spec (E := E) h0 h3 h4 h6' h7 h8 h9
  refine ⟨cs, mb0, d, res, ?_, hpl, h1, h2, fun hns hr => h5 hns (hov hr), hmb0, hout⟩
  unfold encodeFile; rw [hsz]; simp only; rw [hd0]; simp only; rw [e]; exact hf

/-! ### The file -/

theorem chunks_of_prefix {p : Param} {required : Option Nat} {rest : List Byte} {cs : List (List Byte)}
    (h : ∃ j, cs = (wanted p required 0 rest).take j) : ∀ c ∈ cs, c.length ≤ p.version.dataSize := by
  obtain ⟨j, rfl⟩ := h
  intro c hc
  exact (wanted_le c (List.mem_of_mem_take hc)).2

/-- The file before the final metadata is written. -/
theorem image_before {E : Env} {p : Param} (hE : E.Ok p) (hok : p.Ok) {cs : List (List Byte)} {mb0 : List Byte}
    (hcs : ∀ c ∈ cs, c.length ≤ p.version.dataSize) (hm0 : p.metaEnabled = true → mb0.length = p.version.blockSize) :
    Image p.version p.uid.bytes (some p.metaEnabled) p.dpb (payloads E.rs p.version p.dpb cs) mb0
      (diskOf p (beforeFinal E p cs mb0)).file := by
  have hps := (payloads_spec (hE.rsLen hok) hok.valid hcs).2
  have := image_of_writes (uid := p.uid) hok.valid hok.meta hps hm0 hm0
  rw [File.atPos, List.map_append, File.writes_append] at this
  change Image _ _ _ _ _ _ (File.writes (diskOf p (beforeFinal E p cs mb0)).file (File.atPos _ _)) at this
  generalize hst : (diskOf p (beforeFinal E p cs mb0)).file = st at this ⊢
  -- writing the same metadata once more changes nothing
  have hagain : File.writes st (File.atPos p.version.blockSize (metaWrites' p.metaEnabled p.dpb mb0)) = st := by
    have hu : 0 < p.version.blockSize := by rw [← blockLen_eq]; exact blockLen_pos _
    have hlenM : ∀ w ∈ metaWrites' p.metaEnabled p.dpb mb0, w.2.length = p.version.blockSize := by
      intro w hw
      by_cases hme : p.metaEnabled = true
      · rw [((metaWrites'_iff hok.meta).1 hw).2]; exact hm0 hme
      · simp [metaWrites', hme] at hw
    have hlenA : ∀ w ∈ beforeFinal E p cs mb0, w.2.length = p.version.blockSize := by
      intro w hw
      rcases List.mem_append.1 hw with hw | hw
      · exact hlenM w hw
      · obtain ⟨i, q, hq, rfl⟩ := mem_dataWrites hw
        simp only
        rw [blockBytes_length, hps q (List.mem_of_getElem? hq), p.version.blockSize_eq]
    obtain ⟨a1, a2⟩ := File.unit_writes hu _ hlenA (f := []) (by simp)
    change List.length (diskOf p (beforeFinal E p cs mb0)).file = _ at a1
    change ∀ k < _, File.unit _ (diskOf p (beforeFinal E p cs mb0)).file k = _ at a2
    rw [hst] at a1 a2
    simp only [List.length_nil, Nat.zero_div] at a1 a2
    obtain ⟨b1, b2⟩ := File.unit_writes hu _ hlenM (f := st) (by rw [a1]; exact Nat.dvd_mul_left _ _)
    have hdiv : st.length / p.version.blockSize = File.maxUnits 0 (beforeFinal E p cs mb0) := by
      rw [a1, Nat.mul_div_cancel _ hu]
    have hmaxA := (File.maxUnits_le.1 (Nat.le_refl (File.maxUnits 0 (beforeFinal E p cs mb0)))).2
    have hmm : File.maxUnits (st.length / p.version.blockSize) (metaWrites' p.metaEnabled p.dpb mb0) =
        st.length / p.version.blockSize := by
      refine Nat.le_antisymm (File.maxUnits_le.2 ⟨Nat.le_refl _, ?_⟩) (File.maxUnits_le.1 (Nat.le_refl _)).1
      intro w hw
      rw [hdiv]
      exact hmaxA w (List.mem_append_left _ hw)
    rw [hmm, hdiv] at b1
    rw [hmm, hdiv] at b2
    refine File.ext_units hu _ b1 a1 ?_
    intro k hk
    rw [b2 k hk]
    cases hlw : File.lastWrite (metaWrites' p.metaEnabled p.dpb mb0) k with
    | none =>
      rw [Option.getD_none, File.unit0, if_pos]
      rw [a1]; exact Nat.mul_lt_mul_of_pos_right hk hu
    | some d =>
      have hmem := (metaWrites'_iff hok.meta).1 (File.lastWrite_some hlw)
      simp only at hmem
      rw [Option.getD_some, a2 k hk, beforeFinal, File.lastWrite_append,
        show File.lastWrite (dataWrites p.version p.uid.bytes (some p.metaEnabled) p.dpb 1 (payloads E.rs p.version p.dpb cs)) k = none from ?_,
        hlw]
      · rfl
      · rw [File.lastWrite_none]
        intro w hw hwk
        obtain ⟨i, q, hq, rfl⟩ := mem_dataWrites hw
        simp only at hwk
        exact C10_data_not_meta (some p.metaEnabled) p.dpb hok.valid (1 + i) (by omega) (by rw [hwk]; exact hmem.1)
  rwa [hagain] at this

/-- The finished file. -/
theorem image_after {E : Env} {p : Param} (hE : E.Ok p) (hok : p.Ok) {cs : List (List Byte)} {mb0 mb : List Byte}
    (hcs : ∀ c ∈ cs, c.length ≤ p.version.dataSize) (hm0 : p.metaEnabled = true → mb0.length = p.version.blockSize)
    (hm : p.metaEnabled = true → mb.length = p.version.blockSize) :
    Image p.version p.uid.bytes (some p.metaEnabled) p.dpb (payloads E.rs p.version p.dpb cs) mb
      (diskOf p (beforeFinal E p cs mb0 ++ metaWrites' p.metaEnabled p.dpb mb)).file :=
  image_of_writes (uid := p.uid) hok.valid hok.meta (payloads_spec (hE.rsLen hok) hok.valid hcs).2 hm0 hm

/-- A prefix of the chunks of a file are the chunks of a prefix of the file. -/
theorem chunksOf_take {α : Type} {n : Nat} (hn : 0 < n) (l : List α) (j : Nat) :
    (chunksOf n l).take j = chunksOf n (l.take (j * n)) := by
  induction j generalizing l with
  | zero => simp [chunksOf_nil]
  | succ j ih =>
    by_cases hl : l = []
    · subst hl; simp [chunksOf_nil]
    · rw [chunksOf, dif_neg (by simp [hl]; omega), List.take_succ_cons, ih]
      conv_rhs => rw [chunksOf, dif_neg (by
        simp only [not_or]; refine ⟨by omega, ?_⟩
        have := List.length_pos_iff.2 hl
        intro h
        have := congrArg List.length h
        rw [List.length_take, Nat.succ_mul, List.length_nil, Nat.min_eq_zero_iff] at this
        generalize j * n = x at this
        omega)]
      rw [List.take_take, Nat.min_eq_left (by rw [Nat.succ_mul]; omega)]
      congr 2
      rw [List.drop_take]
      congr 1
      rw [Nat.succ_mul]; omega

end Verif.Encode
