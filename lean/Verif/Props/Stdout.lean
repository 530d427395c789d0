import Verif.Lemmas.Stdout
import Verif.Lemmas.ContainerRef
import Verif.Lemmas.Demo
import Verif.Props.ContentHash
/-!
# C41: decoding to standard output
-/

namespace Verif.Decode
open Format Scan ScanSpec BlockRing Layout LayoutSpec DecodeSpec RepairSpec StdoutSpec StoredSpec ContainerSpec Expect

/-- The order in which a hash map is iterated: only the keys that are in it are visited. -/
def Env.Visits (E : Env) : Prop := ∀ votes x, x ∈ E.order votes → x ∈ votes

theorem emission_get (ref : Block) (dpb : Option Dpb) (f : File) {size i : Nat} (hi : i < size) :
    (emission ref dpb f ((size - 1) / ref.header.version.dataSize) size)[i]? =
      (bytesFor ref dpb f (seqOf dpb (i / ref.header.version.dataSize)))[i % ref.header.version.dataSize]? := by
  have hds := FileUtils.dataSize_pos ref.header.version
  have e : i / ref.header.version.dataSize * ref.header.version.dataSize + i % ref.header.version.dataSize = i := by
    rw [Nat.mul_comm]; exact Nat.div_add_mod i _
  unfold emission
  rw [List.getElem?_take_of_lt hi]
  conv_lhs => rw [← e]
  rw [flatMap_getElem? (m := ref.header.version.dataSize) _ _ (fun _ _ => bytesFor_length _ _ _ _) _ _ (Nat.mod_lt _ hds),
    List.getElem?_range (by have := Nat.div_le_div_right (c := ref.header.version.dataSize) (show i ≤ size - 1 by omega); omega)]
  rfl

theorem emission_length (ref : Block) (dpb : Option Dpb) (f : File) {size : Nat} (h0 : 0 < size) :
    (emission ref dpb f ((size - 1) / ref.header.version.dataSize) size).length = size := by
  have h1 : (emission ref dpb f ((size - 1) / ref.header.version.dataSize) size).length ≤ size := by
    unfold emission; rw [List.length_take]; omega
  have h2 := emission_get ref dpb f (show size - 1 < size by omega)
  have hds := FileUtils.dataSize_pos ref.header.version
  have h3 := List.getElem?_eq_getElem (l := bytesFor ref dpb f (seqOf dpb ((size - 1) / ref.header.version.dataSize)))
    (i := (size - 1) % ref.header.version.dataSize) (by rw [bytesFor_length]; exact Nat.mod_lt _ hds)
  rw [h3] at h2
  have := (List.getElem?_eq_some_iff.1 h2).1
  omega

/-- What decoding to a file writes, in the same terms. -/
theorem file_emission {ref : Block} {dpb : Option Dpb} (hv : Valid dpb) {f full : File} {size : Nat} (h0 : 0 < size)
    (hsz : refFsz ref = some size)
    (hnum : seqOf dpb ((size - 1) / ref.header.version.dataSize) ≤ lastSeqNum) (hin : InPlace ref.header.version ref.header.uid dpb f)
    (ha : Assembled ref.header.version.dataSize
      (chunks dpb ((List.range (f.length / blockLen ref.header.version)).filterMap (look ref f 0))) full) :
    truncated ref full = emission ref dpb f ((size - 1) / ref.header.version.dataSize) size := by
  have hds := FileUtils.dataSize_pos ref.header.version
  unfold truncated
  rw [hsz]
  simp only
  set cs := chunks dpb ((List.range (f.length / blockLen ref.header.version)).filterMap (look ref f 0)) with hcs
  have hone : ∀ {j p}, (j, p) ∈ cs ↔ atPlace ref f (dataWriteIndex (seqOf dpb j) none dpb) (seqOf dpb j) = some p := by
    intro j p
    rw [hcs, mem_chunks, atPlace_some]
    constructor
    · rintro ⟨s, h1, h2⟩
      rw [chunkOf_iff hv] at h2
      subst h2
      obtain ⟨h3, k, h4⟩ := mem_found.1 h1
      simp only at h3 h4
      have hne : UInt32.ofNat (seqOf dpb j) ≠ 0 := by
        intro h
        have := congrArg UInt32.toNat h
        rw [ofNat_toNat32 h3] at this
        have h5 := seqOf_pos dpb j
        change seqOf dpb j = 0 at this
        omega
      have hk := hin k _ p hne h4
      rw [ofNat_toNat32 h3] at hk
      refine ⟨h3, ?_⟩
      rw [← hk]
      exact h4
    · rintro ⟨h1, h2⟩
      refine ⟨seqOf dpb j, mem_found.2 ⟨h1, _, h2⟩, (chunkOf_iff hv).2 rfl⟩
  have hlast : ∀ j, lastOf cs j = atPlace ref f (dataWriteIndex (seqOf dpb j) none dpb) (seqOf dpb j) := by
    intro j
    unfold lastOf
    cases hfd : cs.reverse.find? fun c => c.1 = j with
    | none =>
      cases hat : atPlace ref f (dataWriteIndex (seqOf dpb j) none dpb) (seqOf dpb j) with
      | none => rfl
      | some p =>
        have hm := hone.2 hat
        rw [List.find?_eq_none] at hfd
        have := hfd (j, p) (List.mem_reverse.2 hm)
        simp at this
    | some c =>
      have h1 := List.mem_reverse.1 (List.mem_of_find?_eq_some hfd)
      have h2 := List.find?_some hfd
      simp only [decide_eq_true_eq] at h2
      subst h2
      exact (hone.1 h1).symm
  apply List.ext_getElem?
  intro i
  by_cases hi : i < size
  · rw [emission_get ref dpb f hi, setLen_get _ _ _ hi]
    unfold bytesFor
    rw [← hlast]
    by_cases hif : i < full.length
    · rw [if_pos hif, assembled_get hds ha hif]
      cases lastOf cs (i / ref.header.version.dataSize) with
      | none => rw [Option.getD_none, List.getElem?_replicate, if_pos (Nat.mod_lt _ hds)]
      | some p => rfl
    · rw [if_neg hif]
      have : lastOf cs (i / ref.header.version.dataSize) = none := by
        obtain ⟨q, hq⟩ := ha.aligned
        rw [Nat.mul_comm] at hq
        have h1 := (ha.length q).1 (by omega)
        cases hl : lastOf cs (i / ref.header.version.dataSize) with
        | none => rfl
        | some p =>
          rw [hlast] at hl
          have h2 := h1 _ (hone.2 hl)
          simp only at h2
          have h3 : q ≤ i / ref.header.version.dataSize := by
            rw [Nat.le_div_iff_mul_le hds]; omega
          omega
      rw [this, Option.getD_none, List.getElem?_replicate, if_pos (Nat.mod_lt _ hds)]
  · rw [List.getElem?_eq_none (by rw [setLen_length]; omega), List.getElem?_eq_none (by rw [emission_length ref dpb f h0]; omega)]

theorem last_number {dpb : Option Dpb} (hv : Valid dpb) {v : Version} {size : Nat} (h0 : 0 < size)
    (hnum : ∀ j, j * (blockLen v - 16) < size → Numbered dpb j) : seqOf dpb ((size - 1) / v.dataSize) ≤ lastSeqNum := by
  obtain ⟨c1, -⟩ := chunks_facts (v := v) h0
  rw [← dataSize_eq] at hnum
  have := (ContentHash.numbered_iff hv).1 (hnum _ c1)
  unfold lastSeqNum
  omega

theorem toStdout_eq {E : Env} (hE : E.Calm) (hO : E.Visits) {q : Param} (hq : Whole q) {f : File} {pos : Nat} {ref : Block} {dpb : Option Dpb}
    (hr : getRefBlockM q.ref q.ref.refChoice f E.stopRef (E.stop 0) = .ok (pos, ref)) (hd : dataParBurst q.ref true f ref = .ok dpb)
    (hv : Valid dpb) {size : Nat} (h0 : 0 < size) (hsz : refFsz ref = some size)
    (hnum : seqOf dpb ((size - 1) / ref.header.version.dataSize) ≤ lastSeqNum)
    (hplain : dpb = none → InPlace ref.header.version ref.header.uid none f ∧
      ∀ j, j * (blockLen ref.header.version - 16) < size → (j + 2) * blockLen ref.header.version ≤ f.length) :
    ∃ R, toStdout E q f = .ok (emission ref dpb f ((size - 1) / ref.header.version.dataSize) size, R) ∧ R.recorded = refHsh ref ∧
      R.computed = (hashTypeOf ref).map (fun t => E.hash.bytes t (emission ref dpb f ((size - 1) / ref.header.version.dataSize) size)) ∧
      R.outSize = size := by
  obtain ⟨c1, -⟩ := chunks_facts (v := ref.header.version) h0
  obtain ⟨st, e, -, -⟩ := decodeStdout_spec E hE.lots hE.stop hO hq ref f dpb hd hv hsz h0 hnum (by
    intro h
    obtain ⟨h1, h2⟩ := hplain h
    rw [← dataSize_eq] at h2
    exact ⟨h2 _ c1, h1⟩)
  unfold toStdout
  rw [hr]
  simp only
  rw [e]
  exact ⟨_, rfl, rfl, rfl, by simp [hsz]⟩

/-- **C41, file and standard output.** For a container whose blocks are at their places (blocks may be missing) with a recorded size
that is not 0, decoding to standard output emits exactly the bytes that decoding to a file writes, and both report the same hashes
and size.  (A container without error correction, which is read in one sequence, must not be cut short.) -/
theorem C41_same_bytes (E : Env) (hE : E.Calm) (hO : E.Visits) (q : Param) (hq : Whole q) (f old out : File) (R : Report)
    (hf : toFile E q f old = .ok (out, R)) (pos : Nat) (ref : Block) (dpb : Option Dpb)
    (hr : getRefBlockM q.ref q.ref.refChoice f E.stopRef (E.stop 0) = .ok (pos, ref)) (hd : dataParBurst q.ref true f ref = .ok dpb)
    (hv : Valid dpb) (ms : List Metadata) (hm : ref.metas = some ms) (size : Nat) (hsz : firstFsz ms = some size) (h0 : 0 < size)
    (hnum : ∀ j, j * (blockLen ref.header.version - 16) < size → Numbered dpb j)
    (hin : InPlace ref.header.version ref.header.uid dpb f)
    (hlen : dpb = none → ∀ j, j * (blockLen ref.header.version - 16) < size → (j + 2) * blockLen ref.header.version ≤ f.length) :
    ∃ R', toStdout E q f = .ok (out, R') ∧ R'.recorded = R.recorded ∧ R'.computed = R.computed ∧ R'.outSize = R.outSize := by
  have hfsz : refFsz ref = some size := by rw [refFsz_meta hm, hsz]
  obtain ⟨pos', ref', dpb', full, g1, g2, g3, rfl, g5, g6, g7⟩ := toFile_ok hE hq hf
  rw [hr] at g1
  simp only [Except.ok.injEq, Prod.mk.injEq] at g1
  obtain ⟨rfl, rfl⟩ := g1
  rw [hd] at g2
  simp only [Except.ok.injEq] at g2
  subst g2
  have hl := last_number hv (v := ref.header.version) h0 hnum
  obtain ⟨R', e1, e2, e3, e4⟩ := toStdout_eq hE hO hq hr hd hv h0 hfsz hl (fun h => by
    subst h
    exact ⟨hin, hlen rfl⟩)
  have hem := file_emission hv h0 hfsz hl hin g3
  refine ⟨R', by rw [hem]; exact e1, by rw [e2, g5], by rw [e3, g6, hem], ?_⟩
  rw [e4, g7, hem, emission_length ref dpb f h0]

/-- **C41, stored bytes.** If the shards are known and all of `bytes` is stored at its place then standard output receives exactly
`bytes`, whatever else is in the container. -/
theorem C41_stored (E : Env) (hE : E.Calm) (hO : E.Visits) (q : Param) (hq : Whole q) (f : File) (pos : Nat) (ref : Block)
    (dpb : Option Dpb) (hr : getRefBlockM q.ref q.ref.refChoice f E.stopRef (E.stop 0) = .ok (pos, ref))
    (hd : dataParBurst q.ref true f ref = .ok dpb) (hv : Valid dpb) (ms : List Metadata) (hm : ref.metas = some ms) (bytes : List Byte)
    (hne : bytes ≠ []) (hsz : firstFsz ms = some bytes.length) (hst : Stored ref.header.version ref.header.uid dpb f bytes)
    (hin : dpb = none → InPlace ref.header.version ref.header.uid none f) :
    ∃ R, toStdout E q f = .ok (bytes, R) ∧ R.recorded = firstHsh ms ∧
      (∀ h, firstHsh ms = some h → h.ty.supported = true → R.computed = some (E.hash.bytes h.ty bytes)) ∧ R.outSize = bytes.length := by
  have hfsz : refFsz ref = some bytes.length := by rw [refFsz_meta hm, hsz]
  have h0 := List.length_pos_iff.2 hne
  have hds := FileUtils.dataSize_pos ref.header.version
  have hat : ∀ j, j * ref.header.version.dataSize < bytes.length → ∃ p, seqOf dpb j < 2 ^ 32 ∧
      atPlace ref f (dataWriteIndex (seqOf dpb j) none dpb) (seqOf dpb j) = some p ∧
      (bytes.drop (j * ref.header.version.dataSize)).take ref.header.version.dataSize <+: p := by
    intro j hj
    rw [dataSize_eq] at hj ⊢
    obtain ⟨p, hp, hpre⟩ := hst j hj
    have h1 := (ContentHash.chunkAt_iff hv).1 hp
    exact ⟨p, (atPlace_some.1 h1).1, h1, hpre⟩
  have hl : seqOf dpb ((bytes.length - 1) / ref.header.version.dataSize) ≤ lastSeqNum := by
    obtain ⟨c1, -⟩ := chunks_facts (v := ref.header.version) h0
    obtain ⟨_, h, -⟩ := hat _ c1
    unfold lastSeqNum; omega
  obtain ⟨R, e1, e2, e3, e4⟩ := toStdout_eq hE hO hq hr hd hv h0 hfsz hl (fun h => by
    refine ⟨hin h, fun j hj => ?_⟩
    rw [← dataSize_eq] at hj
    obtain ⟨p, h1, h2, -⟩ := hat j hj
    subst h
    have h3 := isBlock_length (atPlace_some.1 h2).2
    unfold piece at h3
    rw [File.readAt_length] at h3
    have h4 : dataWriteIndex (seqOf none j) none none = j + 1 := by
      simp only [seqOf, dataWriteIndex, Option.getD_none, if_true]; omega
    rw [h4] at h3
    have h5 := blockLen_pos ref.header.version
    rw [show (j + 2) * blockLen ref.header.version = (j + 1) * blockLen ref.header.version + blockLen ref.header.version from Nat.succ_mul _ _]
    omega)
  have hem : emission ref dpb f ((bytes.length - 1) / ref.header.version.dataSize) bytes.length = bytes := by
    apply List.ext_getElem?
    intro i
    by_cases hi : i < bytes.length
    · rw [emission_get ref dpb f hi]
      have hdm := Nat.div_add_mod i ref.header.version.dataSize
      rw [Nat.mul_comm] at hdm
      have hmod := Nat.mod_lt i hds
      obtain ⟨p, -, h2, t, rfl⟩ := hat (i / ref.header.version.dataSize) (by omega)
      unfold bytesFor
      rw [h2, Option.getD_some, List.getElem?_append_left (by rw [List.length_take, List.length_drop]; omega),
        List.getElem?_take_of_lt hmod, List.getElem?_drop, hdm]
    · rw [List.getElem?_eq_none (by rw [emission_length ref dpb f h0]; omega), List.getElem?_eq_none (by omega)]
  rw [hem] at e1 e3
  refine ⟨R, e1, by rw [e2, refHsh_meta hm], ?_, e4⟩
  intro h hh hsup
  rw [e3]
  unfold hashTypeOf
  rw [refHsh_meta hm, hh]
  simp [hsup]

/-- The blocks of a container are at their places. -/
theorem container_inPlace {rs : RsCodec} {v : Version} {uid : Uid} {dpb : Option Dpb} {bytes mb mp : List Byte} {f : File}
    (hc : IsContainer rs v uid.bytes true dpb bytes mb f) (hmb : IsBlock mb v uid 0 mp)
    (hps : ∀ p ∈ payloads rs v dpb (fileChunks v bytes), p.length = v.dataSize)
    (hn : (payloads rs v dpb (fileChunks v bytes)).length ≤ lastSeqNum) : InPlace v uid dpb f := by
  intro k seq p h0 hb
  have hpos := blockLen_pos v
  have hlen := isBlock_length hb
  rw [File.readAt_length] at hlen
  by_cases hm : k ∈ metaCopies (some true) dpb
  · have := hc.metas k hm
    rw [this] at hb
    exact absurd (isBlock_seq hb hmb).1 h0
  · by_cases hd : ∃ i < (payloads rs v dpb (fileChunks v bytes)).length, dataWriteIndex (i + 1) (some true) dpb = k
    · obtain ⟨i, hi, rfl⟩ := hd
      have h1 := hc.data i _ (List.getElem?_eq_getElem hi)
      have h2 : IsBlock (f.readAt (dataWriteIndex (i + 1) (some true) dpb * blockLen v) (blockLen v)) v uid (UInt32.ofNat (i + 1))
          (payloads rs v dpb (fileChunks v bytes))[i] := by
        refine ⟨h1, ?_⟩
        rw [hps _ (List.getElem_mem hi), dataSize_eq]
      rw [(isBlock_seq hb h2).1, ofNat_toNat32 (by unfold lastSeqNum at hn; omega)]
      cases dpb <;> rfl
    · rw [hc.gaps k (by omega) hm (fun i hi h => hd ⟨i, hi, h⟩)] at hb
      exact absurd hb Repair.zeros_not_block

/-- **C41.** Decoding the container of a file that is not empty to standard output emits exactly the file: the bytes that decoding to a
file writes (`C21_container`).  For containers with error correction the burst level has to be known (`BurstKnown`). -/
theorem C41_container (E : Env) (hE : E.Calm) (hO : E.Visits) (q : Param) (hq : Whole q) (hr : DefaultRef q.ref) (rs : RsCodec) (v : Version)
    (uid : Uid) (dpb : Option Dpb) (bytes mb : List Byte) (f : File) (hne : bytes ≠ []) (hrs : RsLen rs v dpb)
    (hsh : ∀ d, dpb = some d → 1 ≤ d.data ∧ 1 ≤ d.parity ∧ d.data + d.parity ≤ 256) (hcons : verConsistent v dpb = true)
    (hc : IsContainer rs v uid.bytes true dpb bytes mb f) (ms : List Metadata) (hrec : Records v uid mb ms)
    (hsz : firstFsz ms = some bytes.length) (hms : firstRsd ms = dpb.map (·.data) ∧ firstRsp ms = dpb.map (·.parity))
    (hn : (payloads rs v dpb (fileChunks v bytes)).length ≤ lastSeqNum)
    (hb : BurstKnown q.ref.burst dpb (payloads rs v dpb (fileChunks v bytes)).length) (hg : q.ref.guessBurstFrom = none) :
    ∃ R, toStdout E q f = .ok (bytes, R) ∧ R.recorded = firstHsh ms ∧
      (∀ h, firstHsh ms = some h → h.ty.supported = true → R.computed = some (E.hash.bytes h.ty bytes)) ∧ R.outSize = bytes.length := by
  obtain ⟨mp, hmb, rfl⟩ := hrec
  have hval : Valid dpb := fun d hd => (hsh d hd).1
  have hps := (payloads_spec (rs := rs) hrs hval (cs := fileChunks v bytes) (by
    intro c hcm
    unfold fileChunks at hcm
    rw [← dataSize_eq] at hcm
    exact (mem_chunksOf _ c hcm).2.1)).2
  have href := ref_at_start hr hE.stopRef (E.stop 0) (container_start hc hmb)
  have hd := container_shards hrs hsh hcons hc hmb hms hn q.ref true hb (fun _ => by unfold RefParam.guessFrom; rw [hg, hr.fromPos]; rfl)
  exact C41_stored E hE hO q hq f 0 _ dpb href hd hval _ metas_blockOf bytes hne hsz (ContentHash.stored_container hrs hval hc hn)
    (fun h => by subst h; exact container_inPlace hc hmb hps hn)

/-- **C41, schedules.** Every complete run of the three threads, however they are scheduled, gives the bytes of `decodeStdout`, and every
run can be completed. -/
theorem C41_any_schedule (E : Env) (p : Param) (ref : Block) (f : File) (d : Dpb) (hp : Whole p) (out : List Byte) (st : Stats)
    (h : Option HashBytes) (hd : dataParBurst p.ref true f ref = .ok (some d)) (hr : decodeStdout E p ref f = .ok (out, st, h))
    (k0 : Nat) (st0 : Stats)
    (hm : metaPass E.stop f ref (metaAllPos ref.header.version (some d)) 0 Block.dummy Stats.zero = (k0, st0)) (k : Nat)
    (s : Pipeline.Sys 3 (BlockRing.St OutSt (List Byte)) Buffer)
    (hs : (ring3 (Encode.buffersInRotation + 1) (burstAct E.stop f ref d) (2 ^ 32 + f.length + 3) (midThread ref) stdoutWriter).Steps k
      (Pipeline.initial (fun _ => ⟨⟨1, 0, k0, st0⟩, true, [], false⟩)
        (Buffer.newMulti (cfg ref (some d) false) E.lotCount Encode.buffersInRotation)) s) :
    (Pipeline.Finished s → (s.thread 2).st.con = out ∧ (s.thread 0).st.rd.stats = st ∧ ∀ i, (s.thread i).st.panicked = false) ∧
    ∃ l z, (ring3 (Encode.buffersInRotation + 1) (burstAct E.stop f ref d) (2 ^ 32 + f.length + 3) (midThread ref) stdoutWriter).Steps l s z ∧
      Pipeline.Finished z := by
  unfold decodeStdout at hr
  rw [hd] at hr
  simp only at hr
  unfold outThreads at hr
  rw [hp.fromPos, hp.toPos] at hr
  simp only [hm] at hr
  split at hr
  · simp at hr
  · rename_i rF hb out' hrun
    simp only [Except.ok.injEq, Prod.mk.injEq] at hr
    obtain ⟨rfl, rfl, -⟩ := hr
    obtain ⟨z, -, h2, h3, h4, h5, h6, h7⟩ := run3_all (by rw [Encode.newMulti_length]) hrun
    obtain ⟨⟨l, h8⟩, h9⟩ := h7 k s hs
    refine ⟨?_, l, z, h8, h2⟩
    intro hf
    rw [h9 hf]
    exact ⟨h5, by rw [h3], h6⟩

/-- **C41, schedules**, for the sequential pattern. -/
theorem C41_any_schedule_plain (E : Env) (p : Param) (ref : Block) (f : File) (out : List Byte) (st : Stats)
    (h : Option HashBytes) (hd : dataParBurst p.ref true f ref = .ok none) (hr : decodeStdout E p ref f = .ok (out, st, h)) (k : Nat)
    (s : Pipeline.Sys 3 (BlockRing.St OutSt (List Byte)) Buffer)
    (hs : (ring3 (Encode.buffersInRotation + 1) (seqAct E.stop f (rangeOf p.ref ref f).seekTo (rangeOf p.ref ref f).requiredLen ref none)
        (2 ^ 32 + f.length + 3) (midThread ref) stdoutWriter).Steps k
      (Pipeline.initial (fun _ => ⟨⟨guessStart E.order f p.ref.fromPos p.ref.forceMisalign ref none, 0, 0, Stats.zero⟩, true, [], false⟩)
        (Buffer.newMulti (cfg ref none false) E.lotCount Encode.buffersInRotation)) s) :
    (Pipeline.Finished s → (s.thread 2).st.con = out ∧ (s.thread 0).st.rd.stats = st ∧ ∀ i, (s.thread i).st.panicked = false) ∧
    ∃ l z, (ring3 (Encode.buffersInRotation + 1) (seqAct E.stop f (rangeOf p.ref ref f).seekTo (rangeOf p.ref ref f).requiredLen ref none)
        (2 ^ 32 + f.length + 3) (midThread ref) stdoutWriter).Steps l s z ∧ Pipeline.Finished z := by
  unfold decodeStdout at hr
  rw [hd] at hr
  simp only at hr
  unfold outThreads at hr
  simp only at hr
  split at hr
  · simp at hr
  · rename_i rF hb out' hrun
    simp only [Except.ok.injEq, Prod.mk.injEq] at hr
    obtain ⟨rfl, rfl, -⟩ := hr
    obtain ⟨z, -, h2, h3, h4, h5, h6, h7⟩ := run3_all (by rw [Encode.newMulti_length]) hrun
    obtain ⟨⟨l, h8⟩, h9⟩ := h7 k s hs
    refine ⟨?_, l, z, h8, h2⟩
    intro hf
    rw [h9 hf]
    exact ⟨h5, by rw [h3], h6⟩

/-! ### The empty file -/

/-- **C41 does not hold for the empty file**: decoding the container with error correction of an empty file to standard output emits
zeros for every data sequence number up to the largest one, because the end is only looked for after a data block and no data
block makes the number of chunks 0.  (Decoding to a file writes an empty file, `C21_container`.) -/
theorem C41_empty_violated (E : Env) (hE : E.Calm) (q : Param) (hq : Whole q) (hr : DefaultRef q.ref) (rs : RsCodec) (v : Version)
    (uid : Uid) (d : Dpb) (mb : List Byte) (f : File) (hrs : RsLen rs v (some d))
    (hsh : 1 ≤ d.data ∧ 1 ≤ d.parity ∧ d.data + d.parity ≤ 256) (hcons : v.usesRs = true)
    (hc : IsContainer rs v uid.bytes true (some d) [] mb f) (ms : List Metadata) (hrec : Records v uid mb ms)
    (hsz : firstFsz ms = some 0) (hms : firstRsd ms = some d.data ∧ firstRsp ms = some d.parity)
    (hb : q.ref.burst = some d.burst ∨ q.ref.burst = none ∧ d.burst ≤ 1000 ∧ d.parity * d.burst ≤ 1001) (hg : q.ref.guessBurstFrom = none) :
    ∃ R, toStdout E q f = .ok (List.replicate
      (((List.range' 1 lastSeqNum).filter fun s => (chunkOf (some d) s).isSome).length * (blockLen v - 16)) 0, R) := by
  obtain ⟨mp, hmb, rfl⟩ := hrec
  have hval : Valid (some d) := by intro d' h; cases h; exact hsh.1
  have hps : payloads rs v (some d) (fileChunks v []) = [] := by
    have : fileChunks v [] = [] := by unfold fileChunks chunksOf; simp
    rw [this]; unfold payloads; simp [chunksOf]
  have href := ref_at_start hr hE.stopRef (E.stop 0) (container_start hc hmb)
  have hd := container_shards hrs (by intro d' h; cases h; exact hsh) (by unfold verConsistent; rw [hcons]; rfl) hc hmb hms
    (by rw [hps]; simp) q.ref true (by
      intro d' h
      cases h
      rcases hb with h | ⟨h1, h2, h3⟩
      · exact .inl h
      · exact .inr ⟨h1, h2, .inl h3⟩) (fun _ => by unfold RefParam.guessFrom; rw [hg, hr.fromPos]; rfl)
  set ref := blockOf v uid 0 mp with hrefdef
  have hver : ref.header.version = v := rfl
  have htot : totalChunks ref = some 0 := by
    have hds := FileUtils.dataSize_pos v
    unfold totalChunks
    rw [refFsz_meta (metas_blockOf (v := v) (uid := uid) (mp := mp)), hsz, Option.map_some, hver]
    unfold FileUtils.dataChunkCount
    rw [Nat.div_eq_of_lt (by omega)]
  have hblank : ∀ s, 1 ≤ s → bytesFor ref (some d) f s = List.replicate v.dataSize 0 := by
    intro s hs1
    unfold bytesFor
    cases hat : atPlace ref f (dataWriteIndex s none (some d)) s with
    | none => rfl
    | some p =>
      exfalso
      obtain ⟨h32, hblk⟩ := atPlace_some.1 hat
      have hne : UInt32.ofNat s ≠ 0 := by
        intro h
        have := congrArg UInt32.toNat h
        rw [ofNat_toNat32 h32] at this
        change s = 0 at this
        omega
      have hl := isBlock_length hblk
      have hpos := blockLen_pos v
      unfold piece at hblk hl
      rw [File.readAt_length] at hl
      rw [hver] at hl hblk
      have e : dataWriteIndex s none (some d) = dataWriteIndex s (some true) (some d) := rfl
      unfold IsContainer at hc
      rw [hps] at hc
      rw [hc.gaps (dataWriteIndex s none (some d)) (by omega) (by rw [e]; exact C10_data_not_meta _ _ hval s hs1) (by simp)] at hblk
      exact Repair.zeros_not_block hblk
  have hmp := metaPass_spec E.stop hE.stop f ref (metaAllPos ref.header.version (some d)) 0 Block.dummy Stats.zero
  obtain ⟨fs, rF, e1, e2, e3⟩ := out_runs_zero E.stop hE.stop f ref d htot lastSeqNum
    ⟨1, 0, _, _⟩ (Nat.le_refl 1) (Nat.add_comm _ _) (by decide)
  obtain ⟨hs, g1, g2⟩ := threads_spec (fuel := 2 ^ 32 + f.length + 3) hE.lots e1 (by unfold lastSeqNum; omega) _ e2 e3
  have hout : ((List.range' 1 lastSeqNum).filter fun s => !isParityDpb s (some d)).flatMap (bytesFor ref (some d) f) =
      List.replicate (((List.range' 1 lastSeqNum).filter fun s => (chunkOf (some d) s).isSome).length * (blockLen v - 16)) 0 := by
    have hf : (List.range' 1 lastSeqNum).filter (fun s => !isParityDpb s (some d)) =
        (List.range' 1 lastSeqNum).filter fun s => (chunkOf (some d) s).isSome := by
      apply List.filter_congr
      intro s hs
      have h1 : 1 ≤ s := by have := List.mem_range'.1 hs; omega
      have := isParity_iff (dpb := some d) h1
      cases hch : chunkOf (some d) s with
      | none => rw [this.2 hch]; rfl
      | some j =>
        cases hpp : isParityDpb s (some d) with
        | false => rfl
        | true => rw [this.1 hpp] at hch; simp at hch
    rw [hf, ← dataSize_eq]
    have hall : ∀ s ∈ (List.range' 1 lastSeqNum).filter (fun s => (chunkOf (some d) s).isSome), 1 ≤ s := by
      intro s hs
      have := List.mem_range'.1 (List.mem_filter.1 hs).1
      omega
    generalize (List.range' 1 lastSeqNum).filter (fun s => (chunkOf (some d) s).isSome) = l at hall
    induction l with
    | nil => simp
    | cons a l ih =>
      rw [List.flatMap_cons, hblank a (hall a List.mem_cons_self), ih (fun s hs => hall s (List.mem_cons_of_mem _ hs)), List.length_cons,
        Nat.succ_mul, Nat.add_comm, List.replicate_append_replicate]
  unfold toStdout
  rw [href]
  simp only
  unfold decodeStdout
  rw [hd]
  simp only
  unfold outThreads
  rw [hq.fromPos, hq.toPos]
  simp only
  rw [hmp]
  simp only
  rw [g1]
  simp only
  rw [hout]
  exact ⟨_, rfl⟩

/-! ### Instances -/

theorem calm_visits : calmEnv.Visits := fun _ _ h => h

/-- A container with error correction, the burst level guessed. -/
example : ∃ f R, toStdout calmEnv plainParam f = .ok (List.replicate 1000 7, R) ∧
    R.computed = some (calmEnv.hash.bytes .sha256 (List.replicate 1000 7)) ∧ R.recorded = R.computed := by
  obtain ⟨f, mb, ms, h1, h2, h3, h4, h5, h6, h7, h8⟩ := Demo.rs_container
  obtain ⟨R, e1, e2, e3, -⟩ := C41_container calmEnv calm calm_visits plainParam plain_whole plain_ref RsWitness.codec .v17
    ⟨[1, 2, 3, 4, 5, 6], rfl⟩ (some ⟨10, 2, 3⟩) (List.replicate 1000 7) mb f
    (List.ne_nil_of_length_pos (by rw [List.length_replicate]; decide)) h8 (by intro d hd; cases hd; decide) rfl h1 ms h2
    (by rw [List.length_replicate]; exact h3) ⟨h4, h5⟩ h7 (by intro d hd; cases hd; exact .inr ⟨rfl, by decide, .inl (by decide)⟩) rfl
  have hc := e3 _ h6 (by decide)
  exact ⟨f, R, e1, hc, by rw [e2, h6, hc]; rfl⟩

/-- The first data block is damaged: file and standard output receive the same bytes. -/
example : ∃ mp out R R', toFile calmEnv plainParam [demoBlock 0 mp, List.replicate 512 3, demoBlock 2 demoPayload2].flatten [] = .ok (out, R) ∧
    toStdout calmEnv plainParam [demoBlock 0 mp, List.replicate 512 3, demoBlock 2 demoPayload2].flatten = .ok (out, R') ∧
    R'.outSize = R.outSize := by
  obtain ⟨mp, hl, hm⟩ := demo_meta
  obtain ⟨r1, out, R, o1⟩ := demo_decode mp hl [List.replicate 512 3, demoBlock 2 demoPayload2]
  have hi0 := demo_is 0 mp hl
  have hi2 := demo_is 2 demoPayload2 demo_len2
  have hbl : ∀ b ∈ [demoBlock 0 mp, List.replicate 512 3, demoBlock 2 demoPayload2], b.length = blockLen .v1 := by
    intro b hb
    simp only [List.mem_cons, List.not_mem_nil, or_false] at hb
    rcases hb with rfl | rfl | rfl
    · exact isBlock_length hi0
    · exact List.length_replicate
    · exact isBlock_length hi2
  have hu := File.unit_flatten _ hbl
  unfold File.unit at hu
  obtain ⟨R', e1, -, -, e2⟩ := C41_same_bytes calmEnv calm calm_visits plainParam plain_whole _ [] out R o1 0 _ none r1 rfl
    (by intro d hd; simp at hd) _ (metas_blockOf.trans (congrArg some hm)) 600 rfl (by decide) (by
      intro j hj
      change j * (512 - 16) < 600 at hj
      exact ⟨j + 1, by omega, rfl⟩) (by
      intro k seq p h0 h
      change IsBlock (File.readAt _ (k * blockLen .v1) (blockLen .v1)) .v1 demoUid seq p at h
      rw [hu k] at h
      rcases k with _ | _ | _ | k
      · simp only [List.getElem?_cons_zero, Option.getD_some] at h
        exact absurd (isBlock_seq h hi0).1 h0
      · simp only [List.getElem?_cons_zero, List.getElem?_cons_succ, Option.getD_some] at h
        have h1 := congrArg (fun l : List Byte => l[0]?) h.bytes
        rw [List.getElem?_replicate] at h1
        simp [blockBytes, headerBytes] at h1
      · simp only [List.getElem?_cons_zero, List.getElem?_cons_succ, Option.getD_some] at h
        rw [(isBlock_seq h hi2).1]; rfl
      · simp only [List.getElem?_cons_succ, List.getElem?_nil, Option.getD_none] at h
        have := isBlock_length h
        exact absurd this (by decide)) (by
      intro _ j hj
      change j * (512 - 16) < 600 at hj
      rw [List.length_flatten]
      simp only [List.map_cons, List.map_nil, isBlock_length hi0, isBlock_length hi2, List.length_replicate, List.sum_cons, List.sum_nil]
      change (j + 2) * 512 ≤ 512 + (512 + (512 + 0))
      omega)
  exact ⟨mp, out, R, R', o1, e1, e2⟩

/-- The container of an empty file with error correction. -/
example : ∃ f R, 0 < ((List.range' 1 lastSeqNum).filter fun s => (chunkOf (some ⟨10, 2, 3⟩) s).isSome).length ∧
    toFile calmEnv plainParam f [] = .ok ([], R) ∧
    ∃ R', toStdout calmEnv plainParam f = .ok (List.replicate
      (((List.range' 1 lastSeqNum).filter fun s => (chunkOf (some ⟨10, 2, 3⟩) s).isSome).length * 496) 0, R') := by
  obtain ⟨h1, h2⟩ := Encode.demo_ok (v := .v17) (dpb := some ⟨10, 2, 3⟩) none rfl (by simp) (fun _ => false)
  obtain ⟨d, rep, h⟩ := Encode.C24_succeeds _ _ h2 h1 ⟨[], some ("a.txt", some 5)⟩ (by
    intro mx hmx
    rw [Encode.maxSize_eq h1] at hmx
    cases hmx
    decide +kernel) (by intro _; decide +kernel)
  have hh := Encode.C24_whole_input _ _ h2 h1 _ (by
    refine ⟨by decide +kernel, ?_⟩
    intro n t ht
    simp only [Option.some.injEq, Prod.mk.injEq] at ht
    rw [← ht.1]
    decide +kernel) d rep (.inr ⟨rfl, rfl⟩) (fun _ => rfl) h
  obtain ⟨mb, hc, hrec⟩ := hh.container
  obtain ⟨ms, r1, r2, r3, r4, r5, -⟩ := hrec rfl
  obtain ⟨R, e1, -⟩ := C21_container calmEnv calm plainParam plain_whole plain_ref _ .v17 _ (some ⟨10, 2, 3⟩) [] mb d.file []
    (h2.rsLen h1) (by intro d hd; cases hd; decide) rfl hc ms r1 r2 ⟨r4, r5⟩ hh.numbers (.inr ⟨rfl, by intro d hd; cases hd; decide⟩)
  obtain ⟨R', e2⟩ := C41_empty_violated calmEnv calm plainParam plain_whole plain_ref _ .v17 _ ⟨10, 2, 3⟩ mb d.file
    (h2.rsLen h1) (by decide) rfl hc ms r1 r2 ⟨r4, r5⟩ (.inr ⟨rfl, by decide, by decide⟩) rfl
  have key : ∀ n, 0 < n → 0 < ((List.range' 1 n).filter fun s => (chunkOf (some ⟨10, 2, 3⟩) s).isSome).length := by
    intro n hn
    apply List.length_pos_iff.2
    apply List.ne_nil_of_mem (a := 1)
    rw [List.mem_filter, List.mem_range'_1]
    exact ⟨by omega, rfl⟩
  rw [show blockLen .v17 - 16 = 496 from rfl] at e2
  exact ⟨d.file, R, key _ (by decide), e1, R', e2⟩

end Verif.Decode
