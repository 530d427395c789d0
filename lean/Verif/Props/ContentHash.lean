import Verif.Lemmas.ContentHash
import Verif.Lemmas.Demo
import Verif.Lemmas.RepairFile
/-!
# C42: the hash of a container's content
-/

namespace Verif.ContentHash
open Format Scan ScanSpec BlockRing Layout LayoutSpec DecodeSpec RepairSpec Expect StoredSpec ContainerSpec Decode

theorem last_eq (dpb : Option Dpb) : (lastSeqNum : Nat) = 2 ^ 32 - seqOf dpb 0 := by rw [seqOf_zero]; rfl

/-- **C42.** If every chunk of `bytes` is stored in the container then the hash computed for the container is the hash of `bytes`:
padding, parity blocks, metadata and whatever else is in the file are not hashed.  (For `bytes` not empty, see
`C42_empty_violated`.) -/
theorem C42_hash (H : HashFn) (lotCount : Nat) (hL : 0 < lotCount) (stop : Nat → Bool) (hstop : ∀ i, stop i = false) (t : HashType)
    (f : File) (ref : Block) (dpb : Option Dpb) (hv : Valid dpb) (bytes : List Byte) (hne : bytes ≠ [])
    (hst : Stored ref.header.version ref.header.uid dpb f bytes) :
    hash H lotCount stop t f ref dpb bytes.length = .ok (H.bytes t bytes) := by
  have hpos := List.length_pos_iff.2 hne
  rw [hash_spec H hL hstop t f ref dpb hpos]
  have := content_stored hv hst bytes.length 0 (by omega) (by omega)
  rw [← last_eq, seqOf_zero] at this
  simp only [Nat.zero_mul, Nat.sub_zero, List.drop_zero] at this
  rw [this]

/-- **C42.** If a chunk is missing then an error is reported. -/
theorem C42_missing (H : HashFn) (lotCount : Nat) (hL : 0 < lotCount) (stop : Nat → Bool) (hstop : ∀ i, stop i = false) (t : HashType)
    (f : File) (ref : Block) (dpb : Option Dpb) (hv : Valid dpb) (total j : Nat) (hj : j * (blockLen ref.header.version - 16) < total)
    (hnum : Numbered dpb j) (hmiss : ∀ payload, ¬ ChunkAt ref.header.version ref.header.uid dpb f j payload) :
    ∃ e, hash H lotCount stop t f ref dpb total = .error e := by
  rw [hash_spec H hL hstop t f ref dpb (by omega)]
  have hat : atPlace ref f (dataWriteIndex (seqOf dpb j) none dpb) (seqOf dpb j) = none := by
    cases h : atPlace ref f (dataWriteIndex (seqOf dpb j) none dpb) (seqOf dpb j) with
    | none => rfl
    | some p => exact absurd ((chunkAt_iff hv).2 h) (hmiss p)
  rw [← dataSize_eq] at hj
  have := content_missing hv hj ((numbered_iff hv).1 hnum) hat j 0 (by omega)
  rw [← last_eq, seqOf_zero, Nat.zero_mul, Nat.sub_zero] at this
  rw [this]
  exact ⟨_, rfl⟩

/-- **C42.** A hash is only ever reported for bytes that are all stored in the container, as many as the recorded size says. -/
theorem C42_only_stored (H : HashFn) (lotCount : Nat) (hL : 0 < lotCount) (stop : Nat → Bool) (hstop : ∀ i, stop i = false) (t : HashType)
    (f : File) (ref : Block) (dpb : Option Dpb) (hv : Valid dpb) (total : Nat) (h0 : 0 < total)
    (hnum : ∀ j, j * (blockLen ref.header.version - 16) < total → Numbered dpb j) (h : HashBytes)
    (hh : hash H lotCount stop t f ref dpb total = .ok h) :
    ∃ bytes : List Byte, bytes.length = total ∧ Stored ref.header.version ref.header.uid dpb f bytes ∧ h = H.bytes t bytes := by
  have hds := FileUtils.dataSize_pos ref.header.version
  have hall : ∀ j, ∃ p, j * ref.header.version.dataSize < total → ChunkAt ref.header.version ref.header.uid dpb f j p := by
    intro j
    by_cases hj : j * ref.header.version.dataSize < total
    · by_contra hno
      obtain ⟨e, he⟩ := C42_missing H lotCount hL stop hstop t f ref dpb hv total j (by rw [← dataSize_eq]; exact hj)
        (hnum j (by rw [← dataSize_eq]; exact hj)) fun p hp => hno ⟨p, fun _ => hp⟩
      rw [he] at hh; simp at hh
    · exact ⟨[], fun h => absurd h hj⟩
  choose P hP using hall
  set ds := ref.header.version.dataSize with hdsdef
  let bytes : List Byte := (List.range total).map fun i => ((P (i / ds))[i % ds]?).getD 0
  have hlen : bytes.length = total := by simp [bytes]
  have hst : Stored ref.header.version ref.header.uid dpb f bytes := by
    intro j hj
    rw [← dataSize_eq, hlen] at hj
    refine ⟨P j, hP j hj, ?_⟩
    rw [← dataSize_eq, ← hdsdef]
    obtain ⟨s, -, -, hb⟩ := hP j hj
    have hpl : (P j).length = ds := by rw [hb.len, ← dataSize_eq]
    rw [List.prefix_iff_eq_take]
    apply List.ext_getElem?
    intro i
    rw [List.getElem?_take, List.getElem?_take, List.getElem?_drop]
    have hl2 : ((bytes.drop (j * ds)).take ds).length = min ds (total - j * ds) := by simp [hlen]
    rw [hl2]
    by_cases hi : i < ds
    · rw [if_pos hi]
      by_cases hi2 : j * ds + i < total
      · rw [if_pos (by omega)]
        obtain ⟨e1, e2⟩ := divmod_eq (q := j) (r := i) hi
        rw [List.getElem?_map, List.getElem?_range hi2]
        simp only [Option.map_some]
        rw [e1, e2, List.getElem?_eq_getElem (by omega)]
        rfl
      · rw [if_neg (by omega), List.getElem?_eq_none (by omega)]
    · rw [if_neg hi, if_neg (by omega)]
  refine ⟨bytes, hlen, hst, ?_⟩
  have hok := C42_hash H lotCount hL stop hstop t f ref dpb hv bytes (by intro e; rw [e] at hlen; simp at hlen; omega) hst
  rw [hlen, hh] at hok
  simpa using hok

/-- What is stored in a container. -/
theorem stored_container {rs : RsCodec} {v : Version} {uid : Uid} {dpb : Option Dpb} {bytes mb : List Byte} {f : File} (hrs : RsLen rs v dpb)
    (hv : Valid dpb) (hc : IsContainer rs v uid.bytes true dpb bytes mb f)
    (hn : (payloads rs v dpb (fileChunks v bytes)).length ≤ lastSeqNum) : Stored v uid dpb f bytes := by
  intro j hj
  rw [← dataSize_eq] at hj ⊢
  obtain ⟨p, hp⟩ := (payload_bytes hrs hv bytes j).2 hj
  obtain ⟨hl, hb⟩ := (payload_bytes hrs hv bytes j).1 p hp
  have hs := seqOf_pos dpb j
  have hlt := (List.getElem?_eq_some_iff.1 hp).1
  refine ⟨p, ⟨seqOf dpb j, by unfold lastSeqNum at hn; omega, (chunkOf_iff hv).2 rfl, ?_⟩, ?_⟩
  · have := hc.data _ p hp
    rw [show seqOf dpb j - 1 + 1 = seqOf dpb j by omega] at this
    have e : dataWriteIndex (seqOf dpb j) none dpb = dataWriteIndex (seqOf dpb j) (some true) dpb := by
      cases dpb <;> rfl
    unfold piece
    rw [e]
    exact ⟨this, by rw [hl, dataSize_eq]⟩
  · rw [List.prefix_iff_eq_take]
    apply List.ext_getElem?
    intro i
    have hl2 : ((bytes.drop (j * v.dataSize)).take v.dataSize).length = min v.dataSize (bytes.length - j * v.dataSize) := by simp
    rw [List.getElem?_take, List.getElem?_take, List.getElem?_drop, hl2]
    by_cases hi : i < v.dataSize
    · rw [if_pos hi]
      by_cases hi2 : j * v.dataSize + i < bytes.length
      · rw [if_pos (by omega), hb i hi, List.getElem?_eq_getElem hi2]
        rfl
      · rw [if_neg (by omega), List.getElem?_eq_none (by omega)]
    · rw [if_neg hi, if_neg (by omega)]

/-- **C42.** The hash computed for a container of a file that is not empty is the hash of the file. -/
theorem C42_container (H : HashFn) (lotCount : Nat) (hL : 0 < lotCount) (stop : Nat → Bool) (hstop : ∀ i, stop i = false) (t : HashType)
    (rs : RsCodec) (v : Version) (uid : Uid) (dpb : Option Dpb) (hrs : RsLen rs v dpb) (hv : Valid dpb) (bytes mb : List Byte) (f : File)
    (hne : bytes ≠ []) (hc : IsContainer rs v uid.bytes true dpb bytes mb f)
    (hn : (payloads rs v dpb (fileChunks v bytes)).length ≤ lastSeqNum) (mp : List Byte) :
    hash H lotCount stop t f (blockOf v uid 0 mp) dpb bytes.length = .ok (H.bytes t bytes) :=
  C42_hash H lotCount hL stop hstop t f (blockOf v uid 0 mp) dpb hv bytes hne (stored_container hrs hv hc hn)

/-- **C42, schedules.** Every complete run of the two threads, however they are scheduled, has the result of `hash`, and every run can
be completed. -/
theorem C42_any_schedule (H : HashFn) (lotCount : Nat) (stop : Nat → Bool) (t : HashType) (f : File) (ref : Block) (dpb : Option Dpb)
    (total : Nat) (h : HashBytes) (hh : hash H lotCount stop t f ref dpb total = .ok h) (k : Nat)
    (s : Pipeline.Sys 2 (BlockRing.St RdSt (List Byte)) Buffer)
    (hs : (ring2 (buffersInRotation + 1) (act stop f ref dpb total) (2 ^ 32 + 3) hasherReset).Steps k
      (Pipeline.initial (fun _ => ⟨⟨1, 0, 0, false⟩, true, [], false⟩) (Buffer.newMulti (cfg ref dpb) lotCount buffersInRotation)) s) :
    (Pipeline.Finished s → h = H.bytes t (s.thread 1).st.con ∧ (s.thread 0).st.rd.failed = false ∧ ∀ i, (s.thread i).st.panicked = false) ∧
    ∃ l z, (ring2 (buffersInRotation + 1) (act stop f ref dpb total) (2 ^ 32 + 3) hasherReset).Steps l s z ∧ Pipeline.Finished z := by
  unfold hash at hh
  split at hh
  · simp at hh
  · rename_i r' x' hrun
    split at hh
    · simp at hh
    · rename_i hfl
      simp only [Except.ok.injEq] at hh
      obtain ⟨z, -, h2, h3, h4, h5, h6⟩ := run2_all (by rw [Encode.newMulti_length]) hrun
      obtain ⟨⟨l, h7⟩, h8⟩ := h6 k s hs
      refine ⟨?_, l, z, h7, h2⟩
      intro hf
      rw [h8 hf, h3, h4]
      exact ⟨hh.symm, by simpa using hfl, h5⟩

/-- If the first data block is missing then an error is reported, whatever size is recorded. -/
theorem hash_missing_first (H : HashFn) {lotCount : Nat} (hL : 0 < lotCount) {stop : Nat → Bool} (hstop : ∀ i, stop i = false) (t : HashType)
    (f : File) (ref : Block) (dpb : Option Dpb) (hv : Valid dpb) (total : Nat)
    (hat : atPlace ref f (dataWriteIndex 1 none dpb) 1 = none) : hash H lotCount stop t f ref dpb total = .error .other := by
  have hact : act stop f ref dpb total ⟨1, 0, 0, false⟩ = .slot (slotStep f ref dpb total ⟨1, 0, 0, false⟩) := by
    unfold act; rw [hstop]; rfl
  have hver : (cfg ref dpb).version = ref.header.version := rfl
  have hpar : isParityDpb 1 dpb = false := by
    have := seqOf_not_parity hv 0
    rwa [seqOf_zero] at this
  have hpos : dataWritePos ref.header.version 1 none dpb = dataWriteIndex 1 none dpb * ref.header.version.blockSize := rfl
  have hr := Runs.stop (c := cfg ref dpb) (act := act stop f ref dpb total) (n := 0) (r := ⟨1, 0, 0, false⟩)
    (f := fun sl => (expect f (dataWriteIndex 1 none dpb * ref.header.version.blockSize) ref 1 sl).1) (cancel := false)
    (r' := ⟨1, 0, 0 + 1, true⟩) hact (by
      intro sl hf
      refine ⟨?_, (expect_none hat hver hf).2.1⟩
      unfold slotStep
      simp only [hpar, Bool.false_eq_true, if_false, hpos]
      rw [(expect_none hat hver hf).1]
      simp)
  simp only [Bool.false_eq_true, if_false] at hr
  obtain ⟨ss, hk, e⟩ := run2_spec (cap := buffersInRotation + 1) (N := buffersInRotation) (fuel := 2 ^ 32 + 3) (cfg_pos ref dpb) hL
    (by unfold buffersInRotation; omega) (hasherReset_folds (cfg_pos ref dpb) lotCount) hr (by
      intro g hg sl hf
      rw [List.mem_singleton.1 hg]
      have := (expect_none hat hver hf).2.2.1
      unfold Lot.hashPart
      rw [this]
      split <;> simp) (by omega) []
  unfold hash
  rw [e]
  rfl

/-- **C42 does not hold for the empty file**: for every container of the empty file hashing the content reports an error (there is no
data block, but the loop demands the block with number 1), so `check` calls it bad and `update --hash` refuses to work. -/
theorem C42_empty_violated (H : HashFn) (lotCount : Nat) (hL : 0 < lotCount) (stop : Nat → Bool) (hstop : ∀ i, stop i = false)
    (t : HashType) (rs : RsCodec) (v : Version) (uid : Uid) (dpb : Option Dpb) (hv : Valid dpb) (mb : List Byte) (f : File)
    (hc : IsContainer rs v uid.bytes true dpb [] mb f) (mp : List Byte) :
    hash H lotCount stop t f (blockOf v uid 0 mp) dpb ([] : List Byte).length = .error .other := by
  refine hash_missing_first H hL hstop t f _ dpb hv _ ?_
  have hps : payloads rs v dpb (fileChunks v []) = [] := by
    have : fileChunks v [] = [] := by unfold fileChunks chunksOf; simp
    rw [this]
    cases dpb with
    | none => rfl
    | some d => unfold payloads; simp [chunksOf]
  unfold IsContainer at hc
  rw [hps] at hc
  cases h : atPlace (blockOf v uid 0 mp) f (dataWriteIndex 1 none dpb) 1 with
  | none => rfl
  | some p =>
    exfalso
    obtain ⟨-, hb⟩ := atPlace_some.1 h
    have e : dataWriteIndex 1 none dpb = dataWriteIndex 1 (some true) dpb := by cases dpb <;> rfl
    have hl := isBlock_length hb
    have hpos := blockLen_pos v
    unfold piece at hb hl
    rw [File.readAt_length] at hl
    have hv' : (blockOf v uid 0 mp).header.version = v := rfl
    rw [hv'] at hl hb
    rw [hc.gaps (dataWriteIndex 1 none dpb) (by omega) (by rw [e]; exact C10_data_not_meta _ _ hv 1 (by omega)) (by simp)] at hb
    exact Repair.zeros_not_block hb

/-! ### Instances -/

/-- The hash of an encoded container is the recorded hash. -/
example : ∃ f ms mp, firstHsh ms = some (calmEnv.hash.bytes .sha256 (List.replicate 1000 7)) ∧ Records .v17 ⟨[1, 2, 3, 4, 5, 6], rfl⟩ mp ms ∧
    hash calmEnv.hash 2 (fun _ => false) .sha256 f (blockOf .v17 ⟨[1, 2, 3, 4, 5, 6], rfl⟩ 0 mp) (some ⟨10, 2, 3⟩) 1000 =
      .ok (calmEnv.hash.bytes .sha256 (List.replicate 1000 7)) := by
  obtain ⟨f, mb, ms, h1, h2, -, -, -, h3, h4, h5⟩ := Demo.rs_container
  refine ⟨f, ms, mb, h3, h2, ?_⟩
  have := C42_container calmEnv.hash 2 (by decide) (fun _ => false) (fun _ => rfl) .sha256 RsWitness.codec .v17 ⟨[1, 2, 3, 4, 5, 6], rfl⟩
    (some ⟨10, 2, 3⟩) h5 (by intro d hd; cases hd; decide) (List.replicate 1000 7) mb f (List.ne_nil_of_length_pos (by rw [List.length_replicate]; decide)) h1 h4 mb
  rwa [List.length_replicate] at this

/-- The second data block is lost. -/
example (mp : List Byte) (hl : mp.length = 496) :
    ∃ e, hash calmEnv.hash 2 (fun _ => false) .sha256 (demoBlock 0 mp ++ demoBlock 1 demoPayload1) (blockOf .v1 demoUid 0 mp) none 600 = .error e := by
  refine C42_missing calmEnv.hash 2 (by decide) (fun _ => false) (fun _ => rfl) .sha256 _ _ none (by intro d hd; simp at hd) 600 1
    (show 1 * (512 - 16) < 600 by omega) ⟨2, by omega, rfl⟩ ?_
  rintro p ⟨s, -, h2, h3⟩
  have hs : s = 2 := by
    have := (chunkOf_iff (dpb := none) (by intro d hd; simp at hd)).1 h2
    simpa [seqOf] using this
  subst hs
  have h4 := isBlock_length h3
  have hv : (blockOf .v1 demoUid 0 mp).header.version = .v1 := rfl
  have hi0 := isBlock_length (demo_is 0 mp hl)
  have hi1 := isBlock_length (demo_is 1 demoPayload1 List.length_replicate)
  have hbl : blockLen .v1 = 512 := rfl
  unfold piece at h4
  rw [File.readAt_length, List.length_append, hv, hi0, hi1, hbl] at h4
  have : dataWriteIndex 2 none none = 2 := rfl
  omega

end Verif.ContentHash
