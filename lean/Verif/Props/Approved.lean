import Verif.Props.History
import Verif.Props.Verdict
import Verif.Props.Stdout
import Verif.Props.BitErrors
import Verif.Props.DecodeStats
/-!
# C68: what `check` approves is intact

One runs `check` to learn whether a container is still good.  If it reports no failed block then the container is the one that was written, and
if it says that the hash of the stored data matches then `decode` will give a file with the recorded size and hash.
-/

namespace Verif.Approved
open Format ContainerSpec LayoutSpec Layout RepairSpec ScanSpec Scan Misc Decode DecodeSpec StoredSpec StdoutSpec CheckSpec

/-! ### The blocks -/

/-- No place of a container is bad. -/
theorem container_not_bad {rs : RsCodec} {v : Version} {uid : Uid} {me : Bool} {dpb : Option Dpb} {bytes mb : List Byte} {c : File}
    (hrs : RsLen rs v dpb) (hv : Valid dpb) (hc : IsContainer rs v uid.bytes me dpb bytes mb c)
    (hmb : metaCopies (some me) dpb ≠ [] → ∃ mp, IsBlock mb v uid 0 mp) (hn : (payloads rs v dpb (fileChunks v bytes)).length ≤ lastSeqNum) (k : Nat)
    (hk : (k + 1) * blockLen v ≤ c.length) : ¬ IsBad v uid (piece v c k) := by
  have hpos := blockLen_pos v
  rintro ⟨n1, n2, n3⟩
  unfold piece at n1 n2 n3
  by_cases hm : k ∈ metaCopies (some me) dpb
  · obtain ⟨mp, hmp⟩ := hmb (List.ne_nil_of_mem hm)
    exact n1 ⟨mp, by rw [hc.metas k hm]; exact hmp⟩
  · by_cases hd : ∃ i < (payloads rs v dpb (fileChunks v bytes)).length, dataWriteIndex (i + 1) (some me) dpb = k
    · obtain ⟨i, hi, rfl⟩ := hd
      unfold lastSeqNum at hn
      refine n2 ⟨UInt32.ofNat (i + 1), _, ?_, hc.data i _ (List.getElem?_eq_getElem hi), ?_⟩
      · intro hz
        have := congrArg UInt32.toNat hz
        rw [ofNat_toNat32 (by omega)] at this
        simp at this
      · have hps := (payloads_spec (rs := rs) hrs hv (cs := fileChunks v bytes) (by
          intro c hcm
          unfold fileChunks at hcm
          rw [← dataSize_eq] at hcm
          exact (mem_chunksOf _ c hcm).2.1)).2
        rw [hps _ (List.getElem_mem hi), dataSize_eq]
    · refine n3 fun b hb' => ?_
      rw [hc.gaps k (by rw [Nat.add_mul] at hk; omega) hm (fun i hi e => hd ⟨i, hi, e⟩)] at hb'
      exact (List.mem_replicate.1 hb').2

/-- A run of `check` over the whole file counts the bad places, and the blank ones too if these are to be reported. -/
theorem check_whole {E : Check.Env} (hE : ∀ i, E.stopCheck i = false) {p : Check.Param} (hfrom : p.ref.fromPos = none)
    (hto : p.ref.toPos = none) {f : File} {r : Check.Report} (h : Check.checkFile E p f = .ok r) {st : Check.Stats} (hst : r.blocks = some st)
    {pos : Nat} {ref : Block} (href : getRefBlockM p.ref p.ref.refChoice f E.stopRef (E.stopCheck 0) = .ok (pos, ref)) :
    st.failed = countPlaces ref.header.version f 0 (f.length / blockLen ref.header.version) (IsBad ref.header.version ref.header.uid) +
      if p.reportBlank then countPlaces ref.header.version f 0 (f.length / blockLen ref.header.version) IsBlank else 0 := by
  obtain ⟨_, _, m, e1, -, e2, -, -, -, e3, -⟩ := Check.C38_check E p f r h st hst
  rw [href] at e1
  simp only [Except.ok.injEq, Prod.mk.injEq] at e1
  obtain ⟨rfl, rfl⟩ := e1
  have hrange : Check.rangeOf p.ref ref f = ⟨if f.length = 0 then 1 else f.length, 0⟩ := by
    unfold Check.rangeOf
    rw [hfrom, hto]
    exact range_all _ _ _
  have hm : m = f.length / blockLen ref.header.version := by
    rw [e2 hE, hrange]
    unfold places
    rw [Nat.sub_zero, Nat.min_eq_right]
    have hpos := blockLen_pos ref.header.version
    show _ ≤ ceilDiv (if f.length = 0 then 1 else f.length) _
    have hle : f.length ≤ (if f.length = 0 then 1 else f.length) := by split <;> omega
    revert hle
    generalize (if f.length = 0 then 1 else f.length) = n
    intro hle
    have := Nat.div_le_div_right (c := blockLen ref.header.version) hle
    unfold ceilDiv
    split <;> omega
  rw [e3, hrange, hm]

/-- Places of a file: the whole ones. -/
theorem place_le {u n k : Nat} (hu : 0 < u) (hk : k < n / u) : (k + 1) * u ≤ n := (Nat.le_div_iff_mul_le hu).1 hk

theorem file_eq {v : Version} {f c : File} (hlen : f.length = c.length) (hal : blockLen v ∣ c.length)
    (h : ∀ k < c.length / blockLen v, piece v f k = piece v c k) : f = c := by
  have e := (Nat.div_mul_cancel hal).symm
  exact File.ext_units (blockLen_pos v) (c.length / blockLen v) (hlen.trans e) e h

/-- The situation: `c` is the container that was written, `f` what is there now; the reference block has the version and uid of the container. -/
structure Case (E : Check.Env) (p : Check.Param) (rs : RsCodec) (v : Version) (uid : Uid) (me : Bool) (dpb : Option Dpb) (bytes mb : List Byte)
    (c f : File) : Prop where
  codec : RsLen rs v dpb
  valid : Valid dpb
  container : IsContainer rs v uid.bytes me dpb bytes mb c
  metadata : metaCopies (some me) dpb ≠ [] → ∃ mp, IsBlock mb v uid 0 mp
  numbers : (payloads rs v dpb (fileChunks v bytes)).length ≤ lastSeqNum
  calm : ∀ i, E.stopCheck i = false
  fromPos : p.ref.fromPos = none
  toPos : p.ref.toPos = none
  found : ∃ pos ref, getRefBlockM p.ref p.ref.refChoice f E.stopRef (E.stopCheck 0) = .ok (pos, ref) ∧ ref.header.version = v ∧
    ref.header.uid = uid

open Classical in
/-- **C68, blocks.** If damage leaves neither other valid blocks of the container nor blank places behind, then `check` counts exactly the places
where the container differs from the one that was written. -/
theorem C68_counted (E : Check.Env) (p : Check.Param) (rs : RsCodec) (v : Version) (uid : Uid) (me : Bool) (dpb : Option Dpb)
    (bytes mb : List Byte) (c f : File) (hcase : Case E p rs v uid me dpb bytes mb c f) (hlen : f.length = c.length)
    (hblank : p.reportBlank = false)
    (hdam : ∀ k < c.length / blockLen v, piece v f k = piece v c k ∨ IsBad v uid (piece v f k)) (r : Check.Report)
    (h : Check.checkFile E p f = .ok r) (st : Check.Stats) (hst : r.blocks = some st) :
    st.failed = (List.range (c.length / blockLen v)).countP fun k => decide (piece v f k ≠ piece v c k) := by
  obtain ⟨pos, ref, href, rfl, rfl⟩ := hcase.found
  rw [check_whole hcase.calm hcase.fromPos hcase.toPos h hst href, hblank, hlen]
  simp only [Bool.false_eq_true, if_false, Nat.add_zero]
  unfold countPlaces
  refine List.countP_congr fun k hk => ?_
  rw [List.mem_range] at hk
  simp only [decide_eq_true_eq]
  have e : placeBytes ref.header.version f 0 k = piece ref.header.version f k := by unfold placeBytes piece; rw [Nat.zero_add]
  rw [e]
  constructor
  · intro hb he
    rw [he] at hb
    exact container_not_bad hcase.codec hcase.valid hcase.container hcase.metadata hcase.numbers k (place_le (blockLen_pos _) hk) hb
  · intro hne
    exact (hdam k hk).resolve_left hne

/-- **C68, blocks.** If damage leaves no other valid blocks of the container behind, and blank places only if `--report-blank` is given, then a
container without failed blocks is the one that was written. -/
theorem C68_intact (E : Check.Env) (p : Check.Param) (rs : RsCodec) (v : Version) (uid : Uid) (me : Bool) (dpb : Option Dpb)
    (bytes mb : List Byte) (c f : File) (hcase : Case E p rs v uid me dpb bytes mb c f) (hlen : f.length = c.length)
    (hdam : ∀ k < c.length / blockLen v, piece v f k = piece v c k ∨ IsBad v uid (piece v f k) ∨ p.reportBlank = true ∧ IsBlank (piece v f k))
    (r : Check.Report) (h : Check.checkFile E p f = .ok r) (st : Check.Stats) (hst : r.blocks = some st) (hfailed : st.failed = 0) : f = c := by
  obtain ⟨pos, ref, href, rfl, rfl⟩ := hcase.found
  rw [check_whole hcase.calm hcase.fromPos hcase.toPos h hst href, hlen] at hfailed
  refine file_eq hlen hcase.container.aligned fun k hk => ?_
  have e : placeBytes ref.header.version f 0 k = piece ref.header.version f k := by unfold placeBytes piece; rw [Nat.zero_add]
  have h1 : ¬ IsBad ref.header.version ref.header.uid (piece ref.header.version f k) := by
    have : countPlaces ref.header.version f 0 (c.length / blockLen ref.header.version) (IsBad ref.header.version ref.header.uid) = 0 := by omega
    unfold countPlaces at this
    rw [List.countP_eq_zero] at this
    have := this k (List.mem_range.2 hk)
    simpa [e] using this
  rcases hdam k hk with he | hb | ⟨hr, hb⟩
  · exact he
  · exact absurd hb h1
  · rw [hr] at hfailed
    simp only [if_true] at hfailed
    have : countPlaces ref.header.version f 0 (c.length / blockLen ref.header.version) IsBlank = 0 := by omega
    unfold countPlaces at this
    rw [List.countP_eq_zero] at this
    have := this k (List.mem_range.2 hk)
    simp only [decide_eq_true_eq, e] at this
    exact absurd hb this

/-- **C68, blocks.** The container that was written has no failed block. -/
theorem C68_written (E : Check.Env) (p : Check.Param) (rs : RsCodec) (v : Version) (uid : Uid) (me : Bool) (dpb : Option Dpb)
    (bytes mb : List Byte) (c : File) (hcase : Case E p rs v uid me dpb bytes mb c c) (hblank : p.reportBlank = false)
    (r : Check.Report) (h : Check.checkFile E p c = .ok r) (st : Check.Stats) (hst : r.blocks = some st) : st.failed = 0 := by
  rw [C68_counted E p rs v uid me dpb bytes mb c c hcase rfl hblank (fun _ _ => .inl rfl) r h st hst, List.countP_eq_zero]
  simp

/-- The first byte of a block has four bits set. -/
theorem four_set {v : Version} {uid : Uid} {seq : UInt32} {p a : List Byte} (h : IsBlock a v uid seq p) (b : List Byte)
    (hlen : b.length = a.length) (hb : IsBlank b) : 4 ≤ CrcSpec.bitErrors a b ∧ 4 ≤ CrcSpec.bitErrors b a := by
  obtain ⟨t, ht⟩ : ∃ t, a = 0x53 :: t := by
    rw [h.bytes]
    unfold blockBytes headerBytes
    exact ⟨_, rfl⟩
  subst ht
  cases b with
  | nil => simp at hlen
  | cons y s =>
    have hy : y = 0 := hb y (by simp)
    subst hy
    have e1 := BitErrors.bitErrors_append (a := [0x53]) (a' := [0]) (b := t) (b' := s) rfl
    have e2 := BitErrors.bitErrors_append (a := [0]) (a' := [0x53]) (b := s) (b' := t) rfl
    simp only [List.singleton_append] at e1 e2
    have h1 : CrcSpec.bitErrors [0x53] [0] = 4 := by decide
    have h2 : CrcSpec.bitErrors [0] [0x53] = 4 := by decide
    omega

open Classical in
/-- **C68, blocks.** Bit rot: if in every block at most three bits have been flipped, then `check` counts exactly the blocks hit. -/
theorem C68_bits (E : Check.Env) (p : Check.Param) (rs : RsCodec) (v : Version) (uid : Uid) (me : Bool) (dpb : Option Dpb)
    (bytes mb : List Byte) (c f : File) (hcase : Case E p rs v uid me dpb bytes mb c f) (hlen : f.length = c.length)
    (hblank : p.reportBlank = false) (hdam : ∀ k < c.length / blockLen v, CrcSpec.bitErrors (piece v c k) (piece v f k) ≤ 3) (r : Check.Report)
    (h : Check.checkFile E p f = .ok r) (st : Check.Stats) (hst : r.blocks = some st) :
    st.failed = ((List.range (c.length / blockLen v)).countP fun k => decide (piece v f k ≠ piece v c k)) ∧ (st.failed = 0 ↔ f = c) := by
  have hdam' : ∀ k < c.length / blockLen v, piece v f k = piece v c k ∨ IsBad v uid (piece v f k) := by
    intro k hk
    by_cases he : piece v f k = piece v c k
    · exact .inl he
    · refine .inr ?_
      have hle := place_le (blockLen_pos v) hk
      have hlc : (piece v c k).length = blockLen v := by
        unfold piece
        rw [File.readAt_length]
        rw [Nat.add_mul] at hle; omega
      have hlf : (piece v f k).length = blockLen v := by
        unfold piece
        rw [File.readAt_length]
        rw [Nat.add_mul] at hle; omega
      have hd := hdam k hk
      have hgood := container_not_bad hcase.codec hcase.valid hcase.container hcase.metadata hcase.numbers k hle
      have key : (∃ seq pl, IsBlock (piece v c k) v uid seq pl) ∨ IsBlank (piece v c k) := by
        by_contra hno
        push Not at hno
        exact hgood ⟨fun ⟨pl, hp⟩ => hno.1 _ _ hp, fun ⟨s, pl, _, hp⟩ => hno.1 _ _ hp, hno.2⟩
      have hnb : ∀ seq pl, ¬ IsBlock (piece v f k) v uid seq pl := by
        intro seq pl hb
        rcases key with ⟨s, q, hk'⟩ | hk'
        · have := (BitErrors.C66_distance v uid uid s seq q pl _ _ hk' hb (fun e => he e.symm)).1
          omega
        · have := (four_set hb _ (hlc.trans hlf.symm) hk').2
          omega
      refine ⟨fun ⟨pl, hp⟩ => hnb _ _ hp, fun ⟨s, pl, _, hp⟩ => hnb _ _ hp, fun hz => ?_⟩
      rcases key with ⟨s, q, hk'⟩ | hk'
      · have := (four_set hk' _ (hlf.trans hlc.symm) hz).1
        omega
      · exact he ((List.eq_replicate_iff.2 ⟨hlf, hz⟩).trans (List.eq_replicate_iff.2 ⟨hlc, hk'⟩).symm)
  have hcount := C68_counted E p rs v uid me dpb bytes mb c f hcase hlen hblank hdam' r h st hst
  refine ⟨hcount, C68_intact E p rs v uid me dpb bytes mb c f hcase hlen (fun k hk => (hdam' k hk).imp_right .inl) r h st hst, ?_⟩
  rintro rfl
  rw [hcount, List.countP_eq_zero]
  simp

/-- Places that are not bad are not counted. -/
theorem none_bad {E : Check.Env} {p : Check.Param} {rs : RsCodec} {v : Version} {uid : Uid} {me : Bool} {dpb : Option Dpb}
    {bytes mb : List Byte} {c f : File} (hcase : Case E p rs v uid me dpb bytes mb c f) (hblank : p.reportBlank = false)
    (hgood : ∀ k < f.length / blockLen v, ¬ IsBad v uid (piece v f k)) {r : Check.Report}
    (h : Check.checkFile E p f = .ok r) {st : Check.Stats} (hst : r.blocks = some st) : st.failed = 0 := by
  obtain ⟨pos, ref, href, rfl, rfl⟩ := hcase.found
  rw [check_whole hcase.calm hcase.fromPos hcase.toPos h hst href, hblank]
  simp only [Bool.false_eq_true, if_false, Nat.add_zero]
  unfold countPlaces
  rw [List.countP_eq_zero]
  intro k hk
  have := hgood k (List.mem_range.1 hk)
  unfold piece at this
  unfold placeBytes
  rw [Nat.zero_add]
  simpa using this

/-- **C68 is violated.** Blocks that have been overwritten with zeros are not counted without `--report-blank`, however many there are: a
container of which nothing is left but a block to recognise it by is reported to have no failed block. -/
theorem C68_blank_violated (E : Check.Env) (p : Check.Param) (rs : RsCodec) (v : Version) (uid : Uid) (me : Bool) (dpb : Option Dpb)
    (bytes mb : List Byte) (c f : File) (hcase : Case E p rs v uid me dpb bytes mb c f) (hlen : f.length = c.length)
    (hblank : p.reportBlank = false) (hdam : ∀ k < c.length / blockLen v, piece v f k = piece v c k ∨ IsBlank (piece v f k)) (r : Check.Report)
    (h : Check.checkFile E p f = .ok r) (st : Check.Stats) (hst : r.blocks = some st) : st.failed = 0 := by
  refine none_bad hcase hblank (fun k hk => ?_) h hst
  rw [hlen] at hk
  rcases hdam k hk with e | hz
  · rw [e]
    exact container_not_bad hcase.codec hcase.valid hcase.container hcase.metadata hcase.numbers k (place_le (blockLen_pos v) hk)
  · exact fun hb => hb.2.2 hz

/-- **C68 is violated.** That the end of the container is missing is not noticed: what is left has no failed block. -/
theorem C68_truncated_violated (E : Check.Env) (p : Check.Param) (rs : RsCodec) (v : Version) (uid : Uid) (me : Bool) (dpb : Option Dpb)
    (bytes mb : List Byte) (c : File) (n : Nat) (hcase : Case E p rs v uid me dpb bytes mb c (c.take n))
    (hblank : p.reportBlank = false) (r : Check.Report)
    (h : Check.checkFile E p (c.take n) = .ok r) (st : Check.Stats) (hst : r.blocks = some st) : st.failed = 0 := by
  refine none_bad hcase hblank (fun k hk => ?_) h hst
  have hle := place_le (blockLen_pos v) hk
  rw [List.length_take] at hle
  have e : piece v (c.take n) k = piece v c k := by
    unfold piece File.readAt
    rw [List.drop_take, List.take_take, Nat.min_eq_left]
    rw [Nat.add_mul] at hle; omega
  rw [e]
  exact container_not_bad hcase.codec hcase.valid hcase.container hcase.metadata hcase.numbers k (by omega)

/-! ### The hash -/

/-- What is stored, and not stored differently elsewhere, is what a file assembled from all blocks contains. -/
theorem assembled_stored {ref : Block} {dpb : Option Dpb} {f full : File} {bytes : List Byte}
    (hst : Stored ref.header.version ref.header.uid dpb f bytes)
    (hone : ∀ seq p p', seq ≠ 0 → HasBlock ref.header.version ref.header.uid f seq p → HasBlock ref.header.version ref.header.uid f seq p' → p = p')
    (ha : Assembled ref.header.version.dataSize
      (chunks dpb ((List.range (f.length / blockLen ref.header.version)).filterMap (look ref f 0))) full) :
    full.setLen bytes.length = bytes := by
  have hds := FileUtils.dataSize_pos ref.header.version
  apply List.ext_getElem?
  intro i
  by_cases hi : i < bytes.length
  · have hji : i / ref.header.version.dataSize * ref.header.version.dataSize ≤ i := Nat.div_mul_le_self _ _
    obtain ⟨payload, ⟨seq, hlt, hch, hblk⟩, hpre⟩ := hst (i / ref.header.version.dataSize) (by rw [← dataSize_eq]; omega)
    rw [← dataSize_eq] at hpre
    have hhas : HasBlock ref.header.version ref.header.uid f (UInt32.ofNat seq) payload := ⟨_, hblk⟩
    have hne : UInt32.ofNat seq ≠ 0 := by
      intro h0
      have := ofNat_toNat32 hlt
      rw [h0] at this
      rw [← this] at hch
      simp [chunkOf_zero] at hch
    have hlast : lastOf (chunks dpb ((List.range (f.length / blockLen ref.header.version)).filterMap (look ref f 0)))
        (i / ref.header.version.dataSize) = some payload := by
      rw [lastOf_eq]
      refine File.lastWrite_of_all ⟨(_, payload), mem_chunks.2 ⟨seq, mem_found.2 ⟨hlt, hhas⟩, hch⟩, rfl⟩ ?_
      rintro ⟨j, p'⟩ hw rfl
      obtain ⟨s', h1, h2⟩ := mem_chunks.1 hw
      have hs : s' = seq := chunkOf_inj h2 hch
      subst hs
      exact hone _ _ _ hne (mem_found.1 h1).2 hhas
    have hat := ha.at_place _ _ hlast
    have hmod : i % ref.header.version.dataSize < ref.header.version.dataSize := Nat.mod_lt _ hds
    have hsum : i / ref.header.version.dataSize * ref.header.version.dataSize + i % ref.header.version.dataSize = i := by
      rw [Nat.mul_comm]; exact Nat.div_add_mod _ _
    have hb : payload[i % ref.header.version.dataSize]? = bytes[i]? := by
      obtain ⟨t, ht⟩ := hpre
      rw [← ht, List.getElem?_append_left]
      · rw [List.getElem?_take_of_lt hmod, List.getElem?_drop, hsum]
      · rw [List.length_take, List.length_drop]; omega
    have hf : full[i]? = bytes[i]? := by
      rw [← hb, ← hat, File.getElem?_readAt, if_pos hmod, hsum]
    have hlen : i < full.length := by
      by_contra hc
      rw [List.getElem?_eq_none (by omega), List.getElem?_eq_getElem hi] at hf
      simp at hf
    rw [setLen_get _ _ _ hi, if_pos hlen, hf]
  · rw [List.getElem?_eq_none (by rw [setLen_length]; omega), List.getElem?_eq_none (by omega)]

/-- What `check` has seen when it says that the hash matches: recorded size and hash, and stored bytes with both. -/
theorem same_stored {E : Check.Env} (hL : 0 < E.lotCount) (hstop : ∀ i, E.stopHash i = false) {p : Check.Param} {f : File} {r : Check.Report}
    (h : Check.checkFile E p f = .ok r) (hsame : r.verdict = some .same) {pos : Nat} {ref : Block}
    (href : getRefBlockM p.ref p.ref.refChoice f E.stopRef (E.stopCheck 0) = .ok (pos, ref)) {n : Nat} (hn : refFsz ref = some n) (hn0 : 0 < n)
    {dpb : Option Dpb} (hd : dataParBurst p.ref true f ref = .ok dpb)
    (hnum : ∀ j, j * (blockLen ref.header.version - 16) < n → Numbered dpb j) :
    ∃ ms hb bytes, ref.metas = some ms ∧ firstFsz ms = some n ∧ firstHsh ms = some hb ∧ hb.ty.supported = true ∧ bytes.length = n ∧
      Stored ref.header.version ref.header.uid dpb f bytes ∧ (E.hash.bytes hb.ty bytes).digest = hb.digest := by
  cases hx : r.hash with
  | none => unfold Check.Report.verdict at hsame; rw [hx] at hsame; simp at hsame
  | some y =>
    obtain ⟨hb, x⟩ := y
    obtain ⟨_, _, ms, n', h1, h2, h3, h4, h5, -⟩ := Check.checkFile_hash h hx
    obtain ⟨_, _, ms', n'', g1, g2, g3, g4, g5⟩ := Check.C42_check E hL hstop p f r h hb x hx
    rw [href] at h1 g1
    simp only [Except.ok.injEq, Prod.mk.injEq] at h1 g1
    obtain ⟨rfl, rfl⟩ := h1
    obtain ⟨-, rfl⟩ := g1
    rw [h2, Option.some.injEq] at g2
    subst g2
    rw [refFsz_meta h2, h3, Option.some.injEq] at hn
    subst hn
    rw [h3, Option.some.injEq] at g3
    subst g3
    obtain ⟨bytes, ⟨b1, b2⟩, b3⟩ := (g5 dpb hd hn0 hnum).1.1 hsame
    exact ⟨ms, hb, bytes, h2, h3, h4, h5, b1, b2, b3⟩

/-- **C68, hash.** If `check` says that the hash of the stored data matches, and the container has no two valid blocks with the same sequence
number and different contents, then `decode` with the same options succeeds; its output has the recorded size and hash, and it says so. -/
theorem C68_decode (E : Check.Env) (hL : 0 < E.lotCount) (hstop : ∀ i, E.stopHash i = false) (p : Check.Param) (f : File) (r : Check.Report)
    (h : Check.checkFile E p f = .ok r) (hsame : r.verdict = some .same) (pos : Nat) (ref : Block)
    (href : getRefBlockM p.ref p.ref.refChoice f E.stopRef (E.stopCheck 0) = .ok (pos, ref)) (n : Nat) (hn : refFsz ref = some n) (hn0 : 0 < n)
    (dpb : Option Dpb) (hd : dataParBurst p.ref true f ref = .ok dpb)
    (hnum : ∀ j, j * (blockLen ref.header.version - 16) < n → Numbered dpb j)
    (hone : ∀ seq p p', seq ≠ 0 → HasBlock ref.header.version ref.header.uid f seq p → HasBlock ref.header.version ref.header.uid f seq p' → p = p')
    (D : Decode.Env) (hD : D.Calm) (hash : D.hash = E.hash) (hsr : E.stopRef = D.stopRef) (hsc : E.stopCheck 0 = D.stop 0)
    (q : Decode.Param) (hq : Decode.Whole q) (hqp : q.ref = p.ref) (old : File) :
    ∃ out R hb, Decode.toFile D q f old = .ok (out, R) ∧ out.length = n ∧ refHsh ref = some hb ∧ (D.hash.bytes hb.ty out).digest = hb.digest ∧
      Stored ref.header.version ref.header.uid dpb f out ∧
      Verdict.decode R = "The output file hash matches the recorded hash" := by
  obtain ⟨ms, hb, bytes, h2, h3, h4, h5, b1, b2, b3⟩ := same_stored hL hstop h hsame href hn hn0 hd hnum
  rw [hsr, hsc, ← hqp] at href
  rw [← hqp] at hd
  obtain ⟨full, ha, hdec⟩ := decodeFile_whole D hD.lots hD.stop hq ref f old dpb hd
  have hout : truncated ref full = bytes := by
    unfold truncated
    rw [hn]
    subst b1
    exact assembled_stored b2 hone ha
  rw [hout] at hdec
  have hto : ∃ R, Decode.toFile D q f old = .ok (bytes, R) ∧ R.recorded = some hb := by
    refine ⟨_, by unfold Decode.toFile; rw [href]; simp only [hdec]; rfl, ?_⟩
    show refHsh ref = some hb
    rw [refHsh_meta h2, h4]
  obtain ⟨R, hR, hrec⟩ := hto
  refine ⟨bytes, R, hb, hR, b1, by rw [refHsh_meta h2, h4], by rw [hash]; exact b3, b2, ?_⟩
  exact (Verdict.C67_decode D hD.stopHash q f old bytes R hR).1.2 ⟨hb, hrec, h5, by rw [hash]; exact b3⟩

/-- **C68, hash.** Decoding to standard output: for containers with parity blocks nothing else is needed; without, no data block may be in
another's place. -/
theorem C68_stdout (E : Check.Env) (hL : 0 < E.lotCount) (hstop : ∀ i, E.stopHash i = false) (p : Check.Param) (f : File) (r : Check.Report)
    (h : Check.checkFile E p f = .ok r) (hsame : r.verdict = some .same) (pos : Nat) (ref : Block)
    (href : getRefBlockM p.ref p.ref.refChoice f E.stopRef (E.stopCheck 0) = .ok (pos, ref)) (n : Nat) (hn : refFsz ref = some n) (hn0 : 0 < n)
    (dpb : Option Dpb) (hd : dataParBurst p.ref true f ref = .ok dpb)
    (hnum : ∀ j, j * (blockLen ref.header.version - 16) < n → Numbered dpb j)
    (hin : dpb = none → InPlace ref.header.version ref.header.uid none f)
    (D : Decode.Env) (hD : D.Calm) (hO : D.Visits) (hash : D.hash = E.hash) (hsr : E.stopRef = D.stopRef) (hsc : E.stopCheck 0 = D.stop 0)
    (q : Decode.Param) (hq : Decode.Whole q) (hqp : q.ref = p.ref) :
    ∃ out R hb, Decode.toStdout D q f = .ok (out, R) ∧ out.length = n ∧ refHsh ref = some hb ∧ (D.hash.bytes hb.ty out).digest = hb.digest ∧
      Stored ref.header.version ref.header.uid dpb f out ∧
      Verdict.decode R = "The output file hash matches the recorded hash" := by
  obtain ⟨ms, hb, bytes, h2, h3, h4, h5, b1, b2, b3⟩ := same_stored hL hstop h hsame href hn hn0 hd hnum
  have hv := Check.found_valid href hd
  rw [hsr, hsc, ← hqp] at href
  rw [← hqp] at hd
  obtain ⟨R, e1, e2, e3, -⟩ := C41_stored D hD hO q hq f pos ref dpb href hd hv ms h2 bytes (List.length_pos_iff.1 (by omega))
    (by rw [h3, b1]) b2 hin
  refine ⟨bytes, R, hb, e1, b1, by rw [refHsh_meta h2, h4], by rw [hash]; exact b3, b2, ?_⟩
  unfold Verdict.decode
  rw [e2, h4, e3 hb h4 h5]
  simp [hash, b3]

/-! ### Instances -/

/-- The "hash" just adds up the bytes. -/
def sumHash : HashFn := ⟨fun t bs => List.replicate t.digestLen (bs.foldl (· + ·) 0), fun _ _ => List.length_replicate⟩

def sumEnv : Check.Env := ⟨sumHash, 1, fun _ => false, fun _ => false, fun _ => false⟩
def sumDecode : Decode.Env := ⟨sumHash, 1, fun votes => votes, fun _ => false, fun _ => false, fun _ => false⟩
def sumParam : Check.Param := ⟨Decode.tinyParam.ref, false, false, .hashAfterCheck⟩

/-- Size and hash of 200 times 7. -/
def sumMetas : List Metadata := [.fsz 200, .hsh (sumHash.bytes .sha256 (List.replicate 200 7))]

/-- The container of 200 times 7: a metadata block and two data blocks. -/
def sumFile : File :=
  Decode.tinyBlock .v2 0 ((metasToBytes sumMetas 112).getD []) ++ Decode.tinyBlock .v2 1 (List.replicate 112 7) ++
    Decode.tinyBlock .v2 2 (List.replicate 88 7 ++ List.replicate 24 0x1A)

/-- The same with a block appended that has sequence number 1 and other contents: the data of an older container with the same uid, say. -/
def twiceFile : File := sumFile ++ Decode.tinyBlock .v2 1 (List.replicate 112 9)

def verdictOf (f : File) : Option Check.Verdict := match Check.checkFile sumEnv sumParam f with | .ok r => r.verdict | .error _ => none
def failedOf (f : File) : Option Nat := match Check.checkFile sumEnv sumParam f with | .ok r => r.blocks.map (·.failed) | .error _ => none
def decoded (f : File) : Option (File × String) :=
  match Decode.toFile sumDecode Decode.tinyParam f [] with | .ok (out, R) => some (out, Verdict.decode R) | .error _ => none
def printed (f : File) : Option (File × String) :=
  match Decode.toStdout sumDecode Decode.tinyParam f with | .ok (out, R) => some (out, Verdict.decode R) | .error _ => none

set_option maxRecDepth 1000000 in
/-- **C68 is violated** without the hypothesis about blocks with the same number.  `check` finds no fault and says that the hash matches; but
`decode` takes the last block with each number, and writes something else (and says that the hash does not match). -/
theorem C68_duplicate_violated : verdictOf twiceFile = some .same ∧ failedOf twiceFile = some 0 ∧
    decoded twiceFile = some (List.replicate 112 9 ++ List.replicate 88 7, "The output file hash does NOT match the recorded hash") := by
  decide +kernel

set_option maxRecDepth 1000000 in
/-- Without the block appended both agree. -/
example : verdictOf sumFile = some .same ∧ failedOf sumFile = some 0 ∧
    decoded sumFile = some (List.replicate 200 7, "The output file hash matches the recorded hash") ∧
    printed sumFile = some (List.replicate 200 7, "The output file hash matches the recorded hash") := by
  decide +kernel

/-- `check` without further options. -/
def plainCheck : Check.Param := ⟨Decode.plainParam.ref, false, false, .noHash⟩

/-- A container whose first block has survived. -/
theorem demo_case {mp : List Byte} {c f : File}
    (h : Repair.Sound RsWitness.codec .v17 Repair.demoOwner Repair.demoDpb (List.replicate 1000 7) mp c) (h0 : piece .v17 f 0 = piece .v17 c 0) :
    Case sumEnv plainCheck RsWitness.codec .v17 Repair.demoOwner true (some Repair.demoDpb) (List.replicate 1000 7)
      (blockBytes .v17 Repair.demoOwner.bytes 0 mp) c f ∧ ∃ r st, Check.checkFile sumEnv plainCheck f = .ok r ∧ r.blocks = some st := by
  obtain ⟨hS, -⟩ := History.demo_start
  have hblock : IsBlock (blockBytes .v17 Repair.demoOwner.bytes 0 mp) .v17 Repair.demoOwner 0 mp := ⟨rfl, metasToBytes_length h.plain⟩
  have hm : IsBlock (f.readAt 0 (blockLen .v17)) .v17 Repair.demoOwner 0 mp := by
    have := container_start h.container hblock
    unfold piece at h0
    rw [Nat.zero_mul] at h0
    rwa [h0]
  have href := ref_at_start (q := plainCheck.ref) Decode.plain_ref (stop := fun _ => false) (fun _ => rfl) false hm
  refine ⟨⟨hS.lengths, hS.valid, h.container, fun _ => ⟨mp, hblock⟩, h.numbers, fun _ => rfl, rfl, rfl, ⟨_, _, href, rfl, rfl⟩⟩, ?_⟩
  unfold Check.checkFile
  rw [show getRefBlockM plainCheck.ref plainCheck.ref.refChoice f sumEnv.stopRef (sumEnv.stopCheck 0) = _ from href]
  exact ⟨_, _, rfl, rfl⟩

theorem demo_place {mp : List Byte} {c : File}
    (h : Repair.Sound RsWitness.codec .v17 Repair.demoOwner Repair.demoDpb (List.replicate 1000 7) mp c) :
    ∃ q, IsBlock (piece .v17 c 1) .v17 Repair.demoOwner 1 q ∧ 2 * blockLen .v17 ≤ c.length := by
  obtain ⟨hcnt, hps⟩ := Repair.payloads_count RsWitness.codec_laws (v := .v17) (d := Repair.demoDpb) (by decide) (by decide) (by decide)
    (List.replicate 1000 7)
  have h1c : (1 : Nat) ≤ (payloads RsWitness.codec .v17 (some Repair.demoDpb) (fileChunks .v17 (List.replicate 1000 7))).length := by
    rw [hcnt, List.length_replicate]; decide
  obtain ⟨q, -, m1, h1⟩ := Repair.image_data h.container hps (s := 1) (Nat.le_refl 1) h1c
  rw [show placeOf Repair.demoDpb 1 = 1 by decide] at h1 m1
  exact ⟨q, m1, h1⟩

/-- C68_bits and C68_counted: three flipped bits in the first data block are one failed block. -/
example : ∃ c f r st, f ≠ c ∧ Check.checkFile sumEnv plainCheck f = .ok r ∧ r.blocks = some st ∧ st.failed ≠ 0 := by
  obtain ⟨mp, c, h⟩ := Repair.demo_sound
  obtain ⟨q, m1, h1⟩ := demo_place h
  obtain ⟨l1, t1, f1⟩ := BitErrors.flip3_few (isBlock_length m1)
  obtain ⟨b1, b2, b3⟩ := Repair.put_spec (v := .v17) (c := c) (k := 1) (b := BitErrors.flip3 (piece .v17 c 1)) l1 h.container.aligned h1
  obtain ⟨hc, r, st, hr, hst⟩ := demo_case (f := Repair.put .v17 c 1 (BitErrors.flip3 (piece .v17 c 1))) h (b3 0 (by omega))
  have hne : Repair.put .v17 c 1 (BitErrors.flip3 (piece .v17 c 1)) ≠ c := by
    intro e
    rw [e] at b2
    rw [← b2] at f1
    have := f1.1.2
    rw [BitErrors.bitErrors_self] at this
    omega
  refine ⟨c, _, r, st, hne, hr, hst, fun h0 => hne ?_⟩
  refine (C68_bits sumEnv plainCheck _ _ _ _ _ _ _ _ _ hc b1 rfl ?_ r hr st hst).2.1 h0
  intro k _
  by_cases hk : k = 1
  · subst hk
    rw [b2, show CrcSpec.bitErrors (piece .v17 c 1) (BitErrors.flip3 (piece .v17 c 1)) = _ from BitErrors.bitErrors_mask _ _ (by
      rw [isBlock_length m1]; decide +kernel)]
    decide +kernel
  · rw [b3 k hk, BitErrors.bitErrors_self]
    omega

/-- C68_blank_violated and C68_truncated_violated: a data block overwritten with zeros; only the first block left. -/
example : ∃ c f r st r' st', f ≠ c ∧ f.length = c.length ∧ Check.checkFile sumEnv plainCheck f = .ok r ∧ r.blocks = some st ∧ st.failed = 0 ∧
    c.take 512 ≠ c ∧ Check.checkFile sumEnv plainCheck (c.take 512) = .ok r' ∧ r'.blocks = some st' ∧ st'.failed = 0 := by
  obtain ⟨mp, c, h⟩ := Repair.demo_sound
  obtain ⟨q, m1, h1⟩ := demo_place h
  obtain ⟨b1, b2, b3⟩ := Repair.put_spec (v := .v17) (c := c) (k := 1) (b := List.replicate (blockLen .v17) 0) List.length_replicate
    h.container.aligned h1
  obtain ⟨hc, r, st, hr, hst⟩ := demo_case (f := Repair.put .v17 c 1 (List.replicate (blockLen .v17) 0)) h (b3 0 (by omega))
  obtain ⟨hc', r', st', hr', hst'⟩ := demo_case (f := c.take 512) h (by
    unfold piece File.readAt
    rw [Nat.zero_mul, List.drop_zero, List.drop_zero, List.take_take]
    rfl)
  refine ⟨c, _, r, st, r', st', ?_, b1, hr, hst, C68_blank_violated sumEnv plainCheck _ _ _ _ _ _ _ _ _ hc b1 rfl ?_ r hr st hst, ?_, hr', hst',
    C68_truncated_violated sumEnv plainCheck _ _ _ _ _ _ _ _ _ hc' rfl r' hr' st' hst'⟩
  · intro e
    rw [e] at b2
    rw [b2] at m1
    exact Repair.zeros_not_block m1
  · intro k _
    by_cases hk : k = 1
    · subst hk
      rw [b2]
      exact .inr fun b hb => (List.mem_replicate.1 hb).2
    · exact .inl (b3 k hk)
  · intro e
    have := congrArg List.length e
    have h2 : 2 * 512 ≤ c.length := h1
    rw [List.length_take] at this
    omega

/-- C68_written and C68_intact: nothing has happened. -/
example : ∃ c r st, Check.checkFile sumEnv plainCheck c = .ok r ∧ r.blocks = some st ∧ st.failed = 0 := by
  obtain ⟨mp, c, h⟩ := Repair.demo_sound
  obtain ⟨hc, r, st, hr, hst⟩ := demo_case (f := c) h rfl
  exact ⟨c, r, st, hr, hst, C68_written sumEnv plainCheck _ _ _ _ _ _ _ _ hc rfl r hr st hst⟩

/-- What has to be known about a reference block and a container for C68_decode and C68_stdout, as something that can be computed. -/
def fine (f : File) (ref : Block) : Prop :=
  ref.header.version = .v2 ∧ refFsz ref = some 200 ∧ (match dataParBurst sumParam.ref true f ref with | .ok d => d = none | .error _ => False) ∧
    (∀ x ∈ (List.range (f.length / blockLen .v2)).filterMap (look ref f 0), ∀ y ∈ (List.range (f.length / blockLen .v2)).filterMap (look ref f 0),
      x.1 = y.1 → x.1 ≠ 0 → x.2 = y.2) ∧
    ∀ k ∈ List.range (f.length / blockLen .v2), ∀ x ∈ look ref f 0 k, x.1 ≠ 0 → k = dataWriteIndex x.1 none none

instance (f : File) (ref : Block) : Decidable (fine f ref) := by
  unfold fine
  have : Decidable (match dataParBurst sumParam.ref true f ref with | .ok d => d = none | .error _ => False) := by
    split <;> infer_instance
  infer_instance

def fineFile (f : File) : Bool :=
  match getRefBlockM sumParam.ref sumParam.ref.refChoice f (fun _ => false) false with
  | .ok (_, ref) => decide (fine f ref)
  | .error _ => false

set_option maxRecDepth 1000000 in
theorem sum_fine : fineFile sumFile = true := by decide +kernel

set_option maxRecDepth 1000000 in
/-- C68_decode and C68_stdout: the container of 200 bytes. -/
example : ∃ out R R', Decode.toFile sumDecode Decode.tinyParam sumFile [1, 2, 3] = .ok (out, R) ∧ out.length = 200 ∧
    Decode.toStdout sumDecode Decode.tinyParam sumFile = .ok (out, R') ∧ Verdict.decode R = "The output file hash matches the recorded hash" := by
  have hv : verdictOf sumFile = some .same := by decide +kernel
  unfold verdictOf at hv
  have hf := sum_fine
  unfold fineFile at hf
  cases hc : Check.checkFile sumEnv sumParam sumFile with
  | error e => rw [hc] at hv; simp at hv
  | ok r =>
    rw [hc] at hv
    cases hr : getRefBlockM sumParam.ref sumParam.ref.refChoice sumFile (fun _ => false) false with
    | error e => rw [hr] at hf; simp at hf
    | ok x =>
      obtain ⟨pos, ref⟩ := x
      rw [hr] at hf
      simp only [decide_eq_true_eq] at hf
      obtain ⟨f1, f2, f3, f4, f5⟩ := hf
      have hd : dataParBurst sumParam.ref true sumFile ref = .ok none := by
        split at f3
        · rename_i d hd
          rw [hd, f3]
        · exact f3.elim
      have hcalm : sumDecode.Calm := ⟨Nat.one_pos, fun _ => rfl, fun _ => rfl, fun _ => rfl⟩
      have hw : Decode.Whole Decode.tinyParam := ⟨rfl, rfl, rfl⟩
      have hnum : ∀ j, j * (blockLen ref.header.version - 16) < 200 → Numbered none j := by
        intro j hj
        rw [f1] at hj
        have : j * 112 < 200 := hj
        exact ⟨j + 1, by omega, rfl⟩
      have hone : ∀ seq p p', seq ≠ 0 → HasBlock ref.header.version ref.header.uid sumFile seq p →
          HasBlock ref.header.version ref.header.uid sumFile seq p' → p = p' := by
        intro seq p p' h0 h1 h2
        have m1 := mem_found'.2 h1
        have m2 := mem_found'.2 h2
        rw [f1] at m1 m2
        exact f4 _ m1 _ m2 rfl (fun e => h0 (UInt32.toNat_inj.1 e))
      have hin : InPlace ref.header.version ref.header.uid none sumFile := by
        intro k seq payload h0 hb
        have hlk := look_some (ref := ref) (f := sumFile) (start := 0) (k := k) (x := (seq.toNat, payload)) |>.2
          ⟨UInt32.toNat_lt seq, by rw [Nat.zero_add]; simpa using hb⟩
        refine f5 k ?_ _ hlk (fun e => h0 (UInt32.toNat_inj.1 e))
        have hl := isBlock_length hb
        rw [File.readAt_length, f1] at hl
        have hp := blockLen_pos .v2
        rw [List.mem_range]
        refine Nat.lt_of_lt_of_le (Nat.lt_succ_self k) ((Nat.le_div_iff_mul_le hp).2 ?_)
        rw [Nat.succ_mul]
        omega
      obtain ⟨out, R, hb, o1, o2, -, -, o5, o6⟩ := C68_decode sumEnv Nat.one_pos (fun _ => rfl) sumParam sumFile r hc hv pos ref hr 200 f2 (by omega) none hd hnum
        hone sumDecode hcalm rfl rfl rfl Decode.tinyParam hw rfl [1, 2, 3]
      obtain ⟨out', R', hb', p1, p2, -, -, p5, -⟩ := C68_stdout sumEnv Nat.one_pos (fun _ => rfl) sumParam sumFile r hc hv pos ref hr 200 f2 (by omega) none hd hnum
        (fun _ => hin) sumDecode hcalm (fun _ _ h => h) rfl rfl rfl Decode.tinyParam hw rfl
      obtain ⟨full, ha, -⟩ := decodeFile_whole sumDecode Nat.one_pos (fun _ => rfl) hw ref sumFile [] none hd
      have e1 := assembled_stored o5 hone ha
      have e2 := assembled_stored p5 hone ha
      rw [o2] at e1
      rw [p2] at e2
      exact ⟨out, R, R', o1, o2, by rw [← e1, e2]; exact p1, o6⟩

end Verif.Approved
