import Verif.Lemmas.Reproduce
import Verif.Props.Decode
import Verif.Spec.Repair
/-!
# C75: the same file gives the same container, and a change of the file changes only the blocks it concerns
-/

namespace Verif.Reproduce
open Format ContainerSpec LayoutSpec Layout ScanSpec Encode FileUtils Misc RepairSpec

/-- Without range options everything is wanted. -/
theorem clip_whole {p : Param} {inp : Input} (hr : inp.file = none ∨ p.fromPos = none ∧ p.toPos = none) :
    clip p (required p inp) (startBytes p inp) = inp.bytes := by
  have hds := dataSize_pos p.version
  unfold clip required startBytes rangeOf
  cases hf : inp.file with
  | none => rfl
  | some x =>
    rcases hr with hr | ⟨hr1, hr2⟩
    · rw [hf] at hr; simp at hr
    · simp only [Option.map_some, hr1, hr2]
      have e1 : (byteRange none none true 0 (.len inp.bytes.length) none).seekTo = 0 := by
        simp [byteRange, startPos, align]
      have e2 : inp.bytes.length ≤ (byteRange none none true 0 (.len inp.bytes.length) none).requiredLen := by
        unfold byteRange startPos align endInc lastPossiblePos
        simp only
        split <;> omega
      rw [e1, List.drop_zero, List.take_of_length_le]
      have := (ceilDiv_le_iff hds).1 (Nat.le_refl (ceilDiv (byteRange none none true 0 (.len inp.bytes.length) none).requiredLen p.version.dataSize))
      exact Nat.le_trans e2 this

/-- What `encode` makes, with all details of the metadata block. -/
theorem Made.container {E : Env} {p : Param} {inp : Input} {f : File} (h : Made E p inp f) :
    ∃ mb, IsContainer E.rs p.version p.uid.bytes p.metaEnabled p.dpb inp.bytes mb f ∧
      (metaCopies (some p.metaEnabled) p.dpb ≠ [] → mb.length = p.version.blockSize) ∧
      (p.metaEnabled = true → ∃ pl, metasToBytes (finalMetas E p inp inp.bytes) p.version.dataSize = some pl ∧
        mb = blockBytes p.version p.uid.bytes 0 pl) := by
  obtain ⟨d, rep, hrun, rfl⟩ := h.run
  have hds := dataSize_pos p.version
  have hsz : tooLarge p inp = some false := by
    unfold encodeFile at hrun
    cases ht : tooLarge p inp with
    | none => rw [ht] at hrun; simp at hrun
    | some b => cases b with
      | false => rfl
      | true => rw [ht] at hrun; simp at hrun
  have hdm : dummyMeta E p inp ≠ none := by
    intro hd
    unfold encodeFile at hrun
    rw [hsz, hd] at hrun; simp at hrun
  obtain ⟨cs, mb0, d', res, e, hpl, h1, h2, h3, h4, hout⟩ := encodeFile_spec h.env h.param inp hsz hdm
  rw [hrun] at e
  simp only [Prod.mk.injEq] at e
  obtain ⟨rfl, rfl⟩ := e
  have hcs := chunks_of_prefix h1
  rw [wanted_eq] at h1 h3
  obtain ⟨hp1, hp2⟩ := prefix_chunks hds h1
  have hm0 : p.metaEnabled = true → mb0.length = p.version.blockSize := fun h => metaBlockBytes_length (h4 h)
  have hfl : cs.flatten = inp.bytes := by
    cases hout with
    | done => rw [h3 h.calm (by simp), chunksOf_flatten (by omega), clip_whole h.whole]
  cases hout with
  | @done mb rep ha hb hc hpar =>
    have hml : p.metaEnabled = true → mb.length = p.version.blockSize := fun h => metaBlockBytes_length (ha h).1
    refine ⟨mb, ?_, ?_, ?_⟩
    · have := image_after h.env h.param hcs hm0 hml
      unfold IsContainer fileChunks
      rw [← dataSize_eq, ← hfl, ← hp2]
      exact this
    · intro hne
      refine hml ?_
      cases hd : p.dpb with
      | none =>
        rw [hd] at hne
        cases hme : p.metaEnabled with
        | true => rfl
        | false => rw [hme] at hne; simp [metaCopies] at hne
      | some d => exact h.param.meta (by rw [hd]; simp)
    · intro hme
      have := (ha hme).1
      rw [metaBlockBytes_eq, Option.map_eq_some_iff] at this
      obtain ⟨pl, h1, h2⟩ := this
      exact ⟨pl, by rw [← hfl]; exact h1, h2.symm⟩

section
variable {v : Version} {uid : Uid} {me : Option Bool} {dpb : Option Dpb} {ps qs : List (List Byte)} {mb mb' : List Byte} {f g : File}

/-- The places that are used lie within the file. -/
theorem image_inside (hm : metaCopies me dpb ≠ [] → mb.length = v.blockSize) (hps : ∀ p ∈ ps, p.length = v.dataSize)
    (hf : Image v uid.bytes me dpb ps mb f) {k : Nat}
    (hk : k ∈ metaCopies me dpb ∨ ∃ i < ps.length, dataWriteIndex (i + 1) me dpb = k) : (k + 1) * blockLen v ≤ f.length := by
  have hu := blockLen_pos v
  have hl : (f.readAt (k * blockLen v) (blockLen v)).length = blockLen v := by
    rcases hk with hk | ⟨i, hi, rfl⟩
    · rw [hf.metas k hk, hm (by intro h'; rw [h'] at hk; simp at hk), blockLen_eq]
    · rw [hf.data i _ (List.getElem?_eq_getElem hi), blockBytes_length, hps _ (List.getElem_mem hi), blockLen_eq,
        v.blockSize_eq]
  rw [File.readAt_length] at hl
  rw [Nat.succ_mul]
  omega

/-- A container with more blocks is not shorter. -/
theorem image_le (hm : metaCopies me dpb ≠ [] → mb'.length = v.blockSize) (hqs : ∀ p ∈ qs, p.length = v.dataSize)
    (hle : ps.length ≤ qs.length) (hf : Image v uid.bytes me dpb ps mb f) (hg : Image v uid.bytes me dpb qs mb' g) :
    f.length ≤ g.length := by
  obtain ⟨n, hn⟩ := hf.aligned
  cases n with
  | zero => rw [hn]; simp
  | succ k =>
    rw [Nat.mul_comm] at hn
    have := image_inside hm hqs hg (k := k) ((hf.tight k hn).imp_right fun ⟨i, h1, h2⟩ => ⟨i, by omega, h2⟩)
    omega

/-- Where two containers with the same number of blocks can differ. -/
theorem image_differ (hm : metaCopies me dpb ≠ [] → mb.length = v.blockSize) (hm' : metaCopies me dpb ≠ [] → mb'.length = v.blockSize)
    (hps : ∀ p ∈ ps, p.length = v.dataSize) (hqs : ∀ p ∈ qs, p.length = v.dataSize) (hl : ps.length = qs.length)
    (hf : Image v uid.bytes me dpb ps mb f) (hg : Image v uid.bytes me dpb qs mb' g) :
    f.length = g.length ∧ ∀ k, piece v f k = piece v g k ∨ k ∈ metaCopies me dpb ∨
      ∃ i < ps.length, dataWriteIndex (i + 1) me dpb = k ∧ ps[i]? ≠ qs[i]? := by
  have hlen : f.length = g.length := Nat.le_antisymm (image_le hm' hqs (by omega) hf hg) (image_le hm hps (by omega) hg hf)
  refine ⟨hlen, fun k => ?_⟩
  by_cases h1 : k ∈ metaCopies me dpb
  · exact .inr (.inl h1)
  by_cases h2 : ∃ i < ps.length, dataWriteIndex (i + 1) me dpb = k
  · obtain ⟨i, hi, rfl⟩ := h2
    by_cases h3 : ps[i]? = qs[i]?
    · left
      unfold piece
      rw [hf.data i _ (List.getElem?_eq_getElem hi), hg.data i ps[i] (by rw [← h3]; exact List.getElem?_eq_getElem hi)]
    · exact .inr (.inr ⟨i, hi, rfl, h3⟩)
  · left
    have h2' : ∀ i < ps.length, dataWriteIndex (i + 1) me dpb ≠ k := fun i hi he => h2 ⟨i, hi, he⟩
    unfold piece
    by_cases hk : k * blockLen v < f.length
    · rw [hf.gaps k hk h1 h2', hg.gaps k (by omega) h1 (by rw [← hl]; exact h2')]
    · unfold File.readAt
      rw [List.drop_eq_nil_iff.2 (by omega), List.drop_eq_nil_iff.2 (by omega)]

end

/-- Two files made with the same settings, as containers of the same kind. -/
theorem Made.two {E E' : Env} {p p' : Param} {inp inp' : Input} {f g : File} (h : Made E p inp f) (h' : Made E' p' inp' g)
    (hrs : E'.rs = E.rs) (hk : SameKind p p') :
    ∃ mb mb', Image p.version p.uid.bytes (some p.metaEnabled) p.dpb (payloads E.rs p.version p.dpb (fileChunks p.version inp.bytes)) mb f ∧
      Image p.version p.uid.bytes (some p.metaEnabled) p.dpb (payloads E.rs p.version p.dpb (fileChunks p.version inp'.bytes)) mb' g ∧
      (metaCopies (some p.metaEnabled) p.dpb ≠ [] → mb.length = p.version.blockSize) ∧
      (metaCopies (some p.metaEnabled) p.dpb ≠ [] → mb'.length = p.version.blockSize) := by
  obtain ⟨mb, h1, h2, -⟩ := h.container
  obtain ⟨mb', h1', h2', -⟩ := h'.container
  rw [hrs, hk.version, hk.uid, hk.dpb, hk.metaEnabled] at h1'
  rw [hk.version, hk.dpb, hk.metaEnabled] at h2'
  exact ⟨mb, mb', h1, h1', h2, h2'⟩

theorem payloads_len {rs : RsCodec} {v : Version} {dpb : Option Dpb} (hrs : RsLen rs v dpb) (hd : Valid dpb) (bytes : List Byte) :
    (payloads rs v dpb (fileChunks v bytes)).length = blockCount dpb (ceilDiv bytes.length v.dataSize) ∧
    ∀ p ∈ payloads rs v dpb (fileChunks v bytes), p.length = v.dataSize := by
  have := payloads_spec hrs hd (cs := fileChunks v bytes) (by
    intro c hc
    unfold fileChunks at hc
    rw [← dataSize_eq] at hc
    exact (mem_chunksOf _ c hc).2.1)
  refine ⟨?_, this.2⟩
  rw [this.1]
  unfold fileChunks
  rw [← dataSize_eq, chunksOf_length (dataSize_pos v)]

/-- **C75.** Encoding is reproducible: two uninterrupted runs with the same version, uid and shard settings on the same bytes, on machines with
any numbers of processors, at different times, from files with different names or from standard input, with different hash types, give files of
the same length that differ at most in the metadata blocks. -/
theorem C75_same_blocks (E E' : Env) (p p' : Param) (inp inp' : Input) (f g : File) (h : Made E p inp f) (h' : Made E' p' inp' g)
    (hrs : E'.rs = E.rs) (hk : SameKind p p') (hb : inp'.bytes = inp.bytes) :
    f.length = g.length ∧ ∀ k, k ∉ metaCopies (some p.metaEnabled) p.dpb → piece p.version f k = piece p.version g k := by
  obtain ⟨mb, mb', h1, h1', h2, h2'⟩ := h.two h' hrs hk
  obtain ⟨-, hps⟩ := payloads_len (h.env.rsLen h.param) h.param.valid inp.bytes
  rw [hb] at h1'
  obtain ⟨e1, e2⟩ := image_differ h2 h2' hps hps rfl h1 h1'
  refine ⟨e1, fun k hk => ?_⟩
  rcases e2 k with e | e | ⟨i, -, -, e⟩
  · exact e
  · exact absurd e hk
  · exact absurd rfl e

/-- **C75.** Without metadata they are the same file. -/
theorem C75_same_file_no_meta (E E' : Env) (p p' : Param) (inp inp' : Input) (f g : File) (h : Made E p inp f) (h' : Made E' p' inp' g)
    (hrs : E'.rs = E.rs) (hk : SameKind p p') (hb : inp'.bytes = inp.bytes) (hme : p.metaEnabled = false) : f = g := by
  obtain ⟨mb, mb', h1, h1', -, -⟩ := h.two h' hrs hk
  obtain ⟨-, hps⟩ := payloads_len (h.env.rsLen h.param) h.param.valid inp.bytes
  rw [hb] at h1'
  have hno : metaCopies (some p.metaEnabled) p.dpb = [] := by
    have hd : p.dpb = none := by
      by_contra hd
      rw [h.param.meta hd] at hme
      simp at hme
    rw [hd, hme]; simp [metaCopies]
  refine Image.unique hps (mb := mb) (fun hc => absurd hno hc) h1 ⟨h1'.aligned, h1'.data, ?_, h1'.gaps, h1'.tight⟩
  intro k hk
  rw [hno] at hk
  simp at hk

/-- **C75.** With the same names, modification time, hash type and starting time they are the same file, whatever the numbers of processors. -/
theorem C75_same_file (E E' : Env) (p : Param) (inp : Input) (f g : File) (h : Made E p inp f) (h' : Made E' p inp g)
    (hrs : E'.rs = E.rs) (hhash : E'.hash = E.hash) (htime : E'.startTime = E.startTime) : f = g := by
  obtain ⟨mb, h1, h2, h3⟩ := h.container
  obtain ⟨mb', h1', h2', h3'⟩ := h'.container
  cases hme : p.metaEnabled with
  | false => exact C75_same_file_no_meta E E' p p inp inp f g h h' hrs ⟨rfl, rfl, rfl, rfl⟩ rfl hme
  | true =>
    have hmb : mb' = mb := by
      obtain ⟨pl, e1, e2⟩ := h3 hme
      obtain ⟨pl', e1', e2'⟩ := h3' hme
      have : finalMetas E' p inp inp.bytes = finalMetas E p inp inp.bytes := by
        unfold finalMetas; rw [hhash, htime]
      rw [this, e1] at e1'
      cases e1'
      rw [e2, e2']
    rw [hmb, hrs] at h1'
    obtain ⟨-, hps⟩ := payloads_len (h.env.rsLen h.param) h.param.valid inp.bytes
    exact Image.unique hps h2 h1 h1'

theorem slice_congr {α : Type} {a b : List α} {lo w : Nat} (h : ∀ i < w, a[lo + i]? = b[lo + i]?) :
    (a.drop lo).take w = (b.drop lo).take w := by
  apply List.ext_getElem?
  intro i
  by_cases hi : i < w
  · rw [List.getElem?_take_of_lt hi, List.getElem?_take_of_lt hi, List.getElem?_drop, List.getElem?_drop, h i hi]
  · rw [List.getElem?_eq_none (by rw [List.length_take]; omega), List.getElem?_eq_none (by rw [List.length_take]; omega)]

theorem perGroup_pos {dpb : Option Dpb} (h : Valid dpb) : 0 < perGroup dpb := by
  cases dpb with
  | none => exact Nat.one_pos
  | some d => have := h d rfl; simp only [perGroup]; omega

theorem groupOf_eq (dpb : Option Dpb) (s : Nat) : groupOf dpb s = (s - 1) / perGroup dpb := by
  cases dpb with
  | none => simp [groupOf, perGroup]
  | some d => rfl

/-- **C75.** The blocks of a Reed-Solomon set depend only on the bytes of the file in it: if two files agree there, so do all blocks of this set
of their containers, whatever else is in the files. -/
theorem C75_local (E E' : Env) (p p' : Param) (inp inp' : Input) (f g : File) (h : Made E p inp f) (h' : Made E' p' inp' g)
    (hrs : E'.rs = E.rs) (hk : SameKind p p') (s : Nat) (hs : 1 ≤ s)
    (hne : groupBytes p.version p.dpb inp.bytes (groupOf p.dpb s) ≠ [])
    (hb : groupBytes p.version p.dpb inp'.bytes (groupOf p.dpb s) = groupBytes p.version p.dpb inp.bytes (groupOf p.dpb s)) :
    piece p.version f (dataWriteIndex s (some p.metaEnabled) p.dpb) = piece p.version g (dataWriteIndex s (some p.metaEnabled) p.dpb) := by
  obtain ⟨mb, mb', h1, h1', -, -⟩ := h.two h' hrs hk
  have hlen := h.env.rsLen h.param
  have hval := h.param.valid
  have hm := perGroup_pos hval
  rw [groupOf_eq] at hne hb
  have hr := Nat.mod_lt (s - 1) hm
  have hdm : (s - 1) / perGroup p.dpb * perGroup p.dpb + (s - 1) % perGroup p.dpb = s - 1 := Nat.div_add_mod' _ _
  have e1 := payload_group hlen hval inp.bytes ((s - 1) / perGroup p.dpb) _ hr
  have e2 := payload_group hlen hval inp'.bytes ((s - 1) / perGroup p.dpb) _ hr
  rw [hb, ← e1, hdm] at e2
  rw [if_neg hne, hdm] at e1
  obtain ⟨x, hx⟩ : ∃ x, (groupPayloads E.rs p.version p.dpb (groupBytes p.version p.dpb inp.bytes ((s - 1) / perGroup p.dpb)))[
      (s - 1) % perGroup p.dpb]? = some x := by
    refine Option.isSome_iff_exists.1 ?_
    rw [List.getElem?_eq_some_iff.2 ⟨?_, rfl⟩, Option.isSome_some]
    refine Nat.lt_of_lt_of_le hr ?_
    unfold groupPayloads perGroup
    cases hd : p.dpb with
    | none => exact Nat.le_refl _
    | some d =>
      have hd1 := hval d hd
      have hn := dlen_pos p.version
      have hgl : (groupBytes p.version (some d) inp.bytes ((s - 1) / (d.data + d.parity))).length ≤ d.data * (blockLen p.version - 16) := by
        unfold groupBytes groupLen
        rw [List.length_take]
        exact Nat.min_le_left _ _
      have k1 : (dataShards (blockLen p.version - 16) d.data (chunksOf (blockLen p.version - 16)
          (groupBytes p.version (some d) inp.bytes ((s - 1) / (d.data + d.parity))))).length = d.data := by
        apply dataShards_length
        rw [chunksOf_length hn, ceilDiv_le_iff hn]
        exact hgl
      simp only
      rw [List.length_append, k1, (hlen d hd _ k1 (by
        rw [dataSize_eq]
        exact mem_dataShards fun c hc => (mem_chunksOf _ c hc).2.1)).1]
  rw [hx] at e1
  have d1 := h1.data _ _ e1
  have d2 := h1'.data _ _ (by rw [e2, e1])
  rw [Nat.sub_add_cancel hs] at d1 d2
  unfold piece
  rw [d1, d2]

/-- **C75.** A change within one chunk of the file changes at most the block of this chunk, the parity blocks of its set and the metadata
blocks: `2` blocks without, `2 * (1 + parity)` blocks with Reed-Solomon. -/
theorem C75_one_chunk (E E' : Env) (p p' : Param) (inp inp' : Input) (f g : File) (h : Made E p inp f) (h' : Made E' p' inp' g)
    (hrs : E'.rs = E.rs) (hk : SameKind p p') (j : Nat) (hl : inp'.bytes.length = inp.bytes.length)
    (hb : ∀ i, i / (blockLen p.version - 16) ≠ j → inp'.bytes[i]? = inp.bytes[i]?) :
    f.length = g.length ∧ ∀ k, piece p.version f k = piece p.version g k ∨ k ∈ metaCopies (some p.metaEnabled) p.dpb ∨
      k = dataWriteIndex (seqOfChunk p.dpb j) (some p.metaEnabled) p.dpb ∨
      ∃ d, p.dpb = some d ∧ ∃ r < d.parity,
        k = dataWriteIndex (j / d.data * (d.data + d.parity) + d.data + r + 1) (some p.metaEnabled) p.dpb := by
  obtain ⟨mb, mb', h1, h1', h2, h2'⟩ := h.two h' hrs hk
  have hlen := h.env.rsLen h.param
  have hval := h.param.valid
  have hm := perGroup_pos hval
  have hn := dlen_pos p.version
  obtain ⟨l1, hps⟩ := payloads_len hlen hval inp.bytes
  obtain ⟨l2, hqs⟩ := payloads_len hlen hval inp'.bytes
  obtain ⟨e1, e2⟩ := image_differ h2 h2' hps hqs (by rw [l1, l2, hl]) h1 h1'
  refine ⟨e1, fun k => ?_⟩
  rcases e2 k with e | e | ⟨i, -, rfl, e⟩
  · exact .inl e
  · exact .inr (.inl e)
  refine .inr (.inr ?_)
  have hr := Nat.mod_lt i hm
  have hdm : i / perGroup p.dpb * perGroup p.dpb + i % perGroup p.dpb = i := Nat.div_add_mod' _ _
  have g1 := payload_group hlen hval inp.bytes (i / perGroup p.dpb) _ hr
  have g2 := payload_group hlen hval inp'.bytes (i / perGroup p.dpb) _ hr
  rw [hdm] at g1 g2
  have hnil : groupBytes p.version p.dpb inp'.bytes (i / perGroup p.dpb) = [] ↔
      groupBytes p.version p.dpb inp.bytes (i / perGroup p.dpb) = [] := by
    unfold groupBytes
    rw [List.take_eq_nil_iff, List.take_eq_nil_iff, List.drop_eq_nil_iff, List.drop_eq_nil_iff, hl]
  have hne : ¬ groupBytes p.version p.dpb inp.bytes (i / perGroup p.dpb) = [] := by
    intro h0
    rw [if_pos h0] at g1
    rw [if_pos (hnil.2 h0)] at g2
    exact e (by rw [g1, g2])
  rw [if_neg hne] at g1
  rw [if_neg (mt hnil.1 hne)] at g2
  cases hd : p.dpb with
  | none =>
    left
    simp only [hd, perGroup, Nat.div_one] at g1 g2
    have : i = j := by
      by_contra hij
      apply e
      rw [hd, g1, g2]
      congr 2
      unfold groupBytes groupLen
      refine (slice_congr fun x hx => hb _ ?_).symm
      rw [Nat.add_comm, Nat.add_mul_div_right _ _ hn, Nat.div_eq_of_lt hx]
      omega
    rw [this]; rfl
  | some d =>
    have hd1 := hval d hd
    rw [hd] at hdm hr
    simp only [hd, perGroup] at g1 g2 hdm hr
    have ht : i / (d.data + d.parity) = j / d.data := by
      by_contra hij
      apply e
      rw [hd, g1, g2]
      congr 2
      unfold groupBytes groupLen
      refine (slice_congr fun x hx => hb _ ?_).symm
      intro hj
      change x < d.data * (blockLen p.version - 16) at hx
      change (i / (d.data + d.parity) * (d.data * (blockLen p.version - 16)) + x) / (blockLen p.version - 16) = j at hj
      apply hij
      rw [← hj, Nat.div_div_eq_div_mul, Nat.mul_comm (blockLen p.version - 16) d.data, Nat.add_comm _ x,
        Nat.add_mul_div_right _ _ (Nat.mul_pos hd1 hn), Nat.div_eq_of_lt hx, Nat.zero_add]
    by_cases hrd : i % (d.data + d.parity) < d.data
    · left
      have hrj : i % (d.data + d.parity) = j % d.data := by
        by_contra hij
        apply e
        rw [hd, g1, g2]
        have hgl : ∀ bytes, (groupBytes p.version (some d) bytes (i / (d.data + d.parity))).length ≤ d.data * (blockLen p.version - 16) := by
          intro bytes
          unfold groupBytes groupLen
          rw [List.length_take]
          exact Nat.min_le_left _ _
        have hsl : ∀ bytes, (dataShards (blockLen p.version - 16) d.data (chunksOf (blockLen p.version - 16)
            (groupBytes p.version (some d) bytes (i / (d.data + d.parity))))).length = d.data := by
          intro bytes
          apply dataShards_length
          rw [chunksOf_length hn, ceilDiv_le_iff hn]
          exact hgl bytes
        unfold groupPayloads
        simp only
        rw [List.getElem?_append_left (by rw [hsl]; exact hrd), List.getElem?_append_left (by rw [hsl]; exact hrd),
          dataShards_getElem? hn _ (hgl _) hrd, dataShards_getElem? hn _ (hgl _) hrd]
        congr 2
        unfold groupBytes groupLen
        have hle : (i % (d.data + d.parity) + 1) * (blockLen p.version - 16) ≤ d.data * (blockLen p.version - 16) :=
          Nat.mul_le_mul_right _ hrd
        rw [slice_take_drop _ _ _ _ _ hle, slice_take_drop _ _ _ _ _ hle]
        refine (slice_congr fun x hx => hb _ ?_).symm
        intro hj
        change (i / (d.data + d.parity) * (d.data * (blockLen p.version - 16)) +
          i % (d.data + d.parity) * (blockLen p.version - 16) + x) / (blockLen p.version - 16) = j at hj
        apply hij
        rw [← Nat.mul_assoc, ← Nat.add_mul, Nat.add_comm, Nat.add_mul_div_right _ _ hn, Nat.div_eq_of_lt hx, Nat.zero_add] at hj
        rw [← hj, Nat.mul_comm, Nat.mul_add_mod, Nat.mod_eq_of_lt hrd]
      unfold seqOfChunk
      simp only
      rw [← ht, ← hrj, hdm]
    · right
      refine ⟨d, rfl, i % (d.data + d.parity) - d.data, by omega, ?_⟩
      rw [← ht]
      congr 1
      omega

/-- **C75.** A file that grows (a log, say): the blocks of all sets that are already full stay the same, and the container does not get
shorter. -/
theorem C75_grows (E E' : Env) (p p' : Param) (inp inp' : Input) (f g : File) (h : Made E p inp f) (h' : Made E' p' inp' g)
    (hrs : E'.rs = E.rs) (hk : SameKind p p') (hb : inp.bytes <+: inp'.bytes) :
    f.length ≤ g.length ∧ ∀ s, 1 ≤ s → (groupOf p.dpb s + 1) * groupLen p.version p.dpb ≤ inp.bytes.length →
      piece p.version f (dataWriteIndex s (some p.metaEnabled) p.dpb) = piece p.version g (dataWriteIndex s (some p.metaEnabled) p.dpb) := by
  have hlen := h.env.rsLen h.param
  have hval := h.param.valid
  have hn := dlen_pos p.version
  have hg : 0 < groupLen p.version p.dpb := by
    unfold groupLen
    cases hd : p.dpb with
    | none => exact hn
    | some d => exact Nat.mul_pos (hval d hd) hn
  constructor
  · obtain ⟨mb, mb', h1, h1', h2, h2'⟩ := h.two h' hrs hk
    obtain ⟨l1, -⟩ := payloads_len hlen hval inp.bytes
    obtain ⟨l2, hqs⟩ := payloads_len hlen hval inp'.bytes
    refine image_le h2' hqs ?_ h1 h1'
    rw [l1, l2]
    have hle := hb.length_le
    have hmono : ∀ {a b n : Nat}, 0 < n → a ≤ b → ceilDiv a n ≤ ceilDiv b n := by
      intro a b n hn hab
      rw [ceilDiv_le_iff hn]
      exact Nat.le_trans hab ((ceilDiv_le_iff hn).1 (Nat.le_refl _))
    have hc := hmono (dataSize_pos p.version) hle
    unfold blockCount
    cases hd : p.dpb with
    | none => exact hc
    | some d => exact Nat.mul_le_mul_right _ (hmono (hval d hd) hc)
  · intro s hs hle
    rw [Nat.succ_mul] at hle
    refine C75_local E E' p p' inp inp' f g h h' hrs hk s hs ?_ ?_
    · unfold groupBytes
      rw [Ne, List.take_eq_nil_iff, List.drop_eq_nil_iff]
      omega
    · obtain ⟨tl, ht⟩ := hb
      unfold groupBytes
      refine slice_congr fun x hx => ?_
      rw [← ht, List.getElem?_append_left (by omega)]

theorem pad_inj {n : Nat} {a b : List Byte} (hl : a.length = b.length) (h : pad n a = pad n b) : a = b := by
  unfold pad at h
  exact (List.append_inj h hl).1

/-- The payload with a chunk of the file. -/
theorem payload_chunk {rs : RsCodec} {v : Version} {dpb : Option Dpb} (hrs : RsLen rs v dpb) (hval : Valid dpb) (bytes : List Byte) (j : Nat)
    (hj : j * (blockLen v - 16) < bytes.length) :
    (payloads rs v dpb (fileChunks v bytes))[seqOfChunk dpb j - 1]? =
      some (pad (blockLen v - 16) ((bytes.drop (j * (blockLen v - 16))).take (blockLen v - 16))) := by
  have hn := dlen_pos v
  cases dpb with
  | none =>
    have := payload_group hrs hval bytes j 0 (by exact Nat.one_pos)
    simp only [perGroup, Nat.mul_one, Nat.add_zero] at this
    show (payloads rs v none (fileChunks v bytes))[j]? = _
    rw [this, if_neg]
    · rfl
    · unfold groupBytes groupLen
      rw [List.take_eq_nil_iff, List.drop_eq_nil_iff]
      simp only
      omega
  | some d =>
    have hd := hval d rfl
    have hr : j % d.data < d.data := Nat.mod_lt _ hd
    have := payload_group hrs hval bytes (j / d.data) (j % d.data) (by simp only [perGroup]; omega)
    simp only [perGroup] at this
    show (payloads rs v (some d) (fileChunks v bytes))[j / d.data * (d.data + d.parity) + j % d.data]? = _
    have hjd : j / d.data * d.data + j % d.data = j := Nat.div_add_mod' _ _
    have hle : j / d.data * (d.data * (blockLen v - 16)) ≤ j * (blockLen v - 16) := by
      rw [← Nat.mul_assoc]
      exact Nat.mul_le_mul_right _ (by omega)
    rw [this, if_neg]
    · have hgl : (groupBytes v (some d) bytes (j / d.data)).length ≤ d.data * (blockLen v - 16) := by
        unfold groupBytes groupLen
        rw [List.length_take]
        exact Nat.min_le_left _ _
      unfold groupPayloads
      simp only
      rw [List.getElem?_append_left, dataShards_getElem? hn _ hgl hr]
      · congr 2
        unfold groupBytes groupLen
        rw [slice_take_drop _ _ _ _ _ (Nat.mul_le_mul_right _ hr), ← Nat.mul_assoc, ← Nat.add_mul, hjd]
      · rw [dataShards_length]
        · exact hr
        · rw [chunksOf_length hn, ceilDiv_le_iff hn]
          exact hgl
    · unfold groupBytes groupLen
      rw [List.take_eq_nil_iff, List.drop_eq_nil_iff]
      have := Nat.mul_pos hd hn
      simp only
      omega

/-- **C75.** Nothing of the file is left out: if a chunk changes, its block does. -/
theorem C75_changed (E E' : Env) (p p' : Param) (inp inp' : Input) (f g : File) (h : Made E p inp f) (h' : Made E' p' inp' g)
    (hrs : E'.rs = E.rs) (hk : SameKind p p') (hl : inp'.bytes.length = inp.bytes.length) (i : Nat) (hb : inp'.bytes[i]? ≠ inp.bytes[i]?) :
    piece p.version f (dataWriteIndex (seqOfChunk p.dpb (i / (blockLen p.version - 16))) (some p.metaEnabled) p.dpb) ≠
      piece p.version g (dataWriteIndex (seqOfChunk p.dpb (i / (blockLen p.version - 16))) (some p.metaEnabled) p.dpb) := by
  obtain ⟨mb, mb', h1, h1', -, -⟩ := h.two h' hrs hk
  have hlen := h.env.rsLen h.param
  have hval := h.param.valid
  have hn := dlen_pos p.version
  have hi : i < inp.bytes.length := by
    by_contra hi
    exact hb (by rw [List.getElem?_eq_none (by omega), List.getElem?_eq_none (by omega)])
  have hj : i / (blockLen p.version - 16) * (blockLen p.version - 16) ≤ i := Nat.div_mul_le_self _ _
  have d1 := h1.data _ _ (payload_chunk hlen hval inp.bytes _ (Nat.lt_of_le_of_lt hj hi))
  have d2 := h1'.data _ _ (payload_chunk hlen hval inp'.bytes _ (Nat.lt_of_le_of_lt hj (by omega)))
  have hs : seqOfChunk p.dpb (i / (blockLen p.version - 16)) - 1 + 1 = seqOfChunk p.dpb (i / (blockLen p.version - 16)) := by
    unfold seqOfChunk
    cases p.dpb <;> rfl
  rw [hs] at d1 d2
  unfold piece
  rw [d1, d2]
  intro he
  have he := congrArg (List.drop 16) he
  rw [blockBytes_drop, blockBytes_drop] at he
  have hc := pad_inj (by rw [List.length_take, List.length_take, List.length_drop, List.length_drop, hl]) he
  apply hb
  have hm := Nat.mod_lt i hn
  have hdm : i / (blockLen p.version - 16) * (blockLen p.version - 16) + i % (blockLen p.version - 16) = i := Nat.div_add_mod' _ _
  have := congrArg (·[i % (blockLen p.version - 16)]?) hc
  rw [List.getElem?_take_of_lt hm, List.getElem?_take_of_lt hm, List.getElem?_drop, List.getElem?_drop, hdm] at this
  exact this.symm

/-- **C75.** Decoding a container and encoding the output again with the same uid and settings gives the same container but for the metadata. -/
theorem C75_reencode (E E' : Env) (p p' : Param) (inp inp' : Input) (f g : File) (h : Made E p inp f) (h' : Made E' p' inp' g)
    (hrs : E'.rs = E.rs) (hk : SameKind p p') (hme : p.metaEnabled = true) (hsup : p.hashType.supported = true)
    (D : Decode.Env) (hD : D.Calm) (hash : D.hash = E.hash) (q : Decode.Param) (hq : Decode.Whole q) (hr : Decode.DefaultRef q.ref)
    (hb : q.ref.burst ≠ none ∨ q.ref.guessBurstFrom = none ∧ ∀ x, p.dpb = some x → x.burst ≤ 1000) (old out : File) (R : Decode.Report)
    (hdec : Decode.toFile D q f old = .ok (out, R)) (hin : inp'.bytes = out) :
    f.length = g.length ∧ ∀ k, k ∉ metaCopies (some p.metaEnabled) p.dpb → piece p.version f k = piece p.version g k := by
  obtain ⟨d, rep, hrun, rfl⟩ := h.run
  obtain ⟨R', e, -⟩ := Decode.C21_roundtrip E p h.env h.param inp h.names d rep h.whole h.calm hrun hme hsup D hD hash q hq hr hb old
  rw [hdec] at e
  simp only [Except.ok.injEq, Prod.mk.injEq] at e
  exact C75_same_blocks E E' p p' inp inp' _ g h h' hrs hk (by rw [hin, e.1])

/-! ### Instances -/

noncomputable def demoMachine : Env := demoEnv fun _ => false

/-- A machine with more processors, at another time. -/
noncomputable def otherMachine : Env := { demoMachine with lotCount := 200, startTime := 7654321 }

theorem demo_made {E : Env} (hE : E = demoMachine ∨ E = otherMachine) (bytes : List Byte) (h : bytes.length ≤ 1000000) :
    ∃ f, Made E (demoParam .v17 (some ⟨10, 2, 3⟩) none) ⟨bytes, none⟩ f := by
  obtain ⟨h1, h2⟩ := demo_ok (v := .v17) (dpb := some ⟨10, 2, 3⟩) none rfl (by simp) (fun _ => false)
  have h3 : E.Ok (demoParam .v17 (some ⟨10, 2, 3⟩) none) := by
    rcases hE with rfl | rfl
    · exact h2
    · exact ⟨h2.laws, by decide, by decide, by decide +kernel⟩
  obtain ⟨d, rep, hr⟩ := C24_succeeds E _ h3 h1 ⟨bytes, none⟩ (by
    intro mx hmx
    rw [maxSize_eq h1] at hmx
    cases hmx
    refine Nat.le_trans (show _ ≤ 1000000 from h) ?_
    decide +kernel) (by intro _; show needed (demoParam .v17 (some ⟨10, 2, 3⟩) none) ⟨[], none⟩ ≤ _; decide +kernel)
  refine ⟨d.file, h3, h1, ⟨by decide +kernel, by simp⟩, .inl rfl, ?_, d, rep, hr, rfl⟩
  rcases hE with rfl | rfl <;> exact fun _ => rfl

theorem demo_named : ∃ f, Made demoMachine (demoParam .v17 (some ⟨10, 2, 3⟩) none) ⟨List.replicate 1000 7, some ("a.txt", some 5)⟩ f := by
  obtain ⟨h1, h2⟩ := demo_ok (v := .v17) (dpb := some ⟨10, 2, 3⟩) none rfl (by simp) (fun _ => false)
  obtain ⟨d, rep, h⟩ := C24_succeeds _ _ h2 h1 ⟨List.replicate 1000 7, some ("a.txt", some 5)⟩ (by
    intro mx hmx
    rw [maxSize_eq h1] at hmx
    cases hmx
    decide +kernel) (by intro _; decide +kernel)
  refine ⟨d.file, h2, h1, ⟨by decide +kernel, ?_⟩, .inr ⟨rfl, rfl⟩, fun _ => rfl, d, rep, h, rfl⟩
  intro n t ht
  simp only [Option.some.injEq, Prod.mk.injEq] at ht
  rw [← ht.1]
  decide +kernel

/-- The same bytes from the file `a.txt` on one machine and through a pipe on the other. -/
example : ∃ f g, Made demoMachine (demoParam .v17 (some ⟨10, 2, 3⟩) none) ⟨List.replicate 1000 7, some ("a.txt", some 5)⟩ f ∧
    Made otherMachine (demoParam .v17 (some ⟨10, 2, 3⟩) none) ⟨List.replicate 1000 7, none⟩ g ∧
    piece .v17 f 1 = piece .v17 g 1 := by
  obtain ⟨f, hf⟩ := demo_named
  obtain ⟨g, hg⟩ := demo_made (.inr rfl) (List.replicate 1000 7) (by rw [List.length_replicate]; decide)
  exact ⟨f, g, hf, hg, (C75_same_blocks _ _ _ _ _ _ f g hf hg rfl ⟨rfl, rfl, rfl, rfl⟩ rfl).2 1 (by decide +kernel)⟩

/-- Machines with different numbers of processors, at the same time. -/
example : ∃ f, Made demoMachine (demoParam .v17 (some ⟨10, 2, 3⟩) none) ⟨List.replicate 1000 7, none⟩ f ∧
    ∀ g, Made { otherMachine with startTime := 1234567 } (demoParam .v17 (some ⟨10, 2, 3⟩) none) ⟨List.replicate 1000 7, none⟩ g → g = f := by
  obtain ⟨f, hf⟩ := demo_made (.inl rfl) (List.replicate 1000 7) (by rw [List.length_replicate]; decide)
  exact ⟨f, hf, fun g hg => (C75_same_file _ _ _ _ f g hf hg rfl rfl rfl).symm⟩

/-- Byte 700 is changed: the block of chunk 1 is at place 5; the parity blocks are at 33 and 36. -/
example : ∃ f g, Made demoMachine (demoParam .v17 (some ⟨10, 2, 3⟩) none) ⟨List.replicate 1000 7, none⟩ f ∧
    Made demoMachine (demoParam .v17 (some ⟨10, 2, 3⟩) none) ⟨(List.replicate 1000 7).set 700 8, none⟩ g ∧
    piece .v17 f 1 = piece .v17 g 1 ∧ piece .v17 f 5 ≠ piece .v17 g 5 := by
  obtain ⟨f, hf⟩ := demo_made (.inl rfl) (List.replicate 1000 7) (by rw [List.length_replicate]; decide)
  obtain ⟨g, hg⟩ := demo_made (.inl rfl) ((List.replicate 1000 7).set 700 8) (by rw [List.length_set, List.length_replicate]; decide)
  refine ⟨f, g, hf, hg, ?_, ?_⟩
  · have := (C75_one_chunk _ _ _ _ _ _ f g hf hg rfl ⟨rfl, rfl, rfl, rfl⟩ 1 (by rw [List.length_set]) (by
      intro i hi
      show ((List.replicate 1000 7).set 700 8)[i]? = _
      rw [List.getElem?_set_ne]
      rintro rfl
      exact hi rfl)).2 1
    rcases this with e | e | e | ⟨d, hd, r, hr, e⟩
    · exact e
    · exfalso; revert e; decide +kernel
    · exfalso; revert e; decide +kernel
    · cases hd
      have : r = 0 ∨ r = 1 := by simp only at hr; omega
      exfalso; rcases this with rfl | rfl <;> revert e <;> decide +kernel
  · exact C75_changed _ _ _ _ _ _ f g hf hg rfl ⟨rfl, rfl, rfl, rfl⟩ (by rw [List.length_set]) 700 (by
      show ((List.replicate 1000 (7 : Byte)).set 700 8)[700]? ≠ _
      rw [List.getElem?_set_self (by rw [List.length_replicate]; decide), List.getElem?_replicate]
      decide)

/-- 10000 bytes grow to 20000: the first two sets stay. -/
example : ∃ f g, Made demoMachine (demoParam .v17 (some ⟨10, 2, 3⟩) none) ⟨List.replicate 10000 7, none⟩ f ∧
    Made otherMachine (demoParam .v17 (some ⟨10, 2, 3⟩) none) ⟨List.replicate 10000 7 ++ List.replicate 10000 8, none⟩ g ∧
    piece .v17 f (dataWriteIndex 24 (some true) (some ⟨10, 2, 3⟩)) = piece .v17 g (dataWriteIndex 24 (some true) (some ⟨10, 2, 3⟩)) := by
  obtain ⟨f, hf⟩ := demo_made (.inl rfl) (List.replicate 10000 7) (by rw [List.length_replicate]; decide)
  obtain ⟨g, hg⟩ := demo_made (.inr rfl) (List.replicate 10000 7 ++ List.replicate 10000 8) (by
    rw [List.length_append, List.length_replicate, List.length_replicate]; decide)
  refine ⟨f, g, hf, hg, ?_⟩
  refine (C75_grows _ _ _ _ _ _ f g hf hg rfl ⟨rfl, rfl, rfl, rfl⟩ ⟨_, rfl⟩).2 24 (by omega) ?_
  show _ ≤ (List.replicate 10000 (7 : Byte)).length
  rw [List.length_replicate]
  decide +kernel

/-- Version 1 without metadata. -/
example : ∃ f, Made demoMachine { demoParam .v1 none none with metaRequested := false } ⟨List.replicate 1000 7, none⟩ f ∧
    ∀ g, Made otherMachine { demoParam .v1 none none with metaRequested := false, hashType := .sha512 } ⟨List.replicate 1000 7, none⟩ g →
      g = f := by
  have h1 : ({ demoParam .v1 none none with metaRequested := false } : Param).Ok := ⟨rfl, by intro d hd; cases hd⟩
  have h2 : demoMachine.Ok { demoParam .v1 none none with metaRequested := false } :=
    ⟨RsWitness.codec_laws, by decide, by decide, by decide +kernel⟩
  obtain ⟨d, rep, hr⟩ := C24_succeeds _ _ h2 h1 ⟨List.replicate 1000 7, none⟩ (by
    intro mx hmx
    rw [maxSize_eq h1] at hmx
    cases hmx
    decide +kernel) (by intro h; revert h; decide +kernel)
  refine ⟨d.file, ⟨h2, h1, ⟨by decide +kernel, by simp⟩, .inl rfl, fun _ => rfl, d, rep, hr, rfl⟩, fun g hg => ?_⟩
  exact (C75_same_file_no_meta _ _ _ _ _ _ d.file g ⟨h2, h1, ⟨by decide +kernel, by simp⟩, .inl rfl, fun _ => rfl, d, rep, hr, rfl⟩ hg
    rfl ⟨rfl, rfl, rfl, rfl⟩ rfl rfl).symm

/-- Encode a file, decode it, encode the output on the other machine. -/
example : ∃ f out R g, Made demoMachine (demoParam .v17 (some ⟨10, 2, 3⟩) none) ⟨List.replicate 1000 7, some ("a.txt", some 5)⟩ f ∧
    Decode.toFile Decode.calmEnv Decode.plainParam f [1, 2, 3] = .ok (out, R) ∧
    Made otherMachine (demoParam .v17 (some ⟨10, 2, 3⟩) none) ⟨out, none⟩ g ∧ f.length = g.length := by
  obtain ⟨f, hf⟩ := demo_named
  obtain ⟨d, rep, hr, rfl⟩ := hf.run
  obtain ⟨R, r1, -⟩ := Decode.C21_roundtrip _ _ hf.env hf.param _ hf.names d rep hf.whole hf.calm hr rfl rfl Decode.calmEnv Decode.calm rfl
    Decode.plainParam Decode.plain_whole Decode.plain_ref (.inr ⟨rfl, by intro x hx; cases hx; decide⟩) [1, 2, 3]
  obtain ⟨g, hg⟩ := demo_made (.inr rfl) (List.replicate 1000 7) (by rw [List.length_replicate]; decide)
  exact ⟨d.file, _, R, g, hf, r1, hg, (C75_reencode _ _ _ _ _ _ _ g hf hg rfl ⟨rfl, rfl, rfl, rfl⟩ rfl rfl Decode.calmEnv Decode.calm rfl
    Decode.plainParam Decode.plain_whole Decode.plain_ref (.inr ⟨rfl, by intro x hx; cases hx; decide⟩) [1, 2, 3] _ R r1 rfl).1⟩

end Verif.Reproduce
