import Verif.Lemmas.DecodeWhole
import Verif.Props.Encode
import Verif.Lemmas.BlockRingAll
import Verif.Lemmas.EncodeCrash
/-!
# C21, C22, C23: what decoding to a file produces
-/

namespace Verif.Decode
open Format ScanSpec DecodeSpec LayoutSpec ContainerSpec Scan

/-- Nobody presses Ctrl-C; there is at least one lot in a buffer. -/
structure Env.Calm (E : Env) : Prop where
  lots : 0 < E.lotCount
  stopRef : ∀ i, E.stopRef i = false
  stop : ∀ i, E.stop i = false
  stopHash : ∀ i, E.stopHash i = false

/-- A successful run: its reference block, shard counts and output. -/
theorem toFile_ok {E : Env} (hE : E.Calm) {q : Param} (hq : Whole q) {g old out : File} {R : Report}
    (h : toFile E q g old = .ok (out, R)) :
    ∃ pos ref dpb full, getRefBlockM q.ref q.ref.refChoice g E.stopRef (E.stop 0) = .ok (pos, ref) ∧
      dataParBurst q.ref true g ref = .ok dpb ∧
      Assembled ref.header.version.dataSize
        (chunks dpb ((List.range (g.length / blockLen ref.header.version)).filterMap (look ref g 0))) full ∧
      out = truncated ref full ∧ R.recorded = refHsh ref ∧ R.computed = (hashTypeOf ref).map (fun t => E.hash.bytes t out) ∧
      R.outSize = out.length := by
  unfold toFile at h
  cases hr : getRefBlockM q.ref q.ref.refChoice g E.stopRef (E.stop 0) with
  | error e => rw [hr] at h; simp at h
  | ok x =>
    obtain ⟨pos, ref⟩ := x
    rw [hr] at h
    simp only at h
    cases hd : dataParBurst q.ref true g ref with
    | error e => unfold decodeFile at h; rw [hd] at h; simp at h
    | ok dpb =>
      obtain ⟨full, h1, h2⟩ := decodeFile_whole E hE.lots hE.stop hq ref g old dpb hd
      rw [h2] at h
      simp only [Except.ok.injEq, Prod.mk.injEq] at h
      obtain ⟨rfl, rfl⟩ := h
      exact ⟨pos, ref, dpb, full, rfl, hd, h1, rfl, rfl, hashFile_all hE.stopHash _ _, rfl⟩

/-! ### C22 -/

/-- **C22.** The output depends only on which valid blocks of the archive the container has, not on their order or number nor on
anything else in the container: if two containers have the same valid blocks with the version and uid of the reference block, at
places counted in whole blocks from the beginning, and no two of these with the same sequence number differ, then decoding both
gives the same file and the same hash.  (The reference blocks found need the same version, uid and fields.) -/
theorem C22_order_irrelevant (E E' : Env) (hE : E.Calm) (hE' : E'.Calm) (hh : E.hash = E'.hash) (q q' : Param) (hq : Whole q)
    (hq' : Whole q') (f g old old' out out' : File) (R R' : Report) (pos pos' : Nat) (ref ref' : Block)
    (hf : toFile E q f old = .ok (out, R)) (hg : toFile E' q' g old' = .ok (out', R'))
    (hr : getRefBlockM q.ref q.ref.refChoice f E.stopRef (E.stop 0) = .ok (pos, ref))
    (hr' : getRefBlockM q'.ref q'.ref.refChoice g E'.stopRef (E'.stop 0) = .ok (pos', ref'))
    (hv : ref'.header.version = ref.header.version) (hu : ref'.header.uid = ref.header.uid) (hd : ref'.data = ref.data)
    (hsame : ∀ seq payload, seq ≠ 0 → (HasBlock ref.header.version ref.header.uid f seq payload ↔
      HasBlock ref.header.version ref.header.uid g seq payload))
    (hone : ∀ seq p p', seq ≠ 0 → HasBlock ref.header.version ref.header.uid f seq p →
      HasBlock ref.header.version ref.header.uid f seq p' → p = p') :
    out' = out ∧ R'.recorded = R.recorded ∧ R'.computed = R.computed := by
  obtain ⟨_, _, dpb, full, h1, h2, h3, rfl, h5, h6, -⟩ := toFile_ok hE hq hf
  obtain ⟨_, _, dpb', full', h1', h2', h3', rfl, h5', h6', -⟩ := toFile_ok hE' hq' hg
  rw [hr] at h1; rw [hr'] at h1'
  simp only [Except.ok.injEq, Prod.mk.injEq] at h1 h1'
  obtain ⟨rfl, rfl⟩ := h1
  obtain ⟨rfl, rfl⟩ := h1'
  rw [hv] at h3'
  have hdpb := shards_congr h2 h2' hv hd
  rw [chunks_congr hdpb] at h3'
  have hlast : ∀ j, lastOf (chunks dpb ((List.range (g.length / blockLen ref.header.version)).filterMap (look ref' g 0))) j =
      lastOf (chunks dpb ((List.range (f.length / blockLen ref.header.version)).filterMap (look ref f 0))) j := by
    intro j
    have hmem : ∀ s p, chunkOf dpb s = some j →
        ((s, p) ∈ (List.range (g.length / blockLen ref.header.version)).filterMap (look ref' g 0) ↔
          (s, p) ∈ (List.range (f.length / blockLen ref.header.version)).filterMap (look ref f 0)) := by
      intro s p hs
      rw [mem_found, ← hv, mem_found, hv, hu]
      constructor
      · rintro ⟨a, b⟩
        refine ⟨a, (hsame _ _ ?_).2 b⟩
        intro h0
        have := ofNat_toNat32 a
        simp only at this h0
        rw [h0] at this
        rw [← this] at hs
        simp [chunkOf_zero] at hs
      · rintro ⟨a, b⟩
        refine ⟨a, (hsame _ _ ?_).1 b⟩
        intro h0
        have := ofNat_toNat32 a
        simp only at this h0
        rw [h0] at this
        rw [← this] at hs
        simp [chunkOf_zero] at hs
    rw [lastOf_eq, lastOf_eq]
    cases hl : File.lastWrite (chunks dpb ((List.range (f.length / blockLen ref.header.version)).filterMap (look ref f 0))) j with
    | none =>
      rw [File.lastWrite_none] at hl ⊢
      intro w hw hwj
      obtain ⟨s, h7, h8⟩ := mem_chunks.1 hw
      rw [hwj] at h8
      exact hl w (mem_chunks.2 ⟨s, (hmem _ _ h8).1 h7, by rw [hwj]; exact h8⟩) hwj
    | some p =>
      obtain ⟨s, h7, h8⟩ := mem_chunks.1 (File.lastWrite_some hl)
      simp only at h7 h8
      apply File.lastWrite_of_all
      · exact ⟨(j, p), mem_chunks.2 ⟨s, (hmem _ _ h8).2 h7, h8⟩, rfl⟩
      · intro w hw hwj
        obtain ⟨s', h7', h8'⟩ := mem_chunks.1 hw
        rw [hwj] at h8'
        have h9 := (hmem _ _ h8').1 h7'
        obtain rfl := chunkOf_inj h8 h8'
        rw [mem_found] at h7 h9
        refine hone (UInt32.ofNat s) _ _ ?_ h9.2 h7.2
        intro h0
        have := ofNat_toNat32 h7.1
        simp only at this h0
        rw [h0] at this
        rw [← this] at h8
        simp [chunkOf_zero] at h8
  have hfull := assembled_ext (FileUtils.dataSize_pos _) h3' h3 hlast
  have e1 : refFsz ref' = refFsz ref := by unfold refFsz getFsz; rw [hd]
  have e2 : refHsh ref' = refHsh ref := by unfold refHsh getHsh; rw [hd]
  have e3 : hashTypeOf ref' = hashTypeOf ref := by unfold hashTypeOf; rw [e2]
  have e4 : truncated ref' full' = truncated ref full := by unfold truncated; rw [e1, hfull]
  exact ⟨e4, by rw [h5, h5', e2], by rw [h6, h6', e3, e4, hh]⟩

/-- The blocks of a file made of pieces of the length of a block. -/
theorem hasBlock_flatten {v : Version} {uid : Uid} {bs : List (List Byte)} (hb : ∀ b ∈ bs, b.length = blockLen v) {seq : UInt32}
    {p : List Byte} : HasBlock v uid bs.flatten seq p ↔ ∃ b ∈ bs, IsBlock b v uid seq p := by
  unfold HasBlock
  constructor
  · rintro ⟨k, hk⟩
    have e := File.unit_flatten bs hb k
    unfold File.unit at e
    rw [e] at hk
    cases hbk : bs[k]? with
    | none =>
      rw [hbk, Option.getD_none] at hk
      have h1 := isBlock_length hk
      have h2 := blockLen_pos v
      rw [List.length_nil] at h1
      omega
    | some b =>
      rw [hbk, Option.getD_some] at hk
      exact ⟨b, List.mem_of_getElem? hbk, hk⟩
  · rintro ⟨b, hbm, hk⟩
    obtain ⟨k, hk1⟩ := List.mem_iff_getElem?.1 hbm
    refine ⟨k, ?_⟩
    have e := File.unit_flatten bs hb k
    unfold File.unit at e
    rw [e, hk1, Option.getD_some]
    exact hk

/-- **C22, rearranged.** The same for a container cut into pieces of the size of a block: the pieces may be reordered, repeated,
and pieces that are not valid blocks of the archive (garbage, blocks of other archives) may be inserted or removed anywhere. -/
theorem C22_rearranged (E E' : Env) (hE : E.Calm) (hE' : E'.Calm) (hh : E.hash = E'.hash) (q q' : Param) (hq : Whole q)
    (hq' : Whole q') (bs bs' : List (List Byte)) (old old' out out' : File) (R R' : Report) (pos pos' : Nat) (ref ref' : Block)
    (hb : ∀ b ∈ bs, b.length = blockLen ref.header.version) (hb' : ∀ b ∈ bs', b.length = blockLen ref.header.version)
    (hf : toFile E q bs.flatten old = .ok (out, R)) (hg : toFile E' q' bs'.flatten old' = .ok (out', R'))
    (hr : getRefBlockM q.ref q.ref.refChoice bs.flatten E.stopRef (E.stop 0) = .ok (pos, ref))
    (hr' : getRefBlockM q'.ref q'.ref.refChoice bs'.flatten E'.stopRef (E'.stop 0) = .ok (pos', ref'))
    (hv : ref'.header.version = ref.header.version) (hu : ref'.header.uid = ref.header.uid) (hd : ref'.data = ref.data)
    (hsame : ∀ b seq payload, IsBlock b ref.header.version ref.header.uid seq payload → (b ∈ bs ↔ b ∈ bs'))
    (hone : ∀ b ∈ bs, ∀ b' ∈ bs, ∀ seq p p', IsBlock b ref.header.version ref.header.uid seq p →
      IsBlock b' ref.header.version ref.header.uid seq p' → seq ≠ 0 → p = p') :
    out' = out ∧ R'.recorded = R.recorded ∧ R'.computed = R.computed := by
  refine C22_order_irrelevant E E' hE hE' hh q q' hq hq' _ _ old old' out out' R R' pos pos' ref ref' hf hg hr hr' hv hu hd ?_ ?_
  · intro seq p _
    rw [hasBlock_flatten hb, hasBlock_flatten hb']
    constructor
    · rintro ⟨b, h1, h2⟩; exact ⟨b, (hsame b seq p h2).1 h1, h2⟩
    · rintro ⟨b, h1, h2⟩; exact ⟨b, (hsame b seq p h2).2 h1, h2⟩
  · intro seq p p' h0 h1 h2
    rw [hasBlock_flatten hb] at h1 h2
    obtain ⟨b, h1, h3⟩ := h1
    obtain ⟨b', h2, h4⟩ := h2
    exact hone b h1 b' h2 seq p p' h3 h4 h0

/-! ### C23 -/

/-- The blocks (other than metadata) that a file contains all belong to the container of `bytes`: what is damaged does not look
like a block of this archive. -/
def OnlyBlocksOf (rs : RsCodec) (v : Version) (uid : Uid) (dpb : Option Dpb) (bytes : List Byte) (g : File) : Prop :=
  ∀ seq p, seq ≠ 0 → HasBlock v uid g seq p → (payloads rs v dpb (fileChunks v bytes))[seq.toNat - 1]? = some p

theorem damage_core {rs : RsCodec} {v : Version} {uid : Uid} {dpb : Option Dpb} {bytes : List Byte} {g : File} {ref : Block}
    (hver : ref.header.version = v) (huid : ref.header.uid = uid) (hrs : RsLen rs v dpb) (hv : Valid dpb)
    (hdam : OnlyBlocksOf rs v uid dpb bytes g) {full : File}
    (ha : Assembled v.dataSize (chunks dpb ((List.range (g.length / blockLen v)).filterMap (look ref g 0))) full) :
    (∀ i < full.length, (HasChunk v uid dpb g (i / v.dataSize) → full[i]? = some ((bytes[i]?).getD 0x1A)) ∧
      (¬ HasChunk v uid dpb g (i / v.dataSize) → full[i]? = some 0)) ∧
    ∀ n, full.length ≤ n * v.dataSize ↔ ∀ j, HasChunk v uid dpb g j → j < n := by
  subst hver huid
  have hch : ∀ j, HasChunk ref.header.version ref.header.uid dpb g j ↔
      ∃ p, (seqOf dpb j, p) ∈ (List.range (g.length / blockLen ref.header.version)).filterMap (look ref g 0) := by
    intro j
    constructor
    · rintro ⟨s, p, h1, h2⟩
      rw [chunkOf_iff hv] at h2
      refine ⟨p, ?_⟩
      rw [← h2, mem_found']
      exact h1
    · rintro ⟨p, hp⟩
      obtain ⟨h1, h2⟩ := mem_found.1 hp
      exact ⟨_, p, h2, by rw [ofNat_toNat32 h1]; exact (chunkOf_iff hv).2 rfl⟩
  constructor
  · intro i hi
    have key := assembled_bytes (bytes := bytes) hrs hv (bs := (List.range (g.length / blockLen ref.header.version)).filterMap (look ref g 0)) ?_ ha i hi
    · rw [hch]
      rcases key with ⟨h1, h2⟩ | ⟨h1, h2⟩
      · exact ⟨fun _ => h2, fun h => absurd h1 h⟩
      · refine ⟨fun h => ?_, fun _ => h2⟩
        obtain ⟨p, hp⟩ := h
        exact absurd hp (h1 p)
    · intro x hx h0
      obtain ⟨h1, h2⟩ := mem_found.1 hx
      have := hdam _ _ ?_ h2
      · rw [ofNat_toNat32 h1] at this; exact this
      · intro h3
        apply h0
        rw [← ofNat_toNat32 h1, h3]; rfl
  · intro n
    rw [ha.length]
    constructor
    · intro h j hj
      obtain ⟨p, hp⟩ := (hch j).1 hj
      exact h (j, p) (mem_chunks.2 ⟨_, hp, (chunkOf_iff hv).2 rfl⟩)
    · intro h c hc
      obtain ⟨s, h1, h2⟩ := mem_chunks.1 hc
      rw [chunkOf_iff hv] at h2
      exact h c.1 ((hch _).2 ⟨c.2, by rw [← h2]; exact h1⟩)

/-- **C23.** Decoding a damaged container whose reference block is a metadata block recording the size: the output has the original
size; every byte whose chunk is carried by an intact block is the original byte, all other bytes are zero. -/
theorem C23_damage (E : Env) (hE : E.Calm) (q : Param) (hq : Whole q) (g old out : File) (R : Report)
    (h : toFile E q g old = .ok (out, R)) (pos : Nat) (ref : Block)
    (hr : getRefBlockM q.ref q.ref.refChoice g E.stopRef (E.stop 0) = .ok (pos, ref)) (rs : RsCodec) (v : Version) (uid : Uid)
    (dpb : Option Dpb) (bytes : List Byte) (hver : ref.header.version = v) (huid : ref.header.uid = uid)
    (hrs : RsLen rs v dpb) (hv : Valid dpb) (hc : verConsistent v dpb = true) (ms : List Metadata) (hm : ref.metas = some ms)
    (hsz : firstFsz ms = some bytes.length) (hsh : firstRsd ms = dpb.map (·.data) ∧ firstRsp ms = dpb.map (·.parity))
    (hdam : OnlyBlocksOf rs v uid dpb bytes g) :
    out.length = bytes.length ∧ ∀ i < bytes.length,
      (HasChunk v uid dpb g (i / (blockLen v - 16)) → out[i]? = bytes[i]?) ∧
      (¬ HasChunk v uid dpb g (i / (blockLen v - 16)) → out[i]? = some 0) := by
  obtain ⟨_, _, dpb', full, h1, h2, h3, rfl, h5, h6, -⟩ := toFile_ok hE hq h
  rw [hr] at h1
  simp only [Except.ok.injEq, Prod.mk.injEq] at h1
  obtain ⟨rfl, rfl⟩ := h1
  rw [chunks_congr (dataParBurst_eq (dpb := dpb) h2 (by rw [hver]; exact hc) (by
    intro ms' hms'; rw [hm] at hms'; simp only [Option.some.injEq] at hms'; subst hms'; exact hsh)), hver] at h3
  obtain ⟨k1, k2⟩ := damage_core hver huid hrs hv hdam h3
  have ht : truncated ref full = full.setLen bytes.length := by
    unfold truncated; rw [refFsz_meta hm, hsz]
  rw [ht]
  refine ⟨setLen_length _ _, ?_⟩
  intro i hi
  rw [setLen_get _ _ _ hi, ← dataSize_eq]
  by_cases hif : i < full.length
  · rw [if_pos hif]
    obtain ⟨k3, k4⟩ := k1 i hif
    refine ⟨fun hc => ?_, k4⟩
    rw [k3 hc, List.getElem?_eq_getElem hi]; rfl
  · rw [if_neg hif]
    refine ⟨fun hc => ?_, fun _ => rfl⟩
    exfalso
    apply hif
    by_contra hge
    have hds := FileUtils.dataSize_pos v
    have := (k2 (i / v.dataSize)).1 (by
      obtain ⟨m, hm⟩ := h3.aligned
      rw [hm] at hge ⊢
      rw [Nat.mul_comm v.dataSize] at hge ⊢
      exact Nat.mul_le_mul_right _ ((Nat.le_div_iff_mul_le hds).2 (by omega))) _ hc
    omega

/-- **C23, size not known.** If the reference block does not record the size (no metadata), the output ends with the last intact
chunk, and the padding of the last chunk is kept. -/
theorem C23_no_size (E : Env) (hE : E.Calm) (q : Param) (hq : Whole q) (g old out : File) (R : Report)
    (h : toFile E q g old = .ok (out, R)) (pos : Nat) (ref : Block)
    (hr : getRefBlockM q.ref q.ref.refChoice g E.stopRef (E.stop 0) = .ok (pos, ref)) (rs : RsCodec) (v : Version) (uid : Uid)
    (dpb : Option Dpb) (bytes : List Byte) (hver : ref.header.version = v) (huid : ref.header.uid = uid)
    (hrs : RsLen rs v dpb) (hv : Valid dpb) (hc : verConsistent v dpb = true)
    (hsz : ∀ ms, ref.metas = some ms → firstFsz ms = none)
    (hsh : ∀ ms, ref.metas = some ms → firstRsd ms = dpb.map (·.data) ∧ firstRsp ms = dpb.map (·.parity))
    (hdam : OnlyBlocksOf rs v uid dpb bytes g) :
    (∀ n, out.length ≤ n * (blockLen v - 16) ↔ ∀ j, HasChunk v uid dpb g j → j < n) ∧ (blockLen v - 16) ∣ out.length ∧
    ∀ i < out.length,
      (HasChunk v uid dpb g (i / (blockLen v - 16)) → out[i]? = some ((bytes[i]?).getD 0x1A)) ∧
      (¬ HasChunk v uid dpb g (i / (blockLen v - 16)) → out[i]? = some 0) := by
  obtain ⟨_, _, dpb', full, h1, h2, h3, rfl, h5, h6, -⟩ := toFile_ok hE hq h
  rw [hr] at h1
  simp only [Except.ok.injEq, Prod.mk.injEq] at h1
  obtain ⟨rfl, rfl⟩ := h1
  rw [chunks_congr (dataParBurst_eq (dpb := dpb) h2 (by rw [hver]; exact hc) hsh), hver] at h3
  obtain ⟨k1, k2⟩ := damage_core hver huid hrs hv hdam h3
  have ht : truncated ref full = full := by
    unfold truncated
    cases hm : ref.metas with
    | none => rw [refFsz_data hm]
    | some ms => rw [refFsz_meta hm, hsz ms hm]
  rw [ht, ← dataSize_eq]
  exact ⟨k2, h3.aligned, k1⟩

/-! ### C21 -/

/-- The reference block is looked for from the beginning, and a metadata block is welcome (the default, and `--no-meta`). -/
structure DefaultRef (p : RefParam) : Prop where
  refFrom : p.refFrom = none
  refTo : p.refTo = none
  fromPos : p.fromPos = none
  choice : p.refChoice = .any ∨ p.refChoice = .prefer .metadata ∨ p.refChoice = .mustBe .metadata

/-- The reference block of a file that begins with a metadata block. -/
theorem ref_at_start {q : RefParam} (hq : DefaultRef q) {stop : Nat → Bool} (hs : ∀ i, stop i = false) (b : Bool) {v : Version} {uid : Uid}
    {mp : List Byte} {f : File} (hm : IsBlock (f.readAt 0 (blockLen v)) v uid 0 mp) :
    getRefBlockM q q.refChoice f stop b = .ok (0, blockOf v uid 0 mp) := by
  unfold getRefBlockM
  rw [hq.refFrom, hq.refTo, hq.fromPos]
  simp only [Option.map_none, Option.or_none]
  rw [C34_choice f none none q.forceMisalign q.refChoice stop hs _ rfl, range_all]
  simp only [List.drop_zero]
  have hf : f = blockBytes v uid.bytes 0 mp ++ f.drop (blockLen v) := by
    have := hm.bytes
    unfold File.readAt at this
    rw [List.drop_zero] at this
    rw [← this, List.take_append_drop]
  have hw : ∃ rest, walk (if f.length = 0 then 1 else f.length) 0 f = (0, blockOf v uid 0 mp) :: rest := by
    have hlt : 0 < if f.length = 0 then 1 else f.length := by split <;> omega
    generalize (if f.length = 0 then 1 else f.length) = n at hlt
    rw [hf, walk_block hm.len _ hlt]
    exact ⟨_, rfl⟩
  obtain ⟨rest, hw⟩ := hw
  rw [hw]
  have ht : (blockOf v uid 0 mp).blockType = .metadata := by rw [blockOf_type]; rfl
  rcases hq.choice with h | h | h <;> rw [h] <;> simp [chosen, firstOf, ht]

/-- A container of `bytes` is not damaged. -/
theorem onlyBlocks_container {rs : RsCodec} {v : Version} {uid : Uid} {me : Bool} {dpb : Option Dpb} {bytes mb : List Byte} {f : File}
    (hc : IsContainer rs v uid.bytes me dpb bytes mb f) (hmb : me = true → ∃ mp, IsBlock mb v uid 0 mp)
    (hps : ∀ p ∈ payloads rs v dpb (fileChunks v bytes), p.length = v.dataSize)
    (hn : (payloads rs v dpb (fileChunks v bytes)).length ≤ lastSeqNum) (hme : dpb ≠ none → me = true) :
    OnlyBlocksOf rs v uid dpb bytes f ∧
    ∀ i p, (payloads rs v dpb (fileChunks v bytes))[i]? = some p → HasBlock v uid f (UInt32.ofNat (i + 1)) p := by
  have hpos := blockLen_pos v
  constructor
  · rintro seq p h0 ⟨k, hk⟩
    have hl := isBlock_length hk
    by_cases hm : k ∈ metaCopies (some me) dpb
    · have hmt : me = true := by
        by_contra h'
        simp only [Bool.not_eq_true] at h'
        cases dpb with
        | none => rw [h'] at hm; simp [metaCopies] at hm
        | some d => rw [hme (by simp)] at h'; simp at h'
      obtain ⟨mp, hmp⟩ := hmb hmt
      rw [hc.metas k hm] at hk
      exact absurd (isBlock_seq hk hmp).1 h0
    · by_cases hd : ∃ i < (payloads rs v dpb (fileChunks v bytes)).length, Layout.dataWriteIndex (i + 1) (some me) dpb = k
      · obtain ⟨i, hi, rfl⟩ := hd
        have hi' := List.getElem?_eq_getElem hi
        have h2 : IsBlock (f.readAt (Layout.dataWriteIndex (i + 1) (some me) dpb * blockLen v) (blockLen v)) v uid (UInt32.ofNat (i + 1))
            (payloads rs v dpb (fileChunks v bytes))[i] :=
          ⟨hc.data i _ hi', by rw [hps _ (List.getElem_mem hi), dataSize_eq]⟩
        obtain ⟨rfl, rfl⟩ := isBlock_seq hk h2
        unfold lastSeqNum at hn
        rw [ofNat_toNat32 (by omega), Nat.add_sub_cancel, hi']
      · exfalso
        rw [File.readAt_length] at hl
        have := hc.gaps k (by omega) hm (by intro i hi h; exact hd ⟨i, hi, h⟩)
        rw [this] at hk
        exact zeros_no_block hk
  · intro i p hp
    refine ⟨_, hc.data i p hp, ?_⟩
    rw [hps p (List.mem_of_getElem? hp), dataSize_eq]

theorem metas_blockOf {v : Version} {uid : Uid} {mp : List Byte} : (blockOf v uid 0 mp).metas = some (metasFromBytes mp) := by
  simp [blockOf, Block.metas]

theorem guess_mis (f : File) (mis : Bool) (ref : Block) : guessBurst f none mis ref = guessBurst f none false ref := by
  unfold guessBurst guessFromPos; rfl

/-- **C21, container.** Decoding a container (in the sense of the specification) that records size and shard counts gives back
the file, whatever was in the output file before; hash and recorded hash are those of the file.  The burst level must be stated
or at most 1000. -/
theorem C21_container (E : Env) (hE : E.Calm) (q : Param) (hq : Whole q) (hr : DefaultRef q.ref) (rs : RsCodec) (v : Version)
    (uid : Uid) (dpb : Option Dpb) (bytes mb : List Byte) (f old : File) (hrs : RsLen rs v dpb)
    (hsh : ∀ d, dpb = some d → 1 ≤ d.data ∧ 1 ≤ d.parity ∧ d.data + d.parity ≤ 256) (hcons : verConsistent v dpb = true)
    (hc : IsContainer rs v uid.bytes true dpb bytes mb f) (ms : List Metadata) (hrec : Records v uid mb ms)
    (hsz : firstFsz ms = some bytes.length) (hms : firstRsd ms = dpb.map (·.data) ∧ firstRsp ms = dpb.map (·.parity))
    (hn : (payloads rs v dpb (fileChunks v bytes)).length ≤ lastSeqNum)
    (hb : q.ref.burst ≠ none ∨ q.ref.guessBurstFrom = none ∧ ∀ d, dpb = some d → d.burst ≤ 1000) :
    ∃ R, toFile E q f old = .ok (bytes, R) ∧ R.recorded = firstHsh ms ∧
      (∀ h, firstHsh ms = some h → h.ty.supported = true → R.computed = some (E.hash.bytes h.ty bytes)) ∧
      R.outSize = bytes.length := by
  obtain ⟨mp, hmb, rfl⟩ := hrec
  have hval : Valid dpb := fun d hd => (hsh d hd).1
  have hds := FileUtils.dataSize_pos v
  have hps := (payloads_spec (rs := rs) hrs hval (cs := fileChunks v bytes) (by
    intro c hcm
    unfold fileChunks at hcm
    rw [← dataSize_eq] at hcm
    exact (mem_chunksOf _ c hcm).2.1)).2
  have h0 : (0 : Nat) ∈ metaCopies (some true) dpb := by
    cases dpb with
    | none => simp [metaCopies]
    | some d => exact List.mem_map.2 ⟨0, List.mem_range.2 (by omega), by simp⟩
  have hstart : IsBlock (f.readAt 0 (blockLen v)) v uid 0 mp := by
    have := hc.metas 0 h0
    rw [Nat.zero_mul] at this
    rw [this]; exact hmb
  have href := ref_at_start hr hE.stopRef (E.stop 0) hstart
  set ref := blockOf v uid 0 mp with hrefdef
  have hver : ref.header.version = v := rfl
  have huid : ref.header.uid = uid := rfl
  have hmeta : ref.metas = some (metasFromBytes mp) := metas_blockOf
  -- the shard counts
  have hdpb : ∃ dpb', dataParBurst q.ref true f ref = .ok dpb' := by
    unfold dataParBurst
    rw [hver]
    unfold verConsistent at hcons
    cases hdp : dpb with
    | none => rw [hdp] at hcons; simp at hcons; simp [hcons]
    | some d =>
      rw [hdp] at hcons hms
      have hu : v.usesRs = true := by simpa using hcons
      rw [if_pos hu, getRsd_meta hmeta, getRsp_meta hmeta, hms.1, hms.2]
      simp only [Option.map_some, fieldOrErr]
      have : ∃ b, burstOrGuess q.ref.burst q.ref.guessFrom q.ref.forceMisalign f ref = .ok b := by
        unfold burstOrGuess
        cases hbu : q.ref.burst with
        | some b => exact ⟨b, rfl⟩
        | none =>
          rcases hb with hb | ⟨hb1, hb2⟩
          · exact absurd hbu hb
          · have ht : ref.blockType = .metadata := by rw [hrefdef, blockOf_type]; rfl
            have hgf : q.ref.guessFrom = none := by unfold RefParam.guessFrom; rw [hb1, hr.fromPos]; rfl
            rw [hdp] at hc hrs hps hn
            obtain ⟨l, -, hl⟩ := C36_guesses (v := v) (uid := uid) (d := d) (f := f) (ref := ref)
              ⟨hu, (hsh d hdp).1, (hsh d hdp).2.1, (hsh d hdp).2.2, hb2 d hdp, hps, by unfold lastSeqNum at hn; omega,
                ⟨mb, mp, hmb, hc⟩, hver, huid, ⟨_, hmeta, hms⟩⟩
            simp only [hver, hu, ht, hgf, guess_mis, hl]
            exact ⟨l, by simp⟩
      obtain ⟨b, hb'⟩ := this
      simp only [if_true, Bool.true_and, hb']
      exact ⟨_, rfl⟩
  obtain ⟨dpb', hd'⟩ := hdpb
  obtain ⟨full, -, hfull⟩ := decodeFile_whole E hE.lots hE.stop hq ref f old dpb' hd'
  have hok : ∃ R, toFile E q f old = .ok (truncated ref full, R) := by
    unfold toFile; rw [href]; simp only; rw [hfull]; exact ⟨_, rfl⟩
  obtain ⟨R, hR⟩ := hok
  obtain ⟨hdam, hall⟩ := onlyBlocks_container hc (fun _ => ⟨mp, hmb⟩) hps hn (fun _ => rfl)
  obtain ⟨hl, hbytes⟩ := C23_damage E hE q hq f old _ R hR 0 ref href rs v uid dpb bytes hver huid hrs hval hcons _ hmeta hsz hms hdam
  have hout : truncated ref full = bytes := by
    apply List.ext_getElem?
    intro i
    by_cases hi : i < bytes.length
    · refine (hbytes i hi).1 ?_
      rw [← dataSize_eq]
      obtain ⟨p, hp⟩ := (payload_bytes (rs := rs) (dpb := dpb) hrs hval bytes (i / v.dataSize)).2 (by
        have := Nat.div_add_mod i v.dataSize
        rw [Nat.mul_comm] at this; omega)
      have hi2 := (List.getElem?_eq_some_iff.1 hp).1
      refine ⟨_, p, hall _ p hp, ?_⟩
      have := seqOf_pos dpb (i / v.dataSize)
      rw [ofNat_toNat32 (by unfold lastSeqNum at hn; omega), chunkOf_iff hval]
      omega
    · rw [List.getElem?_eq_none (by omega), List.getElem?_eq_none (by omega)]
  obtain ⟨_, ref', _, _, g1, _, _, g4, g5, g6, g7⟩ := toFile_ok hE hq hR
  rw [href] at g1
  simp only [Except.ok.injEq, Prod.mk.injEq] at g1
  obtain ⟨-, rfl⟩ := g1
  rw [hout] at hR g6 g7
  refine ⟨R, hR, by rw [g5, refHsh_meta hmeta], ?_, g7⟩
  intro h hh hsup
  rw [g6]
  unfold hashTypeOf
  rw [refHsh_meta hmeta, hh]
  simp [hsup]

/-- **C21.** Decoding the container made by an uninterrupted encoding run of a whole input (any version, any shard counts) gives
back exactly the input; the hash of the output and the recorded hash are both the hash of the input.  (Metadata enabled; the
burst level stated when decoding or at most 1000, see DESIGN.md.) -/
theorem C21_roundtrip (E : Encode.Env) (p : Encode.Param) (hE : E.Ok p) (hok : p.Ok) (inp : Encode.Input) (hn : Encode.NamesOk p inp)
    (d : Disk) (rep : Encode.Report) (hrange : inp.file = none ∨ p.fromPos = none ∧ p.toPos = none) (hs : ∀ n, E.stop n = false)
    (henc : Encode.encodeFile E p inp = (d, .ok rep)) (hme : p.metaEnabled = true) (hsup : p.hashType.supported = true)
    (D : Env) (hD : D.Calm) (hash : D.hash = E.hash) (q : Param) (hq : Whole q) (hr : DefaultRef q.ref)
    (hb : q.ref.burst ≠ none ∨ q.ref.guessBurstFrom = none ∧ ∀ x, p.dpb = some x → x.burst ≤ 1000) (old : File) :
    ∃ R, toFile D q d.file old = .ok (inp.bytes, R) ∧ R.recorded = some (E.hash.bytes p.hashType inp.bytes) ∧
      R.computed = R.recorded ∧ R.outSize = inp.bytes.length := by
  have hh := Encode.C24_whole_input E p hE hok inp hn d rep hrange hs henc
  obtain ⟨mb, hc, hrec⟩ := hh.container
  obtain ⟨ms, h1, h2, h3, h4, h5, -⟩ := hrec hme
  rw [hme] at hc
  obtain ⟨R, r1, r2, r3, r4⟩ := C21_container D hD q hq hr E.rs p.version p.uid p.dpb inp.bytes mb d.file old (hE.rsLen hok) hok.shards
    hok.consistent hc ms h1 h2 ⟨h4, h5⟩ hh.numbers hb
  refine ⟨R, r1, by rw [r2, h3], ?_, r4⟩
  rw [r2, h3]
  have hs2 : (E.hash.bytes p.hashType inp.bytes).ty.supported = true := by
    show p.hashType.ctxType.supported = true
    revert hsup
    cases p.hashType <;> decide
  rw [r3 _ h3 hs2, hash]
  unfold HashFn.bytes
  cases p.hashType <;> rfl

/-- A container without metadata, as pieces. -/
theorem pieces_of_plain {v : Version} {uid : Uid} {ps : List (List Byte)} {mb : List Byte} {f : File}
    (hps : ∀ p ∈ ps, p.length = v.dataSize) (him : Image v uid.bytes (some false) none ps mb f) :
    f = (ps.mapIdx fun i p => Piece.block v uid (UInt32.ofNat (i + 1)) p).flatMap Piece.bytes ∧ f.length = ps.length * blockLen v := by
  have hpos := blockLen_pos v
  have hidx : ∀ i, Layout.dataWriteIndex (i + 1) (some false) none = i := by intro i; simp [Layout.dataWriteIndex]
  have hmc : metaCopies (some false) none = [] := rfl
  have hfull : ∀ i < ps.length, (i + 1) * blockLen v ≤ f.length := by
    intro i hi
    have := him.data i _ (List.getElem?_eq_getElem hi)
    rw [hidx] at this
    have hl := congrArg List.length this
    rw [File.readAt_length, blockBytes_length, hps _ (List.getElem_mem hi), blockLen_eq, v.blockSize_eq] at hl
    rw [Nat.succ_mul, blockLen_eq, v.blockSize_eq]
    omega
  have hlen : f.length = ps.length * blockLen v := by
    obtain ⟨n, hn⟩ := him.aligned
    rw [Nat.mul_comm] at hn
    cases n with
    | zero =>
      cases hp : ps with
      | nil => rw [hn]; simp
      | cons p ps' =>
        have := hfull 0 (by rw [hp]; simp)
        rw [hn] at this
        omega
    | succ k =>
      rcases him.tight k hn with h | ⟨i, hi, h⟩
      · rw [hmc] at h; simp at h
      · rw [hidx] at h
        subst h
        have h1 : ps.length ≤ i + 1 := by
          by_contra hlt
          have := hfull (i + 1) (by omega)
          rw [hn] at this
          have h2 : (i + 1) * blockLen v < (i + 1 + 1) * blockLen v := Nat.mul_lt_mul_of_pos_right (by omega) hpos
          omega
        rw [hn, show ps.length = i + 1 by omega]
  refine ⟨?_, hlen⟩
  set bs := (ps.mapIdx fun i p => Piece.block v uid (UInt32.ofNat (i + 1)) p).map Piece.bytes with hbs
  have hfl : (ps.mapIdx fun i p => Piece.block v uid (UInt32.ofNat (i + 1)) p).flatMap Piece.bytes = bs.flatten := by
    rw [hbs, List.flatMap_def]
  have hbl : ∀ b ∈ bs, b.length = blockLen v := by
    intro b hb
    rw [hbs, List.mem_map] at hb
    obtain ⟨x, hx, rfl⟩ := hb
    rw [List.mem_mapIdx] at hx
    obtain ⟨i, hi, rfl⟩ := hx
    simp only [Piece.bytes]
    rw [blockBytes_length, hps _ (List.getElem_mem hi), blockLen_eq, v.blockSize_eq]
  rw [hfl]
  have hbl2 : bs.flatten.length = ps.length * blockLen v := by
    have : ∀ l : List (List Byte), (∀ b ∈ l, b.length = blockLen v) → l.flatten.length = l.length * blockLen v := by
      intro l hl
      induction l with
      | nil => simp
      | cons b l ih =>
        rw [List.flatten_cons, List.length_append, ih fun x hx => hl x (List.mem_cons_of_mem _ hx), hl b List.mem_cons_self,
          List.length_cons, Nat.succ_mul]
        omega
    rw [this bs hbl, hbs, List.length_map, List.length_mapIdx]
  refine File.ext_units hpos ps.length hlen hbl2 ?_
  intro k hk
  rw [File.unit_flatten bs hbl, hbs, List.getElem?_map, List.getElem?_mapIdx, List.getElem?_eq_getElem hk]
  have := him.data k _ (List.getElem?_eq_getElem hk)
  rw [hidx] at this
  exact this

/-- **C21, without metadata.** Decoding the container of a non-empty file made without metadata gives back the file filled up
with the padding byte 0x1A to a whole number of chunks: the size is not known. -/
theorem C21_no_metadata (E : Env) (hE : E.Calm) (q : Param) (hq : Whole q) (hrf : q.ref.refFrom = none) (hrt : q.ref.refTo = none)
    (hch : q.ref.refChoice = .any ∨ q.ref.refChoice = .prefer .metadata) (rs : RsCodec) (v : Version) (uid : Uid)
    (bytes mb : List Byte) (f old : File) (hcons : v.usesRs = false) (hne : bytes ≠ [])
    (hc : IsContainer rs v uid.bytes false none bytes mb f) (hn : (payloads rs v none (fileChunks v bytes)).length ≤ lastSeqNum) :
    ∃ R k, toFile E q f old = .ok (bytes ++ List.replicate k 0x1A, R) ∧ k < blockLen v - 16 ∧ (blockLen v - 16) ∣ bytes.length + k ∧
      R.recorded = none := by
  have hds := FileUtils.dataSize_pos v
  have hrs : RsLen rs v none := by intro d hd; simp at hd
  have hval : Valid none := by intro d hd; simp at hd
  have hps := payloads_spec (rs := rs) hrs hval (cs := fileChunks v bytes) (by
    intro c hcm
    unfold fileChunks at hcm
    rw [← dataSize_eq] at hcm
    exact (mem_chunksOf _ c hcm).2.1)
  obtain ⟨hpieces, hflen⟩ := pieces_of_plain hps.2 hc
  set ps := payloads rs v none (fileChunks v bytes) with hpsdef
  have hpslen : ps.length = ceilDiv bytes.length v.dataSize := by
    rw [hps.1]
    unfold blockCount fileChunks
    simp only
    rw [← dataSize_eq, chunksOf_length hds]
  have hceil : 1 ≤ ceilDiv bytes.length v.dataSize := by
    by_contra h0
    have := (Encode.ceilDiv_le_iff hds (r := bytes.length) (k := 0)).1 (by omega)
    have := List.length_pos_iff.2 hne
    omega
  -- the reference block is the first data block
  set pieces := ps.mapIdx fun i p => Piece.block v uid (UInt32.ofNat (i + 1)) p with hpc
  have hpok : ∀ p ∈ pieces, p.Ok := by
    intro p hp
    rw [hpc, List.mem_mapIdx] at hp
    obtain ⟨i, hi, rfl⟩ := hp
    simp only [Piece.Ok]
    rw [hps.2 _ (List.getElem_mem hi), dataSize_eq]
  have hfst : ∃ pos b, getRefBlockM q.ref q.ref.refChoice f E.stopRef (E.stop 0) = .ok (pos, b) ∧ b.header.version = v ∧ b.header.uid = uid ∧
      b.metas = none := by
    have hloc : ∀ (l : List Piece) off, (∀ p ∈ l, ∃ i pl, 1 ≤ i ∧ i < 2 ^ 32 ∧ p = Piece.block v uid (UInt32.ofNat i) pl) →
        ∀ x ∈ located off l, x.2.header.version = v ∧ x.2.header.uid = uid ∧ x.2.metas = none ∧ x.2.blockType = .data := by
      intro l
      induction l with
      | nil => intro off _ x hx; simp [located] at hx
      | cons p l ih =>
        intro off hl x hx
        obtain ⟨i, pl, hi1, hi2, rfl⟩ := hl p List.mem_cons_self
        simp only [located, List.mem_cons] at hx
        rcases hx with rfl | hx
        · have hne0 : ¬ UInt32.ofNat i = 0 := by
            intro h0
            have := ofNat_toNat32 hi2
            rw [h0] at this
            have : (0 : Nat) = i := this
            omega
          refine ⟨rfl, rfl, ?_, ?_⟩
          · simp [blockOf, Block.metas, hne0]
          · rw [blockOf_type, if_neg hne0]
        · exact ih _ (fun p hp => hl p (List.mem_cons_of_mem _ hp)) x hx
    have hall := hloc pieces 0 (by
      intro p hp
      rw [hpc, List.mem_mapIdx] at hp
      obtain ⟨i, hi, rfl⟩ := hp
      exact ⟨i + 1, _, by omega, by unfold lastSeqNum at hn; omega, rfl⟩)
    have hlne : ∃ x rest, located 0 pieces = x :: rest := by
      cases hp : ps with
      | nil => rw [hp] at hpslen; simp at hpslen; omega
      | cons a l => rw [hpc, hp, List.mapIdx_cons]; exact ⟨_, _, rfl⟩
    obtain ⟨x, rest, hx⟩ := hlne
    have hxa := hall x (by rw [hx]; exact List.mem_cons_self)
    refine ⟨x.1, x.2, ?_, hxa.1, hxa.2.1, hxa.2.2.1⟩
    unfold getRefBlockM
    rw [hrf, hrt, hq.fromPos]
    simp only [Option.map_none, Option.or_none]
    rw [C34_choice f none none q.ref.forceMisalign q.ref.refChoice E.stopRef hE.stopRef _ rfl, range_all]
    simp only [List.drop_zero]
    have hw : walk (if f.length = 0 then 1 else f.length) 0 f = x :: rest := by
      have := walk_pieces (if f.length = 0 then 1 else f.length) pieces hpok [] (by simp) 0 (by
        rw [← hpieces]; split <;> omega)
      rw [List.append_nil, ← hpieces] at this
      rw [this, hx]
    rw [hw]
    have hno : firstOf .metadata (x :: rest) = none := by
      unfold firstOf
      rw [List.find?_eq_none]
      intro y hy
      rw [← hx] at hy
      simp [(hall y hy).2.2.2]
    rcases hch with h | h <;> rw [h] <;> simp [chosen, hno]
  obtain ⟨pos, ref, href, hver, huid, hmeta⟩ := hfst
  have hd' : dataParBurst q.ref true f ref = .ok none := by
    unfold dataParBurst; rw [hver, hcons]; rfl
  obtain ⟨full, -, hfull⟩ := decodeFile_whole E hE.lots hE.stop hq ref f old none hd'
  have hok : ∃ R, toFile E q f old = .ok (truncated ref full, R) := by
    unfold toFile; rw [href]; simp only; rw [hfull]; exact ⟨_, rfl⟩
  obtain ⟨R, hR⟩ := hok
  obtain ⟨hdam, hall⟩ := onlyBlocks_container (rs := rs) (dpb := none) hc (by simp) hps.2 hn (by simp)
  obtain ⟨h1, h2, h3⟩ := C23_no_size E hE q hq f old _ R hR pos ref href rs v uid none bytes hver huid hrs hval
    (by unfold verConsistent; rw [hcons]; rfl) (by intro ms h; rw [hmeta] at h; simp at h) (by intro ms h; rw [hmeta] at h; simp at h) hdam
  rw [← dataSize_eq] at h1 h2 h3 ⊢
  have hhas : ∀ j, HasChunk v uid none f j ↔ j < ps.length := by
    intro j
    constructor
    · rintro ⟨seq, p, hb, hj⟩
      rw [chunkOf_iff hval] at hj
      have hne0 : seq ≠ 0 := by
        intro h0
        rw [h0] at hj
        have : (0 : Nat) = seqOf none j := hj
        simp [seqOf] at this
      have := hdam seq p hne0 hb
      rw [hj] at this
      have := (List.getElem?_eq_some_iff.1 this).1
      simp only [seqOf, Nat.add_sub_cancel] at this
      exact this
    · intro hj
      refine ⟨_, _, hall j _ (List.getElem?_eq_getElem hj), ?_⟩
      rw [ofNat_toNat32 (by unfold lastSeqNum at hn; omega), chunkOf_iff hval]
      rfl
  have hlen : (truncated ref full).length = ps.length * v.dataSize := by
    apply Nat.le_antisymm
    · rw [h1]; intro j hj; exact (hhas j).1 hj
    · obtain ⟨m, hm⟩ := h2
      rw [hm, Nat.mul_comm]
      apply Nat.mul_le_mul_left
      by_contra hlt
      have := (h1 m).1 (by rw [hm, Nat.mul_comm]) m ((hhas m).2 (by omega))
      omega
  have hge : bytes.length ≤ ps.length * v.dataSize := by
    rw [hpslen]
    exact (Encode.ceilDiv_le_iff hds).1 (Nat.le_refl _)
  have hlt : ps.length * v.dataSize < bytes.length + v.dataSize := by
    by_contra hcon
    have : ceilDiv bytes.length v.dataSize ≤ ps.length - 1 := by
      rw [Encode.ceilDiv_le_iff hds, Nat.sub_mul]; omega
    omega
  refine ⟨R, ps.length * v.dataSize - bytes.length, ?_, by omega, ⟨ps.length, by rw [Nat.mul_comm v.dataSize]; omega⟩, ?_⟩
  · rw [hR]
    congr 2
    apply List.ext_getElem?
    intro i
    by_cases hi : i < ps.length * v.dataSize
    · rw [(h3 i (by omega)).1 ((hhas _).2 ((Nat.div_lt_iff_lt_mul hds).2 hi))]
      by_cases hib : i < bytes.length
      · rw [List.getElem?_append_left hib, List.getElem?_eq_getElem hib]; rfl
      · rw [List.getElem?_append_right (by omega), List.getElem?_replicate, if_pos (by omega), List.getElem?_eq_none (by omega)]
        rfl
    · rw [List.getElem?_eq_none (by omega), List.getElem?_eq_none (by simp; omega)]
  · obtain ⟨_, ref', _, _, g1, _, _, g4, g5, g6, g7⟩ := toFile_ok hE hq hR
    rw [href] at g1
    simp only [Except.ok.injEq, Prod.mk.injEq] at g1
    obtain ⟨-, rfl⟩ := g1
    rw [g5]
    unfold refHsh getHsh
    unfold Block.metas at hmeta
    cases hd : ref.data with
    | data => rfl
    | metadata ms => rw [hd] at hmeta; simp at hmeta

/-- **C21, schedules.**  Every complete run of the two threads, however they are scheduled, leaves the output file and the counters that
the theorems above are about, and no thread panics; every incomplete run can be continued to such a complete one. -/
theorem C21_any_schedule (E : Env) (p : Param) (ref : Block) (f old out : File) (st : Stats) (dpb : Option Dpb)
    (hd : dataParBurst p.ref true f ref = .ok dpb) (h : decodeFile E p ref f old = .ok (out, st)) (k : Nat)
    (s : Pipeline.Sys 2 (BlockRing.St RdSt Disk) Buffer)
    (hs : (BlockRing.ring2 (Encode.buffersInRotation + 1)
        (fileAct E.stop f (rangeOf p.ref ref f).seekTo (rangeOf p.ref ref f).requiredLen ref dpb) (f.length + 3) BlockRing.fileWriter).Steps k
      (Pipeline.initial (fun _ => ⟨⟨0, 0, Stats.zero⟩, true, ⟨openOut p.multiPass old, []⟩, false⟩)
        (Buffer.newMulti (cfg ref dpb (p.multiPass == some .skipGood)) E.lotCount Encode.buffersInRotation)) s) :
    (Pipeline.Finished s → out = truncated ref (s.thread 1).st.con.file ∧ st = (s.thread 0).st.rd.stats ∧
      ∀ i, (s.thread i).st.panicked = false) ∧
    ∃ l z, (BlockRing.ring2 (Encode.buffersInRotation + 1)
        (fileAct E.stop f (rangeOf p.ref ref f).seekTo (rangeOf p.ref ref f).requiredLen ref dpb) (f.length + 3) BlockRing.fileWriter).Steps l
      s z ∧ Pipeline.Finished z := by
  unfold decodeFile at h
  rw [hd] at h
  simp only at h
  split at h
  · simp at h
  · rename_i r' d' hrun
    simp only [Except.ok.injEq, Prod.mk.injEq] at h
    obtain ⟨z, -, h2, h3, h4, h5, h6⟩ := BlockRing.run2_all (by rw [Encode.newMulti_length]) hrun
    obtain ⟨⟨l, h7⟩, h8⟩ := h6 k s hs
    refine ⟨?_, l, z, h7, h2⟩
    intro hf
    rw [h8 hf, h3, h4]
    exact ⟨h.1.symm, h.2.symm, h5⟩

/-! ### Instances -/

/-- Nobody interferes; the "hash" just counts. -/
noncomputable def calmEnv : Env where
  hash := (Encode.demoEnv fun _ => false).hash
  lotCount := 2
  order := id
  stopRef := fun _ => false
  stop := fun _ => false
  stopHash := fun _ => false

theorem calm : calmEnv.Calm := ⟨Nat.zero_lt_two, fun _ => rfl, fun _ => rfl, fun _ => rfl⟩

/-- `blkar decode` without options. -/
def plainParam : Param := ⟨⟨.prefer .metadata, none, none, none, none, none, false, none⟩, none⟩

theorem plain_whole : Whole plainParam := ⟨rfl, rfl, rfl⟩
theorem plain_ref : DefaultRef plainParam.ref := ⟨rfl, rfl, rfl, .inr (.inl rfl)⟩

/-- Encoding 1000 bytes with version 17, 10 data and 2 parity shards, burst level 3, then decoding without options. -/
example : ∃ d rep R, Encode.encodeFile (Encode.demoEnv fun _ => false) (Encode.demoParam .v17 (some ⟨10, 2, 3⟩) none)
      ⟨List.replicate 1000 7, some ("a.txt", some 5)⟩ = (d, .ok rep) ∧
    toFile calmEnv plainParam d.file [1, 2, 3] = .ok (List.replicate 1000 7, R) ∧ R.computed = R.recorded := by
  obtain ⟨h1, h2⟩ := Encode.demo_ok (v := .v17) (dpb := some ⟨10, 2, 3⟩) none rfl (by simp) (fun _ => false)
  obtain ⟨d, rep, h⟩ := Encode.C24_succeeds _ _ h2 h1 ⟨List.replicate 1000 7, some ("a.txt", some 5)⟩ (by
    intro mx hmx
    rw [Encode.maxSize_eq h1] at hmx
    cases hmx
    decide +kernel) (by intro _; decide +kernel)
  obtain ⟨R, r1, -, r3, -⟩ := C21_roundtrip _ _ h2 h1 _ (by
    refine ⟨by decide +kernel, ?_⟩
    intro n t ht
    simp only [Option.some.injEq, Prod.mk.injEq] at ht
    rw [← ht.1]
    decide +kernel) d rep (.inr ⟨rfl, rfl⟩) (fun _ => rfl) h rfl rfl calmEnv calm rfl plainParam plain_whole plain_ref
    (.inr ⟨rfl, by intro x hx; cases hx; decide⟩) [1, 2, 3]
  exact ⟨d, rep, R, h, r1, r3⟩

/-- Blocks of a container of 600 bytes: metadata and two data blocks. -/
def demoUid : Uid := ⟨[9, 8, 7, 6, 5, 4], rfl⟩
def demoBytes : List Byte := List.replicate 496 7 ++ List.replicate 104 8
def demoPayload1 : List Byte := List.replicate 496 7
def demoPayload2 : List Byte := List.replicate 104 8 ++ List.replicate 392 0x1A
def demoBlock (seq : UInt32) (p : List Byte) : List Byte := blockBytes .v1 demoUid.bytes seq p

theorem demo_meta : ∃ mp : List Byte, mp.length = 496 ∧ metasFromBytes mp = [.fsz 600] := by
  have h1 : ((metasToBytes [.fsz 600] 496).map fun mp => decide (mp.length = 496 ∧ metasFromBytes mp = [.fsz 600])) = some true := by
    decide +kernel
  rw [Option.map_eq_some_iff] at h1
  obtain ⟨mp, -, h⟩ := h1
  exact ⟨mp, by simpa using h⟩

theorem demo_payloads (rs : RsCodec) : payloads rs .v1 none (fileChunks .v1 demoBytes) = [demoPayload1, demoPayload2] := by
  show (chunksOf 496 demoBytes).map (pad 496) = _
  decide +kernel

theorem demo_len : demoBytes.length = 600 := by decide +kernel

theorem demo_len2 : demoPayload2.length = 496 := by decide +kernel

theorem demo_is (seq : UInt32) (p : List Byte) (hp : p.length = 496) : IsBlock (demoBlock seq p) .v1 demoUid seq p := ⟨rfl, hp⟩

/-- What decoding does with a list of pieces that begins with the metadata block. -/
theorem demo_decode (mp : List Byte) (hl : mp.length = 496) (bs : List (List Byte)) :
    getRefBlockM plainParam.ref plainParam.ref.refChoice (demoBlock 0 mp :: bs).flatten calmEnv.stopRef (calmEnv.stop 0) =
      .ok (0, blockOf .v1 demoUid 0 mp) ∧
    ∃ out R, toFile calmEnv plainParam (demoBlock 0 mp :: bs).flatten [] = .ok (out, R) := by
  have hb := demo_is 0 mp hl
  have h1 : IsBlock (File.readAt (demoBlock 0 mp :: bs).flatten 0 (blockLen .v1)) .v1 demoUid 0 mp := by
    unfold File.readAt
    rw [List.drop_zero, List.flatten_cons, List.take_left' (isBlock_length hb)]
    exact hb
  have href := ref_at_start plain_ref calm.stopRef (calmEnv.stop 0) h1
  refine ⟨href, ?_⟩
  obtain ⟨full, -, hfull⟩ := decodeFile_whole calmEnv calm.lots calm.stop plain_whole (blockOf .v1 demoUid 0 mp)
    (demoBlock 0 mp :: bs).flatten [] none rfl
  unfold toFile
  rw [href]
  simp only
  rw [hfull]
  exact ⟨_, _, rfl⟩

/-- Swapped and repeated blocks and garbage make no difference. -/
example : ∃ mp out R out' R',
    toFile calmEnv plainParam [demoBlock 0 mp, demoBlock 1 demoPayload1, demoBlock 2 demoPayload2].flatten [] = .ok (out, R) ∧
    toFile calmEnv plainParam [demoBlock 0 mp, demoBlock 2 demoPayload2, List.replicate 512 3, demoBlock 1 demoPayload1,
      demoBlock 2 demoPayload2].flatten [] = .ok (out', R') ∧ out' = out := by
  obtain ⟨mp, hl, -⟩ := demo_meta
  obtain ⟨r1, out, R, o1⟩ := demo_decode mp hl [demoBlock 1 demoPayload1, demoBlock 2 demoPayload2]
  obtain ⟨r2, out', R', o2⟩ := demo_decode mp hl [demoBlock 2 demoPayload2, List.replicate 512 3, demoBlock 1 demoPayload1,
    demoBlock 2 demoPayload2]
  have hi0 := demo_is 0 mp hl
  have hi1 := demo_is 1 demoPayload1 List.length_replicate
  have hi2 := demo_is 2 demoPayload2 demo_len2
  have hj : ∀ v uid seq p, ¬ IsBlock (List.replicate 512 (3 : Byte)) v uid seq p := by
    intro v uid seq p h
    have h0 := congrArg (·[0]?) h.bytes
    rw [List.getElem?_replicate] at h0
    simp [blockBytes, headerBytes] at h0
  refine ⟨mp, out, R, out', R', o1, o2, ?_⟩
  refine (C22_rearranged calmEnv calmEnv calm calm rfl plainParam plainParam plain_whole plain_whole _ _ [] [] out out' R R' 0 0 _ _
    ?_ ?_ o1 o2 r1 r2 rfl rfl rfl ?_ ?_).1
  · intro b hb
    simp only [List.mem_cons, List.not_mem_nil, or_false] at hb
    rcases hb with rfl | rfl | rfl
    · exact isBlock_length hi0
    · exact isBlock_length hi1
    · exact isBlock_length hi2
  · intro b hb
    simp only [List.mem_cons, List.not_mem_nil, or_false] at hb
    rcases hb with rfl | rfl | rfl | rfl | rfl
    · exact isBlock_length hi0
    · exact isBlock_length hi2
    · exact List.length_replicate
    · exact isBlock_length hi1
    · exact isBlock_length hi2
  · intro b seq p hb
    simp only [List.mem_cons, List.not_mem_nil, or_false]
    constructor
    · rintro (h | h | h)
      · exact .inl h
      · exact .inr (.inr (.inr (.inl h)))
      · exact .inr (.inl h)
    · rintro (h | h | h | h | h)
      · exact .inl h
      · exact .inr (.inr h)
      · exact absurd (h ▸ hb) (hj _ _ _ _)
      · exact .inr (.inl h)
      · exact .inr (.inr h)
  · intro b hb b' hb' seq p p' h1 h2 h0
    have key : ∀ b, b ∈ [demoBlock 0 mp, demoBlock 1 demoPayload1, demoBlock 2 demoPayload2] → ∀ p, IsBlock b .v1 demoUid seq p →
        seq = 1 ∧ p = demoPayload1 ∨ seq = 2 ∧ p = demoPayload2 := by
      intro b hb p h1
      simp only [List.mem_cons, List.not_mem_nil, or_false] at hb
      rcases hb with rfl | rfl | rfl
      · exact absurd (isBlock_seq h1 hi0).1 h0
      · exact .inl (isBlock_seq h1 hi1)
      · exact .inr (isBlock_seq h1 hi2)
    have h12 : ¬ (1 : UInt32) = 2 := by decide
    rcases key b hb p h1 with ⟨a1, a2⟩ | ⟨a1, a2⟩ <;> rcases key b' hb' p' h2 with ⟨c1, c2⟩ | ⟨c1, c2⟩
    · rw [a2, c2]
    · exact absurd (a1.symm.trans c1) h12
    · exact absurd (c1.symm.trans a1) h12
    · rw [a2, c2]

/-- The first data block is overwritten with garbage: its bytes become zero, the others are right. -/
example : ∃ mp out R, toFile calmEnv plainParam [demoBlock 0 mp, List.replicate 512 3, demoBlock 2 demoPayload2].flatten [] = .ok (out, R) ∧
    out.length = 600 ∧ out[495]? = some 0 ∧ out[496]? = some 8 := by
  obtain ⟨mp, hl, hm⟩ := demo_meta
  obtain ⟨r1, out, R, o1⟩ := demo_decode mp hl [List.replicate 512 3, demoBlock 2 demoPayload2]
  have hi0 := demo_is 0 mp hl
  have hi2 := demo_is 2 demoPayload2 demo_len2
  have hj : ∀ v uid seq p, ¬ IsBlock (List.replicate 512 (3 : Byte)) v uid seq p := by
    intro v uid seq p h
    have h0 := congrArg (·[0]?) h.bytes
    rw [List.getElem?_replicate] at h0
    simp [blockBytes, headerBytes] at h0
  have hbl : ∀ b ∈ [demoBlock 0 mp, List.replicate 512 3, demoBlock 2 demoPayload2], b.length = blockLen .v1 := by
    intro b hb
    simp only [List.mem_cons, List.not_mem_nil, or_false] at hb
    rcases hb with rfl | rfl | rfl
    · exact isBlock_length hi0
    · exact List.length_replicate
    · exact isBlock_length hi2
  have hhas : ∀ seq p, seq ≠ 0 → HasBlock .v1 demoUid [demoBlock 0 mp, List.replicate 512 3, demoBlock 2 demoPayload2].flatten seq p →
      seq = 2 ∧ p = demoPayload2 := by
    intro seq p h0 h
    rw [hasBlock_flatten hbl] at h
    obtain ⟨b, hb, h⟩ := h
    simp only [List.mem_cons, List.not_mem_nil, or_false] at hb
    rcases hb with rfl | rfl | rfl
    · exact absurd (isBlock_seq h hi0).1 h0
    · exact absurd h (hj _ _ _ _)
    · exact isBlock_seq h hi2
  obtain ⟨h1, h2⟩ := C23_damage calmEnv calm plainParam plain_whole _ [] out R o1 0 _ r1 RsWitness.codec .v1 demoUid none demoBytes rfl rfl
    (by intro d hd; simp at hd) (by intro d hd; simp at hd) rfl _ (metas_blockOf.trans (congrArg some hm))
    (by rw [demo_len]; rfl) ⟨rfl, rfl⟩ (by
      intro seq p h0 h
      obtain ⟨rfl, rfl⟩ := hhas seq p h0 h
      rw [demo_payloads]; rfl)
  rw [demo_len] at h1 h2
  refine ⟨mp, out, R, o1, h1, ?_, ?_⟩
  · refine (h2 495 (by decide)).2 ?_
    rintro ⟨seq, p, h3, h4⟩
    have h0 : seq ≠ 0 := by rintro rfl; simp [chunkOf, Layout.chunkWriteIndex] at h4
    obtain ⟨rfl, -⟩ := hhas seq p h0 h3
    have : chunkOf none (2 : UInt32).toNat = some 1 := by decide
    rw [this] at h4
    simp [blockLen] at h4
  · rw [(h2 496 (by decide)).1 ?_]
    · decide +kernel
    · refine ⟨2, demoPayload2, ?_, by decide⟩
      rw [hasBlock_flatten hbl]
      exact ⟨_, .tail _ (.tail _ (.head _)), hi2⟩

end Verif.Decode
