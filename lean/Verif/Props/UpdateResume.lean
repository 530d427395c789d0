import Verif.Lemmas.UpdateResume
import Verif.Props.Resume
/-!
# C52: an update that was cut short is finished by running it again
-/

namespace Verif.Update
open Format UpdateSpec RepairSpec ScanSpec Scan Layout Repair LayoutSpec ContainerSpec

/-- Requests that leave alone what the program itself needs: the recorded size and the shard counts. -/
def Param.Keeps (p : Param) : Prop :=
  (∀ m ∈ p.update, m.id ≠ .fsz ∧ m.id ≠ .rsd ∧ m.id ≠ .rsp) ∧ MetaId.fsz ∉ p.remove ∧ MetaId.rsd ∉ p.remove ∧ MetaId.rsp ∉ p.remove

/-- The command line only gives such requests. -/
theorem cli_keeps (H : HashFn) (c : Cli) : (c.param H).Keeps := by
  refine ⟨?_, ?_, ?_, ?_⟩
  · intro m hm
    unfold Cli.param at hm
    simp only [List.mem_append, Option.mem_toList, Option.map_eq_some_iff] at hm
    rcases hm with (⟨_, -, rfl⟩ | ⟨_, -, rfl⟩) | ⟨_, -, rfl⟩ <;> simp [Metadata.id]
  all_goals
    unfold Cli.param
    simp only [List.mem_append, not_or]
    refine ⟨⟨?_, ?_⟩, ?_⟩ <;> split <;> simp

theorem firstFsz_filter (ms : List Metadata) : firstFsz ms = firstFsz (ms.filter fun m => m.id = .fsz) := by
  unfold firstFsz
  induction ms with
  | nil => rfl
  | cons m ms ih => cases m <;> simp [Metadata.id, ih]

/-- The request with the hash filled in. -/
def Param.filled (p : Param) (H : HashFn) (bytes : List Byte) : List Metadata :=
  match p.hashType with
  | none => p.update
  | some t => withHash (H.bytes t bytes) p.update

theorem withHash_ids (h : HashBytes) (upd : List Metadata) : (withHash h upd).map (·.id) = upd.map (·.id) := by
  unfold withHash
  rw [List.map_map]
  apply List.map_congr_left
  intro m _
  simp only [Function.comp]
  split
  · rename_i e; rw [e]; rfl
  · rfl

theorem filled_ids (p : Param) (H : HashFn) (bytes : List Byte) : (p.filled H bytes).map (·.id) = p.update.map (·.id) := by
  unfold Param.filled
  split
  · rfl
  · exact withHash_ids _ _

theorem filled_fields {p : Param} (hk : p.Keeps) (H : HashFn) (bytes : List Byte) (ms : List Metadata) :
    firstFsz (changed (p.filled H bytes) p.remove ms) = firstFsz ms ∧
    firstRsd (changed (p.filled H bytes) p.remove ms) = firstRsd ms ∧
    firstRsp (changed (p.filled H bytes) p.remove ms) = firstRsp ms := by
  obtain ⟨h1, h2, h3, h4⟩ := hk
  have hid : ∀ id, (∀ m ∈ p.update, m.id ≠ id) → id ∉ (p.filled H bytes).map (·.id) := by
    intro id h
    rw [filled_ids]
    intro hm
    obtain ⟨m, hm, e⟩ := List.mem_map.1 hm
    exact h m hm e
  refine ⟨?_, ?_, ?_⟩
  · rw [firstFsz_filter, changed_filter (hid _ fun m hm => (h1 m hm).1), if_neg h2, ← firstFsz_filter]
  · rw [firstRsd_filter, changed_filter (hid _ fun m hm => (h1 m hm).2.1), if_neg h3, ← firstRsd_filter]
  · rw [firstRsp_filter, changed_filter (hid _ fun m hm => (h1 m hm).2.2), if_neg h4, ← firstRsp_filter]

theorem filled_space {p : Param} (hh : p.HashOk) (H : HashFn) (bytes : List Byte) (ms : List Metadata) :
    metaSpace (changed (p.filled H bytes) p.remove ms) = metaSpace (changed p.update p.remove ms) := by
  unfold Param.filled
  cases ht : p.hashType with
  | none => rfl
  | some t =>
    simp only
    rw [← setHash_eq]
    refine changed_space (setHash_id _) ?_ p.remove ms
    intro m hm
    apply setHash_space
    rintro h' rfl
    rw [hh h' t hm ht]
    rfl

theorem filled_plain {p : Param} (hp : p.Plain) (H : HashFn) (bytes : List Byte) :
    ∀ m ∈ p.filled H bytes, m.Storable ∧ m.id ≠ .rsd ∧ m.id ≠ .rsp := by
  unfold Param.filled
  cases p.hashType with
  | none => exact hp
  | some t =>
    intro m hm
    unfold withHash at hm
    obtain ⟨m', hm', rfl⟩ := List.mem_map.1 hm
    have := C07_ctx_type t
    by_cases hi : m'.id = .hsh
    · rw [if_pos hi]
      exact ⟨⟨this.1, this.2.1⟩, by simp [Metadata.id], by simp [Metadata.id]⟩
    · rw [if_neg hi]; exact hp m' hm'

/-- A container with its metadata, and a request to change it that can be carried out. -/
structure Task (rs : RsCodec) (v : Version) (uid : Uid) (dpb : Option Dpb) (bytes mp : List Byte) (f : File) (p : Param) : Prop where
  lengths : RsLen rs v dpb
  shards : ∀ d, dpb = some d → 1 ≤ d.data ∧ 1 ≤ d.parity ∧ d.data + d.parity ≤ 256
  consistent : verConsistent v dpb = true
  block : mp.length = blockLen v - 16
  container : IsContainer rs v uid.bytes true dpb bytes (blockBytes v uid.bytes 0 mp) f
  recorded : firstRsd (metasFromBytes mp) = dpb.map (·.data) ∧ firstRsp (metasFromBytes mp) = dpb.map (·.parity)
  numbers : (payloads rs v dpb (fileChunks v bytes)).length ≤ lastSeqNum
  burst : Decode.BurstKnown p.burst dpb (payloads rs v dpb (fileChunks v bytes)).length
  plain : p.Plain
  keeps : p.Keeps
  hashOk : p.HashOk
  real : p.dryRun = false
  sized : ∀ t, p.hashType = some t → t.supported = true ∧ firstFsz (metasFromBytes mp) = some bytes.length ∧ bytes ≠ []
  room : metaSpace (changed p.update p.remove (metasFromBytes mp)) ≤ blockLen v - 16

/-- The payload of the new metadata block. -/
def NewPayload (v : Version) (H : HashFn) (p : Param) (bytes mp bs : List Byte) : Prop :=
  metasToBytes (changed (p.filled H bytes) p.remove (metasFromBytes mp)) (blockLen v - 16) = some bs

/-- What a crash leaves: nothing but metadata blocks changed, each of them old, new or broken. -/
structure Mixed (v : Version) (uid : Uid) (dpb : Option Dpb) (mp bs : List Byte) (f g : File) : Prop where
  length : g.length = f.length
  others : ∀ k, k ∉ metaCopies (some true) dpb → piece v g k = piece v f k
  metas : ∀ k ∈ metaCopies (some true) dpb, piece v g k = blockBytes v uid.bytes 0 mp ∨ piece v g k = blockBytes v uid.bytes 0 bs ∨
    Broken v (piece v g k)

section
variable {rs : RsCodec} {v : Version} {uid : Uid} {dpb : Option Dpb} {bytes mp bs : List Byte} {f g : File} {p : Param}

theorem Task.valid (h : Task rs v uid dpb bytes mp f p) : Valid dpb := fun d hd => (h.shards d hd).1

theorem Task.new (h : Task rs v uid dpb bytes mp f p) (H : HashFn) : ∃ bs, NewPayload v H p bytes mp bs ∧ bs.length = blockLen v - 16 ∧
    metasFromBytes bs = changed (p.filled H bytes) p.remove (metasFromBytes mp) := by
  obtain ⟨bs, e1, e2, -⟩ := (C05_metadata_write (changed (p.filled H bytes) p.remove (metasFromBytes mp)) (blockLen v - 16)).2 (by
    rw [filled_space h.hashOk]; exact h.room)
  exact ⟨bs, e1, e2, changed_readable (filled_plain h.plain H bytes) p.remove mp e1⟩

theorem NewPayload.read (h : Task rs v uid dpb bytes mp f p) {H : HashFn} (hbs : NewPayload v H p bytes mp bs) :
    bs.length = blockLen v - 16 ∧ metasFromBytes bs = changed (p.filled H bytes) p.remove (metasFromBytes mp) := by
  obtain ⟨bs', h1, h2, h3⟩ := h.new H
  unfold NewPayload at h1 hbs
  rw [hbs] at h1
  rw [Option.some.inj h1]
  exact ⟨h2, h3⟩

/-- The places of the metadata are in the file. -/
theorem Task.inside (h : Task rs v uid dpb bytes mp f p) {k : Nat} (hk : k ∈ metaCopies (some true) dpb) : (k + 1) * blockLen v ≤ f.length := by
  have hm : piece v f k = blockBytes v uid.bytes 0 mp := h.container.metas k hk
  have hb : IsBlock (piece v f k) v uid 0 mp := by rw [hm]; exact ⟨rfl, h.block⟩
  have hl := isBlock_length hb
  have hu := blockLen_pos v
  unfold piece at hl
  rw [File.readAt_length] at hl
  rw [Nat.succ_mul]
  omega

/-- Everything in a mixed container is a block of it or does not look like a block. -/
theorem Mixed.places (h : Task rs v uid dpb bytes mp f p) {H : HashFn} (hbs : NewPayload v H p bytes mp bs) (hm : Mixed v uid dpb mp bs f g) (k : Nat)
    (hk : k * blockLen v < g.length) : (∃ seq q, IsBlock (piece v g k) v uid seq q) ∨ Broken v (piece v g k) := by
  by_cases hmeta : k ∈ metaCopies (some true) dpb
  · rcases hm.metas k hmeta with e | e | e
    · exact .inl ⟨0, mp, e, h.block⟩
    · exact .inl ⟨0, bs, e, (hbs.read h).1⟩
    · exact .inr e
  · rw [hm.others k hmeta]
    by_cases hd : ∃ i < (payloads rs v dpb (fileChunks v bytes)).length, dataWriteIndex (i + 1) (some true) dpb = k
    · obtain ⟨i, hi, e⟩ := hd
      have hps := (payloads_spec (rs := rs) h.lengths h.valid (cs := fileChunks v bytes) (by
        intro c hcm
        unfold fileChunks at hcm
        rw [← dataSize_eq] at hcm
        exact (mem_chunksOf _ c hcm).2.1)).2
      refine .inl ⟨UInt32.ofNat (i + 1), (payloads rs v dpb (fileChunks v bytes))[i], ?_, ?_⟩
      · rw [← e]
        exact h.container.data i _ (List.getElem?_eq_getElem hi)
      · rw [hps _ (List.getElem_mem hi), dataSize_eq]
    · right
      left
      have : piece v f k = List.replicate (blockLen v) 0 :=
        h.container.gaps k (by rw [← hm.length]; exact hk) hmeta fun i hi e => hd ⟨i, hi, e⟩
      rw [this]
      exact dead_zeros _

/-- The metadata blocks in a mixed container are the old ones and the new ones. -/
theorem Mixed.either (h : Task rs v uid dpb bytes mp f p) {H : HashFn} (hbs : NewPayload v H p bytes mp bs) (hm : Mixed v uid dpb mp bs f g) {k : Nat}
    {q : List Byte} (hq : IsBlock (piece v g k) v uid 0 q) : k ∈ metaCopies (some true) dpb ∧ (q = mp ∨ q = bs) := by
  by_cases hmeta : k ∈ metaCopies (some true) dpb
  · refine ⟨hmeta, ?_⟩
    rcases hm.metas k hmeta with e | e | e
    · exact .inl (isBlock_seq hq (show IsBlock (piece v g k) v uid 0 mp from ⟨e, h.block⟩)).2
    · exact .inr (isBlock_seq hq (show IsBlock (piece v g k) v uid 0 bs from ⟨e, (hbs.read h).1⟩)).2
    · exact absurd hq (Broken.not_block e)
  · exfalso
    rw [hm.others k hmeta] at hq
    rcases place_or_end h.container.aligned k with hin | hout
    · by_cases hd : ∃ i < (payloads rs v dpb (fileChunks v bytes)).length, dataWriteIndex (i + 1) (some true) dpb = k
      · obtain ⟨i, hi, e⟩ := hd
        have hps := (payloads_spec (rs := rs) h.lengths h.valid (cs := fileChunks v bytes) (by
          intro c hcm
          unfold fileChunks at hcm
          rw [← dataSize_eq] at hcm
          exact (mem_chunksOf _ c hcm).2.1)).2
        have hb : IsBlock (piece v f k) v uid (UInt32.ofNat (i + 1)) (payloads rs v dpb (fileChunks v bytes))[i] := by
          refine ⟨?_, ?_⟩
          · rw [← e]
            exact h.container.data i _ (List.getElem?_eq_getElem hi)
          · rw [hps _ (List.getElem_mem hi), dataSize_eq]
        have := congrArg UInt32.toNat (isBlock_seq hb hq).1
        have hn := h.numbers
        unfold lastSeqNum at hn
        simp at this
        omega
      · have : piece v f k = List.replicate (blockLen v) 0 :=
          h.container.gaps k (by rw [Nat.succ_mul] at hin; have := blockLen_pos v; omega) hmeta fun i hi e => hd ⟨i, hi, e⟩
        rw [this] at hq
        exact zeros_not_block hq
    · rw [piece_beyond hout] at hq
      have := isBlock_length hq
      have := blockLen_pos v
      simp at *
      omega

/-- The shard counts and the burst level found in a mixed container. -/
theorem Mixed.shards (h : Task rs v uid dpb bytes mp f p) {H : HashFn} (hbs : NewPayload v H p bytes mp bs) (hm : Mixed v uid dpb mp bs f g)
    (hb : (∀ d, dpb = some d → p.burst = some d.burst) ∨ ∀ k ∈ metaCopies (some true) dpb, ValidAt v uid g k) {q : List Byte}
    (hq : q = mp ∨ q = bs) : dataParBurst p.ref false g (blockOf v uid 0 q) = .ok dpb := by
  have hrec : firstRsd (metasFromBytes q) = dpb.map (·.data) ∧ firstRsp (metasFromBytes q) = dpb.map (·.parity) := by
    rcases hq with rfl | rfl
    · exact h.recorded
    · rw [(hbs.read h).2, (filled_fields h.keeps _ _ _).2.1, (filled_fields h.keeps _ _ _).2.2]
      exact h.recorded
  have hcons := h.consistent
  unfold verConsistent at hcons
  unfold dataParBurst
  have hver : (blockOf v uid 0 q).header.version = v := rfl
  rw [hver]
  cases hdp : dpb with
  | none => rw [hdp] at hcons; simp at hcons; simp [hcons]
  | some d =>
    rw [hdp] at hcons hrec
    have hu : v.usesRs = true := by simpa using hcons
    rw [if_pos hu, getRsd_meta Decode.metas_blockOf, getRsp_meta Decode.metas_blockOf, hrec.1, hrec.2]
    simp only [Option.map_some, fieldOrErr, Bool.false_eq_true, if_false, Bool.false_and]
    have : burstOrGuess p.ref.burst none false g (blockOf v uid 0 q) = .ok d.burst := by
      have hpb : p.ref.burst = p.burst := rfl
      unfold burstOrGuess
      rw [hpb]
      rcases h.burst d hdp with hb1 | ⟨hb0, hb1, hb2⟩
      · rw [hb1]
      · rw [hb0]
        have hall : ∀ k ∈ metaCopies (some true) dpb, ValidAt v uid g k := by
          rcases hb with hb | hb
          · rw [hb d hdp] at hb0; simp at hb0
          · exact hb
        have ht : (blockOf v uid 0 q).blockType = .metadata := by rw [Decode.blockOf_type]; rfl
        have hps := (payloads_spec (rs := rs) h.lengths h.valid (cs := fileChunks v bytes) (by
          intro c hcm
          unfold fileChunks at hcm
          rw [← dataSize_eq] at hcm
          exact (mem_chunksOf _ c hcm).2.1)).2
        have hn := h.numbers
        have hsh := h.shards d hdp
        have hc := h.container
        have hmetas : ∀ k, (blockAt (blockOf v uid 0 q) g (k * blockLen v)).map (·.header.seq) =
            (blockAt (blockOf v uid 0 q) f (k * blockLen v)).map (·.header.seq) := by
          intro k
          by_cases hk : k ∈ metaCopies (some true) dpb
          · obtain ⟨sq, r, hr⟩ := hall k hk
            have hs : sq = 0 := by
              rcases hm.metas k hk with e | e | e
              · exact (isBlock_seq hr (show IsBlock (piece v g k) v uid 0 mp from ⟨e, h.block⟩)).1
              · exact (isBlock_seq hr (show IsBlock (piece v g k) v uid 0 bs from ⟨e, (hbs.read h).1⟩)).1
              · exact absurd hr (Broken.not_block e)
            subst hs
            have hf : IsBlock (piece v f k) v uid 0 mp := ⟨hc.metas k hk, h.block⟩
            have e1 : blockAt (blockOf v uid 0 q) g (k * blockLen v) = some (blockOf v uid 0 r) := blockAt_iff.2 ⟨0, r, hr, rfl⟩
            have e2 : blockAt (blockOf v uid 0 q) f (k * blockLen v) = some (blockOf v uid 0 mp) := blockAt_iff.2 ⟨0, mp, hf, rfl⟩
            rw [e1, e2]
            rfl
          · have e : blockAt (blockOf v uid 0 q) g (k * blockLen v) = blockAt (blockOf v uid 0 q) f (k * blockLen v) := by
              have := hm.others k hk
              unfold blockAt
              unfold piece File.readAt at this
              rw [hver, this]
            rw [e]
        rw [hdp] at hc hps hn hb2
        have hl := C36_exact (v := v) (uid := uid) (d := d) (f := f) (ref := blockOf v uid 0 q)
          ⟨hu, hsh.1, hsh.2.1, hsh.2.2, hb1, hps, by unfold lastSeqNum at hn; omega,
            ⟨_, mp, ⟨rfl, h.block⟩, hc⟩, hver, rfl, ⟨_, Decode.metas_blockOf, hrec⟩⟩ hb2
        rw [← guess_congr hmetas] at hl
        simp only [hver, hu, hl]
        simp [ht]
    rw [this]

/-- What is stored is stored still. -/
theorem Mixed.stored (h : Task rs v uid dpb bytes mp f p) (hm : Mixed v uid dpb mp bs f g) : StoredSpec.Stored v uid dpb g bytes := by
  intro j hj
  obtain ⟨q, ⟨s, h1, h2, h3⟩, h4⟩ := ContentHash.stored_container h.lengths h.valid h.container h.numbers j hj
  refine ⟨q, ⟨s, h1, h2, ?_⟩, h4⟩
  rw [hm.others]
  · exact h3
  · have hs : 1 ≤ s := by
      rcases Nat.eq_zero_or_pos s with rfl | hs
      · simp [DecodeSpec.chunkOf, chunkWriteIndex] at h2
      · exact hs
    have e : dataWriteIndex s none dpb = dataWriteIndex s (some true) dpb := by cases dpb <;> rfl
    rw [e]
    exact C10_data_not_meta _ _ h.valid s hs

theorem Mixed.refl (h : Task rs v uid dpb bytes mp f p) : Mixed v uid dpb mp bs f f :=
  ⟨rfl, fun _ _ => rfl, fun k hk => .inl (h.container.metas k hk)⟩

theorem Mixed.fields (h : Task rs v uid dpb bytes mp f p) {H : HashFn} (hbs : NewPayload v H p bytes mp bs) (hm : Mixed v uid dpb mp bs f g)
    {k : Nat} (hk : k ∈ metaCopies (some true) dpb) {ref : Block} (hv : ref.header.version = v) (hu : ref.header.uid = uid) :
    (ValidAt v uid g k → (fieldsAt ref g k = some (metasFromBytes mp) ∨ fieldsAt ref g k = some (metasFromBytes bs)) ) ∧
    (¬ ValidAt v uid g k → fieldsAt ref g k = none) := by
  subst hv hu
  constructor
  · rintro ⟨sq, r, hr⟩
    rcases hm.metas k hk with e | e | e
    · exact .inl (fieldsAt_iff.2 ⟨mp, ⟨e, h.block⟩, rfl⟩)
    · exact .inr (fieldsAt_iff.2 ⟨bs, ⟨e, (hbs.read h).1⟩, rfl⟩)
    · exact absurd hr (Broken.not_block e)
  · intro hn
    cases hf : fieldsAt ref g k with
    | none => rfl
    | some ms =>
      obtain ⟨r, hr, -⟩ := fieldsAt_iff.1 hf
      exact absurd ⟨0, r, hr⟩ hn

open Classical in
/-- `update` of a mixed container. -/
theorem Mixed.run (E : Env) (hE : E.Calm) (h : Task rs v uid dpb bytes mp f p) (hbs : NewPayload v E.hash p bytes mp bs)
    (hm : Mixed v uid dpb mp bs f g)
    (hb : (∀ d, dpb = some d → p.burst = some d.burst) ∨ ∀ k ∈ metaCopies (some true) dpb, ValidAt v uid g k)
    (hleft : ∃ k ∈ metaCopies (some true) dpb, ValidAt v uid g k) :
    ∃ dk, updateFile E p g = (dk, .ok ⟨(metaCopies (some true) dpb).countP fun k => decide (ValidAt v uid g k),
        (metaCopies (some true) dpb).countP fun k => decide (¬ ValidAt v uid g k)⟩) ∧
      dk.file.length = g.length ∧
      (∀ k ∈ metaCopies (some true) dpb, ValidAt v uid g k → piece v dk.file k = blockBytes v uid.bytes 0 bs) ∧
      ∀ k, (k ∈ metaCopies (some true) dpb → ¬ ValidAt v uid g k) → piece v dk.file k = piece v g k := by
  obtain ⟨hbl, hbf⟩ := hbs.read h
  have hu := blockLen_pos v
  have hins : ∀ k ∈ metaCopies (some true) dpb, (k + 1) * blockLen v ≤ g.length := fun k hk => by
    rw [hm.length]; exact h.inside hk
  -- the reference block
  obtain ⟨k0, hk0, sq0, r0, hr0⟩ := hleft
  have hr0' : IsBlock (piece v g k0) v uid 0 r0 := by
    rcases hm.metas k0 hk0 with e | e | e
    · have hx : IsBlock (piece v g k0) v uid 0 mp := ⟨e, h.block⟩
      rw [(isBlock_seq hr0 hx).1] at hr0; exact hr0
    · have hx : IsBlock (piece v g k0) v uid 0 bs := ⟨e, hbl⟩
      rw [(isBlock_seq hr0 hx).1] at hr0; exact hr0
    · exact absurd hr0 (Broken.not_block e)
  obtain ⟨pos, k1, q, hfound, -, hq⟩ := (found_any (by rw [hm.length]; exact h.container.aligned) hE.stopRef (hm.places h hbs)).1 k0 r0 (by
    have := hins k0 hk0
    rw [Nat.succ_mul] at this; omega) hr0'
  obtain ⟨-, hq⟩ := hm.either h hbs hq
  have href : getRefBlockAligned p.ref (.mustBe .metadata) g E.stopRef (E.stopTest 0) = .ok (pos, blockOf v uid 0 q) := by
    unfold getRefBlockAligned
    change (match getRefBlock g none none false (.mustBe .metadata) E.stopRef with | none => _ | some x => _) = _
    rw [hfound]
  have hshards := hm.shards h hbs hb hq
  have hsz' : firstFsz (metasFromBytes q) = firstFsz (metasFromBytes mp) := by
    rcases hq with rfl | rfl
    · rfl
    · rw [hbf, (filled_fields h.keeps _ _ _).1]
  set ref := blockOf v uid 0 q with hrefdef
  have hver : ref.header.version = v := rfl
  have hfl := fun k (hk : k ∈ metaCopies (some true) dpb) => hm.fields h hbs hk (ref := ref) rfl rfl
  have hfulls : ∀ k ∈ metaCopies (some true) dpb, isFull ref g k = true := by
    intro k hk
    unfold isFull
    rw [decide_eq_true_eq]
    change _ ≤ (piece v g k).length
    rw [piece_full (hins k hk), hver]
  have hfits : ∀ fields, (∀ ms, metaSpace (changed fields p.remove ms) = metaSpace (changed (p.filled E.hash bytes) p.remove ms)) →
      ∀ k ∈ metaCopies (some true) dpb, fits ref fields p.remove g k = true := by
    intro fields hs k hk
    unfold fits
    by_cases hv : ValidAt v uid g k
    · rcases (hfl k hk).1 hv with e | e
      · rw [e]
        simp only [decide_eq_true_eq]
        rw [hs, filled_space h.hashOk]
        exact h.room
      · rw [e]
        simp only [decide_eq_true_eq]
        rw [hs, hbf, changed_again, filled_space h.hashOk]
        exact h.room
    · rw [(hfl k hk).2 hv]
  have hgo : ∀ (fields : List Metadata) (stop : Nat → Bool), (∀ i, stop i = false) →
      (∀ ms, metaSpace (changed fields p.remove ms) = metaSpace (changed (p.filled E.hash bytes) p.remove ms)) →
      course (isFull ref g) (fits ref fields p.remove g) stop 0 (metaCopies (some true) dpb) = (metaCopies (some true) dpb, false) :=
    fun fields stop hs hf => course_full hs 0 fun k hk => ⟨hfulls k hk, hfits fields hf k hk⟩
  have hfor : ∃ size, sizeFor p ref = .ok size ∧ fieldsFor E p ref dpb g size = .ok (p.filled E.hash bytes) := by
    unfold sizeFor Param.filled
    cases ht : p.hashType with
    | none => exact ⟨none, rfl, rfl⟩
    | some t =>
      obtain ⟨h1, h2, h3⟩ := h.sized t ht
      refine ⟨some (t, bytes.length), ?_, ?_⟩
      · simp only
        rw [getFsz_meta Decode.metas_blockOf, hsz', h2]
        simp [h1]
      · unfold fieldsFor
        simp only
        rw [ContentHash.C42_hash E.hash E.lotCount hE.lots E.stopHash hE.stopHash t g ref dpb h.valid bytes h3 (hm.stored h)]
        simp only [setHash_eq]
  obtain ⟨size, hsz, hfor⟩ := hfor
  have hsp : ∀ ms, metaSpace (changed p.update p.remove ms) = metaSpace (changed (p.filled E.hash bytes) p.remove ms) :=
    fun ms => (filled_space h.hashOk _ _ _).symm
  have hrun : updateFile E p g = (Disk.writes ⟨g, []⟩ (opsAt ref (p.filled E.hash bytes) p.remove g (metaCopies (some true) dpb)),
      .ok ⟨(metaCopies (some true) dpb).countP fun k => decide (ValidAt v uid g k),
        (metaCopies (some true) dpb).countP fun k => decide (¬ ValidAt v uid g k)⟩) := by
    unfold updateFile
    simp only
    rw [href]
    simp only
    rw [hsz]
    simp only
    rw [hshards]
    simp only
    rw [updateBlocks_spec, show (⟨g, []⟩ : Disk).file = g from rfl, hgo p.update E.stopTest hE.stopTest hsp]
    simp only [Bool.false_eq_true, if_false]
    rw [show (⟨g, []⟩ : Disk).file = g from rfl, hfor]
    simp only
    rw [updateBlocks_spec, show (⟨g, []⟩ : Disk).file = g from rfl, hgo _ E.stopRun hE.stopRun fun _ => rfl, h.real]
    simp only [Bool.not_false, if_true, Bool.false_eq_true, if_false]
    congr 3
    · apply List.countP_congr
      intro k hk
      by_cases hv : ValidAt v uid g k
      · rcases (hfl k hk).1 hv with e | e <;> simp [e, hv]
      · simp [(hfl k hk).2 hv, hv]
    · apply List.countP_congr
      intro k hk
      by_cases hv : ValidAt v uid g k
      · rcases (hfl k hk).1 hv with e | e <;> simp [e, hv]
      · simp [(hfl k hk).2 hv, hv]
  obtain ⟨w1, w2, w3⟩ := written ref (p.filled E.hash bytes) p.remove g (metaCopies (some true) dpb) ((metaCopies_sorted dpb).imp Nat.ne_of_lt)
    (hfits _ fun _ => rfl)
  rw [hver] at w2 w3
  refine ⟨_, hrun, ?_⟩
  rw [show (Disk.writes ⟨g, []⟩ (opsAt ref (p.filled E.hash bytes) p.remove g (metaCopies (some true) dpb))).file =
    g.writes (opsAt ref (p.filled E.hash bytes) p.remove g (metaCopies (some true) dpb)) from Disk.file_writes _ _]
  refine ⟨w1, ?_, ?_⟩
  · intro k hk hv
    apply w2 k hk
    unfold newAt
    rcases (hfl k hk).1 hv with e | e
    · rw [e, Option.map_some, hver, show metasToBytes _ _ = some bs from hbs]; rfl
    · rw [e, Option.map_some, hbf, changed_again, hver, show metasToBytes _ _ = some bs from hbs]; rfl
  · intro k hk
    apply List.ext_getElem?
    intro i
    unfold piece
    rw [File.getElem?_readAt, File.getElem?_readAt]
    split
    · rename_i hi
      apply w3
      intro j hj hne
      have hjk : j ≠ k := by
        rintro rfl
        exact hne ((hfl j hj).2 (hk hj))
      rcases Nat.lt_or_gt_of_ne hjk with hlt | hlt
      · have := Nat.mul_le_mul_right (blockLen v) (show j + 1 ≤ k from hlt)
        omega
      · have := Nat.mul_le_mul_right (blockLen v) (show k + 1 ≤ j from hlt)
        rw [Nat.succ_mul] at this; omega
    · rfl

/-- The writes of an `update` of a container, even of an interrupted one. -/
theorem Task.ops (E : Env) (hE : E.Sticky) (hl : 0 < E.lotCount) (h : Task rs v uid dpb bytes mp f p) (hbs : NewPayload v E.hash p bytes mp bs) :
    ∀ w ∈ (updateFile E p f).1.ops, ∃ k ∈ metaCopies (some true) dpb, w = (k * blockLen v, blockBytes v uid.bytes 0 bs) := by
  rcases updateFile_cases E p f with ⟨e', h'⟩ | ⟨v', uid', mp', dpb', fields, hs, hw, -, h'⟩
  · rw [h']; simp
  by_cases hst : ∃ i, E.stopHash i = true
  · obtain ⟨i, hi⟩ := hst
    rw [C28_interrupted_hash E hE p f i hi]
    simp
  have hrefl : Mixed v uid dpb mp bs f f := Mixed.refl h
  have hmp : IsBlock (blockBytes v uid.bytes 0 mp) v uid 0 mp := ⟨rfl, h.block⟩
  have h0 : (0 : Nat) ∈ metaCopies (some true) dpb := by
    cases dpb with
    | none => simp [metaCopies]
    | some d => exact List.mem_map.2 ⟨0, List.mem_range.2 (by omega), by simp⟩
  have hp0 : IsBlock (piece v f 0) v uid 0 mp := by
    rw [show piece v f 0 = _ from h.container.metas 0 h0]; exact hmp
  obtain ⟨pos, k', q, hfound, -, hq⟩ := (found_any (stop := fun _ => false) h.container.aligned (fun _ => rfl) (hrefl.places h hbs)).1 0 mp (by
    have := h.inside h0
    have := blockLen_pos v
    rw [Nat.succ_mul] at *; omega) hp0
  have hqm : q = mp := by
    obtain ⟨hk', -⟩ := hrefl.either h hbs hq
    have hx : IsBlock (piece v f k') v uid 0 mp := by
      rw [show piece v f k' = _ from h.container.metas k' hk']; exact hmp
    exact (isBlock_seq hq hx).2
  subst hqm
  obtain ⟨pos', hf'⟩ := hs.found
  have heq := ref_same (fun _ => rfl) hf' hfound
  simp only [Prod.mk.injEq] at heq
  obtain ⟨-, hblk⟩ := heq
  have hall : ∀ k ∈ metaCopies (some true) dpb, ValidAt v uid f k := by
    intro k hk
    refine ⟨0, q, ?_⟩
    rw [show piece v f k = _ from h.container.metas k hk]; exact hmp
  have hd := hs.shards
  rw [hblk, hrefl.shards h hbs (.inr hall) (.inl rfl)] at hd
  simp only [Except.ok.injEq] at hd
  subst hd
  rw [hblk] at h'
  have hfields : fields = p.filled E.hash bytes := by
    unfold Wanted at hw
    unfold Param.filled
    cases ht : p.hashType with
    | none => rw [ht] at hw; exact hw
    | some t =>
      rw [ht] at hw
      obtain ⟨n, hh, e1, e2, e3⟩ := hw
      obtain ⟨t1, t2, t3⟩ := h.sized t ht
      have hms := congrArg Block.metas hblk
      rw [Decode.metas_blockOf, Decode.metas_blockOf] at hms
      rw [Option.some.inj hms, t2] at e1
      obtain rfl := Option.some.inj e1
      rw [hblk, ContentHash.C42_container E.hash E.lotCount hl E.stopHash (fun i => by simpa using fun hi => hst ⟨i, hi⟩) t rs v uid dpb
        h.lengths h.valid bytes _ f t3 h.container h.numbers q] at e2
      simp only [Except.ok.injEq] at e2
      subst e2
      rw [e3]
      exact setHash_eq _ _
  subst hfields
  rw [h', updateBlocks_spec, h.real]
  simp only [Bool.not_false, if_true]
  intro w hw
  rw [show (⟨f, []⟩ : Disk).file = f from rfl] at hw
  have hw' : w ∈ opsAt (blockOf v uid 0 q) (p.filled E.hash bytes) p.remove f (course (isFull (blockOf v uid 0 q) f)
      (fits (blockOf v uid 0 q) (p.filled E.hash bytes) p.remove f) E.stopRun 0 (metaCopies (some true) dpb)).1 := by
    simpa [Disk.writes] using hw
  unfold opsAt at hw'
  obtain ⟨k, hk, hkw⟩ := List.mem_filterMap.1 hw'
  have hk' := (course_prefix _ _ _ _ _).subset hk
  refine ⟨k, hk', ?_⟩
  have hfa : fieldsAt (blockOf v uid 0 q) f k = some (metasFromBytes q) := by
    refine fieldsAt_iff.2 ⟨q, ?_, rfl⟩
    change IsBlock (piece v f k) v uid 0 q
    rw [show piece v f k = _ from h.container.metas k hk']; exact hmp
  have hn : newAt (blockOf v uid 0 q) (p.filled E.hash bytes) p.remove f k = some (blockBytes v uid.bytes 0 bs) := by
    unfold newAt
    rw [hfa, Option.map_some]
    change some (blockBytes v uid.bytes 0 ((metasToBytes _ (blockLen v - 16)).getD [])) = _
    rw [show metasToBytes _ _ = some bs from hbs]; rfl
  rw [hn] at hkw
  simp only [Option.map_some, Option.some.injEq] at hkw
  exact hkw.symm

/-- What a crash leaves. -/
theorem Task.mixed (E : Env) (hE : E.Sticky) (hl : 0 < E.lotCount) (h : Task rs v uid dpb bytes mp f p) (hbs : NewPayload v E.hash p bytes mp bs)
    (hg : Crashed v (updateFile E p f).1.ops f g) : Mixed v uid dpb mp bs f g := by
  have hops := h.ops E hE hl hbs
  have hu := blockLen_pos v
  have hbl : IsBlock (blockBytes v uid.bytes 0 bs) v uid 0 bs := ⟨rfl, (hbs.read h).1⟩
  have hplace : ∀ k b, (k * blockLen v, b) ∈ (updateFile E p f).1.ops → k ∈ metaCopies (some true) dpb ∧ b = blockBytes v uid.bytes 0 bs := by
    intro k b hb
    obtain ⟨k', hk', e⟩ := hops _ hb
    simp only [Prod.mk.injEq] at e
    have := Nat.eq_of_mul_eq_mul_right hu e.1
    subst this
    exact ⟨hk', e.2⟩
  obtain ⟨hlen, hp⟩ := hg
  refine ⟨hlen, ?_, ?_⟩
  · intro k hk
    rcases hp k with e | ⟨b, n, hb, -⟩
    · exact e
    · exact absurd (hplace k b hb).1 hk
  · intro k hk
    rcases hp k with e | ⟨b, n, hb, hn, e, hnb⟩
    · left; rw [e]; exact h.container.metas k hk
    · right
      obtain ⟨-, rfl⟩ := hplace k b hb
      have hlb := isBlock_length hbl
      by_cases hfull : n < blockLen v
      · right
        refine .inr ⟨header_of_four ?_ ?_, hnb hfull⟩
        · rw [piece_full (by rw [hlen]; exact h.inside hk)]
          exact h16 v
        · rw [e, List.take_append_of_le_length (by rw [List.length_take]; omega), List.take_take, Nat.min_eq_left hn]
          exact (IsBlock.checksum_field hbl).1
      · left
        rw [e, List.take_of_length_le (by omega), List.drop_eq_nil_of_le (by have := piece_length_le v f k; omega), List.append_nil]

end

/-- Files of the same length with the same pieces. -/
theorem file_ext {v : Version} {a b : File} (hl : a.length = b.length) (h : ∀ k, piece v a k = piece v b k) : a = b := by
  have hu := blockLen_pos v
  apply List.ext_getElem?
  intro i
  have h1 : ∀ c : File, c[i]? = (piece v c (i / blockLen v))[i % blockLen v]? := by
    intro c
    unfold piece
    rw [File.getElem?_readAt, if_pos (Nat.mod_lt _ hu), Nat.mul_comm, Nat.div_add_mod]
  rw [h1 a, h1 b, h]

open Classical in
/-- `update` of a mixed container, compared with `update` of the container. -/
theorem Mixed.same {rs : RsCodec} {v : Version} {uid : Uid} {dpb : Option Dpb} {bytes mp bs : List Byte} {f g : File} {p : Param}
    (E' : Env) (hE' : E'.Calm) (h : Task rs v uid dpb bytes mp f p)
    (hbs : NewPayload v E'.hash p bytes mp bs) (hm : Mixed v uid dpb mp bs f g)
    (hb : (∀ d, dpb = some d → p.burst = some d.burst) ∨ ∀ k ∈ metaCopies (some true) dpb, ValidAt v uid g k)
    (hleft : ∃ k ∈ metaCopies (some true) dpb, ValidAt v uid g k) :
    ∃ dk, updateFile E' p g = (dk, .ok ⟨(metaCopies (some true) dpb).countP fun k => decide (ValidAt v uid g k),
        (metaCopies (some true) dpb).countP fun k => decide (¬ ValidAt v uid g k)⟩) ∧
      dk.file.length = (updateFile E' p f).1.file.length ∧
      (∀ k, piece v dk.file k = piece v (updateFile E' p f).1.file k ∨
        k ∈ metaCopies (some true) dpb ∧ ¬ ValidAt v uid g k ∧ piece v dk.file k = piece v g k) ∧
      ((∀ k ∈ metaCopies (some true) dpb, ValidAt v uid g k) → dk.file = (updateFile E' p f).1.file) := by
  obtain ⟨dk, r1, r2, r3, r4⟩ := hm.run E' hE' h hbs hb hleft
  have hall : ∀ k ∈ metaCopies (some true) dpb, ValidAt v uid f k := by
    intro k hk
    refine ⟨0, mp, ?_⟩
    rw [show piece v f k = _ from h.container.metas k hk]; exact ⟨rfl, h.block⟩
  have h0 : (0 : Nat) ∈ metaCopies (some true) dpb := by
    cases dpb with
    | none => simp [metaCopies]
    | some d => exact List.mem_map.2 ⟨0, List.mem_range.2 (by omega), by simp⟩
  obtain ⟨dk0, s1, s2, s3, s4⟩ := Mixed.run E' hE' h hbs (Mixed.refl h) (.inr hall) ⟨0, h0, hall 0 h0⟩
  have hlen : dk.file.length = (updateFile E' p f).1.file.length := by rw [r2, s1, s2, hm.length]
  have hpieces : ∀ k, piece v dk.file k = piece v (updateFile E' p f).1.file k ∨
        k ∈ metaCopies (some true) dpb ∧ ¬ ValidAt v uid g k ∧ piece v dk.file k = piece v g k := by
    intro k
    rw [s1]
    by_cases hk : k ∈ metaCopies (some true) dpb
    · by_cases hv : ValidAt v uid g k
      · left
        rw [r3 k hk hv, s3 k hk (hall k hk)]
      · exact .inr ⟨hk, hv, r4 k fun _ => hv⟩
    · left
      rw [r4 k fun hk' => absurd hk' hk, s4 k fun hk' => absurd hk' hk, hm.others k hk]
  refine ⟨dk, r1, hlen, hpieces, fun hv => file_ext (v := v) hlen fun k => ?_⟩
  rcases hpieces k with e | ⟨hk, hn, -⟩
  · exact e
  · exact absurd (hv k hk) hn

open Classical in
/-- **C52.** A container is being updated, and the update is interrupted, or the machine crashes during it or afterwards (before the
writes have reached the disk).  As long as one copy of the metadata is readable, the same `update` run again succeeds and brings every
readable copy to the state it would have after one undisturbed `update`; everything else is as it would be then.  If no copy is torn
the file is the same as after one undisturbed `update`.  (If copies are torn the burst level has to be given.) -/
theorem C52_crash (E E' : Env) (hE : E.Sticky) (hl : 0 < E.lotCount) (hH : E'.hash = E.hash) (hE' : E'.Calm) (rs : RsCodec) (v : Version)
    (uid : Uid) (dpb : Option Dpb) (bytes mp : List Byte) (f : File) (p : Param) (h : Task rs v uid dpb bytes mp f p) (g : File)
    (hg : Crashed v (updateFile E p f).1.ops f g)
    (hb : (∀ d, dpb = some d → p.burst = some d.burst) ∨ ∀ k ∈ metaCopies (some true) dpb, ValidAt v uid g k)
    (hleft : ∃ k ∈ metaCopies (some true) dpb, ValidAt v uid g k) :
    ∃ dk, updateFile E' p g = (dk, .ok ⟨(metaCopies (some true) dpb).countP fun k => decide (ValidAt v uid g k),
        (metaCopies (some true) dpb).countP fun k => decide (¬ ValidAt v uid g k)⟩) ∧
      dk.file.length = (updateFile E' p f).1.file.length ∧
      (∀ k, piece v dk.file k = piece v (updateFile E' p f).1.file k ∨
        k ∈ metaCopies (some true) dpb ∧ ¬ ValidAt v uid g k ∧ piece v dk.file k = piece v g k) ∧
      ((∀ k ∈ metaCopies (some true) dpb, ValidAt v uid g k) → dk.file = (updateFile E' p f).1.file) := by
  obtain ⟨bs, hbs, -⟩ := h.new E.hash
  have hm := h.mixed E hE hl hbs hg
  rw [← hH] at hbs
  exact hm.same E' hE' h hbs hb hleft

/-- Metadata blocks may be replaced by new ones. -/
theorem Mixed.writes {rs : RsCodec} {v : Version} {uid : Uid} {dpb : Option Dpb} {bytes mp bs : List Byte} {f : File} {p : Param} {H : HashFn}
    (h : Task rs v uid dpb bytes mp f p) (hbs : NewPayload v H p bytes mp bs) :
    ∀ (ops : List (Nat × List Byte)) (g : File), (∀ w ∈ ops, ∃ k ∈ metaCopies (some true) dpb, w = (k * blockLen v, blockBytes v uid.bytes 0 bs)) →
      Mixed v uid dpb mp bs f g → (∀ k ∈ metaCopies (some true) dpb, ValidAt v uid g k) →
      Mixed v uid dpb mp bs f (g.writes ops) ∧ ∀ k ∈ metaCopies (some true) dpb, ValidAt v uid (g.writes ops) k := by
  intro ops
  induction ops with
  | nil => intro g _ hm hv; exact ⟨hm, hv⟩
  | cons w ops ih =>
    intro g hops hm hv
    obtain ⟨j, hj, rfl⟩ := hops w (by simp)
    have hb : IsBlock (blockBytes v uid.bytes 0 bs) v uid 0 bs := ⟨rfl, (hbs.read h).1⟩
    obtain ⟨o1, o2, o3⟩ := over (v := v) (g := g) (j := j) (b := blockBytes v uid.bytes 0 bs)
      (piece_full (by rw [hm.length]; exact h.inside hj)) (isBlock_length hb)
    have hother : ∀ k, k ≠ j → piece v (g.writeAt (j * blockLen v) (blockBytes v uid.bytes 0 bs)) k = piece v g k :=
      fun k hk => piece_eq_of hk o3
    refine ih (g.writeAt (j * blockLen v) (blockBytes v uid.bytes 0 bs)) (fun w hw => hops w (by simp [hw])) ⟨by rw [o1, hm.length], ?_, ?_⟩ ?_
    · intro k hk
      rw [hother k (by rintro rfl; exact hk hj)]
      exact hm.others k hk
    · intro k hk
      by_cases e : k = j
      · subst e; exact .inr (.inl o2)
      · rw [hother k e]; exact hm.metas k hk
    · intro k hk
      by_cases e : k = j
      · subst e
        exact ⟨0, bs, by rw [o2]; exact hb⟩
      · unfold ValidAt
        rw [hother k e]
        exact hv k hk

/-- **C52.** In particular an `update` interrupted by the user and run again has the result of one undisturbed `update`. -/
theorem C52_interrupted (E E' : Env) (hE : E.Sticky) (hl : 0 < E.lotCount) (hH : E'.hash = E.hash) (hE' : E'.Calm) (rs : RsCodec) (v : Version)
    (uid : Uid) (dpb : Option Dpb) (bytes mp : List Byte) (f : File) (p : Param) (h : Task rs v uid dpb bytes mp f p) :
    (updateFile E' p (updateFile E p f).1.file).1.file = (updateFile E' p f).1.file ∧
    (updateFile E' p (updateFile E p f).1.file).2 = .ok ⟨(metaCopies (some true) dpb).length, 0⟩ := by
  obtain ⟨bs, hbs, -⟩ := h.new E.hash
  have hall : ∀ k ∈ metaCopies (some true) dpb, ValidAt v uid f k := by
    intro k hk
    refine ⟨0, mp, ?_⟩
    rw [show piece v f k = _ from h.container.metas k hk]; exact ⟨rfl, h.block⟩
  have h0 : (0 : Nat) ∈ metaCopies (some true) dpb := by
    cases dpb with
    | none => simp [metaCopies]
    | some d => exact List.mem_map.2 ⟨0, List.mem_range.2 (by omega), by simp⟩
  have hinit : (updateFile E p f).1.file = f.writes (updateFile E p f).1.ops := by
    rcases updateFile_cases E p f with ⟨e', h'⟩ | ⟨v', uid', mp', dpb', fields, -, -, -, h'⟩
    · rw [h']; rfl
    · rw [h', updateBlocks_spec]
      split <;> simp [Disk.writes, Disk.file]
  obtain ⟨hm, hv⟩ := Mixed.writes h hbs _ f (h.ops E hE hl hbs) (Mixed.refl h) hall
  rw [← hinit] at hm hv
  rw [← hH] at hbs
  obtain ⟨dk, r1, -, -, r4⟩ := hm.same E' hE' h hbs (.inr hv) ⟨0, h0, hv 0 h0⟩
  rw [r1]
  refine ⟨r4 hv, ?_⟩
  simp only [Except.ok.injEq, Stats.mk.injEq]
  constructor
  · rw [List.countP_eq_length]
    intro k hk; simpa using hv k hk
  · rw [List.countP_eq_zero]
    intro k hk; simpa using hv k hk

/-- **C52.** If every copy of the metadata has been torn, nothing can be done any more: `update` reports an error. -/
theorem C52_all_torn (E E' : Env) (hE : E.Sticky) (hl : 0 < E.lotCount) (hE' : E'.Calm) (rs : RsCodec) (v : Version)
    (uid : Uid) (dpb : Option Dpb) (bytes mp : List Byte) (f : File) (p : Param) (h : Task rs v uid dpb bytes mp f p) (g : File)
    (hg : Crashed v (updateFile E p f).1.ops f g) (hnone : ∀ k ∈ metaCopies (some true) dpb, ¬ ValidAt v uid g k) (p' : Param) :
    ∃ e, updateFile E' p' g = (⟨g, []⟩, .error e) := by
  obtain ⟨bs, hbs, -⟩ := h.new E.hash
  have hm := h.mixed E hE hl hbs hg
  have hf := (found_any (by rw [hm.length]; exact h.container.aligned) hE'.stopRef (hm.places h hbs)).2 (by
    intro k q _ hq
    exact hnone k (hm.either h hbs hq).1 ⟨0, q, hq⟩)
  rcases updateFile_cases E' p' g with h' | ⟨v', uid', mp', dpb', fields, hs, -⟩
  · exact h'
  · obtain ⟨pos, hp⟩ := hs.found
    rw [hf] at hp
    simp at hp

/-- **C52.** Torn copies are put back by a `repair` afterwards: then the file is the same as after one undisturbed `update`. -/
theorem C52_repaired (E E' : Env) (hE : E.Sticky) (hl : 0 < E.lotCount) (hH : E'.hash = E.hash) (hE' : E'.Calm) (R : Repair.Env)
    (laws : R.rs.Laws) (hR : R.Calm) (v : Version)
    (uid : Uid) (d : Dpb) (hB : 1 ≤ d.burst) (bytes mp : List Byte) (f : File) (p : Param) (h : Task R.rs v uid (some d) bytes mp f p)
    (hfsz : firstFsz (metasFromBytes mp) = some bytes.length) (hb : p.burst = some d.burst) (g : File)
    (hg : Crashed v (updateFile E p f).1.ops f g) (hleft : ∃ k ∈ metaCopies (some true) (some d), ValidAt v uid g k) :
    ∃ dk' st', repairFile R (some d.burst) false (updateFile E' p g).1.file = .ok (some (dk', st')) ∧ st'.repairFailed = 0 ∧
      dk'.file = (updateFile E' p f).1.file := by
  have hb' : ∀ x, some d = some x → p.burst = some x.burst := by intro x hx; cases hx; exact hb
  obtain ⟨dk, r1, r2, r3, -⟩ := C52_crash E E' hE hl hH hE' R.rs v uid (some d) bytes mp f p h g hg (.inl hb') hleft
  obtain ⟨bs, hbs, -⟩ := h.new E.hash
  have hm := h.mixed E hE hl hbs hg
  rw [← hH] at hbs
  obtain ⟨hbl, hbf⟩ := hbs.read h
  obtain ⟨dk0, bs', s1, s2, -, s4⟩ := container_written E' hE' p h.hashOk h.real R.rs v uid (some d) bytes _ f h.lengths h.shards h.consistent
    h.container _ ⟨mp, ⟨rfl, h.block⟩, rfl⟩ h.recorded h.numbers h.burst h.sized h.room
  have hbs' : bs' = bs := by
    have h1 : metasToBytes (changed (p.filled E'.hash bytes) p.remove (metasFromBytes mp)) (blockLen v - 16) = some bs' := s4
    rw [show metasToBytes _ _ = some bs from hbs] at h1
    exact (Option.some.inj h1).symm
  subst hbs'
  have hff := filled_fields h.keeps E'.hash bytes (metasFromBytes mp)
  have hcons := h.consistent
  unfold verConsistent at hcons
  have hsound : Sound R.rs v uid d bytes bs' dk0.file := by
    refine ⟨s2, h.numbers, ?_, ?_, by simpa using hcons, ?_, ?_⟩
    · rw [hbf]; exact hbs
    · rw [hbf, hff.1]; exact hfsz
    · rw [hbf, hff.2.1, h.recorded.1]; rfl
    · rw [hbf, hff.2.2, h.recorded.2]; rfl
  rw [s1] at r2 r3
  simp only at r2 r3
  rw [r1, s1]
  simp only
  classical
  set torn := (metaCopies (some true) (some d)).filter fun k => decide (¬ ValidAt v uid g k) with htorn
  have hcount : (torn.map fun k => (k, 1)).length ≤ d.parity := by
    obtain ⟨k, hk, hv⟩ := hleft
    have h1 : torn.length < (metaCopies (some true) (some d)).length :=
      List.length_filter_lt_length_iff_exists.2 ⟨k, hk, by simpa using hv⟩
    have h2 : (metaCopies (some true) (some d)).length = 1 + d.parity := by unfold metaCopies; simp
    rw [List.length_map]
    omega
  obtain ⟨dk', st', q1, q2, -, -, q5⟩ := C25_bursts R laws hR v uid d bytes bs' dk0.file dk.file hsound hB (torn.map fun k => (k, 1)) r2 (by
    intro b hb
    obtain ⟨k, -, rfl⟩ := List.mem_map.1 hb
    exact hB) (few hcount) (by
    intro k
    rcases r3 k with e | ⟨hk, hn, e⟩
    · exact .inl e
    · right
      refine ⟨?_, ?_⟩
      · unfold hit
        rw [List.any_eq_true]
        exact ⟨(k, 1), List.mem_map.2 ⟨k, List.mem_filter.2 ⟨hk, by simpa using hn⟩, rfl⟩, by simp⟩
      · rw [e]
        rcases hm.metas k hk with e | e | e
        · exact absurd ⟨0, mp, e, h.block⟩ hn
        · exact absurd ⟨0, bs', e, hbl⟩ hn
        · exact e)
  refine ⟨dk', st', q1, q2, q5 ?_⟩
  intro k hk hs
  have e : piece v dk.file k = piece v dk0.file k := (r3 k).resolve_right fun hx => hk hx.1
  rw [e]
  rcases place_or_end s2.aligned k with hin | hout
  · refine ⟨blockLen v, s2.gaps k ?_ hk fun i hi => hs (i + 1) (by omega) (by omega)⟩
    have := blockLen_pos v
    rw [Nat.succ_mul] at hin; omega
  · exact ⟨0, piece_beyond hout⟩


/-! ### Instances and a counterexample -/

/-- A file with the blocks at the places `ks` replaced. -/
def puts (v : Version) (c : File) (ks : List Nat) (b : List Byte) : File := ks.foldl (fun g k => put v g k b) c

theorem puts_spec {v : Version} {b : List Byte} (hb : b.length = blockLen v) : ∀ (ks : List Nat) (c : File), blockLen v ∣ c.length →
    (∀ k ∈ ks, (k + 1) * blockLen v ≤ c.length) →
    (puts v c ks b).length = c.length ∧ (∀ k ∈ ks, piece v (puts v c ks b) k = b) ∧ ∀ k, k ∉ ks → piece v (puts v c ks b) k = piece v c k := by
  intro ks
  induction ks with
  | nil => intro c _ _; simp [puts]
  | cons j ks ih =>
    intro c hal hks
    obtain ⟨p1, p2, p3⟩ := put_spec hb hal (hks j (by simp))
    obtain ⟨q1, q2, q3⟩ := ih (put v c j b) (by rw [p1]; exact hal) (fun k hk => by rw [p1]; exact hks k (by simp [hk]))
    refine ⟨by rw [← p1]; exact q1, ?_, ?_⟩
    · intro k hk
      by_cases hk' : k ∈ ks
      · exact q2 k hk'
      · have e : k = j := by simpa [hk'] using hk
        subst e
        exact (q3 k hk').trans p2
    · intro k hk
      rw [List.mem_cons, not_or] at hk
      exact (q3 k hk.2).trans (p3 k hk.1)

/-- The metadata blocks of a container may be exchanged. -/
theorem image_meta_put {rs : RsCodec} {v : Version} {uid : Uid} {d : Dpb} {bytes mp mp' : List Byte} {c : File}
    (hd : 1 ≤ d.data)
    (hc : IsContainer rs v uid.bytes true (some d) bytes (blockBytes v uid.bytes 0 mp) c) (hmp : mp.length = blockLen v - 16)
    (hmp' : mp'.length = blockLen v - 16) :
    IsContainer rs v uid.bytes true (some d) bytes (blockBytes v uid.bytes 0 mp')
      (puts v c (metaCopies (some true) (some d)) (blockBytes v uid.bytes 0 mp')) := by
  obtain ⟨p1, p2, p3⟩ := puts_spec (v := v) (b := blockBytes v uid.bytes 0 mp') (isBlock_length (⟨rfl, hmp'⟩ : IsBlock _ v uid 0 mp'))
    (metaCopies (some true) (some d)) c hc.aligned fun k hk => (image_meta hc hmp hk).2
  have hdm : ∀ i, dataWriteIndex (i + 1) (some true) (some d) ∉ metaCopies (some true) (some d) := by
    intro i
    exact C10_data_not_meta (some true) (some d) (fun x hx => by cases hx; exact hd) (i + 1) (by omega)
  refine ⟨by rw [p1]; exact hc.aligned, ?_, p2, ?_, ?_⟩
  · intro i p hp
    exact (p3 _ (hdm i)).trans (hc.data i p hp)
  · intro k hk hm hs
    rw [p1] at hk
    exact (p3 k hm).trans (hc.gaps k hk hm hs)
  · intro k hk
    rw [p1] at hk
    exact hc.tight k hk

/-- Metadata payload with the fields `ms`. -/
def payloadOf (ms : List Metadata) : List Byte := (metasToBytes ms 496).getD []

/-- `update --fnm b`. -/
def nameParam (burst : Option Nat) : Param := ⟨false, [.fnm "b"], [], none, burst⟩

theorem name_keeps (burst : Option Nat) : (nameParam burst).Keeps := by
  refine ⟨?_, by simp [nameParam], by simp [nameParam], by simp [nameParam]⟩
  intro m hm
  simp only [nameParam, List.mem_singleton] at hm
  subst hm
  simp [Metadata.id]

theorem name_plain (burst : Option Nat) : (nameParam burst).Plain := by
  intro m hm
  simp only [nameParam, List.mem_singleton] at hm
  subst hm
  exact ⟨⟨by decide +kernel, by decide +kernel⟩, by simp [Metadata.id], by simp [Metadata.id]⟩

/-- The places written to. -/
theorem written_at {v : Version} {b : List Byte} {k : Nat} (hb : b.length = blockLen v) : ∀ (ops : List (Nat × List Byte)) (f : File),
    (∀ w ∈ ops, ∃ j, w = (j * blockLen v, b) ∧ (j + 1) * blockLen v ≤ f.length) → blockLen v ∣ f.length →
    piece v (f.writes ops) k = piece v f k ∨ (k * blockLen v, b) ∈ ops := by
  intro ops
  induction ops with
  | nil => intro f _ _; exact .inl rfl
  | cons w ops ih =>
    intro f hops hal
    obtain ⟨j, rfl, hj⟩ := hops w (by simp)
    obtain ⟨p1, p2, p3⟩ := put_spec hb hal hj
    by_cases hk : k = j
    · subst hk; exact .inr (by simp)
    · rcases ih (put v f j b) (fun w hw => by rw [p1]; exact hops w (by simp [hw])) (by rw [p1]; exact hal) with e | e
      · exact .inl (e.trans (p3 k hk))
      · exact .inr (List.mem_cons_of_mem _ e)

/-- A crash while a metadata block is being written, nothing else having reached the disk. -/
theorem crash_at {rs : RsCodec} {v : Version} {uid : Uid} {dpb : Option Dpb} {bytes mp bs : List Byte} {f : File} {p : Param} {E : Env}
    (hE : E.Calm) (h : Task rs v uid dpb bytes mp f p) (hbs : NewPayload v E.hash p bytes mp bs)
    (hne : mp ≠ bs) {k : Nat} (hk : k ∈ metaCopies (some true) dpb) {n : Nat} (hn : 4 ≤ n)
    (hbad : ∀ uid' seq q, ¬ IsBlock ((blockBytes v uid.bytes 0 bs).take n ++ (blockBytes v uid.bytes 0 mp).drop n) v uid' seq q) :
    ∃ g, Crashed v (updateFile E p f).1.ops f g ∧ (∀ j, j ≠ k → piece v g j = piece v f j) ∧ ¬ ValidAt v uid g k := by
  have hl := (hbs.read h).1
  have hb : IsBlock (blockBytes v uid.bytes 0 bs) v uid 0 bs := ⟨rfl, hl⟩
  have hm : IsBlock (blockBytes v uid.bytes 0 mp) v uid 0 mp := ⟨rfl, h.block⟩
  have hpk : piece v f k = blockBytes v uid.bytes 0 mp := h.container.metas k hk
  obtain ⟨p1, p2, p3⟩ := put_spec (v := v) (c := f) (k := k)
    (b := (blockBytes v uid.bytes 0 bs).take n ++ (blockBytes v uid.bytes 0 mp).drop n) (by
      rw [List.length_append, List.length_take, List.length_drop, isBlock_length hb, isBlock_length hm]
      omega) h.container.aligned (h.inside hk)
  have hin : (updateFile E p f).1.file = f.writes (updateFile E p f).1.ops := by
    rcases updateFile_cases E p f with ⟨e', h'⟩ | ⟨v', uid', mp', dpb', fields, -, -, -, h'⟩
    · rw [h']; rfl
    · rw [h', updateBlocks_spec]
      split <;> simp [Disk.writes, Disk.file]
  have hop : (k * blockLen v, blockBytes v uid.bytes 0 bs) ∈ (updateFile E p f).1.ops := by
    rcases written_at (k := k) (isBlock_length hb) (updateFile E p f).1.ops f (fun w hw => by
      obtain ⟨j, hj, e⟩ := h.ops E hE.sticky hE.lots hbs w hw
      exact ⟨j, e, h.inside hj⟩) h.container.aligned with e | e
    · exfalso
      obtain ⟨dk0, s1, -, s3, -⟩ := Mixed.run E hE h hbs (Mixed.refl h) (.inr fun k hk => ⟨0, mp, by
        rw [show piece v f k = _ from h.container.metas k hk]; exact hm⟩) ⟨k, hk, 0, mp, by rw [hpk]; exact hm⟩
      rw [← hin, s1, hpk] at e
      simp only at e
      rw [s3 k hk ⟨0, mp, by rw [hpk]; exact hm⟩] at e
      have := congrArg (List.drop 16) e
      rw [blockBytes_drop, blockBytes_drop] at this
      exact hne this.symm
    · exact e
  refine ⟨_, ⟨p1, fun j => ?_⟩, p3, ?_⟩
  · by_cases hj : j = k
    · subst hj
      exact .inr ⟨_, n, hop, hn, by rw [p2, hpk], fun _ uid' seq q => by rw [p2]; exact hbad uid' seq q⟩
    · exact .inl (p3 j hj)
  · rintro ⟨seq, q, hq⟩
    rw [p2] at hq
    exact hbad _ _ _ hq


def fieldsA : List Metadata := [.fnm "a", .fsz 600]
def fieldsB : List Metadata := [.fnm "b", .fsz 600]

theorem plain_a : (payloadOf fieldsA).length = 496 ∧ metasFromBytes (payloadOf fieldsA) = fieldsA ∧ payloadOf fieldsA ≠ payloadOf fieldsB := by
  decide +kernel

theorem plain_task : Task RsWitness.codec .v1 Decode.demoUid none Decode.demoBytes (payloadOf fieldsA) (Demo.file (payloadOf fieldsA))
    (nameParam none) := by
  obtain ⟨h1, h2, -⟩ := plain_a
  refine ⟨Demo.rsLen_none _ _, by simp, rfl, h1, Demo.plain_container _ _ h1, ?_, by rw [Decode.demo_payloads]; decide,
    by intro d hd; simp at hd, name_plain _, name_keeps _, fun _ t _ ht => absurd (show none = some t from ht) (by simp), rfl,
    fun t ht => absurd (show none = some t from ht) (by simp), ?_⟩
  · rw [h2]; exact ⟨rfl, rfl⟩
  · rw [h2]; decide +kernel

theorem plain_new (H : HashFn) : NewPayload .v1 H (nameParam none) Decode.demoBytes (payloadOf fieldsA) (payloadOf fieldsB) := by
  unfold NewPayload
  show metasToBytes (changed [.fnm "b"] [] (metasFromBytes (payloadOf fieldsA))) 496 = some (payloadOf fieldsB)
  decide +kernel

/-- Somebody interrupts the program as soon as it starts to write. -/
noncomputable def hastyEnv : Env := ⟨calmEnv.hash, 2, fun _ => false, fun _ => false, fun _ => false, fun n => decide (1 ≤ n)⟩

set_option maxRecDepth 1000000 in
/-- The block in the middle of an update: the new name, but the old checksum, or the other way round. -/
theorem torn_plain {uid : Uid} {seq : UInt32} {q : List Byte} : ¬ IsBlock ((blockBytes .v1 Decode.demoUid.bytes 0 (payloadOf fieldsB)).take 6 ++
    (blockBytes .v1 Decode.demoUid.bytes 0 (payloadOf fieldsA)).drop 6) .v1 uid seq q := by
  intro h
  have := (IsBlock.checksum_field h).2
  revert this
  decide +kernel

/-- **Without Reed-Solomon there is one copy of the metadata only, and `update` overwrites it in place**: if the machine crashes
after six bytes of the new block have been written, the metadata are gone; no `update` works any more. -/
theorem C52_torn_violated : ∃ mp f p g, Task RsWitness.codec .v1 Decode.demoUid none Decode.demoBytes mp f p ∧
    Crashed .v1 (updateFile calmEnv p f).1.ops f g ∧ ∀ p', ∃ e, updateFile calmEnv p' g = (⟨g, []⟩, .error e) := by
  obtain ⟨g, h1, -, h3⟩ := crash_at calm plain_task (plain_new _) plain_a.2.2 (k := 0) (by simp [metaCopies]) (n := 6) (by decide)
    fun _ _ _ => torn_plain
  refine ⟨_, _, _, g, plain_task, h1, fun p' => ?_⟩
  refine C52_all_torn calmEnv calmEnv calm.sticky calm.lots calm _ _ _ _ _ _ _ _ plain_task g h1 ?_ p'
  intro k hk
  have : k = 0 := by simpa [metaCopies] using hk
  subst this; exact h3

/-- C52_all_torn. -/
example : ∃ g e, updateFile calmEnv (nameParam none) g = (⟨g, []⟩, .error e) := by
  obtain ⟨_, _, _, g, -, -, h⟩ := C52_torn_violated
  exact ⟨g, h _⟩

def fieldsC : List Metadata := [.rsd 10, .rsp 2, .fsz 1000, .fnm "a"]
def fieldsD : List Metadata := [.rsd 10, .rsp 2, .fsz 1000, .fnm "b"]

theorem rs_c : (payloadOf fieldsC).length = 496 ∧ metasFromBytes (payloadOf fieldsC) = fieldsC ∧ payloadOf fieldsC ≠ payloadOf fieldsD := by
  decide +kernel

/-- 1000 bytes with Reed-Solomon blocks and burst level 3. -/
theorem rs_task : ∃ f, Task RsWitness.codec .v17 demoOwner (some demoDpb) (List.replicate 1000 7) (payloadOf fieldsC) f (nameParam (some 3)) := by
  obtain ⟨mp, c, h⟩ := demo_sound
  obtain ⟨h1, h2, -⟩ := rs_c
  obtain ⟨-, -, -, -, -, -, -, -, -, -, hlen⟩ := Demo.rs_container
  refine ⟨puts .v17 c (metaCopies (some true) (some demoDpb)) (blockBytes .v17 demoOwner.bytes 0 (payloadOf fieldsC)), hlen,
    by intro d hd; cases hd; decide, rfl, h1, image_meta_put (by decide) h.container (metasToBytes_length h.plain) h1, ?_, h.numbers, ?_,
    name_plain _, name_keeps _, fun _ t _ ht => absurd (show none = some t from ht) (by simp), rfl,
    fun t ht => absurd (show none = some t from ht) (by simp), ?_⟩
  · rw [h2]; exact ⟨rfl, rfl⟩
  · intro d hd; cases hd; exact .inl rfl
  · rw [h2]; decide +kernel

theorem rs_new (H : HashFn) (bytes : List Byte) : NewPayload .v17 H (nameParam (some 3)) bytes (payloadOf fieldsC) (payloadOf fieldsD) := by
  unfold NewPayload
  show metasToBytes (changed [.fnm "b"] [] (metasFromBytes (payloadOf fieldsC))) 496 = some (payloadOf fieldsD)
  decide +kernel

set_option maxRecDepth 1000000 in
theorem torn_rs {uid : Uid} {seq : UInt32} {q : List Byte} : ¬ IsBlock ((blockBytes .v17 demoOwner.bytes 0 (payloadOf fieldsD)).take 6 ++
    (blockBytes .v17 demoOwner.bytes 0 (payloadOf fieldsC)).drop 6) .v17 uid seq q := by
  intro h
  have := (IsBlock.checksum_field h).2
  revert this
  decide +kernel

theorem rs_crash : ∃ f g, Task RsWitness.codec .v17 demoOwner (some demoDpb) (List.replicate 1000 7) (payloadOf fieldsC) f (nameParam (some 3)) ∧
    Crashed .v17 (updateFile calmEnv (nameParam (some 3)) f).1.ops f g ∧ ¬ ValidAt .v17 demoOwner g 4 ∧
    ∃ k ∈ metaCopies (some true) (some demoDpb), ValidAt .v17 demoOwner g k := by
  obtain ⟨f, h⟩ := rs_task
  obtain ⟨g, h1, h2, h3⟩ := crash_at calm h (rs_new _ _) rs_c.2.2 (k := 4) (by decide) (n := 6) (by decide) fun _ _ _ => torn_rs
  refine ⟨f, g, h, h1, h3, 0, by decide, 0, payloadOf fieldsC, ?_⟩
  rw [h2 0 (by decide), show piece .v17 f 0 = _ from h.container.metas 0 (by decide)]
  exact ⟨rfl, h.block⟩

open Classical in
/-- C52_crash: the second of three copies is torn; `update` run again changes the others. -/
example : ∃ f g dk, Crashed .v17 (updateFile calmEnv (nameParam (some 3)) f).1.ops f g ∧ ¬ ValidAt .v17 demoOwner g 4 ∧
    updateFile calmEnv (nameParam (some 3)) g = (dk, .ok ⟨(metaCopies (some true) (some demoDpb)).countP fun k => decide (ValidAt .v17 demoOwner g k),
      (metaCopies (some true) (some demoDpb)).countP fun k => decide (¬ ValidAt .v17 demoOwner g k)⟩) ∧
    dk.file.length = (updateFile calmEnv (nameParam (some 3)) f).1.file.length := by
  obtain ⟨f, g, h, h1, h2, h3⟩ := rs_crash
  obtain ⟨dk, r1, r2, -⟩ := C52_crash calmEnv calmEnv calm.sticky calm.lots rfl calm _ _ _ _ _ _ f _ h g h1
    (.inl (by intro d hd; cases hd; rfl)) h3
  exact ⟨f, g, dk, h1, h2, r1, r2⟩

/-- C52_repaired: a repair afterwards puts back the torn copy. -/
example : ∃ f g dk st, Crashed .v17 (updateFile calmEnv (nameParam (some 3)) f).1.ops f g ∧ ¬ ValidAt .v17 demoOwner g 4 ∧
    repairFile demoEnv (some 3) false (updateFile calmEnv (nameParam (some 3)) g).1.file = .ok (some (dk, st)) ∧
    dk.file = (updateFile calmEnv (nameParam (some 3)) f).1.file := by
  obtain ⟨f, g, h, h1, h2, h3⟩ := rs_crash
  obtain ⟨dk, st, r1, -, r2⟩ := C52_repaired calmEnv calmEnv calm.sticky calm.lots rfl calm demoEnv demo_laws demo_calm .v17 demoOwner demoDpb
    (by decide) _ _ f _ h (by rw [rs_c.2.1, List.length_replicate]; rfl) rfl g h1 h3
  exact ⟨f, g, dk, st, h1, h2, r1, r2⟩

/-- C52_interrupted: after the first copy somebody presses Ctrl-C. -/
example : ∃ f, (updateFile calmEnv (nameParam (some 3)) (updateFile hastyEnv (nameParam (some 3)) f).1.file).1.file =
    (updateFile calmEnv (nameParam (some 3)) f).1.file := by
  obtain ⟨f, h⟩ := rs_task
  exact ⟨f, (C52_interrupted hastyEnv calmEnv ⟨fun _ h => by simp [hastyEnv] at h, fun _ h => by simp [hastyEnv] at h⟩ (by decide) rfl calm
    _ _ _ _ _ _ f _ h).1⟩

end Verif.Update
