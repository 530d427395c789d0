import Verif.Spec.Copies
import Verif.Props.Recover
/-!
# Several damaged copies of a container, one behind the other (C69)
-/

namespace Verif.Copies
open Format ScanSpec Scan Misc DecodeSpec ContainerSpec LayoutSpec Layout RecoverSpec Repair RepairSpec CopiesSpec Recover FileUtils
open Decode (chunkOf_iff seqOf seqOf_pos)
open Encode (ceilDiv_le_iff)

/-! ### What is where -/

/-- The places of files of whole blocks, one behind the other. -/
theorem piece_flatten {v : Version} {files : List File} (h : ∀ g ∈ files, blockLen v ∣ g.length) :
    blockLen v ∣ files.flatten.length ∧
    (∀ k, k * blockLen v < files.flatten.length → ∃ g ∈ files, ∃ j, j * blockLen v < g.length ∧ piece v files.flatten k = piece v g j) ∧
    (∀ g ∈ files, ∀ j, j * blockLen v < g.length → ∃ k, k * blockLen v < files.flatten.length ∧ piece v files.flatten k = piece v g j) := by
  have hu := blockLen_pos v
  induction files with
  | nil => simp
  | cons a files ih =>
    obtain ⟨i1, i2, i3⟩ := ih fun g hg => h g (List.mem_cons_of_mem _ hg)
    obtain ⟨n, hn⟩ := h a List.mem_cons_self
    rw [Nat.mul_comm] at hn
    have left : ∀ j, j * blockLen v < a.length → piece v (a :: files).flatten j = piece v a j := by
      intro j hj
      have : (j + 1) * blockLen v ≤ a.length := by
        rw [hn] at hj ⊢
        exact Nat.mul_le_mul_right _ (Nat.lt_of_mul_lt_mul_right hj)
      rw [Nat.succ_mul] at this
      unfold piece File.readAt
      rw [List.flatten_cons, List.drop_append_of_le_length (by omega), List.take_append_of_le_length (by rw [List.length_drop]; omega)]
    have right : ∀ j, piece v (a :: files).flatten (n + j) = piece v files.flatten j := by
      intro j
      unfold piece File.readAt
      rw [List.flatten_cons, Nat.add_mul, ← hn, List.drop_append, List.drop_eq_nil_of_le (by omega), List.nil_append,
        Nat.add_sub_cancel_left]
    have hlen : (a :: files).flatten.length = a.length + files.flatten.length := by rw [List.flatten_cons, List.length_append]
    refine ⟨by rw [hlen]; exact Nat.dvd_add (h a List.mem_cons_self) i1, fun k hk => ?_, fun g hg j hj => ?_⟩
    · by_cases hka : k * blockLen v < a.length
      · exact ⟨a, List.mem_cons_self, k, hka, left k hka⟩
      · have hkn : n ≤ k := by
          rw [hn] at hka
          exact Nat.le_of_mul_le_mul_right (Nat.le_of_not_lt hka) hu
        obtain ⟨j, rfl⟩ := Nat.exists_eq_add_of_le hkn
        rw [Nat.add_mul, hlen, hn] at hk
        obtain ⟨g, g1, j', g2, g3⟩ := i2 j (by omega)
        exact ⟨g, List.mem_cons_of_mem _ g1, j', g2, by rw [right, g3]⟩
    · rcases List.mem_cons.1 hg with rfl | hg
      · exact ⟨j, by omega, left j hj⟩
      · obtain ⟨k, k1, k2⟩ := i3 g hg j hj
        exact ⟨n + k, by rw [Nat.add_mul, hlen, hn]; omega, by rw [right, k2]⟩

/-- What is at a place of a container. -/
theorem place_cases {v : Version} {uid : Uid} {dpb : Option Dpb} {ps : List (List Byte)} {mb mp : List Byte} {c : File}
    (hc : Image v uid.bytes (some true) dpb ps mb c) (hmb : IsBlock mb v uid 0 mp) (hps : ∀ p ∈ ps, p.length = v.dataSize) {k : Nat}
    (hk : k * blockLen v < c.length) :
    (k ∈ metaCopies (some true) dpb ∧ IsBlock (piece v c k) v uid 0 mp) ∨
    (∃ i p, ps[i]? = some p ∧ dataWriteIndex (i + 1) (some true) dpb = k ∧ IsBlock (piece v c k) v uid (UInt32.ofNat (i + 1)) p) ∨
    piece v c k = List.replicate (blockLen v) 0 := by
  by_cases h1 : k ∈ metaCopies (some true) dpb
  · refine .inl ⟨h1, ?_⟩
    have : piece v c k = mb := hc.metas k h1
    rw [this]; exact hmb
  · by_cases h2 : ∃ i < ps.length, dataWriteIndex (i + 1) (some true) dpb = k
    · obtain ⟨i, hi, rfl⟩ := h2
      have hg := List.getElem?_eq_getElem hi
      exact .inr (.inl ⟨i, _, hg, rfl, hc.data i _ hg, by rw [hps _ (List.getElem_mem hi), dataSize_eq]⟩)
    · exact .inr (.inr (hc.gaps k hk h1 fun i hi e => h2 ⟨i, hi, e⟩))

theorem broken_not_block {v : Version} {bs : List Byte} (h : Broken v bs) {uid : Uid} {seq : UInt32} {p : List Byte} :
    ¬ IsBlock bs v uid seq p := by
  rcases h with h | h
  · exact Dead.not_block h
  · exact h.2 _ _ _

/-- The container of `bytes`, with or without error correction, and its metadata. -/
structure Source (rs : RsCodec) (v : Version) (uid : Uid) (dpb : Option Dpb) (bytes mp : List Byte) (c : File) : Prop where
  container : IsContainer rs v uid.bytes true dpb bytes (blockBytes v uid.bytes 0 mp) c
  shards : RsLen rs v dpb
  valid : Valid dpb
  version : verConsistent v dpb = true
  numbers : (payloads rs v dpb (fileChunks v bytes)).length ≤ lastSeqNum
  plain : metasToBytes (metasFromBytes mp) (blockLen v - 16) = some mp
  sized : firstFsz (metasFromBytes mp) = some bytes.length
  data : firstRsd (metasFromBytes mp) = dpb.map (·.data)
  parity : firstRsp (metasFromBytes mp) = dpb.map (·.parity)

section
variable {rs : RsCodec} {v : Version} {uid : Uid} {dpb : Option Dpb} {bytes mp : List Byte} {c : File}

theorem Source.lengths (h : Source rs v uid dpb bytes mp c) :
    (payloads rs v dpb (fileChunks v bytes)).length = blockCount dpb (fileChunks v bytes).length ∧
    ∀ p ∈ payloads rs v dpb (fileChunks v bytes), p.length = v.dataSize :=
  payloads_spec h.shards h.valid (by
    intro x hx
    unfold fileChunks at hx
    rw [← dataSize_eq] at hx
    exact (mem_chunksOf _ x hx).2.1)

theorem Source.meta_block (h : Source rs v uid dpb bytes mp c) : IsBlock (blockBytes v uid.bytes 0 mp) v uid 0 mp :=
  ⟨rfl, metasToBytes_length h.plain⟩

/-- The blocks of the copies, one behind the other, are those that survive. -/
theorem blocks_of_copies (h : Source rs v uid dpb bytes mp c) {copies : List File} (hl : ∀ g ∈ copies, LeftOf v c g) :
    (∀ s i p, s = UInt32.ofNat (i + 1) → (payloads rs v dpb (fileChunks v bytes))[i]? = some p →
      (HasBlock v uid copies.flatten s p ↔ BlockSurvives v dpb c copies (i + 1))) ∧
    (∀ s p, HasBlock v uid copies.flatten s p → s = 0 ∧ p = mp ∨
      ∃ i, s = UInt32.ofNat (i + 1) ∧ (payloads rs v dpb (fileChunks v bytes))[i]? = some p) ∧
    ((∃ k ∈ metaCopies (some true) dpb, Survives v c copies k) → HasBlock v uid copies.flatten 0 mp) := by
  obtain ⟨f1, f2, f3⟩ := piece_flatten fun g hg => (hl g hg).aligned
  have hcases := fun k hk => place_cases (k := k) h.container h.meta_block h.lengths.2 hk
  have hsrc : ∀ s p, HasBlock v uid copies.flatten s p →
      ∃ k, Survives v c copies k ∧ k * blockLen v < c.length ∧ IsBlock (piece v c k) v uid s p := by
    rintro s p ⟨k, hk⟩
    have hk : IsBlock (piece v copies.flatten k) v uid s p := hk
    have hin : k * blockLen v < copies.flatten.length := by
      by_contra hge
      rw [piece_beyond (by omega)] at hk
      have := isBlock_length hk
      have := blockLen_pos v
      simp at *
      omega
    obtain ⟨g, g1, j, g2, g3⟩ := f2 k hin
    rw [g3] at hk
    rcases (hl g g1).places j g2 with e | e
    · exact ⟨j, ⟨g, g1, g2, e⟩, Nat.lt_of_lt_of_le g2 (hl g g1).short, by rwa [e] at hk⟩
    · exact absurd hk (broken_not_block e)
  have hdst : ∀ k s p, Survives v c copies k → IsBlock (piece v c k) v uid s p → HasBlock v uid copies.flatten s p := by
    rintro k s p ⟨g, g1, g2, g3⟩ hb
    obtain ⟨k', e1, e2⟩ := f3 g g1 k g2
    refine ⟨k', ?_⟩
    show IsBlock (piece v copies.flatten k') v uid s p
    rw [e2, g3]; exact hb
  have hlast : ∀ i p, (payloads rs v dpb (fileChunks v bytes))[i]? = some p → i + 1 < 2 ^ 32 := by
    intro i p hp
    have := (List.getElem?_eq_some_iff.1 hp).1
    have := h.numbers
    unfold lastSeqNum at this
    omega
  refine ⟨fun s i p hs hp => ⟨fun hb => ?_, fun hb => ?_⟩, fun s p hb => ?_, ?_⟩
  · obtain ⟨k, k1, k2, k3⟩ := hsrc _ _ hb
    rcases hcases k k2 with ⟨-, e⟩ | ⟨i', p', a1, a2, a3⟩ | e
    · have h0 := (isBlock_seq k3 e).1
      have := congrArg UInt32.toNat h0
      rw [hs, ofNat_toNat32 (hlast _ _ hp)] at this
      simp at this
    · have h0 := (isBlock_seq k3 a3).1
      have := congrArg UInt32.toNat h0
      rw [hs, ofNat_toNat32 (hlast _ _ hp), ofNat_toNat32 (hlast _ _ a1)] at this
      unfold BlockSurvives
      rw [this, a2]
      exact k1
    · rw [e] at k3; exact absurd k3 zeros_not_block
  · refine hdst _ _ _ hb ?_
    subst hs
    exact ⟨h.container.data i p hp, by rw [h.lengths.2 p (List.mem_of_getElem? hp), dataSize_eq]⟩
  · obtain ⟨k, k1, k2, k3⟩ := hsrc _ _ hb
    rcases hcases k k2 with ⟨-, e⟩ | ⟨i', p', a1, a2, a3⟩ | e
    · exact .inl (isBlock_seq k3 e)
    · obtain ⟨rfl, rfl⟩ := isBlock_seq k3 a3
      exact .inr ⟨i', rfl, a1⟩
    · rw [e] at k3; exact absurd k3 zeros_not_block
  · rintro ⟨k, k1, k2⟩
    refine hdst k _ _ k2 ?_
    have : piece v c k = blockBytes v uid.bytes 0 mp := h.container.metas k k1
    rw [this]; exact h.meta_block

/-- The copies as input of the commands: nothing but blocks of the container, and a metadata block is found. -/
theorem copies_input (h : Source rs v uid dpb bytes mp c) {copies : List File} (hl : ∀ g ∈ copies, LeftOf v c g)
    (hm : ∃ k ∈ metaCopies (some true) dpb, Survives v c copies k) :
    Decode.OnlyBlocksOf rs v uid dpb bytes copies.flatten ∧ (∃ p, HasBlock v uid copies.flatten 0 p) ∧
    (∀ p, HasBlock v uid copies.flatten 0 p → p = mp) ∧
    ∀ {q : RefParam}, SeeksMeta q → ∀ {stop : Nat → Bool}, (∀ i, stop i = false) → ∀ b,
      ∃ pos, getRefBlockM q q.refChoice copies.flatten stop b = .ok (pos, blockOf v uid 0 mp) := by
  obtain ⟨b1, b2, b3⟩ := blocks_of_copies h hl
  have hlast : ∀ i p, (payloads rs v dpb (fileChunks v bytes))[i]? = some p → i + 1 < 2 ^ 32 := by
    intro i p hp
    have := (List.getElem?_eq_some_iff.1 hp).1
    have := h.numbers
    unfold lastSeqNum at this
    omega
  have hmetas : ∀ p, HasBlock v uid copies.flatten 0 p → p = mp := by
    intro p hb
    rcases b2 _ _ hb with e | ⟨i, e, hp⟩
    · exact e.2
    · exfalso
      have := congrArg UInt32.toNat e
      rw [ofNat_toNat32 (hlast _ _ hp)] at this
      simp at this
  refine ⟨fun s p hs hb => ?_, ⟨mp, b3 hm⟩, hmetas, ?_⟩
  · rcases b2 _ _ hb with e | ⟨i, rfl, hp⟩
    · exact absurd e.1 hs
    · rw [ofNat_toNat32 (hlast _ _ hp)]; exact hp
  · intro q hq stop hstop b
    obtain ⟨f1, f2, f3⟩ := piece_flatten fun g hg => (hl g hg).aligned
    obtain ⟨pos, hpos, -⟩ := found_of_places (v := v) (uid := uid) (mp := mp) f1 hstop (by
      intro k hk
      obtain ⟨g, g1, j, g2, g3⟩ := f2 k hk
      rw [g3]
      rcases (hl g g1).places j g2 with e | e
      · rw [e]
        rcases place_cases (k := j) h.container h.meta_block h.lengths.2 (Nat.lt_of_lt_of_le g2 (hl g g1).short) with
          ⟨-, e⟩ | ⟨_, _, -, -, e⟩ | e
        · exact .inl ⟨_, _, e⟩
        · exact .inl ⟨_, _, e⟩
        · rw [e]; exact .inr (.inl (dead_zeros _))
      · exact .inr e) (fun k p _ hb => hmetas p ⟨k, hb⟩) (by
      obtain ⟨k, hk⟩ := b3 hm
      refine ⟨k, ?_, hk⟩
      by_contra hge
      have hk : IsBlock (piece v copies.flatten k) v uid 0 mp := hk
      rw [piece_beyond (by omega)] at hk
      have := isBlock_length hk
      have := blockLen_pos v
      simp at *
      omega)
    refine ⟨pos, ?_⟩
    rw [C34_choice _ none none false _ stop hstop _ rfl, Decode.range_all] at hpos
    unfold getRefBlockM
    rw [hq.refFrom, hq.refTo, hq.fromPos]
    simp only [Option.map_none, Option.or_none]
    rw [C34_choice _ none none q.forceMisalign q.refChoice stop hstop _ rfl, Decode.range_all]
    simp only at hpos ⊢
    unfold chosen at hpos ⊢
    simp only at hpos
    rcases hq.choice with e | e <;> rw [e] <;> simp only [hpos]

/-- The block of a chunk of the file exists. -/
theorem chunk_block (h : Source rs v uid dpb bytes mp c) {i s : Nat} (hi : i < bytes.length)
    (hs : chunkOf dpb s = some (i / (blockLen v - 16))) :
    ∃ p, 1 ≤ s ∧ (payloads rs v dpb (fileChunks v bytes))[s - 1]? = some p := by
  have hds := dataSize_pos v
  rw [chunkOf_iff h.valid] at hs
  have h1 : 1 ≤ s := by rw [hs]; exact seqOf_pos _ _
  suffices hle : s ≤ (payloads rs v dpb (fileChunks v bytes)).length from ⟨_, h1, List.getElem?_eq_getElem (by omega)⟩
  have hj : i / v.dataSize < (fileChunks v bytes).length := by
    unfold fileChunks
    rw [← dataSize_eq, chunksOf_length hds]
    by_contra hge
    have := (ceilDiv_le_iff hds).1 (Nat.le_of_not_lt hge)
    have := (Nat.le_div_iff_mul_le hds).1 (Nat.le_refl (i / v.dataSize))
    omega
  rw [h.lengths.1]
  rw [← dataSize_eq] at hs
  generalize i / v.dataSize = j at hs hj
  generalize (fileChunks v bytes).length = n at hj
  subst hs
  cases hdp : dpb with
  | none => simp only [seqOf, blockCount]; omega
  | some d =>
    have hd : 0 < d.data := h.valid d hdp
    simp only [seqOf, blockCount]
    have h2 : j / d.data < ceilDiv n d.data := by
      by_contra hge
      have := (ceilDiv_le_iff hd).1 (Nat.le_of_not_lt hge)
      have := (Nat.le_div_iff_mul_le hd).1 (Nat.le_refl (j / d.data))
      omega
    have h3 := Nat.mul_le_mul_right (d.data + d.parity) (Nat.succ_le_of_lt h2)
    rw [Nat.succ_mul] at h3
    have := Nat.mod_lt j hd
    omega

/-- **C69, decode.** What is left of any number of copies of a container is put one behind the other (`cat`), and decoded.  The result
has the size of the original file; every byte whose block is intact in one of the copies is the original byte, all others are zero. -/
theorem C69_decode (h : Source rs v uid dpb bytes mp c) (copies : List File) (hl : ∀ g ∈ copies, LeftOf v c g)
    (hm : ∃ k ∈ metaCopies (some true) dpb, Survives v c copies k) (D : Decode.Env) (hD : D.Calm) (q : Decode.Param)
    (hq : Decode.Whole q) (hr : SeeksMeta q.ref) (hb : ∀ d, dpb = some d → q.ref.burst = some d.burst) (old : File) :
    ∃ out R, Decode.toFile D q copies.flatten old = .ok (out, R) ∧ out.length = bytes.length ∧
      (∀ i < bytes.length, ∀ s, chunkOf dpb s = some (i / (blockLen v - 16)) →
        (BlockSurvives v dpb c copies s → out[i]? = bytes[i]?) ∧ (¬ BlockSurvives v dpb c copies s → out[i]? = some 0)) ∧
      ((∀ s j, chunkOf dpb s = some j → j * (blockLen v - 16) < bytes.length → BlockSurvives v dpb c copies s) → out = bytes) := by
  obtain ⟨o1, o2, o3, o4⟩ := copies_input h hl hm
  obtain ⟨b1, b2, -⟩ := blocks_of_copies h hl
  obtain ⟨pos, href⟩ := o4 hr hD.stopRef (D.stop 0)
  have hd := Sort.shards_given (uid := uid) copies.flatten h.version ⟨h.data, h.parity⟩ q.ref true hb
  obtain ⟨full, -, e2⟩ := Decode.decodeFile_whole D hD.lots hD.stop hq (blockOf v uid 0 mp) copies.flatten old dpb hd
  have hto : ∃ out R, Decode.toFile D q copies.flatten old = .ok (out, R) := by
    unfold Decode.toFile
    rw [href]
    simp only
    rw [e2]
    exact ⟨_, _, rfl⟩
  obtain ⟨out, R, hto⟩ := hto
  obtain ⟨c1, c2⟩ := Decode.C23_damage D hD q hq _ _ _ _ hto pos _ href rs v uid dpb bytes rfl rfl h.shards h.valid h.version _
    Decode.metas_blockOf h.sized ⟨h.data, h.parity⟩ o1
  have c3 : ∀ i < bytes.length, ∀ s, chunkOf dpb s = some (i / (blockLen v - 16)) →
      (BlockSurvives v dpb c copies s → out[i]? = bytes[i]?) ∧ (¬ BlockSurvives v dpb c copies s → out[i]? = some 0) := by
    intro i hi s hs
    obtain ⟨p, p1, p2⟩ := chunk_block h hi hs
    have hin := (List.getElem?_eq_some_iff.1 p2).1
    have hnum := h.numbers
    unfold lastSeqNum at hnum
    have h32 : s < 2 ^ 32 := by omega
    have e : s - 1 + 1 = s := by omega
    have key : HasChunk v uid dpb copies.flatten (i / (blockLen v - 16)) ↔ BlockSurvives v dpb c copies s := by
      have := b1 (UInt32.ofNat s) (s - 1) p (by rw [e]) p2
      rw [e] at this
      rw [← this]
      constructor
      · rintro ⟨s', p', k1, k2⟩
        rw [chunkOf_iff h.valid] at hs k2
        have : s' = UInt32.ofNat s := by rw [hs, ← k2]; simp
        subst this
        rcases b2 _ _ k1 with e' | ⟨i', e', k3⟩
        · have := congrArg UInt32.toNat e'.1
          rw [ofNat_toNat32 h32] at this
          simp at this; omega
        · have hi' := (List.getElem?_eq_some_iff.1 k3).1
          have := congrArg UInt32.toNat e'
          rw [ofNat_toNat32 h32, ofNat_toNat32 (by omega)] at this
          rw [show s - 1 = i' by omega, k3] at p2
          cases p2
          exact k1
      · intro hb
        exact ⟨_, p, hb, by rw [ofNat_toNat32 h32]; exact hs⟩
    rw [← key]
    exact c2 i hi
  refine ⟨out, R, hto, c1, c3, fun hfull => ?_⟩
  refine List.ext_getElem? fun i => ?_
  by_cases hi : i < bytes.length
  · have hs := (chunkOf_iff h.valid).2 (rfl : seqOf dpb (i / (blockLen v - 16)) = _)
    exact (c3 i hi _ hs).1 (hfull _ _ hs (Nat.lt_of_le_of_lt (Nat.div_mul_le_self _ _) hi))
  · rw [List.getElem?_eq_none (by omega), List.getElem?_eq_none (by omega)]

/-- **C69, sort.** If every block of the container is intact in one of the copies, then sorting them gives the container, with or
without error correction. -/
theorem C69_sort (h : Source rs v uid dpb bytes mp c) (copies : List File) (hl : ∀ g ∈ copies, LeftOf v c g)
    (hm : ∃ k ∈ metaCopies (some true) dpb, Survives v c copies k)
    (hall : ∀ s, 1 ≤ s → s ≤ (payloads rs v dpb (fileChunks v bytes)).length → BlockSurvives v dpb c copies s)
    (S : Sort.Env) (hS : S.Calm) (qs : Sort.Param) (hqs : Sort.Whole qs) (hr : SeeksMeta qs.ref)
    (hb : ∀ d, dpb = some d → qs.ref.burst = some d.burst) (old : File) :
    ∃ dk st o, Sort.sortFile S qs copies.flatten old = .ok (some dk, st, o) ∧ dk.file = c := by
  obtain ⟨o1, o2, o3, o4⟩ := copies_input h hl hm
  obtain ⟨b1, -, -⟩ := blocks_of_copies h hl
  obtain ⟨pos, href⟩ := o4 hr hS.stopRef (S.stop 0)
  have hd := Sort.shards_given (uid := uid) copies.flatten h.version ⟨h.data, h.parity⟩ qs.ref true hb
  refine Sort.C30_sorts S hS qs hqs rs v uid dpb bytes _ mp c _ old h.shards h.valid h.container h.meta_block h.numbers pos _ href rfl rfl
    hd (fun i p hp => ?_) o1 o2 o3
  exact (b1 _ i p rfl hp).2 (hall (i + 1) (by omega) (List.getElem?_eq_some_iff.1 hp).1)

end

theorem Source.of_sound {rs : RsCodec} {v : Version} {uid : Uid} {d : Dpb} {bytes mp : List Byte} {c : File} (laws : rs.Laws)
    (h : Sound rs v uid d bytes mp c) : Source rs v uid (some d) bytes mp c := by
  obtain ⟨h1, h2, h3⟩ := shards_ok h.data h.parity
  exact
    { container := h.container
      shards := by
        intro x hx sh e1 e2
        cases hx
        exact laws.encode_length _ _ _ _ h1 h2 h3 e1 e2
      valid := by intro x hx; cases hx; exact h1
      version := by simp [verConsistent, h.rs]
      numbers := h.numbers
      plain := h.plain
      sized := h.sized
      data := h.data
      parity := h.parity }

/-- **C69, repair.** If of every Reed-Solomon set as many blocks as it has data blocks, not necessarily in the same copy, and one copy
of the metadata are intact in one of the copies, then `sort` of the copies and `repair` of the result give the container, and `decode` the file. -/
theorem C69_restore {R : Repair.Env} {v : Version} {uid : Uid} {d : Dpb} {bytes mp : List Byte} {c : File} (laws : R.rs.Laws)
    (hR : R.Calm) (h : Sound R.rs v uid d bytes mp c) (copies : List File) (hl : ∀ g ∈ copies, LeftOf v c g)
    (hm : ∃ k ∈ metaCopies (some true) (some d), Survives v c copies k)
    (henough : ∀ t, t * (d.data + d.parity) < (payloads R.rs v (some d) (fileChunks v bytes)).length → d.data ≤ survivingIn v d c copies t)
    (S : Sort.Env) (hS : S.Calm) (qs : Sort.Param) (hqs : Sort.Whole qs) (hr : SeeksMeta qs.ref) (hb : qs.ref.burst = some d.burst)
    (D : Decode.Env) (hD : D.Calm) (q : Decode.Param) (hq : Decode.Whole q) (hrd : Decode.DefaultRef q.ref)
    (hbd : q.ref.burst ≠ none ∨ q.ref.guessBurstFrom = none ∧ d.burst ≤ 1000) (old old' : File) :
    ∃ dk st o dk' st' out, Sort.sortFile S qs copies.flatten old = .ok (some dk, st, o) ∧
      Repair.repairFile R (some d.burst) false dk.file = .ok (some (dk', st')) ∧ st'.repairFailed = 0 ∧ dk'.file = c ∧
      Decode.toFile D q dk'.file old' = .ok (bytes, out) := by
  obtain ⟨h1, h2, h3⟩ := shards_ok h.data h.parity
  obtain ⟨hcnt, hps⟩ := payloads_count laws (v := v) h1 h2 h3 bytes
  have hsrc := Source.of_sound laws h
  obtain ⟨o1, o2, o3, o4⟩ := copies_input hsrc hl hm
  obtain ⟨b1, -, -⟩ := blocks_of_copies hsrc hl
  obtain ⟨pos, href⟩ := o4 hr hS.stopRef (S.stop 0)
  obtain ⟨dk, st, o, dk', st', r1, r2, r3, r4⟩ := C55_sort_repair S hS qs hqs R laws hR v uid d bytes mp c copies.flatten old h pos href hb o1
    o2 o3 (by
      intro t ht
      refine Nat.le_trans (henough t ht) ?_
      unfold heldIn survivingIn
      refine List.countP_mono_left fun j hjr hj => ?_
      have hj := @of_decide_eq_true _ (Classical.propDecidable _) hj
      rw [@decide_eq_true_iff _ (Classical.propDecidable _)]
      rw [List.mem_range] at hjr
      have hlt : t * (d.data + d.parity) + j < (payloads R.rs v (some d) (fileChunks v bytes)).length := by
        rw [hcnt] at ht ⊢
        simp only [blocksFor] at ht ⊢
        have h4 := Nat.lt_of_mul_lt_mul_right ht
        have h5 := Nat.mul_le_mul_right (d.data + d.parity) (Nat.succ_le_of_lt h4)
        rw [Nat.succ_mul] at h5
        omega
      exact ⟨_, (b1 _ _ _ rfl (List.getElem?_eq_getElem hlt)).2 hj⟩)
  obtain ⟨out, e1, -⟩ := Decode.C21_container D hD q hq hrd R.rs v uid (some d) bytes _ c old' hsrc.shards
    (by intro x hx; cases hx; exact ⟨h1, h2, h3⟩) hsrc.version h.container _ ⟨mp, hsrc.meta_block, rfl⟩ h.sized
    (by rw [h.data, h.parity]; exact ⟨rfl, rfl⟩) h.numbers (hbd.imp_right fun e => ⟨e.1, by intro x hx; cases hx; exact e.2⟩)
  exact ⟨dk, st, o, dk', st', out, r1, r2, r3, r4, by rw [r4]; exact e1⟩

/-! ### Instances -/

/-- The first `a` places of `c`. -/
def front (c : File) (a : Nat) : File := c.take (a * 512)
/-- `c` with the first `b` places blanked out. -/
def back (c : File) (b : Nat) : File := List.replicate (b * 512) 0 ++ c.drop (b * 512)

theorem front_left {c : File} {a : Nat} (h : a * 512 ≤ c.length) : LeftOf .v17 c (front c a) ∧
    ∀ g ∈ [front c a], ∀ k, k < a → k * blockLen .v17 < g.length ∧ piece .v17 g k = piece .v17 c k := by
  have hl : (front c a).length = a * 512 := by unfold front; rw [List.length_take]; omega
  have key : ∀ k, k < a → k * blockLen .v17 < (front c a).length ∧ piece .v17 (front c a) k = piece .v17 c k := by
    intro k hk
    have hbl : blockLen .v17 = 512 := rfl
    rw [hbl, hl]
    refine ⟨by omega, ?_⟩
    unfold piece File.readAt front
    rw [hbl, List.drop_take, List.take_take, Nat.min_eq_left (by omega)]
  refine ⟨⟨by rw [hl]; exact Nat.dvd_mul_left _ _, by omega, fun k hk => .inl (key k ?_).2⟩, ?_⟩
  · rw [hl] at hk
    exact Nat.lt_of_mul_lt_mul_right (show k * 512 < a * 512 from hk)
  · intro g hg
    rw [List.mem_singleton] at hg
    subst hg
    exact key

set_option maxRecDepth 20000 in
theorem back_left {c : File} {b : Nat} (hal : 512 ∣ c.length) (h : b * 512 ≤ c.length) : LeftOf .v17 c (back c b) ∧
    ∀ k, b ≤ k → k * 512 < c.length → k * blockLen .v17 < (back c b).length ∧ piece .v17 (back c b) k = piece .v17 c k := by
  have hl : (back c b).length = c.length := by unfold back; rw [List.length_append, List.length_replicate, List.length_drop]; omega
  have hbl : blockLen .v17 = 512 := rfl
  have key : ∀ k, b ≤ k → piece .v17 (back c b) k = piece .v17 c k := by
    intro k hk
    unfold piece File.readAt back
    rw [hbl, List.drop_append, List.drop_eq_nil_of_le (by rw [List.length_replicate]; omega), List.nil_append, List.length_replicate,
      List.drop_drop, show b * 512 + (k * 512 - b * 512) = k * 512 by omega]
  refine ⟨⟨by rw [hl]; exact hal, by omega, fun k _ => ?_⟩, fun k hk hlt => ⟨by rw [hl]; exact hlt, key k hk⟩⟩
  by_cases hk : b ≤ k
  · exact .inl (key k hk)
  · right
    have e : piece .v17 (back c b) k = List.replicate 512 0 := by
      unfold piece File.readAt back
      rw [hbl, List.drop_append_of_le_length (by rw [List.length_replicate]; omega),
        List.take_append_of_le_length (by rw [List.length_drop, List.length_replicate]; omega), List.drop_replicate, List.take_replicate]
      congr 1
      omega
    rw [e]
    exact .inl (dead_zeros _)

set_option maxRecDepth 20000 in
/-- What is left of the demo container is its first `a` and its last places from `b` on, in different copies. -/
theorem demo_copies {mp : List Byte} {c : File} (h : Sound RsWitness.codec .v17 demoOwner demoDpb (List.replicate 1000 7) mp c) {a b : Nat}
    (ha : 1 ≤ a ∧ a ≤ 36) (hb : b ≤ 36) :
    (∀ g ∈ [front c a, back c b], LeftOf .v17 c g) ∧
    (∃ k ∈ metaCopies (some true) (some demoDpb), Survives .v17 c [front c a, back c b] k) ∧
    (∀ s, 1 ≤ s → s ≤ 12 → (placeOf demoDpb s < a ∨ b ≤ placeOf demoDpb s) → BlockSurvives .v17 (some demoDpb) c [front c a, back c b] s) ∧
    (payloads RsWitness.codec .v17 (some demoDpb) (fileChunks .v17 (List.replicate 1000 7))).length = 12 := by
  obtain ⟨hcnt, hps⟩ := payloads_count RsWitness.codec_laws (v := .v17) (d := demoDpb) (by decide) (by decide) (by decide)
    (List.replicate 1000 7)
  have h12 : (payloads RsWitness.codec .v17 (some demoDpb) (fileChunks .v17 (List.replicate 1000 7))).length = 12 := by
    rw [hcnt, List.length_replicate]; decide
  have hin : ∀ s, 1 ≤ s → s ≤ 12 → (placeOf demoDpb s + 1) * 512 ≤ c.length := by
    intro s h1 h2
    obtain ⟨-, -, -, e⟩ := image_data h.container hps h1 (by omega)
    exact e
  have h36 := hin 12 (by decide) (by decide)
  rw [show placeOf demoDpb 12 = 36 by decide] at h36
  obtain ⟨f1, f2⟩ := front_left (c := c) (a := a) (by omega)
  obtain ⟨b1, b2⟩ := back_left (c := c) (b := b) h.container.aligned (by omega)
  refine ⟨?_, ⟨0, by decide, front c a, by simp, f2 _ (by simp) 0 (by omega)⟩, fun s h1 h2 hs => ?_, h12⟩
  · intro g hg
    rcases List.mem_cons.1 hg with rfl | hg
    · exact f1
    · rw [List.mem_singleton] at hg; subst hg; exact b1
  · show Survives .v17 c _ (placeOf demoDpb s)
    rcases hs with hs | hs
    · exact ⟨front c a, by simp, f2 _ (by simp) _ hs⟩
    · have := hin s h1 h2
      exact ⟨back c b, by simp, b2 _ hs (by omega)⟩

/-- Of one copy only the first 12 places are left, of the other one only those from the 18th on: ten blocks of twelve. -/
theorem demo_enough {mp : List Byte} {c : File} (h : Sound RsWitness.codec .v17 demoOwner demoDpb (List.replicate 1000 7) mp c) :
    ∀ t, t * (demoDpb.data + demoDpb.parity) < (payloads demoEnv.rs .v17 (some demoDpb) (fileChunks .v17 (List.replicate 1000 7))).length →
      demoDpb.data ≤ survivingIn .v17 demoDpb c [front c 12, back c 18] t := by
  obtain ⟨h1, h2, h3, h4⟩ := demo_copies h (a := 12) (b := 18) (by decide) (by decide)
  intro t ht
  have ht : t * 12 < _ := ht
  have h4 : (payloads demoEnv.rs .v17 (some demoDpb) (fileChunks .v17 (List.replicate 1000 7))).length = 12 := h4
  rw [h4] at ht
  obtain rfl : t = 0 := by omega
  have e : (List.range 12).countP (fun j => decide (j ≠ 3 ∧ j ≠ 4)) = 10 := by decide
  show 10 ≤ _
  rw [← e]
  unfold survivingIn
  refine List.countP_mono_left fun j hjr hj => ?_
  rw [decide_eq_true_eq] at hj
  rw [List.mem_range] at hjr
  rw [@decide_eq_true_iff _ (Classical.propDecidable _)]
  have hp : ∀ j < 12, j ≠ 3 ∧ j ≠ 4 → placeOf demoDpb (j + 1) < 12 ∨ 18 ≤ placeOf demoDpb (j + 1) := by decide
  have := h3 (j + 1) (by omega) (by omega) (hp j hjr hj)
  rw [Nat.zero_mul, Nat.zero_add]
  exact this

/-- C69_restore. -/
example : ∃ c dk st o dk' st' out, Sort.sortFile Sort.calmEnv Sort.burstParam [front c 12, back c 18].flatten [9] = .ok (some dk, st, o) ∧
    Repair.repairFile demoEnv (some 3) false dk.file = .ok (some (dk', st')) ∧ st'.repairFailed = 0 ∧ dk'.file = c ∧
    Decode.toFile Decode.calmEnv Decode.plainParam dk'.file [] = .ok (List.replicate 1000 7, out) := by
  obtain ⟨mp, c, h⟩ := demo_sound
  obtain ⟨h1, h2, h3, h4⟩ := demo_copies h (a := 12) (b := 18) (by decide) (by decide)
  exact ⟨c, C69_restore demo_laws demo_calm (d := demoDpb) h _ h1 h2 (demo_enough h) Sort.calmEnv Sort.calm Sort.burstParam
    ⟨rfl, rfl, rfl, rfl⟩ ⟨rfl, rfl, rfl, .inl rfl⟩ rfl Decode.calmEnv Decode.calm Decode.plainParam Decode.plain_whole Decode.plain_ref
    (.inr ⟨rfl, by decide⟩) [9] []⟩

/-- C69_sort: the copies overlap. -/
example : ∃ c dk st o, Sort.sortFile Sort.calmEnv Sort.burstParam [front c 20, back c 18].flatten [9] = .ok (some dk, st, o) ∧ dk.file = c := by
  obtain ⟨mp, c, h⟩ := demo_sound
  obtain ⟨h1, h2, h3, h4⟩ := demo_copies h (a := 20) (b := 18) (by decide) (by decide)
  exact ⟨c, C69_sort (.of_sound RsWitness.codec_laws h) _ h1 h2 (fun s a b => h3 s a (by omega) (by omega)) Sort.calmEnv Sort.calm Sort.burstParam
    ⟨rfl, rfl, rfl, rfl⟩ ⟨rfl, rfl, rfl, .inl rfl⟩ (by intro x hx; cases hx; rfl) [9]⟩

/-- C69_decode: the second block (at place 5) is lost, the first and the third are in different copies. -/
example : ∃ c out R, Decode.toFile Decode.calmEnv { Decode.plainParam with ref := Sort.burstParam.ref } [front c 4, back c 8].flatten [9] =
    .ok (out, R) ∧ out.length = 1000 ∧ out[0]? = some 7 ∧ out[999]? = some 7 := by
  obtain ⟨mp, c, h⟩ := demo_sound
  obtain ⟨h1, h2, h3, h4⟩ := demo_copies h (a := 4) (b := 8) (by decide) (by decide)
  obtain ⟨out, R, r1, r2, r3, -⟩ := C69_decode (.of_sound RsWitness.codec_laws h) _ h1 h2 Decode.calmEnv Decode.calm
    { Decode.plainParam with ref := Sort.burstParam.ref } ⟨rfl, rfl, rfl⟩ ⟨rfl, rfl, rfl, .inl rfl⟩ (by intro x hx; cases hx; rfl) [9]
  refine ⟨c, out, R, r1, by rw [r2, List.length_replicate], ?_, ?_⟩
  · rw [(r3 0 (by rw [List.length_replicate]; decide) 1 (by decide)).1 (h3 1 (by decide) (by decide) (.inl (by decide))), List.getElem?_replicate]
    rfl
  · rw [(r3 999 (by rw [List.length_replicate]; decide) 3 (by decide)).1 (h3 3 (by decide) (by decide) (.inr (by decide))), List.getElem?_replicate]
    rfl

end Verif.Copies
