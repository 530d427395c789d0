import Verif.Lemmas.Block
/-!
# C08, C09: whole blocks
-/

namespace Verif
open Format

/-- **C09.** A reader in any state accepts a buffer exactly when its front is a well-formed block of *some* version
(the version is read from the buffer) whose header satisfies the caller's predicate; what it then holds is determined
by that block alone; bytes after the block do not matter. -/
theorem C09_accept_iff (b b' : Block) (buf : List Byte) (hp : Option (Header → Bool)) :
    b.syncFrom buf hp none = (b', none) ↔
      ∃ v uid seq payload, IsBlock (buf.take (blockLen v)) v uid seq payload ∧
        (∀ p, hp = some p → p ⟨v, checksum v uid.bytes seq payload, uid, seq⟩ = true) ∧
        b'.header = ⟨v, checksum v uid.bytes seq payload, uid, seq⟩ ∧
        b'.data = if seq = 0 then .metadata (metasFromBytes payload) else .data := by
  rw [Block.syncFrom_none, Block.read?_iff]
  constructor
  · rintro ⟨v, uid, seq, payload, rest, h1, _, rfl, h2⟩
    exact ⟨v, uid, seq, payload, h1, h2, rfl, rfl⟩
  · rintro ⟨v, uid, seq, payload, h1, h2, h3, h4⟩
    refine ⟨v, uid, seq, payload, buf.drop (blockLen v), h1, by simp, ?_, ?_⟩
    · cases b'; simp only at h3 h4; rw [h3, h4]; rfl
    · rw [h3]; exact h2

/-- **C09.** With a predicate on the whole block: same, and the predicate holds. -/
theorem C09_accept_pred_iff (b b' : Block) (buf : List Byte) (hp : Option (Header → Bool)) (p : Block → Bool) :
    b.syncFrom buf hp (some p) = (b', none) ↔ b.syncFrom buf hp none = (b', none) ∧ p b' = true := by
  rw [Block.syncFrom_pred, Block.syncFrom_none]

/-- **C09.** A block is decoded in one way only: version, uid, sequence number and payload are determined. -/
theorem C09_unique (buf : List Byte) (v v' : Version) (uid uid' : Uid) (seq seq' : UInt32) (p p' : List Byte)
    (h : IsBlock (buf.take (blockLen v)) v uid seq p) (h' : IsBlock (buf.take (blockLen v')) v' uid' seq' p') :
    v = v' ∧ uid = uid' ∧ seq = seq' ∧ p = p' := by
  have h1 := (C09_accept_iff Block.dummy (blockOf v uid seq p) buf none).2
    ⟨v, uid, seq, p, h, by simp, rfl, rfl⟩
  have h2 := (C09_accept_iff Block.dummy (blockOf v' uid' seq' p') buf none).2
    ⟨v', uid', seq', p', h', by simp, rfl, rfl⟩
  rw [h1] at h2
  simp only [blockOf, Prod.mk.injEq, Block.mk.injEq, Header.mk.injEq, and_true] at h2
  obtain ⟨⟨rfl, _, rfl, rfl⟩, _⟩ := h2
  refine ⟨rfl, rfl, rfl, ?_⟩
  have e : blockBytes v uid.bytes seq p = blockBytes v uid.bytes seq p' := by rw [← h.bytes, ← h'.bytes]
  have e := congrArg (List.drop 16) e
  rwa [blockBytes_drop, blockBytes_drop] at e

/-- The same for whole buffers. -/
theorem Format.IsBlock.unique {buf : List Byte} {v v' : Version} {uid uid' : Uid} {seq seq' : UInt32} {p p' : List Byte}
    (h : IsBlock buf v uid seq p) (h' : IsBlock buf v' uid' seq' p') : v = v' ∧ uid = uid' ∧ seq = seq' ∧ p = p' := by
  have hl : ∀ {v : Version} {uid : Uid} {seq : UInt32} {p : List Byte}, IsBlock buf v uid seq p → buf.take (blockLen v) = buf := by
    intro v uid seq p h
    apply List.take_of_length_le
    rw [h.bytes, blockBytes_length, h.len]
    cases v <;> decide
  exact C09_unique buf v v' uid uid' seq seq' p p' (by rw [hl h]; exact h) (by rw [hl h']; exact h')

/-- Non-vacuity of acceptance: a version 18 block followed by junk. -/
example : ∃ b', Block.dummy.syncFrom
    (blockBytes .v18 [1, 2, 3, 4, 5, 6] 9 (List.replicate 112 0xEE) ++ [1, 2, 3]) none none = (b', none) := by
  refine ⟨blockOf .v18 ⟨[1, 2, 3, 4, 5, 6], rfl⟩ 9 (List.replicate 112 0xEE), ?_⟩
  rw [C09_accept_iff]
  refine ⟨.v18, ⟨[1, 2, 3, 4, 5, 6], rfl⟩, 9, List.replicate 112 0xEE, ⟨?_, by decide⟩, by simp, rfl, rfl⟩
  rw [List.take_append_of_le_length (by simp [blockBytes, headerBytes, blockLen]),
    List.take_of_length_le (by simp [blockBytes, headerBytes, blockLen])]

/-- **C08.** Writing a data block into a buffer holding `payload` after 16 arbitrary bytes, then reading the buffer with
any reader, gives the version, uid, sequence number back; the payload and the bytes after the block are unchanged. -/
theorem C08_data_roundtrip (v : Version) (uid : Uid) (seq : UInt32) (hdr payload rest : List Byte) (crc : BitVec 16)
    (hh : hdr.length = 16) (hl : payload.length = blockLen v - 16) (hs : seq ≠ 0) :
    ∃ b' out, Block.syncTo ⟨⟨v, crc, uid, seq⟩, .data⟩ none (hdr ++ payload ++ rest) = .ok (b', out) ∧
      out.drop 16 = payload ++ rest ∧ out.length = 16 + payload.length + rest.length ∧
      ∀ reader : Block, ∃ r, reader.syncFrom out none none = (r, none) ∧ r = b' ∧
        r.header.version = v ∧ r.header.uid = uid ∧ r.header.seq = seq ∧ r.data = .data := by
  have h16 : 16 ≤ v.blockSize := by cases v <;> decide
  rw [blockLen_eq] at hl
  have hsz : Block.size ⟨⟨v, crc, uid, seq⟩, .data⟩ = v.blockSize := rfl
  have hpay : Block.payload ⟨⟨v, crc, uid, seq⟩, .data⟩ (hdr ++ payload ++ rest) = payload := by
    unfold Block.payload
    rw [hsz, List.take_append_of_le_length (by simp; omega), List.take_of_length_le (by simp; omega),
      List.drop_append, List.drop_eq_nil_of_le (by omega), hh]
    simp
  have hdrop : (hdr ++ payload ++ rest).drop v.blockSize = rest := by
    rw [List.drop_append, List.drop_eq_nil_of_le (by simp; omega)]
    simp [show v.blockSize - (hdr.length + payload.length) = 0 by omega]
  refine ⟨_, _, Block.syncTo_data _ _ rfl (by rw [hsz]; simp; omega), ?_, ?_, ?_⟩
  · rw [hpay, hsz, hdrop]
    simp only [blockBytes, List.append_assoc]
    rw [headerBytes_drop]
  · rw [hpay, hsz, hdrop]
    simp only [blockBytes, List.length_append, headerBytes_length]
  · intro reader
    refine ⟨blockOf v uid seq payload, ?_, ?_, rfl, rfl, rfl, by simp [blockOf, hs]⟩
    · rw [C09_accept_iff]
      refine ⟨v, uid, seq, payload, ⟨?_, by rw [blockLen_eq]; exact hl⟩, by simp, rfl, rfl⟩
      rw [hpay, blockLen_eq]
      rw [List.take_append_of_le_length (by simp [blockBytes, headerBytes_length]; omega),
        List.take_of_length_le (by simp [blockBytes, headerBytes_length]; omega)]
    · simp only [blockOf, hs, if_false, Block.updateCrc, Block.calcCrc_eq, hpay]

/-- **C08.** Writing a metadata block whose fields are representable and fit, then reading it back with any reader,
gives the same version, uid, sequence number 0 and the same fields. -/
theorem C08_metadata_roundtrip (v : Version) (uid : Uid) (ms : List Metadata) (buf : List Byte) (crc : BitVec 16)
    (hl : blockLen v ≤ buf.length) (hst : ∀ m ∈ ms, m.Storable) (hsh : ShardsOk ms)
    (hfit : metaSpace ms ≤ blockLen v - 16) :
    ∃ b' out, Block.syncTo ⟨⟨v, crc, uid, 0⟩, .metadata ms⟩ none buf = .ok (b', out) ∧
      out.length = buf.length ∧ out.drop (blockLen v) = buf.drop (blockLen v) ∧
      ∀ reader : Block, ∃ r, reader.syncFrom out none none = (r, none) ∧
        r.header.version = v ∧ r.header.uid = uid ∧ r.header.seq = 0 ∧ r.data = .metadata ms := by
  have h16 : 16 ≤ v.blockSize := by cases v <;> decide
  rw [blockLen_eq] at *
  obtain ⟨bs, hbs⟩ : ∃ bs, metasToBytes ms (v.blockSize - 16) = some bs := by
    rw [metasToBytes_eq, if_pos hfit]; exact ⟨_, rfl⟩
  have hbl := metasToBytes_length hbs
  have hblk : (blockBytes v uid.bytes 0 bs).length = v.blockSize := by
    simp only [blockBytes, List.length_append, headerBytes_length]; omega
  have hsz : Block.size ⟨⟨v, crc, uid, 0⟩, .metadata ms⟩ = v.blockSize := rfl
  refine ⟨_, _, by rw [Block.syncTo_meta ⟨⟨v, crc, uid, 0⟩, .metadata ms⟩ buf ms rfl rfl hl, hsz, hbs], ?_, ?_, ?_⟩
  · simp only [List.length_append, hblk, List.length_drop]; omega
  · simp only
    rw [List.drop_append, List.drop_eq_nil_of_le (by omega), hblk]; simp
  · intro reader
    refine ⟨blockOf v uid 0 bs, ?_, rfl, rfl, rfl, ?_⟩
    · rw [C09_accept_iff]
      refine ⟨v, uid, 0, bs, ⟨?_, by rw [blockLen_eq]; exact hbl⟩, by simp, rfl, rfl⟩
      rw [blockLen_eq, List.take_left' hblk]
    · simp [blockOf, metas_roundtrip hst hsh hbs]

/-- **C08.** Fields that do not fit are an error, never a truncated block. -/
theorem C08_metadata_overflow (v : Version) (uid : Uid) (ms : List Metadata) (buf : List Byte) (crc : BitVec 16)
    (hl : blockLen v ≤ buf.length) (hfit : blockLen v - 16 < metaSpace ms) :
    Block.syncTo ⟨⟨v, crc, uid, 0⟩, .metadata ms⟩ none buf = .error .tooMuchMetadata := by
  rw [blockLen_eq] at *
  have hsz : Block.size ⟨⟨v, crc, uid, 0⟩, .metadata ms⟩ = v.blockSize := rfl
  rw [Block.syncTo_meta ⟨⟨v, crc, uid, 0⟩, .metadata ms⟩ buf ms rfl rfl hl, hsz, metasToBytes_eq, if_neg (by omega)]

/-- Non-vacuity: three fields in a version 17 block. -/
example : metaSpace [.fnm "x", .rsd 10, .rsp 2] ≤ blockLen .v17 - 16 := by decide +kernel

end Verif
