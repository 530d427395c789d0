import Verif.Spec.Format
import Verif.Lemmas.Crc
import Verif.Lemmas.MetadataParse
/-!
# Lemmas on headers and blocks
-/

namespace Verif
open Format

theorem versionByte_eq (v : Version) : versionByte v = UInt8.ofNat v.num := by cases v <;> rfl

theorem blockLen_eq (v : Version) : blockLen v = v.blockSize := by cases v <;> rfl

theorem versionByte_inj {v w : Version} (h : versionByte v = versionByte w) : v = w := by
  revert h; cases v <;> cases w <;> decide

theorem byte_extract (n : Nat) (w k : Nat) (x : BitVec w) (h : x.toNat = n) :
    (⟨x.extractLsb' k 8⟩ : Byte) = UInt8.ofNat (n / 2 ^ k) := by
  apply UInt8.toNat_inj.1
  rw [UInt8.toNat_ofNat']
  change (x.extractLsb' k 8).toNat = _
  rw [BitVec.extractLsb'_toNat, Nat.shiftRight_eq_div_pow, h]

theorem be16_eq (x : BitVec 16) : be16 x = beBytes 2 x.toNat := by
  simp [be16, beBytes, byte_extract x.toNat 16 _ x rfl]

theorem be32_eq (x : UInt32) : be32 x = beBytes 4 x.toNat := by
  simp [be32, beBytes, byte_extract x.toNat 32 _ x.toBitVec rfl, Nat.div_div_eq_div_mul]

@[simp] theorem be16_length (x : BitVec 16) : (be16 x).length = 2 := rfl
@[simp] theorem be32_length (x : UInt32) : (be32 x).length = 4 := rfl

theorem headerBytes_length (v : Version) (crc : BitVec 16) (uid : Uid) (seq : UInt32) :
    (headerBytes v crc uid.bytes seq).length = 16 := by
  simp [headerBytes, uid.len]

theorem headerBytes_drop (v : Version) (crc : BitVec 16) (uid : Uid) (seq : UInt32) (p : List Byte) :
    (headerBytes v crc uid.bytes seq ++ p).drop 16 = p := List.drop_left' (headerBytes_length v crc uid seq)

theorem headerBytes_take (v : Version) (crc : BitVec 16) (uid : Uid) (seq : UInt32) (p : List Byte) :
    (headerBytes v crc uid.bytes seq ++ p).take 16 = headerBytes v crc uid.bytes seq :=
  List.take_left' (headerBytes_length v crc uid seq)

theorem blockBytes_length (v : Version) (uid : Uid) (seq : UInt32) (p : List Byte) :
    (blockBytes v uid.bytes seq p).length = 16 + p.length := by
  rw [blockBytes, List.length_append, headerBytes_length]

theorem blockBytes_drop (v : Version) (uid : Uid) (seq : UInt32) (p : List Byte) :
    (blockBytes v uid.bytes seq p).drop 16 = p := headerBytes_drop _ _ _ _ _

namespace Header

theorem toBytes_eq (h : Header) : h.toBytes = headerBytes h.version h.crc h.uid.bytes h.seq := by
  simp [toBytes, headerBytes, signature, be16_eq, be32_eq, versionByte_eq]

theorem toBytes_length (h : Header) : h.toBytes.length = 16 := by
  rw [toBytes_eq, headerBytes_length]

theorem verP_eq (v : Version) (r : List Byte) : verP (UInt8.ofNat v.num :: r) = some (v, r) := by
  cases v <;> simp [verP, Version.num] <;> decide

theorem verP_inv {l r : List Byte} {v : Version} (h : verP l = some (v, r)) : l = UInt8.ofNat v.num :: r := by
  unfold verP at h
  split at h
  · simp at h
  · rename_i b rest
    repeat' split at h
    all_goals first
      | (simp only [Option.some.injEq, Prod.mk.injEq] at h; obtain ⟨rfl, rfl⟩ := h; simp_all [Version.num]; done)
      | simp at h

theorem fromBytes_toBytes (h : Header) : fromBytes h.toBytes = some h := by
  obtain ⟨v, crc, uid, seq⟩ := h
  have hl := toBytes_length ⟨v, crc, uid, seq⟩
  unfold fromBytes
  rw [if_neg (by simp [hl])]
  unfold headerP
  have hs : toBytes ⟨v, crc, uid, seq⟩ =
      signature ++ (UInt8.ofNat v.num :: (beBytes 2 crc.toNat ++ (uid.bytes ++ beBytes 4 seq.toNat))) := by
    simp [toBytes]
  rw [hs, if_pos (by simp)]
  have hd : (signature ++ (UInt8.ofNat v.num :: (beBytes 2 crc.toNat ++ (uid.bytes ++ beBytes 4 seq.toNat)))).drop 3
      = UInt8.ofNat v.num :: (beBytes 2 crc.toNat ++ (uid.bytes ++ beBytes 4 seq.toNat)) := by
    rw [List.drop_append]; simp [signature]
  rw [hd, verP_eq]
  have e1 : (beBytes 2 crc.toNat ++ (uid.bytes ++ beBytes 4 seq.toNat)).take 2 = beBytes 2 crc.toNat := by
    rw [List.take_append_of_le_length (by simp), List.take_of_length_le (by simp)]
  have e2 : ((beBytes 2 crc.toNat ++ (uid.bytes ++ beBytes 4 seq.toNat)).drop 2).take 6 = uid.bytes := by
    rw [List.drop_append, List.drop_eq_nil_of_le (by simp)]
    simp [uid.len]
  have e3 : ((beBytes 2 crc.toNat ++ (uid.bytes ++ beBytes 4 seq.toNat)).drop 8).take 4 = beBytes 4 seq.toNat := by
    rw [List.drop_append, List.drop_append, List.drop_eq_nil_of_le (by simp),
      List.drop_eq_nil_of_le (by simp [uid.len])]
    simp [uid.len, List.take_of_length_le]
  simp only [e1, e2, e3]
  simp only [List.length_append, beBytes_length, uid.len]
  simp only [beNat_beBytes]
  have c1 : BitVec.ofNat 16 (crc.toNat % 256 ^ 2) = crc := by
    apply BitVec.eq_of_toNat_eq; have := crc.isLt; simp; omega
  have c2 : UInt32.ofNat (seq.toNat % 256 ^ 4) = seq := by
    apply UInt32.toNat_inj.1; simp
  simp [c1, c2]

theorem fromBytes_inv {buf : List Byte} {h : Header} (hf : fromBytes buf = some h) : buf = h.toBytes := by
  unfold fromBytes at hf
  split at hf
  · simp at hf
  · rename_i hl
    simp only [ne_eq, not_not] at hl
    unfold headerP at hf
    split at hf
    · rename_i hp
      rw [List.isPrefixOf_iff_prefix] at hp
      obtain ⟨t, rfl⟩ := hp
      split at hf
      · simp at hf
      · rename_i v rest hv
        split at hf
        · simp only [Option.some.injEq] at hf
          have hv := verP_inv hv
          have ht : t = UInt8.ofNat v.num :: rest := by
            rw [← hv, List.drop_append]; simp [signature]
          subst ht
          have hrl : rest.length = 12 := by simp [signature] at hl; omega
          rw [← hf]
          have e1 : beBytes 2 (BitVec.ofNat 16 (beNat (rest.take 2))).toNat = rest.take 2 := by
            have hlen : (rest.take 2).length = 2 := by simp; omega
            have hlt := beNat_lt (rest.take 2)
            rw [hlen] at hlt
            have := beBytes_beNat (rest.take 2)
            rw [hlen] at this
            rw [BitVec.toNat_ofNat, Nat.mod_eq_of_lt hlt, this]
          have e2 : beBytes 4 (UInt32.ofNat (beNat ((rest.drop 8).take 4))).toNat = (rest.drop 8).take 4 := by
            have hlen : ((rest.drop 8).take 4).length = 4 := by simp; omega
            have hlt := beNat_lt ((rest.drop 8).take 4)
            rw [hlen] at hlt
            have := beBytes_beNat ((rest.drop 8).take 4)
            rw [hlen] at this
            rw [UInt32.toNat_ofNat', Nat.mod_eq_of_lt hlt, this]
          simp only [toBytes, e1, e2, List.append_assoc, List.singleton_append, List.cons_append, List.nil_append]
          congr 2
          have t4 : (rest.drop 8).take 4 = rest.drop 8 := List.take_of_length_le (by simp; omega)
          rw [t4]
          have : rest.drop 8 = (rest.drop 2).drop 6 := by simp
          rw [this, List.take_append_drop, List.take_append_drop]
        · simp at hf
    · simp at hf

theorem fromBytes_iff (buf : List Byte) (h : Header) :
    fromBytes buf = some h ↔ buf = headerBytes h.version h.crc h.uid.bytes h.seq := by
  rw [← toBytes_eq]
  exact ⟨fromBytes_inv, fun e => e ▸ fromBytes_toBytes h⟩

theorem calcCrc_eq (h : Header) :
    h.calcCrc = CrcSpec.crc16 ((versionByte h.version).toBitVec.setWidth 16) (h.uid.bytes ++ be32 h.seq) := by
  unfold calcCrc
  rw [← Crc.crcCcitt_append, Crc.crcCcitt_eq, be32_eq]
  congr 1
  cases h.version <;> rfl

end Header


namespace Block

@[simp] theorem optPred_some {α : Type} (p : α → Bool) (x : α) : optPred (some p) x = p x := rfl
@[simp] theorem optPred_none {α : Type} (x : α) : optPred none x = true := rfl

theorem size_pos (b : Block) : 128 ≤ b.size := by
  unfold size; cases b.header.version <;> decide

theorem calcCrc_eq (b : Block) (buf : List Byte) :
    b.calcCrc buf = checksum b.header.version b.header.uid.bytes b.header.seq (b.payload buf) := by
  rw [calcCrc, Header.calcCrc_eq, checksum, ← Crc.crcCcitt_eq, ← Crc.crcCcitt_eq, ← Crc.crcCcitt_append]

theorem matchHeader_header (b : Block) : b.matchHeader.header = b.header := by
  unfold matchHeader switchType; split
  · split <;> rfl
  · rfl

theorem matchHeader_type (b : Block) : b.matchHeader.blockType = b.header.type := by
  unfold matchHeader switchType
  cases hb : b.data <;> cases ht : b.header.type <;> simp [blockType, hb]

theorem type_eq (h : Header) : h.type = if h.seq = 0 then .metadata else .data := by
  unfold Header.type
  have : h.seq.toNat < 1 ↔ h.seq = 0 := by
    rw [Nat.lt_one_iff, ← UInt32.toNat_inj]; rfl
  simp [this]

theorem payload_blockBytes (v : Version) (uid : Uid) (seq : UInt32) (payload rest : List Byte)
    (hl : payload.length = v.blockSize - 16) (b : Block) (hb : b.header.version = v) :
    b.payload (blockBytes v uid.bytes seq payload ++ rest) = payload := by
  have h16 : 16 ≤ v.blockSize := by cases v <;> decide
  unfold Block.payload size blockBytes
  rw [hb]
  have hh := headerBytes_length v (checksum v uid.bytes seq payload) uid seq
  rw [List.take_append_of_le_length (by simp [hh, hl]; omega), List.take_of_length_le (by simp [hh, hl]; omega),
    List.drop_append, hh]
  simp [hh]

/-- Exact characterisation of a successful `sync_from_buffer`. -/
theorem read?_iff (b b' : Block) (buf : List Byte) (hp : Option (Header → Bool)) :
    b.read? buf hp = some b' ↔
      ∃ v uid seq payload rest, IsBlock (buf.take (blockLen v)) v uid seq payload ∧
        buf = buf.take (blockLen v) ++ rest ∧ b' = blockOf v uid seq payload ∧
        (∀ p, hp = some p → p b'.header = true) := by
  have h16 : ∀ v : Version, 16 ≤ v.blockSize := by intro v; cases v <;> decide
  constructor
  · intro h
    unfold read? at h
    split at h
    · rename_i b'' hs
      simp only [Option.some.injEq] at h
      subst h
      unfold syncFrom at hs
      split at hs
      · simp at hs
      · rename_i c hc
        unfold syncHeader at hc
        split at hc
        · simp at hc
        · rename_i hl16
          split at hc
          · simp at hc
          · rename_i hd hhd
            simp only [Except.ok.injEq] at hc
            rw [Header.fromBytes_iff] at hhd
            have hch : c.header = hd := by rw [← hc, matchHeader_header]
            have hct : c.blockType = hd.type := by rw [← hc, matchHeader_type]
            simp only at hs
            split at hs
            · simp at hs
            · rename_i hpred
              split at hs
              · simp at hs
              · rename_i hlen
                split at hs
                · simp at hs
                · rename_i hcrc
                  simp only [ne_eq, not_not] at hcrc
                  simp only [optPred_none, Bool.not_true, Bool.false_eq_true, if_false, Prod.mk.injEq, and_true] at hs
                  rw [calcCrc_eq, hch] at hcrc
                  unfold size at hlen
                  rw [hch] at hlen
                  have hplen : (c.payload buf).length = hd.version.blockSize - 16 := by
                    simp [payload, size, hch]; omega
                  refine ⟨hd.version, hd.uid, hd.seq, c.payload buf, buf.drop hd.version.blockSize, ⟨?_, ?_⟩, ?_, ?_, ?_⟩
                  · unfold blockBytes
                    rw [← hcrc, ← hhd, blockLen_eq]
                    have h1 : buf.take 16 = (buf.take hd.version.blockSize).take 16 := by
                      rw [List.take_take, Nat.min_eq_left (h16 _)]
                    rw [h1]
                    unfold payload size
                    rw [hch, List.take_append_drop]
                  · rw [hplen, blockLen_eq]
                  · rw [blockLen_eq, List.take_append_drop]
                  · rw [← hs]
                    have hchd : c = ⟨hd, c.data⟩ := by cases c; simp at hch; simp [hch]
                    unfold blockOf parseMetas
                    rw [← hcrc]
                    cases hdata : c.data with
                    | data =>
                      have : hd.type = .data := by rw [← hct]; simp [blockType, hdata]
                      rw [type_eq] at this
                      split at this
                      · simp at this
                      · rename_i h0
                        simp only [h0, if_false]
                        rw [hchd, hdata]
                    | metadata ms =>
                      have : hd.type = .metadata := by rw [← hct]; simp [blockType, hdata]
                      rw [type_eq] at this
                      split at this
                      · rename_i h0
                        simp only [hch, h0, if_true]
                        rw [← h0]
                      · simp at this
                  · intro p hpp
                    subst hpp
                    have hbh : b''.header = c.header := by
                      rw [← hs, parseMetas]; split
                      · split <;> rfl
                      · rfl
                    rw [hbh]
                    simpa [optPred] using hpred
    · simp at h
  · rintro ⟨v, uid, seq, payload, rest, ⟨hbytes, hplen⟩, hbuf, rfl, hpred⟩
    rw [blockLen_eq] at *
    set crc := checksum v uid.bytes seq payload with hcrcdef
    have hhl := headerBytes_length v crc uid seq
    have hbuf2 : buf = blockBytes v uid.bytes seq payload ++ rest := by rw [← hbytes]; exact hbuf
    have ht16 : buf.take 16 = headerBytes v crc uid.bytes seq := by
      rw [hbuf2, blockBytes, List.append_assoc, ← hcrcdef, List.take_append_of_le_length (by omega),
        List.take_of_length_le (by omega)]
    have hlenbuf : v.blockSize ≤ buf.length := by
      rw [hbuf2, blockBytes]; simp [← hcrcdef, hhl, hplen]; omega
    unfold read? syncFrom syncHeader
    have hv := h16 v
    rw [if_neg (by omega)]
    have hfb : Header.fromBytes (buf.take 16) = some ⟨v, crc, uid, seq⟩ := by
      rw [Header.fromBytes_iff, ht16]
    rw [hfb]
    simp only
    set c := matchHeader { b with header := ⟨v, crc, uid, seq⟩ } with hc
    have hch : c.header = ⟨v, crc, uid, seq⟩ := by rw [hc, matchHeader_header]
    have hct : c.blockType = if seq = 0 then .metadata else .data := by rw [hc, matchHeader_type, type_eq]
    have hpay : c.payload buf = payload := by
      rw [hbuf2]; exact payload_blockBytes v uid seq payload rest hplen c (by rw [hch])
    have hcalc : c.calcCrc buf = crc := by
      rw [calcCrc_eq, hch, hpay]
    have hsz : c.size = v.blockSize := by unfold size; rw [hch]
    have hp1 : optPred hp c.header = true := by
      cases hp with
      | none => rfl
      | some p => rw [hch]; exact hpred p rfl
    rw [if_neg (by simp [hp1]), if_neg (by omega), if_neg (by simp [hcalc, hch])]
    simp only [optPred_none, Bool.not_true, Bool.false_eq_true, if_false]
    have hchd : c = ⟨⟨v, crc, uid, seq⟩, c.data⟩ := by
      rw [← hch]
    unfold blockOf parseMetas
    rw [← hcrcdef]
    congr 1
    cases hdata : c.data with
    | data =>
      have h0 : ¬ seq = 0 := by
        intro h0; simp [blockType, hdata, h0] at hct
      rw [if_neg h0]
      simp only
      rw [hchd, hdata]
    | metadata ms =>
      have h0 : seq = 0 := by
        by_contra h0; simp [blockType, hdata, h0] at hct
      simp only [hch, h0, if_true, hpay]

/-- Exact characterisation of `sync_to_buffer` with checksum update, on a block whose type matches its sequence
number (an invariant of every `Block` the program builds). -/
theorem syncTo_data (b : Block) (buf : List Byte) (hd : b.data = .data) (hl : b.size ≤ buf.length) :
    b.syncTo none buf = .ok (b.updateCrc buf,
      blockBytes b.header.version b.header.uid.bytes b.header.seq (b.payload buf) ++ buf.drop b.size) := by
  have h16 := b.size_pos
  unfold syncTo
  rw [if_neg (by omega)]
  simp only [hd, blockType, Option.getD_none, if_true]
  rw [Header.toBytes_eq]
  simp only [updateCrc]
  rw [calcCrc_eq, blockBytes]
  congr 2
  rw [List.append_assoc]
  congr 1
  unfold payload
  rw [List.drop_take]
  conv_lhs => rw [← List.take_append_drop (b.size - 16) (buf.drop 16)]
  rw [List.drop_drop]
  congr 2
  omega

theorem syncTo_meta (b : Block) (buf : List Byte) (ms : List Metadata) (hd : b.data = .metadata ms)
    (h0 : b.header.seq = 0) (hl : b.size ≤ buf.length) :
    b.syncTo none buf =
      match metasToBytes ms (b.size - 16) with
      | none => .error .tooMuchMetadata
      | some bs => .ok (b.updateCrc (buf.take 16 ++ bs),
          blockBytes b.header.version b.header.uid.bytes 0 bs ++ buf.drop b.size) := by
  have h16 := b.size_pos
  unfold syncTo
  rw [if_neg (by omega)]
  simp only [hd, h0, if_true, blockType]
  cases hm : metasToBytes ms (b.size - 16) with
  | none => rfl
  | some bs =>
    simp only
    have hbl := metasToBytes_length hm
    have hpay : ∀ t : List Byte, b.payload (buf.take 16 ++ bs ++ t) = bs := by
      intro t
      unfold payload
      have hl16 : (buf.take 16).length = 16 := by simp; omega
      rw [List.take_append_of_le_length (by simp; omega), List.take_of_length_le (by simp; omega), List.drop_append,
        hl16, List.drop_eq_nil_of_le (by omega)]
      simp
    have hpay0 := hpay []
    rw [List.append_nil] at hpay0
    rw [Header.toBytes_eq]
    simp only [updateCrc, calcCrc_eq, hpay, hpay0, h0, blockBytes]
    congr 2
    have hl16 : (buf.take 16).length = 16 := by simp; omega
    rw [List.append_assoc, List.append_assoc, List.drop_append, hl16, List.drop_eq_nil_of_le (by omega)]
    simp

end Block
end Verif

namespace Verif.Block
open Format

/-- `sync_from_buffer` with a block predicate succeeds iff it succeeds without and the predicate holds. -/
theorem syncFrom_pred (b : Block) (buf : List Byte) (hp : Option (Header → Bool)) (p : Block → Bool) (b' : Block) :
    b.syncFrom buf hp (some p) = (b', none) ↔ b.read? buf hp = some b' ∧ p b' = true := by
  unfold read? syncFrom
  cases b.syncHeader buf with
  | error e => simp
  | ok c =>
    simp only
    by_cases h1 : optPred hp c.header = true
    · by_cases h2 : buf.length < c.size
      · simp [h1, h2]
      · by_cases h3 : c.header.crc = c.calcCrc buf
        · simp only [h1, h2, h3, Bool.not_true, Bool.false_eq_true, if_false, ne_eq, not_true_eq_false]
          generalize c.parseMetas buf = d
          by_cases hd : p d = true
          · rw [if_neg (by simp [hd])]
            simp only [optPred_none, Bool.not_true, Bool.false_eq_true, if_false, Option.some.injEq, Prod.mk.injEq,
              and_true]
            exact ⟨fun h => ⟨h, h ▸ hd⟩, fun h => h.1⟩
          · rw [if_pos (by simpa using hd)]
            simp only [optPred_none, Bool.not_true, Bool.false_eq_true, if_false, Option.some.injEq, Prod.mk.injEq,
              reduceCtorEq, and_false, false_iff, not_and]
            rintro rfl; exact hd
        · simp [h1, h2, h3]
    · simp [h1]

theorem syncFrom_none (b : Block) (buf : List Byte) (hp : Option (Header → Bool)) (b' : Block) :
    b.syncFrom buf hp none = (b', none) ↔ b.read? buf hp = some b' := by
  unfold read?
  split
  · rename_i h; rw [h]; simp
  · rename_i h; rw [h]; simp

end Verif.Block
