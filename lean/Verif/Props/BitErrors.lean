import Verif.Lemmas.CrcDistance
import Verif.Props.Repair
/-!
# C66: scattered bit errors

The checksum of a block, seen as an error-detecting code: with blocks of at most 4096 bytes its Hamming distance is four, so up to three
flipped bits anywhere in a block, and any odd number of them, are always found, unless the version byte is hit, which is not covered by
the checksum but is its start value.
-/

namespace Verif.BitErrors
open CrcSpec Format Crc RepairSpec ScanSpec Scan Layout LayoutSpec ContainerSpec FileUtils Repair
open Classical

/-! ### Bits of byte strings -/

theorem bits_length (l : List Byte) : (bits l).length = 8 * l.length := by
  induction l with
  | nil => rfl
  | cons b l ih =>
    have : bits (b :: l) = bitsOfByte b ++ bits l := rfl
    rw [this, List.length_append, ih]
    simp [bitsOfByte]; omega

theorem bitErrors_append {a a' b b' : List Byte} (h : a.length = a'.length) :
    bitErrors (a ++ b) (a' ++ b') = bitErrors a a' + bitErrors b b' := by
  unfold bitErrors
  rw [bits_append, bits_append, differences_append (by rw [bits_length, bits_length, h])]

theorem bitErrors_self (a : List Byte) : bitErrors a a = 0 := differences_self _

theorem bitsOfByte_inj {x y : Byte} (h : bitsOfByte x = bitsOfByte y) : x = y := by
  simp only [bitsOfByte, List.cons.injEq, and_true] at h
  obtain ⟨h7, h6, h5, h4, h3, h2, h1, h0⟩ := h
  apply UInt8.toBitVec_inj.1
  apply BitVec.eq_of_getLsbD_eq
  intro i hi
  have : i = 0 ∨ i = 1 ∨ i = 2 ∨ i = 3 ∨ i = 4 ∨ i = 5 ∨ i = 6 ∨ i = 7 := by omega
  rcases this with rfl | rfl | rfl | rfl | rfl | rfl | rfl | rfl <;> assumption

theorem eq_of_no_difference {a b : List Bool} (hl : a.length = b.length) (h : differences a b = 0) : a = b := by
  induction a generalizing b with
  | nil => cases b with
    | nil => rfl
    | cons => simp at hl
  | cons x xs ih => cases b with
    | nil => simp at hl
    | cons y ys =>
      rw [differences] at h
      by_cases e : x = y
      · rw [e, ih (by simpa using hl) (by omega)]
      · rw [if_neg e] at h; omega

theorem bits_inj {a b : List Byte} (hl : a.length = b.length) (h : bits a = bits b) : a = b := by
  induction a generalizing b with
  | nil => cases b with
    | nil => rfl
    | cons => simp at hl
  | cons x xs ih => cases b with
    | nil => simp at hl
    | cons y ys =>
      have h : bitsOfByte x ++ bits xs = bitsOfByte y ++ bits ys := h
      obtain ⟨h1, h2⟩ := List.append_inj h (by simp [bitsOfByte])
      rw [bitsOfByte_inj h1, ih (by simpa using hl) h2]

theorem bitErrors_eq_zero {a b : List Byte} (hl : a.length = b.length) (h : bitErrors a b = 0) : a = b :=
  bits_inj hl (eq_of_no_difference (by rw [bits_length, bits_length, hl]) h)

theorem diff_byte (x m : Byte) : diff (bitsOfByte x) (bitsOfByte (x ^^^ m)) = bitsOfByte m := by
  have e : ∀ a b : Bool, (a ^^ (a ^^ b)) = b := by decide
  simp [diff, bitsOfByte, e]

theorem diff_append {a a' b b' : List Bool} (h : a.length = a'.length) : diff (a ++ b) (a' ++ b') = diff a a' ++ diff b b' := by
  unfold diff
  rw [List.zipWith_append h]

theorem diff_bytes (xs ms : List Byte) (h : xs.length = ms.length) :
    diff (bits xs) (bits (List.zipWith (· ^^^ ·) xs ms)) = bits ms := by
  induction xs generalizing ms with
  | nil => cases ms with
    | nil => rfl
    | cons => simp at h
  | cons x xs ih => cases ms with
    | nil => simp at h
    | cons m ms =>
      show diff (bitsOfByte x ++ bits xs) (bitsOfByte (x ^^^ m) ++ bits _) = bitsOfByte m ++ bits ms
      rw [diff_append (by simp [bitsOfByte]), diff_byte, ih ms (by simpa using h)]

/-- Flipping the bits of a mask flips as many bits as the mask has. -/
theorem bitErrors_mask (xs ms : List Byte) (h : xs.length = ms.length) :
    bitErrors xs (List.zipWith (· ^^^ ·) xs ms) = (bits ms).count true := by
  rw [bitErrors, ← count_diff, diff_bytes xs ms h]

theorem top_be16 (c : BitVec 16) : top (bits (be16 c)) = c := by
  apply BitVec.eq_of_getLsbD_eq
  intro i hi
  rw [top_getLsbD _ _ hi]
  have : i = 0 ∨ i = 1 ∨ i = 2 ∨ i = 3 ∨ i = 4 ∨ i = 5 ∨ i = 6 ∨ i = 7 ∨ i = 8 ∨ i = 9 ∨ i = 10 ∨
      i = 11 ∨ i = 12 ∨ i = 13 ∨ i = 14 ∨ i = 15 := by omega
  rcases this with h | h | h | h | h | h | h | h | h | h | h | h | h | h | h | h <;> subst h <;>
    simp [be16, bits, bitsOfByte]

/-- Feeding a register with its own contents empties it. -/
theorem feed_own (c : BitVec 16) : feed c (bits (be16 c)) = 0#16 := by
  rw [feed_eq_iter _ _ (by rw [bits_length, be16_length]), top_be16, BitVec.xor_self]
  generalize (bits (be16 c)).length = n
  induction n with
  | zero => rfl
  | succ n ih => show iter z n (z 0#16) = _; rw [z_zero, ih]

theorem split6 (l : List Byte) : l = l.take 4 ++ ((l.drop 4).take 2 ++ l.drop 6) := by
  have : l.drop 6 = (l.drop 4).drop 2 := by rw [List.drop_drop]
  rw [this, List.take_append_drop, List.take_append_drop]

/-- Two strings with the same start and the right checksum differ nowhere or in an even number of bits, at least four. -/
theorem distance_four {s : BitVec 16} {a b : List Byte} (hlen : a.length = b.length) (hmax : a.length ≤ 4096) (hmin : 6 ≤ a.length)
    (h4 : a.take 4 = b.take 4) (ha : (a.drop 4).take 2 = be16 (crc16 s (a.drop 6)))
    (hb : (b.drop 4).take 2 = be16 (crc16 s (b.drop 6))) :
    bitErrors a b % 2 = 0 ∧ (bitErrors a b = 0 ∨ 4 ≤ bitErrors a b) := by
  have own : ∀ l : List Byte, (l.drop 4).take 2 = be16 (crc16 s (l.drop 6)) → feed s (bits (l.drop 6) ++ bits ((l.drop 4).take 2)) = 0#16 := by
    intro l hl
    rw [feed_append, hl]
    exact feed_own _
  have hl : (bits (a.drop 6) ++ bits ((a.drop 4).take 2)).length = (bits (b.drop 6) ++ bits ((b.drop 4).take 2)).length := by
    simp [bits_length, hlen]
  have hx := feed_xor hl s s
  rw [own a ha, own b hb, BitVec.xor_self, BitVec.xor_self] at hx
  have hd := distance _ (by rw [diff_length hl]; simp [bits_length]; omega) hx.symm
  rw [count_diff, differences_append (by simp [bits_length, hlen])] at hd
  have he : bitErrors a b = differences (bits (a.drop 6)) (bits (b.drop 6)) + differences (bits ((a.drop 4).take 2)) (bits ((b.drop 4).take 2)) := by
    conv_lhs => rw [split6 a, split6 b, h4]
    rw [bitErrors_append rfl, bitErrors_self, bitErrors_append (by simp [hlen])]
    unfold bitErrors
    omega
  rw [he]
  exact hd

theorem blockLen_max (v : Version) : blockLen v ≤ 4096 := by cases v <;> decide

theorem blockLen_min (v : Version) : 16 ≤ blockLen v := by cases v <;> decide

/-- What is left of a block after a few bits have been flipped is no block. -/
theorem not_block {v v' : Version} {a b : List Byte} {uid uid' : Uid} {seq seq' : UInt32} {p p' : List Byte} (h : IsBlock a v uid seq p)
    (he : FewBits a b) : ¬ IsBlock b v' uid' seq' p' := by
  intro hb
  obtain ⟨⟨hlen, hn⟩, h3⟩ := he
  obtain ⟨c1, c2⟩ := IsBlock.checksum_field h
  obtain ⟨d1, d2⟩ := IsBlock.checksum_field hb
  have hv : versionByte v = versionByte v' := by
    have e1 : a[3]? = (a.take 4)[3]? := by rw [List.getElem?_take_of_lt (by omega)]
    have e2 : b[3]? = (b.take 4)[3]? := by rw [List.getElem?_take_of_lt (by omega)]
    rw [e1, e2, c1, d1] at h3
    simpa using h3
  rw [← hv] at d1 d2
  have hl := isBlock_length h
  have := blockLen_max v
  have := blockLen_min v
  have := distance_four hlen (by omega) (by omega) (by rw [c1, d1]) c2 d2
  omega

/-- What is left of a block after a few bits behind the version byte have been flipped is broken but keeps a header. -/
theorem broken_of_few {v : Version} {a b : List Byte} {uid : Uid} {seq : UInt32} {p : List Byte} (h : IsBlock a v uid seq p)
    (h4 : a.take 4 = b.take 4) (he : FewBits a b) : Broken v b := by
  have hl := isBlock_length h
  have := blockLen_min v
  have := he.1.1
  exact .inr ⟨header_of_four (by omega) (by rw [← h4]; exact (IsBlock.checksum_field h).1), fun _ _ _ => not_block h he⟩

/-! ### Detection -/

/-- **C66, except for the version byte** (C66_version_violated).  One, two, three, or any odd number of flipped bits anywhere in a valid block,
except in its version byte, are noticed: no reader accepts what is left, whatever its state, its predicate and the bytes that follow the
block in its buffer. -/
theorem C66_detected_partial (v : Version) (uid : Uid) (seq : UInt32) (payload a b : List Byte) (h : IsBlock a v uid seq payload)
    (he : FewBits a b) (rest : List Byte) (r : Block) (hp : Option (Header → Bool)) : r.read? (b ++ rest) hp = none := by
  by_contra hne
  obtain ⟨r', hr⟩ := Option.ne_none_iff_exists'.1 hne
  rw [Block.read?_iff] at hr
  obtain ⟨v', uid', seq', payload', rest', hb, -, -, -⟩ := hr
  obtain ⟨⟨hlen, hn⟩, h3⟩ := id he
  have hl := isBlock_length h
  have hmin := blockLen_min v
  have hv : v = v' := by
    have e1 := (IsBlock.checksum_field h).1
    have e2 := (IsBlock.checksum_field hb).1
    have hmin' := blockLen_min v'
    rw [List.take_take, Nat.min_eq_left (by omega), List.take_append_of_le_length (by omega)] at e2
    have f1 : a[3]? = (a.take 4)[3]? := by rw [List.getElem?_take_of_lt (by omega)]
    have f2 : b[3]? = (b.take 4)[3]? := by rw [List.getElem?_take_of_lt (by omega)]
    rw [f1, f2, e1, e2] at h3
    exact versionByte_inj (by simpa using h3)
  subst hv
  rw [List.take_append_of_le_length (by omega), List.take_of_length_le (by omega)] at hb
  exact not_block h he hb

/-- **C66.** A reader that knows the version of the container, as all commands do once they have found a first block, notices one, two, three
and any odd number of flipped bits wherever they are. -/
theorem C66_known_version (v : Version) (uid : Uid) (seq : UInt32) (payload a b : List Byte) (h : IsBlock a v uid seq payload)
    (he : Flipped a b) (rest : List Byte) (r : Block) (p : Header → Bool) (hp : ∀ x, p x = true → x.version = v) :
    r.read? (b ++ rest) (some p) = none := by
  by_contra hne
  obtain ⟨r', hr⟩ := Option.ne_none_iff_exists'.1 hne
  rw [Block.read?_iff] at hr
  obtain ⟨v', uid', seq', payload', rest', hb, -, rfl, hq⟩ := hr
  have hv : v' = v := hp _ (hq p rfl)
  subst hv
  have hl := isBlock_length h
  have hmin := blockLen_min v'
  have hlen := he.1
  rw [List.take_append_of_le_length (by omega), List.take_of_length_le (by omega)] at hb
  refine not_block h ⟨he, ?_⟩ hb
  have f1 : a[3]? = (a.take 4)[3]? := by rw [List.getElem?_take_of_lt (by omega)]
  have f2 : b[3]? = (b.take 4)[3]? := by rw [List.getElem?_take_of_lt (by omega)]
  rw [f1, f2, (IsBlock.checksum_field h).1, (IsBlock.checksum_field hb).1]

/-- **C66.** Two different valid blocks of the same version differ in at least four bits, and in an even number of bits. -/
theorem C66_distance (v : Version) (uid uid' : Uid) (seq seq' : UInt32) (payload payload' a b : List Byte)
    (ha : IsBlock a v uid seq payload) (hb : IsBlock b v uid' seq' payload') (hne : a ≠ b) :
    4 ≤ bitErrors a b ∧ bitErrors a b % 2 = 0 := by
  have hla := isBlock_length ha
  have hlb := isBlock_length hb
  have := blockLen_max v
  have := blockLen_min v
  obtain ⟨c1, c2⟩ := IsBlock.checksum_field ha
  obtain ⟨d1, d2⟩ := IsBlock.checksum_field hb
  obtain ⟨h1, h2⟩ := distance_four (by omega) (by omega) (by omega) (by rw [c1, d1]) c2 d2
  exact ⟨h2.resolve_left fun h0 => hne (bitErrors_eq_zero (by omega) h0), h1⟩

/-- **C66.** The bound is sharp: in every block there are four bits (those of the generator polynomial) whose flipping leaves a valid block
with the same header and another payload. -/
theorem C66_four_bits (v : Version) (uid : Uid) (seq : UInt32) (p a : List Byte) (x y w : Byte)
    (h : IsBlock a v uid seq (p ++ [x, y, w])) :
    ∃ b, b.length = a.length ∧ b.take 16 = a.take 16 ∧ bitErrors a b = 4 ∧ IsBlock b v uid seq (p ++ [x ^^^ 0x01, y ^^^ 0x10, w ^^^ 0x21]) := by
  have hm := diff_bytes [x, y, w] [0x01, 0x10, 0x21] rfl
  have hc : checksum v uid.bytes seq (p ++ [x ^^^ 0x01, y ^^^ 0x10, w ^^^ 0x21]) = checksum v uid.bytes seq (p ++ [x, y, w]) := by
    unfold checksum crc16
    rw [← List.append_assoc _ p, ← List.append_assoc _ p, bits_append _ [x, y, w], bits_append _ [x ^^^ 0x01, y ^^^ 0x10, w ^^^ 0x21], feed_append, feed_append]
    generalize feed _ (bits (uid.bytes ++ be32 seq ++ p)) = s
    apply Eq.symm
    apply xor_eq_zero
    rw [feed_xor (by rw [bits_length, bits_length]; rfl)]
    have hm : diff (bits [x, y, w]) (bits [x ^^^ 0x01, y ^^^ 0x10, w ^^^ 0x21]) = bits [0x01, 0x10, 0x21] := hm
    rw [hm, BitVec.xor_self]
    decide +kernel
  have hl : (p ++ [x ^^^ 0x01, y ^^^ 0x10, w ^^^ 0x21]).length = blockLen v - 16 := by rw [← h.len]; simp
  have hb : a = (headerBytes v (checksum v uid.bytes seq (p ++ [x, y, w])) uid.bytes seq ++ p) ++ [x, y, w] := by
    rw [h.bytes, blockBytes, List.append_assoc]
  refine ⟨(headerBytes v (checksum v uid.bytes seq (p ++ [x, y, w])) uid.bytes seq ++ p) ++ [x ^^^ 0x01, y ^^^ 0x10, w ^^^ 0x21],
    by rw [hb]; simp, ?_, ?_, ?_, hl⟩
  · have h16 := headerBytes_length v (checksum v uid.bytes seq (p ++ [x, y, w])) uid seq
    rw [hb, List.append_assoc, List.append_assoc, List.take_append_of_le_length (by omega), List.take_append_of_le_length (by omega)]
  · rw [hb, bitErrors_append rfl, bitErrors_self]
    exact (congrArg (0 + ·) (bitErrors_mask [x, y, w] [0x01, 0x10, 0x21] rfl)).trans (by decide)
  · rw [blockBytes, hc, List.append_assoc]

/-- The number of another version with the same block size differs in one bit. -/
def sister : Version → Version
  | .v1 => .v17 | .v2 => .v18 | .v3 => .v19 | .v17 => .v1 | .v18 => .v2 | .v19 => .v3

/-- **C66.** The exception is needed: the version byte is the start value of the checksum, so that a flipped bit of it and the same bit
of the second byte of the uid cancel each other.  Of every block two flipped bits make a valid block of another version and uid with the
same checksum, sequence number and payload. -/
theorem C66_version_violated (v : Version) (uid : Uid) (seq : UInt32) (payload a : List Byte) (h : IsBlock a v uid seq payload) :
    ∃ b uid', b.length = a.length ∧ bitErrors a b = 2 ∧ uid' ≠ uid ∧ IsBlock b (sister v) uid' seq payload := by
  obtain ⟨ub, hub⟩ := uid
  match ub, hub, h with
  | [u0, u1, u2, u3, u4, u5], hub, h =>
  let uid' : Uid := ⟨[u0, u1 ^^^ 0x10, u2, u3, u4, u5], rfl⟩
  have hver : versionByte (sister v) = versionByte v ^^^ 0x10 := by cases v <;> rfl
  have hlen : blockLen (sister v) = blockLen v := by cases v <;> rfl
  have hc : checksum (sister v) [u0, u1 ^^^ 0x10, u2, u3, u4, u5] seq payload = checksum v [u0, u1, u2, u3, u4, u5] seq payload := by
    unfold checksum crc16
    have e : ∀ c : Byte, [u0, c, u2, u3, u4, u5] ++ be32 seq ++ payload = [u0, c] ++ ([u2, u3, u4, u5] ++ be32 seq ++ payload) := fun _ => rfl
    rw [e, e, bits_append [u0, u1 ^^^ 0x10], bits_append [u0, u1], feed_append, feed_append]
    congr 1
    apply xor_eq_zero
    rw [feed_xor (by rw [bits_length, bits_length]; rfl), hver]
    have hm := diff_bytes [u0, u1 ^^^ 0x10] [0x00, 0x10] rfl
    have e0 : List.zipWith (· ^^^ ·) [u0, u1 ^^^ 0x10] [0x00, 0x10] = [u0, u1] := by
      simp [UInt8.xor_assoc]
    rw [e0] at hm
    rw [hm]
    cases v <;> decide +kernel
  have hb : a = [0x53, 0x42, 0x78] ++ ([versionByte v] ++ (be16 (checksum v [u0, u1, u2, u3, u4, u5] seq payload) ++ ([u0] ++ ([u1] ++ ([u2, u3, u4, u5] ++ be32 seq ++ payload))))) := by
    rw [h.bytes]
    simp [blockBytes, headerBytes]
  refine ⟨[0x53, 0x42, 0x78] ++ ([versionByte v ^^^ 0x10] ++ (be16 (checksum v [u0, u1, u2, u3, u4, u5] seq payload) ++ ([u0] ++ ([u1 ^^^ 0x10] ++ ([u2, u3, u4, u5] ++ be32 seq ++ payload))))),
    uid', by rw [hb]; simp, ?_, ?_, ?_, by rw [hlen]; exact h.len⟩
  · have one : ∀ x : Byte, bitErrors [x] [x ^^^ 0x10] = 1 := fun x => (bitErrors_mask [x] [0x10] rfl).trans (by decide)
    rw [hb]
    rw [bitErrors_append rfl, bitErrors_self, bitErrors_append (a := [versionByte v]) (a' := [versionByte v ^^^ 0x10]) rfl, one,
      bitErrors_append rfl, bitErrors_self, bitErrors_append rfl, bitErrors_self,
      bitErrors_append (a := [u1]) (a' := [u1 ^^^ 0x10]) rfl, one, bitErrors_self]
  · intro e
    have e := congrArg Uid.bytes e
    simp only [uid', List.cons.injEq] at e
    have := congrArg (u1 ^^^ ·) e.2.1
    simp [← UInt8.xor_assoc] at this
  · simp [blockBytes, headerBytes, uid', hc, hver]

/-! ### Repair -/

/-- **C66, C25.** Scattered bit errors are repaired: if within bursts of up to `burst` blocks, at most `parity` in each super block set,
any number of blocks have one, two, three or an odd number of flipped bits behind their version byte, `repair` restores the container
byte for byte. -/
theorem C66_repair (E : Env) (laws : E.rs.Laws) (hE : E.Calm) (v : Version) (uid : Uid) (d : Dpb) (bytes mp : List Byte) (c f : File)
    (h : Sound E.rs v uid d bytes mp c) (hB : 1 ≤ d.burst) (bursts : List (Nat × Nat)) (hlen : f.length = c.length)
    (hsize : ∀ b ∈ bursts, b.2 ≤ d.burst) (hcount : ∀ s, (within d bursts s).length ≤ d.parity)
    (hdmg : ∀ k, piece v f k = piece v c k ∨ hit bursts k = true ∧ ValidAt v uid c k ∧ (piece v c k).take 4 = (piece v f k).take 4 ∧
      FewBits (piece v c k) (piece v f k)) :
    ∃ dk st, repairFile E (some d.burst) false f = .ok (some (dk, st)) ∧ st.repairFailed = 0 ∧ dk.file = c := by
  obtain ⟨dk, st, r1, r2, -, -, r5⟩ := C25_bursts E laws hE v uid d bytes mp c f h hB bursts hlen hsize hcount (by
    intro k
    refine (hdmg k).imp_right fun ⟨h1, ⟨s, p, h2⟩, h3, h4⟩ => ⟨h1, broken_of_few h2 h3 h4⟩)
  refine ⟨dk, st, r1, r2, r5 ?_⟩
  intro k hk hs
  by_cases hin : k * blockLen v < c.length
  · have hz := h.container.gaps k hin hk fun i hi => hs (i + 1) (by omega) (by omega)
    have hz : piece v c k = List.replicate (blockLen v) 0 := hz
    rcases hdmg k with e | ⟨-, ⟨s, p, hb⟩, -⟩
    · exact ⟨_, by rw [e]; exact hz⟩
    · rw [hz] at hb; exact absurd hb zeros_not_block
  · exact ⟨0, piece_beyond (by omega)⟩

/-! ### Examples -/

/-- Three bits far from each other. -/
def mask : List Byte := List.replicate 100 0 ++ ([0x11] ++ (List.replicate 410 0 ++ [0x01]))

/-- Flipping them. -/
def flip3 (a : List Byte) : List Byte := List.zipWith (· ^^^ ·) a mask

theorem flip3_few {a : List Byte} (h : a.length = 512) : (flip3 a).length = 512 ∧ a.take 4 = (flip3 a).take 4 ∧ FewBits a (flip3 a) := by
  have hm : mask.length = 512 := by decide +kernel
  have hl : (flip3 a).length = 512 := by simp [flip3, h, hm]
  have h4 : a.take 4 = (flip3 a).take 4 := by
    unfold flip3
    rw [List.take_zipWith]
    have : mask.take 4 = [0, 0, 0, 0] := by decide
    rw [this]
    match a, h with
    | x :: y :: w :: u :: _, _ => simp
    | [], h => simp at h
    | [_], h => simp at h
    | [_, _], h => simp at h
    | [_, _, _], h => simp at h
  refine ⟨hl, h4, ⟨by omega, .inl ?_⟩, ?_⟩
  rotate_left
  · have e1 : a[3]? = (a.take 4)[3]? := by rw [List.getElem?_take_of_lt (by omega)]
    have e2 : (flip3 a)[3]? = ((flip3 a).take 4)[3]? := by rw [List.getElem?_take_of_lt (by omega)]
    rw [e1, e2, h4]
  · rw [show bitErrors a (flip3 a) = (bits mask).count true from bitErrors_mask a mask (by omega)]
    decide +kernel

/-- Hypotheses of C66_detected_partial: three flipped bits in a block of version 1. -/
example : ∃ a b, IsBlock a .v1 demoOwner 5 (List.replicate 496 7) ∧ a ≠ b ∧ FewBits a b ∧
    ∀ rest r hp, Block.read? r (b ++ rest) hp = none := by
  have h : IsBlock (blockBytes .v1 demoOwner.bytes 5 (List.replicate 496 7)) .v1 demoOwner 5 (List.replicate 496 7) := ⟨rfl, List.length_replicate⟩
  have hf := (flip3_few (isBlock_length h)).2.2
  refine ⟨_, _, h, ?_, hf, fun rest r hp => C66_detected_partial _ _ _ _ _ _ h hf rest r hp⟩
  intro e
  rw [← e] at hf
  have := hf.1.2
  rw [bitErrors_self] at this
  omega

/-- Hypotheses of C66_known_version: a bit of the version byte and the same of the uid. -/
example : ∃ a b, IsBlock a .v2 demoOwner 5 (List.replicate 112 7) ∧ Flipped a b ∧ (∀ r, Block.read? r b none ≠ none) ∧
    ∀ rest r, Block.read? r (b ++ rest) (some fun x => x.version == .v2) = none := by
  have h : IsBlock (blockBytes .v2 demoOwner.bytes 5 (List.replicate 112 7)) .v2 demoOwner 5 (List.replicate 112 7) :=
    ⟨rfl, List.length_replicate⟩
  obtain ⟨c, uid', k1, k2, -, k3⟩ := C66_version_violated _ _ _ _ _ h
  have hf : Flipped (blockBytes .v2 demoOwner.bytes 5 (List.replicate 112 7)) c := ⟨k1.symm, .inl (by omega)⟩
  refine ⟨_, c, h, hf, fun r e => ?_, fun rest r => C66_known_version _ _ _ _ _ _ h hf rest r _ (by simp)⟩
  have : c.length = blockLen .v18 := isBlock_length k3
  have hr := (Block.read?_iff r (blockOf .v18 uid' 5 (List.replicate 112 7)) c none).2
    ⟨.v18, uid', 5, _, [], by rw [List.take_of_length_le (by omega)]; exact k3, by rw [List.take_of_length_le (by omega)]; simp, rfl, by simp⟩
  rw [e] at hr
  cases hr

/-- Hypotheses of C66_distance, C66_four_bits and C66_version_violated. -/
example : ∃ a b c, ∃ uid' : Uid, IsBlock a .v2 demoOwner 5 (List.replicate 109 7 ++ [1, 2, 3]) ∧ IsBlock b .v2 demoOwner 5 (List.replicate 109 7 ++ [0, 18, 34]) ∧
    a ≠ b ∧ bitErrors a b = 4 ∧ bitErrors a c = 2 ∧ IsBlock c .v18 uid' 5 (List.replicate 109 7 ++ [1, 2, 3]) := by
  have h : IsBlock (blockBytes .v2 demoOwner.bytes 5 (List.replicate 109 7 ++ [1, 2, 3])) .v2 demoOwner 5 (List.replicate 109 7 ++ [1, 2, 3]) :=
    ⟨rfl, by simp [blockLen]⟩
  obtain ⟨b, -, -, h2, h3⟩ := C66_four_bits _ _ _ _ _ _ _ _ h
  obtain ⟨c, uid', -, k2, -, k3⟩ := C66_version_violated _ _ _ _ _ h
  refine ⟨_, b, c, uid', h, h3, ?_, h2, k2, k3⟩
  intro e
  rw [← e, bitErrors_self] at h2
  omega

/-- C66_repair: three flipped bits in the first metadata block and three in the first data block. -/
example : ∃ mp c f dk st, Sound RsWitness.codec .v17 demoOwner demoDpb (List.replicate 1000 7) mp c ∧ f ≠ c ∧
    repairFile demoEnv (some 3) false f = .ok (some (dk, st)) ∧ dk.file = c := by
  obtain ⟨mp, c, h⟩ := demo_sound
  have hmp := metasToBytes_length h.plain
  have hal := h.container.aligned
  obtain ⟨hcnt, hps⟩ := payloads_count RsWitness.codec_laws (v := .v17) (d := demoDpb) (by decide) (by decide) (by decide)
    (List.replicate 1000 7)
  obtain ⟨m0', h0⟩ := image_meta h.container hmp (k := 0) (by decide)
  have m0 : IsBlock (piece .v17 c 0) .v17 demoOwner 0 mp := ⟨m0', hmp⟩
  have h1c : (1 : Nat) ≤ (payloads RsWitness.codec .v17 (some demoDpb) (fileChunks .v17 (List.replicate 1000 7))).length := by
    rw [hcnt, List.length_replicate]; decide
  obtain ⟨q, -, m1, h1⟩ := image_data h.container hps (s := 1) (Nat.le_refl 1) h1c
  rw [show placeOf demoDpb 1 = 1 by decide] at h1 m1
  obtain ⟨l0, t0, f0⟩ := flip3_few (isBlock_length m0)
  obtain ⟨l1, t1, f1⟩ := flip3_few (isBlock_length m1)
  obtain ⟨a1, a2, a3⟩ := put_spec (v := .v17) (b := flip3 (piece .v17 c 0)) l0 hal h0
  obtain ⟨b1, b2, b3⟩ := put_spec (v := .v17) (c := put .v17 c 0 (flip3 (piece .v17 c 0))) (b := flip3 (piece .v17 c 1)) l1
    (by rw [a1]; exact hal) (by rw [a1]; exact h1)
  have hw := C66_repair demoEnv demo_laws demo_calm .v17 demoOwner demoDpb _ mp c _ h (by decide) [(0, 2)] (by rw [b1, a1]) (by decide)
    (few (by decide)) (by
      intro k
      by_cases k0 : k = 0
      · subst k0
        refine .inr ⟨by decide, ⟨_, _, m0⟩, ?_⟩
        rw [b3 0 (by omega), a2]
        exact ⟨t0, f0⟩
      · by_cases k1 : k = 1
        · subst k1
          refine .inr ⟨by decide, ⟨_, _, m1⟩, ?_⟩
          rw [b2]
          exact ⟨t1, f1⟩
        · exact .inl (by rw [b3 k k1, a3 k k0]))
  obtain ⟨dk, st, r1, -, r2⟩ := hw
  refine ⟨mp, c, _, dk, st, h, ?_, r1, r2⟩
  intro e
  have : piece .v17 (put .v17 (put .v17 c 0 (flip3 (piece .v17 c 0))) 1 (flip3 (piece .v17 c 1))) 1 = piece .v17 c 1 := by rw [e]
  rw [b2] at this
  rw [this] at f1
  have := f1.1.2
  rw [bitErrors_self] at this
  omega

end Verif.BitErrors
