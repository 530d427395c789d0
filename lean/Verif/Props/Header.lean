import Verif.Lemmas.Block
/-!
# C03, C44: headers and version tables
-/

namespace Verif
open Format

/-- **C03.** What is written is the documented 16-byte layout. -/
theorem C03_header_layout (h : Header) : h.toBytes = headerBytes h.version h.crc h.uid.bytes h.seq :=
  Header.toBytes_eq h

/-- **C03.** Writing then parsing gives the header back. -/
theorem C03_header_roundtrip (h : Header) : Header.fromBytes h.toBytes = some h := Header.fromBytes_toBytes h

/-- **C03.** Re-writing a parsed header gives the same bytes. -/
theorem C03_header_rewrite (buf : List Byte) (h : Header) (hp : Header.fromBytes buf = some h) : h.toBytes = buf :=
  (Header.fromBytes_inv hp).symm

/-- **C03.** Parsing succeeds exactly on 16-byte buffers starting with `SBx` and one of the six version bytes. -/
theorem C03_header_accept_iff (buf : List Byte) :
    (Header.fromBytes buf).isSome ↔
      buf.length = 16 ∧ ∃ b rest, buf = 0x53 :: 0x42 :: 0x78 :: b :: rest ∧
        (b = 1 ∨ b = 2 ∨ b = 3 ∨ b = 17 ∨ b = 18 ∨ b = 19) := by
  constructor
  · intro h
    obtain ⟨hd, hh⟩ := Option.isSome_iff_exists.1 h
    have := (Header.fromBytes_iff buf hd).1 hh
    refine ⟨by rw [this, headerBytes_length], ?_⟩
    rw [this]
    refine ⟨_, _, by simp [headerBytes]; exact ⟨rfl, rfl⟩, ?_⟩
    cases hd.version <;> simp [versionByte]
  · rintro ⟨hl, b, rest, rfl, hb⟩
    obtain ⟨v, hv⟩ : ∃ v, b = versionByte v := by
      rcases hb with rfl | rfl | rfl | rfl | rfl | rfl
      exacts [⟨.v1, rfl⟩, ⟨.v2, rfl⟩, ⟨.v3, rfl⟩, ⟨.v17, rfl⟩, ⟨.v18, rfl⟩, ⟨.v19, rfl⟩]
    subst hv
    have hr : rest.length = 12 := by simp at hl; omega
    unfold Header.fromBytes Header.headerP
    rw [if_neg (by simp [hr]), if_pos (by simp [signature])]
    simp only [List.drop_succ_cons, List.drop_zero]
    rw [versionByte_eq, Header.verP_eq]
    simp [hr]

example : (Header.fromBytes [0x53, 0x42, 0x78, 0x11, 0xDE, 0xAD, 1, 2, 3, 4, 5, 6, 0, 0, 1, 2]).map
    (fun h => (h.version, h.crc, h.uid.bytes, h.seq)) = some (.v17, 0xDEAD#16, [1, 2, 3, 4, 5, 6], 258) := by
  decide +kernel

example : Header.fromBytes [0x53, 0x42, 0x78, 0x04, 0xDE, 0xAD, 1, 2, 3, 4, 5, 6, 0, 0, 1, 2] = none := by
  decide +kernel

/-- **C44.** Version names: parsing accepts exactly the decimal numeral of each version. -/
theorem C44_version_name_iff (s : String) (v : Version) : Version.ofString s = some v ↔ s = toString v.num := by
  constructor
  · intro h
    unfold Version.ofString at h
    split at h <;> simp at h <;> subst h <;> rfl
  · rintro rfl; cases v <;> rfl

/-- **C44.** The header byte is the version number, distinct versions have distinct bytes and names. -/
theorem C44_version_distinct (v w : Version) : v.num = w.num ↔ v = w := by
  cases v <;> cases w <;> decide

/-- **C44.** Block size, payload size, shard use: the documented table. -/
theorem C44_version_tables (v : Version) :
    v.blockSize = blockLen v ∧ v.dataSize = blockLen v - headerSize ∧ headerSize < blockLen v ∧
    scanBlockSize ∣ blockLen v ∧ blockLen v ≤ largestBlockSize ∧
    (v.usesRs = true ↔ 17 ≤ v.num) ∧ (v.usesRs = true → v.forcesMeta = true) ∧ v.num < 256 := by
  cases v <;> decide

end Verif
