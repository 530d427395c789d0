import Verif.Lemmas.MetadataParse
/-!
# C04 - C07: metadata fields and multihashes
-/

namespace Verif

/-- **C04 (partial).** A list of representable fields that fits is read back unchanged, in order, from a payload of any
size.  Missing from the full claim: fields the format cannot represent (`Metadata.Storable`, `ShardsOk`), for which the
claim is false, see `C04_*_violated`. -/
theorem C04_metadata_roundtrip_partial (ms : List Metadata) (n : Nat) (bs : List Byte)
    (hst : ∀ m ∈ ms, m.Storable) (hsh : ShardsOk ms) (h : metasToBytes ms n = some bs) : metasFromBytes bs = ms :=
  metas_roundtrip hst hsh h

example : (∀ m ∈ [Metadata.fnm "a.txt", .fsz 12345, .fdt (-1), .rsd 10, .rsp 2, .rsd 3], m.Storable) ∧
    ShardsOk [Metadata.fnm "a.txt", .fsz 12345, .fdt (-1), .rsd 10, .rsp 2, .rsd 3] := by
  refine ⟨by simp [Metadata.Storable]; decide +kernel, ?_⟩
  intro d p hd hp
  simp [firstRsd, firstRsp] at hd hp
  omega

/-- The bound is sharp: 255 + 1 shards survive. -/
example : metasFromBytes ((metasToBytes [.rsd 255, .rsp 1] 112).getD []) = [.rsd 255, .rsp 1] := by decide +kernel

/-- **C04 violated**: an empty name (`update --fnm ""`) is written but not read back, and hides the fields after it. -/
theorem C04_empty_name_violated :
    ∃ ms bs, metasToBytes ms 112 = some bs ∧ ms = [.fnm "", .rsd 10, .rsp 2] ∧ metasFromBytes bs = [] := by
  refine ⟨_, _, rfl, rfl, ?_⟩
  decide +kernel

/-- **C04 violated**: an over-long name wraps the length byte; reading returns a different (truncated) list. -/
theorem C04_long_name_violated :
    ∃ (ms : List Metadata) (bs : List Byte) (name : String), metasToBytes ms 496 = some bs ∧
      ms = [.fnm name, .fsz 7] ∧ name.utf8ByteSize = 257 ∧ metasFromBytes bs = [.fnm "a"] := by
  have h : (metasToBytes [.fnm (String.ofList (List.replicate 257 'a')), .fsz 7] 496).map metasFromBytes
      = some [.fnm "a"] := by decide +kernel
  obtain ⟨bs, h1, h2⟩ := Option.map_eq_some_iff.1 h
  exact ⟨_, bs, _, h1, rfl, by decide +kernel, h2⟩

/-- **C04 violated**: shard counts 200 and 100 are written but both dropped on reading. -/
theorem C04_shards_violated :
    ∃ bs, metasToBytes [.rsd 200, .rsp 100, .fsz 7] 112 = some bs ∧ metasFromBytes bs = [.fsz 7] :=
  ⟨_, rfl, by decide +kernel⟩

/-- **C05.** Writing succeeds exactly when the fields fit, and then the payload is the fields followed by 0x1A. -/
theorem C05_metadata_write (ms : List Metadata) (n : Nat) :
    (metasToBytes ms n = none ↔ n < metaSpace ms) ∧
    (metaSpace ms ≤ n → ∃ bs : List Byte, metasToBytes ms n = some bs ∧ bs.length = n ∧
      bs.take (metaSpace ms) = (ms.map Metadata.singleBytes).flatten ∧
      bs.drop (metaSpace ms) = List.replicate (n - metaSpace ms) 0x1A) := by
  rw [metasToBytes_eq]
  refine ⟨by split <;> simp <;> omega, ?_⟩
  intro h
  rw [if_pos h]
  have hl := flatten_singleBytes_length ms
  refine ⟨_, rfl, by rw [List.length_append, hl, List.length_replicate]; omega, ?_, ?_⟩
  · rw [List.take_append_of_le_length (by omega), List.take_of_length_le (by omega)]
  · rw [List.drop_append, hl, List.drop_eq_nil_of_le (by omega)]; simp

/-- **C05.** One field is its id, its length, its contents. -/
theorem C05_field_bytes (s : String) (n : UInt64) (k : Byte) :
    (Metadata.fnm s).singleBytes = [0x46, 0x4E, 0x4D, UInt8.ofNat s.utf8ByteSize] ++ strBytes s ∧
    (Metadata.snm s).singleBytes = [0x53, 0x4E, 0x4D, UInt8.ofNat s.utf8ByteSize] ++ strBytes s ∧
    (Metadata.fsz n).singleBytes = [0x46, 0x53, 0x5A, 8] ++ beBytes 8 n.toNat ∧
    (Metadata.rsd k).singleBytes = [0x52, 0x53, 0x44, 1, k] ∧
    (Metadata.rsp k).singleBytes = [0x52, 0x53, 0x50, 1, k] := by
  refine ⟨rfl, rfl, rfl, rfl, rfl⟩

/-- Exactly at the boundary (5 + 5 bytes into 10) and one byte short. -/
example : metasToBytes [.rsd 1, .rsp 2] 10 ≠ none ∧ metasToBytes [.rsd 1, .rsp 2] 9 = none := by decide +kernel

/-- **C06.** Whatever the payload bytes: parsing terminates (the model is total) and every field returned is
representable (names are non-empty valid UTF-8 of at most 255 bytes, shard counts at least 1, digests of the right
length by typing, no aliased hash type), and the shard counts respect the Reed-Solomon limit. -/
theorem C06_parsed_fields_sane (bs : List Byte) :
    (∀ m ∈ metasFromBytes bs, m.Storable) ∧ ShardsOk (metasFromBytes bs) :=
  ⟨(metasFromBytes_sane bs).1, (metasFromBytes_sane bs).2.1⟩

/-- **C06.** In particular a parsed metadata block can always be written back into a payload of the same size, and
reading that gives the same fields again. -/
theorem C06_parsed_rewritable (bs : List Byte) :
    ∃ bs', metasToBytes (metasFromBytes bs) bs.length = some bs' ∧ bs'.length = bs.length ∧
      metasFromBytes bs' = metasFromBytes bs := by
  obtain ⟨h1, h2, h3⟩ := metasFromBytes_sane bs
  obtain ⟨bs', h4, h5, _⟩ := (C05_metadata_write _ bs.length).2 h3
  exact ⟨bs', h4, h5, metas_roundtrip h1 h2 h4⟩

/-- Junk between fields ends the parse; a zero shard count is dropped; non UTF-8 names are dropped. -/
example : metasFromBytes ([0x52, 0x53, 0x44, 1, 0] ++ [0x52, 0x53, 0x50, 1, 3] ++ [0x46, 0x4E, 0x4D, 1, 0xFF] ++
    [0x53, 0x4E, 0x4D, 1, 0x61] ++ [0, 0] ++ [0x52, 0x53, 0x50, 1, 9]) = [.rsp 3, .snm "a"] := by decide +kernel

/-- **C07.** A digest of any hash type other than the two aliases is read back exactly, with the bytes after it
untouched.  (The aliases `SHA2_256`, `SHA2_512_512` are never produced by hashing, see `C07_ctx_type`.) -/
theorem C07_multihash_roundtrip (h : HashBytes) (r : List Byte)
    (ha : h.ty ≠ .sha2_256 ∧ h.ty ≠ .sha2_512_512) :
    multihashP (UInt8.ofNat h.ty.totalLen :: (h.toBytes ++ r)) = some (h, r) :=
  multihashP_toBytes h ha r

/-- **C07.** Encodings of digests are prefix free: no digest encoding can be read as another digest, of any type. -/
theorem C07_multihash_unambiguous (h h' : HashBytes) (r r' : List Byte)
    (ha : h.ty ≠ .sha2_256 ∧ h.ty ≠ .sha2_512_512) (ha' : h'.ty ≠ .sha2_256 ∧ h'.ty ≠ .sha2_512_512)
    (he : UInt8.ofNat h.ty.totalLen :: (h.toBytes ++ r) = UInt8.ofNat h'.ty.totalLen :: (h'.toBytes ++ r')) :
    h = h' ∧ r = r' := by
  have h1 := C07_multihash_roundtrip h r ha
  rw [he, C07_multihash_roundtrip h' r' ha'] at h1
  simp at h1
  exact ⟨h1.1.symm, h1.2.symm⟩

/-- **C07.** The parser only ever returns encodings that are literally there. -/
theorem C07_multihash_parse_exact (input r : List Byte) (h : HashBytes) (hp : multihashP input = some (h, r)) :
    input = UInt8.ofNat h.ty.totalLen :: (h.toBytes ++ r) ∧ h.ty ≠ .sha2_256 ∧ h.ty ≠ .sha2_512_512 := by
  obtain ⟨h1, h2, h3⟩ := multihashP_inv hp
  exact ⟨h3, h1, h2⟩

/-- **C07.** Hashing never produces an alias, and the type of a computed digest is the requested one up to alias. -/
theorem C07_ctx_type (t : HashType) : t.ctxType ≠ .sha2_256 ∧ t.ctxType ≠ .sha2_512_512 ∧
    t.ctxType.funcType = t.funcType ∧ t.ctxType.digestLen = t.digestLen ∧ t.ctxType.toStr = t.toStr := by
  cases t <;> decide

/-- **C07.** Hash names printed by the program are accepted by it and denote the same function. -/
theorem C07_hash_names (t : HashType) (h : t.supported) : HashType.ofStr t.toStr = some t.ctxType := by
  revert h; cases t <;> decide +kernel

/-- **C07.** A name of a hash function is accepted only if that function can be computed; case does not matter. -/
theorem C07_accepted_names (s : String) (t : HashType) (h : HashType.ofStr s = some t) :
    t.supported = true ∧ ∀ s', s'.toLower = s.toLower → HashType.ofStr s' = some t := by
  unfold HashType.ofStr at h ⊢
  refine ⟨?_, fun s' e => by rw [e]; exact h⟩
  split at h
  · split at h
    · simp only [Option.some.injEq] at h
      subst h
      assumption
    · simp at h
  · simp at h

example : HashType.ofStr "Sha2-256" = some .sha256 ∧ HashType.ofStr "sha2-512-256" = none := by decide +kernel

/-- **C07.** The function codes alone tell the hash functions apart that can be computed; SHA2-512-256, which cannot, shares the
code of SHA-512 and differs in the length of the digest. -/
theorem C07_codes_distinct (t t' : HashType) (h : t.funcType = t'.funcType) :
    (t.supported → t'.supported → t.ctxType = t'.ctxType) ∧ (t.digestLen = t'.digestLen → t.ctxType = t'.ctxType) := by
  revert h; cases t <;> cases t' <;> decide

example : HashType.sha2_256.funcType = HashType.sha256.funcType ∧ HashType.sha2_256.ctxType = .sha256 ∧
    HashType.sha2_512_256.funcType = HashType.sha512.funcType ∧ HashType.sha2_512_256.ctxType ≠ .sha512 := by decide

end Verif
