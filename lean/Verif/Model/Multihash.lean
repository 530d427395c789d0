import Verif.Model.Bytes
/-!
# Model of `src/multihash.rs`

The hash functions themselves are parameters of later models; here only the container encoding of digests.
-/

namespace Verif

/-- `enum HashType`, `src/multihash.rs` 5-16. -/
inductive HashType
  | sha1 | sha2_256 | sha256 | sha2_512_256 | sha2_512_512 | sha512
  | blake2b_256 | blake2b_512 | blake2s_128 | blake2s_256
  deriving DecidableEq, Repr

namespace HashType

/-- `Param::new(..).hash_func_type`, `src/multihash.rs` 108-138. -/
def funcType : HashType → List Byte
  | sha1 => [0x11]
  | sha2_256 | sha256 => [0x12]
  | sha2_512_256 => [0x13]
  | sha2_512_512 | sha512 => [0x13]
  | blake2b_256 => [0xb2, 0x20]
  | blake2b_512 => [0xb2, 0x40]
  | blake2s_128 => [0xb2, 0x50]
  | blake2s_256 => [0xb2, 0x60]

/-- `Param::new(..).digest_length`, `src/multihash.rs` 116-138. -/
def digestLen : HashType → Nat
  | sha1 => 0x14
  | sha2_256 | sha256 => 0x20
  | sha2_512_256 => 0x20
  | sha2_512_512 | sha512 => 0x40
  | blake2b_256 => 0x20
  | blake2b_512 => 0x40
  | blake2s_128 => 0x10
  | blake2s_256 => 0x20

/-- `Param::total_length`, `src/multihash.rs` 140-142. -/
def totalLen (t : HashType) : Nat := t.funcType.length + 1 + t.digestLen

/-- `hash_type_is_supported`, `src/multihash.rs` 168-173 with `Ctx::new` 176-224. -/
def supported : HashType → Bool
  | sha2_512_256 => false
  | _ => true

/-- Round trip through a hashing context: `Ctx::new(t).hash_type()`, `src/multihash.rs` 176-236. -/
def ctxType : HashType → HashType
  | sha2_256 => sha256
  | sha2_512_512 => sha512
  | t => t

/-- `hash_type_to_string`, `src/multihash.rs` 20-33. -/
def toStr : HashType → String
  | sha1 => "SHA1"
  | sha2_256 | sha256 => "SHA256"
  | sha2_512_256 => "SHA2-512-256"
  | sha2_512_512 | sha512 => "SHA512"
  | blake2b_256 => "BLAKE2b-256"
  | blake2b_512 => "BLAKE2b-512"
  | blake2s_128 => "BLAKE2s-128"
  | blake2s_256 => "BLAKE2s-256"

/-- The match inside `string_to_hash_type`, `src/multihash.rs` 40-50, on the already lower-cased string. -/
def ofLower : String → Option HashType
  | "sha1" => some sha1
  | "sha2-256" => some sha256
  | "sha256" => some sha256
  | "sha2-512-256" => some sha2_512_256
  | "sha2-512-512" => some sha512
  | "sha512" => some sha512
  | "blake2b-256" => some blake2b_256
  | "blake2b-512" => some blake2b_512
  | "blake2s-128" => some blake2s_128
  | "blake2s-256" => some blake2s_256
  | _ => none

/-- `string_to_hash_type`, `src/multihash.rs` 35-62 (`to_lowercase`, match, then support check). -/
def ofStr (s : String) : Option HashType :=
  match ofLower s.toLower with
  | some t => if t.supported then some t else none
  | none => none

end HashType

/-- `type HashBytes = (HashType, Box<[u8]>)`, `src/multihash.rs` 18.  The digest length always matches the type:
every construction site (`take!(digest_length)` in the parser, lines 339-340, and `finish_into_bytes`, lines 304-311)
produces `digest_length` bytes. -/
structure HashBytes where
  ty : HashType
  digest : List Byte
  len : digest.length = ty.digestLen
  deriving DecidableEq

/-- `hash_bytes_to_bytes`, `src/multihash.rs` 64-78: the bytes written at the front of the buffer. -/
def HashBytes.toBytes (h : HashBytes) : List Byte :=
  h.ty.funcType ++ [UInt8.ofNat h.ty.digestLen] ++ h.digest

/-- nom's `tag!`: the input with the prefix removed, or failure. -/
def tag (t input : List Byte) : Option (List Byte) :=
  if t.isPrefixOf input then some (input.drop t.length) else none

/-- `make_hash_parser_w_len!`, `src/multihash.rs` 329-344: total length, function type, digest length, digest. -/
def hashOneP (t : HashType) (input : List Byte) : Option (HashBytes × List Byte) :=
  match tag [UInt8.ofNat t.totalLen] input with
  | none => none
  | some r1 =>
    match tag t.funcType r1 with
    | none => none
    | some r2 =>
      match tag [UInt8.ofNat t.digestLen] r2 with
      | none => none
      | some r3 =>
        if h : t.digestLen ≤ r3.length then
          some (⟨t, r3.take t.digestLen, by simp [h]⟩, r3.drop t.digestLen)
        else none

/-- The types tried by `multihash_w_len_p`, in order, `src/multihash.rs` 375-386. -/
def hashParserOrder : List HashType :=
  [.sha1, .sha256, .sha2_512_256, .sha512, .blake2b_256, .blake2b_512, .blake2s_128, .blake2s_256]

/-- `multihash_w_len_p`, `src/multihash.rs` 375-386 (`alt!`: first parser that succeeds). -/
def multihashP (input : List Byte) : Option (HashBytes × List Byte) :=
  hashParserOrder.findSome? fun t => hashOneP t input

end Verif
