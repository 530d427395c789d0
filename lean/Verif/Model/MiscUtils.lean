import Verif.Model.Header
/-!
# Model of `src/misc_utils.rs`, `src/integer_utils.rs`, `src/time_utils.rs` 23-29 and the option checks of
`src/cli_macros.rs`

Rust strings appear here as their bytes.
-/

namespace Verif.Misc

/-! ### Hexadecimal, `src/misc_utils.rs` 19-78 -/

/-- `enum HexError`, lines 19-23. -/
inductive HexError
  | invalidHexString | invalidLen
  deriving DecidableEq, Repr

/-- `is_valid_hex_char`, lines 31-33. -/
def isValidHexChar (c : Byte) : Bool :=
  (0x30 ≤ c && c ≤ 0x39) || (0x41 ≤ c && c ≤ 0x46) || (0x61 ≤ c && c ≤ 0x66)

/-- `hex_char_to_value`, lines 35-45; `none` is the `panic!()`. -/
def hexCharToValue (c : Byte) : Option Byte :=
  if 0x30 ≤ c ∧ c ≤ 0x39 then some (c - 0x30)
  else if 0x41 ≤ c ∧ c ≤ 0x46 then some (c - 0x41 + 0x0A)
  else if 0x61 ≤ c ∧ c ≤ 0x66 then some (c - 0x61 + 0x0A)
  else none

/-- The loop of lines 58-63 over pairs of characters; `none` is a panic. -/
def hexPairs : List Byte → Option (List Byte)
  | [] => some []
  | [_] => none
  | a :: b :: rest => do
    let l ← hexCharToValue a
    let r ← hexCharToValue b
    let t ← hexPairs rest
    return (l * 0x10 + r) :: t

/-- `hex_string_to_bytes`, lines 47-67.  Outer `none` is a panic (proved unreachable). -/
def hexToBytes (s : List Byte) : Option (Except HexError (List Byte)) :=
  if s.length % 2 = 0 then
    if s.all isValidHexChar then (hexPairs s).map .ok else some (.error .invalidHexString)
  else some (.error .invalidLen)

/-- One digit as printed by `{:x}` / `{:X}`, `a` being the code of the first letter. -/
def hexDigit (a : Byte) (n : Nat) : Byte := if n < 10 then 0x30 + UInt8.ofNat n else a + UInt8.ofNat (n - 10)

/-- `format!("{:02x}", b)`: two digits, zero padded. -/
def hexByte (a : Byte) (b : Byte) : List Byte := [hexDigit a (b.toNat / 16), hexDigit a (b.toNat % 16)]

/-- `bytes_to_lower_hex_string`, lines 70-73. -/
def lowerHex (bs : List Byte) : List Byte := bs.flatMap (hexByte 0x61)

/-- `bytes_to_upper_hex_string`, lines 75-78. -/
def upperHex (bs : List Byte) : List Byte := bs.flatMap (hexByte 0x41)

/-- `parse_uid!`, `src/cli_macros.rs` 417-445: `none` is any of the error exits. -/
def parseUid (s : List Byte) : Option Uid :=
  match hexToBytes s with
  | some (.ok x) => if h : x.length = 6 then some ⟨x, h⟩ else none
  | _ => none

/-! ### Integers, `src/integer_utils.rs` 17-41 -/

/-- `round_down_to_multiple`, lines 17-21. -/
def roundDown (val m : Nat) : Nat := (val / m) * m

/-- `round_up_to_multiple`, lines 23-27. -/
def roundUp (val m : Nat) : Nat := ((val + (m - 1)) / m) * m

/-! ### Byte ranges, `src/misc_utils.rs` 118-174 -/

/-- `enum RangeEnd`, lines 7-11. -/
inductive RangeEnd
  | inc (n : Nat)
  | exc (n : Nat)
  deriving DecidableEq, Repr

/-- `enum PositionOrLength`, lines 13-17. -/
inductive PosOrLen
  | pos (n : Nat)
  | len (n : Nat)
  deriving DecidableEq, Repr

/-- `struct RequiredLenAndSeekTo`, lines 118-121. -/
structure Range where
  requiredLen : Nat
  seekTo : Nat
  deriving DecidableEq, Repr

/-- Lines 131-140. -/
def lastPossiblePos : PosOrLen → Nat
  | .pos x => x
  | .len x => if x = 0 then 0 else x - 1

/-- `align`, lines 146-152. -/
def align (forceMisalign : Bool) (multipleOf : Nat) (x : Nat) : Nat :=
  if forceMisalign then x else roundDown x multipleOf

/-- The `u64` subtraction `n - 1` of line 164 in a release build. -/
def wrapPred (n : Nat) : Nat := if n = 0 then 2 ^ 64 - 1 else n - 1

/-- `from_byte`, lines 153-156. -/
def startPos (fromByte : Option Nat) (forceMisalign : Bool) (m last : Nat) : Nat :=
  match fromByte with
  | none => 0
  | some n => align forceMisalign m (min n last)

/-- `to_byte_inc`, lines 157-167. -/
def endInc (toByte : Option RangeEnd) (start last : Nat) : Nat :=
  match toByte with
  | none => last
  | some (.inc n) => min (max n start) last
  | some (.exc n) => min (max (wrapPred n) start) last

/-- `calc_required_len_and_seek_to_from_byte_range`, lines 123-174.  All numbers are below `2^64`; additions of
positions and lengths are exact (file sizes are below `2^63`). -/
def byteRange (fromByte : Option Nat) (toByte : Option RangeEnd) (forceMisalign : Bool) (soFar : Nat)
    (last : PosOrLen) (multipleOf : Option Nat) : Range :=
  let last := lastPossiblePos last
  let m := multipleOf.getD scanBlockSize
  let start := startPos fromByte forceMisalign m last
  { requiredLen := endInc toByte start last - start + 1
    seekTo := min (align forceMisalign m (start + soFar)) last }

/-! ### Time, `src/time_utils.rs` 23-29 -/

/-- `seconds_to_hms`: `i64` division truncates towards zero. -/
def secondsToHms (total : Int) : Int × Int × Int :=
  let hour := total.tdiv (60 * 60)
  let minute := (total - hour * 60 * 60).tdiv 60
  let second := total - hour * 60 * 60 - minute * 60
  (hour, minute, second)

/-! ### Shard counts, `src/cli_macros.rs` 337-358 -/

/-- Results of `ReedSolomon::new(data, parity)` from the `reed_solomon_erasure` crate (not part of the repository):
zero shards of either kind are rejected first, then totals above the field order 256. -/
inductive ShardError
  | tooFewData | tooFewParity | tooMany
  deriving DecidableEq, Repr

/-- `check_data_parity_shards!`, `src/cli_macros.rs` 337-358. -/
def checkShards (data parity : Nat) : Except ShardError Unit :=
  if data = 0 then .error .tooFewData
  else if parity = 0 then .error .tooFewParity
  else if 256 < data + parity then .error .tooMany
  else .ok ()

/-- `buffer_is_blank`, `src/misc_utils.rs` 186-194. -/
def bufferIsBlank (buf : List Byte) : Bool := buf.all (· == 0)

end Verif.Misc
