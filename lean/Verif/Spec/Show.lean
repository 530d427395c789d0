import Verif.Spec.Json
import Verif.Model.Show
/-!
# Specification vocabulary: what `show --json` should print
-/

namespace Verif.JsonSpec
open Json (Str)

/-- A key. -/
def key (s : String) : List Nat := codes s.toList

/-- A number. -/
def numV (n : Nat) : Val := .num (Nat.toDigits 10 n)

/-- A string. -/
def strV (s : Str) : Val := .str (codes s)

/-- Two hexadecimal digits per byte, the sixteen digits being given. -/
def hexText (digits : String) (bs : List Byte) : Str :=
  bs.flatMap fun b => (digits.toList.drop (b.toNat / 16)).take 1 ++ (digits.toList.drop (b.toNat % 16)).take 1

/-- The name of a hash function, without distinguishing names of the same function. -/
def hashLabel : HashType → Str
  | .sha1 => "SHA1".toList
  | .sha256 | .sha2_256 => "SHA256".toList
  | .sha512 | .sha2_512_512 => "SHA512".toList
  | .sha2_512_256 => "SHA2-512-256".toList
  | .blake2b_256 => "BLAKE2b-256".toList
  | .blake2b_512 => "BLAKE2b-512".toList
  | .blake2s_128 => "BLAKE2s-128".toList
  | .blake2s_256 => "BLAKE2s-256".toList

/-- A date in two time zones. -/
def dateShown (utc loc : Option Str) : Str :=
  if utc.isSome ∧ loc.isSome then utc.getD [] ++ " (UTC)  ".toList ++ loc.getD [] ++ " (Local)".toList else "Invalid recorded date time".toList

/-- A value, or `null`. -/
def orNull (v : Option Val) : Val := v.getD .null

/-- The first field of a kind. -/
def recorded {α : Type} (ms : List Metadata) (get : Metadata → Option α) : Option α := ms.findSome? get

/-- The object that describes the `k`-th metadata block found, at `pos`. -/
def shownBlock (utc loc : Int64 → Option Str) (k pos : Nat) (v : Version) (uid : List Byte) (ms : List Metadata) : Val :=
  .obj [
    (key "metadataBlockNumber", numV k),
    (key "foundAtByte", numV pos),
    (key "fileUID", strV (hexText "0123456789ABCDEF" uid)),
    (key "fileName", orNull (recorded ms fun | .fnm s => some (strV s.toList) | _ => none)),
    (key "sbxContainerName", orNull (recorded ms fun | .snm s => some (strV s.toList) | _ => none)),
    (key "sbxContainerVersion", numV v.num),
    (key "rsDataShardCount", if v.usesRs then orNull (recorded ms fun | .rsd n => some (numV n.toNat) | _ => none) else .null),
    (key "rsParityShardCount", if v.usesRs then orNull (recorded ms fun | .rsp n => some (numV n.toNat) | _ => none) else .null),
    (key "fileSize", orNull (recorded ms fun | .fsz n => some (numV n.toNat) | _ => none)),
    (key "fileModificationTime", orNull (recorded ms fun | .fdt t => some (strV (dateShown (utc t) (loc t))) | _ => none)),
    (key "sbxEncodingTime", orNull (recorded ms fun | .sdt t => some (strV (dateShown (utc t) (loc t))) | _ => none)),
    (key "hash", orNull (recorded ms fun
      | .hsh h => some (strV (hashLabel h.ty ++ " - ".toList ++ hexText "0123456789abcdef" h.digest))
      | _ => none))]

/-- The metadata blocks in the order found, numbered from `k`. -/
def shownBlocks (utc loc : Int64 → Option Str) : (k : Nat) → List (Nat × Block) → List Val
  | _, [] => []
  | k, (pos, b) :: rest =>
    match b.data with
    | .data => []
    | .metadata ms => shownBlock utc loc k pos b.header.version b.header.uid.bytes ms :: shownBlocks utc loc (k + 1) rest

/-- Names that survive as strings: plain text that reads neither as `null`, a truth value nor a number. -/
def PlainName (s : Str) : Prop :=
  Plain s ∧ s ≠ "null".toList ∧ s ≠ "true".toList ∧ s ≠ "false".toList ∧ ¬ IsNumber s ∧ ¬ OddNumber s

/-- Dates are plain text. -/
def PlainDates (utc loc : Int64 → Option Str) : Prop :=
  ∀ t s, utc t = some s ∨ loc t = some s → Plain s

/-- All names recorded in a metadata block are plain. -/
def NamesPlain (b : Block) : Prop :=
  ∀ ms, b.data = .metadata ms → ∀ m ∈ ms, match m with
    | .fnm s | .snm s => PlainName s.toList
    | _ => True

/-- The member with a key. -/
def Val.member (k : String) : Val → Option Val
  | .obj ms => ms.findSome? fun m => if m.1 = key k then some m.2 else none
  | _ => none

/-- The first element. -/
def Val.first : Val → Option Val
  | .arr (v :: _) => some v
  | _ => none

/-- The contents of a string. -/
def Val.string : Val → Option (List Nat)
  | .str s => some s
  | _ => none

/-- The text of a number. -/
def Val.number : Val → Option Json.Str
  | .num s => some s
  | _ => none

/-- Whether it is `null`. -/
def Val.isNull : Val → Bool
  | .null => true
  | _ => false

/-- The member `fileName` of the first block in the output of `show --json`. -/
def fileNameShown (v : Val) : Option Val := do (← (← v.member "blocks").first).member "fileName"

end Verif.JsonSpec
