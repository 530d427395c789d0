import Verif.Model.Json
import Verif.Model.Scan
/-!
# Model of the JSON output of `show`: `src/show_core.rs` 237-410 and `src/cli_show.rs` 28-60, without `--guess-burst`

The search for blocks is `Scan.showFile`.  The texts of dates (`time_utils::i64_secs_to_date_time_string`, made by the crate chrono) are
parameters.
-/

namespace Verif.Json
open Scan Misc

/-- A value of a `u64` in decimal. -/
def dec (n : Nat) : Str := Nat.toDigits 10 n

/-- ASCII bytes as text. -/
def ofAscii (bs : List Byte) : Str := bs.map fun b => Char.ofNat b.toNat

/-- `hash_type_to_string`, `src/multihash.rs` 20-33. -/
def hashName : HashType → Str
  | .sha1 => "SHA1".toList
  | .sha2_256 | .sha256 => "SHA256".toList
  | .sha2_512_256 => "SHA2-512-256".toList
  | .sha2_512_512 | .sha512 => "SHA512".toList
  | .blake2b_256 => "BLAKE2b-256".toList
  | .blake2b_512 => "BLAKE2b-512".toList
  | .blake2s_128 => "BLAKE2s-128".toList
  | .blake2s_256 => "BLAKE2s-256".toList

/-- `null_if_json_else…!` with JSON enabled, `src/json_macros.rs` 111-129. -/
def nullText : Str := "null".toList

/-- The text of a date, lines 361-369 and 375-383. -/
def dateText (utc loc : Int64 → Option Str) (t : Int64) : Str :=
  match utc t, loc t with
  | some u, some l => u ++ " (UTC)  ".toList ++ l ++ " (Local)".toList
  | _, _ => "Invalid recorded date time".toList

/-- The fields printed for a metadata block with fields `ms`, lines 267-395. -/
def blockMsgs (utc loc : Int64 → Option Str) (k pos : Nat) (h : Header) (ms : List Metadata) : List Call :=
  [.openB none .curly,
   .msg false ("Metadata block number : ".toList ++ dec k),
   .msg false ("Found at byte          : ".toList ++ dec pos),
   .msg true ("File UID               : ".toList ++ ofAscii (upperHex h.uid.bytes)),
   .msg false ("File name              : ".toList ++ match getMeta ms .fnm with | some (.fnm s) => s.toList | _ => nullText),
   .msg false ("SBX container name     : ".toList ++ match getMeta ms .snm with | some (.snm s) => s.toList | _ => nullText),
   .msg false ("SBX container version  : ".toList ++ dec h.version.num),
   .msg false ("RS data shard count    : ".toList ++
     if h.version.usesRs then match getMeta ms .rsd with | some (.rsd n) => dec n.toNat | _ => nullText else nullText),
   .msg false ("RS parity shard count  : ".toList ++
     if h.version.usesRs then match getMeta ms .rsp with | some (.rsp n) => dec n.toNat | _ => nullText else nullText),
   .msg false ("File size              : ".toList ++ match getMeta ms .fsz with | some (.fsz n) => dec n.toNat | _ => nullText),
   .msg false ("File modification time : ".toList ++ match getMeta ms .fdt with | some (.fdt t) => dateText utc loc t | _ => nullText),
   .msg false ("SBX encoding time      : ".toList ++ match getMeta ms .sdt with | some (.sdt t) => dateText utc loc t | _ => nullText),
   .msg false ("Hash                   : ".toList ++ match getMeta ms .hsh with
     | some (.hsh x) => hashName x.ty ++ " - ".toList ++ ofAscii (lowerHex x.digest)
     | _ => nullText),
   .close]

/-- The loop of lines 239-408, over the blocks found.  `none` is the panic of `get_FNM().unwrap()` on a data block (not reachable). -/
def blocksMsgs (utc loc : Int64 → Option Str) : (k : Nat) → List (Nat × Block) → Option (List Call)
  | _, [] => some []
  | k, (pos, b) :: rest =>
    match b.data with
    | .data => none
    | .metadata ms => (blocksMsgs utc loc (k + 1) rest).map (blockMsgs utc loc k pos b.header ms ++ ·)

/-- `show --json`, `src/cli_show.rs` 28-60 and `src/show_core.rs`: the text printed. -/
def showJson (utc loc : Int64 → Option Str) (f : File) (fromPos : Option Nat) (toPos : Option RangeEnd) (forceMisalign : Bool)
    (uid : Option Uid) (showAll : Bool) (stop : Nat → Bool) : Option Str := do
  let l ← blocksMsgs utc loc 0 (showFile f fromPos toPos forceMisalign uid showAll stop)
  let p ← Printer.new.run (.openB none .curly :: .openB (some "blocks".toList) .square :: (l ++ .close :: exitOk))
  return p.out

/-- `show --json` when reading fails after the blocks `l`: `?` leaves `show_file`, and `src/cli_show.rs` 58 prints the error. -/
def showJsonErr (utc loc : Int64 → Option Str) (l : List (Nat × Block)) (err : Str) : Option Str := do
  let l ← blocksMsgs utc loc 0 l
  let p ← Printer.new.run (.openB none .curly :: .openB (some "blocks".toList) .square :: l)
  let p ← p.exitErr err
  return p.out

end Verif.Json
