import Verif.Model.Metadata
/-!
# Specification vocabulary for metadata fields

`Storable` says which fields the format can represent at all (SBX_FORMAT.md: one length byte, shard counts from 1,
one code per hash function); it mentions neither the writer nor the parser.
-/

namespace Verif

/-- A field value the on-disk format can represent. -/
def Metadata.Storable : Metadata → Prop
  | .fnm s | .snm s => 1 ≤ s.utf8ByteSize ∧ s.utf8ByteSize ≤ 255
  | .fsz _ | .fdt _ | .sdt _ => True
  | .hsh h => h.ty ≠ .sha2_256 ∧ h.ty ≠ .sha2_512_512   -- aliases of `sha256` / `sha512`
  | .rsd n | .rsp n => 1 ≤ n.toNat

/-- First recorded data shard count. -/
def firstRsd (ms : List Metadata) : Option Nat :=
  ms.findSome? fun m => match m with | .rsd n => some n.toNat | _ => none

/-- First recorded parity shard count. -/
def firstRsp (ms : List Metadata) : Option Nat :=
  ms.findSome? fun m => match m with | .rsp n => some n.toNat | _ => none

/-- First recorded file size. -/
def firstFsz (ms : List Metadata) : Option Nat :=
  ms.findSome? fun m => match m with | .fsz n => some n.toNat | _ => none

/-- First recorded hash. -/
def firstHsh (ms : List Metadata) : Option HashBytes :=
  ms.findSome? fun m => match m with | .hsh h => some h | _ => none

/-- The recorded shard counts do not exceed what Reed-Solomon over GF(256) allows. -/
def ShardsOk (ms : List Metadata) : Prop :=
  ∀ d p, firstRsd ms = some d → firstRsp ms = some p → d + p ≤ 256

/-- Space a field takes: 3 bytes of id, 1 byte of length, the contents. -/
def Metadata.space : Metadata → Nat
  | .fnm s | .snm s => 4 + s.utf8ByteSize
  | .fsz _ | .fdt _ | .sdt _ => 4 + 8
  | .hsh h => 4 + (match h.ty with
      | .sha1 => 22 | .sha2_256 | .sha256 => 34 | .sha2_512_256 => 34 | .sha2_512_512 | .sha512 => 66
      | .blake2b_256 => 35 | .blake2b_512 => 67 | .blake2s_128 => 19 | .blake2s_256 => 35)
  | .rsd _ | .rsp _ => 4 + 1

/-- Space a list of fields takes. -/
def metaSpace (ms : List Metadata) : Nat := (ms.map Metadata.space).sum

end Verif
