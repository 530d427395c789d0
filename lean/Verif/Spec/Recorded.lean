import Verif.Spec.Show
import Verif.Spec.Container
/-!
# Specification vocabulary: what a container says about the file in it
-/

namespace Verif.RecordedSpec
open JsonSpec
open Json (Str)

/-- What is known about a file that has been put into a container. -/
structure About where
  /-- name and modification time of the file, if it came from a file and the time is available -/
  name : Option String
  modified : Option Int64
  /-- name of the container, and when it was made -/
  container : String
  made : Int64
  size : Nat
  hashType : HashType
  digest : List Byte
  /-- numbers of data and parity blocks of a set, if there are any -/
  shards : Option (Nat × Nat)

/-- The first field of each kind in a metadata block. -/
structure About.Recorded (a : About) (ms : List Metadata) : Prop where
  name : recorded ms (fun | .fnm s => some s | _ => none) = a.name
  container : recorded ms (fun | .snm s => some s | _ => none) = some a.container
  size : recorded ms (fun | .fsz n => some n.toNat | _ => none) = some a.size
  modified : recorded ms (fun | .fdt t => some t | _ => none) = a.modified
  made : recorded ms (fun | .sdt t => some t | _ => none) = some a.made
  hashType : recorded ms (fun | .hsh h => some (hashLabel h.ty) | _ => none) = some (hashLabel a.hashType)
  digest : recorded ms (fun | .hsh h => some h.digest | _ => none) = some a.digest
  data : recorded ms (fun | .rsd n => some n.toNat | _ => none) = a.shards.map (·.1)
  parity : recorded ms (fun | .rsp n => some n.toNat | _ => none) = a.shards.map (·.2)

/-- A date as text. -/
def dateV (utc loc : Int64 → Option Str) (t : Int64) : Val := strV (dateShown (utc t) (loc t))

/-- The description of a file in the JSON output of `show`, for the `i`-th metadata block, found at `pos`. -/
def About.shown (a : About) (utc loc : Int64 → Option Str) (i pos : Nat) (v : Version) (uid : Uid) : Val :=
  .obj [
    (key "metadataBlockNumber", numV i),
    (key "foundAtByte", numV pos),
    (key "fileUID", strV (hexText "0123456789ABCDEF" uid.bytes)),
    (key "fileName", orNull (a.name.map fun s => strV s.toList)),
    (key "sbxContainerName", strV a.container.toList),
    (key "sbxContainerVersion", numV v.num),
    (key "rsDataShardCount", orNull (a.shards.map fun s => numV s.1)),
    (key "rsParityShardCount", orNull (a.shards.map fun s => numV s.2)),
    (key "fileSize", numV a.size),
    (key "fileModificationTime", orNull (a.modified.map (dateV utc loc))),
    (key "sbxEncodingTime", dateV utc loc a.made),
    (key "hash", strV (hashLabel a.hashType ++ " - ".toList ++ hexText "0123456789abcdef" a.digest))]

end Verif.RecordedSpec
