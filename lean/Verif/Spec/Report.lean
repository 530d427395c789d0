import Verif.Spec.Show
import Verif.Spec.Repair
import Verif.Model.Report
/-!
# Specification vocabulary: what the commands should print with `--json`

The objects are written down key by key.  `Report.SetReport` (what is known about a set of blocks after an attempt at repair) and the
counters are those of the models.
-/

namespace Verif.JsonSpec
open Json (Str)
open Scan (Err)

/-- Members of an object. -/
abbrev Members := List (List Nat × Val)

/-- At least two digits, the sign counting. -/
def twoDigits (n : Int) : Str :=
  (if n < 0 then ['-'] else if n < 10 then ['0'] else []) ++ Nat.toDigits 10 n.natAbs

/-- Seconds as hours, minutes and seconds. -/
def clock (t : Int) : Str :=
  twoDigits (t.tdiv 3600) ++ [':'] ++ twoDigits ((t.tmod 3600).tdiv 60) ++ [':'] ++ twoDigits (t.tmod 60)

/-- A hash. -/
def hashV (h : HashBytes) : Val := strV (hashLabel h.ty ++ " - ".toList ++ hexText "0123456789abcdef" h.digest)

/-- A uid. -/
def uidV (u : Uid) : Val := strV (hexText "0123456789ABCDEF" u.bytes)

/-- Members that are there under a condition. -/
def given (c : Bool) (ms : Members) : Members := if c then ms else []

/-- The members of an object that tells how a command ended: statistics, and `null` as error; or the text of the error.  `none`: the
program panics.  An interrupted search for a reference block counts as success. -/
def ending (errText : Err → Str) : Except Err Members → Option Members
  | .ok ms => some [(key "stats", .obj ms), (key "error", .null)]
  | .error .stopped => some [(key "error", .null)]
  | .error .panic => none
  | .error e => some [(key "error", strV (errText e))]

/-- The whole object. -/
def whole (errText : Err → Str) (before : Members) (r : Except Err Members) : Option Val :=
  (ending errText r).map fun ms => .obj (before ++ ms)

/-- All error messages are plain text. -/
def PlainErrors {ε : Type} (errText : ε → Str) : Prop := ∀ e, PlainName (errText e)

/-- The reference block, with `--verbose`. -/
def refShown (verbose : Bool) (pos : Nat) (ref : Block) : Members :=
  given verbose [(key "refBlockInfo", .obj [
    (key "type", strV (if ref.blockType = .metadata then "metadata".toList else "data".toList)),
    (key "ver", numV ref.header.version.num),
    (key "pos", numV pos)])]

/-- The burst error resistance level. -/
def burstShown : Except Err (Option Dpb) → Members
  | .ok (some d) => [(key "burstErrorResistanceLevel", numV d.burst)]
  | _ => []

/-! ### The statistics -/

/-- `check`: the counters if blocks were checked, the hashes if hashing was asked for. -/
def checkStats (errText : Err → Str) (tc th : Int) (v : Version) (blocks : Option Check.Stats) (hash : Option (HashBytes × Except Err HashBytes)) :
    Members :=
  let tc := if blocks.isSome then tc else 0
  let th := match hash with | some (_, .ok _) => th | _ => 0
  [(key "sbxVersion", numV v.num)] ++
  (match blocks with
    | none => []
    | some s => [
      (key "blockSizeUsedInChecking", numV v.blockSize),
      (key "numberOfBlocksProcessed", numV (s.metas + s.datas + s.failed + s.okayBlank)),
      (key "numberOfBlocksPassedCheckMetadata", numV s.metas),
      (key "numberOfBlocksPassedCheckData", numV s.datas),
      (key "numberOfBlocksFailedCheck", numV s.failed),
      (key "timeElapsedForBlockCheck", strV (clock tc))]) ++
  (match hash with
    | none => []
    | some (recorded, computed) => [
      (key "recordedHash", hashV recorded),
      (key "hashOfStoredData", match computed with | .ok h => hashV h | .error e => strV (errText e)),
      (key "timeElapsedForHashing", strV (clock th))]) ++
  [(key "timeElapsed", strV (clock (tc + th)))]

/-- `check --verbose`: the positions listed. -/
def failedShown (listed : List Nat) : Members :=
  [(key "blocksFailed", .arr (listed.map fun pos => .obj [(key "pos", numV pos)]))]

/-- `decode`. -/
def decodeStats (td th : Int) (uid : Uid) (v : Version) (toStdout : Bool) (inSize : Nat) (r : Decode.Report) : Members :=
  let s := r.stats
  let hashed := !toStdout && r.computed.isSome
  [(key "fileUID", uidV uid),
   (key "sbxVersion", numV v.num),
   (key "blockSizeUsedInDecoding", numV v.blockSize),
   (key "numberOfBlocksProcessed", numV (s.metas + s.datas + s.parities +
      if toStdout then s.metaFailed + s.dataFailed + s.parityFailed else s.failed)),
   (key "numberOfBlocksDecodedMetadata", numV s.metas),
   (key "numberOfBlocksDecodedData", numV s.datas)] ++
  given v.usesRs [(key "numberOfBlocksDecodedParity", numV s.parities)] ++
  given (!toStdout) [(key "numberOfBlocksFailedToDecode", numV s.failed)] ++
  given toStdout [(key "numberOfBlocksFailedToDecodeMetadata", numV s.metaFailed), (key "numberOfBlocksFailedToDecodeData", numV s.dataFailed)] ++
  given (toStdout && v.usesRs) [(key "numberOfBlocksFailedToDecodeParity", numV s.parityFailed)] ++
  [(key "fileSize", numV r.outSize), (key "sbxContainerSize", numV inSize)] ++
  given hashed [(key "timeElapsedForDecoding", strV (clock td))] ++
  [(key "recordedHash", orNull (r.recorded.map hashV)), (key "hashOfOutputFile", orNull (r.computed.map hashV))] ++
  given hashed [(key "timeElapsedForHashing", strV (clock th))] ++
  [(key "timeElapsed", strV (clock (if hashed then td + th else td)))]

/-- `encode`. -/
def encodeStats (t : Int) (uid : Uid) (v : Version) (n : Calc.Numbers) (h : Option HashBytes) : Members :=
  [(key "fileUID", uidV uid),
   (key "sbxVersion", numV v.num),
   (key "blockSizeUsedInEncoding", numV v.blockSize),
   (key "dataSizeUsedInEncoding", numV v.dataSize),
   (key "numberOfBlocksWritten", numV n.totalBlocks),
   (key "numberOfBlocksWrittenMetadata", numV n.metaBlocks),
   (key "numberOfBlocksWrittenData", numV n.dataBlocks)] ++
  given v.usesRs [(key "numberOfBlocksWrittenParity", numV n.parityBlocks)] ++
  [(key "amountOfDataEncodedBytes", numV n.fileSize),
   (key "fileSize", numV n.fileSize),
   (key "sbxContainerSize", numV n.containerSize),
   (key "hash", orNull (h.map hashV)),
   (key "timeElapsed", strV (clock t))]

/-- `encode --info-only`. -/
def infoStats (utc loc : Int64 → Option Str) (v : Version) (dpb : Option Dpb) (name out : Str) (fileSize size : Nat) (time : Option Int64) : Members :=
  [(key "fileName", strV name),
   (key "sbxContainerName", strV out),
   (key "sbxContainerVersion", numV v.num),
   (key "sbxContainerBlockSize", numV v.blockSize),
   (key "sbxContainerDataSize", numV v.dataSize)] ++
  (match dpb with
    | none => []
    | some d => [(key "rsDataShardCount", numV d.data), (key "rsParityShardCount", numV d.parity), (key "burstErrorResistanceLevel", numV d.burst)]) ++
  [(key "fileSize", numV fileSize),
   (key "sbxContainerSize", numV size),
   (key "fileModificationTime", orNull (time.map fun t => strV (
      if (utc t).isSome ∧ (loc t).isSome then dateShown (utc t) (loc t) else "Invalid file modification time".toList)))]

/-- `calc`. -/
def calcStats (v : Version) (dpb : Option Dpb) (n : Calc.Numbers) : Members :=
  [(key "sbxContainerVersion", numV v.num),
   (key "sbxContainerBlockSize", numV v.blockSize),
   (key "sbxContainerDataSize", numV v.dataSize),
   (key "metadataBlockCount", numV n.metaBlocks)] ++
  given v.usesRs [(key "dataOnlyBlockCount", numV n.dataBlocks), (key "dataParityBlockCount", numV n.parityBlocks)] ++
  given (!v.usesRs) [(key "dataBlockCount", numV n.dataBlocks)] ++
  [(key "totalBlockCount", numV n.totalBlocks),
   (key "rsDataShardCount", orNull (dpb.map fun d => numV d.data)),
   (key "rsParityShardCount", orNull (dpb.map fun d => numV d.parity)),
   (key "burstErrorResistanceLevel", orNull (dpb.map fun d => numV d.burst)),
   (key "fileSize", numV n.fileSize),
   (key "sbxContainerSize", numV n.containerSize)]

/-- `sort`. -/
def sortStats (t : Int) (v : Version) (s : Sort.Stats) (o : Sort.Order) : Members :=
  [(key "sbxVersion", numV v.num),
   (key "blockSizeUsedInChecking", numV v.blockSize),
   (key "numberOfBlocksProcessed", numV (s.metas + s.datas + s.parities + s.failed + s.okayBlank)),
   (key "numberOfBlocksSortedMetadata", numV s.metas),
   (key "numberOfBlocksSortedData", numV s.datas)] ++
  given v.usesRs [(key "numberOfBlocksSortedParity", numV s.parities)] ++
  [(key "numberOfBlocksInSameOrderMetadata", numV s.metaSame),
   (key "numberOfBlocksInDiffOrderMetadata", numV s.metaDiff),
   (key "numberOfBlocksInSameOrderData", numV o.dataSame),
   (key "numberOfBlocksInDiffOrderData", numV o.dataDiff)] ++
  given v.usesRs [(key "numberOfBlocksInSameOrderParity", numV o.paritySame), (key "numberOfBlocksInDiffOrderParity", numV o.parityDiff)] ++
  [(key "numberOfBlocksFailedToSort", numV s.failed),
   (key "timeElapsed", strV (clock t))]

/-- `rescue`. -/
def rescueStats (c : Rescue.Counters) : Members :=
  [(key "numberOfBytesProcessed", numV c.bytes),
   (key "numberOfBlocksProcessed", numV (c.metas + c.datas)),
   (key "numberOfBlocksProcessedMetadata", numV c.metas),
   (key "numberOfBlocksProcessedData", numV c.datas)]

/-- `repair`. -/
def repairStats (t : Int) (v : Version) (s : Repair.Stats) : Members :=
  [(key "sbxVersion", numV v.num),
   (key "blockSizeUsedInChecking", numV v.blockSize),
   (key "numberOfBlocksProcessed", numV (s.metaDecoded + s.dataDecoded + s.failed)),
   (key "numberOfBlocksPassedCheckMetadata", numV s.metaDecoded),
   (key "numberOfBlocksPassedCheckData", numV s.dataDecoded),
   (key "numberOfBlocksFailedCheck", numV s.failed),
   (key "numberOfBlocksRepairedMetadata", numV s.metaRepaired),
   (key "numberOfBlocksRepairedData", numV s.dataRepaired),
   (key "numberOfBlocksFailedToRepairData", numV s.repairFailed),
   (key "timeElapsed", strV (clock t))]

/-- `repair`: the metadata blocks replaced. -/
def metaRepairsShown (verbose : Bool) (places : List Nat) : Members :=
  [(key "metadataRepairs", .arr (if verbose then places.map fun pos => .obj [(key "seqNum", numV 0), (key "pos", numV pos)] else []))]

/-- A block by its sequence number and the place it has in the container. -/
def blockShown (v : Version) (d : Dpb) (seq : Nat) : Val :=
  .obj [(key "seqNum", numV seq), (key "pos", numV (Layout.dataWritePos v seq none (some d)))]

/-- The sequence numbers of the blocks of a set that were missing. -/
def missingSeqs (r : Report.SetReport) : List Nat :=
  (List.range r.present.length).filterMap fun i => if r.present[i]? = some false then some (r.first + i) else none

/-- How many blocks were missing in the sets that were repaired, or in the others. -/
def missingTotal (ok : Bool) (sets : List Report.SetReport) : Nat := ((sets.filter (·.success = ok)).map fun r => (missingSeqs r).length).sum

/-- A set of blocks some of which were missing. -/
def setShown (v : Version) (d : Dpb) (r : Report.SetReport) : Val :=
  .obj [
    (key "success", .bool r.success),
    (key "blockSetStart", numV r.first),
    (key "blockSetEndInclusive", numV (r.first + r.present.length - 1)),
    (key "blocks", .arr ((missingSeqs r).map (blockShown v d)))]

open Classical in
/-- What is to be said about the `t`-th set of blocks of the container in the file `f`: it can be repaired if enough blocks are there. -/
noncomputable def setOf (v : Version) (uid : Uid) (d : Dpb) (f : File) (t : Nat) : Report.SetReport :=
  ⟨decide (d.data ≤ RepairSpec.presentIn v uid d f t), t * (d.data + d.parity) + 1,
    (List.range (d.data + d.parity)).map fun j => decide (RepairSpec.Present v uid d f (t * (d.data + d.parity) + j + 1))⟩

/-- `repair`: the sets with missing blocks. -/
def dataRepairsShown (verbose : Bool) (v : Version) (d : Dpb) (sets : List Report.SetReport) : Members :=
  [(key "dataRepairs", .arr (if verbose then (sets.filter fun r => missingSeqs r ≠ []).map (setShown v d) else []))]

/-- `update`. -/
def updateStats (t : Int) (v : Version) (s : Update.Stats) : Members :=
  [(key "sbxVersion", numV v.num),
   (key "blockSizeUsedInUpdating", numV v.blockSize),
   (key "numberOfMetadataBlocksProcessed", numV (s.updated + s.failed)),
   (key "numberOfMetadataBlocksUpdated", numV s.updated),
   (key "numberOfMetadataBlocksFailedToDecode", numV s.failed),
   (key "timeElapsed", strV (clock t))]

/-- The name of a kind of field. -/
def idName : MetaId → String
  | .fnm => "FNM" | .snm => "SNM" | .fsz => "FSZ" | .fdt => "FDT" | .sdt => "SDT" | .hsh => "HSH" | .rsd => "RSD" | .rsp => "RSP"

/-- A field. -/
def fieldV (utc loc : Int64 → Option Str) : Metadata → Val
  | .fnm s | .snm s => strV s.toList
  | .fsz n => numV n.toNat
  | .fdt t | .sdt t => strV (dateShown (utc t) (loc t))
  | .hsh h => hashV h
  | .rsd n | .rsp n => numV n.toNat

/-- A field replaced, added or removed. -/
def changeShown (utc loc : Int64 → Option Str) (x : MetaId × Option Metadata × Option Metadata) : Val :=
  .obj [
    (key "field", strV (idName x.1).toList),
    (key "from", orNull (x.2.1.map (fieldV utc loc))),
    (key "to", orNull (x.2.2.map (fieldV utc loc)))]

/-- The changes made to a block with fields `old`: the fields to be set that are not there already with the same contents, then the fields to be
removed that are there. -/
def changesOf (upd : List Metadata) (rem : List MetaId) (old : List Metadata) : List (MetaId × Option Metadata × Option Metadata) :=
  ((upd.map fun m => (m.id, old.find? (·.id = m.id), some m)).filter fun x => x.2.1 ≠ x.2.2) ++
  (rem.map fun id => (id, old.find? (·.id = id), none)).filter fun x => x.2.1.isSome

/-- `update --verbose`: a block with its number, position and fields before, and the changes. -/
def updatedShown (utc loc : Int64 → Option Str) (upd : List Metadata) (rem : List MetaId) (x : Nat × Nat × List Metadata) : Val :=
  .obj [
    (key "metadataBlockNumber", numV x.1),
    (key "foundAtByte", numV x.2.1),
    (key "changes", .arr ((changesOf upd rem x.2.2).map (changeShown utc loc)))]

/-- All blocks updated. -/
def updatesShown (utc loc : Int64 → Option Str) (verbose : Bool) (upd : List Metadata) (rem : List MetaId) (l : List (Nat × Nat × List Metadata)) : Members :=
  given verbose [(key "metadataChanges", .arr (l.map (updatedShown utc loc upd rem)))]

open Classical in
/-- The fields of the metadata block of the container at place `k`, if there is one. -/
noncomputable def fieldsThere (v : Version) (uid : Uid) (f : File) (k : Nat) : Option (List Metadata) :=
  if h : ∃ payload, Format.IsBlock (RepairSpec.piece v f k) v uid 0 payload then some (metasFromBytes h.choose) else none

/-- What is updated if the first `n` metadata places are visited: number of the place, position, and the fields before. -/
noncomputable def updatedIn (v : Version) (uid : Uid) (f : File) (dpb : Option Dpb) (n : Nat) : List (Nat × Nat × List Metadata) :=
  ((LayoutSpec.metaCopies (some true) dpb).take n).zipIdx.filterMap fun x =>
    (fieldsThere v uid f x.1).map fun ms => (x.2, x.1 * Format.blockLen v, ms)

/-- A field with plain text. -/
def FieldPlain : Metadata → Prop
  | .fnm s | .snm s => PlainName s.toList
  | _ => True

/-- All names recorded in metadata blocks of a file are plain. -/
def RecordedPlain (f : File) : Prop :=
  ∀ v uid k payload, Format.IsBlock (RepairSpec.piece v f k) v uid 0 payload → ∀ m ∈ metasFromBytes payload, FieldPlain m

/-! ### What fits into 64 bits -/

/-- All counters of `decode` are below `2^64`. -/
def DecodeFits (inSize : Nat) (r : Decode.Report) : Prop :=
  r.stats.metas + r.stats.datas + r.stats.parities + r.stats.metaFailed + r.stats.dataFailed + r.stats.parityFailed + r.stats.failed < 2 ^ 64 ∧
  r.outSize < 2 ^ 64 ∧ inSize < 2 ^ 64

/-- All counters of `encode` are below `2^64`. -/
def NumbersFit (n : Calc.Numbers) : Prop :=
  n.totalBlocks < 2 ^ 64 ∧ n.metaBlocks < 2 ^ 64 ∧ n.dataBlocks < 2 ^ 64 ∧ n.parityBlocks < 2 ^ 64 ∧ n.fileSize < 2 ^ 64 ∧ n.containerSize < 2 ^ 64

/-- Shard counts and burst level. -/
def DpbFits (dpb : Option Dpb) : Prop := ∀ d, dpb = some d → d.data < 2 ^ 64 ∧ d.parity < 2 ^ 64 ∧ d.burst < 2 ^ 64

/-- All counters of `sort` are below `2^64`. -/
def SortFits (s : Sort.Stats) (o : Sort.Order) : Prop :=
  s.metas + s.datas + s.parities + s.failed + s.okayBlank + s.metaSame + s.metaDiff + o.dataSame + o.dataDiff + o.paritySame + o.parityDiff < 2 ^ 64

/-- All counters of `repair` are below `2^64`. -/
def RepairFits (s : Repair.Stats) : Prop :=
  s.metaDecoded + s.dataDecoded + s.failed + s.metaRepaired + s.dataRepaired + s.repairFailed < 2 ^ 64

/-- The sequence numbers and places of the blocks of a set that are missing. -/
def SetFits (v : Version) (d : Dpb) (r : Report.SetReport) : Prop :=
  r.first + r.present.length < 2 ^ 64 ∧ ∀ s ∈ missingSeqs r, Layout.dataWritePos v s none (some d) < 2 ^ 64

/-- What can be there before an error. -/
def Preface (before : Members) : Prop := ∀ m ∈ before, m.1 = key "refBlockInfo" ∨ m.1 = key "burstErrorResistanceLevel"

end Verif.JsonSpec
