import Verif.Model.Show
import Verif.Model.Check
import Verif.Model.Decode
import Verif.Model.Sort
import Verif.Model.Repair
import Verif.Model.Update
import Verif.Model.Rescue
import Verif.Model.Calc
/-!
# Model of what the commands print with `--json`

The printer is that of `Verif/Model/Json.lean`.  The texts of error messages, the texts of dates and the elapsed times are parameters.
Lines that are left out with `--json` are left out here; blank lines between the sections (white space in JSON) as well.
-/

namespace Verif.Report
open Json Scan Misc Layout

/-! ### Texts -/

/-- `{:02}` of an `i64`: filled up with zeros, the sign counting. -/
def pad2 (n : Int) : Str :=
  if n < 0 then '-' :: dec n.natAbs else if n < 10 then '0' :: dec n.natAbs else dec n.natAbs

/-- `{:02}:{:02}:{:02}` of `seconds_to_hms`, e.g. `src/check_core.rs` 225-233. -/
def timeText (t : Int) : Str :=
  let (h, m, s) := secondsToHms t
  pad2 h ++ ':' :: (pad2 m ++ ':' :: pad2 s)

/-- `"{} - {}"` of a hash, e.g. `src/check_core.rs` 242-246. -/
def hashText (h : HashBytes) : Str := hashName h.ty ++ " - ".toList ++ ofAscii (lowerHex h.digest)

/-- A hash if there is one. -/
def optHashText : Option HashBytes → Str
  | none => nullText
  | some h => hashText h

/-- A field: the text up to the colon and the space, and the value. -/
def fld (label : String) (v : Str) : Call := .msg false (label.toList ++ v)

/-- The same with `=> force_quotes`. -/
def fldQ (label : String) (v : Str) : Call := .msg true (label.toList ++ v)

/-- A section. -/
def sect (name : Option String) (b : Bracket) (cs : List Call) : List Call := .openB (name.map String.toList) b :: (cs ++ [.close])

/-- The statistics, e.g. `src/check_core.rs` 178 and 305. -/
def stats (cs : List Call) : List Call := sect (some "stats") .curly cs

/-! ### The whole output -/

/-- What a command ends with: `exit_with_msg!(ok ..)` with statistics or none, or `exit_with_msg!(op ..)`, e.g. `src/cli_check.rs` 105-109
and `src/cli_macros.rs` 2-32. -/
inductive End
  | ok (cs : List Call)
  | err (text : Str)
  | panic

/-- The text printed by a command that prints `before` and ends with `e`; the outermost bracket is opened first, e.g.
`src/cli_check.rs` 65.  `none` is a panic. -/
def output (before : List Call) : End → Option Str
  | .ok cs => (Printer.new.run (.openB none .curly :: (before ++ cs ++ exitOk))).map Printer.out
  | .err text => ((Printer.new.run (.openB none .curly :: before)).bind fun p => p.exitErr text).map Printer.out
  | .panic => none

/-- `Ok(None)` is returned if the search for a reference block is interrupted, `src/misc_macros.rs` 90-93. -/
def endOf (errText : Err → Str) : Except Err (List Call) → End
  | .error .stopped => .ok []
  | .error .panic => .panic
  | .error e => .err (errText e)
  | .ok cs => .ok cs

/-- `report_ref_block_info`, `src/cli_utils.rs` 269-295, with `--verbose` only: `src/misc_macros.rs` 99-103. -/
def refCalls (verbose : Bool) : Except Err (Nat × Block) → List Call
  | .error _ => []
  | .ok (pos, ref) =>
    if verbose then
      sect (some "ref block info") .curly
        [fld "type : " (if ref.blockType = .metadata then "metadata".toList else "data".toList),
         fld "ver : " (dec ref.header.version.num),
         fld "pos : " (dec pos)]
    else []

/-- The burst error resistance level in use, `src/misc_macros.rs` 315; not looked for if the version has no Reed-Solomon code. -/
def burstCalls : Except Err (Option Dpb) → List Call
  | .ok (some d) => [fld "burst error resistance level : " (dec d.burst)]
  | _ => []

/-! ### `check` -/

/-- The failing blocks listed with `--verbose`, `src/check_core.rs` 360-362, 392-399 and 420-422. -/
def failedCalls (listed : List Nat) : List Call :=
  sect (some "blocks failed") .square (listed.flatMap fun pos => sect none .curly [fld "pos : " (dec pos)])

/-- Lines 183-234: with blocks checked. -/
def checkedCalls (v : Version) (t : Int) (s : Check.Stats) : List Call :=
  [fld "Block size used in checking              : " (dec v.blockSize),
   fld "Number of blocks processed               : " (dec s.blocks),
   fld "Number of blocks passed check (metadata) : " (dec s.metas),
   fld "Number of blocks passed check (data)     : " (dec s.datas),
   fld "Number of blocks failed check            : " (dec s.failed),
   fld "Time elapsed for block check             : " (timeText t)]

/-- Lines 235-271: with hashing.  `(Some(_), None)` does not occur, line 519. -/
def hashedCalls (errText : Err → Str) (t : Int) (x : HashBytes × Except Err HashBytes) : List Call :=
  [fld "Recorded hash                            : " (hashText x.1),
   fld "Hash of stored data                      : " (match x.2 with | .ok h => hashText h | .error e => errText e),
   fld "Time elapsed for hashing                 : " (timeText t)]

/-- The time for hashing, lines 169-173. -/
def hashTime (t : Int) : Option (HashBytes × Except Err HashBytes) → Int
  | some (_, .ok _) => t
  | _ => 0

/-- `Display` of `Stats`, lines 162-310; `tc` and `th` are the seconds it took to check and to hash. -/
def checkStats (errText : Err → Str) (tc th : Int) (v : Version) (r : Check.Report) : List Call :=
  let tc := if r.blocks.isSome then tc else 0
  let th := hashTime th r.hash
  stats (fld "SBX version                              : " (dec v.num) ::
    ((match r.blocks with | some s => checkedCalls v tc s | none => []) ++
     (match r.hash with | some x => hashedCalls errText th x | none => []) ++
     [fld "Time elapsed                             : " (timeText (tc + th))]))

/-- What is printed before the statistics. -/
def checkBefore (p : Check.Param) (f : File) (ref : Block) (r : Check.Report) : List Call :=
  (match r.blocks with | some s => if p.verbose then failedCalls s.listed.reverse else [] | none => []) ++
  (match r.hash with | some _ => burstCalls (dataParBurst p.ref true f ref) | none => [])

/-- `check --json`, `src/cli_check.rs` 65-109 once the options are read. -/
def checkJson (errText : Err → Str) (tc th : Int) (E : Check.Env) (p : Check.Param) (f : File) : Option Str :=
  let found := getRefBlockM p.ref p.ref.refChoice f E.stopRef (E.stopCheck 0)
  match found, Check.checkFile E p f with
  | .ok (_, ref), .ok r => output (refCalls p.verbose found ++ checkBefore p f ref r) (.ok (checkStats errText tc th ref.header.version r))
  | _, .error e => output (refCalls p.verbose found) (endOf errText (.error e))
  | .error e, .ok _ => output [] (endOf errText (.error e))

/-! ### `decode` -/

/-- The number of failures in total (to a file) or in detail (to standard output), `src/decode_core.rs` 176-203 and 358-379. -/
def decodeFailed (v : Version) (toStdout : Bool) (s : Decode.Stats) : List Call :=
  match v.usesRs, toStdout with
  | true, false => [fld "Number of blocks failed to decode      : " (dec s.failed)]
  | true, true =>
    [fld "Number of blocks failed to decode (metadata)    : " (dec s.metaFailed),
     fld "Number of blocks failed to decode (data)        : " (dec s.dataFailed),
     fld "Number of blocks failed to decode (parity)      : " (dec s.parityFailed)]
  | false, false => [fld "Number of blocks failed to decode   : " (dec s.failed)]
  | false, true =>
    [fld "Number of blocks failed to decode (metadata) : " (dec s.metaFailed),
     fld "Number of blocks failed to decode (data)     : " (dec s.dataFailed)]

/-- `blocks_so_far`, lines 627-640. -/
def decodeBlocks (toStdout : Bool) (s : Decode.Stats) : Nat :=
  s.metas + s.datas + s.parities + if toStdout then s.metaFailed + s.dataFailed + s.parityFailed else s.failed

/-- `Display` of `Stats`, lines 102-463, with the padding of the labels left out; `td` and `th` are the seconds it took to decode and to hash
the output file (`hash_stats`, not there with standard output or without a hash that can be computed). -/
def decodeStats (td th : Int) (uid : Uid) (v : Version) (toStdout : Bool) (inSize : Nat) (r : Decode.Report) : List Call :=
  let hashed := !toStdout && r.computed.isSome
  stats (
    [fldQ "File UID                               : " (ofAscii (upperHex uid.bytes)),
     fld "SBX version                            : " (dec v.num),
     fld "Block size used in decoding            : " (dec v.blockSize),
     fld "Number of blocks processed             : " (dec (decodeBlocks toStdout r.stats)),
     fld "Number of blocks decoded (metadata)    : " (dec r.stats.metas),
     fld "Number of blocks decoded (data)        : " (dec r.stats.datas)] ++
    (if v.usesRs then [fld "Number of blocks decoded (parity)      : " (dec r.stats.parities)] else []) ++
    decodeFailed v toStdout r.stats ++
    [fld "File size                              : " (dec r.outSize),
     fld "SBX container size                     : " (dec inSize)] ++
    (if hashed then [fld "Time elapsed for decoding              : " (timeText td)] else []) ++
    [fld "Recorded hash                          : " (optHashText r.recorded),
     fld "Hash of output file                    : " (optHashText r.computed)] ++
    (if hashed then [fld "Time elapsed for hashing               : " (timeText th)] else []) ++
    [fld "Time elapsed                           : " (timeText (td + if hashed then th else 0))])

/-- `decode --json`, `src/cli_decode.rs`, given what decoding came to. -/
def decodeJson (errText : Err → Str) (td th : Int) (verbose toStdout : Bool) (E : Decode.Env) (p : Decode.Param) (f old : File) : Option Str :=
  let found := getRefBlockM p.ref p.ref.refChoice f E.stopRef (E.stop 0)
  let result := if toStdout then (Decode.toStdout E p f).map Prod.snd else (Decode.toFile E p f old).map Prod.snd
  match found with
  | .error e => output [] (endOf errText (.error e))
  | .ok (_, ref) =>
    output (refCalls verbose found ++ burstCalls (dataParBurst p.ref true f ref))
      (endOf errText (result.map (decodeStats td th ref.header.uid ref.header.version toStdout f.length)))

/-! ### `encode` -/

/-- `Display` of `Stats`, `src/encode_core.rs` 55-250. -/
def encodeStats (t : Int) (uid : Uid) (v : Version) (n : Calc.Numbers) (h : Option HashBytes) : List Call :=
  stats (
    [fldQ "File UID                            : " (ofAscii (upperHex uid.bytes)),
     fld "SBX version                         : " (dec v.num),
     fld "Block size used in encoding         : " (dec v.blockSize),
     fld "Data  size used in encoding         : " (dec v.dataSize),
     fld "Number of blocks written            : " (dec n.totalBlocks),
     fld "Number of blocks written (metadata) : " (dec n.metaBlocks),
     fld "Number of blocks written (data)     : " (dec n.dataBlocks)] ++
    (if v.usesRs then [fld "Number of blocks written (parity)   : " (dec n.parityBlocks)] else []) ++
    [fld "Amount of data encoded (bytes)      : " (dec n.fileSize),
     fld "File size                           : " (dec n.fileSize),
     fld "SBX container size                  : " (dec n.containerSize),
     fld "Hash                                : " (optHashText h),
     fld "Time elapsed                        : " (timeText t)])

/-- `encode --json`, `src/cli_encode.rs`, for a run that ended with the result `r`; the numbers are those of `Calc.encodeNumbers`. -/
def encodeJson (errText : Encode.Err → Str) (t : Int) (p : Encode.Param) : Except Encode.Err Encode.Report → Option Str
  | .error .panic => none
  | .error e => output [] (.err (errText e))
  | .ok r => (Calc.encodeNumbers p r.counters).bind fun n => output [] (.ok (encodeStats t p.uid p.version n r.hash))

/-- What `encode --info-only` prints about an input file, `src/cli_encode.rs` 139-258: file name and output name, size, time of last
modification (`none` if there is none before 1970). -/
structure Info where
  name : Str
  out : Str
  size : Nat
  time : Option Int64

/-- Lines 175-186. -/
def infoTime (utc loc : Int64 → Option Str) : Option Int64 → Str
  | none => nullText
  | some t =>
    match utc t, loc t with
    | some u, some l => u ++ " (UTC)  ".toList ++ l ++ " (Local)".toList
    | _, _ => "Invalid file modification time".toList

/-- Lines 195-256; `size` is the computed size of the container.  `none` is the panic of `data_par_burst.unwrap()`. -/
def infoStats (utc loc : Int64 → Option Str) (v : Version) (dpb : Option Dpb) (size : Nat) (i : Info) : Option (List Call) :=
  (match v.usesRs, dpb with
    | true, some d => some
      [fld "RS data   shard count        : " (dec d.data),
       fld "RS parity shard count        : " (dec d.parity),
       fld "Burst error resistance level : " (dec d.burst)]
    | true, none => none
    | false, _ => some []).map fun l =>
  stats (
    [fld "File name                    : " i.name,
     fld "SBX container name           : " i.out,
     fld "SBX container version        : " (dec v.num),
     fld "SBX container block size     : " (dec v.blockSize),
     fld "SBX container data  size     : " (dec v.dataSize)] ++ l ++
    [fld "File size                    : " (dec i.size),
     fld "SBX container size           : " (dec size),
     fld "File modification time       : " (infoTime utc loc i.time)])

/-- `encode --info-only --json`. -/
def infoJson (utc loc : Int64 → Option Str) (v : Version) (metaEnabled : Bool) (dpb : Option Dpb) (i : Info) : Option Str :=
  (FileUtils.containerSize v (some metaEnabled) dpb i.size).bind fun size =>
    (infoStats utc loc v dpb size i).bind fun cs => output [] (.ok cs)

/-- ... when nothing is known about the input (standard input, or its metadata or size cannot be read), lines 140-157: the section has been
opened already. -/
def infoErr (text : Str) : Option Str := output [.openB (some "stats".toList) .curly] (.err text)

/-! ### `calc` -/

/-- `calc --json`, `src/cli_calc.rs` 68-254; `none` is a panic. -/
def calcStats (v : Version) (dpb : Option Dpb) (n : Calc.Numbers) : Option (List Call) :=
  (match v.usesRs, dpb with
    | true, some d => some (dec d.data, dec d.parity, dec d.burst)
    | true, none => none
    | false, _ => some (nullText, nullText, nullText)).map fun (x : Str × Str × Str) =>
  stats (
    [fld "    SBX container version        : " (dec v.num),
     fld "    SBX container block size     : " (dec v.blockSize),
     fld "    SBX container data  size     : " (dec v.dataSize)] ++
    (if v.usesRs then
      [fld "    Metadata    block count      : " (dec n.metaBlocks),
       fld "    Data only   block count      : " (dec n.dataBlocks),
       fld "    Data parity block count      : " (dec n.parityBlocks),
       fld "    Total       block count      : " (dec n.totalBlocks)]
    else
      [fld "    Metadata block count         : " (dec n.metaBlocks),
       fld "    Data     block count         : " (dec n.dataBlocks),
       fld "    Total    block count         : " (dec n.totalBlocks)]) ++
    [fld "    RS data   shard count        : " x.1,
     fld "    RS parity shard count        : " x.2.1,
     fld "    Burst error resistance level : " x.2.2,
     fld "    File size                    : " (dec n.fileSize),
     fld "    SBX container size           : " (dec n.containerSize)])

def calcJson (v : Version) (metaEnabled : Bool) (dpb : Option Dpb) (size : Nat) : Option Str :=
  (Calc.calcNumbers v metaEnabled dpb size).bind fun n => (calcStats v dpb n).bind fun cs => output [] (.ok cs)

/-! ### `sort` -/

/-- `Display` of `Stats`, `src/sort_core.rs` 171-274. -/
def sortStats (t : Int) (v : Version) (s : Sort.Stats) (o : Sort.Order) : List Call :=
  stats (
    [fld "SBX version                               : " (dec v.num),
     fld "Block size used in checking               : " (dec v.blockSize),
     fld "Number of blocks processed                : " (dec s.blocks),
     fld "Number of blocks sorted (metadata)        : " (dec s.metas),
     fld "Number of blocks sorted (data)            : " (dec s.datas)] ++
    (if v.usesRs then [fld "Number of blocks sorted (parity)          : " (dec s.parities)] else []) ++
    [fld "Number of blocks in same order (metadata) : " (dec s.metaSame),
     fld "Number of blocks in diff order (metadata) : " (dec s.metaDiff),
     fld "Number of blocks in same order (data)     : " (dec o.dataSame),
     fld "Number of blocks in diff order (data)     : " (dec o.dataDiff)] ++
    (if v.usesRs then
      [fld "Number of blocks in same order (parity)   : " (dec o.paritySame),
       fld "Number of blocks in diff order (parity)   : " (dec o.parityDiff)] else []) ++
    [fld "Number of blocks failed to sort           : " (dec s.failed),
     fld "Time elapsed                              : " (timeText t)])

/-- `sort --json`, `src/cli_sort.rs`. -/
def sortJson (errText : Err → Str) (t : Int) (verbose : Bool) (E : Sort.Env) (p : Sort.Param) (f old : File) : Option Str :=
  let found := getRefBlockM p.ref p.ref.refChoice f E.stopRef (E.stop 0)
  match found with
  | .error e => output [] (endOf errText (.error e))
  | .ok (_, ref) =>
    output (refCalls verbose found ++ burstCalls (dataParBurst p.ref true f ref))
      (endOf errText ((Sort.sortFile E p f old).map fun x => sortStats t ref.header.version x.2.1 x.2.2))

/-! ### `rescue` -/

/-- `Display` of `Stats`, `src/rescue_core.rs` 193-228. -/
def rescueStats (c : Rescue.Counters) : List Call :=
  stats
    [fld "Number of bytes processed             : " (dec c.bytes),
     fld "Number of blocks processed            : " (dec (c.metas + c.datas)),
     fld "Number of blocks processed (metadata) : " (dec c.metas),
     fld "Number of blocks processed (data)     : " (dec c.datas)]

/-- `rescue --json`, `src/cli_rescue.rs` 53-103, for a run that ended with counters `c`. -/
def rescueJson (c : Rescue.Counters) : Option Str := output [] (.ok (rescueStats c))

/-! ### `repair` -/

/-- The metadata blocks replaced, `src/repair_core.rs` 351, 373-381 and 402. -/
def metaRepairCalls (verbose : Bool) (places : List Nat) : List Call :=
  sect (some "metadata repairs") .square
    (if verbose then places.flatMap fun pos => sect none .curly [.msg false "seq num : 0".toList, fld "pos : " (dec pos)] else [])

/-- `RSRepairStats`, `src/rs_codec/repairer.rs` 26-35: was the set repaired, its first sequence number, and which of its blocks were present. -/
structure SetReport where
  success : Bool
  first : Nat
  present : List Bool

/-- `missing_count`. -/
def SetReport.missing (r : SetReport) : Nat := r.present.countP (· = false)

/-- The blocks of a set that were missing, lines 66-84. -/
def missingCalls (v : Version) (d : Dpb) (r : SetReport) : List Call :=
  (List.range r.present.length).flatMap fun i =>
    if r.present[i]? = some false then
      sect none .curly
        [fld "seq num : " (dec (r.first + i)), fld "pos : " (dec (dataWriteIndex (r.first + i) none (some d) * v.blockSize))]
    else []

/-- `Display` of `RSRepairStats`, lines 37-93. -/
def setCalls (v : Version) (d : Dpb) (r : SetReport) : List Call :=
  if 0 < r.missing then
    sect none .curly (
      [.msg false (if r.success then "success : true".toList else "success : false".toList),
       fld "block set start : " (dec r.first),
       fld "block set end inclusive : " (dec (r.first + r.present.length - 1))] ++
      sect (some "blocks") .square (missingCalls v d r))
  else []

/-- `src/repair_core.rs` 258-261, 408 and 452. -/
def dataRepairCalls (verbose : Bool) (v : Version) (d : Dpb) (sets : List SetReport) : List Call :=
  sect (some "data repairs") .square (if verbose then sets.flatMap (setCalls v d) else [])

/-- `Display` of `Stats`, `src/repair_core.rs` 81-170. -/
def repairStats (t : Int) (v : Version) (s : Repair.Stats) : List Call :=
  stats
    [fld "SBX version                              : " (dec v.num),
     fld "Block size used in checking              : " (dec v.blockSize),
     fld "Number of blocks processed               : " (dec s.blocks),
     fld "Number of blocks passed check (metadata) : " (dec s.metaDecoded),
     fld "Number of blocks passed check (data)     : " (dec s.dataDecoded),
     fld "Number of blocks failed check            : " (dec s.failed),
     fld "Number of blocks repaired (metadata)     : " (dec s.metaRepaired),
     fld "Number of blocks repaired (data)         : " (dec s.dataRepaired),
     fld "Number of blocks failed to repair (data) : " (dec s.repairFailed),
     fld "Time elapsed                             : " (timeText t)]

/-- The metadata places found broken in the loop of lines 360-399 (`Repair.metaLoop`), in the order they are listed. -/
def metaTrace (ref : Block) (dry : Bool) (stop : Nat → Bool) : Nat → List Nat → Repair.MetaSt → List Nat
  | _, [], _ => []
  | k, p :: ps, s =>
    if stop k then []
    else
      match Repair.metaStep ref dry s p with
      | .error _ => []
      | .ok s' => (if s.stats.metaRepaired < s'.stats.metaRepaired then [p] else []) ++ metaTrace ref dry stop (k + 1) ps s'

/-- The reports on the sets completed in the loop of lines 410-451 (`Repair.dataLoop`); the flags are those the codec has when it is asked to
repair. -/
def dataTrace (rs : RsCodec) (ref : Block) (d : Dpb) (dry : Bool) (total : Nat) (stop : Nat → Bool) :
    Nat → Nat → Repair.DataSt → List SetReport
  | 0, _, _ => []
  | n + 1, seq, s =>
    if stop seq then []
    else if total ≤ s.stats.blocks then []
    else
      let v := ref.header.version
      let m := Repair.mark ref seq (s.disk.file.readAt (dataWritePos v seq none (some d)) v.blockSize) s
      match Repair.dataStep rs ref d dry seq s with
      | .error _ => []
      | .ok s' =>
        (if m.codec.index = d.data + d.parity then
          match m.codec.repair rs v d seq with
          | .ok (_, ok, _, _) => [⟨ok, (seq - 1) / (d.data + d.parity) * (d.data + d.parity) + 1, m.codec.present⟩]
          | .error _ => []
        else []) ++ dataTrace rs ref d dry total stop n (seq + 1) s'

/-- What is printed before the statistics, and the statistics. -/
def repairCalls (t : Int) (verbose : Bool) (E : Repair.Env) (dry : Bool) (ref : Block) (d : Dpb) (total : Nat) (f : File) : Except Err (List Call × List Call) :=
  match Repair.Codec.new ref d with
  | .error e => .error e
  | .ok codec =>
    match ref.syncTo none (List.replicate 4096 0) with
    | .error _ => .error .panic
    | .ok (ref', buffer) =>
      let places := metaAllPos ref.header.version (some d)
      let s₀ : Repair.MetaSt := ⟨⟨f, []⟩, buffer, Block.dummy, ref', Repair.Stats.zero⟩
      match Repair.metaLoop ref dry E.stopMeta 0 places s₀ with
      | .error e => .error e
      | .ok m =>
        let s₁ : Repair.DataSt := ⟨m.disk, codec, m.block, m.stats⟩
        match Repair.dataLoop E.rs ref d dry total E.stopData lastSeqNum 1 s₁ with
        | .error e => .error e
        | .ok s => .ok (
            metaRepairCalls verbose (metaTrace ref dry E.stopMeta 0 places s₀) ++
            dataRepairCalls verbose ref.header.version d (dataTrace E.rs ref d dry total E.stopData lastSeqNum 1 s₁),
            repairStats t ref.header.version s.stats)

/-- `repair --json`, `src/cli_repair.rs` 40-87 and `src/repair_core.rs` 272-463. -/
def repairJson (errText : Err → Str) (t : Int) (verbose : Bool) (E : Repair.Env) (burst : Option Nat) (dry : Bool) (f : File) : Option Str :=
  let p : RefParam := ⟨.mustBe .metadata, none, none, none, none, none, false, burst⟩
  let found := getRefBlockAligned p (.mustBe .metadata) f E.stopRef (E.stopMeta 0)
  match found with
  | .error e => output [] (endOf errText (.error e))
  | .ok (_, ref) =>
    if ref.header.version.usesRs then
      match dataParBurst p false f ref with
      | .error e => output (refCalls verbose found) (endOf errText (.error e))
      | .ok none => none
      | .ok (some d) =>
        let before := refCalls verbose found ++ burstCalls (.ok (some d))
        match Repair.totalBlocks ref d f with
        | .error e => output before (endOf errText (.error e))
        | .ok total =>
          match repairCalls t verbose E dry ref d total f with
          | .error e => output before (endOf errText (.error e))
          | .ok (l, cs) => output (before ++ l) (.ok cs)
    else output (refCalls verbose found) (.ok [])

/-! ### `update` -/

/-- `id_to_str`, `src/sbx_block/metadata.rs` 104-116. -/
def idText : MetaId → Str
  | .fnm => "FNM".toList
  | .snm => "SNM".toList
  | .fsz => "FSZ".toList
  | .fdt => "FDT".toList
  | .sdt => "SDT".toList
  | .hsh => "HSH".toList
  | .rsp => "RSP".toList
  | .rsd => "RSD".toList

/-- `Display` of `Metadata`, `src/sbx_block/metadata.rs` 21-48. -/
def metaText (utc loc : Int64 → Option Str) : Metadata → Str
  | .fnm s | .snm s => s.toList
  | .fsz n => dec n.toNat
  | .fdt t | .sdt t => dateText utc loc t
  | .hsh h => hashText h
  | .rsd n | .rsp n => dec n.toNat

/-- One change, `src/update_core.rs` 214-218 and 230-242. -/
def changeCalls (id : MetaId) (old new : Str) : List Call :=
  sect none .curly [fld "Field         : " (idText id), fld "From          : " old, fld "To            : " new]

/-- `print_block_info_and_meta_changes`, lines 172-250. -/
def changesCalls (utc loc : Int64 → Option Str) (upd : List Metadata) (rem : List MetaId) (k pos : Nat) (old : List Metadata) : List Call :=
  sect none .curly (
    [fld "Metadata block number : " (dec k), fld "Found at byte : " (dec pos)] ++
    sect (some "changes") .square (
      (upd.flatMap fun m =>
        match getMeta old m.id with
        | none => changeCalls m.id nullText (metaText utc loc m)
        | some o => if o ≠ m then changeCalls m.id (metaText utc loc o) (metaText utc loc m) else []) ++
      (rem.flatMap fun id =>
        match getMeta old id with
        | none => []
        | some o => changeCalls id (metaText utc loc o) nullText)))

/-- The blocks for which the loop of lines 302-355 (`Update.loop`) prints changes: number, position and fields before. -/
def updateTrace (ref : Block) (upd : List Metadata) (rem : List MetaId) (write : Bool) (stop : Nat → Bool) :
    Nat → List Nat → Update.St → List (Nat × Nat × List Metadata)
  | _, [], _ => []
  | k, p :: ps, s =>
    if stop k then []
    else
      let v := ref.header.version
      let bytes := s.disk.file.readAt p v.blockSize
      if bytes.length < v.blockSize then []
      else
        let buffer := bytes ++ s.buffer.drop bytes.length
        let skip (b : Block) : Update.St :=
          { s with buffer := buffer, block := b, stats := { s.stats with failed := s.stats.failed + 1 } }
        match s.block.syncFrom buffer (some (sameVerUid ref)) none with
        | (b, some _) => updateTrace ref upd rem write stop (k + 1) ps (skip b)
        | (b, none) =>
          match b.data with
          | .data => updateTrace ref upd rem write stop (k + 1) ps (skip b)
          | .metadata old =>
            match Update.change upd rem b with
            | .error _ => []
            | .ok b =>
              match b.syncTo none buffer with
              | .error _ => []
              | .ok (b, buffer) =>
                (k, p, old) :: updateTrace ref upd rem write stop (k + 1) ps
                  { disk := if write then s.disk.writeAt p (buffer.take v.blockSize) else s.disk, buffer := buffer, block := b,
                    stats := { s.stats with updated := s.stats.updated + 1 } }

/-- Lines 299-301 and 356-358. -/
def updateChangeCalls (utc loc : Int64 → Option Str) (verbose : Bool) (upd : List Metadata) (rem : List MetaId)
    (l : List (Nat × Nat × List Metadata)) : List Call :=
  if verbose then sect (some "metadata changes") .square (l.flatMap fun x => changesCalls utc loc upd rem x.1 x.2.1 x.2.2) else []

/-- `Display` of `Stats`, lines 110-162. -/
def updateStats (t : Int) (v : Version) (s : Update.Stats) : List Call :=
  stats
    [fld "SBX version                                : " (dec v.num),
     fld "Block size used in updating                : " (dec v.blockSize),
     fld "Number of metadata blocks processed        : " (dec (s.updated + s.failed)),
     fld "Number of metadata blocks updated          : " (dec s.updated),
     fld "Number of metadata blocks failed to decode : " (dec s.failed),
     fld "Time elapsed                               : " (timeText t)]

/-- `update --json`, `src/cli_update.rs` 93-187 and `src/update_core.rs` 370-450, once the options are read. -/
def updateJson (errText : Err → Str) (utc loc : Int64 → Option Str) (t : Int) (verbose : Bool) (E : Update.Env) (p : Update.Param) (f : File) :
    Option Str :=
  let found := getRefBlockAligned p.ref (.mustBe .metadata) f E.stopRef (E.stopTest 0)
  match found with
  | .error e => output [] (endOf errText (.error e))
  | .ok (_, ref) =>
    match Update.sizeFor p ref with
    | .error e => output (refCalls verbose found) (endOf errText (.error e))
    | .ok size =>
      let dpb := dataParBurst p.ref false f ref
      let before := refCalls verbose found ++ burstCalls dpb
      match dpb with
      | .error e => output before (endOf errText (.error e))
      | .ok dpb =>
        match Update.updateBlocks ref dpb p.update p.remove false E.stopTest ⟨f, []⟩ with
        | (_, .error e) => output before (endOf errText (.error e))
        | (d, .ok _) =>
          match Update.fieldsFor E p ref dpb d.file size with
          | .error e => output before (endOf errText (.error e))
          | .ok fields =>
            output (before ++ updateChangeCalls utc loc verbose fields p.remove
                (updateTrace ref fields p.remove (!p.dryRun) E.stopRun 0 (metaAllPos ref.header.version dpb)
                  ⟨d, List.replicate largestBlockSize 0, Block.dummy, ⟨0, 0⟩⟩))
              (endOf errText ((Update.updateBlocks ref dpb fields p.remove (!p.dryRun) E.stopRun d).2.map (updateStats t ref.header.version)))

end Verif.Report
