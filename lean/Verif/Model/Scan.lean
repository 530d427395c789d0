import Verif.Model.Block
import Verif.Model.File
import Verif.Model.Layout
import Verif.Model.MiscUtils
/-!
# Model of `src/block_utils.rs`, of the scanning loop of `src/show_core.rs` and of the macros `get_ref_block!` and
`get_data_par_burst!` of `src/misc_macros.rs`

Progress reporting is left out.
-/

namespace Verif.Scan
open Misc

/-- `struct LazyReadResult`, `src/block_utils.rs` 34-38. -/
structure LazyRead where
  lenRead : Nat
  usable : Bool
  eof : Bool
  deriving DecidableEq, Repr

/-- `read_block_lazily`, lines 76-142, at the position `pos` of the file.  The returned block is the (mutated) argument. -/
def readBlockLazily (block : Block) (f : File) (pos : Nat) : Block × LazyRead :=
  let buf := f.readAt pos scanBlockSize
  if buf.length < scanBlockSize then (block, ⟨buf.length, false, true⟩)
  else
    match block.syncHeader buf with
    | .error _ => (block, ⟨buf.length, false, false⟩)
    | .ok block =>
      -- lines 109-123: the remaining bytes of the block
      let buf := buf ++ f.readAt (pos + buf.length) (block.size - scanBlockSize)
      if buf.length < block.size then (block, ⟨buf.length, false, true⟩)
      else
        match block.syncFrom buf none none with
        | (block, none) => (block, ⟨buf.length, true, false⟩)
        | (block, some _) => (block, ⟨buf.length, false, false⟩)

/-- The loop shared by `get_ref_block` (lines 200-253) and `show_file` (`src/show_core.rs` 239-408): `visit s pos block` is
what is done with a usable block found `pos` bytes after the starting point; it tells whether to go on.  `stop k` is the
stop flag as seen in the `k`-th iteration.  Every iteration that does not leave the loop advances by at least 128 bytes, so
`fuel = f.length + 1` is enough (theorem `scanLoop_fuel`). -/
def scanLoop {S : Type} (f : File) (seekTo requiredLen : Nat) (stop : Nat → Bool) (visit : S → Nat → Block → S × Bool) :
    (fuel : Nat) → (k : Nat) → (block : Block) → (processed : Nat) → S → S
  | 0, _, _, _, s => s
  | fuel + 1, k, block, processed, s =>
    if stop k then s
    else if requiredLen ≤ processed then s
    else
      match readBlockLazily block f (seekTo + processed) with
      | (block, res) =>
        if res.eof then s
        else if !res.usable then scanLoop f seekTo requiredLen stop visit fuel (k + 1) block (processed + res.lenRead) s
        else
          match visit s processed block with
          | (s, true) => scanLoop f seekTo requiredLen stop visit fuel (k + 1) block (processed + res.lenRead) s
          | (s, false) => s

/-- `enum RefBlockChoice`, lines 21-26. -/
inductive RefChoice
  | any
  | prefer (t : BlockType)
  | mustBe (t : BlockType)
  deriving DecidableEq

/-- `meta_block` and `data_block`, lines 182-183. -/
structure RefSt where
  metaBlock : Option (Nat × Block)
  dataBlock : Option (Nat × Block)

/-- Lines 218-229. -/
def RefSt.record (s : RefSt) (pos : Nat) (b : Block) : RefSt :=
  match b.blockType with
  | .metadata => if s.metaBlock.isNone then { s with metaBlock := some (pos, b) } else s
  | .data => if s.dataBlock.isNone then { s with dataBlock := some (pos, b) } else s

/-- Lines 231-252: whether the search goes on. -/
def RefSt.goesOn (s : RefSt) : RefChoice → Bool
  | .any => s.metaBlock.isNone && s.dataBlock.isNone
  | .prefer .metadata | .mustBe .metadata => s.metaBlock.isNone
  | .prefer .data | .mustBe .data => s.dataBlock.isNone

/-- Lines 257-285. -/
def RefSt.pick (s : RefSt) : RefChoice → Option (Nat × Block)
  | .any => s.metaBlock.or s.dataBlock
  | .prefer .metadata => s.metaBlock.or s.dataBlock
  | .prefer .data => s.dataBlock.or s.metaBlock
  | .mustBe .metadata => s.metaBlock
  | .mustBe .data => s.dataBlock

/-- `get_ref_block`, lines 144-286.  The position returned is counted from the place the scan started at (`block_pos` is
`bytes_processed`, line 207), as in the code. -/
def getRefBlock (f : File) (fromPos : Option Nat) (toPos : Option RangeEnd) (forceMisalign : Bool) (choice : RefChoice)
    (stop : Nat → Bool) : Option (Nat × Block) :=
  let r := byteRange fromPos toPos forceMisalign 0 (.len f.length) none
  (scanLoop f r.seekTo r.requiredLen stop
    (fun (s : RefSt) pos b => let s := s.record pos b; (s, s.goesOn choice))
    (f.length + 1) 0 Block.dummy 0 ⟨none, none⟩).pick choice

/-- The positions and blocks printed by `show_file`, `src/show_core.rs` 191-419: metadata blocks (of the uid asked for), all
of them or the first. -/
def showFile (f : File) (fromPos : Option Nat) (toPos : Option RangeEnd) (forceMisalign : Bool) (uid : Option Uid)
    (showAll : Bool) (stop : Nat → Bool) : List (Nat × Block) :=
  let r := byteRange fromPos toPos forceMisalign 0 (.len f.length) none
  scanLoop f r.seekTo r.requiredLen stop
    (fun out pos b =>
      if b.blockType = .metadata ∧ uid.all (· = b.header.uid) then (out ++ [(pos + r.seekTo, b)], showAll) else (out, true))
    (f.length + 1) 0 Block.dummy 0 []

/-! ### Recorded fields, `make_meta_getter!`, `src/sbx_block/mod.rs` 44-69 and 674-681 -/

/-- `get_FSZ`. -/
def getFsz (b : Block) : Except BlockErr (Option Nat) :=
  match b.data with
  | .data => .error .incorrectBlockType
  | .metadata ms => .ok (match getMeta ms .fsz with | some (.fsz n) => some n.toNat | _ => none)

/-- `get_HSH`. -/
def getHsh (b : Block) : Except BlockErr (Option HashBytes) :=
  match b.data with
  | .data => .error .incorrectBlockType
  | .metadata ms => .ok (match getMeta ms .hsh with | some (.hsh n) => some n | _ => none)

/-- `get_RSD`. -/
def getRsd (b : Block) : Except BlockErr (Option Nat) :=
  match b.data with
  | .data => .error .incorrectBlockType
  | .metadata ms => .ok (match getMeta ms .rsd with | some (.rsd n) => some n.toNat | _ => none)

/-- `get_RSP`. -/
def getRsp (b : Block) : Except BlockErr (Option Nat) :=
  match b.data with
  | .data => .error .incorrectBlockType
  | .metadata ms => .ok (match getMeta ms .rsp with | some (.rsp n) => some n.toNat | _ => none)

/-- Errors of the commands that start from a reference block, as distinct messages of `general_error::Error`. -/
inductive Err
  | noRefBlock | stopped | refNotMeta | missingField | guessFailed | panic | blockError (e : BlockErr) | tooMuchMetadata
  | noSize | hashMismatch | other
  deriving DecidableEq

/-- `get_RSD_or_RSP_from_ref_block!`, `src/misc_macros.rs` 138-178. -/
def fieldOrErr : Except BlockErr (Option Nat) → Except Err Nat
  | .error .incorrectBlockType => .error .refNotMeta
  | .error _ => .error .panic
  | .ok none => .error .missingField
  | .ok (some x) => .ok x

/-! ### Guessing the burst error resistance level, `src/block_utils.rs` 288-423 -/

/-- `enum GuessBurstFromPos`, lines 28-32. -/
inductive GuessFrom
  | shiftToStart (x : Nat)
  | noShift (x : Nat)

/-- `from_pos`, lines 328-344. -/
def guessFromPos (blockSize : Nat) (forceMisalign : Bool) : Option GuessFrom → Nat
  | none => 0
  | some (.shiftToStart x) => if forceMisalign then x % blockSize else 0
  | some (.noShift x) => if forceMisalign then x else roundDown x blockSize

/-- One block of the sampled ones: read with the block size of the reference block and accepted only with its version and
uid, lines 375-379. -/
def sampleBlock (ref block : Block) (buf : List Byte) : Block × Option Block :=
  match block.syncFrom buf (some (sameVerUid ref)) none with
  | (b, none) => (b, some b)
  | (b, some _) => (b, none)

/-- The sampling loop, lines 363-382 (and 472-507), for `n` samples: what `g` makes of the `k`-th block, `none` behind the end
of the file. -/
def sampleLoop {α : Type} (f : File) (ref : Block) (g : Nat → Block → Option α) : (n : Nat) → (k : Nat) → (block : Block) → (pos : Nat) →
    List (Option α)
  | 0, _, _, _ => []
  | n + 1, k, block, pos =>
    let buf := f.readAt pos ref.size
    if buf.length < ref.size then List.replicate (n + 1) none
    else
      match sampleBlock ref block buf with
      | (block, r) => (r.bind (g k)) :: sampleLoop f ref g n (k + 1) block (pos + buf.length)

/-- `mismatches_for_level[level]`, lines 385-399; `i` is the index of the first sample. -/
def mismatches (dpb : Dpb) : (i : Nat) → List (Option Nat) → Nat
  | _, [] => 0
  | i, none :: rest => mismatches dpb (i + 1) rest
  | i, some seq :: rest =>
    (if seq ≠ Layout.seqAtIndex i none (some dpb) then 1 else 0) + mismatches dpb (i + 1) rest

/-- `best_guess`, lines 402-407: `ms` are the mismatches of the levels from `level` on, `best` the best level so far with its
mismatches. -/
def bestGuess : (level : Nat) → (best : Nat × Nat) → List Nat → Nat × Nat
  | _, best, [] => best
  | level, best, m :: rest => bestGuess (level + 1) (if m < best.2 then (level, m) else best) rest

/-- Lines 385-422, given the samples. -/
def guessLevel (data parity : Nat) (samples : List (Option Nat)) : Option Nat :=
  let ms := (List.range (maxBurst + 1)).map fun level => mismatches ⟨data, parity, level⟩ 0 samples
  let best := bestGuess 0 (0, mismatches ⟨data, parity, 0⟩ 0 samples) ms
  if ms.countP (· = best.2) = ms.length then none else some best.1

/-- `guess_burst_err_resistance_level`, lines 288-423. -/
def guessBurst (f : File) (fromPos : Option GuessFrom) (forceMisalign : Bool) (ref : Block) : Except Err (Option Nat) :=
  if !ref.header.version.usesRs then .ok none
  else
    match fieldOrErr (getRsd ref) with
    | .error e => .error e
    | .ok data =>
      match fieldOrErr (getRsp ref) with
      | .error e => .error e
      | .ok parity =>
        .ok (guessLevel data parity
          (sampleLoop f ref (fun _ b => some b.header.seq.toNat) (1 + parity + maxBurst + 1) 0 Block.dummy
            (guessFromPos ref.size forceMisalign fromPos)))

/-! ### Guessing the index of the first block, `src/block_utils.rs` 425-536 -/

/-- Number of samples, line 459. -/
def blocksToSample : Nat := 1024

/-- What one sampled block says, lines 484-504. -/
def startVote (dpb : Option Dpb) (k : Nat) (b : Block) : Option Nat :=
  if b.blockType = .metadata then none
  else
    let index := Layout.dataWriteIndex b.header.seq.toNat (some true) dpb
    if index < k then none else some (index - k)

/-- Lines 509-533: the most frequent vote.  `HashMap::iter` visits the entries in an unspecified order: `order` are the
distinct votes in that order. -/
def mostVotes (votes : List Nat) (order : List Nat) : Option Nat :=
  order.foldl (fun best i => match best with
    | none => some i
    | some x => if votes.count x < votes.count i then some i else some x) none

/-- `guess_starting_block_index`, lines 425-536; `order` lists the distinct elements of its argument in the order in which
the hash map is iterated. -/
def guessStart (order : List Nat → List Nat) (f : File) (fromPos : Option Nat) (forceMisalign : Bool) (ref : Block) (dpb : Option Dpb) :
    Nat :=
  let start := match fromPos with
    | none => 0
    | some x => if forceMisalign then x else roundDown x ref.size
  let votes := (sampleLoop f ref (startVote dpb) blocksToSample 0 Block.dummy start).filterMap id
  (mostVotes votes (order votes)).getD 0

/-! ### Macros of `src/misc_macros.rs` -/

/-- The parameters the macros look at. -/
structure RefParam where
  refChoice : RefChoice
  refFrom : Option Nat
  refTo : Option RangeEnd
  guessBurstFrom : Option Nat
  fromPos : Option Nat
  toPos : Option RangeEnd
  forceMisalign : Bool
  burst : Option Nat

/-- `get_ref_block!(param, json_printer, choice, stop_flag)`, lines 12-39, 51-61 and 73-106 (`from_pos` only used for its remainder). -/
def getRefBlockM (p : RefParam) (choice : RefChoice) (f : File) (stop : Nat → Bool) (stopped : Bool) : Except Err (Nat × Block) :=
  match getRefBlock f (p.refFrom.or (p.fromPos.map (· % scanBlockSize))) p.refTo p.forceMisalign choice stop with
  | none => if stopped then .error .stopped else .error .noRefBlock
  | some x => .ok x

/-- `get_ref_block!(no_force_misalign => ..)`, lines 40-50 and 62-106. -/
def getRefBlockAligned (p : RefParam) (choice : RefChoice) (f : File) (stop : Nat → Bool) (stopped : Bool) : Except Err (Nat × Block) :=
  match getRefBlock f p.refFrom p.refTo false choice stop with
  | none => if stopped then .error .stopped else .error .noRefBlock
  | some x => .ok x

/-- `get_guess_burst_from_pos_from_param!`, lines 256-270. -/
def RefParam.guessFrom (p : RefParam) : Option GuessFrom :=
  match p.guessBurstFrom with
  | some x => some (.noShift x)
  | none => p.fromPos.map .shiftToStart

/-- `get_burst_or_guess!(param, from_pos, force_misalign, ..)`, lines 272-319. -/
def burstOrGuess (burst : Option Nat) (fromPos : Option GuessFrom) (forceMisalign : Bool) (f : File) (ref : Block) : Except Err Nat :=
  match burst with
  | some b => .ok b
  | none =>
    if ref.header.version.usesRs then
      if ref.blockType = .data then .error .refNotMeta
      else
        match guessBurst f fromPos forceMisalign ref with
        | .error e => .error e
        | .ok none => .error .guessFailed
        | .ok (some b) => .ok b
    else .ok 0

/-- `get_data_par_burst!`, lines 196-227; `offset = false` is the `no_offset` variant. -/
def dataParBurst (p : RefParam) (offset : Bool) (f : File) (ref : Block) : Except Err (Option Dpb) :=
  if ref.header.version.usesRs then
    match fieldOrErr (getRsd ref) with
    | .error e => .error e
    | .ok data =>
      match fieldOrErr (getRsp ref) with
      | .error e => .error e
      | .ok parity =>
        match burstOrGuess p.burst (if offset then p.guessFrom else none) (offset && p.forceMisalign) f ref with
        | .error e => .error e
        | .ok burst => .ok (some ⟨data, parity, burst⟩)
  else .ok none

end Verif.Scan
