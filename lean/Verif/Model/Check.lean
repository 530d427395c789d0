import Verif.Model.ContentHash
/-!
# Model of `check`: `src/check_core.rs`

Progress reports and the texts printed are left out; what is kept of them are the positions listed with `--verbose` and the verdict on
the hash.  Reads never fail (see `Verif/Model/File.lean`).
-/

namespace Verif.Check
open Misc Scan

/-- `enum HashAction`, lines 24-28. -/
inductive HashAction
  | noHash | hashAfterCheck | hashOnly
  deriving DecidableEq, Repr

/-- `struct Param`, lines 30-45, without the parts for printing. -/
structure Param where
  ref : RefParam
  reportBlank : Bool
  verbose : Bool
  hashAction : HashAction

/-- The parts of the environment that matter: hash function, `num_cpus * 50`, and at which check of the stop flag it is found set (while
looking for the reference block, while checking blocks, while hashing). -/
structure Env where
  hash : HashFn
  lotCount : Nat
  stopRef : Nat → Bool
  stopCheck : Nat → Bool
  stopHash : Nat → Bool

/-- The counters of `struct CheckStats`, lines 84-94, and the positions printed under "blocks failed" with `--verbose`, the last one
first. -/
structure Stats where
  metas : Nat
  datas : Nat
  failed : Nat
  okayBlank : Nat
  listed : List Nat
  deriving DecidableEq, Repr

def Stats.zero : Stats := ⟨0, 0, 0, 0, []⟩

/-- `CheckStats::blocks_so_far`, lines 113-118. -/
def Stats.blocks (s : Stats) : Nat := s.metas + s.datas + s.failed + s.okayBlank

/-- What is counted and printed for the block read from `pos`, lines 379-416. -/
def Stats.count (p : Param) (pos : Nat) (buf : List Byte) (st : Stats) (b : Block) (err : Option BlockErr) : Stats :=
  match err with
  | none => if b.blockType = .metadata then { st with metas := st.metas + 1 } else { st with datas := st.datas + 1 }
  | some _ =>
    if bufferIsBlank buf then
      if p.reportBlank then
        { st with failed := st.failed + 1, listed := if p.verbose then pos :: st.listed else st.listed }
      else { st with okayBlank := st.okayBlank + 1 }
    else { st with failed := st.failed + 1 }

/-- The loop of `check_blocks`, lines 364-418.  Each iteration that does not leave it reads a block, so `fuel = f.length + 1` is enough. -/
def checkLoop (p : Param) (ref : Block) (f : File) (seekTo required : Nat) (stop : Nat → Bool) :
    (fuel k processed : Nat) → Block → Stats → Stats
  | 0, _, _, _, st => st
  | fuel + 1, k, processed, block, st =>
    if stop k then st
    else if required ≤ processed then st
    else
      let buf := f.readAt (seekTo + processed) ref.header.version.blockSize
      if buf.length < ref.header.version.blockSize then st
      else
        match block.syncFrom buf (some (sameVerUid ref)) none with
        | (b, err) => checkLoop p ref f seekTo required stop fuel (k + 1) (processed + buf.length) b (st.count p processed buf b err)

/-- The range to be checked, lines 462-475. -/
def rangeOf (p : RefParam) (ref : Block) (f : File) : Range :=
  byteRange p.fromPos p.toPos p.forceMisalign 0 (.len f.length) (some ref.header.version.blockSize)

/-- `check_blocks`, lines 313-433. -/
def checkBlocks (p : Param) (ref : Block) (f : File) (r : Range) (stop : Nat → Bool) : Stats :=
  checkLoop p ref f r.seekTo r.requiredLen stop (f.length + 1) 0 0 Block.dummy Stats.zero

/-- `struct Stats`, lines 121-129: the counters if blocks were checked; recorded hash and hash computed if hashing was asked for. -/
structure Report where
  blocks : Option Stats
  hash : Option (HashBytes × Except Err HashBytes)

/-- What is said about the hash, lines 283-303. -/
inductive Verdict
  | same | different | error
  deriving DecidableEq, Repr

def Report.verdict (r : Report) : Option Verdict :=
  r.hash.map fun x => match x.2 with
    | .ok h => if x.1.digest = h.digest then .same else .different
    | .error _ => .error

/-- Size and hash recorded, if hashing is asked for, lines 489-521. -/
def hashWanted (p : Param) (ref : Block) : Except Err (Option (Nat × HashBytes)) :=
  if p.hashAction = .noHash then .ok none
  else
    match getFsz ref with
    | .error _ => .error .refNotMeta
    | .ok none => .error .noSize
    | .ok (some n) =>
      match getHsh ref with
      | .error _ => .error .panic
      | .ok none => .error .missingField
      | .ok (some h) => if h.ty.supported then .ok (some (n, h)) else .error .other

/-- `hash`, lines 435-455. -/
def hashStored (E : Env) (p : Param) (f : File) (ref : Block) (size : Nat) (h : HashBytes) : Except Err HashBytes :=
  match dataParBurst p.ref true f ref with
  | .error e => .error e
  | .ok dpb => ContentHash.hash E.hash E.lotCount E.stopHash h.ty f ref dpb size

/-- `check_file`, lines 457-547. -/
def checkFile (E : Env) (p : Param) (f : File) : Except Err Report :=
  match getRefBlockM p.ref p.ref.refChoice f E.stopRef (E.stopCheck 0) with
  | .error e => .error e
  | .ok (_, ref) =>
    match hashWanted p ref with
    | .error e => .error e
    | .ok wanted => .ok {
        blocks := if p.hashAction = .hashOnly then none else some (checkBlocks p ref f (rangeOf p.ref ref f) E.stopCheck)
        hash := wanted.map fun x => (x.2, hashStored E p f ref x.1 x.2) }

end Verif.Check
