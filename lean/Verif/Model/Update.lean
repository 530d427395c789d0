import Verif.Model.ContentHash
/-!
# Model of `update`: `src/update_core.rs` and the command line of `src/cli_update.rs`

Progress reports, messages and JSON output are left out.  Reads and writes never fail (see `Verif/Model/File.lean`).
-/

namespace Verif.Update
open Misc Scan Layout

/-- `struct Param`, `src/update_core.rs` 21-31, without the parts for printing. -/
structure Param where
  dryRun : Bool
  update : List Metadata
  remove : List MetaId
  hashType : Option HashType
  burst : Option Nat

/-- The parts of the environment that matter: hash function, `num_cpus * 50`, and at which check of the stop flag it is found set
(while looking for the reference block, in the test run, while hashing, in the real run). -/
structure Env where
  hash : HashFn
  lotCount : Nat
  stopRef : Nat → Bool
  stopTest : Nat → Bool
  stopHash : Nat → Bool
  stopRun : Nat → Bool

/-- The counters of `struct Stats`, lines 60-68. -/
structure Stats where
  updated : Nat
  failed : Nat
  deriving DecidableEq, Repr

/-- State of the loop of `update_metadata_blocks`, lines 264-272. -/
structure St where
  disk : Disk
  buffer : List Byte
  block : Block
  stats : Stats

/-- `update_metas` then `remove_metas`, lines 164-170 and 322-323; an error is the panic of `unwrap`. -/
def change (upd : List Metadata) (rem : List MetaId) (b : Block) : Except BlockErr Block :=
  match b.updateMetas upd with
  | .error e => .error e
  | .ok b => b.removeMetas rem

/-- The loop over the metadata places, lines 302-355; `write` is `!test_run && !dry_run`.  The file is part of the result in case of
an error, too. -/
def loop (ref : Block) (upd : List Metadata) (rem : List MetaId) (write : Bool) (stop : Nat → Bool) : Nat → List Nat → St → St × Option Err
  | _, [], s => (s, none)
  | k, p :: ps, s =>
    if stop k then (s, none)
    else
      let v := ref.header.version
      let bytes := s.disk.file.readAt p v.blockSize
      if bytes.length < v.blockSize then (s, none)
      else
        let buffer := bytes ++ s.buffer.drop bytes.length
        let skip (b : Block) : St :=
          { s with buffer := buffer, block := b, stats := { s.stats with failed := s.stats.failed + 1 } }
        match s.block.syncFrom buffer (some (sameVerUid ref)) none with
        | (b, some _) => loop ref upd rem write stop (k + 1) ps (skip b)
        | (b, none) =>
          if b.blockType = .data then loop ref upd rem write stop (k + 1) ps (skip b)
          else
            match change upd rem b with
            | .error _ => (s, some .panic)
            | .ok b =>
              match b.syncTo none buffer with
              | .error .tooMuchMetadata => (s, some .tooMuchMetadata)
              | .error _ => (s, some .panic)
              | .ok (b, buffer) =>
                loop ref upd rem write stop (k + 1) ps
                  { disk := if write then s.disk.writeAt p (buffer.take v.blockSize) else s.disk, buffer := buffer, block := b,
                    stats := { s.stats with updated := s.stats.updated + 1 } }

/-- `update_metadata_blocks`, lines 252-368: the file afterwards, and the counters or the error. -/
def updateBlocks (ref : Block) (dpb : Option Dpb) (upd : List Metadata) (rem : List MetaId) (write : Bool) (stop : Nat → Bool)
    (d : Disk) : Disk × Except Err Stats :=
  match loop ref upd rem write stop 0 (metaAllPos ref.header.version dpb)
      ⟨d, List.replicate largestBlockSize 0, Block.dummy, ⟨0, 0⟩⟩ with
  | (s, none) => (s.disk, .ok s.stats)
  | (s, some e) => (s.disk, .error e)

/-- The reference block is looked for in the whole file, lines 375-382 and `src/misc_macros.rs` 40-50 and 62-106. -/
def Param.ref (p : Param) : RefParam := ⟨.mustBe .metadata, none, none, none, none, none, false, p.burst⟩

/-- The hash fields get the hash computed, lines 432-436. -/
def setHash (h : HashBytes) : Metadata → Metadata
  | .hsh _ => .hsh h
  | m => m

/-- The size needed for hashing, lines 384-405; `Ctx::new(..).unwrap()` panics for hash types that cannot be computed. -/
def sizeFor (p : Param) (ref : Block) : Except Err (Option (HashType × Nat)) :=
  match p.hashType with
  | none => .ok none
  | some t =>
    match getFsz ref with
    | .error _ => .error .refNotMeta
    | .ok none => .error .noSize
    | .ok (some n) => if t.supported then .ok (some (t, n)) else .error .panic

/-- The fields to be written, lines 420-437: the hash is computed if it is asked for. -/
def fieldsFor (E : Env) (p : Param) (ref : Block) (dpb : Option Dpb) (f : File) : Option (HashType × Nat) → Except Err (List Metadata)
  | none => .ok p.update
  | some (t, n) =>
    match ContentHash.hash E.hash E.lotCount E.stopHash t f ref dpb n with
    | .error e => .error e
    | .ok h => .ok (p.update.map (setHash h))

/-- `update_file`, lines 370-450. -/
def updateFile (E : Env) (p : Param) (f : File) : Disk × Except Err Stats :=
  let d : Disk := ⟨f, []⟩
  match getRefBlockAligned p.ref (.mustBe .metadata) f E.stopRef (E.stopTest 0) with
  | .error e => (d, .error e)
  | .ok (_, ref) =>
    match sizeFor p ref with
    | .error e => (d, .error e)
    | .ok size =>
      match dataParBurst p.ref false f ref with
      | .error e => (d, .error e)
      | .ok dpb =>
        match updateBlocks ref dpb p.update p.remove false E.stopTest d with
        | (d, .error e) => (d, .error e)
        | (d, .ok _) =>
          match fieldsFor E p ref dpb d.file size with
          | .error e => (d, .error e)
          | .ok fields => updateBlocks ref dpb fields p.remove (!p.dryRun) E.stopRun d

/-! ### The command line, `src/cli_update.rs` 101-143 -/

/-- What can be asked for. -/
structure Cli where
  fnm : Option String
  snm : Option String
  hash : Option HashType
  noFnm : Bool
  noSnm : Bool
  noHsh : Bool
  dryRun : Bool
  burst : Option Nat

/-- `--fnm` and `--no-fnm` etc. exclude each other (`conflicts_with`, lines 56, 62 and 86). -/
def Cli.Ok (c : Cli) : Prop := (c.noFnm → c.fnm = none) ∧ (c.noSnm → c.snm = none) ∧ (c.noHsh → c.hash = none)

/-- Lines 101-143; the hash starts as the hash of nothing. -/
def Cli.param (H : HashFn) (c : Cli) : Param where
  dryRun := c.dryRun
  update := (c.fnm.map Metadata.fnm).toList ++ (c.snm.map Metadata.snm).toList ++
    (c.hash.map fun t => Metadata.hsh ⟨t, H.digest t [], H.len t []⟩).toList
  remove := (if c.noFnm then [.fnm] else []) ++ (if c.noSnm then [.snm] else []) ++ (if c.noHsh then [.hsh] else [])
  hashType := c.hash
  burst := c.burst

end Verif.Update
