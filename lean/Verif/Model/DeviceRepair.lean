import Verif.Model.Device
import Verif.Model.Repair
import Verif.Model.Update
/-!
# `repair` and `update` on an operating system that may refuse, or take only a part

As `Verif/Model/Device.lean`: the commands are those of `Verif/Model/Repair.lean` and `Verif/Model/Update.lean`, but every write goes through
`FileReader::write` (`src/file_reader.rs` 15-35 and 119-128) to an operating system that answers it.  Both commands open the container
unbuffered (`src/repair_core.rs` 321-327, `src/update_core.rs` 287-293), so a write is a single call of `File::write`.  The number of bytes
taken is dropped by the callers (`src/repair_core.rs` 265 and 393, `src/update_core.rs` 335).

What is in the file matters also when an error is reported, so it is always part of the result.  `none` for the rest of the result is "the
command reports an error".
-/

namespace Verif.Device

/-- Writes issued one after the other; `false`: the last one was answered with an error. -/
def Plain.writes (A : Os) : List (Nat × List Byte) → Plain → Plain × Bool
  | [], d => (d, true)
  | w :: ws, d =>
    match d.write A w.1 w.2 with
    | none => (d, false)
    | some d => writes A ws d

/-! ### `repair` -/

/-- The loop over the metadata blocks, `src/repair_core.rs` 352-401 (`Repair.metaLoop`): one place is read, then the write issued for
it, if any, is carried out.  The `disk` of the state is not used. -/
def repairMeta (A : Os) (ref : Block) (dry : Bool) (stop : Nat → Bool) : Nat → List Nat → Repair.MetaSt → Plain → Plain × Option Repair.MetaSt
  | _, [], s, d => (d, some s)
  | k, p :: ps, s, d =>
    if stop k then (d, some s)
    else
      match Repair.metaStep ref dry { s with disk := ⟨d.file, []⟩ } p with
      | .error _ => (d, none)
      | .ok s =>
        match d.writes A s.disk.ops with
        | (d, false) => (d, none)
        | (d, true) => repairMeta A ref dry stop (k + 1) ps s d

/-- The loop over the data and parity blocks, lines 410-451 (`Repair.dataLoop`): one block is read; at the end of a set the blocks put
together are written (lines 261-267). -/
def repairData (A : Os) (rs : RsCodec) (ref : Block) (dpb : Dpb) (dry : Bool) (total : Nat) (stop : Nat → Bool) :
    Nat → Nat → Repair.DataSt → Plain → Plain × Option Repair.Stats
  | 0, _, s, d => (d, some s.stats)
  | n + 1, seq, s, d =>
    if stop seq then (d, some s.stats)
    else if total ≤ s.stats.blocks then (d, some s.stats)
    else
      match Repair.dataStep rs ref dpb dry seq { s with disk := ⟨d.file, []⟩ } with
      | .error _ => (d, none)
      | .ok s =>
        match d.writes A s.disk.ops with
        | (d, false) => (d, none)
        | (d, true) => repairData A rs ref dpb dry total stop n (seq + 1) s d

/-- From line 315 on (`Repair.repairWith`). -/
def repairWith (A : Os) (E : Repair.Env) (dry : Bool) (ref : Block) (dpb : Dpb) (total : Nat) (f : File) : Plain × Option Repair.Stats :=
  match Repair.Codec.new ref dpb with
  | .error _ => (⟨f, 0⟩, none)
  | .ok codec =>
    match ref.syncTo none (List.replicate 4096 0) with
    | .error _ => (⟨f, 0⟩, none)
    | .ok (ref', buffer) =>
      match repairMeta A ref dry E.stopMeta 0 (Layout.metaAllPos ref.header.version (some dpb))
          ⟨⟨f, []⟩, buffer, Block.dummy, ref', Repair.Stats.zero⟩ ⟨f, 0⟩ with
      | (d, none) => (d, none)
      | (d, some m) =>
        repairData A E.rs ref dpb dry total E.stopData lastSeqNum 1 ⟨m.disk, codec, m.block, m.stats⟩ d

/-- `repair_file`, lines 272-463 (`Repair.repairFile`): the container afterwards and the counters (`some none`: the version has no
Reed-Solomon code). -/
def repair (A : Os) (E : Repair.Env) (burst : Option Nat) (dry : Bool) (f : File) : File × Option (Option Repair.Stats) :=
  let p : Scan.RefParam := ⟨.mustBe .metadata, none, none, none, none, none, false, burst⟩
  match Scan.getRefBlockAligned p (.mustBe .metadata) f E.stopRef (E.stopMeta 0) with
  | .error _ => (f, none)
  | .ok (_, ref) =>
    if ref.header.version.usesRs then
      match Scan.dataParBurst p false f ref with
      | .error _ => (f, none)
      | .ok none => (f, none)
      | .ok (some dpb) =>
        match Repair.totalBlocks ref dpb f with
        | .error _ => (f, none)
        | .ok total =>
          match repairWith A E dry ref dpb total f with
          | (d, none) => (d.file, none)
          | (d, some st) => (d.file, some (some st))
    else (f, some none)

/-! ### `update` -/

/-- The loop over the metadata places, `src/update_core.rs` 302-355 (`Update.loop`).  The `disk` of the state is not used. -/
def updateLoop (A : Os) (ref : Block) (upd : List Metadata) (rem : List MetaId) (write : Bool) (stop : Nat → Bool) :
    Nat → List Nat → Update.St → Plain → Plain × Option Update.Stats
  | _, [], s, d => (d, some s.stats)
  | k, p :: ps, s, d =>
    if stop k then (d, some s.stats)
    else
      let v := ref.header.version
      let bytes := d.file.readAt p v.blockSize
      if bytes.length < v.blockSize then (d, some s.stats)
      else
        let buffer := bytes ++ s.buffer.drop bytes.length
        let skip (b : Block) : Update.St :=
          { s with buffer := buffer, block := b, stats := { s.stats with failed := s.stats.failed + 1 } }
        match s.block.syncFrom buffer (some (sameVerUid ref)) none with
        | (b, some _) => updateLoop A ref upd rem write stop (k + 1) ps (skip b) d
        | (b, none) =>
          if b.blockType = .data then updateLoop A ref upd rem write stop (k + 1) ps (skip b) d
          else
            match Update.change upd rem b with
            | .error _ => (d, none)
            | .ok b =>
              match b.syncTo none buffer with
              | .error _ => (d, none)
              | .ok (b, buffer) =>
                match d.writes A (if write then [(p, buffer.take v.blockSize)] else []) with
                | (d, false) => (d, none)
                | (d, true) =>
                  updateLoop A ref upd rem write stop (k + 1) ps
                    { s with buffer := buffer, block := b, stats := { s.stats with updated := s.stats.updated + 1 } } d

/-- `update_metadata_blocks`, lines 252-368 (`Update.updateBlocks`). -/
def updateBlocks (A : Os) (ref : Block) (dpb : Option Dpb) (upd : List Metadata) (rem : List MetaId) (write : Bool) (stop : Nat → Bool)
    (d : Plain) : Plain × Option Update.Stats :=
  updateLoop A ref upd rem write stop 0 (Layout.metaAllPos ref.header.version dpb)
    ⟨⟨[], []⟩, List.replicate largestBlockSize 0, Block.dummy, ⟨0, 0⟩⟩ d

/-- `update_file`, lines 370-450 (`Update.updateFile`). -/
def update (A : Os) (E : Update.Env) (p : Update.Param) (f : File) : File × Option Update.Stats :=
  match Scan.getRefBlockAligned p.ref (.mustBe .metadata) f E.stopRef (E.stopTest 0) with
  | .error _ => (f, none)
  | .ok (_, ref) =>
    match Update.sizeFor p ref with
    | .error _ => (f, none)
    | .ok size =>
      match Scan.dataParBurst p.ref false f ref with
      | .error _ => (f, none)
      | .ok dpb =>
        match updateBlocks A ref dpb p.update p.remove false E.stopTest ⟨f, 0⟩ with
        | (d, none) => (d.file, none)
        | (d, some _) =>
          match Update.fieldsFor E p ref dpb d.file size with
          | .error _ => (d.file, none)
          | .ok fields =>
            match updateBlocks A ref dpb fields p.remove (!p.dryRun) E.stopRun d with
            | (d, st) => (d.file, st)

end Verif.Device
