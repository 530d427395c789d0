import Verif.Model.Encode
/-!
# Model of the numbers printed by `calc` (`src/cli_calc.rs`) and by `encode` (`Stats` in `src/encode_core.rs`)

Simplified: sizes are natural numbers; the program computes with `u64`, which is exact unless the size of the file is so large
that sizes or counts of the container exceed `2^64` (such files do not have enough sequence numbers anyway).
-/

namespace Verif.Calc
open FileUtils Layout

/-- What `calc` displays (cli_calc.rs lines 62-253); the version, block and data sizes and shard counts are displayed as given. -/
structure Numbers where
  metaBlocks : Nat
  dataBlocks : Nat
  parityBlocks : Nat
  totalBlocks : Nat
  fileSize : Nat
  containerSize : Nat
deriving DecidableEq

/-- The computation of `calc`, cli_calc.rs lines 30-66 and 234-247: `metaEnabled` is false iff `--no-meta` is given; there is no
check of the file size.  `none` models a panic. -/
def calcNumbers (v : Version) (metaEnabled : Bool) (dpb : Option Dpb) (size : Nat) : Option Numbers :=
  if verConsistent v dpb then
    (containerSize v (some metaEnabled) dpb size).map fun out =>
      { metaBlocks := metaBlockCount (some metaEnabled) dpb
        dataBlocks := (dataParityBlockCount v dpb size).1
        parityBlocks := (dataParityBlockCount v dpb size).2
        totalBlocks := totalBlockCount v (some metaEnabled) dpb size
        fileSize := size
        containerSize := out }
  else none                                                        -- the assertions of file_utils.rs

/-- The numbers `encode` displays after a run that ended with counters `c`: encode_core.rs lines 58-69 and 803-809.  The metadata
blocks are counted when the placeholders are written (lines 464-472 and 582-592). -/
def encodeNumbers (p : Encode.Param) (c : Encode.Counters) : Option Numbers :=
  (containerSize p.version (some p.metaEnabled) p.dpb (c.bytesEncoded p.version)).map fun out =>
    let metaBlocks := if p.metaEnabled then (metaAllPos p.version p.dpb).length else 0
    { metaBlocks := metaBlocks
      dataBlocks := c.dataBlocks
      parityBlocks := c.parityBlocks
      totalBlocks := metaBlocks + c.dataBlocks + c.parityBlocks
      fileSize := c.bytesEncoded p.version
      containerSize := out }

end Verif.Calc
