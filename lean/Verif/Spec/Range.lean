import Verif.Props.Utils
import Verif.Model.File
/-!
# Specification vocabulary: the blocks selected by a range of positions
-/

namespace Verif.RangeSpec
open Misc

/-- `g` consists of the blocks of `f`, `L` bytes long, that are selected by the options `FROM`, `TO` and `--force-misalign`: the first one
begins at `FROM`, clamped to the file and rounded down to a multiple of `L` unless misalignment is forced (`IsStart`); the others follow
without gaps as long as they begin in the requested range and are complete. -/
def Cut (fromByte : Option Nat) (toByte : Option RangeEnd) (misalign : Bool) (L : Nat) (f g : File) : Prop :=
  ∃ start m, IsStart fromByte misalign L f.length start ∧
    (∀ k, k < m ↔ start + (k + 1) * L ≤ f.length ∧ (k = 0 ∨ inRequested toByte (start + k * L))) ∧
    g = f.readAt start (m * L)

end Verif.RangeSpec
