import Verif.Model.Bytes
/-!
# Specification of reading a pipe in pieces

`room` is the size of the buffer (one chunk), `sizes n + 1` the number of bytes at most delivered by the `n`-th call of `read`.
-/

namespace Verif.ReaderSpec

/-- The number of bytes that `k` calls, the first one being the `n`-th, can deliver. -/
def capacity (sizes : Nat → Nat) (n k : Nat) : Nat := ((List.range k).map fun i => sizes (n + i) + 1).sum

/-- Any five calls in a row can deliver a whole chunk. -/
def Quick (sizes : Nat → Nat) (room : Nat) : Prop := ∀ n, room ≤ capacity sizes n 5

end Verif.ReaderSpec
