import Verif.Model.Specs
/-!
# Specification vocabulary for the container layout
-/

namespace Verif.LayoutSpec

/-- A shard setting accepted by the program has at least one data shard. -/
def Valid (dpb : Option Dpb) : Prop := ∀ d, dpb = some d → 1 ≤ d.data

/-- Where the metadata copies belong: none if metadata is disabled, block 0 without Reed-Solomon, and every
`1 + burst` blocks, `1 + parity` times, with Reed-Solomon. -/
def metaCopies (metaEnabled : Option Bool) : Option Dpb → List Nat
  | none => if metaEnabled = some false then [] else [0]
  | some d => (List.range (1 + d.parity)).map fun k => k * (1 + d.burst)

/-- Number of data chunks carried by sequence numbers below `seq` when every set of `data + parity` consecutive
sequence numbers starts with `data` data blocks. -/
def chunksBefore (data parity seq : Nat) : Nat :=
  (List.range (seq - 1)).countP fun i => i % (data + parity) < data

/-- Block `i` lies in the burst `(start, length)`. -/
def hit (bursts : List (Nat × Nat)) (i : Nat) : Bool := bursts.any fun b => b.1 ≤ i && i < b.1 + b.2

/-- The super block set (`burst` interleaved Reed-Solomon sets) the place `i` belongs to; the metadata copies lie in the first one. -/
def superSet (d : Dpb) (i : Nat) : Nat := (i - (1 + d.parity)) / ((d.data + d.parity) * d.burst)

/-- Those bursts that hit a place of super block set `s`. -/
def within (d : Dpb) (bursts : List (Nat × Nat)) (s : Nat) : List (Nat × Nat) :=
  bursts.filter fun b => (List.range b.2).any fun i => superSet d (b.1 + i) == s

/-- The block with number `seq` (from 1) is a parity block: each set of `data + parity` numbers ends with `parity` of them. -/
def parityNumber (dpb : Option Dpb) (seq : Nat) : Bool :=
  match dpb with
  | none => false
  | some d => decide (d.data ≤ (seq - 1) % (d.data + d.parity))

/-- How many of the numbers `1 ..= n` are those of data blocks, and how many those of parity blocks. -/
def dataNumbers (dpb : Option Dpb) (n : Nat) : Nat := (List.range' 1 n).countP fun s => !parityNumber dpb s
def parityNumbers (dpb : Option Dpb) (n : Nat) : Nat := (List.range' 1 n).countP fun s => parityNumber dpb s

/-- Data chunks of a file: its length divided by the chunk size, rounded up. -/
def ceilDiv (a b : Nat) : Nat := if a % b = 0 then a / b else a / b + 1

/-- Data and parity blocks an encoder must produce for a file of `size` bytes: whole Reed-Solomon sets. -/
def blocksFor (chunkSize : Nat) (dpb : Option Dpb) (size : Nat) : Nat :=
  match dpb with
  | none => ceilDiv size chunkSize
  | some d => ceilDiv (ceilDiv size chunkSize) d.data * (d.data + d.parity)

end Verif.LayoutSpec
