import Verif.Spec.Decode
/-!
# Specification vocabulary: what `check` finds at the places of a container
-/

namespace Verif.CheckSpec
open Format

/-- The bytes at the `k`-th place, counted in blocks from position `start`. -/
def placeBytes (v : Version) (f : File) (start k : Nat) : List Byte := f.readAt (start + k * blockLen v) (blockLen v)

/-- A metadata block of the container. -/
def IsMeta (v : Version) (uid : Uid) (bs : List Byte) : Prop := ∃ payload, IsBlock bs v uid 0 payload

/-- A data or parity block of the container. -/
def IsData (v : Version) (uid : Uid) (bs : List Byte) : Prop := ∃ seq payload, seq ≠ 0 ∧ IsBlock bs v uid seq payload

/-- Only zeros. -/
def IsBlank (bs : List Byte) : Prop := ∀ b ∈ bs, b = 0

/-- Neither a block of the container nor blank. -/
def IsBad (v : Version) (uid : Uid) (bs : List Byte) : Prop := ¬ IsMeta v uid bs ∧ ¬ IsData v uid bs ∧ ¬ IsBlank bs

open Classical in
/-- How many of the first `m` places have a property. -/
noncomputable def countPlaces (v : Version) (f : File) (start m : Nat) (P : List Byte → Prop) : Nat :=
  (List.range m).countP fun k => decide (P (placeBytes v f start k))

/-- A block of the container that carries a chunk of the file (C14). -/
def IsDataBlock (v : Version) (uid : Uid) (dpb : Option Dpb) (bs : List Byte) : Prop :=
  ∃ seq payload, DecodeSpec.chunkOf dpb seq.toNat ≠ none ∧ IsBlock bs v uid seq payload

/-- A parity block of the container. -/
def IsParityBlock (v : Version) (uid : Uid) (dpb : Option Dpb) (bs : List Byte) : Prop :=
  ∃ seq payload, seq ≠ 0 ∧ DecodeSpec.chunkOf dpb seq.toNat = none ∧ IsBlock bs v uid seq payload

/-- The block of the container with sequence number `s`. -/
def IsNumber (v : Version) (uid : Uid) (s : Nat) (bs : List Byte) : Prop := ∃ seq payload, seq.toNat = s ∧ IsBlock bs v uid seq payload

open Classical in
/-- How many numbers below `n` have a property. -/
noncomputable def countBelow (n : Nat) (P : Nat → Prop) : Nat := (List.range n).countP fun k => decide (P k)

end Verif.CheckSpec
