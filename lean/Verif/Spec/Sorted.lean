import Verif.Spec.Decode
/-!
# Specification of sorting an arbitrary file

Nothing is assumed about the file: blocks may be missing, damaged, repeated, contradict each other or belong to other archives.
-/

namespace Verif.SortedSpec
open Format LayoutSpec

/-- The `k`-th place of a file, counted in whole blocks. -/
def place (v : Version) (f : File) (k : Nat) : List Byte := f.readAt (k * blockLen v) (blockLen v)

/-- The last of the valid blocks with this version, uid and number has this payload. -/
def LastBlock (v : Version) (uid : Uid) (f : File) (seq : UInt32) (payload : List Byte) : Prop :=
  ∃ k, IsBlock (place v f k) v uid seq payload ∧ ∀ j, k < j → ∀ p, ¬ IsBlock (place v f j) v uid seq p

/-- The first of the valid metadata blocks with this version and uid has this payload. -/
def FirstMeta (v : Version) (uid : Uid) (f : File) (payload : List Byte) : Prop :=
  ∃ k, IsBlock (place v f k) v uid 0 payload ∧ ∀ j < k, ∀ p, ¬ IsBlock (place v f j) v uid 0 p

/-- `g` is `f` sorted: the first metadata block at all places for metadata, of the data and parity blocks the last one with each
number at the place for this number, and nothing else. -/
structure Sorted (v : Version) (uid : Uid) (dpb : Option Dpb) (f g : File) : Prop where
  metas : ∀ p, FirstMeta v uid f p → ∀ k ∈ metaCopies (some true) dpb, IsBlock (place v g k) v uid 0 p
  datas : ∀ s p, s ≠ 0 → LastBlock v uid f s p → IsBlock (place v g (Layout.dataWriteIndex s.toNat (some true) dpb)) v uid s p
  only : ∀ k s p, IsBlock (place v g k) v uid s p →
    s = 0 ∧ k ∈ metaCopies (some true) dpb ∧ FirstMeta v uid f p ∨
    s ≠ 0 ∧ k = Layout.dataWriteIndex s.toNat (some true) dpb ∧ LastBlock v uid f s p
  gaps : ∀ k, k * blockLen v < g.length → (∀ s p, ¬ IsBlock (place v g k) v uid s p) → place v g k = List.replicate (blockLen v) 0
  aligned : blockLen v ∣ g.length
  tight : ∀ k, g.length = (k + 1) * blockLen v → ∃ s p, IsBlock (place v g k) v uid s p

end Verif.SortedSpec
