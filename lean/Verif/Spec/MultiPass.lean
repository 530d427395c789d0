import Verif.Spec.Container
/-!
# Specification of what several passes leave in an output file
-/

namespace Verif.MultiPassSpec

/-- `out` has the chunks of `bytes` (of `u` bytes each) in `S`, as far as they belong to `bytes`, and zeros instead of the others. -/
structure Chunks (u : Nat) (bytes : List Byte) (S : Nat → Prop) (out : File) : Prop where
  right : ∀ i < out.length, i < bytes.length → S (i / u) → out[i]? = bytes[i]?
  blank : ∀ i < out.length, ¬ S (i / u) → out[i]? = some 0
  there : ∀ j, S j → min bytes.length ((j + 1) * u) ≤ out.length

/-- `out` has the places of the container `c` (of `u` bytes each) in `S`, zeros instead of the others, and nothing behind the last
of them. -/
structure Places (u : Nat) (c : File) (S : Nat → Prop) (out : File) : Prop where
  aligned : u ∣ out.length
  right : ∀ k, S k → (k + 1) * u ≤ out.length ∧ out.readAt (k * u) u = c.readAt (k * u) u
  blank : ∀ k, k * u < out.length → ¬ S k → out.readAt (k * u) u = List.replicate u 0
  tight : ∀ k, out.length = (k + 1) * u → S k

end Verif.MultiPassSpec
