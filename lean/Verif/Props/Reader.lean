import Verif.Lemmas.Reader
import Verif.Props.Encode
/-!
# C40: encoding from a pipe that delivers its bytes in pieces
-/

namespace Verif.Reader
open Encode Layout FileUtils ReaderSpec Format ContainerSpec LayoutSpec

/-- **C40.** However a pipe delivers its bytes, encoding it ends successfully (under the conditions of C24), and the container holds,
with matching size and hash, a beginning of the input. -/
theorem C40_prefix (sizes : Nat → Nat) (E : Env) (p : Param) (hE : E.Ok p) (hok : p.Ok) (hs : ∀ n, E.stop n = false) (bytes : List Byte)
    (hn : NamesOk p ⟨bytes, none⟩) (hsz : ∀ mx, maxDataFileSize p.version p.dpb = some mx → bytes.length ≤ mx)
    (hm : p.metaEnabled = true → needed p ⟨bytes, none⟩ ≤ blockLen p.version - 16) :
    ∃ d rep n, encodeStdin sizes E p bytes = (d, .ok rep) ∧ Holds E p d rep (bytes.take n) ∧
      (Quick sizes (blockLen p.version - 16) → bytes.length ≤ n) ∧
      (capacity sizes 0 5 < blockLen p.version - 16 → capacity sizes 0 5 < bytes.length → n = capacity sizes 0 5) := by
  have hpre := delivered_prefix sizes p.version.dataSize (bytes.length + 1) bytes 0
  have htake := List.prefix_iff_eq_take.1 hpre
  obtain ⟨d, rep, h⟩ := C24_succeeds E p hE hok ⟨delivered sizes p.version.dataSize (bytes.length + 1) bytes 0, none⟩
    (fun mx hmx => Nat.le_trans hpre.length_le (hsz mx hmx)) hm
  refine ⟨d, rep, (delivered sizes p.version.dataSize (bytes.length + 1) bytes 0).length, encodeStdin_eq sizes E p bytes h (by simp), ?_, ?_, ?_⟩
  · rw [← htake]
    exact C24_whole_input E p hE hok ⟨delivered sizes p.version.dataSize (bytes.length + 1) bytes 0, none⟩ ⟨hn.1, hn.2⟩ d rep (.inl rfl) hs h
  · intro hq
    rw [← dataSize_eq] at hq
    rw [delivered_quick sizes (dataSize_one _) hq _ bytes 0 (Nat.lt_succ_self _)]
  · intro h1 h2
    rw [← dataSize_eq] at h1
    obtain ⟨e1, -⟩ := read_eq sizes p.version.dataSize bytes 0
    have hlen : (read sizes p.version.dataSize bytes 0).1.length = capacity sizes 0 5 := by
      rw [e1, List.length_take]; omega
    unfold delivered
    simp only
    rw [if_pos (by omega), hlen]

/-- **C40, the part that holds.** If any five calls of `read` in a row can deliver a chunk (496, 112 or 4080 bytes), the whole input is
encoded. -/
theorem C40_whole_partial (sizes : Nat → Nat) (E : Env) (p : Param) (hE : E.Ok p) (hok : p.Ok) (hs : ∀ n, E.stop n = false)
    (bytes : List Byte) (hq : Quick sizes (blockLen p.version - 16))
    (hn : NamesOk p ⟨bytes, none⟩) (hsz : ∀ mx, maxDataFileSize p.version p.dpb = some mx → bytes.length ≤ mx)
    (hm : p.metaEnabled = true → needed p ⟨bytes, none⟩ ≤ blockLen p.version - 16) :
    ∃ d rep, encodeStdin sizes E p bytes = (d, .ok rep) ∧ Holds E p d rep bytes := by
  obtain ⟨d, rep, n, h1, h2, h3, -⟩ := C40_prefix sizes E p hE hok hs bytes hn hsz hm
  rw [List.take_of_length_le (h3 hq)] at h2
  exact ⟨d, rep, h1, h2⟩

/-- **C40 violated.** A pipe whose first five calls of `read` deliver less than a chunk is taken to be at its end: encoding reports
success, and the container holds only these bytes, with a size and a hash that match them. -/
theorem C40_short_reads_violated (sizes : Nat → Nat) (E : Env) (p : Param) (hE : E.Ok p) (hok : p.Ok) (hs : ∀ n, E.stop n = false)
    (bytes : List Byte) (hshort : capacity sizes 0 5 < blockLen p.version - 16) (hmore : capacity sizes 0 5 < bytes.length)
    (hn : NamesOk p ⟨bytes, none⟩) (hsz : ∀ mx, maxDataFileSize p.version p.dpb = some mx → bytes.length ≤ mx)
    (hm : p.metaEnabled = true → needed p ⟨bytes, none⟩ ≤ blockLen p.version - 16) :
    ∃ d rep, encodeStdin sizes E p bytes = (d, .ok rep) ∧ Holds E p d rep (bytes.take (capacity sizes 0 5)) ∧
      (bytes.take (capacity sizes 0 5)).length < bytes.length := by
  obtain ⟨d, rep, n, h1, h2, -, h4⟩ := C40_prefix sizes E p hE hok hs bytes hn hsz hm
  rw [h4 hshort hmore] at h2
  exact ⟨d, rep, h1, h2, by rw [List.length_take]; omega⟩

/-! ### Instances -/

theorem demo_conditions : NamesOk (demoParam .v17 (some ⟨10, 2, 0⟩) none) ⟨List.replicate 1000 7, none⟩ ∧
    (∀ mx, maxDataFileSize Version.v17 (some ⟨10, 2, 0⟩) = some mx → (List.replicate 1000 (7 : Byte)).length ≤ mx) ∧
    needed (demoParam .v17 (some ⟨10, 2, 0⟩) none) ⟨List.replicate 1000 7, none⟩ ≤ blockLen .v17 - 16 := by
  obtain ⟨h1, h2⟩ := demo_ok (v := .v17) (dpb := some ⟨10, 2, 0⟩) none rfl (by simp) (fun _ => false)
  refine ⟨⟨by decide +kernel, fun n t ht => by simp at ht⟩, ?_, by decide +kernel⟩
  intro mx hmx
  rw [show maxDataFileSize Version.v17 (some ⟨10, 2, 0⟩) = _ from maxSize_eq h1] at hmx
  cases hmx
  decide +kernel

/-- A pipe that delivers at most 100 bytes at a time. -/
example : ∃ d rep, encodeStdin (fun _ => 99) (demoEnv fun _ => false) (demoParam .v17 (some ⟨10, 2, 0⟩) none) (List.replicate 1000 7) =
      (d, .ok rep) ∧ Holds (demoEnv fun _ => false) (demoParam .v17 (some ⟨10, 2, 0⟩) none) d rep (List.replicate 1000 7) := by
  obtain ⟨h1, h2⟩ := demo_ok (v := .v17) (dpb := some ⟨10, 2, 0⟩) none rfl (by simp) (fun _ => false)
  obtain ⟨c1, c2, c3⟩ := demo_conditions
  exact C40_whole_partial (fun _ => 99) _ _ h2 h1 (fun _ => rfl) _ (fun n => by
    show blockLen .v17 - 16 ≤ ((List.range 5).map fun _ => 100).sum
    decide +kernel) c1 c2 (fun _ => c3)

/-- A pipe that delivers one byte at a time: five bytes are encoded. -/
example : ∃ d rep, encodeStdin (fun _ => 0) (demoEnv fun _ => false) (demoParam .v17 (some ⟨10, 2, 0⟩) none) (List.replicate 1000 7) =
      (d, .ok rep) ∧ Holds (demoEnv fun _ => false) (demoParam .v17 (some ⟨10, 2, 0⟩) none) d rep [7, 7, 7, 7, 7] := by
  obtain ⟨h1, h2⟩ := demo_ok (v := .v17) (dpb := some ⟨10, 2, 0⟩) none rfl (by simp) (fun _ => false)
  obtain ⟨c1, c2, c3⟩ := demo_conditions
  obtain ⟨d, rep, g1, g2, -⟩ := C40_short_reads_violated (fun _ => 0) _ _ h2 h1 (fun _ => rfl) _ (by decide +kernel) (by decide +kernel) c1 c2
    (fun _ => c3)
  have : (List.replicate 1000 (7 : Byte)).take (capacity (fun _ => 0) 0 5) = [7, 7, 7, 7, 7] := by decide +kernel
  rw [this] at g2
  exact ⟨d, rep, g1, g2⟩

example : ∃ d rep n, encodeStdin (fun k => k) (demoEnv fun _ => false) (demoParam .v17 (some ⟨10, 2, 0⟩) none) (List.replicate 1000 7) =
      (d, .ok rep) ∧ Holds (demoEnv fun _ => false) (demoParam .v17 (some ⟨10, 2, 0⟩) none) d rep ((List.replicate 1000 7).take n) := by
  obtain ⟨h1, h2⟩ := demo_ok (v := .v17) (dpb := some ⟨10, 2, 0⟩) none rfl (by simp) (fun _ => false)
  obtain ⟨c1, c2, c3⟩ := demo_conditions
  obtain ⟨d, rep, n, g1, g2, -⟩ := C40_prefix (fun k => k) _ _ h2 h1 (fun _ => rfl) _ c1 c2 (fun _ => c3)
  exact ⟨d, rep, n, g1, g2⟩

end Verif.Reader
