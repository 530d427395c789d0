import Verif.Props.Encode
/-!
# C61, `encode`: no input makes it panic

Whatever is encoded (any bytes, from a file or from standard input, of any size, with any range, stopped or not), with parameters
the command line accepts: the reader thread's `unwrap` of the next sequence number, the buffer's assertions and the codec's
errors are not reached.
-/

namespace Verif.Encode
open Format ContainerSpec LayoutSpec FileUtils Misc

/-- C61, `encode`: it ends with a container or with one of the three errors, never with a panic. -/
theorem C61_encode (E : Env) (p : Param) (hE : E.Ok p) (hok : p.Ok) (inp : Input) :
    (encodeFile E p inp).2 ≠ .error .panic := by
  cases h1 : tooLarge p inp with
  | none =>
    unfold tooLarge at h1
    rw [maxSize_eq hok] at h1
    cases hr : required p inp <;> rw [hr] at h1 <;> simp at h1
  | some b =>
    cases b with
    | true => unfold encodeFile; rw [h1]; simp
    | false =>
      by_cases h2 : dummyMeta E p inp = none
      · unfold encodeFile; rw [h1, h2]; simp
      · obtain ⟨cs, mb0, d, res, e, _, _, _, _, _, hout⟩ := encodeFile_spec hE hok inp h1 h2
        rw [e]
        cases hout <;> simp

/-- C61, `encode`: the errors are those of inputs which are too long or have too much metadata, so everything else is encoded:
"too large" and "ran out of block numbers" only if more is wanted than the format has room for, "too much metadata" only if the
fields do not fit into a block. -/
theorem C61_encode_errors (E : Env) (p : Param) (hE : E.Ok p) (hok : p.Ok) (inp : Input) :
    (∃ rep, (encodeFile E p inp).2 = .ok rep) ∨
    (∃ mx, maxDataFileSize p.version p.dpb = some mx ∧ mx < wantedLen p inp) ∨
    (p.metaEnabled = true ∧ blockLen p.version - 16 < needed p inp) := by
  by_cases hsz : wantedLen p inp ≤ maxChunks p * p.version.dataSize
  · by_cases hm : p.metaEnabled = true → needed p inp ≤ p.version.dataSize
    · obtain ⟨d, rep, h⟩ := encode_succeeds hE hok inp hsz hm
      exact .inl ⟨rep, by rw [h]⟩
    · rw [← dataSize_eq]
      refine .inr (.inr ?_)
      rw [Classical.not_imp] at hm
      exact ⟨hm.1, by omega⟩
  · exact .inr (.inl ⟨_, maxSize_eq hok, by omega⟩)

/-! ## Instances -/

/-- Version 17 with shards, stopped after three blocks. -/
example : (encodeFile (demoEnv fun n => decide (3 ≤ n)) (demoParam .v17 (some ⟨10, 2, 3⟩) none)
    ⟨List.replicate 5000 7, some ("a.txt", some 5)⟩).2 ≠ .error .panic := by
  obtain ⟨h1, h2⟩ := demo_ok (v := .v17) (dpb := some ⟨10, 2, 3⟩) none rfl (by simp) (fun n => decide (3 ≤ n))
  exact C61_encode _ _ h2 h1 _

/-- Standard input, version 1. -/
example (bytes : List Byte) : (encodeFile (demoEnv fun _ => false) (demoParam .v1 none none) ⟨bytes, none⟩).2 ≠ .error .panic := by
  obtain ⟨h1, h2⟩ := demo_ok (v := .v1) (dpb := none) none rfl (by simp) (fun _ => false)
  exact C61_encode _ _ h2 h1 _

/-- Three bytes: neither of the two conditions for an error holds. -/
example : (∃ rep, (encodeFile (demoEnv fun _ => false) (demoParam .v1 none none)
      ⟨[1, 2, 3], some ("a.txt", some 5)⟩).2 = .ok rep) := by
  obtain ⟨h1, h2⟩ := demo_ok (v := .v1) (dpb := none) none rfl (by simp) (fun _ => false)
  rcases C61_encode_errors _ _ h2 h1 ⟨[1, 2, 3], some ("a.txt", some 5)⟩ with h | ⟨mx, h, h'⟩ | ⟨_, h⟩
  · exact h
  · rw [maxSize_eq h1] at h
    cases h
    exact absurd h' (by decide +kernel)
  · exact absurd h (by decide +kernel)

end Verif.Encode
