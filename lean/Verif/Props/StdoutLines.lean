import Verif.Lemmas.LineWriter
import Verif.Props.Device
/-!
# C49 for `decode` to standard output: a system that takes everything is not enough

`std::io::Stdout` is line buffered.  A piece in which a newline is followed by more than 1024 further bytes is taken only in part, and
`src/data_block_buffer/mod.rs` 597 does not look at the number of bytes taken.
-/

namespace Verif.Device
open DeviceSpec

/-- What is at standard output at the end is what the line buffered writer makes of the pieces, none of them longer than a block, which
together are the decoded bytes. -/
theorem C49_stdout_lines (E : Decode.Env) (p : Decode.Param) (f : File) (bytes : List Byte) (rep : Decode.Report)
    (h : Decode.toStdout E p f = .ok (bytes, rep)) :
    ∃ chunks pos ref, chunks.flatten = bytes ∧ Scan.getRefBlockM p.ref p.ref.refChoice f E.stopRef (E.stop 0) = .ok (pos, ref) ∧
      (∀ c ∈ chunks, c.length ≤ ref.header.version.blockSize) ∧
      decodeOut lineBuffered E p f = some (((⟨[], []⟩ : LineWriter).writes chunks).exit, rep) := by
  unfold Decode.toStdout at h
  unfold decodeOut
  cases hr : Scan.getRefBlockM p.ref p.ref.refChoice f E.stopRef (E.stop 0) with
  | error x => rw [hr] at h; cases h
  | ok r =>
    obtain ⟨pos, ref⟩ := r
    rw [hr] at h
    simp only at h ⊢
    rcases decodeStdout_both lineBuffered E p ref f with ⟨-, e⟩ | ⟨chunks, out, st', h', e1, e2, e3, e4⟩
    · cases hd : Decode.decodeStdout E p ref f with
      | error x => rw [hd] at h; cases h
      | ok x => exact absurd hd (e (fun _ _ => by simp [lineBuffered]) x)
    · rw [e2] at h
      simp only [Except.ok.injEq, Prod.mk.injEq] at h
      obtain ⟨rfl, rfl⟩ := h
      obtain ⟨out', h1, h2⟩ := lineWriter_arrives chunks ⟨[], []⟩ 0
      rw [e3, Option.some.injEq] at h1
      refine ⟨chunks, pos, ref, rfl, rfl, e4, ?_⟩
      rw [e1, h2, ← h1]
      rfl

/-- Everything arrives if the blocks are not larger than 1024 bytes, or if there is no newline in the decoded bytes.  Missing: the
other containers (`C49_stdout_lines_violated`). -/
theorem C49_stdout_lines_partial (E : Decode.Env) (p : Decode.Param) (f : File) (bytes : List Byte) (rep : Decode.Report)
    (h : Decode.toStdout E p f = .ok (bytes, rep))
    (hb : (∀ pos ref, Scan.getRefBlockM p.ref p.ref.refChoice f E.stopRef (E.stop 0) = .ok (pos, ref) → ref.header.version.blockSize ≤ 1024) ∨
      10 ∉ bytes) :
    decodeOut lineBuffered E p f = some (bytes, rep) := by
  obtain ⟨chunks, pos, ref, rfl, hr, hc, hd⟩ := C49_stdout_lines E p f bytes rep h
  obtain ⟨out, h1, h2⟩ := lineWriter_arrives chunks ⟨[], []⟩ 0
  rw [hd, h2, arrives_lines_all chunks 0 out ?_ h1]
  · rfl
  · intro c hcm
    rcases hb with hb | hb
    · exact lineTaken_short (Nat.le_trans (hc c hcm) (hb pos ref hr))
    · exact lineTaken_noLine fun hm => hb (List.mem_flatten.2 ⟨c, hcm, hm⟩)

set_option maxRecDepth 1000000 in
/-- The container of `Verif/Props/Device.lean` has blocks of 128 bytes. -/
example : decBytes lineBuffered = some (List.replicate 200 7, true) := by decide +kernel

/-- Blocks of 4096 bytes: metadata and one data block with a newline and 1100 other bytes. -/
def lineFile : File :=
  Decode.tinyBlock .v3 0 ((metasToBytes [.fsz 1101, .hsh (sumHash.bytes .sha1 (10 :: List.replicate 1100 7))] 4080).getD []) ++
    Decode.tinyBlock .v3 1 (10 :: List.replicate 1100 7 ++ List.replicate 2979 0x1A)

set_option maxRecDepth 10000000 in
/-- **C49 is violated by `decode` to standard output even if the system takes everything.** Of the 1101 bytes the last 76 are missing;
success is reported and the hash reported is the right one. -/
theorem C49_stdout_lines_violated :
    (decodeOut lineBuffered sumEnv Decode.tinyParam lineFile).map shown = some (10 :: List.replicate 1024 7, true) := by
  decide +kernel

end Verif.Device
