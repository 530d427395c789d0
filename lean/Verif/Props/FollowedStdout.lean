import Verif.Props.FollowedCheck
import Verif.Props.Stdout
/-!
# C80: what follows a container does not matter, also if the file is decoded to standard output
-/

namespace Verif.Followed
open Format ContainerSpec LayoutSpec Layout RepairSpec ScanSpec Scan DecodeSpec History Misc

/-- **C80.** Decoding a container that is followed by something else to standard output gives the file and its hash. -/
theorem C80_stdout (S : Setting) (hS : S.Ok) (ms : List Metadata) (c z : File) (hk : Kept S ms c) (hz : Foreign S.version S.uid z)
    (hne : S.bytes ≠ []) (D : Decode.Env) (hD : D.Calm) (hO : D.Visits) (q : Decode.Param) (hq : Decode.Whole q) (hr : Decode.DefaultRef q.ref)
    (hg : q.ref.guessFrom = none) (hb : Decode.BurstKnown q.ref.burst S.dpb S.blocks) :
    ∃ R, Decode.toStdout D q (c ++ z) = .ok (S.bytes, R) ∧ R.recorded = firstHsh ms ∧
      (∀ h, firstHsh ms = some h → h.ty.supported = true → R.computed = some (D.hash.bytes h.ty S.bytes)) ∧ R.outSize = S.bytes.length := by
  obtain ⟨mp, hcon, hmp, hms⟩ := hk.container
  have hblock : IsBlock (blockBytes S.version S.uid.bytes 0 mp) S.version S.uid 0 mp := ⟨rfl, metasToBytes_length hms⟩
  have href := Decode.ref_at_start hr hD.stopRef (D.stop 0) (start_append hcon hblock z)
  have hd := shards_append hS hk hcon hmp hblock hz q.ref true hb (fun _ => hg)
  have hst := ContentHash.stored_container hS.lengths hS.valid hcon hS.numbers
  refine Decode.C41_stored D hD hO q hq (c ++ z) 0 _ S.dpb href hd hS.valid ms (by rw [Decode.metas_blockOf, hmp]) S.bytes hne hk.size ?_ ?_
  · intro j hj
    obtain ⟨p, ⟨s, h1, h2, h3, h4⟩, h5⟩ := hst j hj
    exact ⟨p, ⟨s, h1, h2, (block_append hcon.aligned hz _ _ _).2 ⟨h3, h4⟩⟩, h5⟩
  · intro hdn k s p h0 hb'
    have hin := Decode.container_inPlace hcon hblock (payload_lengths hS) hS.numbers
    rw [hdn] at hin
    exact hin k s p h0 ((block_append hcon.aligned hz k s p).1 hb')

/-! ### Instance -/

/-- C80_stdout: a container followed by 700 zeros. -/
example : ∃ c : File, ∃ ms R, Kept demo ms c ∧
    Decode.toStdout Decode.calmEnv Decode.plainParam (c ++ List.replicate 700 0) = .ok (demo.bytes, R) := by
  obtain ⟨hS, dk, rep, ms, -, hk⟩ := demo_start
  obtain ⟨R, h, -⟩ := C80_stdout demo hS ms dk.file _ hk (C80_zeros demo.version demo.uid 700).1 (by decide +kernel) Decode.calmEnv Decode.calm
    Decode.calm_visits Decode.plainParam Decode.plain_whole Decode.plain_ref rfl (guessable rfl _)
  exact ⟨dk.file, ms, R, hk, h⟩

end Verif.Followed
