import Verif.Props.Decode
/-!
# What the commands find out about a container
-/

namespace Verif.Decode
open Format Scan ScanSpec ContainerSpec LayoutSpec Layout

/-- The burst level of the container is stated, or the container is one for which it is guessed (C36). -/
def BurstKnown (given : Option Nat) (dpb : Option Dpb) (blocks : Nat) : Prop :=
  ∀ d, dpb = some d → given = some d.burst ∨
    given = none ∧ d.burst ≤ 1000 ∧ (d.parity * d.burst ≤ 1001 ∨ d.burst * (d.data + d.parity) ≤ blocks)

/-- A container begins with a metadata block. -/
theorem container_start {rs : RsCodec} {v : Version} {uid : Uid} {dpb : Option Dpb} {bytes mb mp : List Byte} {f : File}
    (hc : IsContainer rs v uid.bytes true dpb bytes mb f) (hmb : IsBlock mb v uid 0 mp) :
    IsBlock (f.readAt 0 (blockLen v)) v uid 0 mp := by
  have h0 : (0 : Nat) ∈ metaCopies (some true) dpb := by
    cases dpb with
    | none => simp [metaCopies]
    | some d => exact List.mem_map.2 ⟨0, List.mem_range.2 (by omega), by simp⟩
  have := hc.metas 0 h0
  rw [Nat.zero_mul] at this
  rw [this]; exact hmb

/-- The shard counts and the burst level found for a container are the right ones. -/
theorem container_shards {rs : RsCodec} {v : Version} {uid : Uid} {dpb : Option Dpb} {bytes mb mp : List Byte} {f : File}
    (hrs : RsLen rs v dpb) (hsh : ∀ d, dpb = some d → 1 ≤ d.data ∧ 1 ≤ d.parity ∧ d.data + d.parity ≤ 256)
    (hcons : verConsistent v dpb = true) (hc : IsContainer rs v uid.bytes true dpb bytes mb f) (hmb : IsBlock mb v uid 0 mp)
    (hms : firstRsd (metasFromBytes mp) = dpb.map (·.data) ∧ firstRsp (metasFromBytes mp) = dpb.map (·.parity))
    (hn : (payloads rs v dpb (fileChunks v bytes)).length ≤ lastSeqNum) (q : RefParam) (offset : Bool)
    (hb : BurstKnown q.burst dpb (payloads rs v dpb (fileChunks v bytes)).length)
    (hg : offset = true → q.guessFrom = none) :
    dataParBurst q offset f (blockOf v uid 0 mp) = .ok dpb := by
  have hval : Valid dpb := fun d hd => (hsh d hd).1
  have hps := (payloads_spec (rs := rs) hrs hval (cs := fileChunks v bytes) (by
    intro c hcm
    unfold fileChunks at hcm
    rw [← dataSize_eq] at hcm
    exact (mem_chunksOf _ c hcm).2.1)).2
  set ref := blockOf v uid 0 mp with hrefdef
  have hver : ref.header.version = v := rfl
  have huid : ref.header.uid = uid := rfl
  have hmeta : ref.metas = some (metasFromBytes mp) := metas_blockOf
  unfold dataParBurst
  rw [hver]
  unfold verConsistent at hcons
  cases hdp : dpb with
  | none => rw [hdp] at hcons; simp at hcons; simp [hcons]
  | some d =>
    rw [hdp] at hcons hms
    have hu : v.usesRs = true := by simpa using hcons
    rw [if_pos hu, getRsd_meta hmeta, getRsp_meta hmeta, hms.1, hms.2]
    simp only [Option.map_some, fieldOrErr]
    have hgf : (if offset = true then q.guessFrom else none) = none := by
      cases offset with
      | false => rfl
      | true => exact hg rfl
    have : burstOrGuess q.burst none (offset && q.forceMisalign) f ref = .ok d.burst := by
      unfold burstOrGuess
      rcases hb d hdp with hb | ⟨hb0, hb1, hb2⟩
      · rw [hb]
      · rw [hb0]
        have ht : ref.blockType = .metadata := by rw [hrefdef, blockOf_type]; rfl
        rw [hdp] at hc hrs hps hn hb2
        have hl := C36_exact (v := v) (uid := uid) (d := d) (f := f) (ref := ref)
          ⟨hu, (hsh d hdp).1, (hsh d hdp).2.1, (hsh d hdp).2.2, hb1, hps, by unfold lastSeqNum at hn; omega,
            ⟨mb, mp, hmb, hc⟩, hver, huid, ⟨_, hmeta, hms⟩⟩ hb2
        simp only [hver, hu, guess_mis, hl]
        simp [ht]
    rw [hgf, this]

end Verif.Decode
