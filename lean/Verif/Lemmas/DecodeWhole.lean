import Verif.Lemmas.Assemble
import Verif.Props.Scan
/-!
# Lemmas about decoding a whole container to a new file
-/

namespace Verif.Decode
open Format ScanSpec DecodeSpec LayoutSpec ContainerSpec BlockRing Scan Misc

/-- Options that select the whole container and a new output file. -/
structure Whole (p : Param) : Prop where
  fromPos : p.ref.fromPos = none
  toPos : p.ref.toPos = none
  single : p.multiPass = none

theorem range_all (mis : Bool) (n : Nat) (L : Option Nat) :
    byteRange none none mis 0 (.len n) L = ⟨if n = 0 then 1 else n, 0⟩ := by
  unfold byteRange
  simp only [lastPossiblePos, startPos, endInc, Option.getD_none, Nat.add_zero]
  have : align mis (L.getD scanBlockSize) 0 = 0 := by unfold align roundDown; simp
  rw [this]
  split
  · rfl
  · congr 1; omega

theorem places_all {ref : Block} {f : File} {mis : Bool} {L : Option Nat} :
    places ref f (byteRange none none mis 0 (.len f.length) L).seekTo (byteRange none none mis 0 (.len f.length) L).requiredLen =
      f.length / blockLen ref.header.version := by
  have hpos := blockLen_pos ref.header.version
  rw [range_all]
  simp only [places, Nat.sub_zero]
  apply Nat.min_eq_right
  have h1 := (Encode.ceilDiv_le_iff hpos (r := if f.length = 0 then 1 else f.length)).1 (Nat.le_refl _)
  rw [Nat.div_le_iff_le_mul_add_pred hpos]
  rw [Nat.mul_comm]
  split at h1 <;> split <;> omega

theorem mem_found {ref : Block} {f : File} {x : Nat × List Byte} :
    x ∈ (List.range (f.length / blockLen ref.header.version)).filterMap (look ref f 0) ↔
      x.1 < 2 ^ 32 ∧ HasBlock ref.header.version ref.header.uid f (UInt32.ofNat x.1) x.2 := by
  have hpos := blockLen_pos ref.header.version
  rw [List.mem_filterMap]
  constructor
  · rintro ⟨k, -, hk⟩
    obtain ⟨h1, h2⟩ := look_some.1 hk
    rw [Nat.zero_add] at h2
    exact ⟨h1, k, h2⟩
  · rintro ⟨h1, k, hk⟩
    refine ⟨k, ?_, look_some.2 ⟨h1, by rwa [Nat.zero_add]⟩⟩
    rw [List.mem_range]
    have hl := isBlock_length hk
    rw [File.readAt_length] at hl
    apply (Nat.le_div_iff_mul_le hpos).2
    rw [Nat.succ_mul]; omega

theorem mem_found' {ref : Block} {f : File} {s : UInt32} {p : List Byte} :
    (s.toNat, p) ∈ (List.range (f.length / blockLen ref.header.version)).filterMap (look ref f 0) ↔
      HasBlock ref.header.version ref.header.uid f s p := by
  rw [mem_found]
  simp only [UInt32.ofNat_toNat]
  exact ⟨fun h => h.2, fun h => ⟨UInt32.toNat_lt s, h⟩⟩

/-- Decoding the whole container to a new file. -/
theorem decodeFile_whole (E : Env) (hE : 0 < E.lotCount) (hs : ∀ i, E.stop i = false) {p : Param} (hp : Whole p) (ref : Block)
    (f old : File) (dpb : Option Dpb) (hd : dataParBurst p.ref true f ref = .ok dpb) :
    ∃ full, Assembled ref.header.version.dataSize
        (chunks dpb ((List.range (f.length / blockLen ref.header.version)).filterMap (look ref f 0))) full ∧
      decodeFile E p ref f old = .ok (truncated ref full,
        ((List.range (f.length / blockLen ref.header.version)).map (look ref f 0)).foldl (countAt dpb) Stats.zero) := by
  obtain ⟨m, -, hm, e⟩ := decodeFile_spec E hE p ref f old dpb hd
  have hm := hm hs
  have hseek : (rangeOf p.ref ref f).seekTo = 0 := by
    unfold rangeOf; rw [hp.fromPos, hp.toPos, range_all]
  have hpl : places ref f (rangeOf p.ref ref f).seekTo (rangeOf p.ref ref f).requiredLen = f.length / blockLen ref.header.version := by
    unfold rangeOf; rw [hp.fromPos, hp.toPos]; exact places_all
  rw [hpl] at hm
  subst hm
  rw [hseek, hp.single] at e
  refine ⟨_, ?_, e⟩
  refine assembled (FileUtils.dataSize_pos _) dpb _ ?_
  intro x hx
  obtain ⟨h1, k, hk⟩ := mem_found.1 hx
  rw [hk.len, dataSize_eq]

theorem assembled_ext {u : Nat} (hu : 0 < u) {cs cs' : List (Nat × List Byte)} {out out' : File} (h : Assembled u cs out)
    (h' : Assembled u cs' out') (hl : ∀ j, lastOf cs j = lastOf cs' j) : out = out' := by
  have hmem : ∀ n, (∀ c ∈ cs, c.1 < n) ↔ ∀ c ∈ cs', c.1 < n := by
    have key : ∀ {cs cs' : List (Nat × List Byte)}, (∀ j, lastOf cs j = lastOf cs' j) → ∀ n, (∀ c ∈ cs, c.1 < n) → ∀ c ∈ cs', c.1 < n := by
      intro cs cs' hl n hc c hcm
      have := hl c.1
      cases hx : lastOf cs c.1 with
      | none =>
        rw [hx, eq_comm, lastOf_eq, File.lastWrite_none] at this
        exact absurd rfl (this c hcm)
      | some p =>
        rw [lastOf_eq] at hx
        exact hc (c.1, p) (File.lastWrite_some hx)
    intro n
    exact ⟨key hl n, key (fun j => (hl j).symm) n⟩
  have hlen : ∀ n, out.length ≤ n * u ↔ out'.length ≤ n * u := by
    intro n; rw [h.length, h'.length]; exact hmem n
  obtain ⟨a, ha⟩ := h.aligned
  obtain ⟨b, hb⟩ := h'.aligned
  rw [Nat.mul_comm] at ha hb
  have e : a = b := by
    have h1 := (hlen b).2 (by omega)
    have h2 := (hlen a).1 (by omega)
    rw [ha] at h1; rw [hb] at h2
    exact Nat.le_antisymm (Nat.le_of_mul_le_mul_right h1 hu) (Nat.le_of_mul_le_mul_right h2 hu)
  subst e
  apply List.ext_getElem?
  intro i
  by_cases hi : i < out.length
  · rw [assembled_get hu h hi, assembled_get hu h' (by omega), hl]
  · rw [List.getElem?_eq_none (by omega), List.getElem?_eq_none (by omega)]

/-- A chunk is carried by one sequence number only, also for a setting without data shards. -/
theorem chunkOf_inj {dpb : Option Dpb} {s s' j : Nat} (h : chunkOf dpb s = some j) (h' : chunkOf dpb s' = some j) : s = s' := by
  have hv : Valid dpb := by
    intro d hd
    subst hd
    by_contra h0
    have h0 : d.data = 0 := by omega
    unfold chunkOf Layout.chunkWriteIndex Layout.isParity at h
    simp only [Option.map_some, h0] at h
    split at h
    · simp at h
    · rename_i hs
      have hs : s ≠ 0 := by omega
      simp [hs] at h
  rw [chunkOf_iff hv] at h h'
  rw [h, h']

theorem chunkOf_congr {d d' : Option Dpb} (h : d.map (fun d => (d.data, d.parity)) = d'.map fun d => (d.data, d.parity)) :
    chunkOf d = chunkOf d' := by
  unfold chunkOf; rw [h]

theorem chunks_congr {d d' : Option Dpb} (h : d.map (fun d => (d.data, d.parity)) = d'.map fun d => (d.data, d.parity)) :
    chunks d = chunks d' := by
  unfold chunks; rw [chunkOf_congr h]

/-- The shard counts used for decoding are those recorded. -/
theorem dataParBurst_eq {q : RefParam} {offset : Bool} {f : File} {ref : Block} {dpb' : Option Dpb}
    (h : dataParBurst q offset f ref = .ok dpb') {dpb : Option Dpb} (hc : verConsistent ref.header.version dpb = true)
    (hf : ∀ ms, ref.metas = some ms → firstRsd ms = dpb.map (·.data) ∧ firstRsp ms = dpb.map (·.parity)) :
    dpb'.map (fun d => (d.data, d.parity)) = dpb.map fun d => (d.data, d.parity) := by
  unfold dataParBurst at h
  unfold verConsistent at hc
  split at h
  · rename_i hu
    rw [hu] at hc
    cases dpb with
    | none => simp at hc
    | some d =>
      cases hm : ref.metas with
      | none =>
        exfalso
        have : getRsd ref = .error .incorrectBlockType := by
          unfold Block.metas at hm
          unfold getRsd
          cases hd : ref.data with
          | data => rfl
          | metadata ms => rw [hd] at hm; simp at hm
        rw [this] at h
        simp [fieldOrErr] at h
      | some ms =>
        obtain ⟨h1, h2⟩ := hf ms hm
        rw [getRsd_meta hm, getRsp_meta hm, h1, h2] at h
        simp only [Option.map_some, fieldOrErr] at h
        split at h
        · simp at h
        · simp only [Except.ok.injEq] at h
          subst h
          rfl
  · rename_i hu
    simp only [Except.ok.injEq] at h
    subst h
    cases dpb with
    | none => rfl
    | some d => simp [hu] at hc

/-- The shard counts are determined by version and fields of the reference block. -/
theorem dataParBurst_shards {q : RefParam} {offset : Bool} {f : File} {ref : Block} {dpb : Option Dpb}
    (h : dataParBurst q offset f ref = .ok dpb) :
    dpb.map (fun d => (d.data, d.parity)) =
      if ref.header.version.usesRs then
        match getRsd ref, getRsp ref with
        | .ok (some a), .ok (some b) => some (a, b)
        | _, _ => none
      else none := by
  unfold dataParBurst at h
  split at h
  · rename_i hu
    rw [if_pos hu]
    cases h1 : getRsd ref with
    | error e => rw [h1] at h; cases e <;> simp [fieldOrErr] at h
    | ok a =>
      cases h2 : getRsp ref with
      | error e =>
        rw [h1, h2] at h
        cases a with
        | none => simp [fieldOrErr] at h
        | some a => cases e <;> simp [fieldOrErr] at h
      | ok b =>
        rw [h1, h2] at h
        cases a with
        | none => simp [fieldOrErr] at h
        | some a =>
          cases b with
          | none => simp [fieldOrErr] at h
          | some b =>
            simp only [fieldOrErr] at h
            split at h
            · simp at h
            · simp only [Except.ok.injEq] at h
              subst h; rfl
  · rename_i hu
    simp only [Except.ok.injEq] at h
    subst h
    rw [if_neg hu]; rfl

theorem shards_congr {q q' : RefParam} {o o' : Bool} {f f' : File} {ref ref' : Block} {dpb dpb' : Option Dpb}
    (h : dataParBurst q o f ref = .ok dpb) (h' : dataParBurst q' o' f' ref' = .ok dpb')
    (hv : ref'.header.version = ref.header.version) (hd : ref'.data = ref.data) :
    dpb'.map (fun d => (d.data, d.parity)) = dpb.map fun d => (d.data, d.parity) := by
  have e1 : getRsd ref' = getRsd ref := by unfold getRsd; rw [hd]
  have e2 : getRsp ref' = getRsp ref := by unfold getRsp; rw [hd]
  rw [dataParBurst_shards h, dataParBurst_shards h', hv, e1, e2]

theorem refFsz_meta {ref : Block} {ms : List Metadata} (h : ref.metas = some ms) : refFsz ref = firstFsz ms := by
  unfold refFsz; rw [getFsz_meta h]

theorem refHsh_meta {ref : Block} {ms : List Metadata} (h : ref.metas = some ms) : refHsh ref = firstHsh ms := by
  unfold refHsh; rw [getHsh_meta h]

theorem refFsz_data {ref : Block} (h : ref.metas = none) : refFsz ref = none := by
  unfold refFsz getFsz
  unfold Block.metas at h
  cases hd : ref.data with
  | data => rfl
  | metadata ms => rw [hd] at h; simp at h

theorem hashBytes_all (stop : Nat → Bool) (hs : ∀ i, stop i = false) (out : File) :
    ∀ (fuel k : Nat), out.length < (k + fuel) * hashBufferSize → hashBytes stop out fuel k = out.drop (k * hashBufferSize) := by
  intro fuel
  induction fuel with
  | zero =>
    intro k hk
    rw [hashBytes, List.drop_eq_nil_of_le (by rw [Nat.add_zero] at hk; omega)]
  | succ n ih =>
    intro k hk
    rw [hashBytes, hs]
    simp only [Bool.false_eq_true, if_false]
    split
    · rename_i h
      rw [File.readAt_length] at h
      unfold File.readAt
      rw [List.take_of_length_le (by rw [List.length_drop]; omega)]
    · rw [ih (k + 1) (by rw [show k + 1 + n = k + (n + 1) by omega]; exact hk)]
      unfold File.readAt
      rw [Nat.succ_mul, ← List.drop_drop, List.take_append_drop]

theorem hashFile_all {E : Env} (hs : ∀ i, E.stopHash i = false) (ref : Block) (out : File) :
    hashFile E ref out = (hashTypeOf ref).map fun t => E.hash.bytes t out := by
  unfold hashFile
  rw [hashBytes_all E.stopHash hs out (out.length + 1) 0 (by
    have : out.length + 1 ≤ (0 + (out.length + 1)) * hashBufferSize := by
      rw [Nat.zero_add]; exact Nat.le_mul_of_pos_right _ (by decide)
    omega)]
  simp

end Verif.Decode
