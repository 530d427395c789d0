import Verif.Model.Verdict
import Verif.Props.Repair
import Verif.Props.Check
import Verif.Props.DecodeStats
/-!
# C67: what decode, check and repair say in words is true
-/

namespace Verif.Verdict
open Format RepairSpec ScanSpec Scan Layout LayoutSpec ContainerSpec FileUtils Repair

/-! ### repair -/

theorem repair_none {s : Stats} : repair s = "No repairs required" ↔ s.failed = 0 := by
  unfold repair
  split
  · simp [*]
  · split
    · simp [*]
    · split <;> simp [*]

theorem repair_all {s : Stats} : repair s = "All corrupted/missing blocks were repaired successfully" ↔ s.failed ≠ 0 ∧ s.repairFailed = 0 := by
  unfold repair
  split
  · simp [*]
  · split
    · simp [*]
    · split <;> simp [*]

theorem repair_allFailed {s : Stats} : repair s = "All repairs failed" ↔ s.failed ≠ 0 ∧ s.repairFailed = s.failed := by
  unfold repair
  split
  · simp [*]
  · split
    · rename_i h1 h2
      simp only [String.reduceEq, false_iff]
      omega
    · split
      · rename_i h1 h2 h3; simp [h1, h3.symm]
      · rename_i h1 h2 h3; simp [h1, Ne.symm h3]

theorem repair_someFailed {s : Stats} : repair s = "Some repairs failed" ↔ s.failed ≠ 0 ∧ s.repairFailed ≠ 0 ∧ s.repairFailed ≠ s.failed := by
  unfold repair
  split
  · simp [*]
  · split
    · simp [*]
    · split
      · rename_i h1 h2 h3; simp [h1, h3.symm]
      · rename_i h1 h2 h3; simp [h1, h2, Ne.symm h3]

/-- Nothing is missing in sets that cannot be repaired exactly if there are none. -/
theorem missing_zero {v : Version} {uid : Uid} {d : Dpb} {f : File} (n : Nat) :
    missingIn v uid d f false n = 0 ↔ ∀ t < n, d.data ≤ presentIn v uid d f t ∨ d.data + d.parity ≤ presentIn v uid d f t := by
  unfold missingIn
  rw [List.sum_eq_zero_iff]
  simp only [List.mem_map, List.mem_range, forall_exists_index, and_imp, forall_apply_eq_imp_iff₂]
  refine forall_congr' fun t => forall_congr' fun _ => ?_
  by_cases h : d.data ≤ presentIn v uid d f t
  · simp [h]
  · simp [h]; omega

theorem missing_true {v : Version} {uid : Uid} {d : Dpb} {f : File} (n : Nat) :
    missingIn v uid d f true n = 0 ↔ ∀ t < n, presentIn v uid d f t = d.data + d.parity ∨ presentIn v uid d f t < d.data := by
  unfold missingIn
  rw [List.sum_eq_zero_iff]
  simp only [List.mem_map, List.mem_range, forall_exists_index, and_imp, forall_apply_eq_imp_iff₂]
  refine forall_congr' fun t => forall_congr' fun _ => ?_
  have hle : presentIn v uid d f t ≤ d.data + d.parity := presentIn_le ..
  by_cases h : d.data ≤ presentIn v uid d f t
  · simp [h]; omega
  · simp [h]; omega

/-- **C67, repair.** The four texts after an uninterrupted `repair`, dry run or not, of a file of whole blocks with a recorded size, and what
they say about the file as it was found: nothing was missing; something was, and every set can be repaired; something was, every metadata block is
valid, and what is missing is in sets that cannot be repaired; something else. -/
theorem C67_repair (E : Env) (laws : E.rs.Laws) (hE : E.Calm) (burst : Option Nat) (dry : Bool) (f : File) (v : Version) (uid : Uid)
    (mp : List Byte) (d : Dpb) (hs : Sees E burst f v uid mp d) (hf : blockLen v ∣ f.length) (size : Nat)
    (hsz : firstFsz (metasFromBytes mp) = some size) (hnum : blocksFor (blockLen v - 16) (some d) size ≤ lastSeqNum)
    (dk : Disk) (st : Stats) (h : repairFile E burst dry f = .ok (some (dk, st))) :
    let metas : Prop := ∀ k ∈ metaCopies (some true) (some d), ValidAt v uid f k
    let sets : Nat := blocksFor (blockLen v - 16) (some d) size / (d.data + d.parity)
    let full (t : Nat) : Prop := ∀ j < d.data + d.parity, Present v uid d f (t * (d.data + d.parity) + j + 1)
    let lost (t : Nat) : Prop := presentIn v uid d f t < d.data
    (repair st = "No repairs required" ↔ metas ∧ ∀ t < sets, full t) ∧
    (repair st = "All corrupted/missing blocks were repaired successfully" ↔
      ¬ (metas ∧ ∀ t < sets, full t) ∧ ∀ t < sets, ¬ lost t) ∧
    (repair st = "All repairs failed" ↔ (metas ∧ ∀ t < sets, full t ∨ lost t) ∧ ∃ t < sets, lost t) ∧
    (repair st = "Some repairs failed" ↔ ¬ (metas ∧ ∀ t < sets, full t ∨ lost t) ∧ ∃ t < sets, lost t) := by
  obtain ⟨c1, c2, c3, c4, c5, c6⟩ := C38_repair E laws hE burst dry f v uid mp d hs hf dk st h
  have hadd := C38_repair_adds_up E laws hE burst dry f v uid mp d hs hf dk st h size hsz hnum
  obtain ⟨h1, h2, h3⟩ := shards_ok hs.data hs.parity
  have hn : 0 < d.data + d.parity := by omega
  have hex : examined v d mp f = blocksFor (blockLen v - 16) (some d) size := by
    unfold examined
    rw [hsz]
    exact Nat.min_eq_right hnum
  rw [hex] at c5 c6
  have hml : (metaCopies (some true) (some d)).length = 1 + d.parity := by unfold metaCopies; simp
  have hm : st.metaRepaired = 0 ↔ ∀ k ∈ metaCopies (some true) (some d), ValidAt v uid f k := by
    have hle : metasIn v uid d f ≤ 1 + d.parity := by unfold metasIn; rw [← hml]; exact List.countP_le_length
    rw [c4, show 1 + d.parity - metasIn v uid d f = 0 ↔ metasIn v uid d f = (metaCopies (some true) (some d)).length by omega]
    unfold metasIn
    rw [List.countP_eq_length]
    simp
  have hfull : ∀ t, presentIn v uid d f t = d.data + d.parity ↔ ∀ j < d.data + d.parity, Present v uid d f (t * (d.data + d.parity) + j + 1) := by
    intro t
    have := List.countP_eq_length (p := fun j => @decide (Present v uid d f (t * (d.data + d.parity) + j + 1)) (Classical.propDecidable _))
      (l := List.range (d.data + d.parity))
    rw [List.length_range] at this
    unfold presentIn
    rw [this]
    simp
  have hr := missing_true (v := v) (uid := uid) (d := d) (f := f) (blocksFor (blockLen v - 16) (some d) size / (d.data + d.parity))
  have hf' := missing_zero (v := v) (uid := uid) (d := d) (f := f) (blocksFor (blockLen v - 16) (some d) size / (d.data + d.parity))
  rw [← c5] at hr
  rw [← c6] at hf'
  simp only
  rw [repair_none, repair_all, repair_allFailed, repair_someFailed, ← hm]
  simp only [hfull] at hr
  generalize blocksFor (blockLen v - 16) (some d) size / (d.data + d.parity) = sets at *
  have hlost : st.repairFailed = 0 ↔ ∀ t < sets, ¬ presentIn v uid d f t < d.data := by
    rw [hf']; exact forall_congr' fun t => forall_congr' fun _ => by omega
  have hlost' : st.repairFailed ≠ 0 ↔ ∃ t < sets, presentIn v uid d f t < d.data := by
    rw [ne_eq, hlost]; push Not; rfl
  have hallfull : (st.dataRepaired = 0 ∧ st.repairFailed = 0) ↔
      ∀ t < sets, ∀ j < d.data + d.parity, Present v uid d f (t * (d.data + d.parity) + j + 1) := by
    rw [hr, hlost]
    constructor
    · rintro ⟨a, b⟩ t ht
      exact (a t ht).resolve_right (b t ht)
    · intro a
      refine ⟨fun t ht => .inl (a t ht), fun t ht hlt => ?_⟩
      have := (hfull t).2 (a t ht)
      omega
  rw [← hallfull, ← hr, ← hlost, ← hlost']
  refine ⟨by omega, by omega, by omega, by omega⟩


/-- **C67, repair.** After an uninterrupted `repair` of what is left of a container, in which nothing but zeros is between the blocks, "No
repairs required" or "All corrupted/missing blocks were repaired successfully" mean that the file now is the container, byte for byte. -/
theorem C67_repair_trust (E : Env) (laws : E.rs.Laws) (hE : E.Calm) (burst : Option Nat) (v : Version) (uid : Uid) (d : Dpb)
    (bytes mp : List Byte) (c f : File) (h : Case E burst v uid d bytes mp c f)
    (hdam : Damaged v uid d (payloads E.rs v (some d) (fileChunks v bytes)).length c f)
    (hgaps : GapsClean v d (payloads E.rs v (some d) (fileChunks v bytes)).length f) (hf : blockLen v ∣ f.length)
    (dk : Disk) (st : Stats) (hr : repairFile E burst false f = .ok (some (dk, st)))
    (hsay : repair st = "No repairs required" ∨ repair st = "All corrupted/missing blocks were repaired successfully") : dk.file = c := by
  obtain ⟨h1, h2, h3⟩ := shards_ok h.sees.data h.sees.parity
  obtain ⟨hcnt, -⟩ := payloads_count laws (v := v) h1 h2 h3 bytes
  rw [dataSize_eq] at hcnt
  have hn : 0 < d.data + d.parity := by omega
  have hadd := C38_repair_adds_up E laws hE burst false f v uid mp d h.sees hf dk st hr _ h.sized (by rw [← hcnt]; exact h.numbers)
  have h0 : st.repairFailed = 0 := by
    rw [repair_none, repair_all] at hsay
    omega
  obtain ⟨-, -, -, -, -, c6⟩ := C38_repair E laws hE burst false f v uid mp d h.sees hf dk st hr
  have hex : examined v d mp f = (payloads E.rs v (some d) (fileChunks v bytes)).length := by
    unfold examined
    rw [h.sized, hcnt]
    exact Nat.min_eq_right (le_of_eq_of_le hcnt.symm h.numbers)
  rw [c6, hex, missing_zero] at h0
  obtain ⟨dk', st', r1, -, r2⟩ := C25_restores E laws hE burst v uid d bytes mp c f h hdam hgaps (by
    intro t ht
    have hmul : ∃ q, (payloads E.rs v (some d) (fileChunks v bytes)).length = q * (d.data + d.parity) := ⟨_, by rw [hcnt]; exact rfl⟩
    obtain ⟨q, hq⟩ := hmul
    rw [hq] at ht h0 hdam
    rw [Nat.mul_div_cancel _ hn] at h0
    have htq : t < q := Nat.lt_of_mul_lt_mul_right ht
    have hle : (t + 1) * (d.data + d.parity) ≤ q * (d.data + d.parity) := Nat.mul_le_mul_right _ htq
    rw [Nat.succ_mul] at hle
    have : presentIn v uid d f t ≤ unchangedIn v d c f t := by
      unfold presentIn unchangedIn
      refine List.countP_mono_left fun j hj => ?_
      rw [List.mem_range] at hj
      simp only [decide_eq_true_eq]
      intro hp
      rcases hdam.blocks (t * (d.data + d.parity) + j + 1) (by omega) (by omega) with e | e
      · exact e
      · rw [fill_aligned hf] at e
        exact absurd hp e
    have := h0 t htq
    omega)
  rw [hr] at r1
  simp only [Except.ok.injEq, Option.some.injEq, Prod.mk.injEq] at r1
  rw [r1.1, r2]

/-- **C67, repair.** If a container has lost no bytes at its end, the file is the container again after an uninterrupted `repair` only if it says
so. -/
theorem C67_repair_complete (E : Env) (laws : E.rs.Laws) (hE : E.Calm) (burst : Option Nat) (v : Version) (uid : Uid) (d : Dpb)
    (bytes mp : List Byte) (c f : File) (h : Case E burst v uid d bytes mp c f) (hlen : f.length = c.length)
    (dk : Disk) (st : Stats) (hr : repairFile E burst false f = .ok (some (dk, st)))
    (hsay : repair st = "All repairs failed" ∨ repair st = "Some repairs failed") : dk.file ≠ c := by
  rintro rfl
  have hf : blockLen v ∣ f.length := by rw [hlen]; exact h.container.aligned
  obtain ⟨h1, h2, h3⟩ := shards_ok h.sees.data h.sees.parity
  obtain ⟨hcnt, hps⟩ := payloads_count laws (v := v) h1 h2 h3 bytes
  rw [dataSize_eq] at hcnt
  have hn : 0 < d.data + d.parity := by omega
  have h0 : st.repairFailed ≠ 0 := by
    rw [repair_allFailed, repair_someFailed] at hsay
    omega
  obtain ⟨-, -, -, -, -, c6⟩ := C38_repair E laws hE burst false f v uid mp d h.sees hf dk st hr
  have hex : examined v d mp f = (payloads E.rs v (some d) (fileChunks v bytes)).length := by
    unfold examined
    rw [h.sized, hcnt]
    exact Nat.min_eq_right (le_of_eq_of_le hcnt.symm h.numbers)
  obtain ⟨q, hq⟩ : ∃ q, (payloads E.rs v (some d) (fileChunks v bytes)).length = q * (d.data + d.parity) := ⟨_, by rw [hcnt]; exact rfl⟩
  rw [c6, hex, ne_eq, missing_zero, hq, Nat.mul_div_cancel _ hn] at h0
  simp only [not_forall] at h0
  obtain ⟨t, ht, h0⟩ := h0
  have hle : (t + 1) * (d.data + d.parity) ≤ q * (d.data + d.parity) := Nat.mul_le_mul_right _ ht
  rw [Nat.succ_mul] at hle
  have hlt : presentIn v uid d f t < d.data := by omega
  have hall : ∀ j < d.data + d.parity, Present v uid d f (t * (d.data + d.parity) + j + 1) := by
    intro j hj
    obtain ⟨p, -, hp, hend⟩ := image_data h.container hps (s := t * (d.data + d.parity) + j + 1) (by omega) (by omega)
    have hkeep := (C26_lost_sets E laws burst false f v uid mp d h.sees dk st hr t (by rw [fill_aligned hf]; exact hlt) j hj).2 (by
      unfold piece
      rw [File.readAt_length, hlen]
      rw [Nat.succ_mul] at hend
      omega)
    rw [hkeep] at hp
    exact ⟨p, hp⟩
  have : presentIn v uid d f t = d.data + d.parity := by
    have := List.countP_eq_length (p := fun j => @decide (Present v uid d f (t * (d.data + d.parity) + j + 1)) (Classical.propDecidable _))
      (l := List.range (d.data + d.parity))
    rw [List.length_range] at this
    unfold presentIn
    rw [this]
    intro j hj
    simpa using hall j (List.mem_range.1 hj)
  omega

/-- **C67, repair.** After "No repairs required" and "All repairs failed" the file is untouched. -/
theorem C67_repair_untouched (E : Env) (laws : E.rs.Laws) (hE : E.Calm) (burst : Option Nat) (dry : Bool) (v : Version) (uid : Uid) (d : Dpb)
    (bytes mp : List Byte) (c f : File) (h : Case E burst v uid d bytes mp c f)
    (hgaps : GapsClean v d (payloads E.rs v (some d) (fileChunks v bytes)).length f) (hf : blockLen v ∣ f.length)
    (dk : Disk) (st : Stats) (hr : repairFile E burst dry f = .ok (some (dk, st)))
    (hsay : repair st = "No repairs required" ∨ repair st = "All repairs failed") : dk.ops = [] ∧ dk.file = f := by
  obtain ⟨h1, h2, h3⟩ := shards_ok h.sees.data h.sees.parity
  obtain ⟨hcnt, hps⟩ := payloads_count laws (v := v) h1 h2 h3 bytes
  rw [dataSize_eq] at hcnt
  have hn : 0 < d.data + d.parity := by omega
  obtain ⟨q, hq⟩ : ∃ q, (payloads E.rs v (some d) (fileChunks v bytes)).length = q * (d.data + d.parity) := ⟨_, by rw [hcnt]; exact rfl⟩
  obtain ⟨t1, -, t3, -⟩ := C67_repair E laws hE burst dry f v uid mp d h.sees hf _ h.sized (by rw [← hcnt]; exact h.numbers) dk st hr
  simp only at t1 t3
  rw [← hcnt, hq, Nat.mul_div_cancel _ hn] at t1 t3
  have key : (∀ k ∈ metaCopies (some true) (some d), ValidAt v uid f k) ∧ ∀ t < q,
      (∀ j < d.data + d.parity, Present v uid d f (t * (d.data + d.parity) + j + 1)) ∨ presentIn v uid d f t < d.data := by
    rcases hsay with hsay | hsay
    · obtain ⟨a, b⟩ := t1.1 hsay
      exact ⟨a, fun t ht => .inl (b t ht)⟩
    · exact (t3.1 hsay).1
  refine C26_undamaged E laws burst dry f v uid mp d h.sees dk st hr key.1 ?_
  intro t
  rw [fill_aligned hf]
  by_cases ht : t < q
  · exact key.2 t ht
  · right
    have hqt : q * (d.data + d.parity) ≤ t * (d.data + d.parity) := Nat.mul_le_mul_right _ (by omega)
    have : presentIn v uid d f t = 0 := by
      unfold presentIn
      rw [List.countP_eq_zero]
      intro j _
      simp only [decide_eq_true_eq]
      rintro ⟨p, hb⟩
      have hval : Valid (some d) := by intro x hx; cases hx; exact h1
      obtain ⟨n, hz⟩ := hgaps (placeOf d (t * (d.data + d.parity) + j + 1))
        (fun hk => C10_data_not_meta (some true) (some d) hval (t * (d.data + d.parity) + j + 1) (by omega) hk)
        (fun s hs1 hs2 e => by
          have := C10_data_injective none (some d) hval _ _ (by omega) (by omega) e
          omega)
      rw [hz] at hb
      exact zeros_not_block hb
    omega


/-! ### decode -/

/-- **C67, decode.** What `decode` says about the hash of the output file if hashing was not interrupted, whatever else happened: it matches if and
only if there is a recorded hash of a supported type and the output has its digest, and so on; the text about an output hash without a recorded one does
not occur. -/
theorem C67_decode (E : Decode.Env) (hE : ∀ i, E.stopHash i = false) (p : Decode.Param) (f old out : File) (R : Decode.Report)
    (h : Decode.toFile E p f old = .ok (out, R)) :
    (decode R = "The output file hash matches the recorded hash" ↔
      ∃ h, R.recorded = some h ∧ h.ty.supported = true ∧ (E.hash.bytes h.ty out).digest = h.digest) ∧
    (decode R = "The output file hash does NOT match the recorded hash" ↔
      ∃ h, R.recorded = some h ∧ h.ty.supported = true ∧ (E.hash.bytes h.ty out).digest ≠ h.digest) ∧
    (decode R = "No hash is available for output file" ↔ ∃ h, R.recorded = some h ∧ h.ty.supported = false) ∧
    (decode R = "Neither recorded hash nor output file hash is available" ↔ R.recorded = none) ∧
    decode R ≠ "No recorded hash is available" := by
  unfold Decode.toFile at h
  split at h
  · simp at h
  · rename_i pos ref hr
    split at h
    · simp at h
    · rename_i out' st hd
      simp only [Except.ok.injEq, Prod.mk.injEq] at h
      obtain ⟨rfl, rfl⟩ := h
      rw [Decode.hashFile_all hE]
      unfold decode Decode.hashTypeOf
      simp only
      cases Decode.refHsh ref with
      | none => simp
      | some h =>
        cases hs : h.ty.supported with
        | false => simp [hs]
        | true =>
          by_cases he : h.digest = (E.hash.bytes h.ty out').digest
          · simp [hs, he]
          · simp [hs, he, Ne.symm he]

/-- **C67, decode.** If the recorded hash is that of `bytes`, then "matches" means that the output is `bytes`, unless the two are a collision of the
hash function. -/
theorem C67_decode_trust (E : Decode.Env) (hE : ∀ i, E.stopHash i = false) (p : Decode.Param) (f old out : File) (R : Decode.Report)
    (h : Decode.toFile E p f old = .ok (out, R)) (hsay : decode R = "The output file hash matches the recorded hash")
    (t : HashType) (bytes : List Byte) (hrec : R.recorded = some (E.hash.bytes t bytes))
    (hcol : (E.hash.bytes t out).digest = (E.hash.bytes t bytes).digest → out = bytes) : out = bytes := by
  obtain ⟨x, h1, h2, h3⟩ := (C67_decode E hE p f old out R h).1.1 hsay
  rw [hrec, Option.some.injEq] at h1
  subst h1
  refine hcol ?_
  rw [← h3]
  unfold HashFn.bytes
  cases t <;> rfl

/-- **C67, decode.** Decoding a container just written says that the hash matches. -/
theorem C67_decode_encoded (E : Encode.Env) (p : Encode.Param) (hE : E.Ok p) (hok : p.Ok) (inp : Encode.Input) (hn : Encode.NamesOk p inp)
    (d : Disk) (rep : Encode.Report) (hrange : inp.file = none ∨ p.fromPos = none ∧ p.toPos = none) (hs : ∀ n, E.stop n = false)
    (henc : Encode.encodeFile E p inp = (d, .ok rep)) (hme : p.metaEnabled = true) (hsup : p.hashType.supported = true)
    (D : Decode.Env) (hD : D.Calm) (hash : D.hash = E.hash) (q : Decode.Param) (hq : Decode.Whole q) (hr : Decode.DefaultRef q.ref)
    (hb : q.ref.burst ≠ none ∨ q.ref.guessBurstFrom = none ∧ ∀ x, p.dpb = some x → x.burst ≤ 1000) (old : File) :
    ∃ R, Decode.toFile D q d.file old = .ok (inp.bytes, R) ∧ decode R = "The output file hash matches the recorded hash" := by
  obtain ⟨R, h1, h2, h3, -⟩ := Decode.C21_roundtrip E p hE hok inp hn d rep hrange hs henc hme hsup D hD hash q hq hr hb old
  refine ⟨R, h1, ?_⟩
  unfold decode
  rw [h3, h2]
  simp

/-! ### check -/

theorem error_text (x : String) : "Encountered error while hashing stored data, " ++ x ≠ "The hash of stored data matches the recorded hash" ∧
    "Encountered error while hashing stored data, " ++ x ≠ "The hash of stored data does NOT match the recorded hash" := by
  constructor <;>
  · intro h
    have := congrArg (List.take 1) (congrArg String.toList h)
    rw [String.toList_append, List.take_append_of_le_length (by decide)] at this
    revert this
    decide

theorem check_text (errText : Scan.Err → String) (r : Check.Report) :
    (check errText r = some "The hash of stored data matches the recorded hash" ↔ r.verdict = some .same) ∧
    (check errText r = some "The hash of stored data does NOT match the recorded hash" ↔ r.verdict = some .different) ∧
    ((∃ e, check errText r = some ("Encountered error while hashing stored data, " ++ errText e)) ↔ r.verdict = some .error) := by
  unfold check Check.Report.verdict
  cases r.hash with
  | none => simp
  | some x =>
    obtain ⟨a, b⟩ := x
    cases b with
    | error e =>
      obtain ⟨h1, h2⟩ := error_text (errText e)
      simp only [Option.map_some, Option.some.injEq, reduceCtorEq, iff_false, iff_true]
      exact ⟨h1, h2, e, rfl⟩
    | ok c =>
      by_cases he : a.digest = c.digest
      · simp only [Option.map_some, Option.some.injEq, he, if_true, reduceCtorEq, iff_false, true_and, String.reduceEq]
        exact fun ⟨e, h⟩ => (error_text (errText e)).1 h.symm
      · simp only [Option.map_some, Option.some.injEq, he, if_false, reduceCtorEq, iff_false, true_and, String.reduceEq]
        exact fun ⟨e, h⟩ => (error_text (errText e)).2 h.symm

/-- **C67, check.** What `check --hash` says if it is not interrupted, about a file with a recorded size other than 0: the hash matches if and only
if every chunk is stored and the bytes have the recorded digest; it does not match if and only if every chunk is stored and the digest is another one; an
error is reported if and only if the bytes are not all there. -/
theorem C67_check (errText : Scan.Err → String) (E : Check.Env) (hL : 0 < E.lotCount) (hstop : ∀ i, E.stopHash i = false) (p : Check.Param)
    (f : File) (r : Check.Report) (h : Check.checkFile E p f = .ok r) (hh : r.hash ≠ none) :
    ∃ pos ref ms n hb, getRefBlockM p.ref p.ref.refChoice f E.stopRef (E.stopCheck 0) = .ok (pos, ref) ∧ ref.metas = some ms ∧
      firstFsz ms = some n ∧ firstHsh ms = some hb ∧
      ∀ dpb, dataParBurst p.ref true f ref = .ok dpb → 0 < n →
        (∀ j, j * (blockLen ref.header.version - 16) < n → StoredSpec.Numbered dpb j) →
        let stored (bytes : List Byte) : Prop := bytes.length = n ∧ StoredSpec.Stored ref.header.version ref.header.uid dpb f bytes
        (check errText r = some "The hash of stored data matches the recorded hash" ↔
          ∃ bytes, stored bytes ∧ (E.hash.bytes hb.ty bytes).digest = hb.digest) ∧
        (check errText r = some "The hash of stored data does NOT match the recorded hash" ↔
          ∃ bytes, stored bytes ∧ (E.hash.bytes hb.ty bytes).digest ≠ hb.digest) ∧
        ((∃ e, check errText r = some ("Encountered error while hashing stored data, " ++ errText e)) ↔ ¬ ∃ bytes, stored bytes) := by
  obtain ⟨⟨hb, x⟩, hx⟩ := Option.ne_none_iff_exists'.1 hh
  obtain ⟨pos, ref, ms, n, h1, h2, h3, h4, h5⟩ := Check.C42_check E hL hstop p f r h hb x hx
  obtain ⟨t1, t2, t3⟩ := check_text errText r
  refine ⟨pos, ref, ms, n, hb, h1, h2, h3, h4, ?_⟩
  intro dpb hd hn hnum
  have := h5 dpb hd hn hnum
  simp only at this ⊢
  rw [t1, t2, t3]
  exact this

/-! ### What is said after Ctrl-C, and in a dry run -/

/-- **C67 is violated by an interrupted repair.** If Ctrl-C is pressed before the data blocks are looked at, while the metadata blocks are all
valid, then `repair` says "No repairs required", whatever the data and parity blocks look like. -/
theorem C67_interrupted_violated (E : Env) (laws : E.rs.Laws) (burst : Option Nat) (dry : Bool) (f : File) (v : Version) (uid : Uid)
    (mp : List Byte) (d : Dpb) (hs : Sees E burst f v uid mp d) (hf : blockLen v ∣ f.length)
    (hmeta : ∀ k, E.stopMeta k = false) (hdata : ∀ k, E.stopData k = true)
    (hall : ∀ k ∈ metaCopies (some true) (some d), ValidAt v uid f k) :
    ∃ dk st, repairFile E burst dry f = .ok (some (dk, st)) ∧ repair st = "No repairs required" ∧ dk.file = f := by
  obtain ⟨mp', total, hset⟩ := hs.setup
  obtain ⟨dk, st, dk1, st1, n, m, e1, e2, e3, e4, e5, e6, e7, e8, e9⟩ := run_of_setup laws dry hset
  have hmb : (blockBytes v uid.bytes 0 mp').length = blockLen v := by
    rw [blockBytes_length, hset.size]; have := h16 v; omega
  have hm : m = 0 := by
    rcases e9 with e9 | e9
    · exact e9
    · rw [hdata] at e9; simp at e9
  subst hm
  have hn : n = 1 + d.parity := by
    rcases e4 with e4 | e4
    · exact e4
    · rw [hmeta] at e4; simp at e4
  have hml : (metaCopies (some true) (some d)).length = 1 + d.parity := by unfold metaCopies; simp
  rw [hn, ← hml, List.take_length] at e2
  have hst := meta_stats (uid := uid) (d := d) hmb dry f hf _ (metaCopies_nodup d) (fun k hk => hk)
  obtain ⟨ws, f1, -, -, f4, -⟩ := meta_ops (uid := uid) (d := d) hmb dry f _ (metaCopies_nodup d) (fun k hk => hk)
  rw [← e2] at hst f1
  simp only at hst f1
  have hws : ws = [] := by
    rw [List.eq_nil_iff_forall_not_mem]
    intro w hw
    obtain ⟨k, hk, hx, -⟩ := f4 w hw
    exact hx (hall k hk)
  cases e5
  refine ⟨dk, st, ok_of_setup dry hset e1, ?_, ?_⟩
  · rw [repair_none, hst]
    simp only
    rw [List.countP_eq_length.2 (fun k hk => by simpa using hall k hk)]
    omega
  · rw [f1, hws]
    rfl

/-- **C67 is violated by a dry run.** If the container can be repaired, a dry run says that everything was repaired successfully, although it has
written nothing. -/
theorem C67_dry_violated (E : Env) (laws : E.rs.Laws) (hE : E.Calm) (burst : Option Nat) (v : Version) (uid : Uid) (d : Dpb)
    (bytes mp : List Byte) (c f : File) (h : Case E burst v uid d bytes mp c f)
    (hdam : Damaged v uid d (payloads E.rs v (some d) (fileChunks v bytes)).length c f)
    (hgaps : GapsClean v d (payloads E.rs v (some d) (fileChunks v bytes)).length f) (hf : blockLen v ∣ f.length)
    (hrec : ∀ t, t * (d.data + d.parity) < (payloads E.rs v (some d) (fileChunks v bytes)).length → d.data ≤ unchangedIn v d c f t)
    (hne : f ≠ c) :
    ∃ dk st, repairFile E burst true f = .ok (some (dk, st)) ∧ repair st = "All corrupted/missing blocks were repaired successfully" ∧
      dk.file = f := by
  obtain ⟨dk, st, r1, r2, r3⟩ := C25_restores E laws hE burst v uid d bytes mp c f h hdam hgaps hrec
  obtain ⟨dk', st', r4⟩ := C26_total E laws burst true f v uid mp d h.sees
  have hdry := C27_repair_dry E laws burst f dk' st' r4
  have hsame := C27_repair_same_stats E laws hE burst f v uid mp d h.sees hf dk' dk st' st r4 r1
  refine ⟨dk', st', r4, ?_, by rw [hdry]; rfl⟩
  rw [hsame, repair_all]
  refine ⟨fun h0 => hne ?_, r2⟩
  rw [← r3]
  exact (C67_repair_untouched E laws hE burst false v uid d bytes mp c f h hgaps hf dk st r1 (.inl (repair_none.2 h0))).2.symm

/-- **C67 is violated by an interrupted decode.** If Ctrl-C is pressed after the output file has been written and before it is hashed, `decode`
takes the hash of no bytes at all for that of the output file, and says that it does not match, although the output file is right. -/
theorem C67_decode_interrupted_violated (E : Encode.Env) (p : Encode.Param) (hE : E.Ok p) (hok : p.Ok) (inp : Encode.Input)
    (hn : Encode.NamesOk p inp) (d : Disk) (rep : Encode.Report) (hrange : inp.file = none ∨ p.fromPos = none ∧ p.toPos = none)
    (hs : ∀ n, E.stop n = false) (henc : Encode.encodeFile E p inp = (d, .ok rep)) (hme : p.metaEnabled = true)
    (hsup : p.hashType.supported = true) (D : Decode.Env) (hD : D.Calm) (hash : D.hash = E.hash) (q : Decode.Param) (hq : Decode.Whole q)
    (hr : Decode.DefaultRef q.ref) (hb : q.ref.burst ≠ none ∨ q.ref.guessBurstFrom = none ∧ ∀ x, p.dpb = some x → x.burst ≤ 1000) (old : File)
    (stop : Nat → Bool) (hstop : stop 0 = true)
    (hdig : (E.hash.bytes p.hashType []).digest ≠ (E.hash.bytes p.hashType inp.bytes).digest) :
    ∃ R, Decode.toFile { D with stopHash := stop } q d.file old = .ok (inp.bytes, R) ∧
      decode R = "The output file hash does NOT match the recorded hash" := by
  obtain ⟨R, h1, h2, h3, -⟩ := Decode.C21_roundtrip E p hE hok inp hn d rep hrange hs henc hme hsup D hD hash q hq hr hb old
  have hrun : ∀ ref, Decode.decodeFile { D with stopHash := stop } q ref d.file old = Decode.decodeFile D q ref d.file old := fun _ => rfl
  unfold Decode.toFile at h1 ⊢
  simp only at h1 ⊢
  split at h1
  · simp at h1
  · rename_i pos ref hr
    rw [hrun]
    split at h1
    · simp at h1
    · rename_i out st hd
      simp only [Except.ok.injEq, Prod.mk.injEq] at h1
      obtain ⟨rfl, rfl⟩ := h1
      refine ⟨_, rfl, ?_⟩
      simp only at h2
      unfold decode Decode.hashFile Decode.hashTypeOf
      have hs2 : (E.hash.bytes p.hashType inp.bytes).ty.supported = true := by
        show p.hashType.ctxType.supported = true
        revert hsup
        cases p.hashType <;> decide
      rw [h2]
      simp only [hs2, if_true, Option.map_some]
      have hnil : Decode.hashBytes stop inp.bytes (inp.bytes.length + 1) 0 = [] := by
        rw [Decode.hashBytes, hstop]
        rfl
      rw [hnil, if_neg]
      intro e
      apply hdig
      rw [e]
      simp only [hash]
      unfold HashFn.bytes
      cases p.hashType <;> rfl

/-! ### Instances -/

theorem case_of_damage {E : Env} (laws : E.rs.Laws) (hE : ∀ k, E.stopRef k = false) {v : Version} {uid : Uid} {d : Dpb} {bytes mp : List Byte}
    {c f : File} (h : Sound E.rs v uid d bytes mp c) (hlen : f.length = c.length)
    (hdmg : ∀ k, piece v f k = piece v c k ∨ Broken v (piece v f k))
    (hleft : ∃ k ∈ metaCopies (some true) (some d), piece v f k = piece v c k) :
    Case E (some d.burst) v uid d bytes mp c f ∧ Damaged v uid d (payloads E.rs v (some d) (fileChunks v bytes)).length c f := by
  obtain ⟨h1, h2, h3⟩ := shards_ok h.data h.parity
  obtain ⟨hcnt, hps⟩ := payloads_count laws (v := v) h1 h2 h3 bytes
  have hmp : mp.length = blockLen v - 16 := metasToBytes_length h.plain
  have hal : blockLen v ∣ f.length := by rw [hlen]; exact h.container.aligned
  have hfill : fill v f = f := fill_aligned hal
  have hcases := not_zeros_data h.container rfl hmp hps
  have hfound := found_of_places (v := v) (uid := uid) (mp := mp) hal hE (by
    intro k hk
    rcases hdmg k with hh | hh
    · rw [hh]
      rcases hcases k (by omega) with ⟨-, e⟩ | ⟨s, p, -, -, -, e⟩ | e
      · exact .inl ⟨_, _, e⟩
      · exact .inl ⟨_, _, e⟩
      · rw [e]; exact .inr (.inl (dead_zeros _))
    · exact .inr hh) (by
    intro k p hk hb
    rcases hdmg k with hh | hh
    · rw [hh] at hb
      rcases hcases k (by omega) with ⟨-, e⟩ | ⟨s, p', a, b, -, e⟩ | e
      · exact (isBlock_seq hb e).2
      · exfalso
        have := (isBlock_seq hb e).1
        have h4 := congrArg UInt32.toNat this
        have hnum := h.numbers
        unfold lastSeqNum at hnum
        rw [UInt32.toNat_ofNat_of_lt' (by show s < 2 ^ 32; omega)] at h4
        simp at h4
        omega
      · rw [e] at hb; exact absurd hb zeros_not_block
    · exact absurd hb (Broken.not_block hh)) (by
    obtain ⟨k, hk, hh⟩ := hleft
    have hkin := (image_meta h.container hmp hk).2
    have hu := blockLen_pos v
    rw [Nat.succ_mul] at hkin
    refine ⟨k, by omega, ?_⟩
    rw [hh]
    exact ⟨h.container.metas k hk, hmp⟩)
  refine ⟨⟨h.container, h.numbers, h.plain, h.sized, ⟨hfound, h.rs, h.data, h.parity, .inl rfl⟩⟩, by omega, ?_, ?_⟩
  · intro k _
    refine (hdmg k).imp_right fun hh => ?_
    rw [hfill]
    rintro ⟨sq, p, hb⟩
    exact Broken.not_block hh hb
  · intro s _ _
    refine (hdmg (placeOf d s)).imp_right fun hh => ?_
    rw [hfill]
    rintro ⟨p, hb⟩
    exact Broken.not_block hh hb

/-- The first three data blocks lost. -/
theorem demo_three {mp : List Byte} {c : File} (h : Sound RsWitness.codec .v17 demoOwner demoDpb (List.replicate 1000 7) mp c) :
    ∃ f : File, f ≠ c ∧ f.length = c.length ∧ (∀ k, piece .v17 f k = piece .v17 c k ∨ Broken .v17 (piece .v17 f k)) ∧
      (∀ k ∈ metaCopies (some true) (some demoDpb), piece .v17 f k = piece .v17 c k) ∧
      (∀ s, 1 ≤ s → s ≤ 3 → piece .v17 f (placeOf demoDpb s) = List.replicate (blockLen .v17) 0) ∧
      GapsClean .v17 demoDpb (payloads RsWitness.codec .v17 (some demoDpb) (fileChunks .v17 (List.replicate 1000 7))).length f := by
  have hal := h.container.aligned
  obtain ⟨hcnt, hps⟩ := payloads_count RsWitness.codec_laws (v := .v17) (d := demoDpb) (by decide) (by decide) (by decide)
    (List.replicate 1000 7)
  have hc3 : 3 ≤ (payloads RsWitness.codec .v17 (some demoDpb) (fileChunks .v17 (List.replicate 1000 7))).length := by
    rw [hcnt, List.length_replicate]; decide
  have hin : ∀ s, 1 ≤ s → s ≤ 3 → (placeOf demoDpb s + 1) * blockLen .v17 ≤ c.length := by
    intro s a b
    exact (image_data h.container hps (s := s) a (by omega)).choose_spec.2.2
  have hinj : ∀ a b, 1 ≤ a → 1 ≤ b → placeOf demoDpb a = placeOf demoDpb b → a = b := fun a b ha hb e =>
    C10_data_injective none (some demoDpb) (by intro x hx; cases hx; decide) _ _ ha hb e
  obtain ⟨a1, a2, a3⟩ := wipe_spec (k := placeOf demoDpb 1) hal (hin 1 (by omega) (by omega))
  obtain ⟨b1, b2, b3⟩ := wipe_spec (c := wipe .v17 c (placeOf demoDpb 1)) (k := placeOf demoDpb 2) (by rw [a1]; exact hal)
    (by rw [a1]; exact hin 2 (by omega) (by omega))
  obtain ⟨c1, c2, c3⟩ := wipe_spec (c := wipe .v17 (wipe .v17 c (placeOf demoDpb 1)) (placeOf demoDpb 2)) (k := placeOf demoDpb 3)
    (by rw [b1, a1]; exact hal) (by rw [b1, a1]; exact hin 3 (by omega) (by omega))
  generalize hf : wipe .v17 (wipe .v17 (wipe .v17 c (placeOf demoDpb 1)) (placeOf demoDpb 2)) (placeOf demoDpb 3) = f at *
  have hz : ∀ s, 1 ≤ s → s ≤ 3 → piece .v17 f (placeOf demoDpb s) = List.replicate (blockLen .v17) 0 := by
    intro s h1 h3
    obtain rfl | rfl | rfl : s = 1 ∨ s = 2 ∨ s = 3 := by omega
    · rw [c3 _ (fun e => by have := hinj _ _ (by omega) (by omega) e; omega), b3 _ (fun e => by have := hinj _ _ (by omega) (by omega) e; omega), a2]
    · rw [c3 _ (fun e => by have := hinj _ _ (by omega) (by omega) e; omega), b2]
    · exact c2
  have hk : ∀ k, (∀ s, 1 ≤ s → s ≤ 3 → placeOf demoDpb s ≠ k) → piece .v17 f k = piece .v17 c k := by
    intro k hk
    rw [c3 k (fun e => hk 3 (by omega) (by omega) e.symm), b3 k (fun e => hk 2 (by omega) (by omega) e.symm),
      a3 k (fun e => hk 1 (by omega) (by omega) e.symm)]
  refine ⟨f, ?_, by rw [c1, b1, a1], ?_, ?_, hz, ?_⟩
  · rintro rfl
    obtain ⟨p, -, hp, -⟩ := image_data h.container hps (s := 1) (by omega) (by omega)
    rw [hz 1 (by omega) (by omega)] at hp
    exact zeros_not_block hp
  · intro k
    by_cases hx : ∀ s, 1 ≤ s → s ≤ 3 → placeOf demoDpb s ≠ k
    · exact .inl (hk k hx)
    · push Not at hx
      obtain ⟨s, s1, s3, rfl⟩ := hx
      rw [hz s s1 s3]
      exact .inr (.inl (dead_zeros _))
  · intro k hkm
    refine hk k fun s h1 _ e => ?_
    exact C10_data_not_meta (some true) (some demoDpb) (by intro x hx; cases hx; decide) s h1 (by
      show placeOf demoDpb s ∈ _
      rw [e]; exact hkm)
  · intro k hkm hs
    rw [hk k fun s h1 h3 => hs s h1 (by omega)]
    by_cases hin : k * blockLen .v17 < c.length
    · exact ⟨_, h.container.gaps k hin hkm (fun i hi => hs (i + 1) (by omega) (by omega))⟩
    · exact ⟨0, piece_beyond (by omega)⟩

/-- Three of twelve blocks lost: all repairs failed, and the file is as it was. -/
example : ∃ mp c f dk st, Sound RsWitness.codec .v17 demoOwner demoDpb (List.replicate 1000 7) mp c ∧ f ≠ c ∧
    repairFile demoEnv (some 3) false f = .ok (some (dk, st)) ∧ repair st = "All repairs failed" ∧ dk.file ≠ c ∧ dk.file = f := by
  obtain ⟨mp, c, h⟩ := demo_sound
  obtain ⟨f, hne, hlen, hdmg, hmeta, hz, hgaps⟩ := demo_three h
  obtain ⟨hc, hd⟩ := case_of_damage (E := demoEnv) demo_laws demo_calm.ref h hlen hdmg ⟨0, by decide, hmeta 0 (by decide)⟩
  obtain ⟨dk, st, hr⟩ := C26_total demoEnv demo_laws (some 3) false f _ _ mp _ hc.sees
  have hal : blockLen .v17 ∣ f.length := by rw [hlen]; exact h.container.aligned
  have hmp := metasToBytes_length h.plain
  have hlost : presentIn .v17 demoOwner demoDpb f 0 < 10 := by
    unfold presentIn
    rw [show demoDpb.data + demoDpb.parity = 3 + 9 from rfl, List.range_add, List.countP_append]
    have h1 : (List.range 3).countP (fun j => @decide (Present .v17 demoOwner demoDpb f (0 * (3 + 9) + j + 1)) (Classical.propDecidable _)) = 0 := by
      rw [List.countP_eq_zero]
      intro j hj
      rw [List.mem_range] at hj
      simp only [decide_eq_true_eq]
      rintro ⟨p, hp⟩
      rw [hz _ (by omega) (by omega)] at hp
      exact zeros_not_block hp
    rw [h1]
    refine Nat.lt_of_le_of_lt (Nat.add_le_add_left List.countP_le_length 0) ?_
    rw [List.length_map, List.length_range]
    omega
  have hblocks : blocksFor (blockLen .v17 - 16) (some demoDpb) (List.replicate 1000 (7 : Byte)).length = 12 := by
    rw [List.length_replicate]; decide
  have hsay : repair st = "All repairs failed" := by
    refine (C67_repair demoEnv demo_laws demo_calm _ _ f _ _ mp _ hc.sees hal _ hc.sized (by rw [hblocks]; decide) _ _ hr).2.2.1.2 ?_
    rw [hblocks]
    refine ⟨⟨fun k hk => ⟨0, mp, by rw [hmeta k hk]; exact h.container.metas k hk, hmp⟩, ?_⟩, 0, by decide, hlost⟩
    intro t ht
    have : t = 0 := by
      have : t < 1 := ht
      omega
    subst this
    exact .inr hlost
  exact ⟨mp, c, f, dk, st, h, hne, hr, hsay,
    C67_repair_complete demoEnv demo_laws demo_calm _ _ _ _ _ mp c f hc hlen dk st hr (.inl hsay),
    (C67_repair_untouched demoEnv demo_laws demo_calm _ _ _ _ _ _ mp c f hc hgaps hal dk st hr (.inr hsay)).2⟩

/-- Metadata block and first data block lost: a dry run says that they were repaired, the real run says so and has repaired them; the text for
the container itself. -/
example : ∃ mp c f dk st dk' st' dk'' st'', Sound RsWitness.codec .v17 demoOwner demoDpb (List.replicate 1000 7) mp c ∧ f ≠ c ∧
    repairFile demoEnv (some 3) false f = .ok (some (dk, st)) ∧ repair st = "All corrupted/missing blocks were repaired successfully" ∧ dk.file = c ∧
    repairFile demoEnv (some 3) true f = .ok (some (dk', st')) ∧ repair st' = "All corrupted/missing blocks were repaired successfully" ∧
    dk'.file = f ∧ repairFile demoEnv (some 3) false c = .ok (some (dk'', st'')) ∧ repair st'' = "No repairs required" := by
  obtain ⟨mp, c, h⟩ := demo_sound
  obtain ⟨f, h1, h2, h3, h5⟩ := demo_damage h
  obtain ⟨hc, hd, hr⟩ := case_of_bursts demo_laws demo_calm h (by decide) (bursts := [(0, 2)]) h2 (by decide) (few (by decide)) h3
  obtain ⟨hc', -⟩ := case_of_bursts (c := c) (f := c) demo_laws demo_calm h (by decide) (bursts := []) rfl (by simp) (few (by simp))
    (fun _ => .inl rfl)
  have hal : blockLen .v17 ∣ f.length := by rw [h2]; exact h.container.aligned
  obtain ⟨dk', st', a1, a2, a3⟩ := C67_dry_violated demoEnv demo_laws demo_calm _ _ _ _ _ mp c f hc hd h5 hal hr h1
  obtain ⟨dk, st, b1⟩ := C26_total demoEnv demo_laws (some 3) false f _ _ mp _ hc.sees
  have b2 : repair st = "All corrupted/missing blocks were repaired successfully" := by
    rw [← C27_repair_same_stats demoEnv demo_laws demo_calm _ f _ _ mp _ hc.sees hal _ _ _ _ a1 b1]
    exact a2
  obtain ⟨st'', c1⟩ := C26_intact demoEnv demo_laws (some 3) false _ _ _ _ mp c hc'
  refine ⟨mp, c, f, dk, st, dk', st', _, st'', h, h1, b1, b2,
    C67_repair_trust demoEnv demo_laws demo_calm _ _ _ _ _ mp c f hc hd h5 hal dk st b1 (.inr b2), a1, a2, a3, c1, ?_⟩
  obtain ⟨h1, h2, h3⟩ := shards_ok hc'.sees.data hc'.sees.parity
  obtain ⟨hcnt, hps⟩ := payloads_count demo_laws (v := .v17) h1 h2 h3 (List.replicate 1000 7)
  rw [show demoEnv.rs = RsWitness.codec from rfl] at hcnt hps
  have hcnt' := hcnt
  rw [dataSize_eq] at hcnt'
  refine (C67_repair demoEnv demo_laws demo_calm _ _ c _ _ mp _ hc'.sees h.container.aligned _ hc'.sized (hcnt' ▸ hc'.numbers) _ _ c1).1.2 ?_
  refine ⟨fun k hk => ⟨0, mp, h.container.metas k hk, metasToBytes_length h.plain⟩, ?_⟩
  intro t ht
  rcases sets_of_image h1 h.container hps ⟨_, by rw [hcnt]; exact rfl⟩ t with a | a
  · exact a
  · intro j hj
    have hle : (t + 1) * (demoDpb.data + demoDpb.parity) ≤ _ := Nat.mul_le_of_le_div _ _ _ ht
    rw [← hcnt', Nat.succ_mul] at hle
    obtain ⟨p, -, hp, -⟩ := image_data h.container hps (s := t * (demoDpb.data + demoDpb.parity) + j + 1) (by omega) (by omega)
    exact ⟨p, hp⟩

/-- Ctrl-C before the data blocks are looked at: three data blocks are lost, and no repairs are required. -/
example : ∃ mp c f dk st, Sound RsWitness.codec .v17 demoOwner demoDpb (List.replicate 1000 7) mp c ∧ f ≠ c ∧
    repairFile ⟨RsWitness.codec, fun _ => false, fun _ => false, fun _ => true⟩ (some 3) false f = .ok (some (dk, st)) ∧
    repair st = "No repairs required" ∧ dk.file = f := by
  obtain ⟨mp, c, h⟩ := demo_sound
  obtain ⟨f, hne, hlen, hdmg, hmeta, -, -⟩ := demo_three h
  have hmp := metasToBytes_length h.plain
  obtain ⟨hc, -⟩ := case_of_damage (E := ⟨RsWitness.codec, fun _ => false, fun _ => false, fun _ => true⟩) demo_laws (fun _ => rfl) h hlen hdmg
    ⟨0, by decide, hmeta 0 (by decide)⟩
  obtain ⟨dk, st, r1, r2, r3⟩ := C67_interrupted_violated ⟨RsWitness.codec, fun _ => false, fun _ => false, fun _ => true⟩ demo_laws (some 3) false f
    _ _ mp _ hc.sees (by rw [hlen]; exact h.container.aligned) (fun _ => rfl) (fun _ => rfl)
    (fun k hk => ⟨0, mp, by rw [hmeta k hk]; exact h.container.metas k hk, hmp⟩)
  exact ⟨mp, c, f, dk, st, h, hne, r1, r2, r3⟩

set_option maxRecDepth 100000 in
/-- Decoding an encoded container, and the same with Ctrl-C between writing and hashing. -/
example : ∃ f R R', Decode.toFile Decode.calmEnv Decode.plainParam f [] = .ok (List.replicate 1000 7, R) ∧
    decode R = "The output file hash matches the recorded hash" ∧
    Decode.toFile { Decode.calmEnv with stopHash := fun _ => true } Decode.plainParam f [] = .ok (List.replicate 1000 7, R') ∧
    decode R' = "The output file hash does NOT match the recorded hash" := by
  obtain ⟨h1, h2⟩ := Encode.demo_ok (v := .v17) (dpb := some ⟨10, 2, 3⟩) none rfl (by simp) (fun _ => false)
  obtain ⟨d, rep, h⟩ := Encode.C24_succeeds _ _ h2 h1 ⟨List.replicate 1000 7, some ("a.txt", some 5)⟩ (by
    intro mx hmx
    rw [Encode.maxSize_eq h1] at hmx
    cases hmx
    decide +kernel) (by intro _; decide +kernel)
  have hn : Encode.NamesOk (Encode.demoParam .v17 (some ⟨10, 2, 3⟩) none) ⟨List.replicate 1000 7, some ("a.txt", some 5)⟩ := by
    refine ⟨by decide +kernel, ?_⟩
    intro n t ht
    simp only [Option.some.injEq, Prod.mk.injEq] at ht
    rw [← ht.1]
    decide +kernel
  obtain ⟨R, r1, r2⟩ := C67_decode_encoded _ _ h2 h1 _ hn d rep (.inr ⟨rfl, rfl⟩) (fun _ => rfl) h rfl rfl Decode.calmEnv Decode.calm rfl
    Decode.plainParam Decode.plain_whole Decode.plain_ref (.inr ⟨rfl, by intro x hx; cases hx; decide⟩) []
  obtain ⟨R', r3, r4⟩ := C67_decode_interrupted_violated _ _ h2 h1 _ hn d rep (.inr ⟨rfl, rfl⟩) (fun _ => rfl) h rfl rfl Decode.calmEnv
    Decode.calm rfl Decode.plainParam Decode.plain_whole Decode.plain_ref (.inr ⟨rfl, by intro x hx; cases hx; decide⟩) [] (fun _ => true) rfl
    (by decide +kernel)
  exact ⟨d.file, R, R', r1, r2, r3, r4⟩

set_option maxRecDepth 100000 in
/-- `check --hash` on an encoded container, and the same after Ctrl-C. -/
example : ∃ f r r', Check.checkFile (Check.hashEnv false) Check.hashParam f = .ok r ∧
    check (fun _ => "") r = some "The hash of stored data matches the recorded hash" ∧
    Check.checkFile (Check.hashEnv true) Check.hashParam f = .ok r' ∧
    check (fun _ => "") r' = some "The hash of stored data does NOT match the recorded hash" := by
  obtain ⟨f, mb, ms, h1, h2, h3, h4, h5, h6, h7, h8⟩ := Demo.rs_container
  obtain ⟨r, e, hr⟩ := Check.C42_check_intact (Check.hashEnv false) Nat.zero_lt_two (fun _ => rfl) (fun _ => rfl) Check.hashParam
    ⟨rfl, rfl, rfl, .inr (.inl rfl)⟩
    rfl (by decide) RsWitness.codec .v17 ⟨[1, 2, 3, 4, 5, 6], rfl⟩ (some ⟨10, 2, 3⟩) (List.replicate 1000 7) mb f h8
    (by intro d hd; cases hd; decide) rfl h1 ms h2 ⟨h4, h5⟩ (by rw [List.length_replicate]; exact h3) _ h6 rfl rfl h7
    (by intro d hd; cases hd; exact .inr ⟨rfl, by decide, .inl (by decide)⟩)
    (List.ne_nil_of_length_pos (by rw [List.length_replicate]; decide))
  obtain ⟨r', e', hr'⟩ := Check.C42_interrupted_violated (Check.hashEnv true) Nat.zero_lt_two (fun _ => rfl) rfl Check.hashParam
    ⟨rfl, rfl, rfl, .inr (.inl rfl)⟩
    rfl (by decide) RsWitness.codec .v17 ⟨[1, 2, 3, 4, 5, 6], rfl⟩ (some ⟨10, 2, 3⟩) (List.replicate 1000 7) mb f h8
    (by intro d hd; cases hd; decide) rfl h1 ms h2 ⟨h4, h5⟩ (by rw [List.length_replicate]; exact h3) _ h6 rfl
    (by decide +kernel) h7
    (by intro d hd; cases hd; exact .inr ⟨rfl, by decide, .inl (by decide)⟩)
  exact ⟨f, r, r', e, (check_text _ r).1.2 hr, e', (check_text _ r').2.1.2 hr'⟩

end Verif.Verdict
