import Verif.Lemmas.BlockNumbers
import Verif.Lemmas.EncodeDone
import Verif.Lemmas.Rs
/-!
# C24: recorded size and hash describe exactly the encoded bytes
-/

namespace Verif.Encode
open Format ContainerSpec LayoutSpec FileUtils Misc

/-- The output file is the container of `stored`; its metadata (if any) records the length and the hash of `stored`, and this
is also what is reported to the user. -/
structure Holds (E : Env) (p : Param) (d : Disk) (rep : Report) (stored : List Byte) : Prop where
  container : ∃ mb, IsContainer E.rs p.version p.uid.bytes p.metaEnabled p.dpb stored mb d.file ∧
    (p.metaEnabled = true → ∃ ms, Records p.version p.uid mb ms ∧ firstFsz ms = some stored.length ∧
      firstHsh ms = some (E.hash.bytes p.hashType stored) ∧
      firstRsd ms = p.dpb.map (·.data) ∧ firstRsp ms = p.dpb.map (·.parity) ∧
      /- the payload of the metadata block is exactly these fields and padding -/
      metasToBytes ms (blockLen p.version - 16) = some (mb.drop 16))
  size : rep.counters.bytesEncoded p.version = stored.length
  hash : p.metaEnabled = true → rep.hash = some (E.hash.bytes p.hashType stored)
  /-- every block has its own sequence number -/
  numbers : (payloads E.rs p.version p.dpb (fileChunks p.version stored)).length ≤ lastSeqNum
  /-- the reported numbers of data and parity blocks -/
  counts : rep.counters.dataBlocks = dataNumbers p.dpb (payloads E.rs p.version p.dpb (fileChunks p.version stored)).length ∧
    rep.counters.parityBlocks = parityNumbers p.dpb (payloads E.rs p.version p.dpb (fileChunks p.version stored)).length

theorem stored_small {p : Param} {cs : List (List Byte)} (hcs : ∀ c ∈ cs, c.length ≤ p.version.dataSize)
    (hl : cs.length ≤ maxChunks p) : cs.flatten.length < 2 ^ 64 := by
  have h1 : cs.flatten.length ≤ cs.length * p.version.dataSize := by
    clear hl
    induction cs with
    | nil => simp
    | cons c cs ih =>
      have := ih (fun x hx => hcs x (List.mem_cons_of_mem _ hx))
      have := hcs c List.mem_cons_self
      rw [List.flatten_cons, List.length_append, List.length_cons, Nat.succ_mul]; omega
  have h2 : maxChunks p ≤ lastSeqNum := by
    unfold maxChunks
    calc _ ≤ lastSeqNum / ((shards p).1 + (shards p).2) * ((shards p).1 + (shards p).2) := Nat.mul_le_mul_left _ (by omega)
      _ ≤ _ := Nat.div_mul_le_self _ _
  have h3 : p.version.dataSize ≤ 4096 := by cases p.version <;> decide
  have h4 : cs.length * p.version.dataSize ≤ lastSeqNum * 4096 := Nat.mul_le_mul (by omega) h3
  unfold lastSeqNum at h4
  omega

theorem holds_of_done {E : Env} {p : Param} (hE : E.Ok p) (hok : p.Ok) {inp : Input} (hn : NamesOk p inp) {d : Disk} {rep : Report}
    (h : encodeFile E p inp = (d, .ok rep)) :
    ∃ stored, Holds E p d rep stored ∧ stored <+: clip p (required p inp) (startBytes p inp) ∧
      ((∀ n, E.stop n = false) → stored = clip p (required p inp) (startBytes p inp)) ∧
      (∀ lastSeq, lastDataSeqNumExcParity p.version p.dpb = some lastSeq →
        (plan p E.stop (required p inp) lastSeq ((startBytes p inp).length + 1) (startSt p inp ⟨[], []⟩).rd).map (·.1.flatten) =
          some stored) := by
  have hds := dataSize_pos p.version
  have hsz : tooLarge p inp = some false := by
    unfold encodeFile at h
    cases ht : tooLarge p inp with
    | none => rw [ht] at h; simp at h
    | some b => cases b with
      | false => rfl
      | true => rw [ht] at h; simp at h
  have hdm : dummyMeta E p inp ≠ none := by
    intro hd
    unfold encodeFile at h
    rw [hsz, hd] at h; simp at h
  obtain ⟨cs, mb0, d', res, e, hpl, h1, h2, h3, h4, hout⟩ := encodeFile_spec hE hok inp hsz hdm
  rw [h] at e
  simp only [Prod.mk.injEq] at e
  obtain ⟨rfl, rfl⟩ := e
  have hcs := chunks_of_prefix h1
  rw [wanted_eq] at h1 h3
  obtain ⟨hp1, hp2⟩ := prefix_chunks hds h1
  refine ⟨cs.flatten, ?_, hp1, ?_, ?_⟩
  · have hsm := stored_small hcs h2
    have hm0 : p.metaEnabled = true → mb0.length = p.version.blockSize := fun h => metaBlockBytes_length (h4 h)
    cases hout with
    | @done mb rep ha hb hc hpar =>
      refine ⟨⟨mb, ?_, ?_⟩, hb, fun hme => (ha hme).2, ?_, ?_⟩
      · have := image_after hE hok hcs hm0 (fun h => metaBlockBytes_length (ha h).1)
        unfold IsContainer fileChunks
        rw [← dataSize_eq, ← hp2]
        exact this
      · intro hme
        refine ⟨finalMetas E p inp cs.flatten, ?_, ?_, ?_, (pack_rs hok _ _ _ _ _).1, (pack_rs hok _ _ _ _ _).2, ?_⟩
        · exact records_pack (bytes := some cs.flatten) hok hn (ha hme).1
        · rw [finalMetas, (pack_fields _ _ _ _ _ _).1, Option.map_some, UInt64.toNat_ofNat_of_lt' (by exact hsm)]
        · rw [finalMetas, (pack_fields _ _ _ _ _ _).2]; rfl
        · have := (ha hme).1
          rw [metaBlockBytes_eq, Option.map_eq_some_iff] at this
          obtain ⟨pl, h1, h2⟩ := this
          rw [← h2, blockBytes_drop, ← dataSize_eq]
          exact h1
      · have := payloads_fit hok (hE.rsLen hok) hcs h2
        unfold fileChunks
        rw [← dataSize_eq, ← hp2]
        exact this
      · unfold fileChunks
        rw [← dataSize_eq, ← hp2]
        refine hpar.numbers hok.valid hc (q := ceilDiv cs.length (shards p).1) fun d hd => ?_
        rw [(payloads_spec (hE.rsLen hok) hok.valid hcs).1, hd]
        simp [blockCount, shards, hd]
  · intro hs
    rw [h3 hs (by simp), chunksOf_flatten (by omega)]
  · intro ls hls
    have := hpl ls hls
    rw [Option.map_eq_some_iff] at this ⊢
    obtain ⟨a, h1, h2⟩ := this
    exact ⟨a, h1, by rw [h2]⟩

/-- The metadata of the container made by `encode`. -/
theorem container_metas {E : Env} {p : Param} (hE : E.Ok p) (hok : p.Ok) {inp : Input} (hn : NamesOk p inp) {d : Disk}
    {rep : Report} (h : encodeFile E p inp = (d, .ok rep)) (hme : p.metaEnabled = true) :
    ∃ mp stored, IsBlock (d.file.readAt 0 (blockLen p.version)) p.version p.uid 0 mp ∧
      metasFromBytes mp = finalMetas E p inp stored := by
  have hsz : tooLarge p inp = some false := by
    unfold encodeFile at h
    cases ht : tooLarge p inp with
    | none => rw [ht] at h; simp at h
    | some b => cases b with
      | false => rfl
      | true => rw [ht] at h; simp at h
  have hdm : dummyMeta E p inp ≠ none := by
    intro hd
    unfold encodeFile at h
    rw [hsz, hd] at h; simp at h
  obtain ⟨cs, mb0, d', res, e, hpl, h1, h2, h3, h4, hout⟩ := encodeFile_spec hE hok inp hsz hdm
  rw [h] at e
  simp only [Prod.mk.injEq] at e
  obtain ⟨rfl, rfl⟩ := e
  have hcs := chunks_of_prefix h1
  have hm0 : p.metaEnabled = true → mb0.length = p.version.blockSize := fun h => metaBlockBytes_length (h4 h)
  cases hout with
  | @done mb rep ha hb hc =>
    have him := image_after hE hok hcs hm0 (fun h => metaBlockBytes_length (ha h).1)
    obtain ⟨mp, hr1, hr2⟩ := records_pack (bytes := some cs.flatten) hok hn (ha hme).1
    refine ⟨mp, cs.flatten, ?_, hr2⟩
    have h0 : (0 : Nat) ∈ LayoutSpec.metaCopies (some p.metaEnabled) p.dpb := by
      rw [hme]
      cases p.dpb with
      | none => simp [LayoutSpec.metaCopies]
      | some d => exact List.mem_map.2 ⟨0, List.mem_range.2 (by omega), by simp⟩
    have := him.metas 0 h0
    rw [Nat.zero_mul] at this
    rw [this]
    exact hr1

/-- **C24.**  After every successful run, interrupted by Ctrl-C or not, there are bytes, read consecutively from the start of
the selected range, such that the output file is exactly the container of these bytes (so they are what the data blocks hold,
without padding and parity), and the size and hash recorded in the metadata, as well as those reported, are the size and hash
of these bytes. -/
theorem C24_recorded (E : Env) (p : Param) (hE : E.Ok p) (hok : p.Ok) (inp : Input) (hn : NamesOk p inp) (d : Disk) (rep : Report)
    (h : encodeFile E p inp = (d, .ok rep)) : ∃ stored, Holds E p d rep stored ∧ stored <+: startBytes p inp := by
  obtain ⟨stored, h1, h2, _, _⟩ := holds_of_done hE hok hn h
  refine ⟨stored, h1, h2.trans ?_⟩
  unfold clip
  split
  · exact List.prefix_rfl
  · exact List.take_prefix _ _

/-- **C24, whole input.**  Without range options, and for standard input, an uninterrupted run stores exactly the input. -/
theorem C24_whole_input (E : Env) (p : Param) (hE : E.Ok p) (hok : p.Ok) (inp : Input) (hn : NamesOk p inp) (d : Disk) (rep : Report)
    (hr : inp.file = none ∨ p.fromPos = none ∧ p.toPos = none) (hs : ∀ n, E.stop n = false)
    (h : encodeFile E p inp = (d, .ok rep)) : Holds E p d rep inp.bytes := by
  obtain ⟨stored, h1, _, h3, _⟩ := holds_of_done hE hok hn h
  have hds := dataSize_pos p.version
  have : clip p (required p inp) (startBytes p inp) = inp.bytes := by
    unfold clip required startBytes rangeOf
    cases hf : inp.file with
    | none => rfl
    | some x =>
      rcases hr with hr | ⟨hr1, hr2⟩
      · rw [hf] at hr; simp at hr
      · simp only [Option.map_some, hr1, hr2]
        have e1 : (byteRange none none true 0 (.len inp.bytes.length) none).seekTo = 0 := by
          simp [byteRange, startPos, align]
        have e2 : inp.bytes.length ≤ (byteRange none none true 0 (.len inp.bytes.length) none).requiredLen := by
          unfold byteRange startPos align endInc lastPossiblePos
          simp only [if_true]
          split <;> omega
        rw [e1, List.drop_zero, List.take_of_length_le]
        have := (ceilDiv_le_iff hds).1 (Nat.le_refl (ceilDiv (byteRange none none true 0 (.len inp.bytes.length) none).requiredLen p.version.dataSize))
        exact Nat.le_trans e2 this
  rw [← this, ← h3 hs]
  exact h1

/-- **C24, range (partial).**  With range options an uninterrupted run stores the selected range (`byteRange`, C17) *extended to
a whole number of chunks* as far as the file goes.  Missing from the full claim: that exactly the range is stored, which is
false unless its length is a multiple of the chunk size, see `C24_range_violated`. -/
theorem C24_range_partial (E : Env) (p : Param) (hE : E.Ok p) (hok : p.Ok) (inp : Input) (hn : NamesOk p inp) (d : Disk) (rep : Report)
    (hf : inp.file ≠ none) (hs : ∀ n, E.stop n = false) (h : encodeFile E p inp = (d, .ok rep)) :
    let r := byteRange p.fromPos p.toPos true 0 (.len inp.bytes.length) none
    ∃ len, r.requiredLen ≤ len ∧ len < r.requiredLen + (blockLen p.version - 16) ∧ (blockLen p.version - 16) ∣ len ∧
      Holds E p d rep ((inp.bytes.drop r.seekTo).take len) := by
  intro r
  obtain ⟨stored, h1, _, h3, _⟩ := holds_of_done hE hok hn h
  have hds := dataSize_pos p.version
  rw [← dataSize_eq]
  refine ⟨ceilDiv r.requiredLen p.version.dataSize * p.version.dataSize, ?_, ?_, Nat.dvd_mul_left _ _, ?_⟩
  · exact (ceilDiv_le_iff hds).1 (Nat.le_refl _)
  · have hlt : ¬ ceilDiv r.requiredLen p.version.dataSize ≤ ceilDiv r.requiredLen p.version.dataSize - 1 ∨
        ceilDiv r.requiredLen p.version.dataSize = 0 := by omega
    rcases hlt with hlt | hlt
    · rw [ceilDiv_le_iff hds, Nat.sub_mul] at hlt
      omega
    · rw [hlt, Nat.zero_mul]; omega
  · have : clip p (required p inp) (startBytes p inp) =
        (inp.bytes.drop r.seekTo).take (ceilDiv r.requiredLen p.version.dataSize * p.version.dataSize) := by
      unfold clip required startBytes rangeOf
      cases hf' : inp.file with
      | none => exact absurd hf' hf
      | some x => rfl
    rw [← this, ← h3 hs]
    exact h1

/-- **C24, success.**  A run succeeds (and does not panic) if there are enough sequence numbers for the bytes wanted and the
metadata fits, whatever the input and whenever Ctrl-C is pressed. -/
theorem C24_succeeds (E : Env) (p : Param) (hE : E.Ok p) (hok : p.Ok) (inp : Input)
    (hsz : ∀ mx, maxDataFileSize p.version p.dpb = some mx → wantedLen p inp ≤ mx)
    (hm : p.metaEnabled = true → needed p inp ≤ blockLen p.version - 16) :
    ∃ d rep, encodeFile E p inp = (d, .ok rep) := by
  rw [← dataSize_eq] at hm
  exact encode_succeeds hE hok inp (hsz _ (maxSize_eq hok)) hm

/-! ### Instances -/

/-- An environment with a codec that keeps its promises; the "hash" just counts. -/
noncomputable def demoEnv (stop : Nat → Bool) : Env where
  hash := ⟨fun t bs => (beBytes 8 bs.length ++ List.replicate 64 0).take t.digestLen,
    by intro t bs; cases t <;> simp [HashType.digestLen, beBytes]⟩
  rs := RsWitness.codec
  lotCount := 2
  startTime := 1234567
  stop := stop

def demoParam (v : Version) (dpb : Option Dpb) (toPos : Option RangeEnd) : Param where
  version := v
  uid := ⟨[1, 2, 3, 4, 5, 6], rfl⟩
  dpb := dpb
  metaRequested := true
  hashType := .sha256
  fromPos := none
  toPos := toPos
  sbxName := "a.sbx"

theorem demo_ok {v : Version} {dpb : Option Dpb} (toPos : Option RangeEnd) (hc : verConsistent v dpb = true)
    (hs : ∀ d, dpb = some d → 1 ≤ d.data ∧ 1 ≤ d.parity ∧ d.data + d.parity ≤ 256) (stop : Nat → Bool) :
    (demoParam v dpb toPos).Ok ∧ (demoEnv stop).Ok (demoParam v dpb toPos) := by
  refine ⟨⟨hc, hs⟩, RsWitness.codec_laws, Nat.zero_lt_two, Nat.dvd_refl 2, ?_⟩
  have : (demoParam v dpb toPos).cfg.lotSize ≤ 256 := by
    unfold LotCfg.lotSize demoParam Param.cfg
    cases dpb with
    | none => simp
    | some d => exact (hs d rfl).2.2
  unfold demoEnv buffersInRotation
  simp only
  omega

/-- Version 17 with shards, a file of 1000 bytes. -/
example : ∃ d rep, encodeFile (demoEnv fun _ => false) (demoParam .v17 (some ⟨10, 2, 0⟩) none)
      ⟨List.replicate 1000 7, some ("a.txt", some 5)⟩ = (d, .ok rep) ∧
    Holds (demoEnv fun _ => false) (demoParam .v17 (some ⟨10, 2, 0⟩) none) d rep (List.replicate 1000 7) := by
  obtain ⟨h1, h2⟩ := demo_ok (v := .v17) (dpb := some ⟨10, 2, 0⟩) none rfl (by simp) (fun _ => false)
  obtain ⟨d, rep, h⟩ := C24_succeeds _ _ h2 h1 ⟨List.replicate 1000 7, some ("a.txt", some 5)⟩ (by
    intro mx hmx
    rw [maxSize_eq h1] at hmx
    cases hmx
    decide +kernel) (by intro _; decide +kernel)
  refine ⟨d, rep, h, ?_⟩
  refine C24_whole_input _ _ h2 h1 _ ?_ d rep (.inr ⟨rfl, rfl⟩) (fun _ => rfl) h
  refine ⟨by decide +kernel, ?_⟩
  intro n t ht
  simp only [Option.some.injEq, Prod.mk.injEq] at ht
  rw [← ht.1]
  decide +kernel

/-- **C24 violated**: `blkar encode --to-inc 9` of a file of 1000 bytes stores (and records) 496 bytes, not 10. -/
theorem C24_range_violated : ∃ E p inp d rep stored, p.Ok ∧ Env.Ok E p ∧ p.toPos = some (.inc 9) ∧ p.fromPos = none ∧
    inp.bytes.length = 1000 ∧ encodeFile E p inp = (d, .ok rep) ∧ Holds E p d rep stored ∧ stored.length = 496 := by
  obtain ⟨h1, h2⟩ := demo_ok (v := .v1) (dpb := none) (some (.inc 9)) rfl (by simp) (fun _ => false)
  obtain ⟨d, rep, h⟩ := C24_succeeds _ _ h2 h1 ⟨List.replicate 1000 7, some ("a.txt", some 5)⟩ (by
    intro mx hmx
    rw [maxSize_eq h1] at hmx
    cases hmx
    decide +kernel) (by intro _; decide +kernel)
  obtain ⟨len, h3, h4, h5, h6⟩ := C24_range_partial _ _ h2 h1 _ (by
    refine ⟨by decide +kernel, ?_⟩
    intro n t ht
    simp only [Option.some.injEq, Prod.mk.injEq] at ht
    rw [← ht.1]
    decide +kernel) d rep (by simp) (fun _ => rfl) h
  refine ⟨_, _, _, d, rep, _, h1, h2, rfl, rfl, List.length_replicate, h, h6, ?_⟩
  have e1 : (byteRange (demoParam .v1 none (some (.inc 9))).fromPos (demoParam .v1 none (some (.inc 9))).toPos true 0
      (.len (List.replicate 1000 (7 : Byte)).length) none) = ⟨10, 0⟩ := by decide +kernel
  simp only at h3 h4 h5 ⊢
  rw [e1] at h3 h4 ⊢
  simp only at h3 h4
  simp only [show blockLen (demoParam .v1 none (some (.inc 9))).version - 16 = 496 from rfl] at h4 h5
  simp only [List.drop_zero, List.length_take, List.length_replicate]
  omega

end Verif.Encode
