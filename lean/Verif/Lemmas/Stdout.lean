import Verif.Lemmas.Expect
import Verif.Lemmas.DecodeWhole
import Verif.Spec.Stdout
/-!
# What the reader of `decode` to standard output emits
-/

namespace Verif.Decode
open Format Scan ScanSpec BlockRing Layout LayoutSpec DecodeSpec RepairSpec StdoutSpec Expect

/-- The bytes emitted for a number: the payload of the block if it is at its place, zeros otherwise. -/
def bytesFor (ref : Block) (dpb : Option Dpb) (f : File) (s : Nat) : List Byte :=
  (atPlace ref f (dataWriteIndex s none dpb) s).getD (List.replicate ref.header.version.dataSize 0)

theorem bytesFor_length (ref : Block) (dpb : Option Dpb) (f : File) (s : Nat) : (bytesFor ref dpb f s).length = ref.header.version.dataSize := by
  unfold bytesFor
  cases h : atPlace ref f (dataWriteIndex s none dpb) s with
  | none => simp
  | some p => rw [Option.getD_some, (atPlace_some.1 h).2.len, dataSize_eq]

/-- The slot of a data block, before the length of the content is noted. -/
def outSlot (ref : Block) (dpb : Option Dpb) (f : File) (s : Nat) (sl : Slot) : Slot :=
  let e := expect f (dataWriteIndex s none dpb * ref.header.version.blockSize) ref s sl
  if e.2.2 then e.1 else blank ref s e.1

theorem expect_isPadding (f : File) (pos : Nat) (ref : Block) (s : Nat) (sl : Slot) : (expect f pos ref s sl).1.isPadding = sl.isPadding := by
  unfold expect
  simp only
  split
  · rfl
  · split <;> rfl

theorem expect_ok {ref : Block} {dpb : Option Dpb} {f : File} {s : Nat} {c : LotCfg} (hv : c.version = ref.header.version) {sl : Slot}
    (hf : sl.Fresh c) :
    (expect f (dataWriteIndex s none dpb * ref.header.version.blockSize) ref s sl).2.2 = (atPlace ref f (dataWriteIndex s none dpb) s).isSome := by
  cases h : atPlace ref f (dataWriteIndex s none dpb) s with
  | none => rw [(expect_none h hv hf).1]; rfl
  | some p => rw [expect_some h hv hf]; rfl

theorem expect_len {ref : Block} {k : Nat} {f : File} {s : Nat} {c : LotCfg} (hv : c.version = ref.header.version) {sl : Slot}
    (hf : sl.Fresh c) : (expect f (k * ref.header.version.blockSize) ref s sl).1.data.length = c.version.blockSize := by
  cases hat : atPlace ref f k s with
  | none => exact (expect_none hat hv hf).2.1
  | some p =>
    rw [expect_some hat hv hf]
    have h1 := isBlock_length (atPlace_some.1 hat).2
    rw [(atPlace_some.1 hat).2.bytes] at h1
    simp only [loaded]
    rw [h1, blockLen_eq, hv]

/-- The blank block. -/
theorem blank_spec {ref : Block} {s : Nat} (h0 : 1 ≤ s) (h1 : s < 2 ^ 32) {sl : Slot} (hl : sl.data.length = ref.header.version.blockSize) :
    (blank ref s sl).data.length = ref.header.version.blockSize ∧ (blank ref s sl).block.header.seq.toNat = s ∧
    (blank ref s sl).block.blockType = .data ∧ Lot.payloadOf (blank ref s sl) = List.replicate ref.header.version.dataSize 0 ∧
    (blank ref s sl).contentLen = sl.contentLen ∧ (blank ref s sl).isPadding = sl.isPadding := by
  set b := ((sl.block.setVersion ref.header.version).setUid ref.header.uid).setSeq (UInt32.ofNat s) with hb
  have hhd : b.header.version = ref.header.version ∧ b.header.uid = ref.header.uid ∧ b.header.seq = UInt32.ofNat s := by
    rw [hb]; unfold Block.setSeq; rw [Block.matchHeader_header]; exact ⟨rfl, rfl, rfl⟩
  have hne : UInt32.ofNat s ≠ 0 := by
    intro h
    have := congrArg UInt32.toNat h
    rw [ofNat_toNat32 h1] at this
    change s = 0 at this
    omega
  have hty : b.blockType = .data := by
    have h2 : b.blockType = b.header.type := by
      rw [hb]; unfold Block.setSeq; rw [Block.matchHeader_type, Block.matchHeader_header]
    rw [h2, Block.type_eq, hhd.2.2, if_neg hne]
  have hda : b.data = .data := by
    unfold Block.blockType at hty
    split at hty
    · assumption
    · simp at hty
  have hsz : b.size = ref.header.version.blockSize := by unfold Block.size; rw [hhd.1]
  have h16 : 16 ≤ ref.header.version.blockSize := by cases ref.header.version <;> decide
  have hsync := Block.syncTo_data b (List.replicate sl.data.length 0) hda (by rw [hsz, List.length_replicate]; omega)
  have hpay : b.payload (List.replicate sl.data.length 0) = List.replicate ref.header.version.dataSize 0 := by
    unfold Block.payload
    rw [hsz, hl, List.take_of_length_le (by simp), List.drop_replicate, dataSize_eq, blockLen_eq]
  rw [hpay, hsz, List.drop_of_length_le (by simp [hl]), List.append_nil] at hsync
  have e : blank ref s sl = { sl with
      block := b.updateCrc (List.replicate sl.data.length 0)
      data := blockBytes b.header.version b.header.uid.bytes b.header.seq (List.replicate ref.header.version.dataSize 0) } := by
    unfold blank
    simp only [← hb, hsync]
  rw [e]
  refine ⟨?_, ?_, hty, ?_, rfl, rfl⟩
  · simp only
    rw [blockBytes_length, List.length_replicate, dataSize_eq, blockLen_eq]
    omega
  · change b.header.seq.toNat = s
    rw [hhd.2.2, ofNat_toNat32 h1]
  · unfold Lot.payloadOf
    simp only
    rw [blockBytes_drop]

/-- What is known about the slot of a data block. -/
theorem outSlot_spec {ref : Block} {dpb : Option Dpb} {f : File} {s : Nat} (h0 : 1 ≤ s) (h1 : s < 2 ^ 32) {c : LotCfg}
    (hv : c.version = ref.header.version) {sl : Slot} (hf : sl.Fresh c) :
    (outSlot ref dpb f s sl).data.length = c.version.blockSize ∧ (outSlot ref dpb f s sl).block.header.seq.toNat = s ∧
    (outSlot ref dpb f s sl).block.blockType = .data ∧ Lot.payloadOf (outSlot ref dpb f s sl) = bytesFor ref dpb f s ∧
    (outSlot ref dpb f s sl).contentLen = none ∧ (outSlot ref dpb f s sl).isPadding = false := by
  unfold outSlot bytesFor
  simp only
  have hpad : (expect f (dataWriteIndex s none dpb * ref.header.version.blockSize) ref s sl).1.isPadding = false := by
    rw [expect_isPadding, hf.isPadding]
  have hlen := expect_len (ref := ref) (k := dataWriteIndex s none dpb) (f := f) (s := s) hv hf
  rw [expect_ok hv hf]
  cases h : atPlace ref f (dataWriteIndex s none dpb) s with
  | none =>
    simp only [Option.isSome_none, Bool.false_eq_true, if_false, Option.getD_none]
    obtain ⟨-, -, e3, -⟩ := expect_none h hv hf
    obtain ⟨b1, b2, b3, b4, b5, b6⟩ := blank_spec (ref := ref) (s := s) h0 h1 (by rw [hlen, hv])
    exact ⟨by rw [b1, hv], b2, b3, b4, by rw [b5, e3], by rw [b6, hpad]⟩
  | some p =>
    simp only [Option.isSome_some, if_true, Option.getD_some]
    rw [expect_some h hv hf] at hlen hpad ⊢
    refine ⟨hlen, ofNat_toNat32 h1, ?_, ?_, hf.contentLen, hpad⟩
    · simp only [loaded]
      rw [blockOf_type, if_neg]
      intro h2
      have := congrArg UInt32.toNat h2
      rw [ofNat_toNat32 h1] at this
      change s = 0 at this
      omega
    · unfold Lot.payloadOf
      simp only [loaded]
      rw [blockBytes_drop]

/-- What the slot of a data block adds to standard output and to the hash. -/
theorem outSlot_emits {ref : Block} {dpb : Option Dpb} {f : File} {s : Nat} (h0 : 1 ≤ s) (h1 : s < 2 ^ 32)
    (hp : isParityDpb s dpb = false) {sl : Slot} (hf : sl.Fresh (cfg ref dpb false)) (len : Option Nat)
    (hl : ∀ n, len = some n → 0 < n ∧ n ≤ ref.header.version.dataSize) (bytes : List Byte)
    (hb : bytes = match len with | none => bytesFor ref dpb f s | some n => (bytesFor ref dpb f s).take n) :
    Lot.emitSlot (cfg ref dpb false) (placed (cfg ref dpb false) { outSlot ref dpb f s sl with contentLen := len }) = bytes ∧
    Lot.hashPart (cfg ref dpb false) { outSlot ref dpb f s sl with contentLen := len } = some bytes := by
  obtain ⟨e1, e2, e3, e4, e5, e6⟩ := outSlot_spec (dpb := dpb) (f := f) h0 h1 (c := cfg ref dpb false) rfl hf
  constructor
  · unfold Lot.emitSlot placed Lot.slotWritePos
    have hch : ∃ pos, chunkWritePos ref.header.version s (dpb.map fun d => (d.data, d.parity)) = some pos := by
      have : chunkOf dpb s ≠ none := by
        intro h
        rw [← isParity_iff h0, hp] at h
        simp at h
      unfold chunkOf at this
      unfold chunkWritePos
      cases h : chunkWriteIndex s (dpb.map fun d => (d.data, d.parity)) with
      | none => exact absurd h this
      | some x => exact ⟨_, rfl⟩
    obtain ⟨pos, hpos⟩ := hch
    simp only [cfg, e2, hpos]
    unfold Lot.slotBytes
    simp only
    rw [hb]
    cases len with
    | none => exact e4
    | some n =>
      simp only
      rw [← e4]
      rfl
  · unfold Lot.hashPart
    simp only [e2, e3, e6, cfg, hp]
    rw [hb]
    cases len with
    | none => simp; exact e4
    | some n =>
      have := hl n rfl
      simp [this]
      rw [← e4]; rfl

/-- How the reader goes from one sequence number to the next, in either reading pattern. -/
structure Pattern (act : OutSt → Act OutSt) (ref : Block) (dpb : Option Dpb) (f : File) (I : OutSt → Prop) (bound : Nat) : Prop where
  step : ∀ r, I r → 1 ≤ r.next → r.next ≤ bound → ∃ g r1 last, act r = .slot g ∧
    (∀ sl : Slot, sl.Fresh (cfg ref dpb false) → g sl =
      if isParityDpb r.next dpb then
        dropSlot (if (expect f (dataWriteIndex r.next none dpb * ref.header.version.blockSize) ref r.next sl).2.2
            then { r1.stats with parities := r1.stats.parities + 1 }
            else { r1.stats with parityFailed := r1.stats.parityFailed + 1 }) last r1
          (expect f (dataWriteIndex r.next none dpb * ref.header.version.blockSize) ref r.next sl).1
      else
        dataSlot ref r.next (expect f (dataWriteIndex r.next none dpb * ref.header.version.blockSize) ref r.next sl).2.2 last r1
          (expect f (dataWriteIndex r.next none dpb * ref.header.version.blockSize) ref r.next sl).1) ∧
    r1.next = r.next ∧ r1.stats = r.stats ∧ (r.next < bound → last = false) ∧ ∀ st, I { r1 with next := r.next + 1, stats := st }

/-- The counters after looking for the blocks with the numbers `ss`. -/
def tally (ref : Block) (dpb : Option Dpb) (f : File) (st : Stats) (ss : List Nat) : Stats :=
  ss.foldl (fun st s =>
    let ok := (atPlace ref f (dataWriteIndex s none dpb) s).isSome
    if isParityDpb s dpb then
      if ok then { st with parities := st.parities + 1 } else { st with parityFailed := st.parityFailed + 1 }
    else
      if ok then { st with datas := st.datas + 1 } else { st with dataFailed := st.dataFailed + 1 }) st

theorem out_runs {act : OutSt → Act OutSt} {ref : Block} {dpb : Option Dpb} (hv : Valid dpb) {f : File} {I : OutSt → Prop} {m size : Nat}
    (hp : Pattern act ref dpb f I (seqOf dpb m)) (hb : seqOf dpb m < 2 ^ 32)
    (hs1 : m * ref.header.version.dataSize < size) (hs2 : size ≤ (m + 1) * ref.header.version.dataSize)
    (htot : totalChunks ref = some (m + 1)) (hlast : lastDataSize ref = some (size - m * ref.header.version.dataSize)) :
    ∀ (n : Nat) (r : OutSt) (j : Nat), I r → 1 ≤ r.next → r.next + n = seqOf dpb m + 1 → j ≤ m → r.next ≤ seqOf dpb j →
      (∀ s, r.next ≤ s → s < seqOf dpb j → isParityDpb s dpb = true) → r.stats.datas + r.stats.dataFailed = j →
      ∃ fs rF, Runs (cfg ref dpb false) act n r fs rF ∧ rF.stats = tally ref dpb f r.stats (List.range' r.next n) ∧
        (∀ ss, Kept (cfg ref dpb false) fs ss →
          ss.flatMap (fun s => Lot.emitSlot (cfg ref dpb false) (placed (cfg ref dpb false) s)) =
            ((List.range' j (m + 1 - j)).flatMap fun i => bytesFor ref dpb f (seqOf dpb i)).take (size - j * ref.header.version.dataSize) ∧
          ss.flatMap (hashed (cfg ref dpb false)) =
            ((List.range' j (m + 1 - j)).flatMap fun i => bytesFor ref dpb f (seqOf dpb i)).take (size - j * ref.header.version.dataSize)) ∧
        ∀ g ∈ fs, ∀ sl : Slot, sl.Fresh (cfg ref dpb false) → Lot.hashPart (cfg ref dpb false) (g sl) ≠ none := by
  intro n
  have hds := FileUtils.dataSize_pos ref.header.version
  induction n with
  | zero =>
    intro r j _ _ hn hj hle _ _
    exfalso
    rcases Nat.lt_or_ge j m with h | h
    · have := seqOf_mono hv h; omega
    · obtain rfl : j = m := by omega
      omega
  | succ n ih =>
    intro r j hI hr1 hn hj hle hpar hcnt
    have hnext : r.next ≤ seqOf dpb m := by omega
    obtain ⟨g, r1, last, hact, hg, hnx, hst, hla, hI'⟩ := hp.step r hI hr1 hnext
    have hr32 : r.next < 2 ^ 32 := by omega
    set s := r.next with hsdef
    set k := dataWriteIndex s none dpb with hk
    have hver : (cfg ref dpb false).version = ref.header.version := rfl
    rw [List.range'_succ]
    by_cases hps : isParityDpb s dpb = true
    · -- a parity block
      have hslt : s < seqOf dpb j := by
        rcases Nat.eq_or_lt_of_le hle with h | h
        · rw [h, seqOf_not_parity hv] at hps; simp at hps
        · exact h
      have hjm : seqOf dpb j ≤ seqOf dpb m := by
        rcases Nat.eq_or_lt_of_le hj with h | h
        · rw [h]
        · exact (seqOf_mono hv h).le
      have hla' := hla (by omega)
      let st' : Stats := if (atPlace ref f k s).isSome then { r.stats with parities := r.stats.parities + 1 }
        else { r.stats with parityFailed := r.stats.parityFailed + 1 }
      have hst' : st'.datas + st'.dataFailed = j := by
        simp only [st']; split <;> exact hcnt
      obtain ⟨fs, rF, e1, e2, e3, e4⟩ := ih { r1 with next := s + 1, stats := st' } j (hI' st') (by simp) (by simp; omega) hj (by simp only; omega)
        (by intro s' h1 h2; exact hpar s' (by simp at h1; omega) h2) hst'
      refine ⟨fs, rF, ?_, ?_, e3, e4⟩
      · refine Runs.skip (f := fun sl => (expect f (k * ref.header.version.blockSize) ref s sl).1) hact ?_ e1
        intro sl hf
        refine ⟨?_, expect_len hver hf⟩
        rw [hg sl hf, if_pos hps, expect_ok hver hf]
        unfold dropSlot
        rw [hla', hst, hnx]
        rfl
      · rw [e2]
        simp only [tally, List.foldl_cons, hps, if_true]
        rfl
    · simp only [Bool.not_eq_true] at hps
      have hsj : s = seqOf dpb j := by
        rcases Nat.eq_or_lt_of_le hle with h | h
        · exact h
        · rw [hpar s (Nat.le_refl _) h] at hps; simp at hps
      let st' : Stats := if (atPlace ref f k s).isSome then { r.stats with datas := r.stats.datas + 1 }
        else { r.stats with dataFailed := r.stats.dataFailed + 1 }
      have hst' : st'.datas + st'.dataFailed = j + 1 := by
        simp only [st']; split <;> simp <;> omega
      have hgd : ∀ sl : Slot, sl.Fresh (cfg ref dpb false) → g sl =
          if isLast ref st' then ({ r1 with stats := st' }, { outSlot ref dpb f s sl with contentLen := lastDataSize ref }, false, false)
          else if last then ({ r1 with stats := st' }, outSlot ref dpb f s sl, false, false)
          else ({ r1 with stats := st', next := s + 1 }, outSlot ref dpb f s sl, false, true) := by
        intro sl hf
        rw [hg sl hf, if_neg (by rw [hps]; simp)]
        unfold dataSlot
        have e : (if (expect f (k * ref.header.version.blockSize) ref s sl).2.2 then { r1.stats with datas := r1.stats.datas + 1 }
            else { r1.stats with dataFailed := r1.stats.dataFailed + 1 }) = st' := by
          rw [expect_ok hver hf, hst]
        rw [e, hnx]
        rfl
      have hil : isLast ref st' = (j == m) := by
        unfold isLast; rw [htot]; simp only [hst']
        rw [Bool.eq_iff_iff]; simp
      by_cases hjm : j = m
      · -- the last chunk
        subst hjm
        have hn0 : n = 0 := by omega
        subst hn0
        have hem : ∀ sl : Slot, sl.Fresh (cfg ref dpb false) → _ := fun sl hf =>
          outSlot_emits (f := f) hr1 hr32 hps hf (some (size - j * ref.header.version.dataSize)) (by
            intro x hx
            simp only [Option.some.injEq] at hx
            have := Nat.succ_mul j ref.header.version.dataSize
            rw [← Nat.add_one] at this
            omega) ((bytesFor ref dpb f s).take (size - j * ref.header.version.dataSize)) rfl
        refine ⟨[fun sl => { outSlot ref dpb f s sl with contentLen := lastDataSize ref }], { r1 with stats := st' }, ?_, ?_, ?_, ?_⟩
        · have := Runs.stop (c := cfg ref dpb false) (act := act) (n := 0) (r := r)
            (f := fun sl => { outSlot ref dpb f s sl with contentLen := lastDataSize ref }) (cancel := false)
            (r' := { r1 with stats := st' }) hact (by
              intro sl hf
              refine ⟨?_, (outSlot_spec hr1 hr32 hver hf).1⟩
              rw [hgd sl hf, hil]
              simp)
          simpa using this
        · simp only [tally, List.range'_zero, List.foldl_cons, List.foldl_nil, hps, Bool.false_eq_true, if_false]
          rfl
        · intro ss hss
          cases hss with
          | cons h1 h2 =>
            cases h2
            obtain ⟨s0, hs0, rfl⟩ := h1
            rw [show j + 1 - j = 1 by omega]
            simp only [List.flatMap_cons, List.flatMap_nil, List.append_nil, hashed, hlast, List.range'_one]
            rw [(hem s0 hs0).1, (hem s0 hs0).2, hsj]
            exact ⟨rfl, rfl⟩
        · intro g' hg' sl hf
          rw [List.mem_singleton.1 hg']
          simp only [hlast]
          rw [(hem sl hf).2]
          simp
      · have hjm' : j < m := by omega
        have hslt : s < seqOf dpb m := by rw [hsj]; exact seqOf_mono hv hjm'
        have hla' := hla hslt
        have hil' : isLast ref st' = false := by rw [hil]; simpa using hjm
        have hem : ∀ sl : Slot, sl.Fresh (cfg ref dpb false) → _ := fun sl hf =>
          outSlot_emits (f := f) hr1 hr32 hps hf none (by simp) (bytesFor ref dpb f s) rfl
        have hcl : ∀ sl : Slot, sl.Fresh (cfg ref dpb false) → ({ outSlot ref dpb f s sl with contentLen := none } : Slot) = outSlot ref dpb f s sl := by
          intro sl hf
          have := (outSlot_spec (dpb := dpb) (f := f) hr1 hr32 hver hf).2.2.2.2.1
          rw [← this]
        obtain ⟨fs, rF, e1, e2, e3, e4⟩ := ih { r1 with stats := st', next := s + 1 } (j + 1) (hI' st') (by simp) (by simp; omega) hjm'
          (by simp only; rw [hsj]; exact seqOf_succ hv j)
          (by intro s' h1 h2; exact between_parity (j := j) hv (by simp only at h1; omega) h2) hst'
        refine ⟨outSlot ref dpb f s :: fs, rF, ?_, ?_, ?_, ?_⟩
        · refine Runs.keep hact ?_ e1
          intro sl hf
          refine ⟨?_, (outSlot_spec hr1 hr32 hver hf).1⟩
          rw [hgd sl hf, hil', hla']
          rfl
        · rw [e2]
          simp only [tally, List.foldl_cons, hps, Bool.false_eq_true, if_false]
          rfl
        · intro ss hss
          cases hss with
          | cons h1 h2 =>
            obtain ⟨s0, hs0, rfl⟩ := h1
            obtain ⟨e5, e6⟩ := e3 _ h2
            have hsm : (j + 1) * ref.header.version.dataSize = j * ref.header.version.dataSize + ref.header.version.dataSize := Nat.succ_mul _ _
            have hmm := Nat.mul_le_mul_right ref.header.version.dataSize (show j + 1 ≤ m by omega)
            have key : (List.flatMap (fun i => bytesFor ref dpb f (seqOf dpb i)) (List.range' j (m + 1 - j))).take
                (size - j * ref.header.version.dataSize) = bytesFor ref dpb f s ++
                (List.flatMap (fun i => bytesFor ref dpb f (seqOf dpb i)) (List.range' (j + 1) (m + 1 - (j + 1)))).take
                  (size - (j + 1) * ref.header.version.dataSize) := by
              rw [show m + 1 - j = (m + 1 - (j + 1)) + 1 by omega, List.range'_succ, List.flatMap_cons, ← hsj, List.take_append,
                bytesFor_length, List.take_of_length_le (by rw [bytesFor_length]; omega)]
              congr 2
              omega
            rw [List.flatMap_cons, List.flatMap_cons, e5, e6, key]
            have h3 := hem s0 hs0
            rw [hcl s0 hs0] at h3
            unfold hashed
            rw [h3.1, h3.2]
            exact ⟨rfl, rfl⟩
        · intro g' hg' sl hf
          rcases List.mem_cons.1 hg' with rfl | hg'
          · have h3 := hem sl hf
            rw [hcl sl hf] at h3
            rw [h3.2]; simp
          · exact e4 g' hg' sl hf

/-! ### The two reading patterns -/

theorem burst_pattern (stop : Nat → Bool) (hs : ∀ i, stop i = false) (f : File) (ref : Block) (d : Dpb) {bound : Nat}
    (hb : bound ≤ lastSeqNum) : Pattern (burstAct stop f ref d) ref (some d) f (fun _ => True) bound := by
  constructor
  intro r _ h1 h2
  refine ⟨_, { r with checks := r.checks + 1 }, r.next == lastSeqNum, by unfold burstAct; rw [hs]; rfl, ?_, rfl, rfl, ?_, fun _ => trivial⟩
  · intro sl hf
    rfl
  · intro h
    simp only [beq_eq_false_iff_ne]
    omega

theorem seq_pattern (stop : Nat → Bool) (hs : ∀ i, stop i = false) (f : File) (ref : Block) {required bound : Nat}
    (hr : (bound + 1) * ref.header.version.blockSize ≤ required) (hf : (bound + 1) * ref.header.version.blockSize ≤ f.length)
    (hb : bound < 2 ^ 32) :
    Pattern (seqAct stop f 0 required ref none) ref none f (fun r => r.processed = r.next * ref.header.version.blockSize) bound := by
  constructor
  intro r hI h1 h2
  have h16 : 16 ≤ ref.header.version.blockSize := by cases ref.header.version <;> decide
  have hmul := Nat.mul_le_mul_right ref.header.version.blockSize (show r.next + 1 ≤ bound + 1 by omega)
  have hsucc : (r.next + 1) * ref.header.version.blockSize = r.next * ref.header.version.blockSize + ref.header.version.blockSize :=
    Nat.succ_mul _ _
  refine ⟨_, { r with checks := r.checks + 1, processed := (r.next + 1) * ref.header.version.blockSize }, r.next == 2 ^ 64 - 1, by
    unfold seqAct; rw [hs, if_neg (by simp), if_neg (by rw [hI]; omega)], ?_, rfl, rfl, ?_, fun _ => rfl⟩
  · intro sl hfr
    have hlen : sl.data.length = ref.header.version.blockSize := hfr.len
    have hsq : seqAtIndex r.next (some true) none = r.next := by simp only [seqAtIndex, Option.getD_some, if_true]; omega
    have hwi : dataWriteIndex r.next none none = r.next := by simp [dataWriteIndex]; omega
    have hrd : (f.readAt (0 + r.processed) sl.data.length).length = ref.header.version.blockSize := by
      rw [File.readAt_length, hlen, hI]; omega
    have hproc : r.processed + (f.readAt (0 + r.processed) sl.data.length).length = (r.next + 1) * ref.header.version.blockSize := by
      rw [hrd, hI, hsucc]
    have hpos : (0 : Nat) + r.processed = dataWriteIndex r.next none none * ref.header.version.blockSize := by rw [hwi, hI, Nat.zero_add]
    have hwhole : (expect f (dataWriteIndex r.next none none * ref.header.version.blockSize) ref r.next sl).2.1 = true := by
      cases hat : atPlace ref f (dataWriteIndex r.next none none) r.next with
      | none => rw [(expect_none hat (c := cfg ref none false) rfl hfr).2.2.2, hwi, blockLen_eq]; omega
      | some p => rw [expect_some hat (c := cfg ref none false) rfl hfr]
    simp only [hproc]
    rw [hsq, hpos]
    rcases hex : expect f (dataWriteIndex r.next none none * ref.header.version.blockSize) ref r.next sl with ⟨s', w, ok⟩
    rw [hex] at hwhole
    simp only at hwhole
    subst hwhole
    simp only [Bool.not_true, Bool.false_eq_true, if_false]
    rw [if_neg (by omega)]
  · intro h
    simp only [beq_eq_false_iff_ne]
    omega

/-! ### The metadata blocks in the burst error resistant pattern -/

theorem metaPass_spec (stop : Nat → Bool) (hs : ∀ i, stop i = false) (f : File) (ref : Block) :
    ∀ (l : List Nat) (k : Nat) (b : Block) (st : Stats),
      metaPass stop f ref l k b st = (k + l.length, { st with
        metas := st.metas + l.countP fun pos => (blockAt ref f pos).isSome
        metaFailed := st.metaFailed + l.countP fun pos => (blockAt ref f pos).isNone }) := by
  intro l
  induction l with
  | nil => intro k b st; rfl
  | cons pos rest ih =>
    intro k b st
    unfold metaPass
    rw [hs]
    simp only [Bool.false_eq_true, if_false]
    have hsz : ref.size = blockLen ref.header.version := by unfold Block.size; rw [blockLen_eq]
    have hcnt : ∀ (P : Nat → Bool), (pos :: rest).countP P = (if P pos then 1 else 0) + rest.countP P := by
      intro P; rw [List.countP_cons]; split <;> omega
    split
    · rename_i hlt
      have hno : blockAt ref f pos = none := by
        cases hb : blockAt ref f pos with
        | none => rfl
        | some b =>
          obtain ⟨_, _, h1, -⟩ := blockAt_iff.1 hb
          have := isBlock_length h1
          rw [hsz] at hlt
          unfold File.readAt at hlt
          omega
      rw [ih]
      simp only [hcnt, hno, Option.isSome_none, Option.isNone_none, List.length_cons]
      simp
      omega
    · rename_i hnl
      have hlen : (f.readAt pos ref.size).length = blockLen ref.header.version := by
        have : (f.readAt pos ref.size).length ≤ ref.size := by rw [File.readAt_length]; omega
        omega
      rcases hsy : b.syncFrom (f.readAt pos ref.size) (some (sameVerUid ref)) none with ⟨b', e⟩
      cases e with
      | none =>
        simp only
        have hb : blockAt ref f pos = some b' := by
          rw [Block.syncFrom_none] at hsy
          obtain ⟨seq, p, h1, rfl⟩ := (readSame_iff hlen.le).1 hsy
          rw [blockAt_iff]
          rw [hsz] at h1
          exact ⟨seq, p, h1, rfl⟩
        rw [ih]
        simp only [hcnt, hb, Option.isSome_some, Option.isNone_some, List.length_cons]
        simp
        omega
      | some e =>
        simp only
        have hb : blockAt ref f pos = none := by
          cases hb : blockAt ref f pos with
          | none => rfl
          | some b2 =>
            exfalso
            obtain ⟨seq, p, h1, rfl⟩ := blockAt_iff.1 hb
            rw [← hsz] at h1
            have := (readSame_iff (b0 := b) hlen.le).2 ⟨seq, p, h1, rfl⟩
            rw [← Block.syncFrom_none, hsy] at this
            simp at this
        rw [ih]
        simp only [hcnt, hb, Option.isSome_none, Option.isNone_none, List.length_cons]
        simp
        omega

/-! ### The index of the first block -/

theorem mostVotes_mem (votes : List Nat) : ∀ (order : List Nat) (best : Option Nat) (x : Nat),
    order.foldl (fun best i => match best with
      | none => some i
      | some x => if votes.count x < votes.count i then some i else some x) best = some x → x ∈ order ∨ best = some x := by
  intro order
  induction order with
  | nil => intro best x h; exact .inr h
  | cons a l ih =>
    intro best x h
    rw [List.foldl_cons] at h
    rcases ih _ x h with h | h
    · exact .inl (List.mem_cons_of_mem _ h)
    · split at h
      · simp only [Option.some.injEq] at h; subst h; exact .inl List.mem_cons_self
      · split at h
        · simp only [Option.some.injEq] at h; subst h; exact .inl List.mem_cons_self
        · exact .inr h

theorem guessStart_zero {order : List Nat → List Nat} (ho : ∀ vs x, x ∈ order vs → x ∈ vs) {f : File} {ref : Block} {mis : Bool}
    (hin : InPlace ref.header.version ref.header.uid none f) : guessStart order f none mis ref none = 0 := by
  unfold guessStart
  simp only
  set votes := (sampleLoop f ref (startVote none) blocksToSample 0 Block.dummy 0).filterMap id with hvotes
  have hzero : ∀ x ∈ votes, x = 0 := by
    intro x hx
    rw [hvotes, List.mem_filterMap] at hx
    obtain ⟨y, hy, hxy⟩ := hx
    simp only [id] at hxy
    subst hxy
    rw [sampleLoop_spec, List.mem_map] at hy
    obtain ⟨j, -, hj⟩ := hy
    rw [Nat.zero_add, Nat.zero_add, Option.bind_eq_some_iff] at hj
    obtain ⟨b, hb, hv⟩ := hj
    have hsz : ref.size = blockLen ref.header.version := by unfold Block.size; rw [blockLen_eq]
    rw [hsz] at hb
    obtain ⟨seq, p, h1, rfl⟩ := blockAt_iff.1 hb
    unfold startVote at hv
    rw [blockOf_type] at hv
    by_cases hs : seq = 0
    · rw [if_pos hs] at hv; simp at hv
    · rw [if_neg hs, if_neg (by simp)] at hv
      have e := hin j seq p hs h1
      simp only [blockOf] at hv
      simp only [dataWriteIndex, Option.getD_some, Option.getD_none, if_true] at e hv
      split at hv
      · simp at hv
      · simp only [Option.some.injEq] at hv; omega
  cases h : mostVotes votes (order votes) with
  | none => rfl
  | some x =>
    unfold mostVotes at h
    rcases mostVotes_mem votes _ _ x h with h | h
    · rw [Option.getD_some]; exact hzero x (ho _ x h)
    · simp at h

/-! ### The whole of the decoding to standard output -/

theorem id_folds (c : LotCfg) (L : Nat) (Good : Slot → Prop) :
    Folds c L Good (fun (x : List Byte) b => some (x, b)) (fun x _ => x) false :=
  ⟨fun x b _ _ _ _ => ⟨b, by
    have : ∀ (l : List Slot), l.foldl (fun (x : List Byte) _ => x) x = x := by
      intro l; induction l with
      | nil => rfl
      | cons a l ih => rw [List.foldl_cons, ih]
    rw [this], by simp⟩⟩

/-- What is emitted. -/
def emission (ref : Block) (dpb : Option Dpb) (f : File) (m size : Nat) : List Byte :=
  ((List.range (m + 1)).flatMap fun i => bytesFor ref dpb f (seqOf dpb i)).take size

/-- The reader's run, whatever the pattern, gives these results. -/
theorem threads_spec {act : OutSt → Act OutSt} {ref : Block} {dpb : Option Dpb} {n fuel L : Nat} (hL : 0 < L) {r rF : OutSt}
    {fs : List (Slot → Slot)} (hr : Runs (cfg ref dpb false) act n r fs rF) (hn : n < fuel) (out : List Byte)
    (hk : ∀ ss, Kept (cfg ref dpb false) fs ss →
      ss.flatMap (fun s => Lot.emitSlot (cfg ref dpb false) (placed (cfg ref dpb false) s)) = out ∧
      ss.flatMap (hashed (cfg ref dpb false)) = out)
    (hg : ∀ g ∈ fs, ∀ sl : Slot, sl.Fresh (cfg ref dpb false) → Lot.hashPart (cfg ref dpb false) (g sl) ≠ none) :
    ∃ hs, run3 (Encode.buffersInRotation + 1) act fuel (midThread ref) stdoutWriter r []
      (Buffer.newMulti (cfg ref dpb false) L Encode.buffersInRotation) = some (rF, hs, out) ∧ (hashTypeOf ref ≠ none → hs = out) := by
  unfold midThread
  cases ht : hashTypeOf ref with
  | none =>
    simp only
    obtain ⟨ss, h1, h2⟩ := run3_spec (cap := Encode.buffersInRotation + 1) (N := Encode.buffersInRotation) (cfg_pos ref dpb false) hL
      (by decide) (id_folds _ L _) (stdoutWriter_folds (cfg_pos ref dpb false) L) hr (fun _ _ _ _ => trivial) hn []
    refine ⟨ss.foldl (fun x _ => x) [], h2.trans ?_, fun h => absurd rfl h⟩
    rw [foldl_append_flatMap, List.nil_append, (hk ss h1).1]
  | some t =>
    simp only
    obtain ⟨ss, h1, h2⟩ := run3_spec (cap := Encode.buffersInRotation + 1) (N := Encode.buffersInRotation) (cfg_pos ref dpb false) hL
      (by decide) (hasher_folds _ L) ((stdoutWriter_folds (cfg_pos ref dpb false) L).weaken (fun _ _ => trivial)) hr hg hn []
    refine ⟨ss.foldl (fun out s => out ++ hashed (cfg ref dpb false) s) [], h2.trans ?_, fun _ => ?_⟩
    · rw [foldl_append_flatMap, foldl_append_flatMap, List.nil_append, List.nil_append, (hk ss h1).1]
    · rw [foldl_append_flatMap, List.nil_append, (hk ss h1).2]

theorem chunks_facts {v : Version} {size : Nat} (h0 : 0 < size) :
    (size - 1) / v.dataSize * v.dataSize < size ∧ size ≤ ((size - 1) / v.dataSize + 1) * v.dataSize ∧
    FileUtils.dataChunkCount v size = (size - 1) / v.dataSize + 1 ∧
    (if size % v.dataSize = 0 then v.dataSize else size % v.dataSize) = size - (size - 1) / v.dataSize * v.dataSize := by
  have hds := FileUtils.dataSize_pos v
  have h1 := Nat.div_add_mod (size - 1) v.dataSize
  have h2 := Nat.mod_lt (size - 1) hds
  set q := (size - 1) / v.dataSize with hq
  set r := (size - 1) % v.dataSize with hr
  have hsz : size = q * v.dataSize + (r + 1) := by rw [Nat.mul_comm]; omega
  refine ⟨by omega, by rw [Nat.succ_mul]; omega, ?_, ?_⟩
  · unfold FileUtils.dataChunkCount
    have : size + (v.dataSize - 1) = (q + 1) * v.dataSize + r := by rw [Nat.succ_mul]; omega
    rw [this, (divmod_eq h2).1]
  · rcases Nat.eq_or_lt_of_le (show r + 1 ≤ v.dataSize by omega) with h | h
    · have : size = (q + 1) * v.dataSize + 0 := by rw [Nat.succ_mul]; omega
      have e : size % v.dataSize = 0 := by rw [this]; exact (divmod_eq hds).2
      rw [if_pos e]; omega
    · have e : size % v.dataSize = r + 1 := by rw [hsz]; exact (divmod_eq h).2
      rw [e, if_neg (by omega)]; omega

/-- Decoding to standard output: what is emitted, the counters and the hash. -/
theorem decodeStdout_spec (E : Env) (hE : 0 < E.lotCount) (hs : ∀ i, E.stop i = false) (ho : ∀ vs x, x ∈ E.order vs → x ∈ vs)
    {p : Param} (hp : Whole p) (ref : Block) (f : File) (dpb : Option Dpb) (hd : dataParBurst p.ref true f ref = .ok dpb) (hv : Valid dpb)
    {size : Nat} (hsz : refFsz ref = some size) (h0 : 0 < size)
    (hnum : seqOf dpb ((size - 1) / ref.header.version.dataSize) ≤ lastSeqNum)
    (hplain : dpb = none → ((size - 1) / ref.header.version.dataSize + 2) * blockLen ref.header.version ≤ f.length ∧
      InPlace ref.header.version ref.header.uid none f) :
    ∃ st, decodeStdout E p ref f = .ok (emission ref dpb f ((size - 1) / ref.header.version.dataSize) size,
        tally ref dpb f st (List.range' 1 (seqOf dpb ((size - 1) / ref.header.version.dataSize))),
        (hashTypeOf ref).map fun t => E.hash.bytes t (emission ref dpb f ((size - 1) / ref.header.version.dataSize) size)) ∧
      (∀ d, dpb = some d → st = { Stats.zero with
        metas := (metaAllPos ref.header.version dpb).countP fun pos => (blockAt ref f pos).isSome
        metaFailed := (metaAllPos ref.header.version dpb).countP fun pos => (blockAt ref f pos).isNone }) ∧
      (dpb = none → st = if (atPlace ref f 0 0).isSome then { Stats.zero with metas := 1 } else { Stats.zero with parityFailed := 1 }) := by
  obtain ⟨c1, c2, c3, c4⟩ := chunks_facts (v := ref.header.version) h0
  set m := (size - 1) / ref.header.version.dataSize with hm
  have htot : totalChunks ref = some (m + 1) := by unfold totalChunks; rw [hsz, Option.map_some, c3]
  have hlast : lastDataSize ref = some (size - m * ref.header.version.dataSize) := by
    unfold lastDataSize; rw [hsz, Option.map_some, c4]
  have hb32 : seqOf dpb m < 2 ^ 32 := by unfold lastSeqNum at hnum; omega
  have hpos := seqOf_pos dpb m
  cases hdp : dpb with
  | some d =>
    rw [hdp] at hd hv hnum hb32 hpos
    have hmp := metaPass_spec E.stop hs f ref (metaAllPos ref.header.version (some d)) 0 Block.dummy Stats.zero
    set st : Stats := { Stats.zero with
        metas := Stats.zero.metas + (metaAllPos ref.header.version (some d)).countP fun pos => (blockAt ref f pos).isSome
        metaFailed := Stats.zero.metaFailed + (metaAllPos ref.header.version (some d)).countP fun pos => (blockAt ref f pos).isNone } with hst
    set k := 0 + (metaAllPos ref.header.version (some d)).length with hk
    obtain ⟨fs, rF, e1, e2, e3, e4⟩ := out_runs hv (burst_pattern E.stop hs f ref d hnum) hb32 c1 c2 htot hlast
      (seqOf (some d) m) ⟨1, 0, k, st⟩ 0 trivial (Nat.le_refl 1) (Nat.add_comm _ _) (Nat.zero_le _) (by rw [seqOf_zero])
      (by intro s h1 h2; rw [seqOf_zero] at h2; exact absurd h2 (Nat.not_lt.2 h1)) rfl
    rw [← List.range_eq_range'] at e3
    simp only [Nat.zero_mul, Nat.sub_zero] at e3
    obtain ⟨hb, g1, g2⟩ := threads_spec (fuel := 2 ^ 32 + f.length + 3) hE e1 (by omega) _ e3 e4
    refine ⟨st, ?_, ?_, by simp⟩
    · unfold decodeStdout
      rw [hd]
      simp only
      unfold outThreads
      rw [hp.fromPos, hp.toPos]
      simp only
      rw [hmp]
      simp only
      rw [g1]
      simp only [Except.ok.injEq, Prod.mk.injEq]
      refine ⟨rfl, e2, ?_⟩
      cases ht : hashTypeOf ref with
      | none => rfl
      | some t => rw [g2 (by rw [ht]; simp)]; rfl
    · intro d' _
      rw [hst]
      simp [Stats.zero]
  | none =>
    obtain ⟨hlen, hin⟩ := hplain hdp
    rw [hdp] at hd hv hnum hb32 hpos
    have hsm : seqOf none m = m + 1 := rfl
    have hfl : (seqOf none m + 1) * ref.header.version.blockSize ≤ f.length := by
      rw [hsm, ← blockLen_eq]; exact hlen
    have h16 : 16 ≤ ref.header.version.blockSize := by cases ref.header.version <;> decide
    have hfl' : ref.header.version.blockSize ≤ f.length := by
      have := Nat.mul_le_mul_right ref.header.version.blockSize (show 1 ≤ seqOf none m + 1 by omega)
      omega
    have hrange : (rangeOf p.ref ref f).seekTo = 0 ∧ (rangeOf p.ref ref f).requiredLen = f.length := by
      unfold rangeOf; rw [hp.fromPos, hp.toPos, range_all]; exact ⟨rfl, if_neg (by omega)⟩
    set st : Stats := if (atPlace ref f 0 0).isSome then { Stats.zero with metas := 1 } else { Stats.zero with parityFailed := 1 } with hst
    have hst0 : st.datas + st.dataFailed = 0 := by rw [hst]; split <;> rfl
    obtain ⟨fs, rF, e1, e2, e3, e4⟩ := out_runs hv (seq_pattern E.stop hs f ref hfl hfl hb32) hb32 c1 c2 htot hlast
      (seqOf none m) ⟨1, ref.header.version.blockSize, 1, st⟩ 0 (by simp) (Nat.le_refl 1) (Nat.add_comm _ _) (Nat.zero_le _)
      (by rw [seqOf_zero]) (by intro s h1 h2; rw [seqOf_zero] at h2; exact absurd h2 (Nat.not_lt.2 h1)) hst0
    rw [← List.range_eq_range'] at e3
    simp only [Nat.zero_mul, Nat.sub_zero] at e3
    have e0 : Runs (cfg ref none false) (seqAct E.stop f 0 f.length ref none) (seqOf none m + 1) ⟨0, 0, 0, Stats.zero⟩ fs rF := by
      refine Runs.skip (f := fun sl => (expect f (0 * ref.header.version.blockSize) ref 0 sl).1)
        (by unfold seqAct; rw [hs, if_neg (by simp), if_neg (by simp only; omega)]) ?_ e1
      intro sl hfr
      refine ⟨?_, expect_len (c := cfg ref none false) rfl hfr⟩
      have hl : sl.data.length = ref.header.version.blockSize := hfr.len
      have hrd : (f.readAt (0 + 0) sl.data.length).length = ref.header.version.blockSize := by rw [File.readAt_length, hl]; omega
      have hwhole : (expect f (0 * ref.header.version.blockSize) ref 0 sl).2.1 = true := by
        cases hat : atPlace ref f 0 0 with
        | none => rw [(expect_none hat (c := cfg ref none false) rfl hfr).2.2.2, blockLen_eq]; omega
        | some p => rw [expect_some hat (c := cfg ref none false) rfl hfr]
      have hok : (expect f (0 * ref.header.version.blockSize) ref 0 sl).2.2 = (atPlace ref f 0 0).isSome := by
        cases hat : atPlace ref f 0 0 with
        | none => rw [(expect_none hat (c := cfg ref none false) rfl hfr).1]; rfl
        | some p => rw [expect_some hat (c := cfg ref none false) rfl hfr]; rfl
      have hsq : seqAtIndex 0 (some true) none = 0 := rfl
      simp only [hsq, hrd]
      rw [show (0 : Nat) + 0 = 0 * ref.header.version.blockSize by omega]
      rcases hex : expect f (0 * ref.header.version.blockSize) ref 0 sl with ⟨s', w, ok⟩
      rw [hex] at hwhole hok
      simp only at hwhole hok
      subst hwhole
      simp only [Bool.not_true, Bool.false_eq_true, if_false, if_true]
      unfold dropSlot
      rw [if_neg (by decide), hst, hok]
      simp [Stats.zero]
    obtain ⟨hb, g1, g2⟩ := threads_spec (fuel := 2 ^ 32 + f.length + 3) hE e0 (by omega) _ e3 e4
    refine ⟨st, ?_, by simp, fun _ => rfl⟩
    unfold decodeStdout
    rw [hd]
    simp only
    unfold outThreads
    simp only
    rw [hrange.1, hrange.2, hp.fromPos, guessStart_zero ho hin, g1]
    simp only [Except.ok.injEq, Prod.mk.injEq]
    refine ⟨rfl, e2, ?_⟩
    cases ht : hashTypeOf ref with
    | none => rfl
    | some t => rw [g2 (by rw [ht]; simp)]; rfl

/-! ### When no data is expected -/

/-- If the recorded size is 0 the burst error resistant pattern goes through all sequence numbers. -/
theorem out_runs_zero (stop : Nat → Bool) (hs : ∀ i, stop i = false) (f : File) (ref : Block) (d : Dpb) (htot : totalChunks ref = some 0) :
    ∀ (n : Nat) (r : OutSt), 1 ≤ r.next → r.next + n = lastSeqNum + 1 → 1 ≤ n →
      ∃ fs rF, Runs (cfg ref (some d) false) (burstAct stop f ref d) n r fs rF ∧
        (∀ ss, Kept (cfg ref (some d) false) fs ss →
          ss.flatMap (fun s => Lot.emitSlot (cfg ref (some d) false) (placed (cfg ref (some d) false) s)) =
            ((List.range' r.next n).filter fun s => !isParityDpb s (some d)).flatMap (bytesFor ref (some d) f) ∧
          ss.flatMap (hashed (cfg ref (some d) false)) =
            ((List.range' r.next n).filter fun s => !isParityDpb s (some d)).flatMap (bytesFor ref (some d) f)) ∧
        ∀ g ∈ fs, ∀ sl : Slot, sl.Fresh (cfg ref (some d) false) → Lot.hashPart (cfg ref (some d) false) (g sl) ≠ none := by
  intro n
  induction n with
  | zero => intro r _ _ h; omega
  | succ n ih =>
    intro r h1 h2 _
    have hb : r.next ≤ lastSeqNum := by omega
    have h32 : r.next < 2 ^ 32 := by unfold lastSeqNum at hb; omega
    have hil : ∀ st : Stats, 1 ≤ st.datas + st.dataFailed → isLast ref st = false := by
      intro st hst
      unfold isLast; rw [htot]; simp only [beq_eq_false_iff_ne]; omega
    have hver : (cfg ref (some d) false).version = ref.header.version := rfl
    set k := dataWriteIndex r.next none (some d) with hk
    have hact : ∃ g, burstAct stop f ref d r = .slot g ∧ ∀ sl : Slot, sl.Fresh (cfg ref (some d) false) → g sl =
        if isParityDpb r.next (some d) then
          dropSlot (if (atPlace ref f k r.next).isSome then { r.stats with parities := r.stats.parities + 1 }
            else { r.stats with parityFailed := r.stats.parityFailed + 1 }) (r.next == lastSeqNum) { r with checks := r.checks + 1 }
            (expect f (k * ref.header.version.blockSize) ref r.next sl).1
        else
          let st := if (atPlace ref f k r.next).isSome then { r.stats with datas := r.stats.datas + 1 }
            else { r.stats with dataFailed := r.stats.dataFailed + 1 }
          if r.next == lastSeqNum then ({ r with checks := r.checks + 1, stats := st }, outSlot ref (some d) f r.next sl, false, false)
          else ({ r with checks := r.checks + 1, stats := st, next := r.next + 1 }, outSlot ref (some d) f r.next sl, false, true) := by
      refine ⟨_, by unfold burstAct; rw [hs]; rfl, ?_⟩
      intro sl hf
      rw [← expect_ok hver hf]
      by_cases hp : isParityDpb r.next (some d) = true
      · rw [if_pos hp]
        have hp' : isParity r.next d.data d.parity = true := hp
        simp only [hp', if_true]
        rfl
      · rw [if_neg hp]
        have hp' : ¬ isParity r.next d.data d.parity = true := hp
        simp only
        rw [if_neg hp']
        unfold dataSlot
        simp only
        rw [hil _ (by split <;> simp <;> omega)]
        rfl
    obtain ⟨g, hact, hg⟩ := hact
    have hr1 : ∀ (st : Stats), r.next = lastSeqNum ∨ ∃ fs rF, _ := fun st => by
      by_cases h : r.next = lastSeqNum
      · exact .inl h
      · exact .inr (ih { r with checks := r.checks + 1, stats := st, next := r.next + 1 } (by simp) (by simp only; omega) (by omega))
    by_cases hp : isParityDpb r.next (some d) = true
    · have hfilt : (List.range' r.next (n + 1)).filter (fun s => !isParityDpb s (some d)) =
          (List.range' (r.next + 1) n).filter (fun s => !isParityDpb s (some d)) := by
        rw [List.range'_succ, List.filter_cons_of_neg (by simp [hp])]
      set st : Stats := if (atPlace ref f k r.next).isSome then { r.stats with parities := r.stats.parities + 1 }
            else { r.stats with parityFailed := r.stats.parityFailed + 1 } with hst
      rcases hr1 st with h | ⟨fs, rF, e1, e2, e3⟩
      · have hn : n = 0 := by omega
        subst hn
        refine ⟨[], _, Runs.stop (f := fun sl => (expect f (k * ref.header.version.blockSize) ref r.next sl).1) (cancel := true)
          (r' := { r with checks := r.checks + 1, stats := st }) hact ?_, ?_, by simp⟩
        · intro sl hf
          refine ⟨?_, expect_len hver hf⟩
          rw [hg sl hf, if_pos hp]
          unfold dropSlot
          rw [if_pos (by simpa using h)]
        · intro ss hss
          cases hss
          rw [hfilt]
          simp
      · have hne : r.next ≠ lastSeqNum := by intro h; cases e1 <;> omega
        refine ⟨fs, rF, Runs.skip (f := fun sl => (expect f (k * ref.header.version.blockSize) ref r.next sl).1) hact ?_ e1, ?_, e3⟩
        · intro sl hf
          refine ⟨?_, expect_len hver hf⟩
          rw [hg sl hf, if_pos hp]
          unfold dropSlot
          rw [if_neg (by simpa using hne)]
        · intro ss hss
          rw [hfilt]
          exact e2 ss hss
    · have hp' : isParityDpb r.next (some d) = false := by simpa using hp
      have hfilt : (List.range' r.next (n + 1)).filter (fun s => !isParityDpb s (some d)) =
          r.next :: (List.range' (r.next + 1) n).filter (fun s => !isParityDpb s (some d)) := by
        rw [List.range'_succ, List.filter_cons_of_pos (by simp [hp'])]
      set st : Stats := if (atPlace ref f k r.next).isSome then { r.stats with datas := r.stats.datas + 1 }
            else { r.stats with dataFailed := r.stats.dataFailed + 1 } with hst
      have hem : ∀ sl : Slot, sl.Fresh (cfg ref (some d) false) →
          Lot.emitSlot (cfg ref (some d) false) (placed (cfg ref (some d) false) (outSlot ref (some d) f r.next sl)) = bytesFor ref (some d) f r.next ∧
          Lot.hashPart (cfg ref (some d) false) (outSlot ref (some d) f r.next sl) = some (bytesFor ref (some d) f r.next) := by
        intro sl hf
        have h3 := outSlot_emits (f := f) h1 h32 hp' hf none (by simp) (bytesFor ref (some d) f r.next) rfl
        have h4 := (outSlot_spec (dpb := some d) (f := f) h1 h32 hver hf).2.2.2.2.1
        have h5 : ({ outSlot ref (some d) f r.next sl with contentLen := none } : Slot) = outSlot ref (some d) f r.next sl := by
          rw [← h4]
        rwa [h5] at h3
      rcases hr1 st with h | ⟨fs, rF, e1, e2, e3⟩
      · have hn : n = 0 := by omega
        subst hn
        refine ⟨[outSlot ref (some d) f r.next], _, Runs.stop (f := outSlot ref (some d) f r.next) (cancel := false)
          (r' := { r with checks := r.checks + 1, stats := st }) hact ?_, ?_, ?_⟩
        · intro sl hf
          refine ⟨?_, (outSlot_spec h1 h32 hver hf).1⟩
          rw [hg sl hf, if_neg hp]
          simp only
          rw [if_pos (by simpa using h)]
        · intro ss hss
          cases hss with
          | cons h3 h4 =>
            cases h4
            obtain ⟨s0, hs0, rfl⟩ := h3
            rw [hfilt]
            simp only [List.flatMap_cons, List.flatMap_nil, List.append_nil, hashed, List.range'_zero, List.filter_nil]
            rw [(hem s0 hs0).1, (hem s0 hs0).2]
            exact ⟨rfl, rfl⟩
        · intro g' hg' sl hf
          rw [List.mem_singleton.1 hg', (hem sl hf).2]
          simp
      · have hne : r.next ≠ lastSeqNum := by intro h; cases e1 <;> omega
        refine ⟨outSlot ref (some d) f r.next :: fs, rF, Runs.keep hact ?_ e1, ?_, ?_⟩
        · intro sl hf
          refine ⟨?_, (outSlot_spec h1 h32 hver hf).1⟩
          rw [hg sl hf, if_neg hp]
          simp only
          rw [if_neg (by simpa using hne)]
        · intro ss hss
          cases hss with
          | cons h3 h4 =>
            obtain ⟨s0, hs0, rfl⟩ := h3
            obtain ⟨e5, e6⟩ := e2 _ h4
            rw [hfilt, List.flatMap_cons, List.flatMap_cons, List.flatMap_cons, e5, e6]
            unfold hashed
            rw [(hem s0 hs0).1, (hem s0 hs0).2]
            exact ⟨rfl, rfl⟩
        · intro g' hg' sl hf
          rcases List.mem_cons.1 hg' with rfl | hg'
          · rw [(hem sl hf).2]; simp
          · exact e3 g' hg' sl hf

end Verif.Decode
