import Verif.Lemmas.Stdout
/-!
# The counters of `decode` to standard output, for every file and every interruption
-/

namespace Verif.Decode
open Format Scan ScanSpec BlockRing Layout LayoutSpec DecodeSpec RepairSpec StdoutSpec Expect

/-- What can happen in one iteration of a reader: it halts, it stops at a block that is not complete, or it counts a block. -/
inductive Iter (ref : Block) (dpb : Option Dpb) (act : OutSt → Act OutSt) (step : Stats → Nat → Stats) (I : Nat → OutSt → Prop)
    (Done : Nat → Stats → Prop) (N k : Nat) (r : OutSt) : Prop
  | halt (r' : OutSt) : act r = .halt r' → r'.stats = r.stats → Done k r'.stats → Iter ref dpb act step I Done N k r
  | short (g : Slot → OutSt × Slot × Bool × Bool) (r' : OutSt) (F : Slot → Slot) : act r = .slot g →
      (∀ s : Slot, s.Fresh (cfg ref dpb false) → g s = (r', F s, false, false) ∧ (F s).data.length = ref.header.version.blockSize ∧
        Lot.hashPart (cfg ref dpb false) (F s) ≠ none) →
      r'.stats = r.stats → Done k r'.stats → Iter ref dpb act step I Done N k r
  | count (g : Slot → OutSt × Slot × Bool × Bool) (r' : OutSt) (F : Slot → Slot) (cancel go : Bool) : act r = .slot g →
      (∀ s : Slot, s.Fresh (cfg ref dpb false) → g s = (r', F s, cancel, go) ∧ (F s).data.length = ref.header.version.blockSize ∧
        (cancel = false → Lot.hashPart (cfg ref dpb false) (F s) ≠ none)) →
      k + 1 ≤ N → r'.stats = step r.stats k → (go = true → I (k + 1) r') → (go = false → Done (k + 1) r'.stats) → Iter ref dpb act step I Done N k r

theorem any_runs {ref : Block} {dpb : Option Dpb} {act : OutSt → Act OutSt} {step : Stats → Nat → Stats} {I : Nat → OutSt → Prop}
    {Done : Nat → Stats → Prop} {N : Nat} (hI : ∀ k r, I k r → k ≤ N ∧ Iter ref dpb act step I Done N k r) :
    ∀ (j k : Nat) (r : OutSt), N - k ≤ j → I k r → ∃ n fs rF m, n ≤ j + 1 ∧ Runs (cfg ref dpb false) act n r fs rF ∧
      rF.stats = (List.range' k m).foldl step r.stats ∧ Done (k + m) rF.stats ∧ k + m ≤ N ∧
      ∀ g ∈ fs, ∀ sl : Slot, sl.Fresh (cfg ref dpb false) → Lot.hashPart (cfg ref dpb false) (g sl) ≠ none := by
  intro j
  induction j with
  | zero =>
    intro k r hj hk
    obtain ⟨hle, hit⟩ := hI k r hk
    cases hit with
    | halt r' h1 h2 h3 => exact ⟨1, [], r', 0, by omega, .halt h1, by simp [h2], h3, by omega, by simp⟩
    | short g r' F h1 h2 h3 h4 =>
      refine ⟨1, [F], r', 0, by omega, ?_, by simp [h3], h4, by omega, ?_⟩
      · have := Runs.stop (c := cfg ref dpb false) (n := 0) (cancel := false) h1 fun s hs => ⟨(h2 s hs).1, (h2 s hs).2.1⟩
        simpa using this
      · intro g' hg' sl hf
        rw [List.mem_singleton.1 hg']
        exact (h2 sl hf).2.2
    | count g r' F cancel go h1 h2 hN h3 h4 h5 => omega
  | succ j ih =>
    intro k r hj hk
    obtain ⟨hle, hit⟩ := hI k r hk
    cases hit with
    | halt r' h1 h2 h3 => exact ⟨1, [], r', 0, by omega, .halt h1, by simp [h2], h3, by omega, by simp⟩
    | short g r' F h1 h2 h3 h4 =>
      refine ⟨1, [F], r', 0, by omega, ?_, by simp [h3], h4, by omega, ?_⟩
      · have := Runs.stop (c := cfg ref dpb false) (n := 0) (cancel := false) h1 fun s hs => ⟨(h2 s hs).1, (h2 s hs).2.1⟩
        simpa using this
      · intro g' hg' sl hf
        rw [List.mem_singleton.1 hg']
        exact (h2 sl hf).2.2
    | count g r' F cancel go h1 h2 hN h3 h4 h5 =>
      cases go with
      | false =>
        refine ⟨1, if cancel then [] else [F], r', 1, by omega, ?_, by simp [h3], h5 rfl, by omega, ?_⟩
        · exact Runs.stop (c := cfg ref dpb false) (n := 0) h1 fun s hs => ⟨(h2 s hs).1, (h2 s hs).2.1⟩
        · intro g' hg' sl hf
          cases cancel with
          | true => simp at hg'
          | false =>
            rw [if_neg (by simp)] at hg'
            rw [List.mem_singleton.1 hg']
            exact (h2 sl hf).2.2 rfl
      | true =>
        obtain ⟨n, fs, rF, m, e1, e2, e3, e4, e5, e6⟩ := ih (k + 1) r' (by omega) (h4 rfl)
        rw [h3] at e3
        rw [show k + 1 + m = k + (m + 1) by omega] at e4 e5
        cases cancel with
        | true =>
          exact ⟨n + 1, fs, rF, m + 1, by omega, .skip h1 (fun s hs => ⟨(h2 s hs).1, (h2 s hs).2.1⟩) e2, e3, e4, e5, e6⟩
        | false =>
          refine ⟨n + 1, F :: fs, rF, m + 1, by omega, .keep h1 (fun s hs => ⟨(h2 s hs).1, (h2 s hs).2.1⟩) e2, e3, e4, e5, ?_⟩
          intro g' hg' sl hf
          rcases List.mem_cons.1 hg' with rfl | hg'
          · exact (h2 sl hf).2.2 rfl
          · exact e6 g' hg' sl hf

/-- The threads around such a reader do not change the counters. -/
theorem threads_stats {act : OutSt → Act OutSt} {ref : Block} {dpb : Option Dpb} {n fuel L : Nat} (hL : 0 < L) {r rF : OutSt}
    {fs : List (Slot → Slot)} (hr : Runs (cfg ref dpb false) act n r fs rF) (hn : n < fuel)
    (hg : ∀ g ∈ fs, ∀ sl : Slot, sl.Fresh (cfg ref dpb false) → Lot.hashPart (cfg ref dpb false) (g sl) ≠ none) :
    ∃ hs out, run3 (Encode.buffersInRotation + 1) act fuel (midThread ref) stdoutWriter r []
      (Buffer.newMulti (cfg ref dpb false) L Encode.buffersInRotation) = some (rF, hs, out) := by
  unfold midThread
  cases ht : hashTypeOf ref with
  | none =>
    simp only
    obtain ⟨ss, h1, h2⟩ := run3_spec (cap := Encode.buffersInRotation + 1) (N := Encode.buffersInRotation) (cfg_pos ref dpb false) hL
      (by decide) (id_folds _ L _) (stdoutWriter_folds (cfg_pos ref dpb false) L) hr (fun _ _ _ _ => trivial) hn []
    exact ⟨_, _, h2⟩
  | some t =>
    simp only
    obtain ⟨ss, h1, h2⟩ := run3_spec (cap := Encode.buffersInRotation + 1) (N := Encode.buffersInRotation) (cfg_pos ref dpb false) hL
      (by decide) (hasher_folds _ L) ((stdoutWriter_folds (cfg_pos ref dpb false) L).weaken (fun _ _ => trivial)) hr hg hn []
    exact ⟨_, _, h2⟩

theorem lastDataSize_ok (ref : Block) : ∀ n, lastDataSize ref = some n → 0 < n ∧ n ≤ ref.header.version.dataSize := by
  intro n h
  unfold lastDataSize at h
  obtain ⟨x, -, h⟩ := Option.map_eq_some_iff.1 h
  have hds := FileUtils.dataSize_pos ref.header.version
  have := Nat.mod_lt x hds
  split at h <;> omega

/-- A slot of the right length, whose content length makes sense, can be hashed. -/
theorem hashPart_ok {c : LotCfg} {s : Slot} (h : ∀ n, s.contentLen = some n → 0 < n ∧ n ≤ c.version.dataSize) : Lot.hashPart c s ≠ none := by
  unfold Lot.hashPart
  split
  · split
    · simp
    · rename_i n hn
      rw [if_pos (h n hn)]; simp
  · simp

theorem expect_content {ref : Block} {f : File} {k s : Nat} {c : LotCfg} {sl : Slot}
    (hf : sl.Fresh c) : (expect f (k * ref.header.version.blockSize) ref s sl).1.contentLen = none := by
  unfold expect
  simp only
  split
  · exact hf.contentLen
  · split <;> exact hf.contentLen

theorem syncTo_length {b b' : Block} {buf d : List Byte} (h : b.syncTo none buf = .ok (b', d)) : d.length = buf.length := by
  have h16 := b.size_pos
  unfold Block.syncTo at h
  split at h
  · cases h
  rename_i hl
  simp only at h
  have key : ∀ (b2 : Block) (x : List Byte), x.length = buf.length → (b2.header.toBytes ++ x.drop 16).length = buf.length := by
    intro b2 x hx
    rw [List.length_append, Header.toBytes_length, List.length_drop, hx]
    omega
  split at h
  · cases h
  rename_i buf' hb
  simp only [Except.ok.injEq, Prod.mk.injEq] at h
  rw [← h.2]
  apply key
  split at hb
  · split at hb
    · split at hb
      · cases hb
      · rename_i bs hbs
        cases hb
        have := metasToBytes_length hbs
        simp only [List.length_append, List.length_take, List.length_drop, this]
        omega
    · cases hb; rfl
  · cases hb; rfl

theorem blank_len (ref : Block) (s : Nat) (sl : Slot) :
    (blank ref s sl).data.length = sl.data.length ∧ (blank ref s sl).contentLen = sl.contentLen := by
  unfold blank
  simp only
  split
  · rename_i b d h
    refine ⟨?_, rfl⟩
    simp only
    rw [syncTo_length h, List.length_replicate]
  · simp

/-- What is counted for the expected number `s`. -/
def tick (dpb : Option Dpb) (st : Stats) (s : Nat) (ok : Bool) : Stats :=
  if s = 0 then (if ok then { st with metas := st.metas + 1 } else { st with parityFailed := st.parityFailed + 1 })
  else if isParityDpb s dpb then (if ok then { st with parities := st.parities + 1 } else { st with parityFailed := st.parityFailed + 1 })
  else if ok then { st with datas := st.datas + 1 } else { st with dataFailed := st.dataFailed + 1 }

/-- The data slot of one iteration. -/
theorem dataSlot_iter {ref : Block} {dpb : Option Dpb} {act : OutSt → Act OutSt} {step : Stats → Nat → Stats} {I : Nat → OutSt → Prop}
    {Done : Nat → Stats → Prop} {N k : Nat} (hN : k + 1 ≤ N) {r r1 : OutSt} {g : Slot → OutSt × Slot × Bool × Bool} {s : Nat} {ok last : Bool} {F : Slot → Slot}
    (hact : act r = .slot g)
    (hg : ∀ sl : Slot, sl.Fresh (cfg ref dpb false) → g sl = dataSlot ref s ok last r1 (F sl) ∧
      (F sl).data.length = ref.header.version.blockSize ∧ (F sl).contentLen = none)
    {st : Stats} (hst : st = if ok then { r1.stats with datas := r1.stats.datas + 1 } else { r1.stats with dataFailed := r1.stats.dataFailed + 1 })
    (hstep : step r.stats k = st)
    (hnext : last = false → isLast ref st = false → I (k + 1) { r1 with stats := st, next := r1.next + 1 })
    (hdone : isLast ref st = true → Done (k + 1) st) (hlast : last = true → Done (k + 1) st) : Iter ref dpb act step I Done N k r := by
  have hF : ∀ sl : Slot, sl.Fresh (cfg ref dpb false) → (if ok then F sl else blank ref s (F sl)).data.length = ref.header.version.blockSize ∧
      (if ok then F sl else blank ref s (F sl)).contentLen = none := by
    intro sl hf
    obtain ⟨-, h2, h3⟩ := hg sl hf
    cases ok with
    | true => exact ⟨h2, h3⟩
    | false =>
      simp only [Bool.false_eq_true, if_false]
      rw [(blank_len ref s (F sl)).1, (blank_len ref s (F sl)).2]
      exact ⟨h2, h3⟩
  by_cases hil : isLast ref st = true
  · refine .count g { r1 with stats := st } (fun sl => { (if ok then F sl else blank ref s (F sl)) with contentLen := lastDataSize ref }) false false
      hact (fun sl hf => ⟨?_, (hF sl hf).1, fun _ => hashPart_ok (lastDataSize_ok ref)⟩) hN hstep.symm (by simp) fun _ => hdone hil
    rw [(hg sl hf).1]
    unfold dataSlot
    simp only [← hst, hil, if_true]
  · simp only [Bool.not_eq_true] at hil
    cases hl : last with
    | true =>
      refine .count g { r1 with stats := st } (fun sl => if ok then F sl else blank ref s (F sl)) false false
        hact (fun sl hf => ⟨?_, (hF sl hf).1, fun _ => hashPart_ok fun n hn => ?_⟩) hN hstep.symm (by simp) fun _ => hlast hl
      · rw [(hg sl hf).1]
        unfold dataSlot
        simp only [← hst, hil, hl, if_true, Bool.false_eq_true, if_false]
      · rw [(hF sl hf).2] at hn; cases hn
    | false =>
      refine .count g { r1 with stats := st, next := r1.next + 1 } (fun sl => if ok then F sl else blank ref s (F sl)) false true
        hact (fun sl hf => ⟨?_, (hF sl hf).1, fun _ => hashPart_ok fun n hn => ?_⟩) hN hstep.symm (fun _ => hnext hl hil) (by simp)
      · rw [(hg sl hf).1]
        unfold dataSlot
        simp only [← hst, hil, hl, Bool.false_eq_true, if_false]
      · rw [(hF sl hf).2] at hn; cases hn

/-- The slot of a block that is not stored. -/
theorem dropSlot_iter {ref : Block} {dpb : Option Dpb} {act : OutSt → Act OutSt} {step : Stats → Nat → Stats} {I : Nat → OutSt → Prop}
    {Done : Nat → Stats → Prop} {N k : Nat} (hN : k + 1 ≤ N) {r r1 : OutSt} {g : Slot → OutSt × Slot × Bool × Bool} {last : Bool} {F : Slot → Slot} {st : Stats}
    (hact : act r = .slot g)
    (hg : ∀ sl : Slot, sl.Fresh (cfg ref dpb false) → g sl = dropSlot st last r1 (F sl) ∧
      (F sl).data.length = ref.header.version.blockSize)
    (hstep : step r.stats k = st)
    (hnext : last = false → I (k + 1) { r1 with stats := st, next := r1.next + 1 })
    (hlast : last = true → Done (k + 1) st) : Iter ref dpb act step I Done N k r := by
  cases hl : last with
  | true =>
    refine .count g { r1 with stats := st } F true false hact (fun sl hf => ⟨?_, (hg sl hf).2, by simp⟩) hN hstep.symm (by simp) fun _ => hlast hl
    rw [(hg sl hf).1]; unfold dropSlot; simp [hl]
  | false =>
    refine .count g { r1 with stats := st, next := r1.next + 1 } F true true hact (fun sl hf => ⟨?_, (hg sl hf).2, by simp⟩) hN hstep.symm
      (fun _ => hnext hl) (by simp)
    rw [(hg sl hf).1]; unfold dropSlot; simp [hl]

theorem expect_any {ref : Block} {f : File} {k s : Nat} {c : LotCfg} (hv : c.version = ref.header.version) {sl : Slot} (hf : sl.Fresh c) :
    (expect f (k * ref.header.version.blockSize) ref s sl).2.2 = (atPlace ref f k s).isSome ∧
    ((expect f (k * ref.header.version.blockSize) ref s sl).2.1 = true ↔ (k + 1) * blockLen ref.header.version ≤ f.length) := by
  cases h : atPlace ref f k s with
  | none =>
    obtain ⟨h1, -, -, h4⟩ := expect_none h hv hf
    exact ⟨h1, h4⟩
  | some p =>
    rw [expect_some h hv hf]
    have h1 := isBlock_length (atPlace_some.1 h).2
    unfold piece at h1
    rw [File.readAt_length] at h1
    refine ⟨rfl, ?_⟩
    simp only [true_iff]
    rw [Nat.succ_mul]
    have := blockLen_pos ref.header.version
    omega

/-! ### The burst error resistant pattern -/

/-- The reader of the burst error resistant pattern ends for one of these reasons. -/
def BurstDone (stop : Nat → Bool) (ref : Block) (k : Nat) (st : Stats) : Prop :=
  (∀ i, stop i = false) → k = lastSeqNum ∨ totalChunks ref = some (st.datas + st.dataFailed)

theorem isLast_total {ref : Block} {st : Stats} (h : isLast ref st = true) : totalChunks ref = some (st.datas + st.dataFailed) := by
  unfold isLast at h
  split at h
  · cases h
  · rename_i n hn
    rw [hn]; simp at h; rw [h]

theorem burst_iter (stop : Nat → Bool) (f : File) (ref : Block) (d : Dpb) :
    ∀ k r, (r.next = 1 + k ∧ k < lastSeqNum) → k ≤ lastSeqNum ∧
      Iter ref (some d) (burstAct stop f ref d)
        (fun st k => tick (some d) st (1 + k) (atPlace ref f (dataWriteIndex (1 + k) none (some d)) (1 + k)).isSome)
        (fun k r => r.next = 1 + k ∧ k < lastSeqNum) (BurstDone stop ref) lastSeqNum k r := by
  rintro k r ⟨hk, hlt⟩
  refine ⟨by omega, ?_⟩
  by_cases hs : stop r.checks = true
  · refine .halt r (by simp [burstAct, hs]) rfl ?_
    intro h; rw [h] at hs; cases hs
  simp only [Bool.not_eq_true] at hs
  have hact : burstAct stop f ref d r = .slot fun s =>
      match expect f (dataWriteIndex (1 + k) none (some d) * ref.header.version.blockSize) ref (1 + k) s with
      | (s, _, ok) =>
        let r := { r with checks := r.checks + 1 }
        if isParityDpb (1 + k) (some d) then
          dropSlot (if ok then { r.stats with parities := r.stats.parities + 1 }
            else { r.stats with parityFailed := r.stats.parityFailed + 1 }) (r.next == lastSeqNum) r s
        else dataSlot ref (1 + k) ok (r.next == lastSeqNum) r s := by
    unfold burstAct
    rw [hs, hk]
    rfl
  have hends : (r.next == lastSeqNum) = true → ∀ st, BurstDone stop ref (k + 1) st := by
    intro h st _
    left
    simp only [beq_iff_eq] at h
    omega
  have hgoes : (r.next == lastSeqNum) = false → k + 1 < lastSeqNum := by
    intro h
    simp only [beq_eq_false_iff_ne] at h
    omega
  have hnz : ¬ (1 + k = 0) := by omega
  by_cases hp : isParityDpb (1 + k) (some d) = true
  · refine dropSlot_iter (by omega) (r1 := { r with checks := r.checks + 1 }) (last := r.next == lastSeqNum)
      (F := fun sl => (expect f (dataWriteIndex (1 + k) none (some d) * ref.header.version.blockSize) ref (1 + k) sl).1)
      (st := if (atPlace ref f (dataWriteIndex (1 + k) none (some d)) (1 + k)).isSome then { r.stats with parities := r.stats.parities + 1 }
            else { r.stats with parityFailed := r.stats.parityFailed + 1 })
      hact ?_ ?_ (fun h => ⟨by simp only [hk]; omega, hgoes h⟩) (fun h => hends h _)
    · intro sl hf
      refine ⟨?_, expect_len (c := cfg ref (some d) false) rfl hf⟩
      simp only [hp, if_true]
      rw [← (expect_any (c := cfg ref (some d) false) rfl hf).1]
    · simp only [tick, hnz, hp, if_true, if_false]
  · simp only [Bool.not_eq_true] at hp
    refine dataSlot_iter (by omega) (r1 := { r with checks := r.checks + 1 }) (last := r.next == lastSeqNum) (s := 1 + k)
      (ok := (atPlace ref f (dataWriteIndex (1 + k) none (some d)) (1 + k)).isSome)
      (F := fun sl => (expect f (dataWriteIndex (1 + k) none (some d) * ref.header.version.blockSize) ref (1 + k) sl).1)
      hact ?_ rfl ?_ (fun h _ => ⟨by simp only [hk]; omega, hgoes h⟩) (fun h _ => .inr (isLast_total h)) (fun h => hends h _)
    · intro sl hf
      refine ⟨?_, expect_len (c := cfg ref (some d) false) rfl hf, expect_content hf⟩
      simp only [hp, Bool.false_eq_true, if_false]
      rw [← (expect_any (c := cfg ref (some d) false) rfl hf).1]
    · simp only [tick, hnz, hp, Bool.false_eq_true, if_false]

/-! ### The sequential pattern -/

theorem readAt_drop (f : File) (a b n : Nat) : File.readAt f (a + b) n = File.readAt (f.drop a) b n := by
  unfold File.readAt
  rw [List.drop_drop]

theorem expect_drop (f : File) (a b : Nat) (ref : Block) (s : Nat) (sl : Slot) :
    expect f (a + b) ref s sl = expect (f.drop a) b ref s sl := by
  unfold expect
  rw [readAt_drop]

/-- The reader of the sequential pattern ends for one of these reasons. -/
def SeqDone (stop : Nat → Bool) (ref : Block) (start total : Nat) (k : Nat) (st : Stats) : Prop :=
  (∀ i, stop i = false) → k = total ∨ totalChunks ref = some (st.datas + st.dataFailed) ∨ start + k = 2 ^ 64

theorem places_whole {ref : Block} {f : File} {a required k : Nat} (hreq : k * blockLen ref.header.version < required) :
    k < places ref f a required ↔ (k + 1) * blockLen ref.header.version ≤ (f.drop a).length := by
  have hL := blockLen_pos ref.header.version
  unfold places
  rw [Nat.lt_min, List.length_drop, ← Nat.succ_le_iff (m := k) (n := (f.length - a) / _), Nat.le_div_iff_mul_le hL]
  have : k < ceilDiv required (blockLen ref.header.version) := by
    by_contra hc
    have := (Encode.ceilDiv_le_iff (r := required) (k := k) hL).1 (by omega)
    omega
  exact ⟨fun h => h.2, fun h => ⟨this, h⟩⟩

theorem seq_iter (stop : Nat → Bool) (f : File) (a required : Nat) (ref : Block) (dpb : Option Dpb) (start : Nat) :
    ∀ k r, (r.next = start + k ∧ r.processed = k * blockLen ref.header.version ∧ k ≤ places ref f a required) →
      k ≤ places ref f a required ∧
      Iter ref dpb (seqAct stop f a required ref dpb)
        (fun st k => tick dpb st (seqAtIndex (start + k) (some true) dpb)
          (atPlace ref (f.drop a) k (seqAtIndex (start + k) (some true) dpb)).isSome)
        (fun k r => r.next = start + k ∧ r.processed = k * blockLen ref.header.version ∧ k ≤ places ref f a required)
        (SeqDone stop ref start (places ref f a required)) (places ref f a required) k r := by
  rintro k r ⟨hk, hpr, hle⟩
  refine ⟨hle, ?_⟩
  have hL := blockLen_pos ref.header.version
  by_cases hs : stop r.checks = true
  · refine .halt r (by simp [seqAct, hs]) rfl ?_
    intro h; rw [h] at hs; cases hs
  simp only [Bool.not_eq_true] at hs
  by_cases hreq : required ≤ r.processed
  · refine .halt r (by simp [seqAct, hs, hreq]) rfl fun _ => .inl ?_
    rw [hpr] at hreq
    have := (Encode.ceilDiv_le_iff (r := required) hL).2 hreq
    unfold places at hle ⊢
    omega
  have hreq' : k * blockLen ref.header.version < required := by omega
  set s := seqAtIndex (start + k) (some true) dpb with hsdef
  set ok := (atPlace ref (f.drop a) k s).isSome with hok
  have hex : ∀ sl, expect f (a + r.processed) ref s sl = expect (f.drop a) (k * ref.header.version.blockSize) ref s sl := by
    intro sl; rw [expect_drop, hpr, blockLen_eq]
  set g : Slot → OutSt × Slot × Bool × Bool := fun sl =>
    match expect f (a + r.processed) ref s sl with
    | (s', whole, ok) =>
      let r := { r with
        checks := r.checks + 1
        processed := r.processed + (f.readAt (a + r.processed) sl.data.length).length }
      if !whole then (r, s', false, false)
      else if s = 0 then
        dropSlot (if ok then { r.stats with metas := r.stats.metas + 1 }
          else { r.stats with parityFailed := r.stats.parityFailed + 1 }) (r.next == 2 ^ 64 - 1) r s'
      else if isParityDpb s dpb then
        dropSlot (if ok then { r.stats with parities := r.stats.parities + 1 }
          else { r.stats with parityFailed := r.stats.parityFailed + 1 }) (r.next == 2 ^ 64 - 1) r s'
      else dataSlot ref s ok (r.next == 2 ^ 64 - 1) r s' with hg
  have hact : seqAct stop f a required ref dpb r = .slot g := by
    unfold seqAct
    rw [hs, if_neg (by simp), if_neg hreq, hk, ← hsdef, hg, hk]
  set r1 : OutSt := { r with
    checks := r.checks + 1
    processed := r.processed + (f.readAt (a + r.processed) (blockLen ref.header.version)).length } with hr1
  set F : Slot → Slot := fun sl => (expect (f.drop a) (k * ref.header.version.blockSize) ref s sl).1 with hF
  have hgF : ∀ sl : Slot, sl.Fresh (cfg ref dpb false) → g sl =
      if (k + 1) * blockLen ref.header.version ≤ (f.drop a).length then
        if s = 0 then
          dropSlot (if ok then { r1.stats with metas := r1.stats.metas + 1 }
            else { r1.stats with parityFailed := r1.stats.parityFailed + 1 }) (r.next == 2 ^ 64 - 1) r1 (F sl)
        else if isParityDpb s dpb then
          dropSlot (if ok then { r1.stats with parities := r1.stats.parities + 1 }
            else { r1.stats with parityFailed := r1.stats.parityFailed + 1 }) (r.next == 2 ^ 64 - 1) r1 (F sl)
        else dataSlot ref s ok (r.next == 2 ^ 64 - 1) r1 (F sl)
      else (r1, F sl, false, false) := by
    intro sl hf
    obtain ⟨e1, e2⟩ := expect_any (ref := ref) (f := f.drop a) (k := k) (s := s) (c := cfg ref dpb false) rfl hf
    have hlen : sl.data.length = blockLen ref.header.version := by rw [hf.len, blockLen_eq]; rfl
    rw [hg, hF]
    simp only [hex]
    rw [hlen]
    rcases hexp : expect (f.drop a) (k * ref.header.version.blockSize) ref s sl with ⟨s', w, o⟩
    rw [hexp] at e1 e2
    simp only at e1 e2
    subst e1
    by_cases hw : (k + 1) * blockLen ref.header.version ≤ (f.drop a).length
    · rw [if_pos hw, e2.2 hw]; rfl
    · rw [if_neg hw]
      have : w = false := by
        rcases Bool.eq_false_or_eq_true w with h | h
        · exact absurd (e2.1 h) hw
        · exact h
      rw [this]; rfl
  have hFl : ∀ sl : Slot, sl.Fresh (cfg ref dpb false) → (F sl).data.length = ref.header.version.blockSize ∧ (F sl).contentLen = none :=
    fun sl hf => ⟨expect_len (c := cfg ref dpb false) rfl hf, expect_content hf⟩
  by_cases hw : (k + 1) * blockLen ref.header.version ≤ (f.drop a).length
  · have hkp : k < places ref f a required := (places_whole hreq').2 hw
    have hproc : r1.processed = (k + 1) * blockLen ref.header.version := by
      rw [hr1]
      simp only
      rw [readAt_drop, File.readAt_length, hpr]
      rw [Nat.succ_mul] at hw ⊢
      omega
    have hends : (r.next == 2 ^ 64 - 1) = true → ∀ st, SeqDone stop ref start (places ref f a required) (k + 1) st := by
      intro h st _
      right; right
      simp only [beq_iff_eq] at h
      omega
    have hI : ∀ st, (r.next == 2 ^ 64 - 1) = false → ({ r1 with stats := st, next := r1.next + 1 } : OutSt).next = start + (k + 1) ∧
        ({ r1 with stats := st, next := r1.next + 1 } : OutSt).processed = (k + 1) * blockLen ref.header.version ∧
        k + 1 ≤ places ref f a required := by
      intro st _
      refine ⟨?_, hproc, hkp⟩
      change r.next + 1 = _
      omega
    by_cases h0 : s = 0
    · refine dropSlot_iter hkp (r1 := r1) (last := r.next == 2 ^ 64 - 1) (F := F)
        (st := if ok then { r.stats with metas := r.stats.metas + 1 } else { r.stats with parityFailed := r.stats.parityFailed + 1 })
        hact ?_ ?_ (hI _) (fun h => hends h _)
      · intro sl hf
        refine ⟨?_, (hFl sl hf).1⟩
        rw [hgF sl hf, if_pos hw, if_pos h0]
      · simp only [tick, ← hsdef, ← hok, if_pos h0]
    · by_cases hp : isParityDpb s dpb = true
      · refine dropSlot_iter hkp (r1 := r1) (last := r.next == 2 ^ 64 - 1) (F := F)
          (st := if ok then { r.stats with parities := r.stats.parities + 1 } else { r.stats with parityFailed := r.stats.parityFailed + 1 })
          hact ?_ ?_ (hI _) (fun h => hends h _)
        · intro sl hf
          refine ⟨?_, (hFl sl hf).1⟩
          rw [hgF sl hf, if_pos hw, if_neg h0, if_pos hp]
        · simp only [tick, ← hsdef, ← hok, if_neg h0, if_pos hp]
      · refine dataSlot_iter hkp (r1 := r1) (last := r.next == 2 ^ 64 - 1) (F := F) (s := s) (ok := ok) hact ?_ rfl ?_
          (fun h _ => hI _ h) (fun h _ => .inr (.inl (isLast_total h))) (fun h => hends h _)
        · intro sl hf
          refine ⟨?_, hFl sl hf⟩
          rw [hgF sl hf, if_pos hw, if_neg h0, if_neg hp]
        · simp only [tick, ← hsdef, ← hok, if_neg h0, if_neg hp, hr1]
  · refine .short g r1 F hact (fun sl hf => ⟨?_, (hFl sl hf).1, hashPart_ok fun n hn => ?_⟩) rfl fun _ => .inl ?_
    · rw [hgF sl hf, if_neg hw]
    · rw [(hFl sl hf).2] at hn; cases hn
    · have : ¬ k < places ref f a required := fun h => hw ((places_whole hreq').1 h)
      omega

/-! ### Counting -/

theorem ticks_count (dpb : Option Dpb) (num : Nat → Nat) (ok : Nat → Bool) : ∀ (l : List Nat) (st : Stats),
    let e := l.foldl (fun st k => tick dpb st (num k) (ok k)) st
    e.metas = st.metas + l.countP (fun k => num k == 0 && ok k) ∧
    e.metaFailed = st.metaFailed ∧ e.failed = st.failed ∧
    e.datas = st.datas + l.countP (fun k => num k != 0 && !isParityDpb (num k) dpb && ok k) ∧
    e.dataFailed = st.dataFailed + l.countP (fun k => num k != 0 && !isParityDpb (num k) dpb && !ok k) ∧
    e.parities = st.parities + l.countP (fun k => num k != 0 && isParityDpb (num k) dpb && ok k) ∧
    e.parityFailed = st.parityFailed + l.countP (fun k => (num k == 0 || isParityDpb (num k) dpb) && !ok k) := by
  intro l
  induction l with
  | nil => intro st; simp
  | cons k l ih =>
    intro st
    simp only [List.foldl_cons]
    have := ih (tick dpb st (num k) (ok k))
    simp only at this
    obtain ⟨i1, i2, i3, i4, i5, i6, i7⟩ := this
    rw [i1, i2, i3, i4, i5, i6, i7]
    simp only [List.countP_cons]
    unfold tick
    by_cases h0 : num k = 0 <;> cases hp : isParityDpb (num k) dpb <;> cases ho : ok k <;>
      simp [h0] <;> omega

/-- The pass over the metadata places, interrupted or not. -/
theorem metaPass_any (stop : Nat → Bool) (f : File) (ref : Block) :
    ∀ (l : List Nat) (k : Nat) (b : Block) (st : Stats), ∃ a ≤ l.length, ((∀ i, stop i = false) → a = l.length) ∧
      metaPass stop f ref l k b st = (k + a, { st with
        metas := st.metas + (l.take a).countP fun pos => (blockAt ref f pos).isSome
        metaFailed := st.metaFailed + (l.take a).countP fun pos => (blockAt ref f pos).isNone }) := by
  intro l
  induction l with
  | nil => intro k b st; exact ⟨0, Nat.le_refl _, fun _ => rfl, rfl⟩
  | cons pos rest ih =>
    intro k b st
    by_cases hs : stop k = true
    · refine ⟨0, Nat.zero_le _, fun h => (by rw [h] at hs; cases hs), ?_⟩
      unfold metaPass
      rw [if_pos hs]
      rfl
    have hone := metaPass_spec (fun _ => false) (fun _ => rfl) f ref [pos] k b st
    unfold metaPass at hone ⊢
    rw [if_neg hs]
    rw [if_neg (by simp)] at hone
    simp only at hone ⊢
    have hend : ∀ b' st', metaPass (fun _ => false) f ref [] (k + 1) b' st' = (k + 1, st') := fun _ _ => rfl
    have hgo : ∀ (b' : Block) (st' : Stats), (k + 1, st') = (k + [pos].length, ({ st with
        metas := st.metas + [pos].countP fun pos => (blockAt ref f pos).isSome
        metaFailed := st.metaFailed + [pos].countP fun pos => (blockAt ref f pos).isNone } : Stats)) →
        ∃ a ≤ (pos :: rest).length, ((∀ i, stop i = false) → a = (pos :: rest).length) ∧
          metaPass stop f ref rest (k + 1) b' st' = (k + a, { st with
            metas := st.metas + ((pos :: rest).take a).countP fun pos => (blockAt ref f pos).isSome
            metaFailed := st.metaFailed + ((pos :: rest).take a).countP fun pos => (blockAt ref f pos).isNone }) := by
      intro b' st' he
      obtain ⟨a, h1, h2, h3⟩ := ih (k + 1) b' st'
      refine ⟨a + 1, by simp; omega, fun h => by rw [h2 h]; rfl, ?_⟩
      rw [h3]
      simp only [Prod.mk.injEq] at he
      rw [he.2]
      simp only [List.take_succ_cons, List.countP_cons, List.countP_nil]
      simp only [Prod.mk.injEq, Stats.mk.injEq, true_and, and_true]
      omega
    split at hone
    · rw [hend] at hone
      rename_i hlt
      rw [if_pos hlt]
      exact hgo _ _ hone
    · rename_i hlt
      rw [if_neg hlt]
      split at hone
      · rename_i b' hb
        rw [hend] at hone
        exact hgo _ _ hone
      · rename_i b' e hb
        rw [hend] at hone
        exact hgo _ _ hone

end Verif.Decode
