import Verif.Lemmas.DecodeStats
import Verif.Props.Decode
import Verif.Props.Sizes
import Verif.Spec.Check
/-!
# C38 for `decode`
-/

namespace Verif.Decode
open Format Scan ScanSpec BlockRing Layout LayoutSpec DecodeSpec RepairSpec StdoutSpec Expect CheckSpec

/-! ### Decoding to a file -/

theorem toNat_ne_zero {s : UInt32} (h : s ≠ 0) : s.toNat ≠ 0 := by
  intro h0
  apply h
  rw [← UInt32.toNat_inj, h0]; rfl

open Classical in
theorem countAt_spec (dpb : Option Dpb) (ref : Block) (f : File) (start k : Nat) (st : Stats) :
    let v := ref.header.version
    let uid := ref.header.uid
    countAt dpb st (look ref f start k) = { st with
      metas := st.metas + if IsMeta v uid (placeBytes v f start k) then 1 else 0
      datas := st.datas + if IsDataBlock v uid dpb (placeBytes v f start k) then 1 else 0
      parities := st.parities + if IsParityBlock v uid dpb (placeBytes v f start k) then 1 else 0
      failed := st.failed + if ∀ s, ¬ IsNumber v uid s (placeBytes v f start k) then 1 else 0 } := by
  simp only
  set v := ref.header.version with hv
  set uid := ref.header.uid with hu
  cases hl : look ref f start k with
  | none =>
    have hno : ∀ (seq : UInt32) p, ¬ IsBlock (placeBytes v f start k) v uid seq p := by
      intro seq p hb
      have : look ref f start k = some (seq.toNat, p) := by
        rw [look_some]
        refine ⟨UInt32.toNat_lt _, ?_⟩
        simp only [UInt32.ofNat_toNat]
        exact hb
      rw [hl] at this; cases this
    have h1 : ¬ IsMeta v uid (placeBytes v f start k) := fun ⟨p, h⟩ => hno _ _ h
    have h2 : ¬ IsDataBlock v uid dpb (placeBytes v f start k) := fun ⟨_, p, _, h⟩ => hno _ _ h
    have h3 : ¬ IsParityBlock v uid dpb (placeBytes v f start k) := fun ⟨_, p, _, _, h⟩ => hno _ _ h
    have h4 : ∀ s, ¬ IsNumber v uid s (placeBytes v f start k) := fun s ⟨_, p, _, h⟩ => hno _ _ h
    rw [if_neg h1, if_neg h2, if_neg h3, if_pos h4]
    rfl
  | some x =>
    obtain ⟨h0, hb⟩ := look_some.1 hl
    change IsBlock (placeBytes v f start k) v uid _ _ at hb
    have huniq : ∀ (seq : UInt32) p, IsBlock (placeBytes v f start k) v uid seq p → seq.toNat = x.1 := by
      intro seq p h
      have := (hb.unique h).2.2.1
      rw [← this]
      exact ofNat_toNat32 h0
    have h4 : ¬ ∀ s, ¬ IsNumber v uid s (placeBytes v f start k) := fun h => h x.1 ⟨_, _, ofNat_toNat32 h0, hb⟩
    rw [if_neg h4]
    simp only [countAt]
    by_cases hz : x.1 = 0
    · have h1 : IsMeta v uid (placeBytes v f start k) := ⟨x.2, by rw [hz] at hb; exact hb⟩
      have h2 : ¬ IsDataBlock v uid dpb (placeBytes v f start k) := by
        rintro ⟨seq, p, h, hb'⟩
        rw [huniq seq p hb', hz, chunkOf_zero] at h
        exact h rfl
      have h3 : ¬ IsParityBlock v uid dpb (placeBytes v f start k) := by
        rintro ⟨seq, p, h, -, hb'⟩
        exact toNat_ne_zero h ((huniq seq p hb').trans hz)
      rw [if_pos h1, if_neg h2, if_neg h3, if_pos hz]
      rfl
    · have h1 : ¬ IsMeta v uid (placeBytes v f start k) := by
        rintro ⟨p, hb'⟩
        exact hz (huniq 0 p hb').symm
      rw [if_neg h1, if_neg hz]
      by_cases hp : isParityDpb x.1 dpb = true
      · have hc := (isParity_iff (by omega)).1 hp
        have h2 : ¬ IsDataBlock v uid dpb (placeBytes v f start k) := by
          rintro ⟨seq, p, h, hb'⟩
          rw [huniq seq p hb', hc] at h
          exact h rfl
        have h3 : IsParityBlock v uid dpb (placeBytes v f start k) := by
          refine ⟨_, _, ?_, ?_, hb⟩
          · intro h
            apply hz
            rw [← ofNat_toNat32 h0, h]; rfl
          · rw [ofNat_toNat32 h0, hc]
        rw [if_neg h2, if_pos h3, if_pos hp]
        rfl
      · have hc : chunkOf dpb x.1 ≠ none := fun h => hp ((isParity_iff (by omega)).2 h)
        have h2 : IsDataBlock v uid dpb (placeBytes v f start k) := ⟨_, _, by rw [ofNat_toNat32 h0]; exact hc, hb⟩
        have h3 : ¬ IsParityBlock v uid dpb (placeBytes v f start k) := by
          rintro ⟨seq, p, -, h, hb'⟩
          rw [huniq seq p hb'] at h
          exact hc h
        rw [if_pos h2, if_neg h3, if_neg hp]
        rfl

open Classical in
theorem countAt_fold (dpb : Option Dpb) (ref : Block) (f : File) (start : Nat) : ∀ (l : List Nat) (st : Stats),
    let v := ref.header.version
    let uid := ref.header.uid
    (l.map (look ref f start)).foldl (countAt dpb) st = { st with
      metas := st.metas + l.countP fun k => decide (IsMeta v uid (placeBytes v f start k))
      datas := st.datas + l.countP fun k => decide (IsDataBlock v uid dpb (placeBytes v f start k))
      parities := st.parities + l.countP fun k => decide (IsParityBlock v uid dpb (placeBytes v f start k))
      failed := st.failed + l.countP fun k => decide (∀ s, ¬ IsNumber v uid s (placeBytes v f start k)) } := by
  intro l
  induction l with
  | nil => intro st; rfl
  | cons k l ih =>
    intro st
    simp only at ih ⊢
    rw [List.map_cons, List.foldl_cons, ih, countAt_spec]
    simp only [List.countP_cons, decide_eq_true_eq]
    congr 1 <;> omega

theorem countAt_sum (dpb : Option Dpb) : ∀ (l : List (Option (Nat × List Byte))) (st : Stats),
    let e := l.foldl (countAt dpb) st
    e.metas + e.datas + e.parities + e.failed = st.metas + st.datas + st.parities + st.failed + l.length := by
  intro l
  induction l with
  | nil => intro st; rfl
  | cons x l ih =>
    intro st
    simp only [List.foldl_cons, List.length_cons] at ih ⊢
    rw [ih]
    cases x with
    | none => simp only [countAt]; omega
    | some x => simp only [countAt]; split <;> [skip; split] <;> simp only <;> omega

/-- **C38, decode to a file.** In every run, interrupted or not: a number `m` of places was looked at (all of them if there was no
Ctrl-C); the counters are the numbers of metadata, data and parity blocks and of places without a block of the container, so each
place is counted exactly once. -/
theorem C38_decode_file (E : Env) (hE : 0 < E.lotCount) (p : Param) (f old out : File) (R : Report)
    (h : toFile E p f old = .ok (out, R)) :
    ∃ pos ref dpb m, getRefBlockM p.ref p.ref.refChoice f E.stopRef (E.stop 0) = .ok (pos, ref) ∧
      dataParBurst p.ref true f ref = .ok dpb ∧
      (let v := ref.header.version
       let uid := ref.header.uid
       let start := (rangeOf p.ref ref f).seekTo
       let required := (rangeOf p.ref ref f).requiredLen
       m ≤ places ref f start required ∧ ((∀ i, E.stop i = false) → m = places ref f start required) ∧
       R.stats.metas = countPlaces v f start m (IsMeta v uid) ∧
       R.stats.datas = countPlaces v f start m (IsDataBlock v uid dpb) ∧
       R.stats.parities = countPlaces v f start m (IsParityBlock v uid dpb) ∧
       R.stats.failed = countPlaces v f start m (fun bs => ∀ s, ¬ IsNumber v uid s bs) ∧
       R.stats.metas + R.stats.datas + R.stats.parities + R.stats.failed = m) := by
  unfold toFile at h
  cases hr : getRefBlockM p.ref p.ref.refChoice f E.stopRef (E.stop 0) with
  | error e => rw [hr] at h; cases h
  | ok x =>
    obtain ⟨pos, ref⟩ := x
    rw [hr] at h
    simp only at h
    cases hd : dataParBurst p.ref true f ref with
    | error e =>
      have : decodeFile E p ref f old = .error e := by unfold decodeFile; rw [hd]
      rw [this] at h; cases h
    | ok dpb =>
      obtain ⟨m, h1, h2, h3⟩ := decodeFile_spec E hE p ref f old dpb hd
      rw [h3] at h
      simp only [Except.ok.injEq, Prod.mk.injEq] at h
      obtain ⟨-, rfl⟩ := h
      refine ⟨pos, ref, dpb, m, rfl, hd, h1, h2, ?_⟩
      have e := countAt_fold dpb ref f (rangeOf p.ref ref f).seekTo (List.range m) Stats.zero
      have e2 := countAt_sum dpb ((List.range m).map (look ref f (rangeOf p.ref ref f).seekTo)) Stats.zero
      simp only at e e2 ⊢
      rw [List.length_map, List.length_range] at e2
      refine ⟨?_, ?_, ?_, ?_, by rw [e2]; simp [Stats.zero]⟩ <;> rw [e] <;> simp [countPlaces, Stats.zero]

/-! ### Decoding to standard output -/

theorem isNumber_iff {ref : Block} {f : File} {k s : Nat} :
    (atPlace ref f k s).isSome = true ↔ IsNumber ref.header.version ref.header.uid s (placeBytes ref.header.version f 0 k) := by
  rw [Option.isSome_iff_exists]
  unfold IsNumber placeBytes
  rw [Nat.zero_add]
  constructor
  · rintro ⟨p, h⟩
    obtain ⟨h0, h1⟩ := atPlace_some.1 h
    exact ⟨_, p, ofNat_toNat32 h0, h1⟩
  · rintro ⟨seq, p, rfl, h⟩
    exact ⟨p, atPlace_some.2 ⟨UInt32.toNat_lt _, by rw [UInt32.ofNat_toNat]; exact h⟩⟩

theorem placeBytes_drop (v : Version) (f : File) (a k : Nat) : placeBytes v (f.drop a) 0 k = placeBytes v f a k := by
  unfold placeBytes
  rw [Nat.zero_add, readAt_drop]

open Classical in
theorem count_iff {n : Nat} {P : Nat → Bool} {Q : Nat → Prop} (h : ∀ k < n, P k = true ↔ Q k) : (List.range n).countP P = countBelow n Q := by
  unfold countBelow
  apply List.countP_congr
  intro k hk
  simp [h k (List.mem_range.1 hk)]

theorem totalChunks_some {ref : Block} {n : Nat} :
    totalChunks ref = some n ↔ ∃ size, refFsz ref = some size ∧ n = ceilDiv size ref.header.version.dataSize := by
  unfold totalChunks
  rw [Option.map_eq_some_iff]
  constructor
  · rintro ⟨s, h1, rfl⟩; exact ⟨s, h1, (C16_counts _ none none (by intro d h; cases h) s).2.2⟩
  · rintro ⟨s, h1, rfl⟩; exact ⟨s, h1, (C16_counts _ none none (by intro d h; cases h) s).2.2⟩

theorem decodeStdout_ok {E : Env} {p : Param} {f : File} {out : List Byte} {R : Report} (h : toStdout E p f = .ok (out, R)) {pos : Nat}
    {ref : Block} (hr : getRefBlockM p.ref p.ref.refChoice f E.stopRef (E.stop 0) = .ok (pos, ref)) {dpb : Option Dpb}
    (hd : dataParBurst p.ref true f ref = .ok dpb) :
    ∃ st hs, outThreads E p ref f dpb (midThread ref) (2 ^ 32 + f.length + 3) = some (st, hs, out) ∧ R.stats = st.stats := by
  unfold toStdout at h
  rw [hr] at h
  simp only at h
  unfold decodeStdout at h
  rw [hd] at h
  simp only at h
  cases ho : outThreads E p ref f dpb (midThread ref) (2 ^ 32 + f.length + 3) with
  | none => rw [ho] at h; cases h
  | some x =>
    obtain ⟨st, hs, out'⟩ := x
    rw [ho] at h
    simp only [Except.ok.injEq, Prod.mk.injEq] at h
    obtain ⟨rfl, rfl⟩ := h
    exact ⟨st, hs, rfl, rfl⟩

/-- **C38, decode to standard output, a container with Reed-Solomon and no `--from`/`--to`.** In every run, interrupted or not: the
first `a` metadata places and the places of the sequence numbers `1`, ..., `n` were looked at (all metadata places, and the numbers up to the last chunk
according to the recorded size if there was no Ctrl-C).  The counters of data and parity blocks are exact: how many of these numbers belong to data
(parity) blocks and have (have not) the right block at their place.  At the metadata places *any* block of the container is
counted as a metadata block. -/
theorem C38_decode_stdout_burst (E : Env) (hE : 0 < E.lotCount) (p : Param) (f : File) (out : List Byte) (R : Report)
    (h : toStdout E p f = .ok (out, R)) (pos : Nat) (ref : Block)
    (hr : getRefBlockM p.ref p.ref.refChoice f E.stopRef (E.stop 0) = .ok (pos, ref)) (d : Dpb)
    (hd : dataParBurst p.ref true f ref = .ok (some d)) (hf : p.ref.fromPos = none) (ht : p.ref.toPos = none) :
    ∃ a n, a ≤ 1 + d.parity ∧ n ≤ lastSeqNum ∧
      (let v := ref.header.version
       let uid := ref.header.uid
       let metaPlace := fun i => placeBytes v f 0 (i * (1 + d.burst))
       let place := fun s => placeBytes v f 0 (dataWriteIndex s none (some d))
       ((∀ i, E.stop i = false) → a = 1 + d.parity ∧
         (n = lastSeqNum ∨ ∃ size, refFsz ref = some size ∧ R.stats.datas + R.stats.dataFailed = ceilDiv size v.dataSize)) ∧
       R.stats.metas = countBelow a (fun i => ∃ s, IsNumber v uid s (metaPlace i)) ∧
       R.stats.metaFailed = countBelow a (fun i => ¬ ∃ s, IsNumber v uid s (metaPlace i)) ∧
       R.stats.datas = countBelow n (fun i => chunkOf (some d) (1 + i) ≠ none ∧ IsNumber v uid (1 + i) (place (1 + i))) ∧
       R.stats.dataFailed = countBelow n (fun i => chunkOf (some d) (1 + i) ≠ none ∧ ¬ IsNumber v uid (1 + i) (place (1 + i))) ∧
       R.stats.parities = countBelow n (fun i => chunkOf (some d) (1 + i) = none ∧ IsNumber v uid (1 + i) (place (1 + i))) ∧
       R.stats.parityFailed = countBelow n (fun i => chunkOf (some d) (1 + i) = none ∧ ¬ IsNumber v uid (1 + i) (place (1 + i))) ∧
       R.stats.failed = 0) := by
  obtain ⟨st, hs, ho, hst⟩ := decodeStdout_ok h hr hd
  unfold outThreads at ho
  rw [hf, ht] at ho
  simp only at ho
  obtain ⟨a, ha1, ha2, hm⟩ := metaPass_any E.stop f ref (metaAllPos ref.header.version (some d)) 0 Block.dummy Stats.zero
  have hall : metaAllPos ref.header.version (some d) = (List.range (1 + d.parity)).map fun i => i * (1 + d.burst) * blockLen ref.header.version := by
    rw [metaAllPos_eq, (C10_meta_positions d none).1]
    unfold metaCopies
    rw [List.map_map, blockLen_eq]
    rfl
  have hlen : (metaAllPos ref.header.version (some d)).length = 1 + d.parity := by rw [hall]; simp
  rw [hlen] at ha1 ha2
  rw [hm] at ho
  simp only at ho
  obtain ⟨n', fs, rF, m, g1, g2, g3, g4, g5, g6⟩ := any_runs (burst_iter E.stop f ref d) lastSeqNum 0 _ (by omega)
    (show (⟨1, 0, 0 + a, _⟩ : OutSt).next = 1 + 0 ∧ 0 < lastSeqNum from ⟨rfl, by decide⟩)
  obtain ⟨hs', out', e⟩ := threads_stats (fuel := 2 ^ 32 + f.length + 3) hE g2 (by unfold lastSeqNum at g1; omega) g6
  rw [e] at ho
  simp only [Option.some.injEq, Prod.mk.injEq] at ho
  obtain ⟨rfl, -, -⟩ := ho
  obtain ⟨i1, i2, i3, i4, i5, i6, i7⟩ := ticks_count (some d) (fun k => 1 + k)
    (fun k => (atPlace ref f (dataWriteIndex (1 + k) none (some d)) (1 + k)).isSome) (List.range' 0 m)
    ({ Stats.zero with
        metas := Stats.zero.metas + ((metaAllPos ref.header.version (some d)).take a).countP fun pos => (blockAt ref f pos).isSome
        metaFailed := Stats.zero.metaFailed + ((metaAllPos ref.header.version (some d)).take a).countP fun pos => (blockAt ref f pos).isNone })
  rw [← g3] at i1 i2 i3 i4 i5 i6 i7
  rw [← List.range_eq_range'] at i1 i4 i5 i6 i7
  rw [Nat.zero_add] at g4 g5
  have hblk : ∀ k, (blockAt ref f (k * blockLen ref.header.version)).isSome = true ↔
      ∃ s, IsNumber ref.header.version ref.header.uid s (placeBytes ref.header.version f 0 k) := by
    intro k
    rw [Option.isSome_iff_exists]
    unfold placeBytes
    rw [Nat.zero_add]
    constructor
    · rintro ⟨b, hb⟩
      obtain ⟨seq, pl, h1, -⟩ := blockAt_iff.1 hb
      exact ⟨seq.toNat, seq, pl, rfl, h1⟩
    · rintro ⟨s, seq, pl, -, h1⟩
      exact ⟨_, blockAt_iff.2 ⟨seq, pl, h1, rfl⟩⟩
  have htake : (metaAllPos ref.header.version (some d)).take a = (List.range a).map fun i => i * (1 + d.burst) * blockLen ref.header.version := by
    rw [hall, ← List.map_take, List.take_range, Nat.min_eq_left ha1]
  refine ⟨a, m, ha1, by unfold lastSeqNum at *; omega, ?_⟩
  simp only
  rw [hst]
  refine ⟨fun hc => ⟨ha2 hc, ?_⟩, ?_, ?_, ?_, ?_, ?_, ?_, ?_⟩
  · rcases g4 hc with g | g
    · exact .inl g
    · exact .inr (totalChunks_some.1 g)
  · have hz : (List.range m).countP (fun k => 1 + k == 0 && (atPlace ref f (dataWriteIndex (1 + k) none (some d)) (1 + k)).isSome) = 0 := by
      rw [List.countP_eq_zero]
      intro k _
      have hk : ¬ (1 + k = 0) := by rw [Nat.add_comm]; exact Nat.succ_ne_zero k
      simp only [beq_eq_false_iff_ne.2 hk, Bool.false_and, Bool.false_eq_true, not_false_eq_true]
    rw [i1, hz, Nat.add_zero, htake, List.countP_map]
    simp only [Stats.zero, Nat.zero_add]
    exact count_iff fun k _ => hblk _
  · rw [i2, htake]
    simp only [Stats.zero, Nat.zero_add]
    rw [List.countP_map]
    refine count_iff fun k _ => ?_
    rw [← hblk]
    simp
  · rw [i4]
    simp only [Stats.zero, Nat.zero_add]
    refine count_iff fun k _ => ?_
    have := isParity_iff (dpb := some d) (s := 1 + k) (by omega)
    rw [← isNumber_iff, Ne, ← this]
    simp
  · rw [i5]
    simp only [Stats.zero, Nat.zero_add]
    refine count_iff fun k _ => ?_
    have := isParity_iff (dpb := some d) (s := 1 + k) (by omega)
    rw [← isNumber_iff, Ne, ← this]
    simp
  · rw [i6]
    simp only [Stats.zero, Nat.zero_add]
    refine count_iff fun k _ => ?_
    have := isParity_iff (dpb := some d) (s := 1 + k) (by omega)
    rw [← isNumber_iff, ← this]
    simp
  · rw [i7]
    simp only [Stats.zero, Nat.zero_add]
    refine count_iff fun k _ => ?_
    have := isParity_iff (dpb := some d) (s := 1 + k) (by omega)
    rw [← isNumber_iff, ← this]
    simp
  · rw [i3]; rfl

/-- **C38, decode to standard output, the blocks in order.** (No Reed-Solomon, or `--from` or `--to` given.)  In every run,
interrupted or not: the first `n` places were looked at.  The number expected at a place is computed from the guessed index of the
first block.  The counters of data blocks are exact; a missing metadata block is counted as a missing *parity* block. -/
theorem C38_decode_stdout_seq (E : Env) (hE : 0 < E.lotCount) (p : Param) (f : File) (out : List Byte) (R : Report)
    (h : toStdout E p f = .ok (out, R)) (pos : Nat) (ref : Block)
    (hr : getRefBlockM p.ref p.ref.refChoice f E.stopRef (E.stop 0) = .ok (pos, ref)) (dpb : Option Dpb)
    (hd : dataParBurst p.ref true f ref = .ok dpb) (hs : dpb = none ∨ p.ref.fromPos ≠ none ∨ p.ref.toPos ≠ none) :
    ∃ n, (let v := ref.header.version
      let uid := ref.header.uid
      let start := (rangeOf p.ref ref f).seekTo
      let all := places ref f start (rangeOf p.ref ref f).requiredLen
      let first := guessStart E.order f p.ref.fromPos p.ref.forceMisalign ref dpb
      let expected := fun j => seqAtIndex (first + j) (some true) dpb
      let found := fun j => IsNumber v uid (expected j) (placeBytes v f start j)
      n ≤ all ∧
      ((∀ i, E.stop i = false) → n = all ∨ first + n = 2 ^ 64 ∨
        ∃ size, refFsz ref = some size ∧ R.stats.datas + R.stats.dataFailed = ceilDiv size v.dataSize) ∧
      R.stats.metas = countBelow n (fun j => expected j = 0 ∧ found j) ∧
      R.stats.datas = countBelow n (fun j => chunkOf dpb (expected j) ≠ none ∧ found j) ∧
      R.stats.dataFailed = countBelow n (fun j => chunkOf dpb (expected j) ≠ none ∧ ¬ found j) ∧
      R.stats.parities = countBelow n (fun j => expected j ≠ 0 ∧ chunkOf dpb (expected j) = none ∧ found j) ∧
      R.stats.parityFailed = countBelow n (fun j => chunkOf dpb (expected j) = none ∧ ¬ found j) ∧
      R.stats.metaFailed = 0 ∧ R.stats.failed = 0) := by
  obtain ⟨st, hsx, ho, hst⟩ := decodeStdout_ok h hr hd
  have ho' : run3 (Encode.buffersInRotation + 1)
      (seqAct E.stop f (rangeOf p.ref ref f).seekTo (rangeOf p.ref ref f).requiredLen ref dpb) (2 ^ 32 + f.length + 3) (midThread ref) stdoutWriter
      ⟨guessStart E.order f p.ref.fromPos p.ref.forceMisalign ref dpb, 0, 0, Stats.zero⟩ []
      (Buffer.newMulti (cfg ref dpb false) E.lotCount Encode.buffersInRotation) = some (st, hsx, out) := by
    rw [← ho]
    unfold outThreads
    split
    · rename_i h1 h2 h3
      exfalso
      rcases hs with hs | hs | hs
      · cases hs
      · exact hs h2
      · exact hs h3
    · rfl
  set start := (rangeOf p.ref ref f).seekTo with hstart
  set required := (rangeOf p.ref ref f).requiredLen with hreq
  set first := guessStart E.order f p.ref.fromPos p.ref.forceMisalign ref dpb with hfirst
  obtain ⟨n', fs, rF, m, g1, g2, g3, g4, g5, g6⟩ := any_runs (seq_iter E.stop f start required ref dpb first) (places ref f start required) 0
    ⟨first, 0, 0, Stats.zero⟩ (by omega) ⟨rfl, by simp, Nat.zero_le _⟩
  have hpl : places ref f start required ≤ f.length := by
    unfold places
    exact Nat.le_trans (Nat.min_le_right _ _) (Nat.le_trans (Nat.div_le_self _ _) (Nat.sub_le _ _))
  obtain ⟨hs', out', e⟩ := threads_stats (fuel := 2 ^ 32 + f.length + 3) hE g2 (by omega) g6
  rw [e] at ho'
  simp only [Option.some.injEq, Prod.mk.injEq] at ho'
  obtain ⟨rfl, -, -⟩ := ho'
  obtain ⟨i1, i2, i3, i4, i5, i6, i7⟩ := ticks_count dpb (fun k => seqAtIndex (first + k) (some true) dpb)
    (fun k => (atPlace ref (f.drop start) k (seqAtIndex (first + k) (some true) dpb)).isSome) (List.range' 0 m) Stats.zero
  rw [← g3] at i1 i2 i3 i4 i5 i6 i7
  rw [← List.range_eq_range'] at i1 i4 i5 i6 i7
  rw [Nat.zero_add] at g4 g5
  have hpar : ∀ s, chunkOf dpb s = none ↔ s = 0 ∨ isParityDpb s dpb = true := by
    intro s
    by_cases h0 : s = 0
    · subst h0; simp [chunkOf_zero]
    · rw [isParity_iff (by omega)]; simp [h0]
  refine ⟨m, g5, ?_⟩
  simp only
  rw [hst]
  refine ⟨fun hc => ?_, ?_, ?_, ?_, ?_, ?_, ?_, ?_⟩
  · rcases g4 hc with g | g | g
    · exact .inl g
    · exact .inr (.inr (totalChunks_some.1 g))
    · exact .inr (.inl g)
  · rw [i1]
    simp only [Stats.zero, Nat.zero_add]
    refine count_iff fun k _ => ?_
    rw [← placeBytes_drop, ← isNumber_iff]
    simp
  · rw [i4]
    simp only [Stats.zero, Nat.zero_add]
    refine count_iff fun k _ => ?_
    rw [← placeBytes_drop, ← isNumber_iff, Ne, hpar]
    simp
  · rw [i5]
    simp only [Stats.zero, Nat.zero_add]
    refine count_iff fun k _ => ?_
    rw [← placeBytes_drop, ← isNumber_iff, Ne, hpar]
    simp
  · rw [i6]
    simp only [Stats.zero, Nat.zero_add]
    refine count_iff fun k _ => ?_
    rw [← placeBytes_drop, ← isNumber_iff, hpar]
    simp only [Bool.and_eq_true, bne_iff_ne, ne_eq]
    tauto
  · rw [i7]
    simp only [Stats.zero, Nat.zero_add]
    refine count_iff fun k _ => ?_
    rw [← placeBytes_drop, ← isNumber_iff, hpar]
    simp
  · rw [i2]; rfl
  · rw [i3]; rfl

/-! ### Examples and what goes wrong -/

def tinyBlock (v : Version) (seq : UInt32) (payload : List Byte) : List Byte := blockBytes v demoUid.bytes seq payload

/-- The "hash" just counts. -/
def tinyHash : HashFn := ⟨fun t bs => List.replicate t.digestLen (UInt8.ofNat bs.length), fun _ _ => List.length_replicate⟩

/-- No Ctrl-C; one lot per buffer. -/
def tinyEnv : Env := ⟨tinyHash, 1, fun _ => [0], fun _ => false, fun _ => false, fun _ => false⟩

def tinyParam : Param := ⟨⟨.prefer .metadata, some 0, none, none, none, none, false, some 0⟩, none⟩

/-- Metadata, a damaged block, a data block. -/
def plainFile : File :=
  tinyBlock .v2 0 ((metasToBytes [.fsz 200] 112).getD []) ++ List.replicate 128 5 ++ tinyBlock .v2 2 (List.replicate 112 7)

/-- The same, with the metadata block damaged too. -/
def headless : File := List.replicate 128 5 ++ tinyBlock .v2 1 (List.replicate 112 7)

/-- One data and one parity shard, burst level 0: metadata copies at the places 0 and 1, data at 2, parity at 3; but the second
metadata copy has been overwritten with a copy of the data block. -/
def mixedFile : File :=
  tinyBlock .v18 0 ((metasToBytes [.fsz 112, .rsd 1, .rsp 1] 112).getD []) ++ tinyBlock .v18 1 (List.replicate 112 7) ++
    tinyBlock .v18 1 (List.replicate 112 7) ++ tinyBlock .v18 2 (List.replicate 112 7)

def fileStats (f : File) : Option Stats := match toFile tinyEnv tinyParam f [] with | .ok (_, R) => some R.stats | .error _ => none
def stdoutStats (f : File) : Option Stats := match toStdout tinyEnv tinyParam f with | .ok (_, R) => some R.stats | .error _ => none

set_option maxRecDepth 1000000 in
/-- Decoding to a file: one metadata block, one data block, one failure. -/
example : fileStats plainFile = some ⟨1, 1, 0, 1, 0, 0, 0⟩ := by decide +kernel

set_option maxRecDepth 1000000 in
/-- The same to standard output. -/
example : stdoutStats plainFile = some ⟨1, 1, 0, 0, 0, 1, 0⟩ := by decide +kernel

set_option maxRecDepth 1000000 in
/-- **C38 is violated.** Decoding to standard output counts a lost metadata block as a lost parity block, though this container has no
parity blocks at all. -/
theorem C38_decode_metadata_violated : stdoutStats headless = some ⟨0, 1, 0, 0, 0, 0, 1⟩ := by decide +kernel

/-- `stdoutStats` for a container with parity, with the metadata places written out (the kernel does not evaluate the sorting of
`metaAllPos`). -/
def parityStats (f : File) : Option Stats :=
  match getRefBlockM tinyParam.ref tinyParam.ref.refChoice f tinyEnv.stopRef (tinyEnv.stop 0) with
  | .error _ => none
  | .ok (_, ref) =>
    match dataParBurst tinyParam.ref true f ref with
    | .ok (some d) =>
      match metaPass tinyEnv.stop f ref ((List.range (1 + d.parity)).map fun k => k * (1 + d.burst) * ref.header.version.blockSize) 0
        Block.dummy Stats.zero with
      | (k, st) =>
        match run3 (Encode.buffersInRotation + 1) (burstAct tinyEnv.stop f ref d) (2 ^ 32 + f.length + 3) (midThread ref) stdoutWriter
          ⟨1, 0, k, st⟩ [] (Buffer.newMulti (cfg ref (some d) false) tinyEnv.lotCount Encode.buffersInRotation) with
        | none => none
        | some (st, _, _) => some st.stats
    | _ => none

theorem parityStats_eq {f : File} {st : Stats} (h : parityStats f = some st) : stdoutStats f = some st := by
  unfold stdoutStats toStdout
  unfold parityStats at h
  split at h
  · cases h
  · rename_i pos ref hr
    rw [hr]
    simp only
    split at h
    · rename_i d hd
      unfold decodeStdout
      rw [hd]
      simp only
      unfold outThreads
      have h1 : tinyParam.ref.fromPos = none := rfl
      have h2 : tinyParam.ref.toPos = none := rfl
      rw [h1, h2]
      simp only
      rw [metaAllPos_eq, (C10_meta_positions d none).1]
      unfold metaCopies
      rw [List.map_map]
      have e : ((fun x => x * ref.header.version.blockSize) ∘ fun k => k * (1 + d.burst)) =
          fun k => k * (1 + d.burst) * ref.header.version.blockSize := rfl
      rw [e]
      generalize metaPass tinyEnv.stop f ref _ 0 Block.dummy Stats.zero = mp at h ⊢
      obtain ⟨k, st0⟩ := mp
      simp only at h ⊢
      split at h
      · cases h
      · rename_i x y z hrun
        rw [hrun]
        exact h
    · cases h

set_option maxRecDepth 1000000 in
/-- **C38 is violated.** Decoding to standard output counts a data block at the place of a metadata block as a metadata block: two
metadata blocks are reported, none missing, where there is one; decoding to a file counts them right. -/
theorem C38_decode_mixed_violated : stdoutStats mixedFile = some ⟨2, 1, 0, 0, 0, 0, 0⟩ ∧ fileStats mixedFile = some ⟨1, 2, 1, 0, 0, 0, 0⟩ :=
  ⟨parityStats_eq (by decide +kernel), by decide +kernel⟩

end Verif.Decode
