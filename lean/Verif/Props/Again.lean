import Verif.Lemmas.RepairAgain
import Verif.Props.Repair
/-!
# C74: repairing again changes nothing, whatever the file
-/

namespace Verif.Repair
open Format RepairSpec ScanSpec Scan Layout LayoutSpec ContainerSpec FileUtils
open Classical

/-- The writes of an uninterrupted repair of a file of whole blocks. -/
theorem ops_of_calm {E : Env} (laws : E.rs.Laws) (hE : E.Calm) {burst : Option Nat} {f : File} {v : Version} {uid : Uid}
    {mp : List Byte} {d : Dpb} (hs : Sees E burst f v uid mp d) (hf : blockLen v ∣ f.length) {dk : Disk} {st : Stats}
    (h : repairFile E burst false f = .ok (some (dk, st))) :
    ∃ mp', mp'.length = blockLen v - 16 ∧ metasFromBytes mp' = metasFromBytes mp ∧ dk.init = f ∧
      (∀ w ∈ dk.ops, OpOk v uid d (blockBytes v uid.bytes 0 mp') f (examined v d mp f / (d.data + d.parity) * (d.data + d.parity)) w) ∧
      (∀ k ∈ metaCopies (some true) (some d), ¬ ValidAt v uid f k → ∃ w ∈ dk.ops, w.1 = k * blockLen v) ∧
      ∀ t j, (t + 1) * (d.data + d.parity) ≤ examined v d mp f → d.data ≤ presentIn v uid d f t → j < d.data + d.parity →
        ¬ Present v uid d f (t * (d.data + d.parity) + j + 1) →
        ∃ w ∈ dk.ops, w.1 = placeOf d (t * (d.data + d.parity) + j + 1) * blockLen v := by
  obtain ⟨mp', total, hset⟩ := hs.setup
  obtain ⟨dk', st', dk1, st1, n, m, e1, e2, e3, e4, e5, e6, e7, e8, -⟩ := run_of_setup laws false hset
  rw [ok_of_setup false hset e1] at h
  simp only [Except.ok.injEq, Option.some.injEq, Prod.mk.injEq] at h
  obtain ⟨rfl, rfl⟩ := h
  obtain ⟨h1, h2, h3⟩ := shards_ok hs.data hs.parity
  have hmb : (blockBytes v uid.bytes 0 mp').length = blockLen v := by
    rw [blockBytes_length, hset.size]; have := h16 v; omega
  have hn : n = 1 + d.parity := by
    rcases e4 with e4 | e4
    · exact e4
    · rw [hE.metas] at e4; simp at e4
  have hml : (metaCopies (some true) (some d)).length = 1 + d.parity := by unfold metaCopies; simp
  rw [hn, ← hml, List.take_length] at e2
  obtain ⟨ws, f1, f2, -, f4, f5⟩ := meta_ops (uid := uid) (d := d) hmb false f _ (metaCopies_nodup d) (fun k hk => hk)
  rw [← e2] at f1 f2
  simp only at f1 f2
  subst f1
  rw [hml] at f2
  have hval : Valid (some d) := by intro x hx; cases hx; exact h1
  have hx : examined v d mp f = min lastSeqNum (total - (1 + d.parity)) := by
    unfold examined
    rw [hset.total]
    cases firstFsz (metasFromBytes mp) with
    | none => rfl
    | some size =>
      simp only
      rw [totalBlockCount, dataBlockCount_eq v (some d) hval, ← dataSize_eq]
      show min _ _ = min _ (1 + d.parity + _ - _)
      rw [Nat.add_sub_cancel_left]
  have hm : m = examined v d mp f := by
    rw [hx]
    rw [f2] at e6 e7
    rcases e6 with e6 | e6 | e6
    · omega
    · rw [hE.data] at e6; simp at e6
    · omega
  subst hm
  obtain ⟨ws', g1, g2, g3⟩ := e5.ops h1 hmb f4
  have hc := e5.complete h1 hmb hf f4
  subst g1
  refine ⟨mp', hset.size, hset.same, rfl, g3, ?_, hc⟩
  intro k hk hnv
  rw [← fill_aligned hf] at hnv
  exact ⟨_, List.mem_append_left _ (f5 rfl k hk hnv), rfl⟩

/-- What an uninterrupted repair makes of a file of whole blocks. -/
theorem state_after {E : Env} (laws : E.rs.Laws) (hE : E.Calm) {burst : Option Nat} {f : File} {v : Version} {uid : Uid}
    {mp : List Byte} {d : Dpb} (hs : Sees E burst f v uid mp d) (hf : blockLen v ∣ f.length) {dk : Disk} {st : Stats}
    (h : repairFile E burst false f = .ok (some (dk, st))) :
    blockLen v ∣ dk.file.length ∧
    (∀ k ∈ metaCopies (some true) (some d), ValidAt v uid f k ∧ piece v dk.file k = piece v f k ∨
      ¬ ValidAt v uid f k ∧ ∃ mp', IsBlock (piece v dk.file k) v uid 0 mp' ∧ metasFromBytes mp' = metasFromBytes mp) ∧
    (∀ t, (t + 1) * (d.data + d.parity) ≤ examined v d mp f → d.data ≤ presentIn v uid d f t → ∀ j < d.data + d.parity,
      Present v uid d dk.file (t * (d.data + d.parity) + j + 1)) ∧
    ∀ s, 1 ≤ s → (examined v d mp f / (d.data + d.parity) * (d.data + d.parity) < s ∨
      presentIn v uid d f ((s - 1) / (d.data + d.parity)) < d.data) → (Present v uid d dk.file s ↔ Present v uid d f s) := by
  obtain ⟨mp', hl, hsame, hi, hops, hmeta, hdata⟩ := ops_of_calm laws hE hs hf h
  obtain ⟨h1, h2, h3⟩ := shards_ok hs.data hs.parity
  have hval : Valid (some d) := by intro x hx; cases hx; exact h1
  have hkept := C26_valid_kept E laws burst false f v uid mp d hs dk st h
  have hmb : (blockBytes v uid.bytes 0 mp').length = blockLen v := by
    rw [blockBytes_length, hl]; have := h16 v; omega
  have hpl := OpOk.placed hmb hops
  have hfile : dk.file = f.writes dk.ops := by rw [← hi]; rfl
  have hu := blockLen_pos v
  have hn : 0 < d.data + d.parity := by omega
  refine ⟨by rw [hfile]; exact dvd_writes hf _ hpl, ?_, ?_, ?_⟩
  · intro k hk
    by_cases hv : ValidAt v uid f k
    · exact .inl ⟨hv, hkept.1 k hk hv⟩
    · refine .inr ⟨hv, mp', ?_, hsame⟩
      rw [hfile]
      refine (piece_writes_mem (P := fun b => IsBlock b v uid 0 mp') dk.ops hpl ?_ (hmeta k hk hv)).1
      intro w hw hw1
      rcases hops w hw with ⟨j, hj, _, rfl⟩ | ⟨s, p, a1, _, _, _, _, rfl⟩
      · exact ⟨rfl, hl⟩
      · have e := Nat.eq_of_mul_eq_mul_right hu hw1
        exact absurd hk (by rw [← e]; exact C10_data_not_meta (some true) (some d) hval s a1)
  · intro t ht hen j hj
    by_cases hp : Present v uid d f (t * (d.data + d.parity) + j + 1)
    · obtain ⟨p, hb⟩ := id hp
      exact ⟨p, by rw [hkept.2 _ (by omega) hp]; exact hb⟩
    · have := (piece_writes_mem (v := v) (g := f) (k := placeOf d (t * (d.data + d.parity) + j + 1))
        (P := fun b => ∃ p, IsBlock b v uid (UInt32.ofNat (t * (d.data + d.parity) + j + 1)) p) dk.ops hpl ?_ (hdata t j ht hen hj hp)).1
      · rw [← hfile] at this
        exact this
      · intro w hw hw1
        rcases hops w hw with ⟨k, hk, _, rfl⟩ | ⟨s, p, a1, _, _, a4, _, rfl⟩
        · have e := Nat.eq_of_mul_eq_mul_right hu hw1
          subst e
          exact absurd hk (C10_data_not_meta (some true) (some d) hval _ (by omega))
        · have e := C10_data_injective none (some d) hval s _ a1 (by omega) (Nat.eq_of_mul_eq_mul_right hu hw1)
          subst e
          exact ⟨p, rfl, a4⟩
  · intro s hs1 hlost
    have hsp : Spares v (placeOf d s) dk.ops := by
      intro w hw
      refine ⟨(hops w hw).length hmb, ?_⟩
      rcases hops w hw with ⟨k, hk, _, rfl⟩ | ⟨s', p, a1, a2, _, _, a5, rfl⟩
      · exact ⟨k, fun e => C10_data_not_meta (some true) (some d) hval s hs1 (by rw [← placeOf_eq, ← e]; exact hk), rfl⟩
      · refine ⟨placeOf d s', fun e => ?_, rfl⟩
        have := C10_data_injective none (some d) hval s' s a1 hs1 e
        subst this
        rw [fill_aligned hf] at a5
        omega
    unfold Present
    rw [hfile]
    constructor
    · rintro ⟨p, hb⟩
      have := (seen hsp f).2 hb
      rw [fill_aligned hf] at this
      exact ⟨p, this⟩
    · rintro ⟨p, hb⟩
      exact ⟨p, (seen hsp f).1 hb⟩

/-- **C74.** What an uninterrupted repair makes of any file of whole blocks in which it finds a container: afterwards every metadata
place holds a valid block, every Reed-Solomon set within the recorded size that had enough blocks is complete, and every other set has
exactly the blocks that it had. -/
theorem C74_complete (E : Env) (laws : E.rs.Laws) (hE : E.Calm) (burst : Option Nat) (f : File) (v : Version) (uid : Uid)
    (mp : List Byte) (d : Dpb) (hs : Sees E burst f v uid mp d) (hf : blockLen v ∣ f.length) (dk : Disk) (st : Stats)
    (h : repairFile E burst false f = .ok (some (dk, st))) (size : Nat) (hsz : firstFsz (metasFromBytes mp) = some size)
    (hnum : blocksFor (blockLen v - 16) (some d) size ≤ lastSeqNum) :
    (∀ k ∈ metaCopies (some true) (some d), ValidAt v uid dk.file k) ∧
    ∀ t < blocksFor (blockLen v - 16) (some d) size / (d.data + d.parity),
      if d.data ≤ presentIn v uid d f t then ∀ j < d.data + d.parity, Present v uid d dk.file (t * (d.data + d.parity) + j + 1)
      else ∀ j < d.data + d.parity, Present v uid d dk.file (t * (d.data + d.parity) + j + 1) ↔
        Present v uid d f (t * (d.data + d.parity) + j + 1) := by
  obtain ⟨-, a2, a3, a4⟩ := state_after laws hE hs hf h
  obtain ⟨h1, h2, h3⟩ := shards_ok hs.data hs.parity
  have hn : 0 < d.data + d.parity := by omega
  have hex : examined v d mp f = blocksFor (blockLen v - 16) (some d) size := by
    unfold examined
    rw [hsz]
    exact Nat.min_eq_right hnum
  rw [hex] at a3 a4
  constructor
  · intro k hk
    rcases a2 k hk with ⟨⟨sq, p, hb⟩, e⟩ | ⟨-, mp', hb, -⟩
    · exact ⟨sq, p, by rw [e]; exact hb⟩
    · exact ⟨0, mp', hb⟩
  · intro t ht
    split
    · rename_i hen
      refine a3 t ?_ hen
      exact (Nat.mul_le_mul_right _ ht).trans (Nat.div_mul_le_self _ _)
    · rename_i hen
      intro j hj
      refine a4 _ (by omega) (.inr ?_)
      rw [Nat.add_sub_cancel, (divmod_eq hj).1]
      omega

/-- A metadata block at the beginning of the file is the reference block. -/
theorem found_at_start {stop : Nat → Bool} (hstop : ∀ k, stop k = false) {v : Version} {uid : Uid} {g : File} {q : List Byte}
    (hb : IsBlock (piece v g 0) v uid 0 q) :
    getRefBlock g none none false (.mustBe .metadata) stop = some (0, blockOf v uid 0 q) := by
  unfold piece at hb
  rw [Nat.zero_mul] at hb
  have h := Decode.ref_at_start (q := ⟨.mustBe .metadata, none, none, none, none, none, false, none⟩) ⟨rfl, rfl, rfl, .inr (.inr rfl)⟩
    hstop false hb
  unfold getRefBlockM at h
  change (match getRefBlock g none none false (.mustBe .metadata) stop with | none => _ | some x => _) = _ at h
  split at h
  · split at h <;> simp at h
  · rename_i x hx
    simp only [Except.ok.injEq] at h
    rw [← h]; exact hx

/-- What `repair` finds in the repaired file is the same container. -/
theorem sees_again {E : Env} (laws : E.rs.Laws) (hE : E.Calm) {f : File} {v : Version} {uid : Uid}
    {mp : List Byte} {d : Dpb} (hs : Sees E (some d.burst) f v uid mp d) (hf : blockLen v ∣ f.length)
    (h0 : ∀ seq p, IsBlock (piece v f 0) v uid seq p → seq = 0) {dk : Disk} {st : Stats}
    (h : repairFile E (some d.burst) false f = .ok (some (dk, st))) {E' : Env} (hE' : E'.Calm) :
    ∃ mp', Sees E' (some d.burst) dk.file v uid mp' d ∧ metasFromBytes mp' = metasFromBytes mp := by
  obtain ⟨-, a2, -, -⟩ := state_after laws hE hs hf h
  have hmc : 0 ∈ metaCopies (some true) (some d) := by unfold metaCopies; simp
  have hex : ∃ q, IsBlock (piece v dk.file 0) v uid 0 q ∧ metasFromBytes q = metasFromBytes mp := by
    rcases a2 0 hmc with ⟨⟨sq, q, hb⟩, e⟩ | ⟨-, h⟩
    · have := h0 sq q hb
      subst this
      refine ⟨q, by rw [e]; exact hb, ?_⟩
      obtain ⟨pos, hp, -⟩ := hs.found
      rw [found_at_start hE.ref hb] at hp
      have := congrArg (fun x => x.map (fun y => y.2.metas)) hp
      simpa [metas_blockOf] using this
    · exact h
  obtain ⟨q, hb, hm⟩ := hex
  refine ⟨q, ⟨⟨0, found_at_start hE'.ref hb, ?_⟩, hs.rs, by rw [hm]; exact hs.data, by rw [hm]; exact hs.parity, .inl rfl⟩, hm⟩
  unfold piece at hb
  rwa [Nat.zero_mul] at hb

theorem blocksIn_set (v : Version) (uid : Uid) (d : Dpb) (f : File) (q : Nat) :
    blocksIn v uid d f ((q + 1) * (d.data + d.parity)) = blocksIn v uid d f (q * (d.data + d.parity)) + presentIn v uid d f q := by
  unfold blocksIn presentIn
  rw [Nat.succ_mul, List.range_add, List.countP_append, List.countP_map]
  rfl

theorem sets_sum (v : Version) (uid : Uid) (d : Dpb) (f : File) (q : Nat) :
    blocksIn v uid d f (q * (d.data + d.parity)) + missingIn v uid d f true q + missingIn v uid d f false q = q * (d.data + d.parity) := by
  induction q with
  | zero => simp [blocksIn, missingIn]
  | succ q ih =>
    have hle := presentIn_le v uid d f q
    rw [blocksIn_set, missingIn_succ, missingIn_succ, Nat.succ_mul]
    by_cases hd : d.data ≤ presentIn v uid d f q
    · simp only [hd, decide_true, if_true, Bool.true_eq_false, if_false]
      omega
    · simp only [hd, decide_false, if_true, Bool.false_eq_true, if_false]
      omega

/-- The counts of a file in which the sets with enough blocks have been completed. -/
theorem counts_after {v : Version} {uid : Uid} {d : Dpb} {f g : File} {q : Nat}
    (h : ∀ t < q, presentIn v uid d g t = if d.data ≤ presentIn v uid d f t then d.data + d.parity else presentIn v uid d f t) :
    blocksIn v uid d g (q * (d.data + d.parity)) = blocksIn v uid d f (q * (d.data + d.parity)) + missingIn v uid d f true q ∧
    missingIn v uid d g true q = 0 ∧ missingIn v uid d g false q = missingIn v uid d f false q := by
  induction q with
  | zero => simp [blocksIn, missingIn]
  | succ q ih =>
    obtain ⟨i1, i2, i3⟩ := ih fun t ht => h t (by omega)
    have hle := presentIn_le v uid d f q
    have hq := h q (by omega)
    rw [blocksIn_set, blocksIn_set, missingIn_succ, missingIn_succ, missingIn_succ, missingIn_succ, i1, i2, i3]
    by_cases hd : d.data ≤ presentIn v uid d f q
    · rw [if_pos hd] at hq
      have hd' : d.data ≤ presentIn v uid d g q := by omega
      simp only [hd, hd', decide_true, if_true, Bool.true_eq_false, if_false]
      refine ⟨?_, ?_, ?_⟩ <;> first | trivial | omega
    · rw [if_neg hd] at hq
      have hd' : ¬ d.data ≤ presentIn v uid d g q := by omega
      simp only [hd, hd', decide_false, if_true, Bool.false_eq_true, if_false]
      refine ⟨?_, ?_, ?_⟩ <;> first | trivial | omega

/-- **C74.** Repairing a second time changes nothing.  Whatever is in the file, if it consists of whole blocks, does not begin with a data
block of the container and the container found in it records its size: after an uninterrupted `repair`, another one (also
uninterrupted; dry run or not) comes to its end, writes nothing, counts as intact all that the first one counted as intact or
repaired, repairs nothing, and counts as lost exactly what the first one counted as lost. -/
theorem C74_again_partial (E : Env) (laws : E.rs.Laws) (hE : E.Calm) (f : File) (v : Version) (uid : Uid)
    (mp : List Byte) (d : Dpb) (hs : Sees E (some d.burst) f v uid mp d) (hf : blockLen v ∣ f.length)
    (h0 : ∀ seq p, IsBlock (piece v f 0) v uid seq p → seq = 0) (dk : Disk) (st : Stats)
    (h : repairFile E (some d.burst) false f = .ok (some (dk, st))) (size : Nat) (hsz : firstFsz (metasFromBytes mp) = some size)
    (hnum : blocksFor (blockLen v - 16) (some d) size ≤ lastSeqNum) (E' : Env) (laws' : E'.rs.Laws) (hE' : E'.Calm) (dry : Bool) :
    repairFile E' (some d.burst) dry dk.file = .ok (some (⟨dk.file, []⟩,
      ⟨st.metaDecoded + st.metaRepaired, st.dataDecoded + st.dataRepaired, st.repairFailed, 0, 0, st.repairFailed⟩)) := by
  obtain ⟨mp', hs', hm⟩ := sees_again laws hE hs hf h0 h hE'
  obtain ⟨a1, a2, a3, a4⟩ := state_after laws hE hs hf h
  obtain ⟨c1, c2⟩ := C74_complete E laws hE _ f v uid mp d hs hf dk st h size hsz hnum
  obtain ⟨h1, h2, h3⟩ := shards_ok hs.data hs.parity
  have hn : 0 < d.data + d.parity := by omega
  obtain ⟨q, hq⟩ : ∃ q, blocksFor (blockLen v - 16) (some d) size = q * (d.data + d.parity) := ⟨_, rfl⟩
  have hex : examined v d mp f = q * (d.data + d.parity) := by
    unfold examined
    rw [hsz, ← hq]
    exact Nat.min_eq_right hnum
  have hex' : examined v d mp' dk.file = q * (d.data + d.parity) := by
    unfold examined
    rw [hm, hsz, ← hq]
    exact Nat.min_eq_right hnum
  rw [hq, Nat.mul_div_cancel _ hn] at c2
  rw [hex, Nat.mul_div_cancel _ hn] at a4
  obtain ⟨dk', h'⟩ := repair_stats laws' hE' dry hs' a1
  obtain ⟨dk'', h''⟩ := repair_stats laws hE false hs hf
  rw [h] at h''
  simp only [Except.ok.injEq, Option.some.injEq, Prod.mk.injEq] at h''
  obtain ⟨rfl, hst⟩ := h''
  have hpin : ∀ t < q, presentIn v uid d dk.file t =
      if d.data ≤ presentIn v uid d f t then d.data + d.parity else presentIn v uid d f t := by
    intro t ht
    have := c2 t ht
    split at this
    · rename_i hen
      rw [if_pos hen]
      unfold presentIn
      rw [List.countP_eq_length.2, List.length_range]
      intro j hj
      simp only [decide_eq_true_eq]
      exact this j (List.mem_range.1 hj)
    · rename_i hlt
      rw [if_neg hlt]
      unfold presentIn
      apply List.countP_congr
      intro j hj
      simp only [decide_eq_true_eq]
      exact this j (List.mem_range.1 hj)
  obtain ⟨k1, k2, k3⟩ := counts_after hpin
  have hops : dk'.init = dk.file ∧ dk'.ops = [] := by
    cases dry with
    | true => rw [C27_repair_dry E' laws' _ _ _ _ h']; exact ⟨rfl, rfl⟩
    | false =>
      obtain ⟨mp'', -, -, hi, hops, -, -⟩ := ops_of_calm laws' hE' hs' a1 h'
      refine ⟨hi, ?_⟩
      rw [List.eq_nil_iff_forall_not_mem]
      intro w hw
      rcases hops w hw with ⟨k, hk, hnv, -⟩ | ⟨s, p, b1, b2, b3, -, b5, -⟩
      · exact hnv (c1 k hk)
      · rw [hex', Nat.mul_div_cancel _ hn] at b2
        rw [fill_aligned a1] at b5
        have ht : (s - 1) / (d.data + d.parity) < q := by
          rw [Nat.div_lt_iff_lt_mul hn]; omega
        have hp := hpin _ ht
        have := c2 _ ht
        split at this
        · have := this ((s - 1) % (d.data + d.parity)) (Nat.mod_lt _ hn)
          rw [Nat.mul_comm, Nat.div_add_mod, show s - 1 + 1 = s by omega] at this
          exact b3 this
        · rename_i hlt
          rw [if_neg hlt] at hp
          omega
  have hml : (metaCopies (some true) (some d)).length = 1 + d.parity := by unfold metaCopies; simp
  have hme : metasIn v uid d dk.file = 1 + d.parity := by
    unfold metasIn
    rw [List.countP_eq_length.2, hml]
    intro k hk
    exact decide_eq_true (c1 k hk)
  have hme' : metasIn v uid d f ≤ 1 + d.parity := by unfold metasIn; rw [← hml]; exact List.countP_le_length
  have hsum := sets_sum v uid d f q
  rw [h']
  rw [hst, hex, hex', hme, Nat.mul_div_cancel _ hn, k1, k2, k3]
  obtain ⟨i, o⟩ := dk'
  obtain ⟨rfl, rfl⟩ := hops
  simp only [Except.ok.injEq, Option.some.injEq, Prod.mk.injEq, Stats.mk.injEq, true_and]
  exact ⟨by omega, by omega, by omega, trivial⟩

/-! ### Where the property fails -/

theorem demo_meta_two : ∃ mp : List Byte, mp.length = 496 ∧ metasFromBytes mp = [.fsz 992, .rsd 1, .rsp 1] := by
  have h1 : ((metasToBytes [.fsz 992, .rsd 1, .rsp 1] 496).map fun mp =>
      decide (mp.length = 496 ∧ metasFromBytes mp = [.fsz 992, .rsd 1, .rsp 1])) = some true := by
    decide +kernel
  rw [Option.map_eq_some_iff] at h1
  obtain ⟨mp, -, h2⟩ := h1
  exact ⟨mp, by simpa using h2⟩

theorem pieces_append {v : Version} (a b : List Byte) (ha : a.length = blockLen v) (k : Nat) :
    piece v (a ++ b) 0 = a ∧ piece v (a ++ b) (k + 1) = piece v b k := by
  unfold piece File.readAt
  constructor
  · rw [Nat.zero_mul, List.drop_zero, List.take_left' ha]
  · rw [Nat.succ_mul, Nat.add_comm, ← List.drop_drop, List.drop_left' ha]

/-- **C74 violated.** If the file ends with a part of a block, repairing a second time may repair more: the first run writes a block behind
that part, whereby the rest of it gets filled up with zeros and happens to be a complete block, of a set that the first run has already
given up. -/
theorem C74_truncated_violated (E : Env) (laws : E.rs.Laws) (hE : E.Calm) :
    ∃ f dk dk' st st', repairFile E (some 2) false f = .ok (some (dk, st)) ∧ repairFile E (some 2) false dk.file = .ok (some (dk', st')) ∧
      st'.dataRepaired ≠ 0 := by
  obtain ⟨mp, hl, hm⟩ := demo_meta_two
  have hB : blockLen .v17 = 512 := rfl
  have hb0 : IsBlock (blockBytes .v17 demoOwner.bytes 0 mp) .v17 demoOwner 0 mp := ⟨rfl, hl⟩
  have hb2 : IsBlock (blockBytes .v17 demoOwner.bytes 2 (List.replicate 496 0)) .v17 demoOwner 2 (List.replicate 496 0) :=
    ⟨rfl, List.length_replicate⟩
  have hb3 : IsBlock (blockBytes .v17 demoOwner.bytes 3 (List.replicate 496 7)) .v17 demoOwner 3 (List.replicate 496 7) :=
    ⟨rfl, List.length_replicate⟩
  have hl0 := isBlock_length hb0
  have hl2 := isBlock_length hb2
  have hl3 := isBlock_length hb3
  rw [hB] at hl0 hl2 hl3
  have hz : blockBytes .v17 demoOwner.bytes 2 (List.replicate 496 0) =
      (blockBytes .v17 demoOwner.bytes 2 (List.replicate 496 0)).take 100 ++ List.replicate 412 0 := by
    have h1 : (blockBytes .v17 demoOwner.bytes 2 (List.replicate 496 0)).drop 100 = List.replicate 412 0 := by
      have h2 := congrArg (List.drop 84) (blockBytes_drop .v17 demoOwner 2 (List.replicate 496 0))
      rw [List.drop_drop, List.drop_replicate] at h2
      exact h2
    rw [← h1, List.take_append_drop]
  generalize hM : blockBytes .v17 demoOwner.bytes 0 mp = M at *
  generalize blockBytes .v17 demoOwner.bytes 2 (List.replicate 496 0) = P at *
  generalize blockBytes .v17 demoOwner.bytes 3 (List.replicate 496 7) = D at *
  have hzl : (List.replicate 512 (0 : Byte)).length = 512 := List.length_replicate
  have hzb : ∀ (sq : UInt32) (p : List Byte), ¬ IsBlock (List.replicate 512 0) .v17 demoOwner sq p := fun _ _ => zeros_not_block
  generalize List.replicate 512 (0 : Byte) = Z at *
  have htake : (P.take 100).length = 100 := by rw [List.length_take, hl2]; rfl
  have hpieces : ∀ tail : List Byte, piece .v17 (M ++ (Z ++ (D ++ (M ++ tail)))) 0 = M ∧ piece .v17 (M ++ (Z ++ (D ++ (M ++ tail)))) 1 = Z ∧
      piece .v17 (M ++ (Z ++ (D ++ (M ++ tail)))) 2 = D ∧ piece .v17 (M ++ (Z ++ (D ++ (M ++ tail)))) 3 = M ∧
      ∀ k, piece .v17 (M ++ (Z ++ (D ++ (M ++ tail)))) (k + 4) = piece .v17 tail k := by
    intro tail
    refine ⟨(pieces_append _ _ hl0 0).1, ?_, ?_, ?_, ?_⟩
    · rw [(pieces_append _ _ hl0 0).2, (pieces_append _ _ hzl 0).1]
    · rw [(pieces_append _ _ hl0 1).2, (pieces_append _ _ hzl 0).2, (pieces_append _ _ hl3 0).1]
    · rw [(pieces_append _ _ hl0 2).2, (pieces_append _ _ hzl 1).2, (pieces_append _ _ hl3 0).2, (pieces_append _ _ hl0 0).1]
    · intro k
      rw [(pieces_append _ _ hl0 (k + 3)).2, (pieces_append _ _ hzl (k + 2)).2, (pieces_append _ _ hl3 (k + 1)).2,
        (pieces_append _ _ hl0 k).2]
  have hsees : ∀ tail : List Byte, Sees E (some 2) (M ++ (Z ++ (D ++ (M ++ tail)))) .v17 demoOwner mp ⟨1, 1, 2⟩ := by
    intro tail
    have hb : IsBlock (piece .v17 (M ++ (Z ++ (D ++ (M ++ tail)))) 0) .v17 demoOwner 0 mp := by rw [(hpieces tail).1]; exact hb0
    refine ⟨⟨0, found_at_start hE.ref hb, ?_⟩, rfl, by rw [hm]; rfl, by rw [hm]; rfl, .inl rfl⟩
    unfold piece at hb
    rwa [Nat.zero_mul] at hb
  have hmc : metaCopies (some true) (some ⟨1, 1, 2⟩) = [0, 3] := by decide
  have hp1 : placeOf ⟨1, 1, 2⟩ 1 = 1 := by decide
  have hp2 : placeOf ⟨1, 1, 2⟩ 2 = 4 := by decide
  have hp3 : placeOf ⟨1, 1, 2⟩ 3 = 2 := by decide
  have hp4 : placeOf ⟨1, 1, 2⟩ 4 = 5 := by decide
  have hn1 : ∀ tail : List Byte, ¬ Present .v17 demoOwner ⟨1, 1, 2⟩ (M ++ (Z ++ (D ++ (M ++ tail)))) 1 := by
    rintro tail ⟨p, hb⟩
    rw [hp1, (hpieces tail).2.1] at hb
    exact hzb _ _ hb
  have hv : ∀ (tail : List Byte), ∀ k ∈ ([0, 3] : List Nat), ValidAt .v17 demoOwner (M ++ (Z ++ (D ++ (M ++ tail)))) k := by
    intro tail k hk
    rcases List.mem_cons.1 hk with rfl | hk
    · exact ⟨0, mp, by rw [(hpieces tail).1]; exact hb0⟩
    · rw [List.mem_singleton] at hk
      subst hk
      exact ⟨0, mp, by rw [(hpieces tail).2.2.2.1]; exact hb0⟩
  -- the first run
  have hs := hsees (P.take 100)
  have hlen : (M ++ (Z ++ (D ++ (M ++ P.take 100)))).length = 2148 := by
    simp only [List.length_append, hl0, hzl, hl3, htake]
  have h4 := (hpieces (P.take 100)).2.2.2.2 0
  have h5 := (hpieces (P.take 100)).2.2.2.2 1
  have hc4 : piece .v17 (P.take 100) 0 = P.take 100 := by
    unfold piece File.readAt
    rw [Nat.zero_mul, List.drop_zero, List.take_of_length_le (by rw [htake, hB]; decide)]
  have hc5 : piece .v17 (P.take 100) 1 = [] := piece_beyond (by rw [htake, hB]; decide)
  rw [hc4] at h4
  rw [hc5] at h5
  have hn2 : ¬ Present .v17 demoOwner ⟨1, 1, 2⟩ (M ++ (Z ++ (D ++ (M ++ P.take 100)))) 2 := by
    rintro ⟨p, hb⟩
    rw [hp2, h4] at hb
    have := isBlock_length hb
    rw [htake] at this
    exact absurd this (by decide)
  have hy3 : Present .v17 demoOwner ⟨1, 1, 2⟩ (M ++ (Z ++ (D ++ (M ++ P.take 100)))) 3 :=
    ⟨List.replicate 496 7, by rw [hp3, (hpieces (P.take 100)).2.2.1]; exact hb3⟩
  have hn4 : ¬ Present .v17 demoOwner ⟨1, 1, 2⟩ (M ++ (Z ++ (D ++ (M ++ P.take 100)))) 4 := by
    rintro ⟨p, hb⟩
    rw [hp4, h5] at hb
    exact nil_not_block hb
  obtain ⟨mp', total, hset⟩ := hs.setup
  have htot : total = 6 := by
    rw [hset.total, hm]
    show totalBlockCount .v17 none (some ⟨1, 1, 2⟩) 992 = 6
    decide +kernel
  obtain ⟨dk, st, dk1, st1, n, m, e1, e2, e3, e4, e5, e6, e7, e8, -⟩ := run_of_setup laws false hset
  have hn : n = 2 := by
    rcases e4 with e4 | e4
    · exact e4
    · rw [hE.metas] at e4; simp at e4
  have hg1 : metaOne .v17 demoOwner (blockBytes .v17 demoOwner.bytes 0 mp') false (⟨M ++ (Z ++ (D ++ (M ++ P.take 100))), []⟩, Stats.zero) 0 =
      (⟨M ++ (Z ++ (D ++ (M ++ P.take 100))), []⟩, ⟨1, 0, 0, 0, 0, 0⟩) := if_pos (hv _ 0 (by simp))
  have hg2 : metaOne .v17 demoOwner (blockBytes .v17 demoOwner.bytes 0 mp') false (⟨M ++ (Z ++ (D ++ (M ++ P.take 100))), []⟩, ⟨1, 0, 0, 0, 0, 0⟩) 3 =
      (⟨M ++ (Z ++ (D ++ (M ++ P.take 100))), []⟩, ⟨2, 0, 0, 0, 0, 0⟩) := if_pos (hv _ 3 (by simp))
  rw [hn, hmc, show ([0, 3] : List Nat).take 2 = [0, 3] from rfl, List.foldl_cons, hg1, List.foldl_cons, hg2, List.foldl_nil] at e2
  cases e2
  have hm4 : m = 4 := by
    have hb : (⟨2, 0, 0, 0, 0, 0⟩ : Stats).blocks = 2 := rfl
    rw [hb, htot] at e6 e7
    rcases e6 with e6 | e6 | e6
    · unfold lastSeqNum at e6; omega
    · rw [hE.data] at e6; simp at e6
    · omega
  subst hm4
  have h1 := ok_of_setup false hset e1
  generalize hf : M ++ (Z ++ (D ++ (M ++ P.take 100))) = f at *
  have hf0 : (⟨f, []⟩ : Disk).file = f := rfl
  have hops : ∃ b, b.length = 512 ∧ dk = ⟨f, [(5 * 512, b)]⟩ := by
    have ht0 : presentIn .v17 demoOwner ⟨1, 1, 2⟩ f 0 = 0 := by
      unfold presentIn
      rw [List.countP_eq_zero]
      intro j hj
      have : j = 0 ∨ j = 1 := by have := List.mem_range.1 hj; simp only at this; omega
      simp only [decide_eq_true_eq]
      rcases this with rfl | rfl
      · rw [← hf]; exact hn1 _
      · exact hn2
    have ht1 : 1 ≤ presentIn .v17 demoOwner ⟨1, 1, 2⟩ f 1 := by
      unfold presentIn
      rw [Nat.one_le_iff_ne_zero, ← Nat.pos_iff_ne_zero, List.countP_pos_iff]
      exact ⟨0, by simp, decide_eq_true hy3⟩
    cases e5 with
    | read m dk st hr hm => exact absurd (show (3 + 1) % (1 + 1) = 0 from rfl) hm
    | set t m dk st ok ws hr hm hs1 =>
      have ht : t = 1 := by simp only at hm; omega
      subst ht
      cases hr with
      | set t m dk st ok ws hr hm hset => simp only at hm; omega
      | read m dk st hr hm =>
        cases hr with
        | read m dk st hr hm => exact absurd (show (1 + 1) % (1 + 1) = 0 from rfl) hm
        | set t m dk st ok' ws' hr hm hs0 =>
          have ht : t = 0 := by simp only at hm; omega
          subst ht
          cases hr with
          | set t m dk st ok ws hr hm hset => simp only at hm; omega
          | read m dk st hr hm =>
            cases hr with
            | start =>
              have hok' : ok' = false := by
                cases ok' with
                | false => rfl
                | true =>
                  have := hs0.1.1 rfl
                  rw [hf0, ht0] at this
                  exact absurd this (by decide)
              subst hok'
              have hw0 := hs0.2.1 rfl
              subst hw0
              have hd0 : (if false = true then (⟨f, []⟩ : Disk) else (⟨f, []⟩ : Disk).writes []) = ⟨f, []⟩ := rfl
              rw [hd0] at hs1 ⊢
              have hok : ok = true := hs1.1.2 (by rw [hf0]; exact ht1)
              subst hok
              obtain ⟨out, o1, o2, -, o4⟩ := hs1.2.2 rfl
              subst o4
              obtain ⟨a, b, rfl⟩ : ∃ a b, out = [a, b] := by
                rcases out with _ | ⟨a, _ | ⟨b, _ | ⟨c, r⟩⟩⟩
                · simp at o1
                · simp at o1
                · exact ⟨a, b, rfl⟩
                · simp at o1
              refine ⟨blockBytes .v17 demoOwner.bytes (UInt32.ofNat 4) b, ?_, ?_⟩
              · rw [blockBytes_length, o2 b (by simp)]; rfl
              · rw [hf0]
                have hr : List.range (1 + 1) = [0, 1] := rfl
                simp only [hr, List.filterMap_cons, List.filterMap_nil]
                rw [if_pos hy3, if_neg hn4]
                simp only [List.getElem?_cons_succ, List.getElem?_cons_zero, Option.map_some]
                rw [show 1 * (1 + 1) + 1 + 1 = 4 from rfl, hp4]
                rfl
  obtain ⟨b, hbl, rfl⟩ := hops
  -- the file afterwards
  have hg : (⟨f, [(5 * 512, b)]⟩ : Disk).file = M ++ (Z ++ (D ++ (M ++ (P ++ b)))) := by
    show File.writeAt f (5 * 512) b = _
    unfold File.writeAt
    rw [if_neg (by intro e; rw [e] at hbl; simp at hbl), hlen, List.take_of_length_le (by rw [hlen]; decide),
      List.drop_eq_nil_of_le (by rw [hlen, hbl]; decide), List.append_nil, ← hf, show 5 * 512 - 2148 = 412 from rfl]
    conv_rhs => rw [hz]
    simp only [List.append_assoc]
  have hs' := hsees (P ++ b)
  have hal : blockLen .v17 ∣ (M ++ (Z ++ (D ++ (M ++ (P ++ b))))).length := by
    simp only [List.length_append, hl0, hzl, hl3, hl2, hbl]
    decide
  obtain ⟨dk', st', h2⟩ := C26_total E laws (some 2) false _ _ _ _ _ hs'
  refine ⟨f, _, dk', st, st', h1, by rw [hg]; exact h2, ?_⟩
  obtain ⟨-, -, -, -, hrep, -⟩ := C38_repair E laws hE _ _ _ _ _ _ _ hs' hal dk' st' h2
  rw [hrep]
  have hex : examined .v17 ⟨1, 1, 2⟩ mp (M ++ (Z ++ (D ++ (M ++ (P ++ b))))) = 4 := by
    unfold examined
    rw [hm]
    rfl
  rw [hex, show 4 / ((⟨1, 1, 2⟩ : Dpb).data + (⟨1, 1, 2⟩ : Dpb).parity) = 1 + 1 from rfl, missingIn_succ,
    show (1 : Nat) = 0 + 1 from rfl, missingIn_succ]
  have hy2 : Present .v17 demoOwner ⟨1, 1, 2⟩ (M ++ (Z ++ (D ++ (M ++ (P ++ b))))) 2 :=
    ⟨List.replicate 496 0, by rw [hp2, (hpieces (P ++ b)).2.2.2.2 0, (pieces_append (v := .v17) P b hl2 0).1]; exact hb2⟩
  have hone : presentIn .v17 demoOwner ⟨1, 1, 2⟩ (M ++ (Z ++ (D ++ (M ++ (P ++ b))))) 0 = 1 := by
    unfold presentIn
    have hr : List.range ((⟨1, 1, 2⟩ : Dpb).data + (⟨1, 1, 2⟩ : Dpb).parity) = [0, 1] := rfl
    rw [hr, List.countP_cons, List.countP_cons, List.countP_nil]
    have e1 : (0 * ((⟨1, 1, 2⟩ : Dpb).data + (⟨1, 1, 2⟩ : Dpb).parity) + 1 + 1) = 2 := rfl
    have e2 : (0 * ((⟨1, 1, 2⟩ : Dpb).data + (⟨1, 1, 2⟩ : Dpb).parity) + 0 + 1) = 1 := rfl
    rw [e1, e2, if_pos (decide_eq_true hy2), if_neg (by rw [decide_eq_true_eq]; exact hn1 _)]
  rw [hone]
  simp

/-! ### Instances -/

/-- C74_complete, C74_again_partial: metadata block and first data block lost. -/
example : ∃ mp, ∃ f : File, ∃ dk st, Sees demoEnv (some 3) f .v17 demoOwner mp demoDpb ∧ repairFile demoEnv (some 3) false f = .ok (some (dk, st)) ∧
    dk.file ≠ f ∧ ValidAt .v17 demoOwner dk.file 0 ∧
    repairFile demoEnv (some 3) false dk.file = .ok (some (⟨dk.file, []⟩,
      ⟨st.metaDecoded + st.metaRepaired, st.dataDecoded + st.dataRepaired, st.repairFailed, 0, 0, st.repairFailed⟩)) := by
  obtain ⟨mp, c, h⟩ := demo_sound
  obtain ⟨f, hz, h2, h3, h5⟩ := demo_damage0 h
  obtain ⟨hc, hd, hr⟩ := case_of_bursts demo_laws demo_calm h (by decide) (bursts := [(0, 2)]) h2 (by decide) (few (by decide)) h3
  have hal : blockLen .v17 ∣ f.length := by rw [h2]; exact h.container.aligned
  obtain ⟨dk, st, r1⟩ := C26_total demoEnv demo_laws (some 3) false f _ _ mp _ hc.sees
  have hnum : blocksFor (blockLen .v17 - 16) (some demoDpb) (List.replicate 1000 (7 : Byte)).length ≤ lastSeqNum := by
    rw [List.length_replicate]; decide
  have hv := (C74_complete demoEnv demo_laws demo_calm _ f _ _ mp _ hc.sees hal dk st r1 _ h.sized hnum).1 0 (by decide)
  refine ⟨mp, f, dk, st, hc.sees, r1, ?_, hv, ?_⟩
  · intro e
    rw [e] at hv
    obtain ⟨sq, p, hb⟩ := hv
    rw [hz] at hb
    exact zeros_not_block hb
  · exact C74_again_partial demoEnv demo_laws demo_calm f _ _ mp demoDpb hc.sees hal (by
      intro sq p hb
      rw [hz] at hb
      exact absurd hb zeros_not_block) dk st r1 _ h.sized hnum demoEnv demo_laws demo_calm false

/-- C74_truncated_violated. -/
example : ∃ f dk dk' st st', repairFile demoEnv (some 2) false f = .ok (some (dk, st)) ∧
    repairFile demoEnv (some 2) false dk.file = .ok (some (dk', st')) ∧ st'.dataRepaired ≠ 0 :=
  C74_truncated_violated demoEnv demo_laws demo_calm

end Verif.Repair
