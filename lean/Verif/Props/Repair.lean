import Verif.Lemmas.RepairScan
import Verif.Lemmas.RepairStats
import Verif.Lemmas.RepairWhole
import Verif.Props.Scan
import Verif.Props.Metadata
import Verif.Props.Decode
/-!
# Properties of `repair`: C25, C26, C27 (and C38 for `repair`)
-/

namespace Verif.Repair
open Format RepairSpec ScanSpec Scan Layout LayoutSpec ContainerSpec FileUtils
open Classical

/-- The reference block of `repair`: the first metadata block met by the scan. -/
theorem ref_inv {E : Env} {f : File} {burst : Option Nat} {pos : Nat} {ref : Block}
    (h : getRefBlockAligned ⟨.mustBe .metadata, none, none, none, none, none, false, burst⟩ (.mustBe .metadata) f E.stopRef (E.stopMeta 0) =
      .ok (pos, ref)) :
    ∃ v uid mp, ref = blockOf v uid 0 mp ∧ IsBlock (f.readAt pos (blockLen v)) v uid 0 mp := by
  unfold getRefBlockAligned at h
  split at h
  · split at h <;> simp at h
  · rename_i x hx
    simp only [Except.ok.injEq] at h
    subst h
    obtain ⟨⟨l, h1, h2⟩, h3⟩ := C34_interrupted f none none false (.mustBe .metadata) E.stopRef _ rfl
    obtain ⟨v, uid, seq, p, hb, rfl⟩ := h3 _ _ hx
    rw [hx] at h2
    have ht := List.find?_some h2.symm
    simp only [decide_eq_true_eq] at ht
    have h0 : seq = 0 := by
      by_contra hne
      simp [blockOf, Block.blockType, hne] at ht
    subst h0
    refine ⟨v, uid, p, rfl, ?_⟩
    rw [range_whole] at hb
    simpa using hb

/-- What `repair` works with once it has begun. -/
structure Setup (E : Env) (burst : Option Nat) (f : File) (v : Version) (uid : Uid) (mp mp' : List Byte) (d : Dpb) (total : Nat) : Prop where
  found : ∃ pos, getRefBlock f none none false (.mustBe .metadata) E.stopRef = some (pos, blockOf v uid 0 mp) ∧
    IsBlock (f.readAt pos (blockLen v)) v uid 0 mp
  rs : v.usesRs = true
  data : firstRsd (metasFromBytes mp) = some d.data
  parity : firstRsp (metasFromBytes mp) = some d.parity
  burst : burstOrGuess burst none false f (blockOf v uid 0 mp) = .ok d.burst
  total : total = match firstFsz (metasFromBytes mp) with
    | some size => totalBlockCount v none (some d) size
    | none => f.length / blockLen v
  rewritten : metasToBytes (metasFromBytes mp) (blockLen v - 16) = some mp'
  size : mp'.length = blockLen v - 16
  same : metasFromBytes mp' = metasFromBytes mp

theorem shards_ok {mp : List Byte} {d : Dpb} (h1 : firstRsd (metasFromBytes mp) = some d.data)
    (h2 : firstRsp (metasFromBytes mp) = some d.parity) : 1 ≤ d.data ∧ 1 ≤ d.parity ∧ d.data + d.parity ≤ 256 := by
  obtain ⟨hs, hok⟩ := C06_parsed_fields_sane mp
  refine ⟨?_, ?_, hok _ _ h1 h2⟩
  · obtain ⟨m, hm, he⟩ := List.exists_of_findSome?_eq_some h1
    have := hs m hm
    cases m <;> simp at he
    simp only [Metadata.Storable] at this
    omega
  · obtain ⟨m, hm, he⟩ := List.exists_of_findSome?_eq_some h2
    have := hs m hm
    cases m <;> simp at he
    simp only [Metadata.Storable] at this
    omega

theorem metas_blockOf (v : Version) (uid : Uid) (mp : List Byte) : (blockOf v uid 0 mp).metas = some (metasFromBytes mp) := by
  simp [blockOf, Block.metas]

theorem totalBlocks_eq (v : Version) (uid : Uid) (mp : List Byte) (d : Dpb) (f : File) :
    totalBlocks (blockOf v uid 0 mp) d f = .ok (match firstFsz (metasFromBytes mp) with
      | some size => totalBlockCount v none (some d) size
      | none => f.length / blockLen v) := by
  unfold totalBlocks
  rw [getFsz_meta (metas_blockOf v uid mp)]
  cases firstFsz (metasFromBytes mp) with
  | none => simp only [blockLen_eq]; rfl
  | some n => rfl

theorem setup_of_ok {E : Env} {burst : Option Nat} {dry : Bool} {f : File} {x : Disk × Stats}
    (h : repairFile E burst dry f = .ok (some x)) :
    ∃ v uid mp mp' d total, Setup E burst f v uid mp mp' d total ∧ repairWith E dry (blockOf v uid 0 mp) d total f = .ok x := by
  unfold repairFile at h
  simp only at h
  split at h
  · simp at h
  · rename_i pos ref href
    obtain ⟨v, uid, mp, rfl, hb⟩ := ref_inv href
    have hfound : getRefBlock f none none false (.mustBe .metadata) E.stopRef = some (pos, blockOf v uid 0 mp) := by
      unfold getRefBlockAligned at href
      split at href
      · split at href <;> simp at href
      · rename_i y hy
        simp only [Except.ok.injEq] at href
        rw [hy, href]
    split at h
    · rename_i hrs
      unfold dataParBurst at h
      rw [if_pos hrs, getRsd_meta (metas_blockOf v uid mp), getRsp_meta (metas_blockOf v uid mp)] at h
      cases h1 : firstRsd (metasFromBytes mp) with
      | none => rw [h1] at h; simp [fieldOrErr] at h
      | some a =>
        cases h2 : firstRsp (metasFromBytes mp) with
        | none => rw [h1, h2] at h; simp [fieldOrErr] at h
        | some b =>
          rw [h1, h2] at h
          simp only [fieldOrErr, Bool.false_eq_true, if_false, Bool.false_and] at h
          cases h3 : burstOrGuess burst none false f (blockOf v uid 0 mp) with
          | error e => rw [h3] at h; simp at h
          | ok c =>
            rw [h3] at h
            simp only at h
            rw [totalBlocks_eq] at h
            simp only at h
            obtain ⟨mp', r1, r2, r3⟩ := C06_parsed_rewritable mp
            have hl := hb.len
            refine ⟨v, uid, mp, mp', ⟨a, b, c⟩, _, ⟨⟨pos, hfound, hb⟩, hrs, h1, h2, h3, rfl, ?_, ?_, r3⟩, ?_⟩
            · rw [← hl]; exact r1
            · rw [r2, hl]
            · split at h
              · simp at h
              · rename_i y hy
                simp only [Except.ok.injEq, Option.some.injEq] at h
                rw [hy, h]
    · simp at h

theorem ok_of_setup {E : Env} {burst : Option Nat} (dry : Bool) {f : File} {v : Version} {uid : Uid} {mp mp' : List Byte} {d : Dpb}
    {total : Nat} (h : Setup E burst f v uid mp mp' d total) {x : Disk × Stats}
    (hx : repairWith E dry (blockOf v uid 0 mp) d total f = .ok x) : repairFile E burst dry f = .ok (some x) := by
  obtain ⟨pos, hp, -⟩ := h.found
  unfold repairFile getRefBlockAligned
  simp only
  rw [hp]
  simp only
  have hv : (blockOf v uid 0 mp).header.version.usesRs = true := h.rs
  rw [if_pos hv]
  unfold dataParBurst
  rw [if_pos hv, getRsd_meta (metas_blockOf v uid mp), getRsp_meta (metas_blockOf v uid mp), h.data, h.parity]
  simp only [fieldOrErr, Bool.false_eq_true, if_false, Bool.false_and]
  rw [h.burst]
  simp only
  rw [totalBlocks_eq, ← h.total]
  simp only
  rw [hx]

/-- Everything about a run of `repair` that has begun. -/
theorem run_of_setup {E : Env} (laws : E.rs.Laws) {burst : Option Nat} (dry : Bool) {f : File} {v : Version} {uid : Uid}
    {mp mp' : List Byte} {d : Dpb} {total : Nat} (h : Setup E burst f v uid mp mp' d total) :
    ∃ dk st dk1 st1 n m, repairWith E dry (blockOf v uid 0 mp) d total f = .ok (dk, st) ∧
      (dk1, st1) = ((metaCopies (some true) (some d)).take n).foldl (metaOne v uid (blockBytes v uid.bytes 0 mp') dry) (⟨f, []⟩, Stats.zero) ∧
      n ≤ 1 + d.parity ∧ (n = 1 + d.parity ∨ E.stopMeta n = true) ∧ Run E.rs v uid d dry dk1 st1 m dk st ∧
      (m = lastSeqNum ∨ E.stopData (m + 1) = true ∨ total ≤ st1.blocks + m) ∧ (m = 0 ∨ st1.blocks + m ≤ total) ∧ m ≤ lastSeqNum ∧
      (m = 0 ∨ E.stopData 1 = false) := by
  obtain ⟨h1, h2, h3⟩ := shards_ok h.data h.parity
  exact repairWith_spec E laws (ref := blockOf v uid 0 mp) h1 h2 h3 rfl (ms := metasFromBytes mp) (by simp [blockOf]) h.rewritten h.size
    dry total f

theorem ops_of_setup {E : Env} (laws : E.rs.Laws) {burst : Option Nat} {dry : Bool} {f : File} {v : Version} {uid : Uid}
    {mp mp' : List Byte} {d : Dpb} {total : Nat} (h : Setup E burst f v uid mp mp' d total) {dk : Disk} {st : Stats}
    (hr : repairWith E dry (blockOf v uid 0 mp) d total f = .ok (dk, st)) :
    dk.init = f ∧ (dry = true → dk.ops = []) ∧ ∃ top, ∀ w ∈ dk.ops, OpOk v uid d (blockBytes v uid.bytes 0 mp') f top w := by
  obtain ⟨dk', st', dk1, st1, n, m, e1, e2, e3, e4, e5, e6, e7, e8, -⟩ := run_of_setup laws dry h
  rw [hr] at e1
  cases e1
  obtain ⟨h1, h2, h3⟩ := shards_ok h.data h.parity
  have hmb : (blockBytes v uid.bytes 0 mp').length = blockLen v := by
    rw [blockBytes_length, h.size]; have := h16 v; omega
  obtain ⟨ws, f1, f2, f3, f4, f5⟩ := meta_ops (uid := uid) (d := d) hmb dry f ((metaCopies (some true) (some d)).take n)
    ((metaCopies_nodup d).sublist (List.take_sublist _ _)) (fun k hk => List.mem_of_mem_take hk)
  rw [← e2] at f1
  simp only at f1
  subst f1
  obtain ⟨ws', g1, g2, g3⟩ := e5.ops h1 hmb (by
    intro w hw
    obtain ⟨k, hk, x⟩ := f4 w hw
    exact ⟨k, List.mem_of_mem_take hk, x⟩)
  rw [g1]
  refine ⟨rfl, ?_, _, g3⟩
  intro hdry
  simp [f3 hdry, g2 hdry]

/-! ### C26 -/

/-- **C26.** `repair` finds a metadata block in the file and everything it writes is either a metadata block with the same fields,
at a metadata place where there is no valid block of the container, or the block with some number at the place of that number, where
it is missing; and it writes the latter only in sets with enough blocks left.  Whatever the file contains, whenever the command is
interrupted, dry run or not.  (`fill`: if the file ends with a part of a block, then this part counts as filled up with zeros, because
that happens as soon as something is written behind it.) -/
theorem C26_only_missing (E : Env) (laws : E.rs.Laws) (burst : Option Nat) (dry : Bool) (f : File) (dk : Disk) (st : Stats)
    (h : repairFile E burst dry f = .ok (some (dk, st))) :
    ∃ v uid mp mp' d pos, IsBlock (f.readAt pos (blockLen v)) v uid 0 mp ∧ metasFromBytes mp' = metasFromBytes mp ∧
      firstRsd (metasFromBytes mp) = some d.data ∧ firstRsp (metasFromBytes mp) = some d.parity ∧ (∀ b, burst = some b → d.burst = b) ∧
      dk.init = f ∧ ∀ w ∈ dk.ops,
        (∃ k ∈ metaCopies (some true) (some d), ¬ ValidAt v uid f k ∧ w = (k * blockLen v, blockBytes v uid.bytes 0 mp')) ∨
        ∃ s payload, 1 ≤ s ∧ ¬ Present v uid d f s ∧ payload.length = blockLen v - 16 ∧
          d.data ≤ presentIn v uid d (fill v f) ((s - 1) / (d.data + d.parity)) ∧
          w = (placeOf d s * blockLen v, blockBytes v uid.bytes (UInt32.ofNat s) payload) := by
  obtain ⟨v, uid, mp, mp', d, total, hs, hr⟩ := setup_of_ok h
  obtain ⟨h1, -, top, h3⟩ := ops_of_setup laws hs hr
  obtain ⟨pos, -, hb⟩ := hs.found
  refine ⟨v, uid, mp, mp', d, pos, hb, hs.same, hs.data, hs.parity, ?_, h1, ?_⟩
  · rintro b rfl
    have := hs.burst
    simp only [burstOrGuess, Except.ok.injEq] at this
    exact this.symm
  · intro w hw
    rcases h3 w hw with h | ⟨s, p, a1, -, a3⟩
    · exact .inl h
    · exact .inr ⟨s, p, a1, a3⟩

/-- What `repair` takes the container to be: `mp` is the payload of the metadata block found by the scan, `d` consists of the shard
counts recorded there and the burst level given or guessed. -/
structure Sees (E : Env) (burst : Option Nat) (f : File) (v : Version) (uid : Uid) (mp : List Byte) (d : Dpb) : Prop where
  found : ∃ pos, getRefBlock f none none false (.mustBe .metadata) E.stopRef = some (pos, blockOf v uid 0 mp) ∧
    IsBlock (f.readAt pos (blockLen v)) v uid 0 mp
  rs : v.usesRs = true
  data : firstRsd (metasFromBytes mp) = some d.data
  parity : firstRsp (metasFromBytes mp) = some d.parity
  burst : burst = some d.burst ∨ burst = none ∧ guessBurst f none false (blockOf v uid 0 mp) = .ok (some d.burst)

theorem Setup.sees {E : Env} {burst : Option Nat} {f : File} {v : Version} {uid : Uid} {mp mp' : List Byte} {d : Dpb} {total : Nat}
    (h : Setup E burst f v uid mp mp' d total) : Sees E burst f v uid mp d := by
  refine ⟨h.found, h.rs, h.data, h.parity, ?_⟩
  have := h.burst
  unfold burstOrGuess at this
  split at this
  · rename_i b
    simp only [Except.ok.injEq] at this
    rw [this]; exact .inl rfl
  · rw [if_pos (show (blockOf v uid 0 mp).header.version.usesRs = true from h.rs)] at this
    split at this
    · simp at this
    · split at this
      · simp at this
      · simp at this
      · rename_i hg
        simp only [Except.ok.injEq] at this
        rw [this] at hg
        exact .inr ⟨rfl, hg⟩

theorem Sees.setup {E : Env} {burst : Option Nat} {f : File} {v : Version} {uid : Uid} {mp : List Byte} {d : Dpb}
    (h : Sees E burst f v uid mp d) : ∃ mp' total, Setup E burst f v uid mp mp' d total := by
  obtain ⟨mp', r1, r2, r3⟩ := C06_parsed_rewritable mp
  obtain ⟨pos, hp, hb⟩ := h.found
  have hl := hb.len
  rw [hl] at r1 r2
  refine ⟨mp', _, ⟨h.found, h.rs, h.data, h.parity, ?_, rfl, r1, r2, r3⟩⟩
  unfold burstOrGuess
  rcases h.burst with rfl | ⟨rfl, hg⟩
  · rfl
  · simp only
    rw [if_pos (show (blockOf v uid 0 mp).header.version.usesRs = true from h.rs), if_neg (by simp [blockOf, Block.blockType]), hg]

/-- What `repair` takes the container to be is determined. -/
theorem sees_of_ok {E : Env} {burst : Option Nat} {dry : Bool} {f : File} {x : Disk × Stats} (h : repairFile E burst dry f = .ok (some x)) :
    ∃ v uid mp d, Sees E burst f v uid mp d := by
  obtain ⟨v, uid, mp, mp', d, total, hs, -⟩ := setup_of_ok h
  exact ⟨v, uid, mp, d, hs.sees⟩

theorem ops_of_sees {E : Env} (laws : E.rs.Laws) {burst : Option Nat} {dry : Bool} {f : File} {v : Version} {uid : Uid} {mp : List Byte}
    {d : Dpb} {dk : Disk} {st : Stats} (hs : Sees E burst f v uid mp d) (h : repairFile E burst dry f = .ok (some (dk, st))) :
    1 ≤ d.data ∧ dk.init = f ∧ ∃ top mp', mp'.length = blockLen v - 16 ∧
      ∀ w ∈ dk.ops, OpOk v uid d (blockBytes v uid.bytes 0 mp') f top w := by
  obtain ⟨mp', total, hset⟩ := hs.setup
  obtain ⟨dk', st', -, -, -, -, hr, -⟩ := run_of_setup laws dry hset
  rw [ok_of_setup dry hset hr] at h
  simp only [Except.ok.injEq, Option.some.injEq, Prod.mk.injEq] at h
  obtain ⟨rfl, rfl⟩ := h
  obtain ⟨h1, -, top, h3⟩ := ops_of_setup laws hset hr
  exact ⟨(shards_ok hs.data hs.parity).1, h1, top, mp', hset.size, h3⟩

/-- **C26.** `repair` always gets to its end once it has found a metadata block with shard counts and a burst level: there is no
file that makes it fail half-way or panic. -/
theorem C26_total (E : Env) (laws : E.rs.Laws) (burst : Option Nat) (dry : Bool) (f : File) (v : Version) (uid : Uid) (mp : List Byte)
    (d : Dpb) (hs : Sees E burst f v uid mp d) : ∃ dk st, repairFile E burst dry f = .ok (some (dk, st)) := by
  obtain ⟨mp', total, hset⟩ := hs.setup
  obtain ⟨dk', st', -, -, -, -, hr, -⟩ := run_of_setup laws dry hset
  exact ⟨dk', st', ok_of_setup dry hset hr⟩

/-- **C26.** Blocks that are there are not changed: neither valid blocks at metadata places nor data and parity blocks at their places. -/
theorem C26_valid_kept (E : Env) (laws : E.rs.Laws) (burst : Option Nat) (dry : Bool) (f : File) (v : Version) (uid : Uid)
    (mp : List Byte) (d : Dpb) (hs : Sees E burst f v uid mp d) (dk : Disk) (st : Stats)
    (h : repairFile E burst dry f = .ok (some (dk, st))) :
    (∀ k ∈ metaCopies (some true) (some d), ValidAt v uid f k → piece v dk.file k = piece v f k) ∧
    ∀ s, 1 ≤ s → Present v uid d f s → piece v dk.file (placeOf d s) = piece v f (placeOf d s) := by
  obtain ⟨hd, h1, top, mp', h2, h3⟩ := ops_of_sees laws hs h
  have hv : Valid (some d) := by intro x hx; cases hx; exact hd
  have hmb : (blockBytes v uid.bytes 0 mp').length = blockLen v := by
    rw [blockBytes_length, h2]; have := h16 v; omega
  have hfile : dk.file = f.writes dk.ops := by rw [← h1]; rfl
  constructor
  · intro k hk hval
    obtain ⟨sq, p, hb⟩ := id hval
    rw [hfile]
    refine piece_writes_full ?_ (isBlock_length hb)
    intro w hw
    refine ⟨(h3 w hw).length hmb, ?_⟩
    rcases h3 w hw with ⟨j, _, hnv, rfl⟩ | ⟨s, p', a1, _, _, _, _, rfl⟩
    · exact ⟨j, fun e => hnv (e ▸ hval), rfl⟩
    · exact ⟨_, fun e => C10_data_not_meta (some true) (some d) hv s a1 (by rw [← placeOf_eq, e]; exact hk), rfl⟩
  · intro s hs1 hval
    obtain ⟨p, hb⟩ := id hval
    rw [hfile]
    refine piece_writes_full ?_ (isBlock_length hb)
    intro w hw
    refine ⟨(h3 w hw).length hmb, ?_⟩
    rcases h3 w hw with ⟨j, hj, hnv, rfl⟩ | ⟨s', p', a1, _, a3, _, _, rfl⟩
    · exact ⟨j, fun e => C10_data_not_meta (some true) (some d) hv s hs1 (by rw [← placeOf_eq, ← e]; exact hj), rfl⟩
    · refine ⟨_, fun e => ?_, rfl⟩
      have := C10_data_injective none (some d) hv s' s a1 hs1 e
      subst this
      exact a3 hval

/-- **C26.** In a set that has too few blocks left nothing is written (a part of a block at the very end of the file may get filled
up with zeros). -/
theorem C26_lost_sets (E : Env) (laws : E.rs.Laws) (burst : Option Nat) (dry : Bool) (f : File) (v : Version) (uid : Uid)
    (mp : List Byte) (d : Dpb) (hs : Sees E burst f v uid mp d) (dk : Disk) (st : Stats)
    (h : repairFile E burst dry f = .ok (some (dk, st))) (t : Nat) (ht : presentIn v uid d (fill v f) t < d.data) (j : Nat)
    (hj : j < d.data + d.parity) :
    (∀ w ∈ dk.ops, w.1 ≠ placeOf d (t * (d.data + d.parity) + j + 1) * blockLen v) ∧
    ((piece v f (placeOf d (t * (d.data + d.parity) + j + 1))).length = blockLen v →
      piece v dk.file (placeOf d (t * (d.data + d.parity) + j + 1)) = piece v f (placeOf d (t * (d.data + d.parity) + j + 1))) := by
  obtain ⟨hd, h1, top, mp', h2, h3⟩ := ops_of_sees laws hs h
  have hv : Valid (some d) := by intro x hx; cases hx; exact hd
  have hmb : (blockBytes v uid.bytes 0 mp').length = blockLen v := by
    rw [blockBytes_length, h2]; have := h16 v; omega
  have hfile : dk.file = f.writes dk.ops := by rw [← h1]; rfl
  have hsp : Spares v (placeOf d (t * (d.data + d.parity) + j + 1)) dk.ops := by
    intro w hw
    refine ⟨(h3 w hw).length hmb, ?_⟩
    rcases h3 w hw with ⟨k, hk, hnv, rfl⟩ | ⟨s', p', a1, _, a3, _, a5, rfl⟩
    · exact ⟨k, fun e => C10_data_not_meta (some true) (some d) hv (t * (d.data + d.parity) + j + 1) (by omega) (by
        rw [← placeOf_eq, ← e]; exact hk), rfl⟩
    · refine ⟨_, fun e => ?_, rfl⟩
      have := C10_data_injective none (some d) hv s' _ a1 (by omega) e
      subst this
      rw [Nat.add_sub_cancel, (divmod_eq hj).1] at a5
      omega
  constructor
  · intro w hw e
    obtain ⟨_, i, hi, hw1⟩ := hsp w hw
    rw [hw1] at e
    exact hi (Nat.eq_of_mul_eq_mul_right (blockLen_pos v) e)
  · intro hl
    rw [hfile]
    exact piece_writes_full hsp hl

/-- **C26.** Where nothing is missing nothing is written: if every metadata place holds a valid block and every set is complete (or
beyond repair), the file is not touched. -/
theorem C26_undamaged (E : Env) (laws : E.rs.Laws) (burst : Option Nat) (dry : Bool) (f : File) (v : Version) (uid : Uid)
    (mp : List Byte) (d : Dpb) (hs : Sees E burst f v uid mp d) (dk : Disk) (st : Stats)
    (h : repairFile E burst dry f = .ok (some (dk, st)))
    (hmeta : ∀ k ∈ metaCopies (some true) (some d), ValidAt v uid f k)
    (hsets : ∀ t, (∀ j < d.data + d.parity, Present v uid d f (t * (d.data + d.parity) + j + 1)) ∨
      presentIn v uid d (fill v f) t < d.data) :
    dk.ops = [] ∧ dk.file = f := by
  obtain ⟨hd, h1, top, mp', h2, h3⟩ := ops_of_sees laws hs h
  have hn : 0 < d.data + d.parity := by omega
  have : dk.ops = [] := by
    rw [List.eq_nil_iff_forall_not_mem]
    intro w hw
    rcases h3 w hw with ⟨k, hk, hnv, rfl⟩ | ⟨s, p', a1, _, a3, _, a5, rfl⟩
    · exact hnv (hmeta k hk)
    · rcases hsets ((s - 1) / (d.data + d.parity)) with h | h
      · have := h ((s - 1) % (d.data + d.parity)) (Nat.mod_lt _ hn)
        rw [Nat.mul_comm, Nat.div_add_mod] at this
        rw [show s - 1 + 1 = s by omega] at this
        exact a3 this
      · omega
  exact ⟨this, by rw [Disk.file, this, h1]; rfl⟩

/-! ### C25 -/

/-- The command is not interrupted. -/
structure Env.Calm (E : Env) : Prop where
  ref : ∀ k, E.stopRef k = false
  metas : ∀ k, E.stopMeta k = false
  data : ∀ k, E.stopData k = false

/-- The situation of C25: `c` is the container of `bytes` with `d.data + d.parity` shards, its metadata block consists of its fields
and padding and records the size; the file at hand is `f`, in which a copy of the metadata block is found. -/
structure Case (E : Env) (burst : Option Nat) (v : Version) (uid : Uid) (d : Dpb) (bytes mp : List Byte) (c f : File) : Prop where
  container : IsContainer E.rs v uid.bytes true (some d) bytes (blockBytes v uid.bytes 0 mp) c
  numbers : (payloads E.rs v (some d) (fileChunks v bytes)).length ≤ lastSeqNum
  plain : metasToBytes (metasFromBytes mp) (blockLen v - 16) = some mp
  sized : firstFsz (metasFromBytes mp) = some bytes.length
  sees : Sees E burst f v uid mp d

theorem payloads_count {rs : RsCodec} (laws : rs.Laws) {v : Version} {d : Dpb} (h1 : 1 ≤ d.data) (h2 : 1 ≤ d.parity)
    (h3 : d.data + d.parity ≤ 256) (bytes : List Byte) :
    (payloads rs v (some d) (fileChunks v bytes)).length = blocksFor v.dataSize (some d) bytes.length ∧
    ∀ p ∈ payloads rs v (some d) (fileChunks v bytes), p.length = blockLen v - 16 := by
  have hrs : RsLen rs v (some d) := by
    intro x hx sh e1 e2
    cases hx
    exact laws.encode_length _ _ _ _ h1 h2 h3 e1 e2
  have hval : Valid (some d) := by intro x hx; cases hx; exact h1
  have hds := dataSize_pos v
  obtain ⟨e1, e2⟩ := payloads_spec hrs hval (cs := fileChunks v bytes) (by
    intro c hcm
    unfold fileChunks at hcm
    rw [← dataSize_eq] at hcm
    exact (mem_chunksOf _ c hcm).2.1)
  rw [← dataSize_eq]
  refine ⟨?_, e2⟩
  rw [e1]
  unfold blockCount blocksFor fileChunks
  rw [← dataSize_eq, chunksOf_length hds]

/-- What `repair` does to the sets of a damaged container, one by one, if there may be more in the file than the container. -/
theorem sets_restored_in {E : Env} (laws : E.rs.Laws) (hE : E.Calm) {burst : Option Nat} {v : Version} {uid : Uid} {d : Dpb}
    {bytes mp : List Byte} {c f : File} {e : Nat} (hsees : Sees E burst f v uid mp d)
    (hnum : (payloads E.rs v (some d) (fileChunks v bytes)).length ≤ lastSeqNum)
    (hplain : metasToBytes (metasFromBytes mp) (blockLen v - 16) = some mp) (hsized : firstFsz (metasFromBytes mp) = some bytes.length)
    (hc : Filed v uid d (payloads E.rs v (some d) (fileChunks v bytes)) e c)
    (hmetas : ∀ k ∈ metaCopies (some true) (some d), piece v c k = blockBytes v uid.bytes 0 mp ∧ (k + 1) * blockLen v ≤ e)
    (hdam : Damaged v uid d (payloads E.rs v (some d) (fileChunks v bytes)).length c f) :
    ∃ dk st, repairFile E burst false f = .ok (some (dk, st)) ∧
      ((∀ t, t * (d.data + d.parity) < (payloads E.rs v (some d) (fileChunks v bytes)).length → d.data ≤ unchangedIn v d c f t) →
        st.repairFailed = 0) ∧ Near v c f dk.file ∧
      (∀ k ∈ metaCopies (some true) (some d), piece v dk.file k = piece v c k) ∧
      (∀ t, t * (d.data + d.parity) < (payloads E.rs v (some d) (fileChunks v bytes)).length → d.data ≤ unchangedIn v d c f t →
        ∀ j < d.data + d.parity,
          piece v dk.file (placeOf d (t * (d.data + d.parity) + j + 1)) = piece v c (placeOf d (t * (d.data + d.parity) + j + 1))) ∧
      dk.init = f ∧ ∀ w ∈ dk.ops, OpIn v c e w := by
  obtain ⟨h1, h2, h3⟩ := shards_ok hsees.data hsees.parity
  have hval : Valid (some d) := by intro x hx; cases hx; exact h1
  obtain ⟨hcnt, hps⟩ := payloads_count laws (v := v) h1 h2 h3 bytes
  obtain ⟨mp', total, hset⟩ := hsees.setup
  have hmp' : mp' = mp := by
    have := hset.rewritten
    rw [hplain] at this
    exact (Option.some.inj this).symm
  subst hmp'
  obtain ⟨dk, st, dk1, st1, n, m, e1, e2, e3, e4, e5, e6, e7, e8, -⟩ := run_of_setup laws false hset
  have hn : n = 1 + d.parity := by
    rcases e4 with e4 | e4
    · exact e4
    · rw [hE.metas] at e4; simp at e4
  have hml : (metaCopies (some true) (some d)).length = 1 + d.parity := by unfold metaCopies; simp
  rw [hn, ← hml, List.take_length] at e2
  obtain ⟨m1, m2, m3, -, m5, m6⟩ := meta_filed hc hmetas hdam (metaCopies (some true) (some d)) ⟨f, []⟩ Stats.zero
    (fun k hk => hk) (Near.refl hdam.short)
  rw [← e2] at m1 m2 m3 m5 m6
  simp only at m1 m2 m3 m5 m6
  have htot : total = (1 + d.parity) + (payloads E.rs v (some d) (fileChunks v bytes)).length := by
    rw [hset.total, hsized]
    simp only
    rw [totalBlockCount, dataBlockCount_eq v (some d) hval, hcnt]
    rfl
  have hb1 : st1.blocks = 1 + d.parity := by rw [m2, hml]; simp [Stats.zero, Stats.blocks]
  have hm : m = (payloads E.rs v (some d) (fileChunks v bytes)).length := by
    rw [hb1, htot] at e6 e7
    rcases e6 with e6 | e6 | e6
    · omega
    · rw [hE.data] at e6; simp at e6
    · omega
  have hn0 : 0 < d.data + d.parity := by omega
  have hdiv : ∀ t, t < m / (d.data + d.parity) ↔ t * (d.data + d.parity) < m := by
    intro t
    have hq : m = m / (d.data + d.parity) * (d.data + d.parity) := by
      rw [hm, hcnt]
      unfold blocksFor
      simp only
      rw [Nat.mul_div_cancel _ hn0]
    constructor
    · intro ht
      have h1 : (t + 1) * (d.data + d.parity) ≤ m / (d.data + d.parity) * (d.data + d.parity) := Nat.mul_le_mul_right _ ht
      rw [Nat.succ_mul] at h1
      omega
    · intro ht
      rw [hq] at ht
      exact Nat.lt_of_mul_lt_mul_right ht
  obtain ⟨r1, r2, r3, r4, r5⟩ := sets_filed h1 hc (fun t ht _ => payloads_set laws h1 h2 h3 bytes t ht) hdam m1 e5 (by omega)
  have hok := ok_of_setup false hset e1
  refine ⟨dk, st, hok, fun hrec => ?_, r1, fun k hk => r3 k (m5 k hk), ?_, (ops_of_sees laws hsees hok).2.1, r5 (m6 (by simp))⟩
  · rw [r2 fun t ht => hrec t (hm ▸ (hdiv t).1 ht), m3]
    rfl
  · intro t ht hr j hj
    exact r4 t ((hdiv t).2 (hm ▸ ht)) hr j hj

/-- What `repair` does to the sets of a damaged container, one by one. -/
theorem sets_restored {E : Env} (laws : E.rs.Laws) (hE : E.Calm) {burst : Option Nat} {v : Version} {uid : Uid} {d : Dpb}
    {bytes mp : List Byte} {c f : File} (h : Case E burst v uid d bytes mp c f)
    (hdam : Damaged v uid d (payloads E.rs v (some d) (fileChunks v bytes)).length c f) :
    ∃ dk st, repairFile E burst false f = .ok (some (dk, st)) ∧
      ((∀ t, t * (d.data + d.parity) < (payloads E.rs v (some d) (fileChunks v bytes)).length → d.data ≤ unchangedIn v d c f t) →
        st.repairFailed = 0) ∧ Near v c f dk.file ∧
      (∀ k ∈ metaCopies (some true) (some d), piece v dk.file k = piece v c k) ∧
      ∀ t, t * (d.data + d.parity) < (payloads E.rs v (some d) (fileChunks v bytes)).length → d.data ≤ unchangedIn v d c f t →
        ∀ j < d.data + d.parity,
          piece v dk.file (placeOf d (t * (d.data + d.parity) + j + 1)) = piece v c (placeOf d (t * (d.data + d.parity) + j + 1)) := by
  obtain ⟨h1, h2, h3⟩ := shards_ok h.sees.data h.sees.parity
  obtain ⟨hcnt, hps⟩ := payloads_count laws (v := v) h1 h2 h3 bytes
  obtain ⟨dk, st, a1, a2, a3, a4, a5, -⟩ := sets_restored_in laws hE h.sees h.numbers h.plain h.sized (image_filed h.container hps)
    (fun k hk => image_meta h.container (metasToBytes_length h.plain) hk) hdam
  exact ⟨dk, st, a1, a2, a3, a4, a5⟩

theorem blocks_restored {E : Env} (laws : E.rs.Laws) (hE : E.Calm) {burst : Option Nat} {v : Version} {uid : Uid} {d : Dpb}
    {bytes mp : List Byte} {c f : File} (h : Case E burst v uid d bytes mp c f)
    (hdam : Damaged v uid d (payloads E.rs v (some d) (fileChunks v bytes)).length c f)
    (hrec : ∀ t, t * (d.data + d.parity) < (payloads E.rs v (some d) (fileChunks v bytes)).length → d.data ≤ unchangedIn v d c f t) :
    ∃ dk st, repairFile E burst false f = .ok (some (dk, st)) ∧ st.repairFailed = 0 ∧ Near v c f dk.file ∧
      (∀ k ∈ metaCopies (some true) (some d), piece v dk.file k = piece v c k) ∧
      ∀ s, 1 ≤ s → s ≤ (payloads E.rs v (some d) (fileChunks v bytes)).length →
        piece v dk.file (placeOf d s) = piece v c (placeOf d s) := by
  obtain ⟨dk, st, a1, a2, a3, a4, a5⟩ := sets_restored laws hE h hdam
  refine ⟨dk, st, a1, a2 hrec, a3, a4, ?_⟩
  intro s hs1 hs2
  have hn : 0 < d.data + d.parity := by have := (shards_ok h.sees.data h.sees.parity).1; omega
  have e := Nat.div_add_mod (s - 1) (d.data + d.parity)
  have hmod := Nat.mod_lt (s - 1) hn
  rw [Nat.mul_comm] at e
  have hlt : (s - 1) / (d.data + d.parity) * (d.data + d.parity) < (payloads E.rs v (some d) (fileChunks v bytes)).length := by omega
  have := a5 _ hlt (hrec _ hlt) _ hmod
  rwa [show (s - 1) / (d.data + d.parity) * (d.data + d.parity) + (s - 1) % (d.data + d.parity) + 1 = s by omega] at this

/-- **C25.** If every set of the container has lost at most `parity` of its blocks and a copy of the metadata block is found, an
uninterrupted `repair` puts every metadata, data and parity block back, byte for byte, and reports no failure. -/
theorem C25_blocks_restored (E : Env) (laws : E.rs.Laws) (hE : E.Calm) (burst : Option Nat) (v : Version) (uid : Uid) (d : Dpb)
    (bytes mp : List Byte) (c f : File) (h : Case E burst v uid d bytes mp c f)
    (hdam : Damaged v uid d (payloads E.rs v (some d) (fileChunks v bytes)).length c f)
    (hrec : ∀ t, t * (d.data + d.parity) < (payloads E.rs v (some d) (fileChunks v bytes)).length → d.data ≤ unchangedIn v d c f t) :
    ∃ dk st, repairFile E burst false f = .ok (some (dk, st)) ∧ st.repairFailed = 0 ∧
      (∀ k ∈ metaCopies (some true) (some d), piece v dk.file k = piece v c k) ∧
      ∀ s, 1 ≤ s → s ≤ (payloads E.rs v (some d) (fileChunks v bytes)).length →
        piece v dk.file (placeOf d s) = piece v c (placeOf d s) := by
  obtain ⟨dk, st, a, b, -, e, g⟩ := blocks_restored laws hE h hdam hrec
  exact ⟨dk, st, a, b, e, g⟩

/-- **C25.** If moreover there are still only zeros between the blocks, the whole file is again the container. -/
theorem C25_restores (E : Env) (laws : E.rs.Laws) (hE : E.Calm) (burst : Option Nat) (v : Version) (uid : Uid) (d : Dpb)
    (bytes mp : List Byte) (c f : File) (h : Case E burst v uid d bytes mp c f)
    (hdam : Damaged v uid d (payloads E.rs v (some d) (fileChunks v bytes)).length c f)
    (hgaps : GapsClean v d (payloads E.rs v (some d) (fileChunks v bytes)).length f)
    (hrec : ∀ t, t * (d.data + d.parity) < (payloads E.rs v (some d) (fileChunks v bytes)).length → d.data ≤ unchangedIn v d c f t) :
    ∃ dk st, repairFile E burst false f = .ok (some (dk, st)) ∧ st.repairFailed = 0 ∧ dk.file = c := by
  obtain ⟨dk, st, a, b, e, g, k⟩ := blocks_restored laws hE h hdam hrec
  obtain ⟨h1, h2, h3⟩ := shards_ok h.sees.data h.sees.parity
  obtain ⟨-, hps⟩ := payloads_count laws (v := v) h1 h2 h3 bytes
  obtain ⟨pos, -, hb⟩ := h.sees.found
  exact ⟨dk, st, a, b, near_complete h.container hps hb.len hgaps e g k⟩

theorem not_zeros_data {v : Version} {uid : Uid} {d : Dpb} {ps : List (List Byte)} {mb : List Byte} {c : File}
    (hc : Image v uid.bytes (some true) (some d) ps mb c) {mp : List Byte} (hmb : mb = blockBytes v uid.bytes 0 mp)
    (hmp : mp.length = blockLen v - 16) (hps : ∀ p ∈ ps, p.length = blockLen v - 16) (k : Nat) (hk : k * blockLen v < c.length) :
    (k ∈ metaCopies (some true) (some d) ∧ IsBlock (piece v c k) v uid 0 mp) ∨
    (∃ s p, 1 ≤ s ∧ s ≤ ps.length ∧ placeOf d s = k ∧ IsBlock (piece v c k) v uid (UInt32.ofNat s) p) ∨
    piece v c k = List.replicate (blockLen v) 0 := by
  subst hmb
  by_cases h1 : k ∈ metaCopies (some true) (some d)
  · exact .inl ⟨h1, hc.metas k h1, hmp⟩
  · by_cases h2 : ∃ s, 1 ≤ s ∧ s ≤ ps.length ∧ placeOf d s = k
    · obtain ⟨s, a, b, rfl⟩ := h2
      obtain ⟨p, -, hp, -⟩ := image_data hc hps a b
      exact .inr (.inl ⟨s, p, a, b, rfl, hp⟩)
    · exact .inr (.inr (hc.gaps k hk h1 fun i hi e => h2 ⟨i + 1, by omega, by omega, e⟩))

/-- The container of `bytes` and its metadata, apart from any file at hand. -/
structure Sound (rs : RsCodec) (v : Version) (uid : Uid) (d : Dpb) (bytes mp : List Byte) (c : File) : Prop where
  container : IsContainer rs v uid.bytes true (some d) bytes (blockBytes v uid.bytes 0 mp) c
  numbers : (payloads rs v (some d) (fileChunks v bytes)).length ≤ lastSeqNum
  plain : metasToBytes (metasFromBytes mp) (blockLen v - 16) = some mp
  sized : firstFsz (metasFromBytes mp) = some bytes.length
  rs : v.usesRs = true
  data : firstRsd (metasFromBytes mp) = some d.data
  parity : firstRsp (metasFromBytes mp) = some d.parity

/-- What is left of a container with at least one of its metadata blocks is recognized, whatever follows it. -/
theorem found_of_damage {E : Env} (laws : E.rs.Laws) (hE : E.Calm) {v : Version} {uid : Uid} {d : Dpb} {bytes mp : List Byte} {c f : File}
    (h : Sound E.rs v uid d bytes mp c) (hlen : f.length = c.length)
    (hdmg : ∀ k, piece v f k = piece v c k ∨ Broken v (piece v f k))
    (hmeta : ∃ k ∈ metaCopies (some true) (some d), piece v f k = piece v c k) (z : File) :
    ∃ pos, getRefBlock (f ++ z) none none false (.mustBe .metadata) E.stopRef = some (pos, blockOf v uid 0 mp) ∧
      IsBlock (File.readAt (f ++ z) pos (blockLen v)) v uid 0 mp := by
  obtain ⟨h1, h2, h3⟩ := shards_ok h.data h.parity
  obtain ⟨hcnt, hps⟩ := payloads_count laws (v := v) h1 h2 h3 bytes
  have hmp : mp.length = blockLen v - 16 := by
    have := h.plain
    exact metasToBytes_length this
  have hal : blockLen v ∣ f.length := by rw [hlen]; exact h.container.aligned
  have hcases := not_zeros_data h.container rfl hmp hps
  have hmeta_in : ∀ k ∈ metaCopies (some true) (some d), k * blockLen v < c.length := by
    intro k hk
    have := (image_meta h.container hmp hk).2
    have hu := blockLen_pos v
    rw [Nat.succ_mul] at this
    omega
  exact found_of_places_append (v := v) (uid := uid) (mp := mp) hal hE.ref (by
    intro k hk
    rcases hdmg k with hh | hh
    · rw [hh]
      rcases hcases k (by omega) with ⟨-, e⟩ | ⟨s, p, -, -, -, e⟩ | e
      · exact .inl ⟨_, _, e⟩
      · exact .inl ⟨_, _, e⟩
      · rw [e]; exact .inr (.inl (dead_zeros _))
    · exact .inr hh) (by
    intro k p hk hb
    rcases hdmg k with hh | hh
    · rw [hh] at hb
      rcases hcases k (by omega) with ⟨-, e⟩ | ⟨s, p', a, b, -, e⟩ | e
      · exact (isBlock_seq hb e).2
      · exfalso
        have := (isBlock_seq hb e).1
        have h4 := congrArg UInt32.toNat this
        have hnum := h.numbers
        unfold lastSeqNum at hnum
        rw [UInt32.toNat_ofNat_of_lt' (by show s < 2 ^ 32; omega)] at h4
        simp at h4
        omega
      · rw [e] at hb; exact absurd hb zeros_not_block
    · exact absurd hb (Broken.not_block hh)) (by
    obtain ⟨k, hk, hh⟩ := hmeta
    have hkin := hmeta_in k hk
    refine ⟨k, by omega, ?_⟩
    rw [hh]
    exact ⟨h.container.metas k hk, hmp⟩) z

/-- What is left of a container with at least one of its metadata blocks. -/
theorem case_of_damage {E : Env} (laws : E.rs.Laws) (hE : E.Calm) {v : Version} {uid : Uid} {d : Dpb} {bytes mp : List Byte} {c f : File}
    (h : Sound E.rs v uid d bytes mp c) (hlen : f.length = c.length)
    (hdmg : ∀ k, piece v f k = piece v c k ∨ Broken v (piece v f k))
    (hmeta : ∃ k ∈ metaCopies (some true) (some d), piece v f k = piece v c k) :
    Case E (some d.burst) v uid d bytes mp c f ∧
    Damaged v uid d (payloads E.rs v (some d) (fileChunks v bytes)).length c f := by
  have hfill : fill v f = f := fill_aligned (by rw [hlen]; exact h.container.aligned)
  have hfound := found_of_damage laws hE h hlen hdmg hmeta []
  rw [List.append_nil] at hfound
  refine ⟨⟨h.container, h.numbers, h.plain, h.sized, ⟨hfound, h.rs, h.data, h.parity, .inl rfl⟩⟩, by omega, ?_, ?_⟩
  · intro k _
    refine (hdmg k).imp_right fun hh => ?_
    rw [hfill]
    rintro ⟨sq, p, hb⟩
    exact Broken.not_block hh hb
  · intro s _ _
    refine (hdmg (placeOf d s)).imp_right fun hh => ?_
    rw [hfill]
    rintro ⟨p, hb⟩
    exact Broken.not_block hh hb

/-- Damage in bursts is an instance of C25. -/
theorem case_of_bursts {E : Env} (laws : E.rs.Laws) (hE : E.Calm) {v : Version} {uid : Uid} {d : Dpb} {bytes mp : List Byte} {c f : File}
    (h : Sound E.rs v uid d bytes mp c) (hB : 1 ≤ d.burst) {bursts : List (Nat × Nat)} (hlen : f.length = c.length)
    (hsize : ∀ b ∈ bursts, b.2 ≤ d.burst) (hcount : ∀ s, (within d bursts s).length ≤ d.parity)
    (hdmg : ∀ k, piece v f k = piece v c k ∨ hit bursts k = true ∧ Broken v (piece v f k)) :
    Case E (some d.burst) v uid d bytes mp c f ∧
    Damaged v uid d (payloads E.rs v (some d) (fileChunks v bytes)).length c f ∧
    ∀ t, t * (d.data + d.parity) < (payloads E.rs v (some d) (fileChunks v bytes)).length → d.data ≤ unchangedIn v d c f t := by
  obtain ⟨h1, h2, h3⟩ := shards_ok h.data h.parity
  have hout : ∀ k, hit bursts k = false → piece v f k = piece v c k := by
    intro k hk
    rcases hdmg k with h | h
    · exact h
    · rw [hk] at h; simp at h
  obtain ⟨k, hk, hh⟩ := C13_super_sets d hB h1 (some true) bursts (fun b hb => by have := hsize b hb; omega) (hcount 0)
  obtain ⟨hcase, hdam⟩ := case_of_damage laws hE h hlen (fun k => (hdmg k).imp_right (·.2)) ⟨k, hk, hout k hh⟩
  have hrec : ∀ t, t * (d.data + d.parity) < (payloads E.rs v (some d) (fileChunks v bytes)).length → d.data ≤ unchangedIn v d c f t := by
    intro t _
    refine (C12_super_sets d hB none bursts hsize hcount t).trans ?_
    unfold unchangedIn
    apply List.countP_mono_left
    intro j _ hj
    simp only [decide_eq_true_eq]
    apply hout
    show hit bursts (dataWriteIndex (t * (d.data + d.parity) + j + 1) none (some d)) = false
    simpa using hj
  exact ⟨hcase, hdam, hrec⟩

/-- **C25.** The promise of the burst error resistance level.  If a container is damaged only in bursts of up to `burst` blocks each, at
most `parity` of them in each super block set (`burst` interleaved sets), where whatever is left of a damaged block is no valid block, but either has kept a header of the version or looks nowhere
like the start of a block, then `repair` (told the level) puts all blocks back; and the whole file is again the container unless there
is damage where there was nothing but zeros. -/
theorem C25_bursts (E : Env) (laws : E.rs.Laws) (hE : E.Calm) (v : Version) (uid : Uid) (d : Dpb) (bytes mp : List Byte) (c f : File)
    (h : Sound E.rs v uid d bytes mp c) (hB : 1 ≤ d.burst) (bursts : List (Nat × Nat)) (hlen : f.length = c.length)
    (hsize : ∀ b ∈ bursts, b.2 ≤ d.burst) (hcount : ∀ s, (within d bursts s).length ≤ d.parity)
    (hdmg : ∀ k, piece v f k = piece v c k ∨ hit bursts k = true ∧ Broken v (piece v f k)) :
    ∃ dk st, repairFile E (some d.burst) false f = .ok (some (dk, st)) ∧ st.repairFailed = 0 ∧
      (∀ k ∈ metaCopies (some true) (some d), piece v dk.file k = piece v c k) ∧
      (∀ s, 1 ≤ s → s ≤ (payloads E.rs v (some d) (fileChunks v bytes)).length →
        piece v dk.file (placeOf d s) = piece v c (placeOf d s)) ∧
      (GapsClean v d (payloads E.rs v (some d) (fileChunks v bytes)).length f → dk.file = c) := by
  obtain ⟨hcase, hdam, hrec⟩ := case_of_bursts laws hE h hB hlen hsize hcount hdmg
  obtain ⟨h1, h2, h3⟩ := shards_ok h.data h.parity
  obtain ⟨hcnt, hps⟩ := payloads_count laws (v := v) h1 h2 h3 bytes
  obtain ⟨dk, st, a, b, e, g, k⟩ := blocks_restored laws hE hcase hdam hrec
  exact ⟨dk, st, a, b, g, k, fun hgaps => near_complete h.container hps (metasToBytes_length h.plain) hgaps e g k⟩

/-- **C25.** One long burst: damage confined to `parity * burst` consecutive blocks, wherever it begins, is repaired. -/
theorem C25_one_burst (E : Env) (laws : E.rs.Laws) (hE : E.Calm) (v : Version) (uid : Uid) (d : Dpb) (bytes mp : List Byte) (c f : File)
    (h : Sound E.rs v uid d bytes mp c) (hB : 1 ≤ d.burst) (a n : Nat) (hn : n ≤ d.parity * d.burst) (hlen : f.length = c.length)
    (hdmg : ∀ k, piece v f k = piece v c k ∨ (a ≤ k ∧ k < a + n) ∧ Broken v (piece v f k)) :
    ∃ dk st, repairFile E (some d.burst) false f = .ok (some (dk, st)) ∧ st.repairFailed = 0 ∧
      (∀ k ∈ metaCopies (some true) (some d), piece v dk.file k = piece v c k) ∧
      (∀ s, 1 ≤ s → s ≤ (payloads E.rs v (some d) (fileChunks v bytes)).length →
        piece v dk.file (placeOf d s) = piece v c (placeOf d s)) ∧
      (GapsClean v d (payloads E.rs v (some d) (fileChunks v bytes)).length f → dk.file = c) := by
  refine C25_bursts E laws hE v uid d bytes mp c f h hB ((List.range d.parity).map fun k => (a + k * d.burst, d.burst)) hlen
    (fun b hb => by obtain ⟨k, -, rfl⟩ := List.mem_map.1 hb; exact Nat.le_refl _) (few (by simp)) ?_
  intro k
  refine (hdmg k).imp_right fun ⟨h1, h2⟩ => ⟨?_, h2⟩
  rw [← hit_split a d.parity d.burst k hB]
  simp only [hit, List.any_cons, List.any_nil, Bool.or_false, Bool.and_eq_true, decide_eq_true_eq]
  omega

/-- **C25, C02.** An instance: bit errors.  If within bursts of up to `burst` blocks, at most `parity` in each super block set, any number of blocks have an altered checksum or
errors within 16 consecutive bits behind it, `repair` restores the container byte for byte. -/
theorem C25_bit_errors (E : Env) (laws : E.rs.Laws) (hE : E.Calm) (v : Version) (uid : Uid) (d : Dpb) (bytes mp : List Byte) (c f : File)
    (h : Sound E.rs v uid d bytes mp c) (hB : 1 ≤ d.burst) (bursts : List (Nat × Nat)) (hlen : f.length = c.length)
    (hsize : ∀ b ∈ bursts, b.2 ≤ d.burst) (hcount : ∀ s, (within d bursts s).length ≤ d.parity)
    (hdmg : ∀ k, piece v f k = piece v c k ∨ hit bursts k = true ∧ ValidAt v uid c k ∧ ShortError (piece v c k) (piece v f k)) :
    ∃ dk st, repairFile E (some d.burst) false f = .ok (some (dk, st)) ∧ st.repairFailed = 0 ∧ dk.file = c := by
  obtain ⟨dk, st, r1, r2, -, -, r5⟩ := C25_bursts E laws hE v uid d bytes mp c f h hB bursts hlen hsize hcount (by
    intro k
    refine (hdmg k).imp_right fun ⟨h1, ⟨s, p, h2⟩, h3⟩ => ⟨h1, broken_of_short h2 h3⟩)
  refine ⟨dk, st, r1, r2, r5 ?_⟩
  intro k hk hs
  by_cases hin : k * blockLen v < c.length
  · have hz := h.container.gaps k hin hk fun i hi => hs (i + 1) (by omega) (by omega)
    have hz : piece v c k = List.replicate (blockLen v) 0 := hz
    rcases hdmg k with e | ⟨-, ⟨s, p, hb⟩, -⟩
    · exact ⟨_, by rw [e]; exact hz⟩
    · rw [hz] at hb; exact absurd hb zeros_not_block
  · exact ⟨0, piece_beyond (by omega)⟩

/-- **C25, C21.** Encoding, damage in bursts of up to `burst` blocks, at most `parity` in each super block set (none of it between the blocks), repairing and
decoding give back the input, and the recorded hash is that of the output. -/
theorem C25_roundtrip (E : Encode.Env) (p : Encode.Param) (hE : E.Ok p) (hok : p.Ok) (inp : Encode.Input) (hn : Encode.NamesOk p inp)
    (dk : Disk) (rep : Encode.Report) (hrange : inp.file = none ∨ p.fromPos = none ∧ p.toPos = none) (hs : ∀ n, E.stop n = false)
    (henc : Encode.encodeFile E p inp = (dk, .ok rep)) (d : Dpb) (hd : p.dpb = some d) (hB : 1 ≤ d.burst)
    (hsup : p.hashType.supported = true)
    (f : File) (bursts : List (Nat × Nat)) (hlen : f.length = dk.file.length)
    (hsize : ∀ b ∈ bursts, b.2 ≤ d.burst) (hcount : ∀ s, (within d bursts s).length ≤ d.parity)
    (hdmg : ∀ k, piece p.version f k = piece p.version dk.file k ∨ hit bursts k = true ∧ Broken p.version (piece p.version f k))
    (hgaps : GapsClean p.version d (payloads E.rs p.version (some d) (fileChunks p.version inp.bytes)).length f)
    (R : Env) (hR : R.Calm) (hrs : R.rs = E.rs)
    (D : Decode.Env) (hD : D.Calm) (hash : D.hash = E.hash) (q : Decode.Param) (hq : Decode.Whole q) (hr : Decode.DefaultRef q.ref)
    (hb : q.ref.burst ≠ none ∨ q.ref.guessBurstFrom = none ∧ d.burst ≤ 1000) (old : File) :
    ∃ dk' st out, repairFile R (some d.burst) false f = .ok (some (dk', st)) ∧ Decode.toFile D q dk'.file old = .ok (inp.bytes, out) ∧
      out.recorded = some (E.hash.bytes p.hashType inp.bytes) ∧ out.computed = out.recorded := by
  have hme : p.metaEnabled = true := hok.meta (by rw [hd]; simp)
  have hh := Encode.C24_whole_input E p hE hok inp hn dk rep hrange hs henc
  obtain ⟨mb, hc, hrec⟩ := hh.container
  obtain ⟨ms, ⟨mp, hmb, rfl⟩, h2, h3, h4, h5, h6⟩ := hrec hme
  rw [hme] at hc
  have hnum := hh.numbers
  rw [hd] at hc h4 h5 hnum
  rw [hmb.bytes, blockBytes_drop] at h6
  have hcons : p.version.usesRs = true := by
    have := hok.consistent
    rw [hd] at this
    simpa [verConsistent] using this
  obtain ⟨dk', st, r1, r2, r3, r4, r5⟩ := C25_bursts R (by rw [hrs]; exact hE.laws) hR p.version p.uid d inp.bytes mp dk.file f
    ⟨by rw [hrs, ← hmb.bytes]; exact hc, by rw [hrs]; exact hnum, h6, h2, hcons, h4, h5⟩ hB bursts hlen hsize hcount hdmg
  rw [hrs] at r5
  obtain ⟨out, o1, o2, o3, -⟩ := Decode.C21_roundtrip E p hE hok inp hn dk rep hrange hs henc hme hsup D hD hash q hq hr
    (hb.imp_right fun x => ⟨x.1, fun y hy => by rw [hd] at hy; cases hy; exact x.2⟩) old
  exact ⟨dk', st, out, r1, by rw [r5 hgaps]; exact o1, o2, o3⟩

/-! ### C26 for intact containers -/

/-- The sets of a container are complete, and there is nothing beyond. -/
theorem sets_of_image {v : Version} {uid : Uid} {d : Dpb} {ps : List (List Byte)} {mp : List Byte} {c : File} (h1 : 1 ≤ d.data)
    (hc : Image v uid.bytes (some true) (some d) ps (blockBytes v uid.bytes 0 mp) c) (hps : ∀ p ∈ ps, p.length = blockLen v - 16)
    (hmul : ∃ q, ps.length = q * (d.data + d.parity)) (t : Nat) :
    (∀ j < d.data + d.parity, Present v uid d c (t * (d.data + d.parity) + j + 1)) ∨ presentIn v uid d c t < d.data := by
  have hn : 0 < d.data + d.parity := by omega
  have hval : Valid (some d) := by intro x hx; cases hx; exact h1
  by_cases ht : t * (d.data + d.parity) < ps.length
  · left
    intro j hj
    obtain ⟨q, hq⟩ := hmul
    rw [hq] at ht
    have htq : t < q := Nat.lt_of_mul_lt_mul_right ht
    have : (t + 1) * (d.data + d.parity) ≤ q * (d.data + d.parity) := Nat.mul_le_mul_right _ htq
    rw [Nat.succ_mul] at this
    obtain ⟨p, -, hp, -⟩ := image_data hc hps (s := t * (d.data + d.parity) + j + 1) (by omega) (by omega)
    exact ⟨p, hp⟩
  · right
    have : presentIn v uid d c t = 0 := by
      unfold presentIn
      rw [List.countP_eq_zero]
      intro j _
      simp only [decide_eq_true_eq]
      rintro ⟨p, hb⟩
      by_cases hin : placeOf d (t * (d.data + d.parity) + j + 1) * blockLen v < c.length
      · have hg := hc.gaps _ hin
          (fun hk => C10_data_not_meta (some true) (some d) hval (t * (d.data + d.parity) + j + 1) (by omega) hk)
          (fun i hi e => by
            have := C10_data_injective none (some d) hval _ _ (by omega) (by omega) e
            omega)
        unfold piece at hb
        rw [hg] at hb
        exact zeros_not_block hb
      · rw [piece_beyond (by omega)] at hb
        exact nil_not_block hb
    omega

/-- **C26.** An intact container is not touched, whatever the interruptions. -/
theorem C26_intact (E : Env) (laws : E.rs.Laws) (burst : Option Nat) (dry : Bool) (v : Version) (uid : Uid) (d : Dpb)
    (bytes mp : List Byte) (c : File) (h : Case E burst v uid d bytes mp c c) :
    ∃ st, repairFile E burst dry c = .ok (some (⟨c, []⟩, st)) := by
  obtain ⟨h1, h2, h3⟩ := shards_ok h.sees.data h.sees.parity
  obtain ⟨hcnt, hps⟩ := payloads_count laws (v := v) h1 h2 h3 bytes
  have hmp := metasToBytes_length h.plain
  obtain ⟨dk, st, hr⟩ := C26_total E laws burst dry c v uid mp d h.sees
  have hund := C26_undamaged E laws burst dry c v uid mp d h.sees dk st hr
    (fun k hk => ⟨0, mp, h.container.metas k hk, hmp⟩) (by
    intro t
    rw [fill_aligned h.container.aligned]
    exact sets_of_image h1 h.container hps ⟨_, by rw [hcnt]; exact rfl⟩ t)
  obtain ⟨hd, hi, -⟩ := ops_of_sees laws h.sees hr
  refine ⟨st, ?_⟩
  rw [hr]
  cases dk
  simp only at hund hi
  rw [hund.1, hi]

/-! ### C27 and C38 -/

/-- **C27.** A dry run of `repair` writes nothing, whatever the file and whenever it is interrupted. -/
theorem C27_repair_dry (E : Env) (laws : E.rs.Laws) (burst : Option Nat) (f : File) (dk : Disk) (st : Stats)
    (h : repairFile E burst true f = .ok (some (dk, st))) : dk = ⟨f, []⟩ := by
  obtain ⟨v, uid, mp, mp', d, total, hs, hr⟩ := setup_of_ok h
  obtain ⟨h1, h2, -⟩ := ops_of_setup laws hs hr
  have h2 := h2 rfl
  cases dk
  simp only at h1 h2
  rw [h1, h2]

/-- How many data and parity blocks `repair` looks at: as many as the recorded size requires, else as many as there can be in the file. -/
noncomputable def examined (v : Version) (d : Dpb) (mp : List Byte) (f : File) : Nat :=
  min lastSeqNum (match firstFsz (metasFromBytes mp) with
    | some size => blocksFor (blockLen v - 16) (some d) size
    | none => f.length / blockLen v - (1 + d.parity))

theorem repair_stats {E : Env} (laws : E.rs.Laws) (hE : E.Calm) {burst : Option Nat} (dry : Bool) {f : File} {v : Version} {uid : Uid}
    {mp : List Byte} {d : Dpb} (hs : Sees E burst f v uid mp d) (hf : blockLen v ∣ f.length) :
    ∃ dk, repairFile E burst dry f = .ok (some (dk,
      ⟨metasIn v uid d f, blocksIn v uid d f (examined v d mp f),
        (1 + d.parity - metasIn v uid d f) + (examined v d mp f - blocksIn v uid d f (examined v d mp f)),
        1 + d.parity - metasIn v uid d f,
        missingIn v uid d f true (examined v d mp f / (d.data + d.parity)),
        missingIn v uid d f false (examined v d mp f / (d.data + d.parity))⟩)) := by
  obtain ⟨mp', total, hset⟩ := hs.setup
  obtain ⟨dk, st, dk1, st1, n, m, e1, e2, e3, e4, e5, e6, e7, e8, -⟩ := run_of_setup laws dry hset
  obtain ⟨h1, h2, h3⟩ := shards_ok hs.data hs.parity
  have hval : Valid (some d) := by intro x hx; cases hx; exact h1
  have hmb : (blockBytes v uid.bytes 0 mp').length = blockLen v := by
    rw [blockBytes_length, hset.size]; have := h16 v; omega
  have hn : n = 1 + d.parity := by
    rcases e4 with e4 | e4
    · exact e4
    · rw [hE.metas] at e4; simp at e4
  have hml : (metaCopies (some true) (some d)).length = 1 + d.parity := by unfold metaCopies; simp
  rw [hn, ← hml, List.take_length] at e2
  have hst := meta_stats (uid := uid) (d := d) hmb dry f hf _ (metaCopies_nodup d) (fun k hk => hk)
  obtain ⟨ws, f1, -, -, f4, -⟩ := meta_ops (uid := uid) (d := d) hmb dry f _ (metaCopies_nodup d) (fun k hk => hk)
  rw [← e2] at hst f1
  simp only at hst f1
  subst f1
  have hrun := e5.stats h1 hmb hf f4
  have hb1 : st1.blocks = 1 + d.parity := by
    rw [hst, hml]
    have : (metaCopies (some true) (some d)).countP (fun k => decide (ValidAt v uid f k)) ≤ 1 + d.parity := by
      rw [← hml]; exact List.countP_le_length
    simp only [Stats.blocks]
    omega
  have htot : total - (1 + d.parity) = match firstFsz (metasFromBytes mp) with
      | some size => blocksFor (blockLen v - 16) (some d) size
      | none => f.length / blockLen v - (1 + d.parity) := by
    rw [hset.total]
    cases firstFsz (metasFromBytes mp) with
    | none => rfl
    | some size =>
      simp only
      rw [totalBlockCount, dataBlockCount_eq v (some d) hval, ← dataSize_eq]
      show 1 + d.parity + _ - _ = _
      omega
  have hm : m = examined v d mp f := by
    unfold examined
    rw [← htot]
    rw [hb1] at e6 e7
    rcases e6 with e6 | e6 | e6
    · omega
    · rw [hE.data] at e6; simp at e6
    · omega
  subst hm
  refine ⟨dk, ?_⟩
  rw [ok_of_setup dry hset e1, hrun, hst, hml]
  simp [metasIn]

/-- **C38 (repair).** What the counters of an uninterrupted `repair`, dry run or not, say about a file of whole blocks: how many
metadata places hold a valid block, how many data and parity blocks with the numbers looked at are there, and how many of all these
are not there; the missing metadata blocks are repaired, and so are the missing blocks of all sets that have enough blocks left. -/
theorem C38_repair (E : Env) (laws : E.rs.Laws) (hE : E.Calm) (burst : Option Nat) (dry : Bool) (f : File) (v : Version) (uid : Uid)
    (mp : List Byte) (d : Dpb) (hs : Sees E burst f v uid mp d) (hf : blockLen v ∣ f.length) (dk : Disk) (st : Stats)
    (h : repairFile E burst dry f = .ok (some (dk, st))) :
    st.metaDecoded = metasIn v uid d f ∧
    st.dataDecoded = blocksIn v uid d f (examined v d mp f) ∧
    st.metaDecoded + st.dataDecoded + st.failed = 1 + d.parity + examined v d mp f ∧
    st.metaRepaired = 1 + d.parity - metasIn v uid d f ∧
    st.dataRepaired = missingIn v uid d f true (examined v d mp f / (d.data + d.parity)) ∧
    st.repairFailed = missingIn v uid d f false (examined v d mp f / (d.data + d.parity)) := by
  obtain ⟨dk', h'⟩ := repair_stats laws hE dry hs hf
  rw [h] at h'
  simp only [Except.ok.injEq, Option.some.injEq, Prod.mk.injEq] at h'
  obtain ⟨rfl, rfl⟩ := h'
  have hml : (metaCopies (some true) (some d)).length = 1 + d.parity := by unfold metaCopies; simp
  have h1 : metasIn v uid d f ≤ 1 + d.parity := by unfold metasIn; rw [← hml]; exact List.countP_le_length
  have h2 := blocksIn_le v uid d f (examined v d mp f)
  refine ⟨rfl, rfl, ?_, rfl, rfl, rfl⟩
  simp only
  omega

/-- **C38 (repair).** If the size is recorded, every block counted as failed is counted as repaired or as beyond repair. -/
theorem C38_repair_adds_up (E : Env) (laws : E.rs.Laws) (hE : E.Calm) (burst : Option Nat) (dry : Bool) (f : File) (v : Version)
    (uid : Uid) (mp : List Byte) (d : Dpb) (hs : Sees E burst f v uid mp d) (hf : blockLen v ∣ f.length) (dk : Disk) (st : Stats)
    (h : repairFile E burst dry f = .ok (some (dk, st))) (size : Nat) (hsz : firstFsz (metasFromBytes mp) = some size)
    (hnum : blocksFor (blockLen v - 16) (some d) size ≤ lastSeqNum) :
    st.failed = st.metaRepaired + st.dataRepaired + st.repairFailed := by
  obtain ⟨dk', h'⟩ := repair_stats laws hE dry hs hf
  rw [h] at h'
  simp only [Except.ok.injEq, Option.some.injEq, Prod.mk.injEq] at h'
  obtain ⟨rfl, rfl⟩ := h'
  obtain ⟨h1, h2, h3⟩ := shards_ok hs.data hs.parity
  have hn : 0 < d.data + d.parity := by omega
  have hex : ∃ q, examined v d mp f = q * (d.data + d.parity) := by
    unfold examined
    rw [hsz]
    simp only
    rw [Nat.min_eq_right hnum]
    exact ⟨_, rfl⟩
  obtain ⟨q, hq⟩ := hex
  have hsum : ∀ q, blocksIn v uid d f (q * (d.data + d.parity)) + missingIn v uid d f true q + missingIn v uid d f false q =
      q * (d.data + d.parity) := by
    intro q
    induction q with
    | zero => simp [blocksIn, missingIn]
    | succ q ih =>
      have hb : blocksIn v uid d f ((q + 1) * (d.data + d.parity)) = blocksIn v uid d f (q * (d.data + d.parity)) + presentIn v uid d f q := by
        unfold blocksIn presentIn
        rw [Nat.succ_mul, List.range_add, List.countP_append, List.countP_map]
        rfl
      have hle := presentIn_le v uid d f q
      rw [hb, missingIn_succ, missingIn_succ, Nat.succ_mul]
      by_cases hd : d.data ≤ presentIn v uid d f q
      · simp only [hd, decide_true, if_true, Bool.true_eq_false, if_false]
        omega
      · simp only [hd, decide_false, if_true, Bool.false_eq_true, if_false]
        omega
  simp only
  rw [hq, Nat.mul_div_cancel _ hn]
  have := hsum q
  omega

/-- **C27.** A dry run reports the same counters as the real run on the same file (of whole blocks, see DESIGN.md). -/
theorem C27_repair_same_stats (E : Env) (laws : E.rs.Laws) (hE : E.Calm) (burst : Option Nat) (f : File) (v : Version) (uid : Uid)
    (mp : List Byte) (d : Dpb) (hs : Sees E burst f v uid mp d) (hf : blockLen v ∣ f.length) (dk dk' : Disk) (st st' : Stats)
    (h : repairFile E burst true f = .ok (some (dk, st))) (h' : repairFile E burst false f = .ok (some (dk', st'))) : st = st' := by
  obtain ⟨x, hx⟩ := repair_stats laws hE true hs hf
  obtain ⟨y, hy⟩ := repair_stats laws hE false hs hf
  rw [h] at hx
  rw [h'] at hy
  simp only [Except.ok.injEq, Option.some.injEq, Prod.mk.injEq] at hx hy
  rw [hx.2, hy.2]

/-! ### Where the properties fail -/

theorem ceilDiv_pos {a : Nat} (ha : 0 < a) (b : Nat) : 0 < ceilDiv a b := by
  unfold ceilDiv
  split
  · rename_i hz
    have h := Nat.div_add_mod a b
    rw [hz] at h
    refine Nat.pos_of_ne_zero fun h0 => ?_
    rw [h0] at h
    omega
  · exact Nat.succ_pos _

/-- **C25 violated.** A copy of the metadata block that has been overwritten by another valid block of the container (a misdirected
write, say) is not restored: at metadata places `repair` accepts every valid block, whatever its sequence number.  Nothing is written
although there is another copy of the metadata block and nothing else is damaged. -/
theorem C25_misplaced_violated (E : Env) (laws : E.rs.Laws) (hE : E.Calm) (v : Version) (uid : Uid) (d : Dpb) (bytes mp : List Byte)
    (c : File) (h : Sound E.rs v uid d bytes mp c) (hne : bytes ≠ []) :
    ∃ st, repairFile E (some d.burst) false (c.writeAt 0 (piece v c (placeOf d 1))) =
        .ok (some (⟨c.writeAt 0 (piece v c (placeOf d 1)), []⟩, st)) ∧ c.writeAt 0 (piece v c (placeOf d 1)) ≠ c := by
  obtain ⟨h1, h2, h3⟩ := shards_ok h.data h.parity
  obtain ⟨hcnt, hps⟩ := payloads_count laws (v := v) h1 h2 h3 bytes
  have hmp := metasToBytes_length h.plain
  have hu := blockLen_pos v
  have hval : Valid (some d) := by intro x hx; cases hx; exact h1
  have hl1 : 1 ≤ (payloads E.rs v (some d) (fileChunks v bytes)).length := by
    rw [hcnt]
    unfold blocksFor
    simp only
    have hc1 := ceilDiv_pos (ceilDiv_pos (List.length_pos_iff.2 hne) v.dataSize) d.data
    exact Nat.mul_pos hc1 (by omega)
  obtain ⟨p, -, hb1, hin1⟩ := image_data h.container hps (s := 1) (Nat.le_refl 1) hl1
  have h0 := (image_meta h.container hmp (k := 0) (by simp [metaCopies])).2
  have hal := h.container.aligned
  have hlb := isBlock_length hb1
  generalize hfdef : c.writeAt 0 (piece v c (placeOf d 1)) = f
  have hflen : f.length = c.length := by
    rw [← hfdef, File.writeAt_length _ _ _ (by intro e; rw [e] at hlb; simp at hlb; omega), hlb]
    omega
  have hp0 : piece v f 0 = piece v c (placeOf d 1) := by
    rw [← hfdef]
    have := piece_written (v := v) (g := c) (j := 0) hlb
    rwa [Nat.zero_mul] at this
  have hpk : ∀ k, k ≠ 0 → piece v f k = piece v c k := by
    intro k hk
    rw [← hfdef]
    by_cases hin : (k + 1) * blockLen v ≤ c.length
    · have := piece_writeAt (v := v) (g := c) hk hlb
      rw [Nat.zero_mul] at this
      rcases this with e | e
      · exact e
      · rw [e, zpad_full (piece_full hin)]
    · have : c.length ≤ k * blockLen v := by
        obtain ⟨n, hn⟩ := hal
        rw [Nat.mul_comm] at hn
        rw [hn] at hin ⊢
        exact Nat.mul_le_mul_right _ (by
          by_contra hlt
          exact hin (Nat.mul_le_mul_right _ (by omega)))
      rw [piece_beyond this, piece_beyond (by rw [hfdef, hflen]; exact this)]
  have hcases := not_zeros_data h.container rfl hmp hps
  have hnum := h.numbers
  have hseq : ∀ s, 1 ≤ s → s ≤ (payloads E.rs v (some d) (fileChunks v bytes)).length → ∀ b q q', IsBlock b v uid 0 q →
      ¬ IsBlock b v uid (UInt32.ofNat s) q' := by
    intro s a b buf q q' e1 e2
    have h4 := congrArg UInt32.toNat (isBlock_seq e1 e2).1
    unfold lastSeqNum at hnum
    rw [UInt32.toNat_ofNat_of_lt' (by show s < 2 ^ 32; omega)] at h4
    simp at h4
    omega
  have hne2 : 1 + d.burst ≠ 0 := by omega
  have hcopy : 1 + d.burst ∈ metaCopies (some true) (some d) := by
    unfold metaCopies
    rw [List.mem_map]
    exact ⟨1, by rw [List.mem_range]; omega, by simp⟩
  have hfound := found_of_places (v := v) (uid := uid) (mp := mp) (f := f) (by rw [hflen]; exact hal) hE.ref (by
    intro k hk
    by_cases hk0 : k = 0
    · rw [hk0, hp0]; exact .inl ⟨_, _, hb1⟩
    · rw [hpk k hk0]
      rcases hcases k (by omega) with ⟨-, e⟩ | ⟨s, p, -, -, -, e⟩ | e
      · exact .inl ⟨_, _, e⟩
      · exact .inl ⟨_, _, e⟩
      · rw [e]; exact .inr (.inl (dead_zeros _))) (by
    intro k q hk hb
    by_cases hk0 : k = 0
    · rw [hk0, hp0] at hb
      exact absurd hb1 (hseq 1 (Nat.le_refl 1) hl1 _ _ _ hb)
    · rw [hpk k hk0] at hb
      rcases hcases k (by omega) with ⟨-, e⟩ | ⟨s, p', a, b, -, e⟩ | e
      · exact (isBlock_seq hb e).2
      · exact absurd e (hseq s a b _ _ _ hb)
      · rw [e] at hb; exact absurd hb zeros_not_block) (by
    have hkin := (image_meta h.container hmp hcopy).2
    refine ⟨1 + d.burst, by rw [hflen]; rw [Nat.succ_mul] at hkin; omega, ?_⟩
    rw [hpk _ hne2]
    exact ⟨h.container.metas _ hcopy, hmp⟩)
  have hsees : Sees E (some d.burst) f v uid mp d := ⟨hfound, h.rs, h.data, h.parity, .inl rfl⟩
  obtain ⟨dk, st, hr⟩ := C26_total E laws _ false f v uid mp d hsees
  have hplace : ∀ s, 1 ≤ s → placeOf d s ≠ 0 := by
    intro s hs e
    exact C10_data_not_meta (some true) (some d) hval s hs (show placeOf d s ∈ _ by rw [e]; simp [metaCopies])
  have hund := C26_undamaged E laws _ false f v uid mp d hsees dk st hr (by
    intro k hk
    by_cases hk0 : k = 0
    · rw [hk0]; exact ⟨_, p, by rw [hp0]; exact hb1⟩
    · exact ⟨0, mp, by rw [hpk k hk0]; exact ⟨h.container.metas k hk, hmp⟩⟩) (by
    intro t
    have hpres : ∀ j, Present v uid d f (t * (d.data + d.parity) + j + 1) ↔ Present v uid d c (t * (d.data + d.parity) + j + 1) := by
      intro j
      unfold Present
      rw [hpk _ (hplace _ (by omega))]
    rcases sets_of_image h1 h.container hps ⟨_, by rw [hcnt]; exact rfl⟩ (uid := uid) t with h | h
    · exact .inl fun j hj => (hpres j).2 (h j hj)
    · right
      rw [fill_aligned (by rw [hflen]; exact hal)]
      have : presentIn v uid d f t = presentIn v uid d c t := by
        unfold presentIn
        apply List.countP_congr
        intro j _
        simp only [decide_eq_true_eq]
        exact hpres j
      omega)
  obtain ⟨-, hi, -⟩ := ops_of_sees laws hsees hr
  refine ⟨st, ?_, ?_⟩
  · rw [hr]
    cases dk
    simp only at hund hi
    rw [hund.1, hi]
  · intro e
    rw [e] at hp0
    have hb0 : IsBlock (piece v c 0) v uid 0 mp := ⟨h.container.metas 0 (by simp [metaCopies]), hmp⟩
    rw [hp0] at hb0
    exact hseq 1 (Nat.le_refl 1) hl1 _ _ _ hb0 hb1

/-! ### Instances -/

/-- The container of 1000 bytes, version 17, 10 data and 2 parity shards, burst level 3. -/
theorem demo_encoded : ∃ dk rep, Encode.encodeFile (Encode.demoEnv fun _ => false) (Encode.demoParam .v17 (some ⟨10, 2, 3⟩) none)
      ⟨List.replicate 1000 7, some ("a.txt", some 5)⟩ = (dk, .ok rep) ∧
    Encode.Holds (Encode.demoEnv fun _ => false) (Encode.demoParam .v17 (some ⟨10, 2, 3⟩) none) dk rep (List.replicate 1000 7) := by
  obtain ⟨h1, h2⟩ := Encode.demo_ok (v := .v17) (dpb := some ⟨10, 2, 3⟩) none rfl (by simp) (fun _ => false)
  obtain ⟨d, rep, h⟩ := Encode.C24_succeeds _ _ h2 h1 ⟨List.replicate 1000 7, some ("a.txt", some 5)⟩ (by
    intro mx hmx
    rw [Encode.maxSize_eq h1] at hmx
    cases hmx
    decide +kernel) (by intro _; decide +kernel)
  refine ⟨d, rep, h, ?_⟩
  refine Encode.C24_whole_input _ _ h2 h1 _ ?_ d rep (.inr ⟨rfl, rfl⟩) (fun _ => rfl) h
  refine ⟨by decide +kernel, ?_⟩
  intro n t ht
  simp only [Option.some.injEq, Prod.mk.injEq] at ht
  rw [← ht.1]
  decide +kernel

def demoOwner : Uid := ⟨[1, 2, 3, 4, 5, 6], rfl⟩
def demoDpb : Dpb := ⟨10, 2, 3⟩

theorem demo_sound' : ∃ dk rep mp, Encode.encodeFile (Encode.demoEnv fun _ => false) (Encode.demoParam .v17 (some ⟨10, 2, 3⟩) none)
      ⟨List.replicate 1000 7, some ("a.txt", some 5)⟩ = (dk, .ok rep) ∧
    Sound RsWitness.codec .v17 demoOwner demoDpb (List.replicate 1000 7) mp dk.file := by
  obtain ⟨dk, rep, henc, h⟩ := demo_encoded
  obtain ⟨mb, hc, hrec⟩ := h.container
  obtain ⟨ms, ⟨mp, hmb, rfl⟩, h2, h3, h4, h5, h6⟩ := hrec rfl
  rw [hmb.bytes, blockBytes_drop] at h6
  have hb := hmb.bytes
  subst hb
  exact ⟨dk, rep, mp, henc, hc, h.numbers, h6, h2, rfl, h4, h5⟩

theorem demo_sound : ∃ mp c, Sound RsWitness.codec .v17 demoOwner demoDpb (List.replicate 1000 7) mp c := by
  obtain ⟨dk, -, mp, -, h⟩ := demo_sound'
  exact ⟨mp, dk.file, h⟩

/-- Nobody interferes. -/
noncomputable def demoEnv : Env := ⟨RsWitness.codec, fun _ => false, fun _ => false, fun _ => false⟩

theorem demo_laws : demoEnv.rs.Laws := RsWitness.codec_laws
theorem demo_calm : demoEnv.Calm := ⟨fun _ => rfl, fun _ => rfl, fun _ => rfl⟩

/-- The block at place `k` becomes `b`. -/
def put (v : Version) (c : File) (k : Nat) (b : List Byte) : File := c.writeAt (k * blockLen v) b

/-- The block at place `k` becomes zeros. -/
def wipe (v : Version) (c : File) (k : Nat) : File := put v c k (List.replicate (blockLen v) 0)

theorem put_spec {v : Version} {c : File} {k : Nat} {b : List Byte} (hb : b.length = blockLen v) (hal : blockLen v ∣ c.length)
    (hk : (k + 1) * blockLen v ≤ c.length) :
    (put v c k b).length = c.length ∧ piece v (put v c k b) k = b ∧ ∀ j, j ≠ k → piece v (put v c k b) j = piece v c j := by
  have hu := blockLen_pos v
  have hlen : (put v c k b).length = c.length := by
    unfold put
    rw [File.writeAt_length _ _ _ (by intro h; rw [h] at hb; simp at hb; omega), hb]
    rw [Nat.succ_mul] at hk
    omega
  refine ⟨hlen, piece_written hb, ?_⟩
  intro j hj
  by_cases hin : (j + 1) * blockLen v ≤ c.length
  · rcases piece_writeAt (v := v) (g := c) hj hb with h | h
    · exact h
    · rw [put, h, zpad_full (piece_full hin)]
  · have : c.length ≤ j * blockLen v := by
      obtain ⟨n, hn⟩ := hal
      rw [Nat.mul_comm] at hn
      rw [hn] at hin ⊢
      exact Nat.mul_le_mul_right _ (by
        by_contra hlt
        exact hin (Nat.mul_le_mul_right _ (by omega)))
    rw [piece_beyond this, piece_beyond (by rw [hlen]; exact this)]

theorem wipe_spec {v : Version} {c : File} {k : Nat} (hal : blockLen v ∣ c.length) (hk : (k + 1) * blockLen v ≤ c.length) :
    (wipe v c k).length = c.length ∧ piece v (wipe v c k) k = List.replicate (blockLen v) 0 ∧
    ∀ j, j ≠ k → piece v (wipe v c k) j = piece v c j := put_spec List.length_replicate hal hk

/-- A flipped bit at the end of a block is a short error. -/
theorem short_error (p : List Byte) (x : Byte) (hp : 6 ≤ p.length) : ShortError (p ++ [x]) (p ++ [x ^^^ 1]) := by
  refine ⟨by simp, ?_, .inr ⟨?_, ?_⟩⟩
  · rw [List.take_append_of_le_length (by omega), List.take_append_of_le_length (by omega)]
  · rw [List.take_append_of_le_length (by omega), List.take_append_of_le_length (by omega)]
  · rw [List.drop_append_of_le_length (by omega), List.drop_append_of_le_length (by omega)]
    refine ⟨CrcSpec.bits (p.drop 6), CrcSpec.bitsOfByte x, CrcSpec.bitsOfByte (x ^^^ 1), [], ?_, ?_, ?_, ?_, ?_⟩
    · simp [CrcSpec.bits]
    · simp [CrcSpec.bits]
    · simp [CrcSpec.bitsOfByte]
    · simp [CrcSpec.bitsOfByte]
    · intro e
      have := congrArg (·[7]?) e
      simp [CrcSpec.bitsOfByte] at this

/-- C25_bit_errors: a flipped bit in the first metadata block and one in the first data block. -/
example : ∃ mp c f dk st, Sound RsWitness.codec .v17 demoOwner demoDpb (List.replicate 1000 7) mp c ∧ f ≠ c ∧
    repairFile demoEnv (some 3) false f = .ok (some (dk, st)) ∧ dk.file = c := by
  obtain ⟨mp, c, h⟩ := demo_sound
  have hmp := metasToBytes_length h.plain
  have hal := h.container.aligned
  obtain ⟨hcnt, hps⟩ := payloads_count RsWitness.codec_laws (v := .v17) (d := demoDpb) (by decide) (by decide) (by decide)
    (List.replicate 1000 7)
  obtain ⟨m0', h0⟩ := image_meta h.container hmp (k := 0) (by decide)
  have m0 : IsBlock (piece .v17 c 0) .v17 demoOwner 0 mp := ⟨m0', hmp⟩
  have h1c : (1 : Nat) ≤ (payloads RsWitness.codec .v17 (some demoDpb) (fileChunks .v17 (List.replicate 1000 7))).length := by
    rw [hcnt, List.length_replicate]; decide
  obtain ⟨q, -, m1, h1⟩ := image_data h.container hps (s := 1) (Nat.le_refl 1) h1c
  rw [show placeOf demoDpb 1 = 1 by decide] at h1 m1
  have hlast : ∀ k, (piece .v17 c k).length = 512 → ∃ p x, piece .v17 c k = p ++ [x] ∧ p.length = 511 := by
    intro k hk
    rcases List.eq_nil_or_concat (piece .v17 c k) with e | ⟨p, x, e⟩
    · rw [e] at hk; simp at hk
    · rw [e] at hk; simp at hk; exact ⟨p, x, by rw [e, List.concat_eq_append], by omega⟩
  obtain ⟨p0, x0, e0, l0⟩ := hlast 0 (isBlock_length m0)
  obtain ⟨p1, x1, e1, l1⟩ := hlast 1 (isBlock_length m1)
  obtain ⟨a1, a2, a3⟩ := put_spec (v := .v17) (b := p0 ++ [x0 ^^^ 1]) (by simp [l0, blockLen]) hal h0
  obtain ⟨b1, b2, b3⟩ := put_spec (v := .v17) (c := put .v17 c 0 (p0 ++ [x0 ^^^ 1])) (b := p1 ++ [x1 ^^^ 1]) (by simp [l1, blockLen])
    (by rw [a1]; exact hal) (by rw [a1]; exact h1)
  have hw := C25_bit_errors demoEnv demo_laws demo_calm .v17 demoOwner demoDpb _ mp c _ h (by decide) [(0, 2)] (by rw [b1, a1]) (by decide)
    (few (by decide)) (by
      intro k
      by_cases k0 : k = 0
      · subst k0
        refine .inr ⟨by decide, ⟨_, _, m0⟩, ?_⟩
        rw [b3 0 (by omega), a2, e0]
        exact short_error _ _ (by omega)
      · by_cases k1 : k = 1
        · subst k1
          refine .inr ⟨by decide, ⟨_, _, m1⟩, ?_⟩
          rw [b2, e1]
          exact short_error _ _ (by omega)
        · exact .inl (by rw [b3 k k1, a3 k k0]))
  obtain ⟨dk, st, r1, -, r2⟩ := hw
  refine ⟨mp, c, _, dk, st, h, ?_, r1, r2⟩
  intro e
  have : piece .v17 (put .v17 (put .v17 c 0 (p0 ++ [x0 ^^^ 1])) 1 (p1 ++ [x1 ^^^ 1])) 1 = piece .v17 c 1 := by rw [e]
  rw [b2, e1] at this
  have := List.append_cancel_left this
  have := congrArg CrcSpec.bits this
  simp [CrcSpec.bits, CrcSpec.bitsOfByte] at this

theorem demo_damage01 {mp : List Byte} {c : File} (h : Sound RsWitness.codec .v17 demoOwner demoDpb (List.replicate 1000 7) mp c) :
    ∃ f : File, piece .v17 f 0 = List.replicate (blockLen .v17) 0 ∧ piece .v17 f 1 = List.replicate (blockLen .v17) 0 ∧ f.length = c.length ∧
      (∀ k, piece .v17 f k = piece .v17 c k ∨ hit [(0, 2)] k = true ∧ Broken .v17 (piece .v17 f k)) ∧
      GapsClean .v17 demoDpb (payloads RsWitness.codec .v17 (some demoDpb) (fileChunks .v17 (List.replicate 1000 7))).length f := by
  have hmp := metasToBytes_length h.plain
  have hal := h.container.aligned
  obtain ⟨hcnt, hps⟩ := payloads_count RsWitness.codec_laws (v := .v17) (d := demoDpb) (by decide) (by decide) (by decide)
    (List.replicate 1000 7)
  have h0 := (image_meta h.container hmp (k := 0) (by decide)).2
  have h1c : (1 : Nat) ≤ (payloads RsWitness.codec .v17 (some demoDpb) (fileChunks .v17 (List.replicate 1000 7))).length := by
    rw [hcnt, List.length_replicate]; decide
  have h1 := (image_data h.container hps (s := 1) (Nat.le_refl 1) h1c).choose_spec.2.2
  have hp1 : placeOf demoDpb 1 = 1 := by decide
  rw [hp1] at h1
  obtain ⟨a1, a2, a3⟩ := wipe_spec (k := 0) hal h0
  obtain ⟨b1, b2, b3⟩ := wipe_spec (c := wipe .v17 c 0) (k := 1) (by rw [a1]; exact hal) (by rw [a1]; exact h1)
  have hhit : ∀ k, hit [(0, 2)] k = true ↔ k = 0 ∨ k = 1 := by
    intro k
    simp [hit]
    omega
  refine ⟨wipe .v17 (wipe .v17 c 0) 1, ?_, b2, by rw [b1, a1], ?_, ?_⟩
  · rw [b3 0 (by omega), a2]
  · intro k
    by_cases hk : k = 0 ∨ k = 1
    · refine .inr ⟨(hhit k).2 hk, .inl ?_⟩
      rcases hk with rfl | rfl
      · rw [b3 0 (by omega), a2]; exact dead_zeros _
      · rw [b2]; exact dead_zeros _
    · left
      rw [b3 k (by omega), a3 k (by omega)]
  · intro k hk hs
    by_cases hin : k * blockLen .v17 < c.length
    · rw [b3 k (fun e => hs 1 (Nat.le_refl 1) h1c (by rw [hp1, e])), a3 k (fun e => hk (by rw [e]; decide))]
      exact ⟨_, h.container.gaps k hin hk (fun i hi => hs (i + 1) (by omega) (by omega))⟩
    · exact ⟨0, piece_beyond (by rw [b1, a1]; omega)⟩

theorem demo_damage0 {mp : List Byte} {c : File} (h : Sound RsWitness.codec .v17 demoOwner demoDpb (List.replicate 1000 7) mp c) :
    ∃ f : File, piece .v17 f 0 = List.replicate (blockLen .v17) 0 ∧ f.length = c.length ∧
      (∀ k, piece .v17 f k = piece .v17 c k ∨ hit [(0, 2)] k = true ∧ Broken .v17 (piece .v17 f k)) ∧
      GapsClean .v17 demoDpb (payloads RsWitness.codec .v17 (some demoDpb) (fileChunks .v17 (List.replicate 1000 7))).length f := by
  obtain ⟨f, h1, -, h2⟩ := demo_damage01 h
  exact ⟨f, h1, h2⟩

theorem demo_damage {mp : List Byte} {c : File} (h : Sound RsWitness.codec .v17 demoOwner demoDpb (List.replicate 1000 7) mp c) :
    ∃ f : File, f ≠ c ∧ f.length = c.length ∧
      (∀ k, piece .v17 f k = piece .v17 c k ∨ hit [(0, 2)] k = true ∧ Broken .v17 (piece .v17 f k)) ∧
      GapsClean .v17 demoDpb (payloads RsWitness.codec .v17 (some demoDpb) (fileChunks .v17 (List.replicate 1000 7))).length f := by
  obtain ⟨f, h1, h2⟩ := demo_damage0 h
  refine ⟨f, fun e => ?_, h2⟩
  have hmp := metasToBytes_length h.plain
  have hm : IsBlock (piece .v17 c 0) .v17 demoOwner 0 mp := ⟨(image_meta h.container hmp (k := 0) (by decide)).1, hmp⟩
  rw [← e, h1] at hm
  exact zeros_not_block hm

/-- C25: metadata block and first data block lost. -/
example : ∃ mp c f dk st, Sound RsWitness.codec .v17 demoOwner demoDpb (List.replicate 1000 7) mp c ∧ f ≠ c ∧
    repairFile demoEnv (some 3) false f = .ok (some (dk, st)) ∧ dk.file = c := by
  obtain ⟨mp, c, h⟩ := demo_sound
  obtain ⟨f, h1, h2, h3, h5⟩ := demo_damage h
  obtain ⟨dk, st, r1, -, -, -, r5⟩ := C25_bursts demoEnv demo_laws demo_calm .v17 demoOwner demoDpb _ mp c f h (by decide) [(0, 2)] h2
    (by decide) (few (by decide)) h3
  exact ⟨mp, c, f, dk, st, h, h1, r1, r5 h5⟩

/-- The same as one burst. -/
example : ∃ mp c f dk st, Sound RsWitness.codec .v17 demoOwner demoDpb (List.replicate 1000 7) mp c ∧ f ≠ c ∧
    repairFile demoEnv (some 3) false f = .ok (some (dk, st)) ∧ dk.file = c := by
  obtain ⟨mp, c, h⟩ := demo_sound
  obtain ⟨f, h1, h2, h3, h5⟩ := demo_damage h
  obtain ⟨dk, st, r1, -, -, -, r5⟩ := C25_one_burst demoEnv demo_laws demo_calm .v17 demoOwner demoDpb _ mp c f h (by decide) 0 2
    (by decide) h2 (fun k => (h3 k).imp_right fun ⟨hk, hb⟩ => ⟨by simpa [hit] using hk, hb⟩)
  exact ⟨mp, c, f, dk, st, h, h1, r1, r5 h5⟩

/-- The same for C25_restores, C26, C27 and C38. -/
example : ∃ mp c f dk st st', repairFile demoEnv (some 3) false f = .ok (some (dk, st)) ∧ dk.file = c ∧ f ≠ c ∧
    repairFile demoEnv (some 3) true f = .ok (some (⟨f, []⟩, st')) ∧ st = st' ∧ st.failed = st.metaRepaired + st.dataRepaired + st.repairFailed ∧
    Sees demoEnv (some 3) f .v17 demoOwner mp demoDpb := by
  obtain ⟨mp, c, h⟩ := demo_sound
  obtain ⟨f, h1, h2, h3, h5⟩ := demo_damage h
  obtain ⟨hc, hd, hr⟩ := case_of_bursts demo_laws demo_calm h (by decide) (bursts := [(0, 2)]) h2 (by decide) (few (by decide)) h3
  obtain ⟨dk, st, r1, -, r2⟩ := C25_restores demoEnv demo_laws demo_calm _ _ _ _ _ mp c f hc hd h5 hr
  obtain ⟨dk', st', r3⟩ := C26_total demoEnv demo_laws (some 3) true f _ _ mp _ hc.sees
  have hdry := C27_repair_dry _ demo_laws _ _ _ _ r3
  subst hdry
  have hal : blockLen .v17 ∣ f.length := by rw [h2]; exact h.container.aligned
  have hsame := C27_repair_same_stats _ demo_laws demo_calm _ f _ _ mp _ hc.sees hal _ _ _ _ r3 r1
  exact ⟨mp, c, f, dk, st, st', r1, r2, h1, r3, hsame.symm,
    C38_repair_adds_up _ demo_laws demo_calm _ _ f _ _ mp _ hc.sees hal dk st r1 _ h.sized (by rw [List.length_replicate]; decide), hc.sees⟩

/-- C26_intact: nothing lost. -/
example : ∃ mp c st, Sound RsWitness.codec .v17 demoOwner demoDpb (List.replicate 1000 7) mp c ∧
    repairFile demoEnv (some 3) false c = .ok (some (⟨c, []⟩, st)) := by
  obtain ⟨mp, c, h⟩ := demo_sound
  obtain ⟨hc, -⟩ := case_of_bursts (c := c) (f := c) demo_laws demo_calm h (by decide) (bursts := []) rfl (by simp) (few (by simp))
    (fun _ => .inl rfl)
  obtain ⟨st, hst⟩ := C26_intact demoEnv demo_laws _ false _ _ _ _ mp c hc
  exact ⟨mp, c, st, h, hst⟩

/-- C26_lost_sets: only a metadata block is left. -/
example : ∃ mp, ∃ f : File, Sees demoEnv (some 3) f .v17 demoOwner mp demoDpb ∧ ∀ t, presentIn .v17 demoOwner demoDpb (fill .v17 f) t < 10 := by
  obtain ⟨mp, c, h⟩ := demo_sound
  have hmp := metasToBytes_length h.plain
  have hb : IsBlock (blockBytes .v17 demoOwner.bytes 0 mp) .v17 demoOwner 0 mp := ⟨rfl, hmp⟩
  have hl := isBlock_length hb
  have hu := blockLen_pos .v17
  have hp0 : piece .v17 (blockBytes .v17 demoOwner.bytes 0 mp) 0 = blockBytes .v17 demoOwner.bytes 0 mp := by
    unfold piece File.readAt
    rw [Nat.zero_mul, List.drop_zero, ← hl, List.take_length]
  have hz : ∀ k, k * blockLen .v17 < (blockBytes .v17 demoOwner.bytes 0 mp).length → k = 0 := by
    intro k hk
    rw [hl] at hk
    rcases k with _ | k
    · rfl
    · rw [Nat.succ_mul] at hk; omega
  refine ⟨mp, blockBytes .v17 demoOwner.bytes 0 mp, ⟨?_, rfl, h.data, h.parity, .inl rfl⟩, ?_⟩
  · refine found_of_places (by rw [hl]) demo_calm.ref ?_ ?_ ?_
    · intro k hk
      rw [hz k hk, hp0]
      exact .inl ⟨_, _, hb⟩
    · intro k p hk hbk
      rw [hz k hk, hp0] at hbk
      exact (isBlock_seq hbk hb).2
    · exact ⟨0, by rw [hl]; omega, by rw [hp0]; exact hb⟩
  · intro t
    rw [fill_aligned (by rw [hl])]
    have : presentIn .v17 demoOwner demoDpb (blockBytes .v17 demoOwner.bytes 0 mp) t = 0 := by
      unfold presentIn
      rw [List.countP_eq_zero]
      intro j _
      simp only [decide_eq_true_eq]
      rintro ⟨p, hbj⟩
      have hne : placeOf demoDpb (t * (demoDpb.data + demoDpb.parity) + j + 1) ≠ 0 := by
        intro e
        exact C10_data_not_meta (some true) (some demoDpb) (by intro x hx; cases hx; decide) _ (by omega)
          (show placeOf demoDpb (t * (demoDpb.data + demoDpb.parity) + j + 1) ∈ _ by rw [e]; decide)
      rw [piece_beyond (by
        rw [hl]
        calc blockLen .v17 = 1 * blockLen .v17 := by omega
          _ ≤ _ := Nat.mul_le_mul_right _ (by omega))] at hbj
      exact nil_not_block hbj
    omega

/-- C25_roundtrip: encode, lose two blocks, repair, decode. -/
example : ∃ f dk st out, repairFile demoEnv (some 3) false f = .ok (some (dk, st)) ∧
    Decode.toFile Decode.calmEnv Decode.plainParam dk.file [] = .ok (List.replicate 1000 7, out) := by
  obtain ⟨h1, h2⟩ := Encode.demo_ok (v := .v17) (dpb := some ⟨10, 2, 3⟩) none rfl (by simp) (fun _ => false)
  obtain ⟨dk, rep, mp, henc, h⟩ := demo_sound'
  obtain ⟨f, -, e2, e3, e5⟩ := demo_damage h
  obtain ⟨dk', st, out, r1, r2, -⟩ := C25_roundtrip _ _ h2 h1 _ (by
    refine ⟨by decide +kernel, ?_⟩
    intro n t ht
    simp only [Option.some.injEq, Prod.mk.injEq] at ht
    rw [← ht.1]
    decide +kernel) dk rep (.inr ⟨rfl, rfl⟩) (fun _ => rfl) henc demoDpb rfl (by decide) rfl f [(0, 2)] e2 (by decide) (few (by decide)) e3 e5
    demoEnv demo_calm rfl Decode.calmEnv Decode.calm rfl Decode.plainParam Decode.plain_whole Decode.plain_ref (.inr ⟨rfl, by decide⟩) []
  exact ⟨f, dk', st, out, r1, r2⟩

/-- C25_misplaced_violated. -/
example : ∃ c f st, f ≠ c ∧ repairFile demoEnv (some 3) false f = .ok (some (⟨f, []⟩, st)) := by
  obtain ⟨mp, c, h⟩ := demo_sound
  obtain ⟨st, h1, h2⟩ := C25_misplaced_violated demoEnv demo_laws demo_calm _ _ _ _ mp c h (by
    intro e; have := congrArg List.length e; rw [List.length_replicate] at this; simp at this)
  exact ⟨c, _, st, h2, h1⟩

theorem demo_meta2 : ∃ mp : List Byte, mp.length = 496 ∧ metasFromBytes mp = [.fsz 496, .rsd 1, .rsp 1] := by
  have h1 : ((metasToBytes [.fsz 496, .rsd 1, .rsp 1] 496).map fun mp =>
      decide (mp.length = 496 ∧ metasFromBytes mp = [.fsz 496, .rsd 1, .rsp 1])) = some true := by
    decide +kernel
  rw [Option.map_eq_some_iff] at h1
  obtain ⟨mp, -, h2⟩ := h1
  exact ⟨mp, by simpa using h2⟩

/-- **C27 violated.** If the file ends with a part of a block, a dry run may report other counters than the real run: here a real run
writes the second metadata block behind the part of a block, whereby the rest of that block gets filled up with zeros and happens to be
complete; the dry run counts it as lost. -/
theorem C27_truncated_violated (E : Env) (laws : E.rs.Laws) (hE : E.Calm) :
    ∃ f dk dk' st st', repairFile E (some 1) true f = .ok (some (dk, st)) ∧ repairFile E (some 1) false f = .ok (some (dk', st')) ∧
      st.dataDecoded = 0 ∧ st'.dataDecoded ≠ 0 := by
  obtain ⟨mp, hl, hm⟩ := demo_meta2
  have hB : blockLen .v17 = 512 := rfl
  have hb0 : IsBlock (blockBytes .v17 demoOwner.bytes 0 mp) .v17 demoOwner 0 mp := ⟨rfl, hl⟩
  have hb1 : IsBlock (blockBytes .v17 demoOwner.bytes 1 (List.replicate 496 0)) .v17 demoOwner 1 (List.replicate 496 0) :=
    ⟨rfl, List.length_replicate⟩
  have hl0 := isBlock_length hb0
  have hl1 := isBlock_length hb1
  rw [hB] at hl0 hl1
  generalize hM : blockBytes .v17 demoOwner.bytes 0 mp = M at *
  generalize hD : blockBytes .v17 demoOwner.bytes 1 (List.replicate 496 0) = D at *
  have hsees : ∀ tail : List Byte, tail.length < 128 → Sees E (some 1) (M ++ tail) .v17 demoOwner mp ⟨1, 1, 1⟩ := by
    intro tail ht
    have := first_meta [Piece.block .v17 demoOwner 0 mp] tail (by
      intro p hp; rw [List.mem_singleton] at hp; subst hp; exact hl) E.stopRef hE.ref .v17 demoOwner mp
      (by
        intro v' uid' mp' hp
        rw [List.mem_singleton] at hp
        cases hp
        exact ⟨rfl, rfl, rfl⟩) (List.mem_singleton_self _)
    have hbytes : [Piece.block .v17 demoOwner 0 mp].flatMap Piece.bytes = M := by
      rw [← hM]; simp [Piece.bytes]
    rw [hbytes] at this
    exact ⟨this, rfl, by rw [hm]; rfl, by rw [hm]; rfl, .inl rfl⟩
  have htake : (D.take 100).length = 100 := by rw [List.length_take, hl1]; rfl
  have hs := hsees (D.take 100) (by rw [htake]; decide)
  obtain ⟨mp', total, hset⟩ := hs.setup
  have htot : total = 4 := by
    rw [hset.total, hm]
    show totalBlockCount .v17 none (some ⟨1, 1, 1⟩) 496 = 4
    decide +kernel
  have hmc : metaCopies (some true) (some ⟨1, 1, 1⟩) = [0, 2] := by decide
  have hp1 : placeOf ⟨1, 1, 1⟩ 1 = 1 := by decide
  have hpl0 : piece .v17 (M ++ D.take 100) 0 = M := by
    unfold piece File.readAt
    rw [Nat.zero_mul, List.drop_zero, hB, List.take_left' hl0]
  have hpl1 : piece .v17 (M ++ D.take 100) 1 = D.take 100 := by
    unfold piece File.readAt
    rw [Nat.one_mul, hB, List.drop_left' hl0, List.take_of_length_le (by rw [htake]; decide)]
  have hpl2 : piece .v17 (M ++ D.take 100) 2 = [] := by
    apply piece_beyond
    rw [List.length_append, hl0, htake, hB]
    decide
  have hv0 : ValidAt .v17 demoOwner (M ++ D.take 100) 0 := ⟨0, mp, by rw [hpl0]; exact hb0⟩
  have hv2 : ¬ ValidAt .v17 demoOwner (M ++ D.take 100) 2 := by
    rintro ⟨sq, p, hb⟩
    rw [hpl2] at hb
    exact nil_not_block hb
  have hn1 : ∀ (s : Nat), placeOf ⟨1, 1, 1⟩ s = 1 → ¬ Present .v17 demoOwner ⟨1, 1, 1⟩ (M ++ D.take 100) s := by
    rintro s hsp ⟨p, hb⟩
    rw [hsp, hpl1] at hb
    have := isBlock_length hb
    rw [htake] at this
    exact absurd this (by decide)
  have hz : D = D.take 100 ++ List.replicate 412 0 := by
    have h1 : D.drop 100 = List.replicate 412 0 := by
      have : D = blockBytes .v17 demoOwner.bytes 1 (List.replicate 496 0) := hD.symm
      have h2 := congrArg (List.drop 84) (blockBytes_drop .v17 demoOwner 1 (List.replicate 496 0))
      rw [List.drop_drop, ← this, List.drop_replicate] at h2
      exact h2
    rw [← h1, List.take_append_drop]
  -- the run, dry or not
  have hrun : ∀ dry, ∃ dk st dk1 st1 st2, repairFile E (some 1) dry (M ++ D.take 100) = .ok (some (dk, st)) ∧
      (dk1, st1) = ([0, 2] : List Nat).foldl (metaOne .v17 demoOwner (blockBytes .v17 demoOwner.bytes 0 mp') dry) (⟨M ++ D.take 100, []⟩, Stats.zero) ∧
      st2 = (st1.read (decide (Present .v17 demoOwner ⟨1, 1, 1⟩ dk1.file 1))).read (decide (Present .v17 demoOwner ⟨1, 1, 1⟩ dk1.file 2)) ∧
      st.dataDecoded = st2.dataDecoded := by
    intro dry
    obtain ⟨dk, st, dk1, st1, n, m, e1, e2, e3, e4, e5, e6, e7, e8, -⟩ := run_of_setup laws dry hset
    have hn : n = 2 := by
      rcases e4 with e4 | e4
      · exact e4
      · rw [hE.metas] at e4; simp at e4
    rw [hn, hmc, show ([0, 2] : List Nat).take 2 = [0, 2] from rfl] at e2
    have hb1 : st1.blocks = 2 := by
      have hmb : (blockBytes .v17 demoOwner.bytes 0 mp').length = blockLen .v17 := by
        rw [blockBytes_length, hset.size]; rfl
      obtain ⟨ws, -, f2, -⟩ := meta_ops (uid := demoOwner) (d := ⟨1, 1, 1⟩) hmb dry (M ++ D.take 100) [0, 2] (by decide) (by
        rw [hmc]; exact fun k hk => hk)
      rw [← e2] at f2
      exact f2
    have hm2 : m = 2 := by
      rw [hb1, htot] at e6 e7
      rcases e6 with e6 | e6 | e6
      · unfold lastSeqNum at e6; omega
      · rw [hE.data] at e6; simp at e6
      · omega
    subst hm2
    refine ⟨dk, st, dk1, st1, _, ok_of_setup dry hset e1, e2, rfl, ?_⟩
    have hsd : ∀ (s : Stats) b k, (s.set b k).dataDecoded = s.dataDecoded := by intro s b k; cases b <;> rfl
    cases e5 with
    | read m dk st hr hm => exact absurd (show (1 + 1) % (1 + 1) = 0 from rfl) hm
    | set t m dk st ok ws hr hm hset =>
      rw [hsd]
      cases hr with
      | read m dk st hr hm =>
        cases hr with
        | start => rfl
      | set t m dk st ok ws hr hm hset => simp only at hm; omega
  obtain ⟨dk, st, dk1, st1, st2, a1, a2, a3, a4⟩ := hrun true
  obtain ⟨dk', st', dk1', st1', st2', b1, b2, b3, b4⟩ := hrun false
  refine ⟨_, dk, dk', st, st', a1, b1, ?_, ?_⟩
  · have h1 : metaOne .v17 demoOwner (blockBytes .v17 demoOwner.bytes 0 mp') true (⟨M ++ D.take 100, []⟩, Stats.zero) 0 =
        (⟨M ++ D.take 100, []⟩, ⟨1, 0, 0, 0, 0, 0⟩) := if_pos hv0
    have h2 : metaOne .v17 demoOwner (blockBytes .v17 demoOwner.bytes 0 mp') true (⟨M ++ D.take 100, []⟩, ⟨1, 0, 0, 0, 0, 0⟩) 2 =
        (⟨M ++ D.take 100, []⟩, ⟨1, 0, 1, 1, 0, 0⟩) := if_neg hv2
    rw [List.foldl_cons, h1, List.foldl_cons, h2, List.foldl_nil] at a2
    cases a2
    have hp2 : ¬ Present .v17 demoOwner ⟨1, 1, 1⟩ (M ++ D.take 100) 2 := by
      rintro ⟨p, hb⟩
      rw [piece_beyond (by
        rw [List.length_append, hl0, htake, hB]
        decide)] at hb
      exact nil_not_block hb
    have hdf : (⟨M ++ D.take 100, []⟩ : Disk).file = M ++ D.take 100 := rfl
    rw [hdf, decide_eq_false (hn1 1 hp1), decide_eq_false hp2] at a3
    rw [a4, a3]
    rfl
  · have h1 : metaOne .v17 demoOwner (blockBytes .v17 demoOwner.bytes 0 mp') false (⟨M ++ D.take 100, []⟩, Stats.zero) 0 =
        (⟨M ++ D.take 100, []⟩, ⟨1, 0, 0, 0, 0, 0⟩) := if_pos hv0
    have h2 : metaOne .v17 demoOwner (blockBytes .v17 demoOwner.bytes 0 mp') false (⟨M ++ D.take 100, []⟩, ⟨1, 0, 0, 0, 0, 0⟩) 2 =
        (⟨M ++ D.take 100, [(2 * blockLen .v17, blockBytes .v17 demoOwner.bytes 0 mp')]⟩, ⟨1, 0, 1, 1, 0, 0⟩) := if_neg hv2
    rw [List.foldl_cons, h1, List.foldl_cons, h2, List.foldl_nil] at b2
    cases b2
    have hp : Present .v17 demoOwner ⟨1, 1, 1⟩ (⟨M ++ D.take 100, [(2 * blockLen .v17, blockBytes .v17 demoOwner.bytes 0 mp')]⟩ : Disk).file 1 := by
      refine ⟨List.replicate 496 0, ?_⟩
      rw [hp1]
      have : piece .v17 (⟨M ++ D.take 100, [(2 * blockLen .v17, blockBytes .v17 demoOwner.bytes 0 mp')]⟩ : Disk).file 1 = D := by
        have hmb : (blockBytes .v17 demoOwner.bytes 0 mp').length = 512 := by
          rw [blockBytes_length, hset.size]; rfl
        have hne : blockBytes .v17 demoOwner.bytes 0 mp' ≠ [] := by intro e; rw [e] at hmb; simp at hmb
        generalize blockBytes .v17 demoOwner.bytes 0 mp' = W at *
        have hw : (⟨M ++ D.take 100, [(2 * blockLen .v17, W)]⟩ : Disk).file = M ++ (D ++ W) := by
          show File.writeAt (M ++ D.take 100) (2 * blockLen .v17) W = _
          unfold File.writeAt
          have hlen : (M ++ D.take 100).length = 612 := by rw [List.length_append, hl0, htake]
          rw [if_neg hne, hB, hlen, List.take_of_length_le (by rw [hlen]; decide), List.drop_eq_nil_of_le (by rw [hlen]; omega)]
          rw [List.append_nil, List.append_assoc M, ← hz, List.append_assoc]
        rw [hw]
        unfold piece File.readAt
        rw [Nat.one_mul, hB, List.drop_left' hl0, List.take_left' hl1]
      rw [this]
      exact hb1
    rw [b4, b3, decide_eq_true hp]
    have hge : ∀ (s : Stats) b, (s.read true).dataDecoded ≠ 0 ∧ (((s.read true)).read b).dataDecoded ≠ 0 := by
      intro s b; cases b <;> simp [Stats.read]
    exact (hge _ _).2

end Verif.Repair
