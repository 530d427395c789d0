import Verif.Model.Check
import Verif.Spec.Check
import Verif.Props.ContentHash
import Verif.Props.Metadata
import Verif.Lemmas.ContainerRef
/-!
# Properties of `check`: C38, C42, C48
-/

namespace Verif.Check
open Format ScanSpec DecodeSpec LayoutSpec Scan CheckSpec Misc

/-- The counters after one more place, in terms of what is there. -/
theorem count_place (ref : Block) (f : File) (seekTo k : Nat) (block : Block)
    (hfull : (placeBytes ref.header.version f seekTo k).length = blockLen ref.header.version) :
    ∃ b err, block.syncFrom (placeBytes ref.header.version f seekTo k) (some (sameVerUid ref)) none = (b, err) ∧
      ((IsMeta ref.header.version ref.header.uid (placeBytes ref.header.version f seekTo k) ∧ err = none ∧ b.blockType = .metadata) ∨
       (IsData ref.header.version ref.header.uid (placeBytes ref.header.version f seekTo k) ∧ err = none ∧ b.blockType = .data) ∨
       (¬ IsMeta ref.header.version ref.header.uid (placeBytes ref.header.version f seekTo k) ∧
        ¬ IsData ref.header.version ref.header.uid (placeBytes ref.header.version f seekTo k) ∧ err.isSome)) := by
  rcases hsy : block.syncFrom (placeBytes ref.header.version f seekTo k) (some (sameVerUid ref)) none with ⟨b, err⟩
  refine ⟨b, err, rfl, ?_⟩
  cases hlook : look ref f seekTo k with
  | none =>
    refine .inr (.inr ⟨?_, ?_, ?_⟩)
    · rintro ⟨pl, h⟩
      have := (Decode.look_some (ref := ref) (f := f) (start := seekTo) (k := k) (x := (0, pl))).2 ⟨by show (0 : Nat) < 2 ^ 32; decide, h⟩
      rw [hlook] at this; cases this
    · rintro ⟨seq, pl, -, h⟩
      have := (Decode.look_some (ref := ref) (f := f) (start := seekTo) (k := k) (x := (seq.toNat, pl))).2
        ⟨seq.toNat_lt, by rw [UInt32.ofNat_toNat]; exact h⟩
      rw [hlook] at this; cases this
    · have hno : block.read? (placeBytes ref.header.version f seekTo k) (some (sameVerUid ref)) = none := by
        unfold look at hlook
        rw [Option.map_eq_none_iff] at hlook
        unfold blockAt at hlook
        rw [Block.read?_indep block Block.dummy]
        exact hlook
      unfold Block.read? at hno
      rw [hsy] at hno
      cases err with
      | none => simp at hno
      | some e => rfl
  | some x =>
    obtain ⟨hx, hb⟩ := Decode.look_some.1 hlook
    have hyes : block.syncFrom (placeBytes ref.header.version f seekTo k) (some (sameVerUid ref)) none =
        (blockOf ref.header.version ref.header.uid (UInt32.ofNat x.1) x.2, none) := by
      rw [Block.syncFrom_none]
      exact (readSame_iff (by rw [hfull])).2 ⟨_, _, hb, rfl⟩
    rw [hsy] at hyes
    cases hyes
    by_cases h0 : UInt32.ofNat x.1 = 0
    · refine .inl ⟨⟨x.2, by rw [h0] at hb; exact hb⟩, rfl, ?_⟩
      rw [Decode.blockOf_type, if_pos h0]
    · refine .inr (.inl ⟨⟨_, x.2, h0, hb⟩, rfl, ?_⟩)
      rw [Decode.blockOf_type, if_neg h0]

theorem blank_iff (bs : List Byte) : bufferIsBlank bs = true ↔ IsBlank bs := by
  unfold bufferIsBlank IsBlank
  simp

open Classical in
/-- The counters after looking at one more place. -/
noncomputable def stepAt (p : Param) (ref : Block) (f : File) (start : Nat) (st : Stats) (k : Nat) : Stats :=
  if IsMeta ref.header.version ref.header.uid (placeBytes ref.header.version f start k) then { st with metas := st.metas + 1 }
  else if IsData ref.header.version ref.header.uid (placeBytes ref.header.version f start k) then { st with datas := st.datas + 1 }
  else if IsBlank (placeBytes ref.header.version f start k) then
    if p.reportBlank then
      { st with failed := st.failed + 1, listed := if p.verbose then k * blockLen ref.header.version :: st.listed else st.listed }
    else { st with okayBlank := st.okayBlank + 1 }
  else { st with failed := st.failed + 1 }

theorem not_both {v : Version} {uid : Uid} {bs : List Byte} (h1 : IsMeta v uid bs) (h2 : IsData v uid bs) : False := by
  obtain ⟨p1, h1⟩ := h1
  obtain ⟨seq, p2, h0, h2⟩ := h2
  obtain ⟨-, -, h, -⟩ := h1.unique h2
  exact h0 h.symm

theorem count_step (p : Param) (ref : Block) (f : File) (seekTo k : Nat) (block : Block) (st : Stats)
    (hfull : (placeBytes ref.header.version f seekTo k).length = blockLen ref.header.version) :
    ∃ b err, block.syncFrom (placeBytes ref.header.version f seekTo k) (some (sameVerUid ref)) none = (b, err) ∧
      st.count p (k * blockLen ref.header.version) (placeBytes ref.header.version f seekTo k) b err = stepAt p ref f seekTo st k := by
  obtain ⟨b, err, h1, h2⟩ := count_place ref f seekTo k block hfull
  refine ⟨b, err, h1, ?_⟩
  unfold stepAt Stats.count
  rcases h2 with ⟨h2, rfl, h3⟩ | ⟨h2, rfl, h3⟩ | ⟨h2, h3, h4⟩
  · rw [if_pos h2]; simp [h3]
  · rw [if_neg (fun h => not_both h h2), if_pos h2]; simp [h3]
  · rw [if_neg h2, if_neg h3]
    obtain ⟨e, rfl⟩ := Option.isSome_iff_exists.1 h4
    by_cases hb : IsBlank (placeBytes ref.header.version f seekTo k)
    · simp only [(blank_iff _).2 hb, if_true, if_pos hb]
    · have : bufferIsBlank (placeBytes ref.header.version f seekTo k) = false := by
        rw [Bool.eq_false_iff]; exact fun h => hb ((blank_iff _).1 h)
      simp only [this, Bool.false_eq_true, if_false, if_neg hb]

theorem loop_spec (p : Param) (ref : Block) (f : File) (seekTo required : Nat) (stop : Nat → Bool) :
    ∀ (fuel k checks : Nat) (block : Block) (st : Stats), places ref f seekTo required - k < fuel →
      ∃ m, k + m ≤ max k (places ref f seekTo required) ∧
        ((∀ i, stop i = false) → k ≤ places ref f seekTo required → k + m = places ref f seekTo required) ∧
        checkLoop p ref f seekTo required stop fuel checks (k * blockLen ref.header.version) block st =
          (List.range' k m).foldl (stepAt p ref f seekTo) st := by
  have hLpos : 0 < blockLen ref.header.version := by rw [blockLen_eq]; have := size_ge ref.header.version; omega
  intro fuel
  induction fuel with
  | zero => intro k checks block st h; omega
  | succ fuel ih =>
    intro k checks block st hN
    by_cases hs : stop checks = true
    · refine ⟨0, by omega, fun h => by rw [h] at hs; simp at hs, ?_⟩
      simp [checkLoop, hs]
    by_cases hr : required ≤ k * blockLen ref.header.version
    · have : ceilDiv required (blockLen ref.header.version) ≤ k := (Encode.ceilDiv_le_iff hLpos).2 hr
      refine ⟨0, by omega, fun _ h => ?_, by simp [checkLoop, hr]⟩
      have : places ref f seekTo required ≤ ceilDiv required (blockLen ref.header.version) := Nat.min_le_left _ _
      omega
    have hk1 : ¬ ceilDiv required (blockLen ref.header.version) ≤ k := by rwa [Encode.ceilDiv_le_iff hLpos]
    unfold checkLoop
    rw [if_neg hs, if_neg hr]
    have hp : f.readAt (seekTo + k * blockLen ref.header.version) ref.header.version.blockSize =
        placeBytes ref.header.version f seekTo k := by
      unfold placeBytes; rw [← blockLen_eq]
    simp only [hp]
    by_cases hfull : (placeBytes ref.header.version f seekTo k).length < ref.header.version.blockSize
    · rw [if_pos hfull]
      refine ⟨0, by omega, fun _ h => ?_, by simp⟩
      unfold placeBytes at hfull
      rw [File.readAt_length, ← blockLen_eq] at hfull
      have h1 : (f.length - seekTo) / blockLen ref.header.version < k + 1 := by
        rw [Nat.div_lt_iff_lt_mul hLpos, Nat.succ_mul]; omega
      have h2 : places ref f seekTo required ≤ (f.length - seekTo) / blockLen ref.header.version := Nat.min_le_right _ _
      omega
    · rw [if_neg hfull]
      have hlen : (placeBytes ref.header.version f seekTo k).length = blockLen ref.header.version := by
        have : (placeBytes ref.header.version f seekTo k).length ≤ blockLen ref.header.version := by
          unfold placeBytes; rw [File.readAt_length]; omega
        rw [blockLen_eq] at *; omega
      obtain ⟨b, err, h1, h2⟩ := count_step p ref f seekTo k block st hlen
      have hkp : k < places ref f seekTo required := by
        have : k + 1 ≤ (f.length - seekTo) / blockLen ref.header.version := by
          rw [Nat.le_div_iff_mul_le hLpos, Nat.succ_mul]
          unfold placeBytes at hlen
          rw [File.readAt_length] at hlen
          omega
        unfold places
        omega
      obtain ⟨m, i1, i2, i3⟩ := ih (k + 1) (checks + 1) b (stepAt p ref f seekTo st k) (by omega)
      refine ⟨m + 1, by omega, fun ha hb => by have := i2 ha (by omega); omega, ?_⟩
      rw [h1]
      simp only [h2, hlen]
      rw [← Nat.succ_mul, List.range'_succ, List.foldl_cons]
      exact i3

theorem block_not_blank {bs : List Byte} {v : Version} {uid : Uid} {seq : UInt32} {pl : List Byte} (h : IsBlock bs v uid seq pl) :
    ¬ IsBlank bs := by
  intro hb
  have : (0x53 : Byte) ∈ bs := by
    rw [h.bytes]
    simp [blockBytes, headerBytes]
  have := hb _ this
  simp at this

open Classical in
theorem steps_count (p : Param) (ref : Block) (f : File) (start : Nat) (l : List Nat) : ∀ st : Stats,
    let v := ref.header.version
    let uid := ref.header.uid
    let count (P : List Byte → Prop) : Nat := l.countP fun k => decide (P (placeBytes v f start k))
    let r := l.foldl (stepAt p ref f start) st
    r.metas = st.metas + count (IsMeta v uid) ∧ r.datas = st.datas + count (IsData v uid) ∧
    r.okayBlank = st.okayBlank + (if p.reportBlank then 0 else count IsBlank) ∧
    r.failed = st.failed + (count (IsBad v uid) + (if p.reportBlank then count IsBlank else 0)) ∧
    r.metas + r.datas + r.failed + r.okayBlank = st.metas + st.datas + st.failed + st.okayBlank + l.length ∧
    r.listed = (if p.verbose ∧ p.reportBlank then ((l.filter fun k => decide (IsBlank (placeBytes v f start k))).map (· * blockLen v)).reverse
      else []) ++ st.listed := by
  induction l with
  | nil => intro st; simp
  | cons k l ih =>
    intro st
    obtain ⟨i1, i2, i3, i4, i5, i6⟩ := ih (stepAt p ref f start st k)
    simp only [List.foldl_cons, List.countP_cons, List.length_cons, List.filter_cons] at *
    simp only [i1, i2, i3, i4, i6] at *
    clear ih i1 i2 i3 i4 i6
    unfold stepAt at *
    by_cases hm : IsMeta ref.header.version ref.header.uid (placeBytes ref.header.version f start k)
    · have hd : ¬ IsData ref.header.version ref.header.uid (placeBytes ref.header.version f start k) := fun h => not_both hm h
      have hb : ¬ IsBlank (placeBytes ref.header.version f start k) := by obtain ⟨_, h⟩ := hm; exact block_not_blank h
      have hbad : ¬ IsBad ref.header.version ref.header.uid (placeBytes ref.header.version f start k) := fun h => h.1 hm
      simp only [hm, hd, hb, hbad, if_true, if_false, decide_true, decide_false, Bool.false_eq_true, Nat.add_zero] at *
      refine ⟨?_, ?_, ?_, ?_, ?_, ?_⟩ <;> first | rfl | omega
    · by_cases hd : IsData ref.header.version ref.header.uid (placeBytes ref.header.version f start k)
      · have hb : ¬ IsBlank (placeBytes ref.header.version f start k) := by obtain ⟨_, _, _, h⟩ := hd; exact block_not_blank h
        have hbad : ¬ IsBad ref.header.version ref.header.uid (placeBytes ref.header.version f start k) := fun h => h.2.1 hd
        simp only [hm, hd, hb, hbad, if_true, if_false, decide_true, decide_false, Bool.false_eq_true, Nat.add_zero] at *
        refine ⟨?_, ?_, ?_, ?_, ?_, ?_⟩ <;> first | rfl | omega
      · by_cases hb : IsBlank (placeBytes ref.header.version f start k)
        · have hbad : ¬ IsBad ref.header.version ref.header.uid (placeBytes ref.header.version f start k) := fun h => h.2.2 hb
          simp only [hm, hd, hb, hbad, if_true, if_false, decide_true, decide_false, Bool.false_eq_true, Nat.add_zero] at *
          cases hr : p.reportBlank <;> cases hv : p.verbose <;>
            simp only [hr, hv, if_true, if_false, Bool.false_eq_true, and_self, and_false, false_and, Nat.add_zero, List.map_cons,
              List.reverse_cons, List.append_assoc, List.cons_append, List.nil_append] at * <;>
            refine ⟨?_, ?_, ?_, ?_, ?_, ?_⟩ <;> first | rfl | omega
        · have hbad : IsBad ref.header.version ref.header.uid (placeBytes ref.header.version f start k) := ⟨hm, hd, hb⟩
          simp only [hm, hd, hb, hbad, if_true, if_false, decide_true, decide_false, Bool.false_eq_true, Nat.add_zero] at *
          refine ⟨?_, ?_, ?_, ?_, ?_, ?_⟩ <;> first | rfl | omega

theorem checkFile_blocks {E : Env} {p : Param} {f : File} {r : Report} (h : checkFile E p f = .ok r) {st : Stats}
    (hst : r.blocks = some st) :
    ∃ pos ref m, getRefBlockM p.ref p.ref.refChoice f E.stopRef (E.stopCheck 0) = .ok (pos, ref) ∧
      m ≤ places ref f (rangeOf p.ref ref f).seekTo (rangeOf p.ref ref f).requiredLen ∧
      ((∀ i, E.stopCheck i = false) → m = places ref f (rangeOf p.ref ref f).seekTo (rangeOf p.ref ref f).requiredLen) ∧
      st = (List.range m).foldl (stepAt p ref f (rangeOf p.ref ref f).seekTo) Stats.zero := by
  unfold checkFile at h
  cases hr : getRefBlockM p.ref p.ref.refChoice f E.stopRef (E.stopCheck 0) with
  | error e => rw [hr] at h; simp at h
  | ok x =>
    obtain ⟨pos, ref⟩ := x
    rw [hr] at h
    simp only at h
    cases hw : hashWanted p ref with
    | error e => rw [hw] at h; simp at h
    | ok w =>
      rw [hw] at h
      simp only [Except.ok.injEq] at h
      subst h
      simp only at hst
      split at hst
      · cases hst
      · cases hst
        have hLpos : 1 < blockLen ref.header.version := by rw [blockLen_eq]; have := size_ge ref.header.version; omega
        obtain ⟨m, h1, h2, h3⟩ := loop_spec p ref f (rangeOf p.ref ref f).seekTo (rangeOf p.ref ref f).requiredLen E.stopCheck
          (f.length + 1) 0 0 Block.dummy Stats.zero (by
            have h1 : places ref f (rangeOf p.ref ref f).seekTo (rangeOf p.ref ref f).requiredLen ≤
              (f.length - (rangeOf p.ref ref f).seekTo) / blockLen ref.header.version := Nat.min_le_right _ _
            have h2 := Nat.div_le_self (f.length - (rangeOf p.ref ref f).seekTo) (blockLen ref.header.version)
            omega)
        refine ⟨pos, ref, m, rfl, by omega, fun hs => by have := h2 hs (by omega); omega, ?_⟩
        rw [List.range_eq_range', ← h3, Nat.zero_mul]
        rfl

/-- **C38, check.** In every run of `check` that checks blocks, interrupted or not: a number `m` of places was looked at (all of them if
there was no Ctrl-C); the counters are the numbers of metadata blocks, of data and parity blocks, of blank places and of damaged places
among them, so each place is counted exactly once. -/
theorem C38_check (E : Env) (p : Param) (f : File) (r : Report) (h : checkFile E p f = .ok r) (st : Stats) (hst : r.blocks = some st) :
    ∃ pos ref m, getRefBlockM p.ref p.ref.refChoice f E.stopRef (E.stopCheck 0) = .ok (pos, ref) ∧
      (let v := ref.header.version
       let uid := ref.header.uid
       let start := (rangeOf p.ref ref f).seekTo
       let required := (rangeOf p.ref ref f).requiredLen
       m ≤ places ref f start required ∧ ((∀ i, E.stopCheck i = false) → m = places ref f start required) ∧
       st.metas = countPlaces v f start m (IsMeta v uid) ∧
       st.datas = countPlaces v f start m (IsData v uid) ∧
       st.okayBlank = (if p.reportBlank then 0 else countPlaces v f start m IsBlank) ∧
       st.failed = countPlaces v f start m (IsBad v uid) + (if p.reportBlank then countPlaces v f start m IsBlank else 0) ∧
       st.metas + st.datas + st.failed + st.okayBlank = m) := by
  obtain ⟨pos, ref, m, h1, h2, h3, rfl⟩ := checkFile_blocks h hst
  obtain ⟨i1, i2, i3, i4, i5, -⟩ := steps_count p ref f (rangeOf p.ref ref f).seekTo (List.range m) Stats.zero
  refine ⟨pos, ref, m, h1, h2, h3, ?_, ?_, ?_, ?_, ?_⟩
  · rw [i1]; simp [Stats.zero, countPlaces]
  · rw [i2]; simp [Stats.zero, countPlaces]
  · rw [i3]; simp [Stats.zero, countPlaces]
  · rw [i4]; simp [Stats.zero, countPlaces]
  · rw [i5]; simp [Stats.zero]


/-! ### C48 -/

open Classical in
/-- **C48, the part that holds.** The positions listed with `--verbose` are those of the blank places (counted from where the check
starts) if blank places are to be reported, and there are none otherwise. -/
theorem C48_listed_partial (E : Env) (p : Param) (f : File) (r : Report) (h : checkFile E p f = .ok r) (st : Stats)
    (hst : r.blocks = some st) :
    ∃ pos ref m, getRefBlockM p.ref p.ref.refChoice f E.stopRef (E.stopCheck 0) = .ok (pos, ref) ∧
      (let v := ref.header.version
       let start := (rangeOf p.ref ref f).seekTo
       let required := (rangeOf p.ref ref f).requiredLen
       m ≤ places ref f start required ∧ ((∀ i, E.stopCheck i = false) → m = places ref f start required) ∧
       st.listed.reverse = (if p.verbose ∧ p.reportBlank then
         ((List.range m).filter fun k => decide (IsBlank (placeBytes v f start k))).map (· * blockLen v) else [])) := by
  obtain ⟨pos, ref, m, h1, h2, h3, rfl⟩ := checkFile_blocks h hst
  obtain ⟨-, -, -, -, -, i6⟩ := steps_count p ref f (rangeOf p.ref ref f).seekTo (List.range m) Stats.zero
  refine ⟨pos, ref, m, h1, h2, h3, ?_⟩
  rw [i6]
  split <;> simp [Stats.zero]

/-- **C48 is violated.** Whatever is checked: if a place that was looked at is damaged but not blank then fewer positions are listed
than blocks are counted as failed. -/
theorem C48_unlisted_violated (E : Env) (p : Param) (f : File) (r : Report) (h : checkFile E p f = .ok r) (st : Stats)
    (hst : r.blocks = some st) :
    ∃ pos ref m, getRefBlockM p.ref p.ref.refChoice f E.stopRef (E.stopCheck 0) = .ok (pos, ref) ∧
      st.metas + st.datas + st.failed + st.okayBlank = m ∧
      ∀ k < m, IsBad ref.header.version ref.header.uid (placeBytes ref.header.version f (rangeOf p.ref ref f).seekTo k) →
        st.listed.length < st.failed := by
  obtain ⟨pos, ref, m, h1, h2, h3, rfl⟩ := checkFile_blocks h hst
  obtain ⟨-, -, -, i4, i5, i6⟩ := steps_count p ref f (rangeOf p.ref ref f).seekTo (List.range m) Stats.zero
  refine ⟨pos, ref, m, h1, by rw [i5]; simp [Stats.zero], fun k hk hbad => ?_⟩
  have hpos : 0 < (List.range m).countP fun k => @decide (IsBad ref.header.version ref.header.uid
      (placeBytes ref.header.version f (rangeOf p.ref ref f).seekTo k)) (Classical.propDecidable _) :=
    List.countP_pos_iff.2 ⟨k, List.mem_range.2 hk, by simpa using hbad⟩
  simp only at i4 i6
  rw [i4, i6]
  clear i4 i5 i6 h2 h3
  revert hpos
  generalize (List.range m).countP (fun k => @decide (IsBad ref.header.version ref.header.uid
      (placeBytes ref.header.version f (rangeOf p.ref ref f).seekTo k)) (Classical.propDecidable _)) = n
  intro hpos
  cases hr : p.reportBlank <;> cases hv : p.verbose <;>
    simp [Stats.zero, List.countP_eq_length_filter] <;> omega

/-- A container of version 2 with a metadata block and `rest`. -/
def smallFile (rest : List Byte) : File :=
  blockBytes .v2 Block.zeroUid.bytes 0 ((metasToBytes [.fsz 5] 112).getD []) ++ rest

/-- The "hash" just counts. -/
def smallHash : HashFn := ⟨fun t bs => List.replicate t.digestLen (UInt8.ofNat bs.length), fun _ _ => List.length_replicate⟩

def smallEnv : Env := ⟨smallHash, 2, fun _ => false, fun _ => false, fun _ => false⟩

def smallParam (fromPos : Option Nat) : Param :=
  ⟨⟨.prefer .metadata, some 0, none, none, fromPos, none, false, none⟩, true, true, .noHash⟩

def counted (fromPos : Option Nat) (rest : List Byte) : Option Stats :=
  match checkFile smallEnv (smallParam fromPos) (smallFile rest) with
  | .ok r => r.blocks
  | .error _ => none

set_option maxRecDepth 1000000 in
/-- **C48 is violated.** One block passes, one is damaged and counted as failed, and none is listed. -/
theorem C48_unlisted_example_violated : counted none (List.replicate 128 0xFF) = some ⟨1, 0, 1, 0, []⟩ := by
  decide +kernel

set_option maxRecDepth 1000000 in
/-- **C48 is violated.** The blank block is at position 128 of the file, but 0 is listed, since the check was told to start at 128. -/
theorem C48_relative_violated : counted (some 128) (List.replicate 128 0) = some ⟨0, 0, 1, 0, [0]⟩ := by
  decide +kernel

/-! ### C42 -/

/-- The shard counts found for a block of the file make sense: reading metadata drops all others (C06). -/
theorem found_valid {q : RefParam} {choice : RefChoice} {f : File} {stop : Nat → Bool} {b : Bool} {pos : Nat} {ref : Block}
    (h : getRefBlockM q choice f stop b = .ok (pos, ref)) {offset : Bool} {dpb : Option Dpb} (hd : dataParBurst q offset f ref = .ok dpb) :
    Valid dpb := by
  have hg : getRefBlock f (q.refFrom.or (q.fromPos.map (· % scanBlockSize))) q.refTo q.forceMisalign choice stop = some (pos, ref) := by
    unfold getRefBlockM at h
    split at h
    · split at h <;> simp at h
    · rename_i x hx
      simp only [Except.ok.injEq] at h
      rw [hx, h]
  obtain ⟨v, uid, seq, payload, -, rfl⟩ := (C34_interrupted f _ _ _ _ _ _ rfl).2 pos ref hg
  have hs := Decode.dataParBurst_shards hd
  intro d hdd
  subst hdd
  simp only [Option.map_some] at hs
  split at hs
  · split at hs
    · rename_i x y h1 h2
      simp only [Option.some.injEq, Prod.mk.injEq] at hs
      by_cases h0 : seq = 0
      · subst h0
        rw [getRsd_meta Decode.metas_blockOf] at h1
        simp only [Except.ok.injEq] at h1
        obtain ⟨m, hm, hr⟩ := List.exists_of_findSome?_eq_some h1
        have := (C06_parsed_fields_sane payload).1 m hm
        cases m <;> simp at hr
        rename_i n
        simp only [Metadata.Storable] at this
        omega
      · exfalso
        unfold getRsd at h1
        simp [blockOf, h0] at h1
    · simp at hs
  · simp at hs

/-- What `check` has to go by when it compares the hash. -/
theorem checkFile_hash {E : Env} {p : Param} {f : File} {r : Report} (h : checkFile E p f = .ok r) {hb : HashBytes}
    {x : Except Err HashBytes} (hx : r.hash = some (hb, x)) :
    ∃ pos ref ms n, getRefBlockM p.ref p.ref.refChoice f E.stopRef (E.stopCheck 0) = .ok (pos, ref) ∧ ref.metas = some ms ∧
      firstFsz ms = some n ∧ firstHsh ms = some hb ∧ hb.ty.supported = true ∧ x = hashStored E p f ref n hb := by
  unfold checkFile at h
  cases hr : getRefBlockM p.ref p.ref.refChoice f E.stopRef (E.stopCheck 0) with
  | error e => rw [hr] at h; simp at h
  | ok y =>
    obtain ⟨pos, ref⟩ := y
    rw [hr] at h
    simp only at h
    cases hw : hashWanted p ref with
    | error e => rw [hw] at h; simp at h
    | ok w =>
      rw [hw] at h
      simp only [Except.ok.injEq] at h
      subst h
      simp only [Option.map_eq_some_iff, Prod.mk.injEq] at hx
      obtain ⟨⟨n, hb'⟩, hn, rfl, rfl⟩ := hx
      subst hn
      unfold hashWanted at hw
      split at hw
      · simp at hw
      · cases hm : ref.metas with
        | none =>
          have : getFsz ref = .error .incorrectBlockType := by
            unfold Block.metas at hm; unfold getFsz; cases hd : ref.data <;> rw [hd] at hm <;> simp at hm ⊢
          rw [this] at hw; simp at hw
        | some ms =>
          rw [getFsz_meta hm, getHsh_meta hm] at hw
          cases h1 : firstFsz ms with
          | none => rw [h1] at hw; simp at hw
          | some n' =>
            cases h2 : firstHsh ms with
            | none => rw [h1, h2] at hw; simp at hw
            | some hb'' =>
              rw [h1, h2] at hw
              simp only at hw
              split at hw
              · rename_i hs
                simp only [Except.ok.injEq, Option.some.injEq, Prod.mk.injEq] at hw
                obtain ⟨rfl, rfl⟩ := hw
                exact ⟨pos, ref, ms, _, rfl, hm, h1, h2, hs, rfl⟩
              · simp at hw

/-- **C42, check.** What a run of `check --hash` that is not interrupted says about a file with a recorded size other than 0: the hash
matches if and only if every chunk is stored and the bytes have the recorded digest; it does not match if and only if every chunk is stored
and the digest is another one; an error is reported if and only if the bytes are not all there. -/
theorem C42_check (E : Env) (hL : 0 < E.lotCount) (hstop : ∀ i, E.stopHash i = false) (p : Param) (f : File) (r : Report)
    (h : checkFile E p f = .ok r) (hb : HashBytes) (x : Except Err HashBytes) (hx : r.hash = some (hb, x)) :
    ∃ pos ref ms n, getRefBlockM p.ref p.ref.refChoice f E.stopRef (E.stopCheck 0) = .ok (pos, ref) ∧ ref.metas = some ms ∧
      firstFsz ms = some n ∧ firstHsh ms = some hb ∧
      ∀ dpb, dataParBurst p.ref true f ref = .ok dpb → 0 < n →
        (∀ j, j * (blockLen ref.header.version - 16) < n → StoredSpec.Numbered dpb j) →
        let stored (bytes : List Byte) : Prop := bytes.length = n ∧ StoredSpec.Stored ref.header.version ref.header.uid dpb f bytes
        (r.verdict = some .same ↔ ∃ bytes, stored bytes ∧ (E.hash.bytes hb.ty bytes).digest = hb.digest) ∧
        (r.verdict = some .different ↔ ∃ bytes, stored bytes ∧ (E.hash.bytes hb.ty bytes).digest ≠ hb.digest) ∧
        (r.verdict = some .error ↔ ¬ ∃ bytes, stored bytes) := by
  obtain ⟨pos, ref, ms, n, h1, h2, h3, h4, -, rfl⟩ := checkFile_hash h hx
  refine ⟨pos, ref, ms, n, h1, h2, h3, h4, ?_⟩
  intro dpb hd hn hnum
  have hv := found_valid h1 hd
  have hyes : ∀ bytes : List Byte, bytes.length = n → StoredSpec.Stored ref.header.version ref.header.uid dpb f bytes →
      hashStored E p f ref n hb = .ok (E.hash.bytes hb.ty bytes) := by
    intro bytes hl hs
    unfold hashStored
    rw [hd]
    subst hl
    exact ContentHash.C42_hash E.hash E.lotCount hL E.stopHash hstop hb.ty f ref dpb hv bytes (List.length_pos_iff.1 hn) hs
  have hv' : r.verdict = some (match hashStored E p f ref n hb with
      | .ok h => if hb.digest = h.digest then .same else .different
      | .error _ => .error) := by
    unfold Report.verdict
    rw [hx]
    rfl
  simp only
  cases hh : hashStored E p f ref n hb with
  | error e =>
    have hno : ¬ ∃ bytes : List Byte, bytes.length = n ∧ StoredSpec.Stored ref.header.version ref.header.uid dpb f bytes := by
      rintro ⟨bytes, hl, hs⟩
      rw [hyes bytes hl hs] at hh; simp at hh
    rw [hh] at hv'
    simp only [hv', Option.some.injEq, reduceCtorEq, false_iff, true_iff]
    exact ⟨fun ⟨b, hb, _⟩ => hno ⟨b, hb⟩, fun ⟨b, hb, _⟩ => hno ⟨b, hb⟩, hno⟩
  | ok hc =>
    have hh' := hh
    unfold hashStored at hh'
    rw [hd] at hh'
    obtain ⟨bytes, hl, hs, rfl⟩ := ContentHash.C42_only_stored E.hash E.lotCount hL E.stopHash hstop hb.ty f ref dpb hv n hn hnum hc hh'
    have huniq : ∀ bytes' : List Byte, bytes'.length = n → StoredSpec.Stored ref.header.version ref.header.uid dpb f bytes' →
        E.hash.bytes hb.ty bytes' = E.hash.bytes hb.ty bytes := by
      intro bytes' hl' hs'
      have := hyes bytes' hl' hs'
      rw [hh] at this
      exact (Except.ok.inj this).symm
    rw [hh] at hv'
    by_cases he : hb.digest = (E.hash.bytes hb.ty bytes).digest
    · simp only [he, if_true] at hv'
      simp only [hv', Option.some.injEq, reduceCtorEq, false_iff, true_iff]
      refine ⟨⟨bytes, ⟨hl, hs⟩, he.symm⟩, ?_, fun h => h ⟨bytes, hl, hs⟩⟩
      rintro ⟨b', ⟨hl', hs'⟩, hne⟩
      rw [huniq b' hl' hs'] at hne
      exact hne he.symm
    · simp only [he, if_false] at hv'
      simp only [hv', Option.some.injEq, reduceCtorEq, false_iff, true_iff]
      refine ⟨?_, ⟨bytes, ⟨hl, hs⟩, fun h => he h.symm⟩, fun h => h ⟨bytes, hl, hs⟩⟩
      rintro ⟨b', ⟨hl', hs'⟩, heq⟩
      rw [huniq b' hl' hs'] at heq
      exact he heq.symm

/-- What is recorded in a container is enough for `check --hash`. -/
theorem checkFile_container (E : Env) (hs : ∀ i, E.stopRef i = false) (p : Param) (hp : Decode.DefaultRef p.ref)
    (hg : p.ref.guessBurstFrom = none) (hact : p.hashAction ≠ .noHash) (rs : RsCodec) (v : Version) (uid : Uid) (dpb : Option Dpb)
    (bytes mb : List Byte) (f : File) (hrs : RsLen rs v dpb)
    (hsh : ∀ d, dpb = some d → 1 ≤ d.data ∧ 1 ≤ d.parity ∧ d.data + d.parity ≤ 256) (hcons : verConsistent v dpb = true)
    (hc : ContainerSpec.IsContainer rs v uid.bytes true dpb bytes mb f) (ms : List Metadata) (hrec : ContainerSpec.Records v uid mb ms)
    (hms : firstRsd ms = dpb.map (·.data) ∧ firstRsp ms = dpb.map (·.parity)) (hsz : firstFsz ms = some bytes.length) (hb : HashBytes)
    (hhsh : firstHsh ms = some hb) (hsup : hb.ty.supported = true)
    (hn : (ContainerSpec.payloads rs v dpb (ContainerSpec.fileChunks v bytes)).length ≤ lastSeqNum)
    (hbk : Decode.BurstKnown p.ref.burst dpb (ContainerSpec.payloads rs v dpb (ContainerSpec.fileChunks v bytes)).length) :
    ∃ r mp, checkFile E p f = .ok r ∧
      r.hash = some (hb, ContentHash.hash E.hash E.lotCount E.stopHash hb.ty f (blockOf v uid 0 mp) dpb bytes.length) := by
  obtain ⟨mp, hmb, rfl⟩ := hrec
  have href := Decode.ref_at_start hp hs (E.stopCheck 0) (Decode.container_start hc hmb)
  have hshards := Decode.container_shards hrs hsh hcons hc hmb hms hn p.ref true hbk (fun _ => by
    unfold RefParam.guessFrom; rw [hg, hp.fromPos]; rfl)
  have hm : (blockOf v uid 0 mp).metas = some (metasFromBytes mp) := Decode.metas_blockOf
  have hw : hashWanted p (blockOf v uid 0 mp) = .ok (some (bytes.length, hb)) := by
    unfold hashWanted
    rw [if_neg hact, getFsz_meta hm, getHsh_meta hm, hsz, hhsh]
    simp [hsup]
  unfold checkFile
  rw [href]
  simp only [hw]
  refine ⟨_, mp, rfl, ?_⟩
  simp only [Option.map_some, Option.some.injEq, Prod.mk.injEq, true_and]
  unfold hashStored
  rw [hshards]

/-- **C42, check.** If the digest recorded in an intact container is that of the file stored, `check --hash` says that the hash matches. -/
theorem C42_check_intact (E : Env) (hL : 0 < E.lotCount) (hs : ∀ i, E.stopRef i = false) (hstop : ∀ i, E.stopHash i = false) (p : Param)
    (hp : Decode.DefaultRef p.ref) (hg : p.ref.guessBurstFrom = none) (hact : p.hashAction ≠ .noHash) (rs : RsCodec) (v : Version)
    (uid : Uid) (dpb : Option Dpb) (bytes mb : List Byte) (f : File) (hrs : RsLen rs v dpb)
    (hsh : ∀ d, dpb = some d → 1 ≤ d.data ∧ 1 ≤ d.parity ∧ d.data + d.parity ≤ 256) (hcons : verConsistent v dpb = true)
    (hc : ContainerSpec.IsContainer rs v uid.bytes true dpb bytes mb f) (ms : List Metadata) (hrec : ContainerSpec.Records v uid mb ms)
    (hms : firstRsd ms = dpb.map (·.data) ∧ firstRsp ms = dpb.map (·.parity)) (hsz : firstFsz ms = some bytes.length) (hb : HashBytes)
    (hhsh : firstHsh ms = some hb) (hsup : hb.ty.supported = true) (hdig : hb.digest = (E.hash.bytes hb.ty bytes).digest)
    (hn : (ContainerSpec.payloads rs v dpb (ContainerSpec.fileChunks v bytes)).length ≤ lastSeqNum)
    (hbk : Decode.BurstKnown p.ref.burst dpb (ContainerSpec.payloads rs v dpb (ContainerSpec.fileChunks v bytes)).length)
    (hne : bytes ≠ []) :
    ∃ r, checkFile E p f = .ok r ∧ r.verdict = some .same := by
  obtain ⟨r, mp, h1, h2⟩ := checkFile_container E hs p hp hg hact rs v uid dpb bytes mb f hrs hsh hcons hc ms hrec hms hsz hb hhsh hsup hn hbk
  refine ⟨r, h1, ?_⟩
  unfold Report.verdict
  rw [h2, ContentHash.C42_container E.hash E.lotCount hL E.stopHash hstop hb.ty rs v uid dpb hrs (fun d hd => (hsh d hd).1) bytes mb f hne hc
    hn mp]
  simp [← hdig]

/-- **C42 is violated if the user presses Ctrl-C.** If the stop flag is set when hashing begins (say because Ctrl-C was pressed while the
blocks were being checked) then the hash of no bytes at all is reported for an intact container, and `check` says that the hash does not
match. -/
theorem C42_interrupted_violated (E : Env) (hL : 0 < E.lotCount) (hs : ∀ i, E.stopRef i = false) (hstop : E.stopHash 0 = true) (p : Param)
    (hp : Decode.DefaultRef p.ref) (hg : p.ref.guessBurstFrom = none) (hact : p.hashAction ≠ .noHash) (rs : RsCodec) (v : Version)
    (uid : Uid) (dpb : Option Dpb) (bytes mb : List Byte) (f : File) (hrs : RsLen rs v dpb)
    (hsh : ∀ d, dpb = some d → 1 ≤ d.data ∧ 1 ≤ d.parity ∧ d.data + d.parity ≤ 256) (hcons : verConsistent v dpb = true)
    (hc : ContainerSpec.IsContainer rs v uid.bytes true dpb bytes mb f) (ms : List Metadata) (hrec : ContainerSpec.Records v uid mb ms)
    (hms : firstRsd ms = dpb.map (·.data) ∧ firstRsp ms = dpb.map (·.parity)) (hsz : firstFsz ms = some bytes.length) (hb : HashBytes)
    (hhsh : firstHsh ms = some hb) (hsup : hb.ty.supported = true) (hdig : hb.digest ≠ (E.hash.bytes hb.ty []).digest)
    (hn : (ContainerSpec.payloads rs v dpb (ContainerSpec.fileChunks v bytes)).length ≤ lastSeqNum)
    (hbk : Decode.BurstKnown p.ref.burst dpb (ContainerSpec.payloads rs v dpb (ContainerSpec.fileChunks v bytes)).length) :
    ∃ r, checkFile E p f = .ok r ∧ r.verdict = some .different := by
  obtain ⟨r, mp, h1, h2⟩ := checkFile_container E hs p hp hg hact rs v uid dpb bytes mb f hrs hsh hcons hc ms hrec hms hsz hb hhsh hsup hn hbk
  refine ⟨r, h1, ?_⟩
  unfold Report.verdict
  have : ContentHash.hash E.hash E.lotCount E.stopHash hb.ty f (blockOf v uid 0 mp) dpb bytes.length = .ok (E.hash.bytes hb.ty []) := by
    have hr : BlockRing.Runs (ContentHash.cfg (blockOf v uid 0 mp) dpb) (ContentHash.act E.stopHash f (blockOf v uid 0 mp) dpb bytes.length) 1
        ⟨1, 0, 0, false⟩ [] ⟨1, 0, 0, false⟩ := .halt (by unfold ContentHash.act; rw [hstop]; rfl)
    obtain ⟨ss, hk, e⟩ := BlockRing.run2_spec (cap := ContentHash.buffersInRotation + 1) (N := ContentHash.buffersInRotation)
      (fuel := 2 ^ 32 + 3) (ContentHash.cfg_pos _ dpb) hL (by unfold ContentHash.buffersInRotation; omega)
      (BlockRing.hasherReset_folds (ContentHash.cfg_pos _ dpb) E.lotCount) hr (by simp) (by omega) []
    cases hk
    unfold ContentHash.hash
    rw [e]
    rfl
  rw [h2, this]
  simp [hdig]

/-! ### Instances -/

set_option maxRecDepth 1000000 in
/-- A metadata block, a damaged block and a blank one; blank blocks are to be reported. -/
example : ∃ st, counted none (List.replicate 128 0xFF ++ List.replicate 128 0) = some st ∧
    st.metas + st.datas + st.failed + st.okayBlank = 3 ∧ st.failed = 2 ∧ st.listed = [256] := by
  have h : counted none (List.replicate 128 0xFF ++ List.replicate 128 0) = some ⟨1, 0, 2, 0, [256]⟩ := by
    decide +kernel
  exact ⟨_, h, rfl, rfl, rfl⟩

/-- `check --hash`. -/
def hashParam : Param := ⟨⟨.prefer .metadata, none, none, none, none, none, false, none⟩, false, false, .hashAfterCheck⟩

noncomputable def hashEnv (stopped : Bool) : Env := ⟨Decode.calmEnv.hash, 2, fun _ => false, fun _ => false, fun _ => stopped⟩

set_option maxRecDepth 100000 in
/-- The hash of an encoded container matches, but not if Ctrl-C was pressed. -/
example : ∃ f r r', checkFile (hashEnv false) hashParam f = .ok r ∧ r.verdict = some .same ∧
    checkFile (hashEnv true) hashParam f = .ok r' ∧ r'.verdict = some .different := by
  obtain ⟨f, mb, ms, h1, h2, h3, h4, h5, h6, h7, h8⟩ := Demo.rs_container
  obtain ⟨r, e, hr⟩ := C42_check_intact (hashEnv false) Nat.zero_lt_two (fun _ => rfl) (fun _ => rfl) hashParam ⟨rfl, rfl, rfl, .inr (.inl rfl)⟩
    rfl (by decide) RsWitness.codec .v17 ⟨[1, 2, 3, 4, 5, 6], rfl⟩ (some ⟨10, 2, 3⟩) (List.replicate 1000 7) mb f h8
    (by intro d hd; cases hd; decide) rfl h1 ms h2 ⟨h4, h5⟩ (by rw [List.length_replicate]; exact h3) _ h6 rfl rfl h7
    (by intro d hd; cases hd; exact .inr ⟨rfl, by decide, .inl (by decide)⟩)
    (List.ne_nil_of_length_pos (by rw [List.length_replicate]; decide))
  obtain ⟨r', e', hr'⟩ := C42_interrupted_violated (hashEnv true) Nat.zero_lt_two (fun _ => rfl) rfl hashParam ⟨rfl, rfl, rfl, .inr (.inl rfl)⟩
    rfl (by decide) RsWitness.codec .v17 ⟨[1, 2, 3, 4, 5, 6], rfl⟩ (some ⟨10, 2, 3⟩) (List.replicate 1000 7) mb f h8
    (by intro d hd; cases hd; decide) rfl h1 ms h2 ⟨h4, h5⟩ (by rw [List.length_replicate]; exact h3) _ h6 rfl
    (by decide +kernel) h7
    (by intro d hd; cases hd; exact .inr ⟨rfl, by decide, .inl (by decide)⟩)
  exact ⟨f, r, r', e, hr, e', hr'⟩

/-- The hypotheses of `C42_check` hold for it. -/
example : ∃ f r hb x, checkFile (hashEnv false) hashParam f = .ok r ∧ r.hash = some (hb, x) ∧
    ∃ pos ref ms n dpb, getRefBlockM hashParam.ref hashParam.ref.refChoice f (fun _ => false) false = .ok (pos, ref) ∧
      ref.metas = some ms ∧ firstFsz ms = some n ∧ dataParBurst hashParam.ref true f ref = .ok dpb ∧ 0 < n ∧
      ∀ j, j * (blockLen ref.header.version - 16) < n → StoredSpec.Numbered dpb j := by
  obtain ⟨f, mb, ms, h1, h2, h3, h4, h5, h6, h7, h8⟩ := Demo.rs_container
  obtain ⟨r, mp, e, hr⟩ := checkFile_container (hashEnv false) (fun _ => rfl) hashParam ⟨rfl, rfl, rfl, .inr (.inl rfl)⟩
    rfl (by decide) RsWitness.codec .v17 ⟨[1, 2, 3, 4, 5, 6], rfl⟩ (some ⟨10, 2, 3⟩) (List.replicate 1000 7) mb f h8
    (by intro d hd; cases hd; decide) rfl h1 ms h2 ⟨h4, h5⟩ (by rw [List.length_replicate]; exact h3) _ h6 rfl h7
    (by intro d hd; cases hd; exact .inr ⟨rfl, by decide, .inl (by decide)⟩)
  obtain ⟨mp, hmb, rfl⟩ := h2
  refine ⟨f, r, _, _, e, hr, 0, _, _, 1000, some ⟨10, 2, 3⟩,
    Decode.ref_at_start ⟨rfl, rfl, rfl, .inr (.inl rfl)⟩ (fun _ => rfl) false (Decode.container_start h1 hmb), Decode.metas_blockOf, h3,
    Decode.container_shards h8 (by intro d hd; cases hd; decide) rfl h1 hmb ⟨h4, h5⟩ h7 hashParam.ref true
      (by intro d hd; cases hd; exact .inr ⟨rfl, by decide, .inl (by decide)⟩) (fun _ => rfl), by omega, ?_⟩
  intro j hj
  have hj' : j * 496 < 1000 := hj
  obtain rfl | rfl | rfl : j = 0 ∨ j = 1 ∨ j = 2 := by omega
  · exact ⟨1, by omega, by decide⟩
  · exact ⟨2, by omega, by decide⟩
  · exact ⟨3, by omega, by decide⟩

end Verif.Check
