import Verif.Model.Decode
import Verif.Spec.Decode
import Verif.Lemmas.BlockRing
import Verif.Lemmas.Guess
/-!
# Lemmas about decoding to a file
-/

namespace Verif.Decode
open Format ScanSpec DecodeSpec LayoutSpec BlockRing Scan

/-- The change made to a slot that is kept. -/
def loaded (v : Version) (uid : Uid) (x : Nat × List Byte) (s : Slot) : Slot :=
  { s with
    block := blockOf v uid (UInt32.ofNat x.1) x.2
    data := blockBytes v uid.bytes (UInt32.ofNat x.1) x.2 }

theorem look_some {ref : Block} {f : File} {start k : Nat} {x : Nat × List Byte} :
    look ref f start k = some x ↔ x.1 < 2 ^ 32 ∧
      IsBlock (f.readAt (start + k * blockLen ref.header.version) (blockLen ref.header.version)) ref.header.version ref.header.uid
        (UInt32.ofNat x.1) x.2 := by
  unfold look
  rw [Option.map_eq_some_iff]
  constructor
  · rintro ⟨b, hb, rfl⟩
    obtain ⟨seq, p, h1, rfl⟩ := blockAt_iff.1 hb
    have e : (f.readAt (start + k * blockLen ref.header.version) (blockLen ref.header.version)).drop 16 = p := by
      unfold File.readAt
      rw [h1.bytes, blockBytes_drop]
    simp only [blockOf] at *
    rw [e]
    refine ⟨UInt32.toNat_lt seq, ?_⟩
    rw [UInt32.ofNat_toNat]
    exact h1
  · rintro ⟨h0, h1⟩
    refine ⟨_, blockAt_iff.2 ⟨UInt32.ofNat x.1, x.2, h1, rfl⟩, ?_⟩
    have e : (f.readAt (start + k * blockLen ref.header.version) (blockLen ref.header.version)).drop 16 = x.2 := by
      rw [h1.bytes, blockBytes_drop]
    rw [e]
    simp only [blockOf]
    rw [ofNat_toNat32 h0]

/-- What the counters become. -/
def countAt (dpb : Option Dpb) (st : Stats) : Option (Nat × List Byte) → Stats
  | none => { st with failed := st.failed + 1 }
  | some x =>
    if x.1 = 0 then { st with metas := st.metas + 1 }
    else if Layout.isParityDpb x.1 dpb then { st with parities := st.parities + 1 }
    else { st with datas := st.datas + 1 }

theorem blockOf_type (v : Version) (uid : Uid) (seq : UInt32) (p : List Byte) :
    (blockOf v uid seq p).blockType = if seq = 0 then .metadata else .data := by
  unfold blockOf Block.blockType
  by_cases h : seq = 0 <;> simp [h]

theorem count_blockOf {dpb : Option Dpb} {st : Stats} {v : Version} {uid : Uid} {x : Nat × List Byte} (h : x.1 < 2 ^ 32) :
    st.count dpb (blockOf v uid (UInt32.ofNat x.1) x.2) = countAt dpb st (some x) := by
  unfold Stats.count countAt
  rw [blockOf_type]
  have e : (blockOf v uid (UInt32.ofNat x.1) x.2).header.seq.toNat = x.1 := by
    simp only [blockOf]; exact ofNat_toNat32 h
  rw [e]
  by_cases h0 : x.1 = 0
  · simp only [h0]; simp
  · have : ¬ UInt32.ofNat x.1 = 0 := by
      intro h1
      apply h0
      rw [← ofNat_toNat32 h, h1]; rfl
    simp [h0, this]

/-- What the reader does. -/
theorem file_runs (stop : Nat → Bool) (f : File) (seekTo required : Nat) (ref : Block) (dpb : Option Dpb) (c : LotCfg)
    (hv : c.version = ref.header.version) :
    ∀ (N k checks : Nat) (st : Stats), places ref f seekTo required - k ≤ N →
      ∃ m n rF, k + m ≤ max k (places ref f seekTo required) ∧ n ≤ N + 1 ∧
        ((∀ i, stop i = false) → k ≤ places ref f seekTo required → k + m = places ref f seekTo required) ∧
        Runs c (fileAct stop f seekTo required ref dpb) n ⟨k * blockLen ref.header.version, checks, st⟩
          (((List.range' k m).filterMap (look ref f seekTo)).map (loaded ref.header.version ref.header.uid)) rF ∧
        rF.stats = ((List.range' k m).map (look ref f seekTo)).foldl (countAt dpb) st := by
  set L := blockLen ref.header.version with hLdef
  have hLpos : 0 < L := by rw [hLdef, blockLen_eq]; have := size_ge ref.header.version; omega
  intro N
  induction N with
  | zero =>
    intro k checks st hN
    by_cases hs : stop checks = true
    · refine ⟨0, 1, ⟨k * L, checks, st⟩, by omega, by omega, ?_, ?_, rfl⟩
      · intro h; rw [h] at hs; simp at hs
      · exact .halt (by simp [fileAct, hs])
    by_cases hr : required ≤ k * L
    · refine ⟨0, 1, ⟨k * L, checks, st⟩, by omega, by omega, ?_, ?_, rfl⟩
      · intro _ h; omega
      · exact .halt (by simp [fileAct, hr])
    · have hplaces : (f.length - seekTo) / L ≤ k := by
        have h1 : ¬ ceilDiv required L ≤ k := by rw [Encode.ceilDiv_le_iff hLpos]; exact hr
        unfold places at hN
        rw [← hLdef] at hN
        omega
      have hshort : f.length - seekTo < k * L + L := by
        have := Nat.lt_succ_of_le hplaces
        rw [Nat.div_lt_iff_lt_mul hLpos, Nat.succ_mul] at this
        exact this
      set r1 : RdSt := ⟨k * L + (f.readAt (seekTo + k * L) L).length, checks + 1, st⟩ with hr1
      refine ⟨0, 1, r1, by omega, by omega, fun _ h => by omega, ?_, rfl⟩
      have := Runs.stop (c := c) (act := fileAct stop f seekTo required ref dpb) (n := 0) (r := ⟨k * L, checks, st⟩)
        (g := fileSlot f seekTo ref dpb ⟨k * L, checks, st⟩)
        (f := fun s => { s with data := f.readAt (seekTo + k * L) L ++ s.data.drop (f.readAt (seekTo + k * L) L).length })
        (cancel := true) (r' := r1) (by simp only [fileAct]; rw [if_neg hs, if_neg hr]) ?_
      · simpa using this
      · intro s hf
        have hlen : s.data.length = L := by rw [hf.len, hv, hLdef, blockLen_eq]
        have hrl : (f.readAt (seekTo + k * L) L).length < L := by rw [File.readAt_length]; omega
        constructor
        · unfold fileSlot
          simp only [hlen]
          rw [if_pos hrl]
        · simp only [List.length_append, List.length_drop, hlen]
          rw [hv, ← blockLen_eq, ← hLdef]; omega
  | succ N ih =>
    intro k checks st hN
    by_cases hs : stop checks = true
    · refine ⟨0, 1, ⟨k * L, checks, st⟩, by omega, by omega, ?_, ?_, rfl⟩
      · intro h; rw [h] at hs; simp at hs
      · exact .halt (by simp [fileAct, hs])
    by_cases hk : places ref f seekTo required ≤ k
    · obtain ⟨m, n, rF, h1, h2, h3, h4, h5⟩ := ih k checks st (by omega)
      exact ⟨m, n, rF, h1, by omega, h3, h4, h5⟩
    · have hk1 : ¬ ceilDiv required L ≤ k := by unfold places at hk; rw [← hLdef] at hk; omega
      have hr : ¬ required ≤ k * L := by rwa [Encode.ceilDiv_le_iff hLpos] at hk1
      have hfull : (f.readAt (seekTo + k * L) L).length = L := by
        have : k + 1 ≤ (f.length - seekTo) / L := by unfold places at hk; rw [← hLdef] at hk; omega
        rw [Nat.le_div_iff_mul_le hLpos, Nat.succ_mul] at this
        rw [File.readAt_length]; omega
      obtain ⟨m, n, rF, h1, h2, h3, h4, h5⟩ := ih (k + 1) (checks + 1) (countAt dpb st (look ref f seekTo k)) (by omega)
      rw [show (k + 1) * L = k * L + L from Nat.succ_mul _ _] at h4
      refine ⟨m + 1, n + 1, rF, by omega, by omega, fun ha hb => by have := h3 ha (by omega); omega, ?_, ?_⟩
      · rw [List.range'_succ, List.filterMap_cons]
        have hact : fileAct stop f seekTo required ref dpb ⟨k * L, checks, st⟩ =
            .slot (fileSlot f seekTo ref dpb ⟨k * L, checks, st⟩) := by
          simp only [fileAct]; rw [if_neg hs, if_neg hr]
        have hbuf : ∀ s : Slot, s.data.length = L →
            f.readAt (seekTo + k * L) s.data.length ++ s.data.drop (f.readAt (seekTo + k * L) s.data.length).length =
              f.readAt (seekTo + k * L) L := by
          intro s hs
          rw [hs, hfull, List.drop_eq_nil_of_le (by omega), List.append_nil]
        cases hlook : look ref f seekTo k with
        | none =>
          simp only
          refine Runs.skip (f := fun s => { s with
            block := (s.block.syncFrom (f.readAt (seekTo + k * L) L) (some (sameVerUid ref)) none).1
            data := f.readAt (seekTo + k * L) L }) hact ?_ (by rw [hlook] at h4; exact h4)
          intro s hfr
          have hlen : s.data.length = L := by rw [hfr.len, hv, hLdef, blockLen_eq]
          refine ⟨?_, by rw [hfull, hv, hLdef, blockLen_eq]⟩
          unfold fileSlot
          simp only [hbuf s hlen]
          simp only [hlen, hfull]
          rw [if_neg (by omega)]
          have hno : s.block.read? (f.readAt (seekTo + k * L) L) (some (sameVerUid ref)) = none := by
            unfold look at hlook
            rw [Option.map_eq_none_iff] at hlook
            unfold blockAt at hlook
            rw [Block.read?_indep s.block Block.dummy]
            exact hlook
          unfold Block.read? at hno
          rcases hsy : s.block.syncFrom (f.readAt (seekTo + k * L) L) (some (sameVerUid ref)) none with ⟨b, e⟩
          rw [hsy] at hno
          cases e with
          | none => simp at hno
          | some e => rfl
        | some x =>
          simp only [List.map_cons]
          obtain ⟨hx, hb⟩ := look_some.1 hlook
          refine Runs.keep hact ?_ (by rw [hlook] at h4; exact h4)
          intro s hfr
          have hlen : s.data.length = L := by rw [hfr.len, hv, hLdef, blockLen_eq]
          have hdata : f.readAt (seekTo + k * L) L = blockBytes ref.header.version ref.header.uid.bytes (UInt32.ofNat x.1) x.2 :=
            hb.bytes
          refine ⟨?_, by simp only [loaded]; rw [← hdata, hfull, hv, hLdef, blockLen_eq]⟩
          unfold fileSlot
          simp only [hbuf s hlen]
          simp only [hlen, hfull]
          rw [if_neg (by omega)]
          have hyes : s.block.syncFrom (f.readAt (seekTo + k * L) L) (some (sameVerUid ref)) none =
              (blockOf ref.header.version ref.header.uid (UInt32.ofNat x.1) x.2, none) := by
            rw [Block.syncFrom_none]
            exact (readSame_iff (by rw [hfull])).2 ⟨_, _, hb, rfl⟩
          rw [hyes]
          simp only [loaded, count_blockOf hx, hdata]
      · rw [List.range'_succ, List.map_cons, List.foldl_cons]
        exact h5

/-- What the writer does with one block, in terms of the output file: with `skip`, chunks that are there in full and not blank
are left alone. -/
def put (u : Nat) (dpb : Option Dpb) (skip : Bool) (out : File) (x : Nat × List Byte) : File :=
  match chunkOf dpb x.1 with
  | none => out
  | some j =>
    if skip && !(decide ((out.readAt (j * u) u).length < u) || (out.readAt (j * u) u).all (· == 0)) then out
    else out.writeAt (j * u) x.2

theorem _root_.Verif.Disk.file_writeAt (d : Disk) (pos : Nat) (bs : List Byte) : (d.writeAt pos bs).file = d.file.writeAt pos bs := by
  have := Disk.file_writes d [(pos, bs)]
  exact this

theorem writeSlot_put {ref : Block} {dpb : Option Dpb} {skip : Bool} {x : Nat × List Byte} {s : Slot} (hx : x.1 < 2 ^ 32)
    (hs : s.Fresh (cfg ref dpb skip)) (d : Disk) :
    (Lot.writeSlot (cfg ref dpb skip) d (placed (cfg ref dpb skip) (loaded ref.header.version ref.header.uid x s))).file =
      put ref.header.version.dataSize dpb skip d.file x := by
  have e : (blockOf ref.header.version ref.header.uid (UInt32.ofNat x.1) x.2).header.seq.toNat = x.1 := by
    simp only [blockOf]; exact ofNat_toNat32 hx
  unfold Lot.writeSlot put placed Lot.slotWritePos Lot.slotBytes Lot.doWrite
  simp only [loaded, e, cfg, hs.contentLen, Lot.payloadOf, blockBytes_drop, Layout.chunkWritePos, chunkOf]
  cases Layout.chunkWriteIndex x.1 (dpb.map fun d => (d.data, d.parity)) with
  | none => rfl
  | some j =>
    simp only [Option.map_some]
    split
    · rename_i h; split
      · rfl
      · contradiction
    · rename_i h; split
      · contradiction
      · rw [Disk.file_writeAt]

theorem kept_fold {ref : Block} {dpb : Option Dpb} {skip : Bool} {l : List (Nat × List Byte)} (hl : ∀ x ∈ l, x.1 < 2 ^ 32)
    {ss : List Slot} (hk : Kept (cfg ref dpb skip) (l.map (loaded ref.header.version ref.header.uid)) ss) :
    ∀ d : Disk, (ss.foldl (fun d s => Lot.writeSlot (cfg ref dpb skip) d (placed (cfg ref dpb skip) s)) d).file =
      l.foldl (put ref.header.version.dataSize dpb skip) d.file := by
  induction l generalizing ss with
  | nil => intro d; cases hk; rfl
  | cons x l ih =>
    intro d
    rw [List.map_cons] at hk
    cases hk with
    | cons h hk =>
      obtain ⟨s0, h0, rfl⟩ := h
      rw [List.foldl_cons, ih (fun y hy => hl y (List.mem_cons_of_mem _ hy)) hk, List.foldl_cons,
        writeSlot_put (hl x List.mem_cons_self) h0]

theorem look_lt {ref : Block} {f : File} {start : Nat} {ks : List Nat} : ∀ x ∈ ks.filterMap (look ref f start), x.1 < 2 ^ 32 := by
  intro x hx
  obtain ⟨k, -, hk⟩ := List.mem_filterMap.1 hx
  exact (look_some.1 hk).1

theorem cfg_pos (ref : Block) (dpb : Option Dpb) (skip : Bool) : (cfg ref dpb skip).Pos := by
  unfold LotCfg.Pos LotCfg.direct cfg; simp

/-- Decoding to a file: the first `m` places are looked at (all of them unless interrupted), the blocks found are put in place
one after the other, the file is cut to the recorded size. -/
theorem decodeFile_spec (E : Env) (hE : 0 < E.lotCount) (p : Param) (ref : Block) (f old : File) (dpb : Option Dpb)
    (hd : dataParBurst p.ref true f ref = .ok dpb) :
    ∃ m, m ≤ places ref f (rangeOf p.ref ref f).seekTo (rangeOf p.ref ref f).requiredLen ∧
      ((∀ i, E.stop i = false) → m = places ref f (rangeOf p.ref ref f).seekTo (rangeOf p.ref ref f).requiredLen) ∧
      decodeFile E p ref f old = .ok
        (truncated ref (((List.range m).filterMap (look ref f (rangeOf p.ref ref f).seekTo)).foldl
            (put ref.header.version.dataSize dpb (p.multiPass == some .skipGood)) (openOut p.multiPass old)),
          ((List.range m).map (look ref f (rangeOf p.ref ref f).seekTo)).foldl (countAt dpb) Stats.zero) := by
  set r := rangeOf p.ref ref f with hr
  set skip := p.multiPass == some MultiPass.skipGood with hskip
  obtain ⟨m, n, rF, h1, h2, h3, h4, h5⟩ := file_runs E.stop f r.seekTo r.requiredLen ref dpb (cfg ref dpb skip) rfl
    (places ref f r.seekTo r.requiredLen) 0 0 Stats.zero (by omega)
  refine ⟨m, by omega, fun hs => by have := h3 hs (by omega); omega, ?_⟩
  have hpl : places ref f r.seekTo r.requiredLen ≤ f.length := by
    unfold places
    exact Nat.le_trans (Nat.min_le_right _ _) (Nat.le_trans (Nat.div_le_self _ _) (Nat.sub_le _ _))
  rw [Nat.zero_mul] at h4
  obtain ⟨ss, hk, e⟩ := run2_spec (cap := Encode.buffersInRotation + 1) (N := Encode.buffersInRotation) (fuel := f.length + 3)
    (cfg_pos ref dpb skip) hE (by decide)
    (fileWriter_folds (cfg_pos ref dpb skip) E.lotCount) h4 (fun _ _ _ _ => trivial) (by omega) ⟨openOut p.multiPass old, []⟩
  unfold decodeFile
  rw [hd]
  simp only [← hr, ← hskip, e]
  rw [kept_fold look_lt hk, h5, List.range_eq_range']
  rfl

end Verif.Decode
