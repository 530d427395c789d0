import Verif.Lemmas.SortImage
import Verif.Lemmas.ContainerRef
import Verif.Lemmas.Demo
/-!
# C30: sorting gives the container the encoder would have written
-/

namespace Verif.Sort
open Format ScanSpec DecodeSpec LayoutSpec ContainerSpec Layout Scan Decode Misc

/-- Nobody presses Ctrl-C; there is at least one lot in a buffer. -/
structure Env.Calm (E : Env) : Prop where
  lots : 0 < E.lotCount
  stopRef : ∀ i, E.stopRef i = false
  stop : ∀ i, E.stop i = false

/-- Options that select the whole input file and a new output file. -/
structure Whole (p : Param) : Prop where
  fromPos : p.ref.fromPos = none
  toPos : p.ref.toPos = none
  single : p.multiPass = none
  toFile : p.toFile = true

theorem mem_dataAt {ref : Block} {f : File} {s : Nat} {p : List Byte} :
    (s, p) ∈ ((List.range (f.length / blockLen ref.header.version)).filterMap (dataAt ref f 0)).map (·.2) ↔
      s ≠ 0 ∧ s < 2 ^ 32 ∧ HasBlock ref.header.version ref.header.uid f (UInt32.ofNat s) p := by
  rw [List.mem_map]
  constructor
  · rintro ⟨x, hx, hxe⟩
    obtain ⟨k, hk, h⟩ := List.mem_filterMap.1 hx
    obtain ⟨-, h1, h2⟩ := dataAt_some.1 h
    rw [hxe] at h1 h2
    have := (Decode.mem_found (ref := ref) (f := f) (x := (s, p))).1 (List.mem_filterMap.2 ⟨k, hk, h2⟩)
    exact ⟨h1, this⟩
  · rintro ⟨h1, h2⟩
    obtain ⟨k, hk, h⟩ := List.mem_filterMap.1 ((Decode.mem_found (ref := ref) (f := f) (x := (s, p))).2 h2)
    exact ⟨(0 + k * blockLen ref.header.version, s, p), List.mem_filterMap.2 ⟨k, hk, dataAt_some.2 ⟨rfl, h1, h⟩⟩, rfl⟩

/-- The numbers of the blocks found are those of the container. -/
theorem own_block {rs : RsCodec} {v : Version} {uid : Uid} {dpb : Option Dpb} {bytes : List Byte} {f : File}
    (honly : OnlyBlocksOf rs v uid dpb bytes f) {s : Nat} {p : List Byte} (h1 : s ≠ 0) (h2 : s < 2 ^ 32)
    (h3 : HasBlock v uid f (UInt32.ofNat s) p) : ∃ i, (payloads rs v dpb (fileChunks v bytes))[i]? = some p ∧ s = i + 1 := by
  have hne : UInt32.ofNat s ≠ 0 := by
    intro h0
    apply h1
    rw [← ofNat_toNat32 h2, h0]; rfl
  have := honly _ _ hne h3
  rw [ofNat_toNat32 h2] at this
  exact ⟨s - 1, this, by omega⟩

/-- What is written by `sort`: the metadata block to all its places, every data and parity block found to its place. -/
theorem sorted_writes (E : Env) (hE : E.Calm) (q : Param) (hq : Whole q) (v : Version) (uid : Uid) (dpb : Option Dpb)
    (mb mp : List Byte) (f old : File) (hmb : IsBlock mb v uid 0 mp) (pos : Nat) (ref : Block)
    (hr : getRefBlockM q.ref q.ref.refChoice f E.stopRef (E.stop 0) = .ok (pos, ref)) (hver : ref.header.version = v)
    (huid : ref.header.uid = uid) (hd : dataParBurst q.ref true f ref = .ok dpb)
    (hmeta : ∃ p, HasBlock v uid f 0 p) (hmetas : ∀ p, HasBlock v uid f 0 p → p = mp) :
    ∃ d ws, sortFile E q f old = .ok (some d,
        ((List.range (f.length / blockLen v)).foldl (tally ref dpb f 0 q.reportBlank) (none, Stats.zero)).2,
        ((List.range (f.length / blockLen v)).filterMap (dataAt ref f 0)).foldl (orderAt v dpb 0) ⟨0, 0, 0, 0⟩) ∧
      d.file = File.writes [] (File.atPos v.blockSize ws) ∧
      ∀ w, w ∈ ws ↔ (w.1 ∈ metaCopies (some true) dpb ∧ w.2 = mb) ∨ ∃ s p, s ≠ 0 ∧ s < 2 ^ 32 ∧ HasBlock v uid f (UInt32.ofNat s) p ∧
        w = (dataWriteIndex s (some true) dpb, blockBytes v uid.bytes (UInt32.ofNat s) p) := by
  obtain ⟨m, -, hm, A, B, out, fin, h1, h2, h3, h4⟩ := sortWith_spec E hE.lots q ref dpb f old
  have hm := hm hE.stop
  have hseek : (rangeOf q.ref ref f).seekTo = 0 := by
    unfold rangeOf; rw [hq.fromPos, hq.toPos, range_all]
  have hpl : places ref f (rangeOf q.ref ref f).seekTo (rangeOf q.ref ref f).requiredLen = f.length / blockLen ref.header.version := by
    unfold rangeOf; rw [hq.fromPos, hq.toPos]; exact places_all
  rw [hpl] at hm
  subst hm
  rw [hseek] at h1 h2 h3
  rw [hq.toFile, hq.single] at h4
  simp only [if_true] at h4
  cases hout : out with
  | none => rw [hout] at h4; simp at h4
  | some d =>
    let at' : Nat × List Byte → Nat × List Byte :=
      fun x => (dataWriteIndex x.1 (some true) dpb, blockBytes v uid.bytes (UInt32.ofNat x.1) x.2)
    refine ⟨d, (A.map (·.2)).map at' ++ (metaWrites dpb mb ++ (B.map (·.2)).map at'), ?_, ?_⟩
    · unfold sortFile
      rw [hr]
      simp only
      rw [hd]
      simp only
      rw [h3, hout, h2, ← h1, hver, Nat.zero_mod]
    · rw [hout] at h4
      simp only [Option.map_some, Option.some.injEq] at h4
      subst hver huid
      have hml : mb.length = ref.header.version.blockSize := by rw [isBlock_length hmb, blockLen_eq]
      -- the metadata block found
      have hfound : fin.1 = some mb := by
        rw [h2, tally_found, Option.none_or]
        have hsome : ∀ k x, metaAt ref f 0 k = some x → x = mb := by
          intro k x hx
          obtain ⟨p, hp, rfl⟩ := metaAt_some.1 hx
          have hp' : HasBlock ref.header.version ref.header.uid f 0 p := ⟨k, by rwa [Nat.zero_add] at hp⟩
          rw [hp.bytes, hmb.bytes, hmetas p hp']
        cases hfs : (List.range (f.length / blockLen ref.header.version)).findSome? (metaAt ref f 0) with
        | some x =>
          obtain ⟨k, -, hk⟩ := List.exists_of_findSome?_eq_some hfs
          rw [hsome k x hk]
        | none =>
          exfalso
          obtain ⟨p, hp⟩ := hmeta
          obtain ⟨k, hk, h⟩ := List.mem_filterMap.1 ((mem_found (ref := ref) (f := f) (x := (0, p))).2
            ⟨by show (0 : Nat) < 2 ^ 32; decide, hp⟩)
          rw [List.findSome?_eq_none_iff] at hfs
          have := hfs k hk
          unfold metaAt at this
          rw [h] at this
          simp at this
      rw [hfound] at h4
      simp only [Option.toList_some, List.foldl_cons, List.foldl_nil] at h4
      have hsk : ((none : Option MultiPass) == some MultiPass.skipGood) = false := rfl
      rw [hsk, putBlocks_writes, putMetas_writes, putBlocks_writes, ← File.writes_append, ← File.writes_append] at h4
      have hold : openOut none old = [] := rfl
      rw [hold] at h4
      unfold File.atPos at h4
      rw [← List.map_append, ← List.map_append] at h4
      refine ⟨by rw [h4]; rfl, ?_⟩
      have hme : dpb ≠ none → true = true := fun _ => rfl
      have hmw : ∀ w, w ∈ metaWrites dpb mb ↔ w.1 ∈ metaCopies (some true) dpb ∧ w.2 = mb := fun w =>
        metaWrites'_iff (me := true) (dpb := dpb) (mb := mb) hme
      have hmem : ∀ s p, (s, p) ∈ (A.map (·.2)) ∨ (s, p) ∈ (B.map (·.2)) ↔
          s ≠ 0 ∧ s < 2 ^ 32 ∧ HasBlock ref.header.version ref.header.uid f (UInt32.ofNat s) p := by
        intro s p
        rw [← mem_dataAt, h1, List.map_append, List.mem_append]
      intro w
      simp only [List.mem_append, List.mem_map]
      constructor
      · rintro (⟨x, hx, rfl⟩ | hw | ⟨x, hx, rfl⟩)
        · obtain ⟨a1, a2, a3⟩ := (hmem x.1 x.2).1 (.inl (List.mem_map.2 hx))
          exact .inr ⟨x.1, x.2, a1, a2, a3, rfl⟩
        · exact .inl ((hmw w).1 hw)
        · obtain ⟨a1, a2, a3⟩ := (hmem x.1 x.2).1 (.inr (List.mem_map.2 hx))
          exact .inr ⟨x.1, x.2, a1, a2, a3, rfl⟩
      · rintro (hw | ⟨s, p, a1, a2, a3, rfl⟩)
        · exact .inr (.inl ((hmw w).2 hw))
        · rcases (hmem s p).2 ⟨a1, a2, a3⟩ with h | h
          · exact .inl ⟨(s, p), List.mem_map.1 h, rfl⟩
          · exact .inr (.inr ⟨(s, p), List.mem_map.1 h, rfl⟩)

theorem sorts_core (E : Env) (hE : E.Calm) (q : Param) (hq : Whole q) (rs : RsCodec) (v : Version) (uid : Uid) (dpb : Option Dpb)
    (bytes mb mp : List Byte) (c f old : File) (hrs : RsLen rs v dpb) (hv : Valid dpb)
    (hc : IsContainer rs v uid.bytes true dpb bytes mb c) (hmb : IsBlock mb v uid 0 mp)
    (hn : (payloads rs v dpb (fileChunks v bytes)).length ≤ lastSeqNum) (pos : Nat) (ref : Block)
    (hr : getRefBlockM q.ref q.ref.refChoice f E.stopRef (E.stop 0) = .ok (pos, ref)) (hver : ref.header.version = v)
    (huid : ref.header.uid = uid) (hd : dataParBurst q.ref true f ref = .ok dpb)
    (hall : ∀ i p, (payloads rs v dpb (fileChunks v bytes))[i]? = some p → HasBlock v uid f (UInt32.ofNat (i + 1)) p)
    (honly : OnlyBlocksOf rs v uid dpb bytes f) (hmeta : ∃ p, HasBlock v uid f 0 p)
    (hmetas : ∀ p, HasBlock v uid f 0 p → p = mp) :
    ∃ d, sortFile E q f old = .ok (some d,
        ((List.range (f.length / blockLen v)).foldl (tally ref dpb f 0 q.reportBlank) (none, Stats.zero)).2,
        ((List.range (f.length / blockLen v)).filterMap (dataAt ref f 0)).foldl (orderAt v dpb 0) ⟨0, 0, 0, 0⟩) ∧ d.file = c := by
  obtain ⟨d, ws, g1, g2, g3⟩ := sorted_writes E hE q hq v uid dpb mb mp f old hmb pos ref hr hver huid hd hmeta hmetas
  refine ⟨d, g1, ?_⟩
  have hps := (payloads_spec (rs := rs) hrs hv (cs := fileChunks v bytes) (by
    intro c hcm
    unfold fileChunks at hcm
    rw [← dataSize_eq] at hcm
    exact (mem_chunksOf _ c hcm).2.1)).2
  have hml : mb.length = v.blockSize := by rw [isBlock_length hmb, blockLen_eq]
  rw [g2]
  refine Image.unique hps (fun _ => hml) (image_of_set hv hps hml _ ?_ ?_ ?_) hc
  · intro w hw
    refine ((g3 w).1 hw).imp_right ?_
    rintro ⟨s, p, h1, h2, h3, rfl⟩
    obtain ⟨i, hi, e⟩ := own_block honly h1 h2 h3
    exact ⟨i, p, hi, by rw [e]⟩
  · intro k hk
    exact ⟨(k, mb), (g3 _).2 (.inl ⟨hk, rfl⟩), rfl⟩
  · intro i hi
    refine ⟨_, (g3 _).2 (.inr ⟨i + 1, _, by omega, ?_, hall i _ (List.getElem?_eq_getElem hi), rfl⟩), rfl⟩
    have : lastSeqNum < 2 ^ 32 := by decide
    omega

/-- **C30.** If the input has, at places counted in whole blocks from its beginning, every data and parity block of the container
`c` and no other valid blocks of this archive, and at least one metadata block, all of them equal to that of `c`, then the output
is exactly `c`, whatever the order, the number of copies and the junk in between.  (`hr`: a block of the archive is used as
reference block; `hd`: the shard counts and burst level are known from it or stated.) -/
theorem C30_sorts (E : Env) (hE : E.Calm) (q : Param) (hq : Whole q) (rs : RsCodec) (v : Version) (uid : Uid) (dpb : Option Dpb)
    (bytes mb mp : List Byte) (c f old : File) (hrs : RsLen rs v dpb) (hv : Valid dpb)
    (hc : IsContainer rs v uid.bytes true dpb bytes mb c) (hmb : IsBlock mb v uid 0 mp)
    (hn : (payloads rs v dpb (fileChunks v bytes)).length ≤ lastSeqNum) (pos : Nat) (ref : Block)
    (hr : getRefBlockM q.ref q.ref.refChoice f E.stopRef (E.stop 0) = .ok (pos, ref)) (hver : ref.header.version = v)
    (huid : ref.header.uid = uid) (hd : dataParBurst q.ref true f ref = .ok dpb)
    (hall : ∀ i p, (payloads rs v dpb (fileChunks v bytes))[i]? = some p → HasBlock v uid f (UInt32.ofNat (i + 1)) p)
    (honly : OnlyBlocksOf rs v uid dpb bytes f) (hmeta : ∃ p, HasBlock v uid f 0 p)
    (hmetas : ∀ p, HasBlock v uid f 0 p → p = mp) :
    ∃ d st o, sortFile E q f old = .ok (some d, st, o) ∧ d.file = c := by
  obtain ⟨d, h, e⟩ := sorts_core E hE q hq rs v uid dpb bytes mb mp c f old hrs hv hc hmb hn pos ref hr hver huid hd hall honly hmeta hmetas
  exact ⟨d, _, _, h, e⟩

/-- The places of the container for which a block has been found. -/
def Known (v : Version) (uid : Uid) (dpb : Option Dpb) (n : Nat) (f : File) (k : Nat) : Prop :=
  k ∈ metaCopies (some true) dpb ∨ ∃ s p, 1 ≤ s ∧ s ≤ n ∧ HasBlock v uid f (UInt32.ofNat s) p ∧ k = dataWriteIndex s (some true) dpb

/-- **C30, incomplete.** If only some of the data and parity blocks are there (and at least one metadata block), the output has them
at the places they have in the container `c`, and the metadata block at all of its places; everywhere else it has zeros, and it ends
behind the last of these blocks. -/
theorem C30_incomplete (E : Env) (hE : E.Calm) (q : Param) (hq : Whole q) (rs : RsCodec) (v : Version) (uid : Uid) (dpb : Option Dpb)
    (bytes mb mp : List Byte) (c f old : File) (hrs : RsLen rs v dpb) (hv : Valid dpb)
    (hc : IsContainer rs v uid.bytes true dpb bytes mb c) (hmb : IsBlock mb v uid 0 mp)
    (hn : (payloads rs v dpb (fileChunks v bytes)).length ≤ lastSeqNum) (pos : Nat) (ref : Block)
    (hr : getRefBlockM q.ref q.ref.refChoice f E.stopRef (E.stop 0) = .ok (pos, ref)) (hver : ref.header.version = v)
    (huid : ref.header.uid = uid) (hd : dataParBurst q.ref true f ref = .ok dpb)
    (honly : OnlyBlocksOf rs v uid dpb bytes f) (hmeta : ∃ p, HasBlock v uid f 0 p)
    (hmetas : ∀ p, HasBlock v uid f 0 p → p = mp) :
    ∃ d st o, sortFile E q f old = .ok (some d, st, o) ∧ blockLen v ∣ d.file.length ∧ d.file.length ≤ c.length ∧
      (∀ k, Known v uid dpb (payloads rs v dpb (fileChunks v bytes)).length f k →
        d.file.readAt (k * blockLen v) (blockLen v) = c.readAt (k * blockLen v) (blockLen v)) ∧
      (∀ k, ¬ Known v uid dpb (payloads rs v dpb (fileChunks v bytes)).length f k →
        ∃ n, d.file.readAt (k * blockLen v) (blockLen v) = List.replicate n 0) ∧
      ∀ k, d.file.length = (k + 1) * blockLen v → Known v uid dpb (payloads rs v dpb (fileChunks v bytes)).length f k := by
  obtain ⟨d, ws, g1, g2, g3⟩ := sorted_writes E hE q hq v uid dpb mb mp f old hmb pos ref hr hver huid hd hmeta hmetas
  have hps := (payloads_spec (rs := rs) hrs hv (cs := fileChunks v bytes) (by
    intro c hcm
    unfold fileChunks at hcm
    rw [← dataSize_eq] at hcm
    exact (mem_chunksOf _ c hcm).2.1)).2
  have hml : mb.length = blockLen v := isBlock_length hmb
  have hwc : ∀ w ∈ ws, w.2 = c.readAt (w.1 * blockLen v) (blockLen v) ∧ w.2.length = blockLen v ∧
      Known v uid dpb (payloads rs v dpb (fileChunks v bytes)).length f w.1 := by
    intro w hw
    rcases (g3 w).1 hw with ⟨h1, h2⟩ | ⟨s, p, h1, h2, h3, rfl⟩
    · exact ⟨by rw [h2, hc.metas _ h1], by rw [h2, hml], .inl h1⟩
    · obtain ⟨i, hi, rfl⟩ := own_block honly h1 h2 h3
      refine ⟨(hc.data i p hi).symm, ?_, .inr ⟨_, p, by omega, (List.getElem?_eq_some_iff.1 hi).1, h3, rfl⟩⟩
      show (blockBytes v uid.bytes _ p).length = _
      rw [blockBytes_length, hps p (List.mem_of_getElem? hi), blockLen_eq, v.blockSize_eq]
  have hkw : ∀ k, Known v uid dpb (payloads rs v dpb (fileChunks v bytes)).length f k → ∃ w ∈ ws, w.1 = k := by
    rintro k (hk | ⟨s, p, h1, h2, h3, rfl⟩)
    · exact ⟨(k, mb), (g3 _).2 (.inl ⟨hk, rfl⟩), rfl⟩
    · refine ⟨_, (g3 _).2 (.inr ⟨s, p, by omega, ?_, h3, rfl⟩), rfl⟩
      have : lastSeqNum < 2 ^ 32 := by decide
      omega
  have hu := blockLen_pos v
  rw [← blockLen_eq] at g2
  obtain ⟨hL, hU⟩ := File.unit_writes hu ws (fun w hw => (hwc w hw).2.1) (f := []) (by simp)
  rw [← g2] at hL hU
  simp only [List.length_nil, Nat.zero_div] at hL hU
  have hmax : ∀ w ∈ ws, w.1 < File.maxUnits 0 ws := (File.maxUnits_le.1 (Nat.le_refl (File.maxUnits 0 ws))).2
  refine ⟨d, _, _, g1, ⟨_, by rw [hL, Nat.mul_comm]⟩, ?_, ?_, ?_, ?_⟩
  · obtain ⟨n, hn'⟩ := hc.aligned
    rw [hL, hn', Nat.mul_comm (blockLen v)]
    refine Nat.mul_le_mul_right _ (File.maxUnits_le.2 ⟨Nat.zero_le _, fun w hw => ?_⟩)
    obtain ⟨h1, h2, -⟩ := hwc w hw
    rw [h1, File.readAt_length] at h2
    by_contra hlt
    have : n * blockLen v ≤ w.1 * blockLen v := Nat.mul_le_mul_right _ (by omega)
    rw [Nat.mul_comm (blockLen v)] at hn'
    omega
  · intro k hk
    obtain ⟨w, hw, rfl⟩ := hkw k hk
    have := hU _ (hmax w hw)
    rw [File.lastWrite_of_all ⟨w, hw, rfl⟩ (d := c.readAt (w.1 * blockLen v) (blockLen v)) (fun w' hw' e => by
      rw [(hwc w' hw').1, e])] at this
    exact this
  · intro k hk
    by_cases hlt : k < File.maxUnits 0 ws
    · have := hU k hlt
      have hno : ∀ w ∈ ws, w.1 ≠ k := fun w hw e => hk (e ▸ (hwc w hw).2.2)
      rw [File.lastWrite_none.2 hno, Option.getD_none, File.unit0, if_neg (by simp)] at this
      exact ⟨_, this⟩
    · refine ⟨0, ?_⟩
      apply List.eq_nil_of_length_eq_zero
      rw [File.readAt_length, hL]
      have : File.maxUnits 0 ws * blockLen v ≤ k * blockLen v := Nat.mul_le_mul_right _ (by omega)
      omega
  · intro k hk
    rw [hL] at hk
    have hk' : File.maxUnits 0 ws = k + 1 := Nat.eq_of_mul_eq_mul_right hu hk
    by_contra hno
    have : File.maxUnits 0 ws ≤ k := by
      refine File.maxUnits_le.2 ⟨Nat.zero_le _, fun w hw => ?_⟩
      have h1 := hmax w hw
      have hne : w.1 ≠ k := fun e => hno (e ▸ (hwc w hw).2.2)
      omega
    omega

/-- What a block-sized place of a container can hold. -/
theorem container_unit {rs : RsCodec} {v : Version} {uid : Uid} {dpb : Option Dpb} {bytes mb : List Byte} {c : File}
    (hc : IsContainer rs v uid.bytes true dpb bytes mb c) {k : Nat} (hk : k * blockLen v < c.length) :
    c.readAt (k * blockLen v) (blockLen v) = mb ∨
    (∃ i p, (payloads rs v dpb (fileChunks v bytes))[i]? = some p ∧ k = dataWriteIndex (i + 1) (some true) dpb ∧
      c.readAt (k * blockLen v) (blockLen v) = blockBytes v uid.bytes (UInt32.ofNat (i + 1)) p) ∨
    c.readAt (k * blockLen v) (blockLen v) = List.replicate (blockLen v) 0 := by
  by_cases hm : k ∈ metaCopies (some true) dpb
  · exact .inl (hc.metas k hm)
  · by_cases hd : ∃ i < (payloads rs v dpb (fileChunks v bytes)).length, dataWriteIndex (i + 1) (some true) dpb = k
    · obtain ⟨i, hi, rfl⟩ := hd
      exact .inr (.inl ⟨i, _, List.getElem?_eq_getElem hi, rfl, hc.data i _ (List.getElem?_eq_getElem hi)⟩)
    · exact .inr (.inr (hc.gaps k hk hm (fun i hi h => hd ⟨i, hi, h⟩)))

/-- The pieces of an archive cut at multiples of the block size, as met by the search for the reference block. -/
theorem pieces_exist {v : Version} {uid : Uid} {mp : List Byte} (bs : List (List Byte))
    (hb : ∀ b ∈ bs, (∃ s p, IsBlock b v uid s p ∧ (s = 0 → p = mp)) ∨ b = List.replicate (blockLen v) 0) :
    ∃ ps : List Piece, (∀ q ∈ ps, q.Ok) ∧ ps.flatMap Piece.bytes = bs.flatten ∧
      (∀ q ∈ ps, (∃ s p, q = .block v uid s p ∧ (s = 0 → p = mp)) ∨ ∃ j, q = .junk j) ∧
      ((∃ b ∈ bs, IsBlock b v uid 0 mp) → .block v uid 0 mp ∈ ps) := by
  induction bs with
  | nil => exact ⟨[], by simp, rfl, by simp, by simp⟩
  | cons b bs ih =>
    obtain ⟨ps, h1, h2, h3, h4⟩ := ih (fun x hx => hb x (List.mem_cons_of_mem _ hx))
    rcases hb b List.mem_cons_self with ⟨s, p, hp, hs⟩ | rfl
    · refine ⟨.block v uid s p :: ps, ?_, ?_, ?_, ?_⟩
      · intro q hq
        rcases List.mem_cons.1 hq with rfl | hq
        · exact hp.len
        · exact h1 q hq
      · rw [List.flatMap_cons, h2, List.flatten_cons, hp.bytes]; rfl
      · intro q hq
        rcases List.mem_cons.1 hq with rfl | hq
        · exact .inl ⟨s, p, rfl, hs⟩
        · exact h3 q hq
      · rintro ⟨x, hx, hxb⟩
        rcases List.mem_cons.1 hx with rfl | hx
        · obtain ⟨rfl, rfl⟩ := isBlock_seq hp hxb
          exact List.mem_cons_self
        · exact List.mem_cons_of_mem _ (h4 ⟨x, hx, hxb⟩)
    · refine ⟨List.replicate (blockLen v / 128) (.junk (List.replicate 128 0)) ++ ps, ?_, ?_, ?_, ?_⟩
      · intro q hq
        rcases List.mem_append.1 hq with hq | hq
        · rw [(List.mem_replicate.1 hq).2]
          refine .inl ⟨List.length_replicate, ?_⟩
          rintro w crc u sq ⟨t, ht⟩
          have := congrArg (·[0]?) ht
          simp [headerBytes] at this
        · exact h1 q hq
      · rw [List.flatMap_append, h2, List.flatten_cons]
        congr 1
        have : ∀ n, (List.replicate n (Piece.junk (List.replicate 128 0))).flatMap Piece.bytes = List.replicate (n * 128) 0 := by
          intro n
          induction n with
          | zero => rfl
          | succ n ihn =>
            rw [List.replicate_succ, List.flatMap_cons, ihn]
            show List.replicate 128 0 ++ _ = _
            rw [List.replicate_append_replicate]
            congr 1; omega
        rw [this]
        congr 1
        cases v <;> decide
      · intro q hq
        rcases List.mem_append.1 hq with hq | hq
        · exact .inr ⟨_, (List.mem_replicate.1 hq).2⟩
        · exact h3 q hq
      · rintro ⟨x, hx, hxb⟩
        rcases List.mem_cons.1 hx with rfl | hx
        · exact absurd hxb zeros_no_block
        · exact List.mem_append_right _ (h4 ⟨x, hx, hxb⟩)

theorem mem_located {ps : List Piece} {off : Nat} {x : Nat × Block} (h : x ∈ located off ps) :
    ∃ v uid s p, .block v uid s p ∈ ps ∧ x.2 = blockOf v uid s p := by
  induction ps generalizing off with
  | nil => simp [located] at h
  | cons q ps ih =>
    cases q with
    | junk bs =>
      obtain ⟨v, uid, s, p, h1, h2⟩ := ih h
      exact ⟨v, uid, s, p, List.mem_cons_of_mem _ h1, h2⟩
    | block v uid s p =>
      rcases List.mem_cons.1 h with rfl | h
      · exact ⟨v, uid, s, p, List.mem_cons_self, rfl⟩
      · obtain ⟨v, uid, s, p, h1, h2⟩ := ih h
        exact ⟨v, uid, s, p, List.mem_cons_of_mem _ h1, h2⟩

theorem located_mem {ps : List Piece} {off : Nat} {v : Version} {uid : Uid} {s : UInt32} {p : List Byte} (h : .block v uid s p ∈ ps) :
    ∃ pos, (pos, blockOf v uid s p) ∈ located off ps := by
  induction ps generalizing off with
  | nil => simp at h
  | cons q ps ih =>
    rcases List.mem_cons.1 h with rfl | h'
    · exact ⟨off, List.mem_cons_self⟩
    · cases q with
      | junk bs => exact ih h'
      | block v' uid' s' p' =>
        obtain ⟨pos, hp⟩ := ih (off := off + blockLen v') h'
        exact ⟨pos, List.mem_cons_of_mem _ hp⟩

/-- The reference block of an archive cut at multiples of the block size is its metadata block. -/
theorem ref_of_pieces {q : RefParam} (hq1 : q.refFrom = none) (hq2 : q.refTo = none) (hq3 : q.fromPos = none)
    (hch : q.refChoice = .prefer .metadata ∨ q.refChoice = .mustBe .metadata) {stop : Nat → Bool} (hs : ∀ i, stop i = false)
    (b : Bool) {v : Version} {uid : Uid} {mp : List Byte} (bs : List (List Byte))
    (hb : ∀ b ∈ bs, (∃ s p, IsBlock b v uid s p ∧ (s = 0 → p = mp)) ∨ b = List.replicate (blockLen v) 0)
    (hm : ∃ b ∈ bs, IsBlock b v uid 0 mp) :
    ∃ pos, getRefBlockM q q.refChoice bs.flatten stop b = .ok (pos, blockOf v uid 0 mp) := by
  obtain ⟨ps, h1, h2, h3, h4⟩ := pieces_exist bs hb
  unfold getRefBlockM
  rw [hq1, hq2, hq3]
  simp only [Option.map_none, Option.or_none]
  rw [C34_choice _ none none q.forceMisalign q.refChoice stop hs _ rfl, range_all]
  simp only [List.drop_zero]
  have hw := walk_pieces (if bs.flatten.length = 0 then 1 else bs.flatten.length) ps h1 [] (by decide) 0 (by
    rw [h2, Nat.zero_add]; split <;> omega)
  rw [List.append_nil, h2] at hw
  rw [hw]
  obtain ⟨pos0, hpos0⟩ := located_mem (off := 0) (h4 hm)
  have ht : (blockOf v uid 0 mp).blockType = .metadata := by rw [blockOf_type]; rfl
  have hf : ∃ pos, firstOf .metadata (located 0 ps) = some (pos, blockOf v uid 0 mp) := by
    unfold firstOf
    cases hx : (located 0 ps).find? fun x => decide (x.2.blockType = .metadata) with
    | none =>
      rw [List.find?_eq_none] at hx
      exact absurd (by simp [ht]) (hx _ hpos0)
    | some x =>
      obtain ⟨w, u, s, p, h5, h6⟩ := mem_located (List.mem_of_find?_eq_some hx)
      have h7 := List.find?_some hx
      simp only [decide_eq_true_eq] at h7
      rw [h6, blockOf_type] at h7
      rcases h3 _ h5 with ⟨s', p', e, hs0⟩ | ⟨j, e⟩
      · cases e
        have : s = 0 := by
          by_contra hne
          rw [if_neg hne] at h7
          cases h7
        subst this
        rw [hs0 rfl] at h6
        exact ⟨x.1, by rw [← h6]⟩
      · cases e
  obtain ⟨pos, hf⟩ := hf
  rcases hch with h | h <;> rw [h] <;> simp [chosen, hf]

/-- The shard counts are in the metadata and the burst level is stated. -/
theorem shards_given {v : Version} {uid : Uid} {dpb : Option Dpb} {mp : List Byte} (f : File) (hcons : verConsistent v dpb = true)
    (hms : firstRsd (metasFromBytes mp) = dpb.map (·.data) ∧ firstRsp (metasFromBytes mp) = dpb.map (·.parity))
    (q : RefParam) (offset : Bool) (hb : ∀ d, dpb = some d → q.burst = some d.burst) :
    dataParBurst q offset f (blockOf v uid 0 mp) = .ok dpb := by
  have hver : (blockOf v uid 0 mp).header.version = v := rfl
  unfold dataParBurst
  rw [hver]
  unfold verConsistent at hcons
  cases hdp : dpb with
  | none => rw [hdp] at hcons; simp at hcons; simp [hcons]
  | some d =>
    rw [hdp] at hcons hms
    have hu : v.usesRs = true := by simpa using hcons
    rw [if_pos hu, getRsd_meta metas_blockOf, getRsp_meta metas_blockOf, hms.1, hms.2]
    simp only [Option.map_some, fieldOrErr]
    unfold burstOrGuess
    rw [hb d hdp]

/-- All metadata blocks of a container are the same. -/
theorem container_metas {rs : RsCodec} {v : Version} {uid : Uid} {dpb : Option Dpb} {bytes mb mp : List Byte} {c : File}
    (hc : IsContainer rs v uid.bytes true dpb bytes mb c) (hmb : IsBlock mb v uid 0 mp)
    (hps : ∀ p ∈ payloads rs v dpb (fileChunks v bytes), p.length = v.dataSize)
    (hn : (payloads rs v dpb (fileChunks v bytes)).length ≤ lastSeqNum) {p : List Byte} (h : HasBlock v uid c 0 p) : p = mp := by
  obtain ⟨k, hk⟩ := h
  have hl := isBlock_length hk
  rw [File.readAt_length] at hl
  have hpos := blockLen_pos v
  rcases container_unit hc (k := k) (by omega) with h | ⟨i, p', hp', -, h⟩ | h
  · rw [h] at hk; exact (isBlock_seq hk hmb).2
  · exfalso
    have hi := (List.getElem?_eq_some_iff.1 hp').1
    have h2 : IsBlock (c.readAt (k * blockLen v) (blockLen v)) v uid (UInt32.ofNat (i + 1)) p' :=
      ⟨h, by rw [hps p' (List.mem_of_getElem? hp'), dataSize_eq]⟩
    have h3 := congrArg UInt32.toNat (isBlock_seq hk h2).1
    unfold lastSeqNum at hn
    rw [ofNat_toNat32 (by omega)] at h3
    simp at h3
  · rw [h] at hk; exact absurd hk zeros_no_block

/-- **C30, permuted.** Cut a container into pieces of the size of a block and put them together in any order, any of them any
number of times, with at least one copy of the metadata block (and as many of the blank gaps as one likes).  Sorting the result
gives the container back.  The burst level, which such a file does not show, must be stated for a container with parity. -/
theorem C30_permuted (E : Env) (hE : E.Calm) (q : Param) (hq : Whole q) (hrf : q.ref.refFrom = none) (hrt : q.ref.refTo = none)
    (hch : q.ref.refChoice = .prefer .metadata ∨ q.ref.refChoice = .mustBe .metadata)
    (rs : RsCodec) (v : Version) (uid : Uid) (dpb : Option Dpb) (bytes mb : List Byte) (c old : File) (bs : List (List Byte))
    (hrs : RsLen rs v dpb) (hv : Valid dpb) (hcons : verConsistent v dpb = true)
    (hc : IsContainer rs v uid.bytes true dpb bytes mb c) (ms : List Metadata) (hrec : Records v uid mb ms)
    (hms : firstRsd ms = dpb.map (·.data) ∧ firstRsp ms = dpb.map (·.parity))
    (hn : (payloads rs v dpb (fileChunks v bytes)).length ≤ lastSeqNum)
    (hb : ∀ d, dpb = some d → q.ref.burst = some d.burst)
    (hfrom : ∀ b ∈ bs, b ∈ chunksOf (blockLen v) c) (hone : mb ∈ bs)
    (hall : ∀ b ∈ chunksOf (blockLen v) c, b ≠ mb → b ≠ List.replicate (blockLen v) 0 → b ∈ bs) :
    ∃ d st o, sortFile E q bs.flatten old = .ok (some d, st, o) ∧ d.file = c := by
  obtain ⟨mp, hmb, rfl⟩ := hrec
  have hpos := blockLen_pos v
  have hps := (payloads_spec (rs := rs) hrs hv (cs := fileChunks v bytes) (by
    intro c hcm
    unfold fileChunks at hcm
    rw [← dataSize_eq] at hcm
    exact (mem_chunksOf _ c hcm).2.1)).2
  have hcut : ∀ b ∈ chunksOf (blockLen v) c, ∃ k, k * blockLen v < c.length ∧ b = c.readAt (k * blockLen v) (blockLen v) := by
    intro b hbm
    obtain ⟨k, hk⟩ := List.mem_iff_getElem?.1 hbm
    rw [chunksOf_getElem? hpos] at hk
    split at hk
    · rename_i h; exact ⟨k, h, (Option.some.inj hk).symm⟩
    · simp at hk
  have hunit : ∀ b ∈ chunksOf (blockLen v) c, b = mb ∨
      (∃ i p, (payloads rs v dpb (fileChunks v bytes))[i]? = some p ∧ IsBlock b v uid (UInt32.ofNat (i + 1)) p) ∨
      b = List.replicate (blockLen v) 0 := by
    intro b hbm
    obtain ⟨k, hk, rfl⟩ := hcut b hbm
    rcases container_unit hc hk with h | ⟨i, p, hp, -, h⟩ | h
    · exact .inl h
    · exact .inr (.inl ⟨i, p, hp, h, by rw [hps p (List.mem_of_getElem? hp), dataSize_eq]⟩)
    · exact .inr (.inr h)
  have hne : ∀ i p, (payloads rs v dpb (fileChunks v bytes))[i]? = some p → UInt32.ofNat (i + 1) ≠ 0 := by
    intro i p hp h0
    have hi := (List.getElem?_eq_some_iff.1 hp).1
    have h3 := congrArg UInt32.toNat h0
    unfold lastSeqNum at hn
    rw [ofNat_toNat32 (by omega)] at h3
    simp at h3
  have hlen : ∀ b ∈ bs, b.length = blockLen v := by
    intro b hbm
    rcases hunit b (hfrom b hbm) with rfl | ⟨i, p, -, h⟩ | rfl
    · exact isBlock_length hmb
    · exact isBlock_length h
    · exact List.length_replicate
  obtain ⟨pos, href⟩ := ref_of_pieces hrf hrt hq.fromPos hch hE.stopRef (E.stop 0) (v := v) (uid := uid) (mp := mp) bs (by
    intro b hbm
    rcases hunit b (hfrom b hbm) with rfl | ⟨i, p, hp, h⟩ | rfl
    · exact .inl ⟨0, mp, hmb, fun _ => rfl⟩
    · exact .inl ⟨_, p, h, fun h0 => absurd h0 (hne i p hp)⟩
    · exact .inr rfl) ⟨mb, hone, hmb⟩
  refine C30_sorts E hE q hq rs v uid dpb bytes mb mp c bs.flatten old hrs hv hc hmb hn pos _ href rfl rfl
    (shards_given _ hcons hms q.ref true hb) ?_ ?_ ?_ ?_
  · intro i p hp
    rw [hasBlock_flatten hlen]
    have hblock : IsBlock (c.readAt (dataWriteIndex (i + 1) (some true) dpb * blockLen v) (blockLen v)) v uid (UInt32.ofNat (i + 1)) p :=
      ⟨hc.data i p hp, by rw [hps p (List.mem_of_getElem? hp), dataSize_eq]⟩
    refine ⟨_, hall _ ?_ ?_ ?_, hblock⟩
    · apply List.mem_iff_getElem?.2
      refine ⟨dataWriteIndex (i + 1) (some true) dpb, ?_⟩
      rw [chunksOf_getElem? hpos, if_pos]
      · rfl
      · have := isBlock_length hblock
        rw [File.readAt_length] at this
        omega
    · intro h
      rw [h] at hblock
      exact hne i p hp (isBlock_seq hblock hmb).1
    · intro h
      rw [h] at hblock
      exact zeros_no_block hblock
  · intro seq p h0 hh
    rw [hasBlock_flatten hlen] at hh
    obtain ⟨b, hbm, hb⟩ := hh
    rcases hunit b (hfrom b hbm) with rfl | ⟨i, p', hp', h⟩ | rfl
    · exact absurd (isBlock_seq hb hmb).1 h0
    · obtain ⟨rfl, rfl⟩ := isBlock_seq hb h
      have hi := (List.getElem?_eq_some_iff.1 hp').1
      unfold lastSeqNum at hn
      rw [ofNat_toNat32 (by omega), Nat.add_sub_cancel]
      exact hp'
    · exact absurd hb zeros_no_block
  · exact ⟨mp, (hasBlock_flatten hlen).2 ⟨mb, hone, hmb⟩⟩
  · intro p hh
    rw [hasBlock_flatten hlen] at hh
    obtain ⟨b, hbm, hb⟩ := hh
    rcases hunit b (hfrom b hbm) with rfl | ⟨i, p', hp', h⟩ | rfl
    · exact (isBlock_seq hb hmb).2
    · exact absurd (isBlock_seq hb h).1.symm (hne i p' hp')
    · exact absurd hb zeros_no_block

/-- **C30, sorted already.** Sorting a container gives the same container, and no block is reported to be out of order.  The burst
level must be stated or be one that is guessed (C36). -/
theorem C30_idempotent (E : Env) (hE : E.Calm) (q : Param) (hq : Whole q) (hr : DefaultRef q.ref)
    (rs : RsCodec) (v : Version) (uid : Uid) (dpb : Option Dpb) (bytes mb : List Byte) (c old : File)
    (hrs : RsLen rs v dpb) (hsh : ∀ d, dpb = some d → 1 ≤ d.data ∧ 1 ≤ d.parity ∧ d.data + d.parity ≤ 256)
    (hcons : verConsistent v dpb = true)
    (hc : IsContainer rs v uid.bytes true dpb bytes mb c) (ms : List Metadata) (hrec : Records v uid mb ms)
    (hms : firstRsd ms = dpb.map (·.data) ∧ firstRsp ms = dpb.map (·.parity))
    (hn : (payloads rs v dpb (fileChunks v bytes)).length ≤ lastSeqNum)
    (hb : BurstKnown q.ref.burst dpb (payloads rs v dpb (fileChunks v bytes)).length) (hg : q.ref.guessFrom = none) :
    ∃ d st o, sortFile E q c old = .ok (some d, st, o) ∧ d.file = c ∧ o.dataDiff = 0 ∧ o.parityDiff = 0 ∧ st.metaDiff = 0 := by
  obtain ⟨mp, hmb, rfl⟩ := hrec
  have hv : Valid dpb := fun d hd => (hsh d hd).1
  have hpos := blockLen_pos v
  have hps := (payloads_spec (rs := rs) hrs hv (cs := fileChunks v bytes) (by
    intro c hcm
    unfold fileChunks at hcm
    rw [← dataSize_eq] at hcm
    exact (mem_chunksOf _ c hcm).2.1)).2
  have hstart := container_start hc hmb
  have href := ref_at_start hr hE.stopRef (E.stop 0) hstart
  obtain ⟨ho, ha⟩ := onlyBlocks_container hc (fun _ => ⟨mp, hmb⟩) hps hn (fun _ => rfl)
  obtain ⟨d, h1, h2⟩ := sorts_core E hE q hq rs v uid dpb bytes mb mp c c old hrs hv hc hmb hn 0 _ href rfl rfl
    (container_shards hrs hsh hcons hc hmb hms hn q.ref true hb (fun _ => hg)) ha ho ⟨mp, 0, by rw [Nat.zero_mul]; exact hstart⟩
    (fun p hp => container_metas hc hmb hps hn hp)
  have hsame : ∀ (l : List (Nat × Nat × List Byte)) (o : Order),
      (∀ x ∈ l, x.1 = dataWritePos v x.2.1 (some true) dpb) → o.dataDiff = 0 → o.parityDiff = 0 →
      (l.foldl (orderAt v dpb 0) o).dataDiff = 0 ∧ (l.foldl (orderAt v dpb 0) o).parityDiff = 0 := by
    intro l
    induction l with
    | nil => intro o _ h h'; exact ⟨h, h'⟩
    | cons x l ih =>
      intro o hx h h'
      rw [List.foldl_cons]
      apply ih _ (fun y hy => hx y (List.mem_cons_of_mem _ hy))
      all_goals
        unfold orderAt
        rw [Nat.sub_zero, if_pos (hx x List.mem_cons_self)]
        split <;> assumption
  have hx : ∀ x ∈ (List.range (c.length / blockLen v)).filterMap (dataAt (blockOf v uid 0 mp) c 0),
      x.1 = dataWritePos v x.2.1 (some true) dpb := by
    intro x hxm
    obtain ⟨k, hk, hkx⟩ := List.mem_filterMap.1 hxm
    obtain ⟨e1, e2, e3⟩ := dataAt_some.1 hkx
    have hk' : k * blockLen v < c.length := by
      have := List.mem_range.1 hk
      have h3 := (Nat.lt_div_iff_mul_lt hpos).1 this
      omega
    obtain ⟨hlt, hib⟩ := look_some.1 e3
    rw [Nat.zero_add] at hib
    have hver : (blockOf v uid 0 mp).header.version = v := rfl
    have huid : (blockOf v uid 0 mp).header.uid = uid := rfl
    rw [hver, huid] at hib
    rw [hver, Nat.zero_add] at e1
    rcases container_unit hc hk' with h | ⟨i, p, hp, hki, h⟩ | h
    · rw [h] at hib
      exfalso
      apply e2
      have := congrArg UInt32.toNat (isBlock_seq hib hmb).1
      rwa [ofNat_toNat32 hlt] at this
    · have h4 : IsBlock (c.readAt (k * blockLen v) (blockLen v)) v uid (UInt32.ofNat (i + 1)) p :=
        ⟨h, by rw [hps p (List.mem_of_getElem? hp), dataSize_eq]⟩
      have := congrArg UInt32.toNat (isBlock_seq hib h4).1
      have hi := (List.getElem?_eq_some_iff.1 hp).1
      unfold lastSeqNum at hn
      rw [ofNat_toNat32 hlt, ofNat_toNat32 (by omega)] at this
      rw [e1, this, hki]
      unfold dataWritePos
      rw [blockLen_eq]
    · rw [h] at hib
      exact absurd hib zeros_no_block
  have hmeta : ∀ (l : List Nat) (a : Option (List Byte) × Stats), a.2.metaDiff = 0 →
      (l.foldl (tally (blockOf v uid 0 mp) dpb c 0 q.reportBlank) a).2.metaDiff = 0 := by
    intro l
    induction l with
    | nil => intro a h; exact h
    | cons k l ih =>
      intro a h
      rw [List.foldl_cons]
      apply ih
      unfold tally
      simp only
      cases hlk : look (blockOf v uid 0 mp) c 0 k with
      | none => simp only; split <;> exact h
      | some x =>
        simp only
        by_cases h0 : x.1 = 0
        · rw [if_pos h0]
          simp only
          by_cases ha : a.1.isSome = true
          · rw [if_pos ha]; exact h
          · rw [if_neg ha]
            simp only
            rw [h, Nat.zero_add]
            have hib := (look_some.1 hlk).2
            rw [h0] at hib
            have hm := container_metas hc hmb hps hn (p := x.2) ⟨k, by rw [Nat.zero_add] at hib; exact hib⟩
            have hmb' : c.readAt (0 + k * blockLen v) (blockLen v) = mb := by
              have := hib.bytes
              rw [hm] at this
              rw [hmb.bytes]; exact this
            unfold checkMetas
            simp only
            have : (blockOf v uid 0 mp).header.version = v := rfl
            rw [this, hmb', List.countP_eq_length.2, Nat.sub_self]
            intro y hy
            rw [metaAllPos_eq, metaAllIndices_eq] at hy
            obtain ⟨k', hk', rfl⟩ := List.mem_map.1 hy
            rw [Nat.add_zero, ← blockLen_eq, beq_iff_eq]
            exact hc.metas k' hk'
        · rw [if_neg h0]
          simp only
          split <;> exact h
  obtain ⟨o1, o2⟩ := hsame _ ⟨0, 0, 0, 0⟩ hx rfl rfl
  exact ⟨d, _, _, h1, h2, o1, o2, hmeta _ _ rfl⟩

/-- **C30, from the encoder.** Encode a whole input, cut the container into blocks, shuffle and repeat them: sorting gives back
exactly the file the encoder wrote. -/
theorem C30_roundtrip (E : Encode.Env) (p : Encode.Param) (hE : E.Ok p) (hok : p.Ok) (inp : Encode.Input) (hn : Encode.NamesOk p inp)
    (d : Disk) (rep : Encode.Report) (hrange : inp.file = none ∨ p.fromPos = none ∧ p.toPos = none) (hs : ∀ n, E.stop n = false)
    (henc : Encode.encodeFile E p inp = (d, .ok rep)) (hme : p.metaEnabled = true)
    (D : Env) (hD : D.Calm) (q : Param) (hq : Whole q) (hrf : q.ref.refFrom = none) (hrt : q.ref.refTo = none)
    (hch : q.ref.refChoice = .prefer .metadata ∨ q.ref.refChoice = .mustBe .metadata)
    (hb : ∀ x, p.dpb = some x → q.ref.burst = some x.burst) (old : File) (bs : List (List Byte))
    (hperm : bs.Perm (chunksOf (blockLen p.version) d.file)) :
    ∃ e st o, sortFile D q bs.flatten old = .ok (some e, st, o) ∧ e.file = d.file := by
  have hh := Encode.C24_whole_input E p hE hok inp hn d rep hrange hs henc
  obtain ⟨mb, hc, hrec⟩ := hh.container
  obtain ⟨ms, h1, h2, h3, h4, h5, -⟩ := hrec hme
  rw [hme] at hc
  have h1' := h1
  obtain ⟨mp, hmb, -⟩ := h1'
  have hmem : mb ∈ chunksOf (blockLen p.version) d.file := by
    have hst := container_start hc hmb
    have hl := isBlock_length hst
    rw [File.readAt_length] at hl
    have hpos := blockLen_pos p.version
    refine List.mem_iff_getElem?.2 ⟨0, ?_⟩
    rw [chunksOf_getElem? hpos, if_pos (by omega), hmb.bytes, ← hst.bytes, Nat.zero_mul]
    rfl
  exact C30_permuted D hD q hq hrf hrt hch E.rs p.version p.uid p.dpb inp.bytes mb d.file old bs (hE.rsLen hok)
    (fun x hx => (hok.shards x hx).1) hok.consistent hc ms h1 ⟨h4, h5⟩ hh.numbers hb (fun b hb => hperm.mem_iff.1 hb)
    (hperm.mem_iff.2 hmem) (fun b hb _ _ => hperm.mem_iff.2 hb)

/-! ### Schedules -/

/-- **C30, schedules.** Every complete run of the three threads, however they are scheduled, leaves the output and the counters that
the theorems above are about, and no thread panics; every incomplete run can be continued to such a complete one.  (The one
metadata block sent besides the buffers is why the channel to the writer has one place more.) -/
theorem C30_any_schedule (E : Env) (p : Param) (ref : Block) (dpb : Option Dpb) (f old : File) (out : Option Disk) (st : Stats)
    (o : Order) (h : sortWith E p ref dpb f old = .ok (out, st, o)) (k : Nat) (R : Pipeline.Ring 3 St Msg)
    (hR : R = ring (act E.stop f (rangeOf p.ref ref f).seekTo (rangeOf p.ref ref f).requiredLen ref dpb p.reportBlank) (f.length + 3)
      ref dpb (p.multiPass == some .skipGood) ((rangeOf p.ref ref f).seekTo % ref.header.version.blockSize))
    (s s0 : Pipeline.Sys 3 St Msg)
    (hs0 : s0 = Pipeline.initial (fun _ => start (if p.toFile then some ⟨openOut p.multiPass old, []⟩ else none))
      ((Buffer.newMulti (cfg ref dpb (p.multiPass == some .skipGood)) E.lotCount buffersInRotation).map .buf))
    (hs : R.Steps k s0 s) :
    (Pipeline.Finished s → out = (s.thread 1).st.out ∧ st = (s.thread 0).st.rd.stats ∧ o = (s.thread 2).st.order ∧
      ∀ i, (s.thread i).st.panicked = false) ∧
    ∃ l z, R.Steps l s z ∧ Pipeline.Finished z := by
  unfold sortWith at h
  simp only at h
  rw [← hR] at h
  split at h
  · simp at h
  · rename_i st' hrun
    split at h
    · simp at h
    · rename_i hp
      simp only [Except.ok.injEq, Prod.mk.injEq] at h
      simp only [Bool.or_eq_true, not_or, Bool.not_eq_true] at hp
      let isBuf : Msg → Bool := fun m => match m with | .metaBlock _ => false | .buf _ => true
      let credit : Fin 3 → St → Nat := fun i s => if i = 0 then (if s.rd.found.isNone then 1 else 0) else 0
      have hc : R.Conserving isBuf credit := by
        intro i s m s' outs hst
        rw [hR] at hst
        unfold ring at hst
        simp only at hst
        split at hst
        · rename_i hi
          subst hi
          cases m with
          | metaBlock mb => simp [readerStep] at hst
          | buf b =>
            unfold readerStep at hst
            simp only at hst
            split at hst
            · simp at hst
            · split at hst
              · simp at hst
              · rename_i r run b' hfill
                simp only [Prod.mk.injEq, Option.some.injEq] at hst
                obtain ⟨rfl, rfl⟩ := hst
                cases hfd : s.rd.found with
                | none =>
                  cases hfr : r.found <;> simp [isBuf, credit, hfd, hfr, List.countP_cons]
                | some mb =>
                  have := fillLoop_found (fun r hr => act_found hr) _ _ _ _ hfd hfill
                  simp only at this
                  simp [isBuf, credit, hfd, this, List.countP_cons]
        · rename_i hi
          split at hst
          · rename_i hi1
            subst hi1
            cases m with
            | metaBlock mb =>
              simp only [writerStep, Prod.mk.injEq, Option.some.injEq] at hst
              obtain ⟨rfl, rfl⟩ := hst
              simp [isBuf, credit]
            | buf b =>
              unfold writerStep at hst
              simp only at hst
              split at hst <;>
              · simp only [Prod.mk.injEq, Option.some.injEq] at hst
                obtain ⟨rfl, rfl⟩ := hst
                simp [isBuf, credit]
          · cases m with
            | metaBlock mb => simp [counterStep] at hst
            | buf b =>
              unfold counterStep at hst
              simp only at hst
              split at hst
              · simp at hst
              · simp only [Prod.mk.injEq, Option.some.injEq] at hst
                obtain ⟨rfl, rfl⟩ := hst
                simp [isBuf, credit, hi]
      obtain ⟨K, z, h1, h2, h3⟩ := Pipeline.runSeq_exec (isBuf := isBuf) hc (N := 9)
        (x := fun i => credit i (start (if p.toFile then some ⟨openOut p.multiPass old, []⟩ else none))) (by decide) (by
          intro i
          rw [hR]
          match i with
          | 0 => exact Nat.le_refl _
          | 1 => exact Nat.le_refl _
          | 2 => exact Nat.le_refl _) _ _ _ _
        (Pipeline.Inv.init (by
          intro m hm
          obtain ⟨b, -, rfl⟩ := List.mem_map.1 hm
          rfl) (by rw [List.length_map, Encode.newMulti_length]; rfl) (by omega) (fun _ => Nat.le_refl _)) hrun
      rw [← hs0] at h1
      have hend : ∀ {z : Pipeline.Sys 3 St Msg}, Pipeline.Finished z → ∀ z', ¬ R.Step z z' := by
        rintro z hz z' ⟨i, hi⟩
        obtain ⟨t, e, ha, -⟩ := Pipeline.stepT_eq hi
        have := hz i
        simp [Pipeline.Ring.act, this] at ha
      obtain ⟨l, _, hl⟩ := h1.unique (hend h2) hs
      refine ⟨?_, l, z, hl, h2⟩
      intro hf
      have hz : s = z := by
        cases hl with
        | refl => rfl
        | cons hst _ => exact absurd hst (hend hf _)
      subst hz
      rw [h3 0, h3 1, h3 2]
      refine ⟨h.1.symm, h.2.1.symm, h.2.2.symm, ?_⟩
      intro i
      rw [h3]
      match i with
      | 0 => exact hp.1.1
      | 1 => exact hp.1.2
      | 2 => exact hp.2

/-! ### Counters -/

/-- **C38, sort.** In every run, interrupted or not: a number `m` of places was looked at (all of them if there was no Ctrl-C); the
counters are the numbers of metadata, data and parity blocks at these places, the other places are failed or okay blank ones; and
every data and parity block is counted once as in order or out of order. -/
theorem C38_sort (E : Env) (hE : 0 < E.lotCount) (p : Param) (f old : File) (out : Option Disk) (st : Stats) (o : Order)
    (h : sortFile E p f old = .ok (out, st, o)) :
    ∃ pos ref dpb m, getRefBlockM p.ref p.ref.refChoice f E.stopRef (E.stop 0) = .ok (pos, ref) ∧ dataParBurst p.ref true f ref = .ok dpb ∧
      m ≤ places ref f (rangeOf p.ref ref f).seekTo (rangeOf p.ref ref f).requiredLen ∧
      ((∀ i, E.stop i = false) → m = places ref f (rangeOf p.ref ref f).seekTo (rangeOf p.ref ref f).requiredLen) ∧
      (let seen := (List.range m).map (look ref f (rangeOf p.ref ref f).seekTo)
       st.metas = seen.countP (fun x => x.any fun b => b.1 = 0) ∧
       st.parities = seen.countP (fun x => x.any fun b => b.1 ≠ 0 ∧ isParityDpb b.1 dpb = true) ∧
       st.datas = seen.countP (fun x => x.any fun b => b.1 ≠ 0 ∧ isParityDpb b.1 dpb = false) ∧
       st.failed + st.okayBlank = seen.countP (·.isNone) ∧
       st.metas + st.datas + st.parities + st.failed + st.okayBlank = m ∧
       o.dataSame + o.dataDiff = st.datas ∧ o.paritySame + o.parityDiff = st.parities) := by
  unfold sortFile at h
  cases hr : getRefBlockM p.ref p.ref.refChoice f E.stopRef (E.stop 0) with
  | error e => rw [hr] at h; simp at h
  | ok x =>
    obtain ⟨pos, ref⟩ := x
    rw [hr] at h
    simp only at h
    cases hd : dataParBurst p.ref true f ref with
    | error e => rw [hd] at h; simp at h
    | ok dpb =>
      rw [hd] at h
      simp only at h
      obtain ⟨m, hm1, hm2, A, B, out', fin, h1, h2, h3, -⟩ := sortWith_spec E hE p ref dpb f old
      rw [h3] at h
      simp only [Except.ok.injEq, Prod.mk.injEq] at h
      obtain ⟨-, rfl, rfl⟩ := h
      refine ⟨pos, ref, dpb, m, rfl, hd, hm1, hm2, ?_⟩
      rw [← h1, h2]
      clear h1 h2 h3 hm1 hm2
      generalize (rangeOf p.ref ref f).seekTo = start
      generalize start % ref.header.version.blockSize = off
      have key : ∀ (l : List Nat) (a : Option (List Byte) × Stats) (o : Order),
          let s := (l.foldl (tally ref dpb f start p.reportBlank) a).2
          let o' := (l.filterMap (dataAt ref f start)).foldl (orderAt ref.header.version dpb off) o
          let seen := l.map (look ref f start)
          s.metas = a.2.metas + seen.countP (fun x => x.any fun b => b.1 = 0) ∧
          s.parities = a.2.parities + seen.countP (fun x => x.any fun b => b.1 ≠ 0 ∧ isParityDpb b.1 dpb = true) ∧
          s.datas = a.2.datas + seen.countP (fun x => x.any fun b => b.1 ≠ 0 ∧ isParityDpb b.1 dpb = false) ∧
          s.failed + s.okayBlank = a.2.failed + a.2.okayBlank + seen.countP (·.isNone) ∧
          s.metas + s.datas + s.parities + s.failed + s.okayBlank =
            a.2.metas + a.2.datas + a.2.parities + a.2.failed + a.2.okayBlank + l.length ∧
          o'.dataSame + o'.dataDiff + a.2.datas = o.dataSame + o.dataDiff + s.datas ∧
          o'.paritySame + o'.parityDiff + a.2.parities = o.paritySame + o.parityDiff + s.parities := by
        intro l
        induction l with
        | nil => intro a o; simp
        | cons k l ih =>
          intro a o
          simp only [List.foldl_cons, List.map_cons, List.countP_cons, List.length_cons, List.filterMap_cons]
          cases hk : look ref f start k with
          | none =>
            have hda : dataAt ref f start k = none := by unfold dataAt; rw [hk]; rfl
            rw [hda]
            obtain ⟨i1, i2, i3, i4, i5, i6, i7⟩ := ih (tally ref dpb f start p.reportBlank a k) o
            generalize List.countP (fun x : Option (Nat × List Byte) => x.any fun b => b.1 = 0) (l.map (look ref f start)) = c1 at i1 ⊢
            generalize List.countP (fun x : Option (Nat × List Byte) => x.any fun b => b.1 ≠ 0 ∧ isParityDpb b.1 dpb = true) (l.map (look ref f start)) = c2 at i2 ⊢
            generalize List.countP (fun x : Option (Nat × List Byte) => x.any fun b => b.1 ≠ 0 ∧ isParityDpb b.1 dpb = false) (l.map (look ref f start)) = c3 at i3 ⊢
            generalize List.countP (fun x : Option (Nat × List Byte) => x.isNone) (l.map (look ref f start)) = c4 at i4 ⊢
            have hta : (tally ref dpb f start p.reportBlank a k).2.metas = a.2.metas ∧
                (tally ref dpb f start p.reportBlank a k).2.datas = a.2.datas ∧
                (tally ref dpb f start p.reportBlank a k).2.parities = a.2.parities ∧
                (tally ref dpb f start p.reportBlank a k).2.failed + (tally ref dpb f start p.reportBlank a k).2.okayBlank =
                  a.2.failed + a.2.okayBlank + 1 := by
              unfold tally
              rw [hk]
              simp only
              split <;> simp <;> omega
            simp only [Option.any_none, Option.isNone_none, if_true]
            refine ⟨?_, ?_, ?_, ?_, ?_, ?_, ?_⟩ <;> try simp [-List.countP_map]
            all_goals omega
          | some x =>
            obtain ⟨i1, i2, i3, i4, i5, i6, i7⟩ := ih (tally ref dpb f start p.reportBlank a k)
              (match dataAt ref f start k with | none => o | some y => orderAt ref.header.version dpb off o y)
            generalize List.countP (fun x : Option (Nat × List Byte) => x.any fun b => b.1 = 0) (l.map (look ref f start)) = c1 at i1 ⊢
            generalize List.countP (fun x : Option (Nat × List Byte) => x.any fun b => b.1 ≠ 0 ∧ isParityDpb b.1 dpb = true) (l.map (look ref f start)) = c2 at i2 ⊢
            generalize List.countP (fun x : Option (Nat × List Byte) => x.any fun b => b.1 ≠ 0 ∧ isParityDpb b.1 dpb = false) (l.map (look ref f start)) = c3 at i3 ⊢
            generalize List.countP (fun x : Option (Nat × List Byte) => x.isNone) (l.map (look ref f start)) = c4 at i4 ⊢
            by_cases h0 : x.1 = 0
            · have hda : dataAt ref f start k = none := by unfold dataAt; rw [hk]; simp [h0]
              rw [hda] at i6 i7 ⊢
              simp only at i6 i7
              have hta : (tally ref dpb f start p.reportBlank a k).2.metas = a.2.metas + 1 ∧
                  (tally ref dpb f start p.reportBlank a k).2.datas = a.2.datas ∧
                  (tally ref dpb f start p.reportBlank a k).2.parities = a.2.parities ∧
                  (tally ref dpb f start p.reportBlank a k).2.failed = a.2.failed ∧
                  (tally ref dpb f start p.reportBlank a k).2.okayBlank = a.2.okayBlank := by
                unfold tally
                rw [hk]
                simp only [h0, if_true]
                split <;> simp
              simp only [Option.any_some, h0]
              refine ⟨?_, ?_, ?_, ?_, ?_, ?_, ?_⟩ <;> try simp [-List.countP_map]
              all_goals omega
            · obtain ⟨y, hda, hy⟩ : ∃ y, dataAt ref f start k = some y ∧ y.2 = x := by
                refine ⟨(start + k * blockLen ref.header.version, x), dataAt_some.2 ⟨rfl, h0, hk⟩, rfl⟩
              rw [hda] at i6 i7 ⊢
              simp only at i6 i7
              have hta : (tally ref dpb f start p.reportBlank a k).2.metas = a.2.metas ∧
                  (tally ref dpb f start p.reportBlank a k).2.datas = a.2.datas + (if isParityDpb x.1 dpb then 0 else 1) ∧
                  (tally ref dpb f start p.reportBlank a k).2.parities = a.2.parities + (if isParityDpb x.1 dpb then 1 else 0) ∧
                  (tally ref dpb f start p.reportBlank a k).2.failed = a.2.failed ∧
                  (tally ref dpb f start p.reportBlank a k).2.okayBlank = a.2.okayBlank := by
                unfold tally
                rw [hk]
                simp only [h0, if_false]
                split <;> simp
              have hto : (orderAt ref.header.version dpb off o y).dataSame + (orderAt ref.header.version dpb off o y).dataDiff =
                    o.dataSame + o.dataDiff + (if isParityDpb x.1 dpb then 0 else 1) ∧
                  (orderAt ref.header.version dpb off o y).paritySame + (orderAt ref.header.version dpb off o y).parityDiff =
                    o.paritySame + o.parityDiff + (if isParityDpb x.1 dpb then 1 else 0) := by
                unfold orderAt
                rw [hy]
                cases isParityDpb x.1 dpb <;> simp only [if_true, if_false, Bool.false_eq_true] <;> split <;> simp <;> omega
              simp only [List.foldl_cons, Option.any_some]
              rcases Bool.eq_false_or_eq_true (isParityDpb x.1 dpb) with hpar | hpar <;> rw [hpar] at hta hto <;>
                simp only [if_true, if_false, Bool.false_eq_true] at hta hto <;>
                refine ⟨?_, ?_, ?_, ?_, ?_, ?_, ?_⟩ <;> try simp [h0, hpar, -List.countP_map]
              all_goals omega
      have := key (List.range m) (none, Stats.zero) ⟨0, 0, 0, 0⟩
      simp only [Stats.zero, List.length_range, Nat.zero_add, Nat.add_zero] at this
      exact this

/-! ### Instances -/

/-- Nobody interferes. -/
def calmEnv : Env := ⟨2, fun _ => false, fun _ => false⟩

theorem calm : calmEnv.Calm := ⟨Nat.zero_lt_two, fun _ => rfl, fun _ => rfl⟩

/-- `blkar sort --burst 3`. -/
def burstParam : Param := ⟨⟨.prefer .metadata, none, none, none, none, none, false, some 3⟩, none, false, true⟩
/-- `blkar sort` without options. -/
def plainParam : Param := ⟨⟨.prefer .metadata, none, none, none, none, none, false, none⟩, none, false, true⟩

/-- A container with parity, reversed, all blocks twice. -/
example : ∃ c d st o, c ≠ [] ∧ sortFile calmEnv burstParam
      ((chunksOf (blockLen .v17) c).reverse ++ chunksOf (blockLen .v17) c).flatten [1, 2, 3] = .ok (some d, st, o) ∧ d.file = c := by
  obtain ⟨f, mb, ms, h1, h2, h3, h4, h5, h6, h7, h8⟩ := Demo.rs_container
  have h2' := h2
  obtain ⟨mp, hmb, -⟩ := h2'
  have hst := container_start (uid := ⟨[1, 2, 3, 4, 5, 6], rfl⟩) h1 hmb
  have hl := isBlock_length hst
  have hpos := blockLen_pos .v17
  rw [File.readAt_length] at hl
  have hmem : mb ∈ chunksOf (blockLen .v17) f := by
    refine List.mem_iff_getElem?.2 ⟨0, ?_⟩
    rw [chunksOf_getElem? hpos, if_pos (by omega), hmb.bytes, ← hst.bytes, Nat.zero_mul]
    rfl
  obtain ⟨d, st, o, e1, e2⟩ := C30_permuted calmEnv calm burstParam ⟨rfl, rfl, rfl, rfl⟩ rfl rfl (.inl rfl) RsWitness.codec .v17
    ⟨[1, 2, 3, 4, 5, 6], rfl⟩ (some ⟨10, 2, 3⟩) (List.replicate 1000 7) mb f [1, 2, 3]
    ((chunksOf (blockLen .v17) f).reverse ++ chunksOf (blockLen .v17) f) h8 (by intro d hd; cases hd; decide) rfl h1 ms h2 ⟨h4, h5⟩ h7
    (by intro d hd; cases hd; rfl) (by
      intro b hb
      rcases List.mem_append.1 hb with hb | hb
      · exact List.mem_reverse.1 hb
      · exact hb) (List.mem_append_right _ hmem) (fun b hb _ _ => List.mem_append_right _ hb)
  refine ⟨f, d, st, o, ?_, e1, e2⟩
  rintro rfl
  simp at hl
  omega

/-- C30_incomplete: of a container only its metadata block is left; it is put to the three places it had. -/
example : ∃ (mb c : File) (d : Disk) (st : _) (o : _), mb ≠ [] ∧ sortFile calmEnv burstParam mb [1, 2, 3] = .ok (some d, st, o) ∧ d.file.length ≤ c.length ∧
    ∀ k ∈ [0, 4, 8], d.file.readAt (k * 512) 512 = mb ∧ c.readAt (k * 512) 512 = mb := by
  obtain ⟨f, mb, ms, h1, h2, h3, h4, h5, h6, h7, h8⟩ := Demo.rs_container
  obtain ⟨mp, hmb, rfl⟩ := h2
  have hl := isBlock_length hmb
  have hhas : ∀ s p, HasBlock .v17 ⟨[1, 2, 3, 4, 5, 6], rfl⟩ mb s p → s = 0 ∧ p = mp := by
    intro s p h
    have := (hasBlock_flatten (bs := [mb]) (by simpa using hl)).1 (by simpa using h)
    obtain ⟨b, hb, hi⟩ := this
    obtain rfl := List.mem_singleton.1 hb
    exact isBlock_seq hi hmb
  obtain ⟨pos, hr⟩ := ref_of_pieces (q := burstParam.ref) rfl rfl rfl (.inl rfl) calm.stopRef (calmEnv.stop 0) (mp := mp) [mb]
    (by
      intro b hb
      obtain rfl := List.mem_singleton.1 hb
      exact .inl ⟨_, _, hmb, fun _ => rfl⟩) ⟨mb, List.mem_singleton_self _, hmb⟩
  rw [List.flatten_cons, List.flatten_nil, List.append_nil] at hr
  obtain ⟨d, st, o, g1, -, g3, g4, -⟩ := C30_incomplete calmEnv calm burstParam ⟨rfl, rfl, rfl, rfl⟩ RsWitness.codec .v17
    ⟨[1, 2, 3, 4, 5, 6], rfl⟩ (some ⟨10, 2, 3⟩) (List.replicate 1000 7) mb mp f mb [1, 2, 3] h8 (by intro d hd; cases hd; decide) h1 hmb h7
    pos _ hr rfl rfl (shards_given mb rfl ⟨h4, h5⟩ _ _ (by intro d hd; cases hd; rfl))
    (fun s p hs h => absurd (hhas s p h).1 hs) ⟨mp, 0, by
      rw [Nat.zero_mul]; unfold File.readAt; rw [List.drop_zero, List.take_of_length_le (by omega)]; exact hmb⟩
    (fun p h => (hhas 0 p h).2)
  refine ⟨mb, f, d, st, o, ?_, g1, g3, fun k hk => ?_⟩
  · rintro rfl
    simp at hl
    exact absurd hl (by decide)
  · have hm : k ∈ metaCopies (some true) (some ⟨10, 2, 3⟩) := by
      revert hk; revert k; decide
    have e := h1.metas k hm
    exact ⟨(g4 k (.inl hm)).trans e, e⟩

/-- The sorted container, the burst level guessed. -/
example : ∃ c d st o, sortFile calmEnv plainParam c [] = .ok (some d, st, o) ∧ d.file = c ∧ o.dataDiff = 0 ∧ st.metaDiff = 0 := by
  obtain ⟨f, mb, ms, h1, h2, h3, h4, h5, h6, h7, h8⟩ := Demo.rs_container
  obtain ⟨d, st, o, e1, e2, e3, -, e4⟩ := C30_idempotent calmEnv calm plainParam ⟨rfl, rfl, rfl, rfl⟩ ⟨rfl, rfl, rfl, .inr (.inl rfl)⟩
    RsWitness.codec .v17 ⟨[1, 2, 3, 4, 5, 6], rfl⟩ (some ⟨10, 2, 3⟩) (List.replicate 1000 7) mb f []
    h8 (by intro d hd; cases hd; decide) rfl h1 ms h2 ⟨h4, h5⟩ h7
    (by intro d hd; cases hd; exact .inr ⟨rfl, by decide, .inl (by decide)⟩) rfl
  exact ⟨f, d, st, o, e1, e2, e3, e4⟩

end Verif.Sort
