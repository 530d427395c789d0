import Verif.Spec.Recover
import Verif.Props.Rescue
import Verif.Props.Sort
import Verif.Props.Repair
/-!
# Recovering a container from a disk image (C55)
-/

namespace Verif.Recover
open Format ScanSpec Scan Misc RescueSpec Pipeline DecodeSpec ContainerSpec LayoutSpec RecoverSpec Repair RepairSpec

/-- What a rescue without restriction to a type or to another uid, stopped and resumed any number of times, takes from an image for
`uid`. -/
theorem rescued_blocks {p : Rescue.Param} {uid : Uid} (hp : p.fromPos = none ∧ p.toPos = none)
    (hall : p.onlyBlock = none ∧ (p.onlyUid = none ∨ p.onlyUid = some uid)) {v : Version}
    {pl : List (List Byte)} {mp : List Byte} {ps : List Piece} (h : Scattered v uid pl mp ps) {tail : List Byte} (ht : tail.length < 128)
    {bs : List (List Byte)} (hbs : ∀ b, b ∈ bs ↔ ∃ x ∈ saved p (ps.flatMap Piece.bytes ++ tail), nameOf x.2 = upperHex uid.bytes ∧
      b = bytesOf p (ps.flatMap Piece.bytes ++ tail) x) :
      (∀ b ∈ bs, ∃ s pay, IsBlock b v uid s pay ∧ (s = 0 → pay = mp)) ∧
      ∀ s pay, (∃ b ∈ bs, IsBlock b v uid s pay) ↔ Piece.block v uid s pay ∈ ps := by
  have hbel : ∀ q ∈ ps, Rescue.belongs p (upperHex uid.bytes) q ↔ ∃ s pay, q = .block v uid s pay := by
    intro q hq
    cases q with
    | junk b => simp [Rescue.belongs]
    | block v' u s pay =>
      simp only [Rescue.belongs]
      constructor
      · rintro ⟨-, hn⟩
        have := Rescue.C31_names hn
        subst this
        obtain ⟨rfl, -⟩ := h.own _ _ _ hq
        exact ⟨s, pay, rfl⟩
      · rintro ⟨s', pay', e⟩
        cases e
        refine ⟨⟨fun t ht => ?_, fun u hu => ?_⟩, rfl⟩
        · rw [hall.1] at ht; simp at ht
        · rcases hall.2 with e | e <;> rw [e] at hu
          · simp at hu
          · exact Option.some.inj hu
  have hblock : ∀ s pay, Piece.block v uid s pay ∈ ps → IsBlock (blockBytes v uid.bytes s pay) v uid s pay :=
    fun s pay hm => ⟨rfl, h.ok _ hm⟩
  have hmem : ∀ b, b ∈ bs ↔ b ∈ (ps.filter fun q => Rescue.belongs p (upperHex uid.bytes) q).map Piece.bytes := by
    intro b
    obtain ⟨hbase, hreq⟩ := Rescue.whole_range hp (ps.flatMap Piece.bytes ++ tail)
    have hw := walk_pieces (Rescue.required p (ps.flatMap Piece.bytes ++ tail)) ps h.ok tail ht 0 (by
      rw [List.length_append] at hreq; omega)
    rw [hbs, ← Rescue.blocks_pieces p (ps.flatMap Piece.bytes ++ tail) [] tail _ ps hbase h.ok rfl, List.mem_map]
    unfold saved
    rw [hbase, List.drop_zero, hw]
    constructor
    · rintro ⟨x, hx, hn, rfl⟩
      exact ⟨x, List.mem_filter.2 ⟨hx, decide_eq_true hn⟩, rfl⟩
    · rintro ⟨x, hx, rfl⟩
      obtain ⟨hx, hn⟩ := List.mem_filter.1 hx
      exact ⟨x, hx, of_decide_eq_true hn, rfl⟩
  refine ⟨?_, ?_⟩
  · intro b hb
    obtain ⟨q, hq, rfl⟩ := List.mem_map.1 ((hmem b).1 hb)
    rw [List.mem_filter, decide_eq_true_eq] at hq
    obtain ⟨s, pay, rfl⟩ := (hbel q hq.1).1 hq.2
    refine ⟨s, pay, hblock _ _ hq.1, fun hs => ?_⟩
    rcases (h.own _ _ _ hq.1).2 with e | e
    · exact e.2
    · exact absurd hs e.1
  · intro s pay
    constructor
    · rintro ⟨b, hb, hbl⟩
      obtain ⟨q, hq, rfl⟩ := List.mem_map.1 ((hmem b).1 hb)
      rw [List.mem_filter, decide_eq_true_eq] at hq
      obtain ⟨s', pay', rfl⟩ := (hbel q hq.1).1 hq.2
      obtain ⟨rfl, rfl⟩ := isBlock_seq hbl (hblock _ _ hq.1)
      exact hq.1
    · intro hm
      refine ⟨_, (hmem _).2 (List.mem_map.2 ⟨.block v uid s pay, List.mem_filter.2 ⟨hm, ?_⟩, rfl⟩), hblock _ _ hm⟩
      rw [decide_eq_true_eq]
      exact (hbel _ hm).2 ⟨s, pay, rfl⟩

/-- A rescued file as input of the other commands. -/
theorem rescued_file {v : Version} {uid : Uid} {pl : List (List Byte)} {mp : List Byte} {ps : List Piece} (h : Scattered v uid pl mp ps)
    {bs : List (List Byte)} (h1 : ∀ b ∈ bs, ∃ s pay, IsBlock b v uid s pay ∧ (s = 0 → pay = mp))
    (h2 : ∀ s pay, (∃ b ∈ bs, IsBlock b v uid s pay) ↔ Piece.block v uid s pay ∈ ps) :
    (∀ s pay, HasBlock v uid bs.flatten s pay ↔ Piece.block v uid s pay ∈ ps) ∧
    ∀ {q : RefParam}, q.refFrom = none → q.refTo = none → q.fromPos = none →
      (q.refChoice = .prefer .metadata ∨ q.refChoice = .mustBe .metadata) → ∀ {stop : Nat → Bool}, (∀ i, stop i = false) → ∀ b,
      ∃ pos, getRefBlockM q q.refChoice bs.flatten stop b = .ok (pos, blockOf v uid 0 mp) := by
  refine ⟨fun s pay => ?_, fun e1 e2 e3 e4 _ hs b => ?_⟩
  · rw [Decode.hasBlock_flatten (fun b hb => by obtain ⟨_, _, e, -⟩ := h1 b hb; exact isBlock_length e), h2]
  · refine Sort.ref_of_pieces e1 e2 e3 e4 hs b bs (fun b hb => .inl (h1 b hb)) ?_
    exact (h2 _ _).2 h.known

/-- **C55, sort and repair.** If a file holds, at multiples of the block size and in any order, a metadata block and enough blocks of
every set of the container `c`, but no other blocks of that uid, then sorting and repairing it gives `c`. -/
theorem C55_sort_repair (S : Sort.Env) (hS : S.Calm) (qs : Sort.Param) (hqs : Sort.Whole qs) (R : Repair.Env) (laws : R.rs.Laws)
    (hR : R.Calm) (v : Version) (uid : Uid) (d : Dpb) (bytes mp : List Byte) (c f old : File) (h : Sound R.rs v uid d bytes mp c)
    (pos : Nat) (hr : getRefBlockM qs.ref qs.ref.refChoice f S.stopRef (S.stop 0) = .ok (pos, blockOf v uid 0 mp))
    (hb : qs.ref.burst = some d.burst) (honly : Decode.OnlyBlocksOf R.rs v uid (some d) bytes f)
    (hmeta : ∃ p, HasBlock v uid f 0 p) (hmetas : ∀ p, HasBlock v uid f 0 p → p = mp)
    (henough : ∀ t, t * (d.data + d.parity) < (payloads R.rs v (some d) (fileChunks v bytes)).length →
      d.data ≤ heldIn v uid d f t) :
    ∃ dk st o dk' st', Sort.sortFile S qs f old = .ok (some dk, st, o) ∧
      Repair.repairFile R (some d.burst) false dk.file = .ok (some (dk', st')) ∧ st'.repairFailed = 0 ∧ dk'.file = c := by
  obtain ⟨h1, h2, h3⟩ := shards_ok h.data h.parity
  obtain ⟨hcnt, hps⟩ := payloads_count laws (v := v) h1 h2 h3 bytes
  have hmp : mp.length = blockLen v - 16 := metasToBytes_length h.plain
  have hrs : RsLen R.rs v (some d) := by
    intro x hx sh e1 e2
    cases hx
    exact laws.encode_length _ _ _ _ h1 h2 h3 e1 e2
  have hval : Valid (some d) := by intro x hx; cases hx; exact h1
  have hd := Sort.shards_given (uid := uid) f (dpb := some d) (v := v) (mp := mp) (by simp [verConsistent, h.rs])
    (by rw [h.data, h.parity]; exact ⟨rfl, rfl⟩) qs.ref true (by intro x hx; cases hx; exact hb)
  obtain ⟨dk, st, o, g1, g2, g3, g4, g5, g6⟩ := Sort.C30_incomplete S hS qs hqs R.rs v uid (some d) bytes _ mp c f old hrs hval
    h.container ⟨rfl, hmp⟩ h.numbers pos _ hr rfl rfl hd honly hmeta hmetas
  have hfill : fill v dk.file = dk.file := fill_aligned g2
  have hz : ∀ k, ¬ Sort.Known v uid (some d) (payloads R.rs v (some d) (fileChunks v bytes)).length f k →
      ∀ v' u s p, ¬ IsBlock (piece v dk.file k) v' u s p := by
    intro k hk v' u s p hb
    obtain ⟨n, e⟩ := g5 k hk
    have e : piece v dk.file k = List.replicate n 0 := e
    rw [e] at hb
    exact zeros_not_block hb
  have hcases := not_zeros_data h.container rfl hmp hps
  have h0 : 0 ∈ metaCopies (some true) (some d) := List.mem_map.2 ⟨0, List.mem_range.2 (by omega), by simp⟩
  have hmeta_in : ∀ k ∈ metaCopies (some true) (some d), IsBlock (piece v dk.file k) v uid 0 mp := by
    intro k hk
    have e : piece v dk.file k = piece v c k := g4 k (.inl hk)
    rw [e]
    exact ⟨h.container.metas k hk, hmp⟩
  have hin : ∀ k, k * blockLen v < dk.file.length → k * blockLen v < c.length := fun k hk => by omega
  have hfound := found_of_places (v := v) (uid := uid) (mp := mp) g2 hR.ref (by
    intro k hk
    by_cases hkn : Sort.Known v uid (some d) (payloads R.rs v (some d) (fileChunks v bytes)).length f k
    · have e : piece v dk.file k = piece v c k := g4 k hkn
      rw [e]
      rcases hcases k (hin k hk) with ⟨-, e⟩ | ⟨s, p, -, -, -, e⟩ | e
      · exact .inl ⟨_, _, e⟩
      · exact .inl ⟨_, _, e⟩
      · rw [e]; exact .inr (.inl (dead_zeros _))
    · obtain ⟨n, e⟩ := g5 k hkn
      have e : piece v dk.file k = List.replicate n 0 := e
      rw [e]; exact .inr (.inl (dead_zeros _))) (by
    intro k p hk hb
    by_cases hkn : Sort.Known v uid (some d) (payloads R.rs v (some d) (fileChunks v bytes)).length f k
    · have e : piece v dk.file k = piece v c k := g4 k hkn
      rw [e] at hb
      rcases hcases k (hin k hk) with ⟨-, e⟩ | ⟨s, p', a, b, -, e⟩ | e
      · exact (isBlock_seq hb e).2
      · exfalso
        have := (isBlock_seq hb e).1
        have h4 := congrArg UInt32.toNat this
        have hnum := h.numbers
        unfold lastSeqNum at hnum
        rw [UInt32.toNat_ofNat_of_lt' (by show s < 2 ^ 32; omega)] at h4
        simp at h4
        omega
      · rw [e] at hb; exact absurd hb zeros_not_block
    · exact absurd hb (hz k hkn _ _ _ _)) (by
    refine ⟨0, ?_, hmeta_in 0 h0⟩
    have := isBlock_length (hmeta_in 0 h0)
    have hu := blockLen_pos v
    rw [Nat.zero_mul]
    rcases Nat.eq_zero_or_pos dk.file.length with e | e
    · rw [piece_beyond (by omega)] at this
      simp at this
      omega
    · exact e)
  have hcase : Case R (some d.burst) v uid d bytes mp c dk.file :=
    ⟨h.container, h.numbers, h.plain, h.sized, ⟨hfound, h.rs, h.data, h.parity, .inl rfl⟩⟩
  have hdam : Damaged v uid d (payloads R.rs v (some d) (fileChunks v bytes)).length c dk.file := by
    refine ⟨g3, fun k hk => .inl (g4 k (.inl hk)), fun s _ _ => ?_⟩
    by_cases hkn : Sort.Known v uid (some d) (payloads R.rs v (some d) (fileChunks v bytes)).length f (placeOf d s)
    · exact .inl (g4 _ hkn)
    · right
      rw [hfill]
      rintro ⟨p, hb⟩
      exact hz _ hkn _ _ _ _ hb
  have hgaps : GapsClean v d (payloads R.rs v (some d) (fileChunks v bytes)).length dk.file := by
    intro k hk hs
    refine g5 k ?_
    rintro (e | ⟨s, p, a, b, -, e⟩)
    · exact hk e
    · exact hs s a b e.symm
  have hrec : ∀ t, t * (d.data + d.parity) < (payloads R.rs v (some d) (fileChunks v bytes)).length →
      d.data ≤ unchangedIn v d c dk.file t := by
    intro t ht
    refine Nat.le_trans (henough t ht) ?_
    unfold heldIn unchangedIn
    refine List.countP_mono_left fun j hjr hj => ?_
    have hj := @of_decide_eq_true _ (Classical.propDecidable _) hj
    rw [decide_eq_true_eq]
    obtain ⟨p, hp⟩ := hj
    refine g4 _ (.inr ⟨t * (d.data + d.parity) + j + 1, p, by omega, ?_, hp, rfl⟩)
    rw [List.mem_range] at hjr
    rw [hcnt] at ht ⊢
    simp only [blocksFor] at ht ⊢
    have h4 := Nat.lt_of_mul_lt_mul_right ht
    have h5 := Nat.mul_le_mul_right (d.data + d.parity) (Nat.succ_le_of_lt h4)
    rw [Nat.succ_mul] at h5
    omega
  obtain ⟨dk', st', r1, r2, r3⟩ := C25_restores R laws hR _ _ _ _ _ _ _ _ hcase hdam hgaps hrec
  exact ⟨dk, st, o, dk', st', g1, r1, r2, r3⟩

/-- A command given a rescued file takes the blocks in it for those of the container. -/
theorem rescued_only {rs : RsCodec} {v : Version} {uid : Uid} {dpb : Option Dpb} {bytes mp : List Byte} {ps : List Piece}
    (h : Scattered v uid (payloads rs v dpb (fileChunks v bytes)) mp ps) {f : File}
    (hf : ∀ s pay, HasBlock v uid f s pay ↔ Piece.block v uid s pay ∈ ps) :
    Decode.OnlyBlocksOf rs v uid dpb bytes f ∧ (∃ p, HasBlock v uid f 0 p) ∧ ∀ p, HasBlock v uid f 0 p → p = mp := by
  refine ⟨fun seq p hseq hb => ?_, ⟨mp, (hf _ _).2 h.known⟩, fun p hb => ?_⟩
  · rcases (h.own _ _ _ ((hf _ _).1 hb)).2 with e | e
    · exact absurd e.1 hseq
    · exact e.2
  · rcases (h.own _ _ _ ((hf _ _).1 hb)).2 with e | e
    · exact e.2
    · exact absurd rfl e.1

theorem image_nonempty {v : Version} {uid : Uid} {pl : List (List Byte)} {mp : List Byte} {ps : List Piece} (h : Scattered v uid pl mp ps)
    (tail : List Byte) : ps.flatMap Piece.bytes ++ tail ≠ [] := by
  intro e
  rw [List.append_eq_nil_iff, List.flatMap_eq_nil_iff] at e
  have h1 := e.1 _ h.known
  have h2 : IsBlock (blockBytes v uid.bytes 0 mp) v uid 0 mp := ⟨rfl, h.ok _ h.known⟩
  have h3 := isBlock_length h2
  have hu := blockLen_pos v
  have h1 : blockBytes v uid.bytes 0 mp = [] := h1
  rw [h1] at h3
  simp at h3
  omega

/-- The options of `sort` and `decode` that say how to find the reference block, when none restricts the search and a metadata block
is preferred (as the commands do by default, or with `--ref-from` etc. absent) or demanded. -/
structure SeeksMeta (q : RefParam) : Prop where
  refFrom : q.refFrom = none
  refTo : q.refTo = none
  fromPos : q.fromPos = none
  choice : q.refChoice = .prefer .metadata ∨ q.refChoice = .mustBe .metadata

/-- **C55, decode.** The blocks of a container are rescued from an image on which some of them lie in any order, by a rescue that may
have been stopped and resumed any number of times.  Decoding the file
that `rescue` made gives a file of the original size; every byte whose chunk's block is on the image is the original byte, all others
are zero.  In particular the file is restored if all of its data blocks are on the image. -/
theorem C55_decode {E : Rescue.Env} (hE : RescueSpec.Ok E) (hs : ∀ n, E.stop n = false) (he : RescueSpec.NoErr E) (p : Rescue.Param)
    (hp : p.fromPos = none ∧ p.toPos = none) (uid : Uid) (hall : p.onlyBlock = none ∧ (p.onlyUid = none ∨ p.onlyUid = some uid))
    (rs : RsCodec) (v : Version) (dpb : Option Dpb) (bytes mp : List Byte) (hrs : RsLen rs v dpb) (hv : Valid dpb)
    (hc : verConsistent v dpb = true) (hsz : firstFsz (metasFromBytes mp) = some bytes.length)
    (hsh : firstRsd (metasFromBytes mp) = dpb.map (·.data) ∧ firstRsp (metasFromBytes mp) = dpb.map (·.parity))
    (ps : List Piece) (h : Scattered v uid (payloads rs v dpb (fileChunks v bytes)) mp ps) (tail : List Byte) (ht : tail.length < 128)
    (hlen : (ps.flatMap Piece.bytes ++ tail).length < 2 ^ 64) (dir0 dir : RescueSpec.Dir) (hdir : dir0 (upperHex uid.bytes) = [])
    (log : Option File) (hpause : Paused p (ps.flatMap Piece.bytes ++ tail) dir0 dir log) (ct : Rescue.Counters)
    (hct : Rescue.readLog (Rescue.required p (ps.flatMap Piece.bytes ++ tail)) log = some ct)
    (D : Decode.Env) (hD : D.Calm) (q : Decode.Param) (hq : Decode.Whole q) (hr : SeeksMeta q.ref)
    (hb : ∀ d, dpb = some d → q.ref.burst = some d.burst) (old : File) :
    ∃ bound, ∀ k s, (Rescue.ring E p (ps.flatMap Piece.bytes ++ tail) (Rescue.required p (ps.flatMap Piece.bytes ++ tail))).Steps k
        (Rescue.initial E p (ps.flatMap Piece.bytes ++ tail) ct) s → k ≤ bound ∧
      ((∀ s', ¬ (Rescue.ring E p (ps.flatMap Piece.bytes ++ tail) (Rescue.required p (ps.flatMap Piece.bytes ++ tail))).Step s s') →
        Finished s ∧ (s.thread 0).st.failed = false ∧ (s.thread 0).st.hung = false ∧
        ∃ out R, Decode.toFile D q (dir.after (s.thread 2).st.events (upperHex uid.bytes)) old = .ok (out, R) ∧
          out.length = bytes.length ∧
          (∀ i < bytes.length,
            ((∃ seq pay, Piece.block v uid seq pay ∈ ps ∧ chunkOf dpb seq.toNat = some (i / (blockLen v - 16))) → out[i]? = bytes[i]?) ∧
            ((¬ ∃ seq pay, Piece.block v uid seq pay ∈ ps ∧ chunkOf dpb seq.toNat = some (i / (blockLen v - 16))) → out[i]? = some 0)) ∧
          ((∀ j, j * (blockLen v - 16) < bytes.length → ∃ seq pay, Piece.block v uid seq pay ∈ ps ∧ chunkOf dpb seq.toNat = some j) →
            out = bytes)) := by
  obtain ⟨bound, hrun⟩ := Rescue.C32_paused hp (image_nonempty h tail) hlen hpause hE hs he hct
  refine ⟨bound, fun k s hk => ⟨(hrun k s hk).1, fun hst => ?_⟩⟩
  obtain ⟨g1, g2, g3, g4⟩ := (hrun k s hk).2 hst
  refine ⟨g1, g2, g3, ?_⟩
  obtain ⟨bs, b1, b4⟩ := g4 (upperHex uid.bytes)
  obtain ⟨b2, b3⟩ := rescued_blocks hp hall h ht b4
  obtain ⟨f1, f2⟩ := rescued_file h b2 b3
  rw [b1, hdir, List.nil_append]
  obtain ⟨o1, o2, o3⟩ := rescued_only h f1
  obtain ⟨pos, href⟩ := f2 hr.refFrom hr.refTo hr.fromPos hr.choice hD.stopRef (D.stop 0)
  have hd := Sort.shards_given (uid := uid) bs.flatten hc hsh q.ref true hb
  obtain ⟨full, -, e2⟩ := Decode.decodeFile_whole D hD.lots hD.stop hq (blockOf v uid 0 mp) bs.flatten old dpb hd
  have hto : ∃ out R, Decode.toFile D q bs.flatten old = .ok (out, R) := by
    unfold Decode.toFile
    rw [href]
    simp only
    rw [e2]
    exact ⟨_, _, rfl⟩
  obtain ⟨out, R, hto⟩ := hto
  obtain ⟨c1, c2⟩ := Decode.C23_damage D hD q hq _ _ _ _ hto pos _ href rs v uid dpb bytes rfl rfl hrs hv hc _ Decode.metas_blockOf hsz hsh o1
  have hch : ∀ j, HasChunk v uid dpb bs.flatten j ↔ ∃ seq pay, Piece.block v uid seq pay ∈ ps ∧ chunkOf dpb seq.toNat = some j := by
    intro j
    unfold HasChunk
    simp only [f1]
  have c3 : ∀ i < bytes.length,
            ((∃ seq pay, Piece.block v uid seq pay ∈ ps ∧ chunkOf dpb seq.toNat = some (i / (blockLen v - 16))) → out[i]? = bytes[i]?) ∧
            ((¬ ∃ seq pay, Piece.block v uid seq pay ∈ ps ∧ chunkOf dpb seq.toNat = some (i / (blockLen v - 16))) → out[i]? = some 0) := by
    intro i hi
    rw [← hch]
    exact c2 i hi
  refine ⟨out, R, hto, c1, c3, fun hfull => ?_⟩
  refine List.ext_getElem? fun i => ?_
  by_cases hi : i < bytes.length
  · refine (c3 i hi).1 (hfull _ ?_)
    exact Nat.lt_of_le_of_lt (Nat.div_mul_le_self _ _) hi
  · rw [List.getElem?_eq_none (by omega), List.getElem?_eq_none (by omega)]

/-- **C55, restore.** If of every Reed-Solomon set of a container at least as many blocks as it has data shards are on the image, and
a metadata block, then `rescue` (stopped and resumed any number of times), `sort` and `repair`, one after the other, give the container, byte for byte, and `decode` the file. -/
theorem C55_restore {E : Rescue.Env} (hE : RescueSpec.Ok E) (hs : ∀ n, E.stop n = false) (he : RescueSpec.NoErr E) (p : Rescue.Param)
    (hp : p.fromPos = none ∧ p.toPos = none) (uid : Uid) (hall : p.onlyBlock = none ∧ (p.onlyUid = none ∨ p.onlyUid = some uid))
    (R : Repair.Env) (laws : R.rs.Laws) (hR : R.Calm) (v : Version) (d : Dpb) (bytes mp : List Byte) (c : File)
    (hc : Sound R.rs v uid d bytes mp c)
    (ps : List Piece) (h : Scattered v uid (payloads R.rs v (some d) (fileChunks v bytes)) mp ps) (tail : List Byte) (ht : tail.length < 128)
    (henough : ∀ t, t * (d.data + d.parity) < (payloads R.rs v (some d) (fileChunks v bytes)).length → d.data ≤ foundIn v uid d ps t)
    (hlen : (ps.flatMap Piece.bytes ++ tail).length < 2 ^ 64) (dir0 dir : RescueSpec.Dir) (hdir : dir0 (upperHex uid.bytes) = [])
    (log : Option File) (hpause : Paused p (ps.flatMap Piece.bytes ++ tail) dir0 dir log) (ct : Rescue.Counters)
    (hct : Rescue.readLog (Rescue.required p (ps.flatMap Piece.bytes ++ tail)) log = some ct)
    (S : Sort.Env) (hS : S.Calm) (qs : Sort.Param) (hqs : Sort.Whole qs) (hrs : SeeksMeta qs.ref) (hbs : qs.ref.burst = some d.burst)
    (D : Decode.Env) (hD : D.Calm) (q : Decode.Param) (hq : Decode.Whole q) (hr : Decode.DefaultRef q.ref)
    (hb : q.ref.burst ≠ none ∨ q.ref.guessBurstFrom = none ∧ d.burst ≤ 1000) (old old' : File) :
    ∃ bound, ∀ k s, (Rescue.ring E p (ps.flatMap Piece.bytes ++ tail) (Rescue.required p (ps.flatMap Piece.bytes ++ tail))).Steps k
        (Rescue.initial E p (ps.flatMap Piece.bytes ++ tail) ct) s → k ≤ bound ∧
      ((∀ s', ¬ (Rescue.ring E p (ps.flatMap Piece.bytes ++ tail) (Rescue.required p (ps.flatMap Piece.bytes ++ tail))).Step s s') →
        Finished s ∧ (s.thread 0).st.failed = false ∧ (s.thread 0).st.hung = false ∧
        ∃ dk st o dk' st' out,
          Sort.sortFile S qs (dir.after (s.thread 2).st.events (upperHex uid.bytes)) old = .ok (some dk, st, o) ∧
          Repair.repairFile R (some d.burst) false dk.file = .ok (some (dk', st')) ∧ st'.repairFailed = 0 ∧ dk'.file = c ∧
          Decode.toFile D q dk'.file old' = .ok (bytes, out)) := by
  obtain ⟨bound, hrun⟩ := Rescue.C32_paused hp (image_nonempty h tail) hlen hpause hE hs he hct
  refine ⟨bound, fun k s hk => ⟨(hrun k s hk).1, fun hst => ?_⟩⟩
  obtain ⟨g1, g2, g3, g4⟩ := (hrun k s hk).2 hst
  refine ⟨g1, g2, g3, ?_⟩
  obtain ⟨bs, b1, b4⟩ := g4 (upperHex uid.bytes)
  obtain ⟨b2, b3⟩ := rescued_blocks hp hall h ht b4
  obtain ⟨f1, f2⟩ := rescued_file h b2 b3
  rw [b1, hdir, List.nil_append]
  obtain ⟨o1, o2, o3⟩ := rescued_only h f1
  obtain ⟨pos, href⟩ := f2 hrs.refFrom hrs.refTo hrs.fromPos hrs.choice hS.stopRef (S.stop 0)
  obtain ⟨dk, st, o, dk', st', r1, r2, r3, r4⟩ := C55_sort_repair S hS qs hqs R laws hR v uid d bytes mp c bs.flatten old hc pos href hbs
    o1 o2 o3 (by
      intro t ht
      have e : heldIn v uid d bs.flatten t = foundIn v uid d ps t := by
        unfold heldIn foundIn OnImage
        refine List.countP_congr fun j _ => ?_
        rw [@decide_eq_true_iff _ (Classical.propDecidable _), @decide_eq_true_iff _ (Classical.propDecidable _)]
        simp only [f1]
      rw [e]
      exact henough t ht)
  obtain ⟨h1, h2, h3⟩ := shards_ok hc.data hc.parity
  obtain ⟨out, e1, -⟩ := Decode.C21_container D hD q hq hr R.rs v uid (some d) bytes _ c old' (by
      intro x hx sh e1 e2
      cases hx
      exact laws.encode_length _ _ _ _ h1 h2 h3 e1 e2) (by intro x hx; cases hx; exact ⟨h1, h2, h3⟩)
    (by simp [verConsistent, hc.rs]) hc.container _ ⟨mp, ⟨rfl, metasToBytes_length hc.plain⟩, rfl⟩ hc.sized
    (by rw [hc.data, hc.parity]; exact ⟨rfl, rfl⟩) hc.numbers (hb.imp_right fun e => ⟨e.1, by intro x hx; cases hx; exact e.2⟩)
  exact ⟨dk, st, o, dk', st', out, r1, r2, r3, r4, by rw [r4]; exact e1⟩

/-! ### Instances and finding -/

/-- A sector of zeros, a block of another container, the blocks 12 to 3 of a container, its metadata block, and the block 12 again. -/
def demoImage (pl : List (List Byte)) (mp : List Byte) : List Piece :=
  [.junk (List.replicate 128 0), .block .v2 Rescue.uidB 1 (List.replicate 112 7)] ++
    ((List.range 10).reverse.filterMap fun j => pl[j + 2]?.map (Piece.block .v17 demoOwner (UInt32.ofNat (j + 3)))) ++
    [.block .v17 demoOwner 0 mp] ++ (pl[11]?.map (Piece.block .v17 demoOwner 12)).toList

theorem demo_mem {pl : List (List Byte)} {mp : List Byte} (q : Piece) : q ∈ demoImage pl mp ↔ q = .junk (List.replicate 128 0) ∨
    q = .block .v2 Rescue.uidB 1 (List.replicate 112 7) ∨
    (∃ j < 10, ∃ p, pl[j + 2]? = some p ∧ q = .block .v17 demoOwner (UInt32.ofNat (j + 3)) p) ∨ q = .block .v17 demoOwner 0 mp := by
  unfold demoImage
  simp only [List.mem_append, List.mem_cons, List.not_mem_nil, or_false, List.mem_filterMap, List.mem_reverse, List.mem_range,
    Option.map_eq_some_iff, Option.mem_toList]
  constructor
  · rintro ((((h | h) | ⟨j, hj, p, hp, rfl⟩) | h) | ⟨p, hp, rfl⟩)
    · exact .inl h
    · exact .inr (.inl h)
    · exact .inr (.inr (.inl ⟨j, hj, p, hp, rfl⟩))
    · exact .inr (.inr (.inr h))
    · exact .inr (.inr (.inl ⟨9, by omega, p, hp, rfl⟩))
  · rintro (h | h | ⟨j, hj, p, hp, rfl⟩ | h)
    · exact .inl (.inl (.inl (.inl h)))
    · exact .inl (.inl (.inl (.inr h)))
    · exact .inl (.inl (.inr ⟨j, hj, p, hp, rfl⟩))
    · exact .inl (.inr h)

theorem demo_scattered {mp : List Byte} {c : File} (h : Sound RsWitness.codec .v17 demoOwner demoDpb (List.replicate 1000 7) mp c) :
    Scattered .v17 demoOwner (payloads RsWitness.codec .v17 (some demoDpb) (fileChunks .v17 (List.replicate 1000 7))) mp
      (demoImage (payloads RsWitness.codec .v17 (some demoDpb) (fileChunks .v17 (List.replicate 1000 7))) mp) ∧
    ∀ t, t * (demoDpb.data + demoDpb.parity) < (payloads RsWitness.codec .v17 (some demoDpb) (fileChunks .v17 (List.replicate 1000 7))).length →
      demoDpb.data ≤ foundIn .v17 demoOwner demoDpb
        (demoImage (payloads RsWitness.codec .v17 (some demoDpb) (fileChunks .v17 (List.replicate 1000 7))) mp) t := by
  obtain ⟨hcnt, hps⟩ := payloads_count RsWitness.codec_laws (v := .v17) (d := demoDpb) (by decide) (by decide) (by decide)
    (List.replicate 1000 7)
  have hlen : (payloads RsWitness.codec .v17 (some demoDpb) (fileChunks .v17 (List.replicate 1000 7))).length = 12 := by
    rw [hcnt, List.length_replicate]; decide
  have hmp := metasToBytes_length h.plain
  generalize payloads RsWitness.codec .v17 (some demoDpb) (fileChunks .v17 (List.replicate 1000 7)) = pl at hps hlen
  have hne : demoOwner ≠ Rescue.uidB := by decide
  refine ⟨⟨?_, ?_, (demo_mem _).2 (.inr (.inr (.inr rfl)))⟩, ?_⟩
  · intro q hq
    rcases (demo_mem q).1 hq with rfl | rfl | ⟨j, -, p, hp, rfl⟩ | rfl
    · refine .inl ⟨List.length_replicate, fun v crc uid seq hpre => ?_⟩
      exact dead_zeros 128 0 v crc uid seq hpre
    · exact List.length_replicate
    · exact hps p (List.mem_of_getElem? hp)
    · exact hmp
  · intro v' seq payload hq
    rcases (demo_mem _).1 hq with e | e | ⟨j, hj, p, hp, e⟩ | e
    · cases e
    · exact absurd (Piece.block.inj e).2.1 hne
    · obtain ⟨rfl, -, rfl, rfl⟩ := Piece.block.inj e
      refine ⟨rfl, .inr ⟨?_, ?_⟩⟩
      · intro h0
        have h4 := congrArg UInt32.toNat h0
        rw [UInt32.toNat_ofNat_of_lt' (by show j + 3 < 2 ^ 32; omega)] at h4
        simp at h4
      · rw [UInt32.toNat_ofNat_of_lt' (by show j + 3 < 2 ^ 32; omega)]
        exact hp
    · obtain ⟨rfl, -, rfl, rfl⟩ := Piece.block.inj e
      exact ⟨rfl, .inl ⟨rfl, rfl⟩⟩
  · intro t ht
    rw [hlen] at ht
    have ht : t * 12 < 12 := ht
    obtain rfl : t = 0 := by omega
    unfold foundIn
    have hr : List.range (demoDpb.data + demoDpb.parity) = [0, 1] ++ (List.range 10).map (· + 2) := by decide
    rw [hr, List.countP_append, List.countP_map]
    refine Nat.le_trans ?_ (Nat.le_add_left _ _)
    have : (List.range 10).countP ((fun j => @decide (OnImage .v17 demoOwner (demoImage pl mp) (0 * (demoDpb.data + demoDpb.parity) + j + 1))
        (Classical.propDecidable _)) ∘ fun x => x + 2) = (List.range 10).length := by
      refine List.countP_eq_length.2 fun j hj => ?_
      rw [List.mem_range] at hj
      refine @decide_eq_true _ (Classical.propDecidable _) ⟨pl[j + 2]'(by omega), (demo_mem _).2 (.inr (.inr (.inl ⟨j, hj, _,
        List.getElem?_eq_getElem (by omega), ?_⟩)))⟩
      simp only [Nat.zero_mul, Nat.zero_add]
    rw [this, List.length_range]
    exact Nat.le_refl 10

theorem demo_small {pl pl' : List (List Byte)} {mp : List Byte} (h : Scattered .v17 demoOwner pl' mp (demoImage pl mp)) :
    ((demoImage pl mp).flatMap Piece.bytes ++ [1, 2]).length < 2 ^ 64 := by
  have hone : ∀ q ∈ demoImage pl mp, q.bytes.length ≤ 512 := by
    intro q hq
    have hok := h.ok q hq
    rcases (demo_mem q).1 hq with rfl | rfl | ⟨j, -, p, -, rfl⟩ | rfl
    · show (List.replicate 128 0).length ≤ 512
      rw [List.length_replicate]; decide
    · have := isBlock_length (v := .v2) (uid := Rescue.uidB) (seq := 1) (p := List.replicate 112 7) ⟨rfl, hok⟩
      exact Nat.le_trans (Nat.le_of_eq this) (by decide)
    · have := isBlock_length (v := .v17) (uid := demoOwner) (seq := UInt32.ofNat (j + 3)) (p := p) ⟨rfl, hok⟩
      exact Nat.le_of_eq this
    · have := isBlock_length (v := .v17) (uid := demoOwner) (seq := 0) (p := mp) ⟨rfl, hok⟩
      exact Nat.le_of_eq this
  have hsum : ∀ l : List Piece, (∀ q ∈ l, q.bytes.length ≤ 512) → (l.flatMap Piece.bytes).length ≤ l.length * 512 := by
    intro l
    induction l with
    | nil => simp
    | cons q l ih =>
      intro hl
      have h1 := hl q (List.mem_cons_self ..)
      have h2 := ih fun r hr => hl r (List.mem_cons_of_mem _ hr)
      rw [List.flatMap_cons, List.length_append, List.length_cons]
      omega
  have hcount : (demoImage pl mp).length ≤ 14 := by
    unfold demoImage
    rw [List.length_append, List.length_append, List.length_append]
    have h1 := List.length_filterMap_le (fun j => pl[j + 2]?.map (Piece.block .v17 demoOwner (UInt32.ofNat (j + 3)))) (List.range 10).reverse
    rw [List.length_reverse, List.length_range] at h1
    have h2 : (pl[11]?.map (Piece.block .v17 demoOwner 12)).toList.length ≤ 1 := by cases pl[11]? <;> simp
    simp only [List.length_cons, List.length_nil]
    omega
  have := hsum _ hone
  rw [List.length_append, List.length_cons, List.length_cons, List.length_nil]
  omega

/-- C55_restore, C55_sort_repair: two of twelve blocks are lost, the others in reverse order between other things. -/
example : ∃ mp c, ∃ ps : List Piece, Sound RsWitness.codec .v17 demoOwner demoDpb (List.replicate 1000 7) mp c ∧
    Piece.block .v17 demoOwner 0 mp ∈ ps ∧ ¬ OnImage .v17 demoOwner ps 1 ∧
    ∃ bound, ∀ k s, (Rescue.ring Rescue.smallEnv Rescue.everything (ps.flatMap Piece.bytes ++ [1, 2])
          (Rescue.required Rescue.everything (ps.flatMap Piece.bytes ++ [1, 2]))).Steps k
        (Rescue.initial Rescue.smallEnv Rescue.everything (ps.flatMap Piece.bytes ++ [1, 2]) .zero) s → k ≤ bound ∧
      ((∀ s', ¬ (Rescue.ring Rescue.smallEnv Rescue.everything (ps.flatMap Piece.bytes ++ [1, 2])
          (Rescue.required Rescue.everything (ps.flatMap Piece.bytes ++ [1, 2]))).Step s s') →
        Finished s ∧ (s.thread 0).st.failed = false ∧ (s.thread 0).st.hung = false ∧
        ∃ dk st o dk' st' out,
          Sort.sortFile Sort.calmEnv Sort.burstParam (RescueSpec.Dir.after (fun _ => []) (s.thread 2).st.events (upperHex demoOwner.bytes)) [9] =
            .ok (some dk, st, o) ∧
          Repair.repairFile demoEnv (some 3) false dk.file = .ok (some (dk', st')) ∧ st'.repairFailed = 0 ∧ dk'.file = c ∧
          Decode.toFile Decode.calmEnv Decode.plainParam dk'.file [] = .ok (List.replicate 1000 7, out)) := by
  obtain ⟨mp, c, h⟩ := demo_sound
  obtain ⟨h1, h2⟩ := demo_scattered h
  refine ⟨mp, c, _, h, h1.known, ?_, C55_restore Rescue.small_ok (fun _ => rfl) (fun _ => rfl) Rescue.everything ⟨rfl, rfl⟩ demoOwner
    ⟨rfl, .inl rfl⟩ demoEnv demo_laws demo_calm .v17 demoDpb (List.replicate 1000 7) mp c h _ h1 [1, 2] (by decide) h2 (demo_small h1) (fun _ => []) (fun _ => []) rfl none .fresh .zero rfl
    Sort.calmEnv Sort.calm Sort.burstParam ⟨rfl, rfl, rfl, rfl⟩ ⟨rfl, rfl, rfl, .inl rfl⟩ rfl
    Decode.calmEnv Decode.calm Decode.plainParam Decode.plain_whole Decode.plain_ref (.inr ⟨rfl, by decide⟩) [9] []⟩
  rintro ⟨p, hp⟩
  rcases (demo_mem _).1 hp with e | e | ⟨j, hj, q, hq, e⟩ | e
  · cases e
  · exact absurd (Piece.block.inj e).1 (by decide)
  · have h4 := congrArg UInt32.toNat (Piece.block.inj e).2.2.1
    rw [UInt32.toNat_ofNat_of_lt' (n := j + 3) (by show j + 3 < 2 ^ 32; omega)] at h4
    have h4 : 1 = j + 3 := h4
    omega
  · exact absurd (Piece.block.inj e).2.2.1 (by decide)

/-- C55_decode on the same image: block 1 is lost, so the first 496 bytes are zero. -/
example : ∃ mp c, ∃ ps : List Piece, Sound RsWitness.codec .v17 demoOwner demoDpb (List.replicate 1000 7) mp c ∧
    ∃ bound, ∀ k s, (Rescue.ring Rescue.smallEnv Rescue.everything (ps.flatMap Piece.bytes ++ [1, 2])
          (Rescue.required Rescue.everything (ps.flatMap Piece.bytes ++ [1, 2]))).Steps k
        (Rescue.initial Rescue.smallEnv Rescue.everything (ps.flatMap Piece.bytes ++ [1, 2]) .zero) s → k ≤ bound ∧
      ((∀ s', ¬ (Rescue.ring Rescue.smallEnv Rescue.everything (ps.flatMap Piece.bytes ++ [1, 2])
          (Rescue.required Rescue.everything (ps.flatMap Piece.bytes ++ [1, 2]))).Step s s') →
        ∃ out R, Decode.toFile Decode.calmEnv { Decode.plainParam with ref := Sort.burstParam.ref }
            (RescueSpec.Dir.after (fun _ => []) (s.thread 2).st.events (upperHex demoOwner.bytes)) [9] = .ok (out, R) ∧
          out.length = 1000 ∧ out[999]? = some 7) := by
  obtain ⟨mp, c, h⟩ := demo_sound
  obtain ⟨h1, h2⟩ := demo_scattered h
  obtain ⟨bound, hb⟩ := C55_decode Rescue.small_ok (fun _ => rfl) (fun _ => rfl) Rescue.everything ⟨rfl, rfl⟩ demoOwner
    ⟨rfl, .inl rfl⟩ RsWitness.codec .v17 (some demoDpb) (List.replicate 1000 7) mp (by
      intro x hx sh e1 e2
      cases hx
      exact RsWitness.codec_laws.encode_length _ _ _ _ (by decide) (by decide) (by decide) e1 e2) (by intro x hx; cases hx; decide)
    (by decide) h.sized (by rw [h.data, h.parity]; exact ⟨rfl, rfl⟩) _ h1 [1, 2] (by decide) (demo_small h1) (fun _ => []) (fun _ => []) rfl none .fresh .zero rfl
    Decode.calmEnv Decode.calm { Decode.plainParam with ref := Sort.burstParam.ref } ⟨rfl, rfl, rfl⟩ ⟨rfl, rfl, rfl, .inl rfl⟩
    (by intro x hx; cases hx; rfl) [9]
  refine ⟨mp, c, _, h, bound, fun k s hk => ⟨(hb k s hk).1, fun hst => ?_⟩⟩
  obtain ⟨-, -, -, out, R, r1, r2, r3, -⟩ := (hb k s hk).2 hst
  refine ⟨out, R, r1, by rw [r2, List.length_replicate], ?_⟩
  have hcnt := (payloads_count RsWitness.codec_laws (v := .v17) (d := demoDpb) (by decide) (by decide) (by decide)
    (List.replicate 1000 7)).1
  rw [(r3 999 (by rw [List.length_replicate]; decide)).1 ⟨3, (payloads RsWitness.codec .v17 (some demoDpb)
      (fileChunks .v17 (List.replicate 1000 7)))[2]'(by rw [hcnt, List.length_replicate]; decide),
      (demo_mem _).2 (.inr (.inr (.inl ⟨0, by decide, _, List.getElem?_eq_getElem _, rfl⟩))), by decide⟩]
  rw [List.getElem?_replicate]
  rfl

set_option maxRecDepth 1000000 in
/-- **C55, finding.** A rescue that died in the middle of a write and is resumed leaves part of a block in the file of its uid.  What
is appended afterwards is not at multiples of the block size any more, so `decode`, `sort`, `repair` and `check` do not find it
although `rescue` saved it: they look for blocks at multiples of the block size only. -/
theorem C55_torn_violated : ∃ d log c, Interrupted Rescue.everything (Rescue.blockA1 ++ Rescue.blockA2) (fun _ => []) d log ∧
    Rescue.readLog (Rescue.required Rescue.everything (Rescue.blockA1 ++ Rescue.blockA2)) log = some c ∧
    ∃ bound, ∀ k s, (Rescue.ring Rescue.smallEnv Rescue.everything (Rescue.blockA1 ++ Rescue.blockA2)
        (Rescue.required Rescue.everything (Rescue.blockA1 ++ Rescue.blockA2))).Steps k
        (Rescue.initial Rescue.smallEnv Rescue.everything (Rescue.blockA1 ++ Rescue.blockA2) c) s → k ≤ bound ∧
      ((∀ s', ¬ (Rescue.ring Rescue.smallEnv Rescue.everything (Rescue.blockA1 ++ Rescue.blockA2)
        (Rescue.required Rescue.everything (Rescue.blockA1 ++ Rescue.blockA2))).Step s s') → Finished s ∧
        Rescue.blockA2 <:+: d.after (s.thread 2).st.events Rescue.nameA ∧
        ¬ HasBlock .v2 Rescue.uidA (d.after (s.thread 2).st.events Rescue.nameA) 2 (List.replicate 112 9)) := by
  have hc : Rescue.readLog (Rescue.required Rescue.everything (Rescue.blockA1 ++ Rescue.blockA2)) (some (Rescue.Counters.serialize ⟨128, 0, 1⟩)) =
    some ⟨128, 0, 1⟩ := by decide +kernel
  refine ⟨_, _, ⟨128, 0, 1⟩, Rescue.demo_interrupted _, hc, ?_⟩
  obtain ⟨bound, hb⟩ := Rescue.complete_run Rescue.small_ok (fun _ => rfl) (fun _ => rfl) (p := Rescue.everything) Rescue.demo_ne
    (c := ⟨128, 0, 1⟩) (by decide)
  refine ⟨bound, fun k s hk => ⟨(hb k s hk).1, fun hst => ?_⟩⟩
  obtain ⟨g1, -, -, -, g5⟩ := (hb k s hk).2 hst
  refine ⟨g1, ?_⟩
  have e : RescueSpec.Dir.after (RescueSpec.Dir.torn (fun _ => []) [.append Rescue.nameA Rescue.blockA1, .stats ⟨128, 0, 1⟩]
      (some (.append Rescue.nameA Rescue.blockA2)) 50) (s.thread 2).st.events Rescue.nameA =
      Rescue.blockA1 ++ Rescue.blockA2.take 50 ++ Rescue.blockA2 := by
    rw [Rescue.after_eq, g5]
    decide +kernel
  rw [e]
  refine ⟨⟨Rescue.blockA1 ++ Rescue.blockA2.take 50, [], List.append_nil _⟩, ?_⟩
  rintro ⟨k, hk⟩
  have hbl : blockLen .v2 = 128 := rfl
  rw [hbl] at hk
  match k, hk with
  | 0, hk => exact absurd hk.bytes (by decide +kernel)
  | 1, hk => exact absurd hk.bytes (by decide +kernel)
  | 2, hk => exact absurd hk.bytes (by decide +kernel)
  | k + 3, hk =>
    have h1 := isBlock_length hk
    rw [File.readAt_length] at h1
    have h2 : (Rescue.blockA1 ++ Rescue.blockA2.take 50 ++ Rescue.blockA2).length = 306 := by decide +kernel
    rw [h2, hbl] at h1
    omega

end Verif.Recover
