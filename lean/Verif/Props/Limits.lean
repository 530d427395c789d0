import Verif.Spec.Limits
import Verif.Props.Repair
import Mathlib.Data.Fintype.BigOperators
/-!
# C73: what is lost when too much is lost

With more damage than the error correction can handle, exactly the chunks in the sets concerned are lost; and no program could do better.
-/

namespace Verif.Repair
open Format RepairSpec ScanSpec Scan Layout LayoutSpec ContainerSpec FileUtils
open Classical

/-- Among the blocks of a set that are there, all are unchanged. -/
theorem presentIn_unchanged {v : Version} {uid : Uid} {d : Dpb} {last : Nat} {c f : File} (hdam : Damaged v uid d last c f) {t : Nat}
    (ht : (t + 1) * (d.data + d.parity) ≤ last) : presentIn v uid d (fill v f) t ≤ unchangedIn v d c f t := by
  unfold presentIn unchangedIn
  refine List.countP_mono_left fun j hj => ?_
  rw [List.mem_range] at hj
  rw [Nat.succ_mul] at ht
  simp only [decide_eq_true_eq]
  intro hp
  exact (hdam.blocks (t * (d.data + d.parity) + j + 1) (by omega) (by omega)).resolve_right fun e => e hp

/-- A set that begins inside the container ends inside it. -/
theorem set_inside {rs : RsCodec} (laws : rs.Laws) {v : Version} {d : Dpb} (h1 : 1 ≤ d.data) (h2 : 1 ≤ d.parity)
    (h3 : d.data + d.parity ≤ 256) (bytes : List Byte) {t : Nat}
    (ht : t * (d.data + d.parity) < (payloads rs v (some d) (fileChunks v bytes)).length) :
    (t + 1) * (d.data + d.parity) ≤ (payloads rs v (some d) (fileChunks v bytes)).length := by
  obtain ⟨hcnt, -⟩ := payloads_count laws (v := v) h1 h2 h3 bytes
  rw [hcnt] at ht ⊢
  unfold blocksFor at ht ⊢
  simp only at ht ⊢
  exact Nat.mul_le_mul_right _ (Nat.lt_of_mul_lt_mul_right ht)

/-- **C73, set by set.** After an uninterrupted `repair` of what is left of a container all metadata blocks are back; and each set is complete
again exactly if at least `data` of its blocks were unchanged.  The blocks of the other sets are as they were. -/
theorem C73_per_set (E : Env) (laws : E.rs.Laws) (hE : E.Calm) (burst : Option Nat) (v : Version) (uid : Uid) (d : Dpb)
    (bytes mp : List Byte) (c f : File) (h : Case E burst v uid d bytes mp c f) (hlen : f.length = c.length)
    (hdam : Damaged v uid d (payloads E.rs v (some d) (fileChunks v bytes)).length c f) :
    ∃ dk st, repairFile E burst false f = .ok (some (dk, st)) ∧
      (∀ k ∈ metaCopies (some true) (some d), piece v dk.file k = piece v c k) ∧
      ∀ t, t * (d.data + d.parity) < (payloads E.rs v (some d) (fileChunks v bytes)).length →
        ((∀ j < d.data + d.parity,
          piece v dk.file (placeOf d (t * (d.data + d.parity) + j + 1)) = piece v c (placeOf d (t * (d.data + d.parity) + j + 1))) ↔
          d.data ≤ unchangedIn v d c f t) ∧
        (unchangedIn v d c f t < d.data → ∀ j < d.data + d.parity,
          piece v dk.file (placeOf d (t * (d.data + d.parity) + j + 1)) = piece v f (placeOf d (t * (d.data + d.parity) + j + 1))) := by
  obtain ⟨h1, h2, h3⟩ := shards_ok h.sees.data h.sees.parity
  obtain ⟨-, hps⟩ := payloads_count laws (v := v) h1 h2 h3 bytes
  obtain ⟨dk, st, a1, -, -, a4, a5⟩ := sets_restored laws hE h hdam
  have hkeep : ∀ t, t * (d.data + d.parity) < (payloads E.rs v (some d) (fileChunks v bytes)).length → unchangedIn v d c f t < d.data →
      ∀ j < d.data + d.parity,
        piece v dk.file (placeOf d (t * (d.data + d.parity) + j + 1)) = piece v f (placeOf d (t * (d.data + d.parity) + j + 1)) := by
    intro t ht hlt j hj
    have hin := set_inside laws h1 h2 h3 bytes ht
    have hle := presentIn_unchanged hdam hin
    rw [Nat.succ_mul] at hin
    obtain ⟨p, -, -, hend⟩ := image_data h.container hps (s := t * (d.data + d.parity) + j + 1) (by omega) (by omega)
    exact (C26_lost_sets E laws burst false f v uid mp d h.sees dk st a1 t (by omega) j hj).2 (piece_full (by omega))
  refine ⟨dk, st, a1, a4, fun t ht => ⟨⟨fun hall => ?_, a5 t ht⟩, hkeep t ht⟩⟩
  by_contra hno
  have hall' : ∀ j ∈ List.range (d.data + d.parity), decide (piece v f (placeOf d (t * (d.data + d.parity) + j + 1)) =
      piece v c (placeOf d (t * (d.data + d.parity) + j + 1))) = true := by
    intro j hj
    rw [List.mem_range] at hj
    rw [decide_eq_true_eq, ← hkeep t ht (by omega) j hj]
    exact hall j hj
  have := List.countP_eq_length.2 hall'
  rw [List.length_range] at this
  unfold unchangedIn at hno
  omega

/-- The blocks a repaired file holds: those of the container. -/
theorem block_of_near {E : Env} {v : Version} {uid : Uid} {d : Dpb} {bytes mp : List Byte} {c f g : File}
    (hc : IsContainer E.rs v uid.bytes true (some d) bytes (blockBytes v uid.bytes 0 mp) c)
    (hlen : f.length = c.length) (hdmg : ∀ k, piece v f k = piece v c k ∨ Broken v (piece v f k)) (hn : Near v c f g) {k : Nat}
    {seq : UInt32} {p : List Byte} (hb : IsBlock (piece v g k) v uid seq p) :
    IsBlock (piece v c k) v uid seq p ∧ (piece v g k ≠ piece v f k ∨ piece v f k = piece v c k) := by
  have hal : blockLen v ∣ f.length := by rw [hlen]; exact hc.aligned
  have hf : IsBlock (piece v f k) v uid seq p → piece v f k = piece v c k := fun h =>
    (hdmg k).resolve_right fun e => Broken.not_block e h
  rcases hn.block hb with e | e
  · refine ⟨e ▸ hb, ?_⟩
    by_cases he : piece v g k = piece v f k
    · exact .inr (by rw [← he, e])
    · exact .inl he
  · rw [fill_aligned hal] at e
    exact ⟨hf e ▸ e, .inr (hf e)⟩

/-- **C73, what comes back.** Of a container any blocks are destroyed, in any number and anywhere, except for one of the metadata blocks.
Then `repair` and `decode` give a file of the right length in which every byte of the chunks that can be saved is right, and all other
bytes are zero.  The hash displayed as computed is that of this file, the one displayed as recorded is that of the container. -/
theorem C73_salvage (E : Env) (laws : E.rs.Laws) (hE : E.Calm) (v : Version) (uid : Uid) (d : Dpb) (bytes mp : List Byte) (c f : File)
    (h : Sound E.rs v uid d bytes mp c) (hlen : f.length = c.length)
    (hdmg : ∀ k, piece v f k = piece v c k ∨ Broken v (piece v f k))
    (hmeta : ∃ k ∈ metaCopies (some true) (some d), piece v f k = piece v c k)
    (D : Decode.Env) (hD : D.Calm) (q : Decode.Param) (hq : Decode.Whole q) (hr : Decode.DefaultRef q.ref) (hb : q.ref.burst ≠ none)
    (old : File) :
    ∃ dk st out R, repairFile E (some d.burst) false f = .ok (some (dk, st)) ∧ Decode.toFile D q dk.file old = .ok (out, R) ∧
      out.length = bytes.length ∧ (∀ i < bytes.length,
        (Savable v d c f (i / (blockLen v - 16)) → out[i]? = bytes[i]?) ∧
        (¬ Savable v d c f (i / (blockLen v - 16)) → out[i]? = some 0)) ∧
      R.recorded = firstHsh (metasFromBytes mp) ∧
      ∀ x, firstHsh (metasFromBytes mp) = some x → x.ty.supported = true → R.computed = some (D.hash.bytes x.ty out) := by
  obtain ⟨h1, h2, h3⟩ := shards_ok h.data h.parity
  have hval : Valid (some d) := by intro x hx; cases hx; exact h1
  have hmp : mp.length = blockLen v - 16 := metasToBytes_length h.plain
  obtain ⟨hcnt, hps⟩ := payloads_count laws (v := v) h1 h2 h3 bytes
  obtain ⟨hcase, hdam⟩ := case_of_damage laws hE h hlen hdmg hmeta
  obtain ⟨dk, st, a1, -, a3, a4, a5⟩ := sets_restored laws hE hcase hdam
  have hrs : RsLen E.rs v (some d) := by
    intro x hx sh e1 e2
    cases hx
    exact laws.encode_length _ _ _ _ h1 h2 h3 e1 e2
  have hcons : verConsistent v (some d) = true := by simp [verConsistent, h.rs]
  -- the reference block
  have h0 : (0 : Nat) ∈ metaCopies (some true) (some d) := List.mem_map.2 ⟨0, List.mem_range.2 (by omega), by simp⟩
  have hstart : IsBlock (dk.file.readAt 0 (blockLen v)) v uid 0 mp := by
    have e := a4 0 h0
    unfold piece at e
    rw [Nat.zero_mul] at e
    have e' := h.container.metas 0 h0
    rw [Nat.zero_mul] at e'
    exact ⟨e.trans e', hmp⟩
  have href := Decode.ref_at_start hr hD.stopRef (D.stop 0) hstart
  have hm : (blockOf v uid 0 mp).metas = some (metasFromBytes mp) := Decode.metas_blockOf
  have hdpb : ∃ dpb', dataParBurst q.ref true dk.file (blockOf v uid 0 mp) = .ok dpb' := by
    unfold dataParBurst
    obtain ⟨b, hb'⟩ := Option.ne_none_iff_exists'.1 hb
    rw [if_pos (show (blockOf v uid 0 mp).header.version.usesRs = true from h.rs), getRsd_meta hm, getRsp_meta hm, h.data, h.parity]
    simp only [fieldOrErr, burstOrGuess, hb']
    exact ⟨_, rfl⟩
  obtain ⟨dpb', hd'⟩ := hdpb
  obtain ⟨full, -, hfull⟩ := Decode.decodeFile_whole D hD.lots hD.stop hq (blockOf v uid 0 mp) dk.file old dpb' hd'
  have hok : ∃ R, Decode.toFile D q dk.file old = .ok (Decode.truncated (blockOf v uid 0 mp) full, R) := by
    unfold Decode.toFile; rw [href]; simp only; rw [hfull]; exact ⟨_, rfl⟩
  obtain ⟨R, hR⟩ := hok
  -- the blocks
  obtain ⟨conly, call⟩ := Decode.onlyBlocks_container h.container (fun _ => ⟨mp, rfl, hmp⟩) (fun p hp => by rw [hps p hp]; exact (dataSize_eq v).symm)
    h.numbers (fun _ => rfl)
  have honly : Decode.OnlyBlocksOf E.rs v uid (some d) bytes dk.file := by
    rintro seq p hs ⟨k, hk⟩
    exact conly seq p hs ⟨k, (block_of_near h.container hlen hdmg a3 hk).1⟩
  obtain ⟨o1, o2⟩ := Decode.C23_damage D hD q hq dk.file old _ R hR 0 _ href E.rs v uid (some d) bytes rfl rfl hrs hval hcons _ hm h.sized
    ⟨h.data, h.parity⟩ honly
  have hhash : R.recorded = firstHsh (metasFromBytes mp) ∧
      ∀ x, firstHsh (metasFromBytes mp) = some x → x.ty.supported = true →
        R.computed = some (D.hash.bytes x.ty (Decode.truncated (blockOf v uid 0 mp) full)) := by
    obtain ⟨_, ref', _, _, g1, _, _, g4, g5, g6, -⟩ := Decode.toFile_ok hD hq hR
    rw [href] at g1
    simp only [Except.ok.injEq, Prod.mk.injEq] at g1
    obtain ⟨-, rfl⟩ := g1
    refine ⟨by rw [g5, Decode.refHsh_meta hm], fun x hx hsup => ?_⟩
    rw [g6]
    unfold Decode.hashTypeOf
    rw [Decode.refHsh_meta hm, hx]
    simp [hsup]
  refine ⟨dk, st, _, R, a1, hR, o1, fun i hi => ?_, hhash.1, hhash.2⟩
  obtain ⟨p1, p2⟩ := o2 i hi
  have hu : 0 < blockLen v - 16 := by rw [← dataSize_eq]; exact dataSize_pos v
  obtain ⟨p, hp⟩ := (Decode.payload_bytes (rs := E.rs) hrs hval bytes (i / (blockLen v - 16))).2 (by
    rw [dataSize_eq]
    have := Nat.div_mul_le_self i (blockLen v - 16)
    omega)
  generalize i / (blockLen v - 16) = j at *
  have hlt := (List.getElem?_eq_some_iff.1 hp).1
  have hs1 := Decode.seqOf_pos (some d) j
  have hnum := h.numbers
  unfold lastSeqNum at hnum
  have hmod := Nat.mod_lt j (show 0 < d.data by omega)
  have hseq : Decode.seqOf (some d) j = j / d.data * (d.data + d.parity) + j % d.data + 1 := rfl
  obtain ⟨p', -, hb', hend⟩ := image_data h.container hps (s := Decode.seqOf (some d) j) hs1 (by omega)
  have hset : j / d.data * (d.data + d.parity) < (payloads E.rs v (some d) (fileChunks v bytes)).length := by omega
  constructor
  · intro hsav
    refine p1 ⟨UInt32.ofNat (Decode.seqOf (some d) j), p', ⟨placeOf d (Decode.seqOf (some d) j), ?_⟩, ?_⟩
    · have e : piece v dk.file (placeOf d (Decode.seqOf (some d) j)) = piece v c (placeOf d (Decode.seqOf (some d) j)) := by
        rcases hsav with hk | hk
        · exact a3.kept hend hk
        · exact a5 _ hset hk _ (by omega)
      show IsBlock (piece v dk.file _) v uid _ p'
      rw [e]
      exact hb'
    · rw [UInt32.toNat_ofNat_of_lt' (by show _ < 2 ^ 32; omega)]
      exact (Decode.chunkOf_iff hval).2 rfl
  · intro hno
    refine p2 ?_
    rintro ⟨seq, p'', ⟨k, hk⟩, hch⟩
    rw [Decode.chunkOf_iff hval] at hch
    obtain ⟨b1, b2⟩ := block_of_near h.container hlen hdmg a3 hk
    -- the place is that of the number
    have hin : k * blockLen v < c.length := by
      by_contra hge
      have hl := isBlock_length b1
      rw [show piece v c k = [] from piece_beyond (by omega)] at hl
      have := blockLen_pos v
      simp at hl
      omega
    have hplace : k = placeOf d (Decode.seqOf (some d) j) := by
      rcases not_zeros_data h.container rfl hmp hps k hin with ⟨-, e⟩ | ⟨s, p3, e1, e2, e3, e4⟩ | e
      · have := congrArg UInt32.toNat (isBlock_seq b1 e).1
        rw [hch] at this
        simp at this
        omega
      · have := congrArg UInt32.toNat (isBlock_seq b1 e4).1
        rw [hch, UInt32.toNat_ofNat_of_lt' (by show _ < 2 ^ 32; omega)] at this
        rw [this, e3]
      · rw [e] at b1; exact absurd b1 zeros_not_block
    have hnot : ¬ d.data ≤ unchangedIn v d c f (j / d.data) := fun e => hno (.inr e)
    have hin' := set_inside laws h1 h2 h3 bytes hset
    have hle := presentIn_unchanged hdam hin'
    have hkeep := (C26_lost_sets E laws (some d.burst) false f v uid mp d hcase.sees dk st a1 (j / d.data) (by omega) (j % d.data)
      (by omega)).2 (piece_full (by rw [← hseq]; omega))
    rw [← hseq, ← hplace] at hkeep
    refine hno (.inl ?_)
    unfold ChunkKept
    rw [← hseq, ← hplace]
    exact b2.resolve_left fun e => e hkeep

/-! ### The promise cannot be improved -/

theorem countP_range_le {p : Nat → Bool} {a b : Nat} (h : ∀ j < a, p j = false) : (List.range (a + b)).countP p ≤ b := by
  rw [List.range_add, List.countP_append]
  have h1 : (List.range a).countP p = 0 := by
    rw [List.countP_eq_zero]
    intro j hj
    simp [h j (List.mem_range.1 hj)]
  have h2 := List.countP_le_length (p := p) (l := (List.range b).map (a + ·))
  rw [List.length_map, List.length_range] at h2
  omega

/-- **C73, one burst.** The promise of C12 is exact: one block more than `parity * burst` in a row can cost a set too many blocks (in the first
super block set, where the metadata copies lie between the blocks, `parity` blocks more). -/
theorem C73_sharp (d : Dpb) (hM : 1 ≤ d.data) (hB : 1 ≤ d.burst) (me : Option Bool) (t : Nat) :
    ∃ a, (List.range (d.data + d.parity)).countP
      (fun j => !hit [(a, d.parity * d.burst + (if t < d.burst then d.parity else 0) + 1)]
        (dataWriteIndex (t * (d.data + d.parity) + j + 1) me (some d))) < d.data := by
  obtain ⟨M, N, B⟩ := d
  simp only at *
  have hdm := Nat.div_add_mod t B
  have ha := Nat.mod_lt t (show 0 < B by omega)
  have hq : t / B = 0 ↔ t < B := by rw [Nat.div_eq_zero_iff]; omega
  generalize t / B = q at *
  generalize t % B = a at *
  have hw : ∀ j < M + N, dataWriteIndex (t * (M + N) + j + 1) me (some ⟨M, N, B⟩) = mcount N q j + (M + N) * B * q + (j * B + a) := by
    intro j hj
    have e : t * (M + N) + j + 1 = q * ((M + N) * B) + (a * (M + N) + j) + 1 := by rw [← hdm]; ring
    rw [e, write_form M N B me q a j (by omega) ha hj]
  refine ⟨mcount N q 0 + (M + N) * B * q + a, ?_⟩
  rw [show M + N = (N + 1) + (M - 1) by omega]
  refine lt_of_le_of_lt (countP_range_le fun j hj => ?_) (show M - 1 < M by omega)
  rw [show (N + 1) + (M - 1) = M + N by omega, hw j (by omega)]
  have hjB : j * B ≤ N * B := Nat.mul_le_mul_right _ (by omega)
  simp only [hit, List.any_cons, List.any_nil, Bool.or_false, Bool.not_eq_false', Bool.and_eq_true, decide_eq_true_eq]
  unfold mcount
  by_cases h0 : q = 0
  · rw [if_pos (hq.1 h0), if_pos ⟨h0, by omega⟩, if_pos ⟨h0, by omega⟩]
    omega
  · rw [if_neg (fun h => h0 (hq.2 h)), if_neg (fun h => h0 h.1), if_neg (fun h => h0 h.1)]
    omega

/-- **C73, single blocks.** And `parity + 1` destroyed blocks can be too many. -/
theorem C73_sharp_blocks (d : Dpb) (hM : 1 ≤ d.data) (me : Option Bool) (t : Nat) :
    ∃ places : List Nat, places.length = d.parity + 1 ∧ (List.range (d.data + d.parity)).countP
      (fun j => !hit (places.map fun k => (k, 1)) (dataWriteIndex (t * (d.data + d.parity) + j + 1) me (some d))) < d.data := by
  refine ⟨(List.range (d.parity + 1)).map fun j => dataWriteIndex (t * (d.data + d.parity) + j + 1) me (some d), by simp, ?_⟩
  have e : List.range (d.data + d.parity) = List.range ((d.parity + 1) + (d.data - 1)) := by congr 1; omega
  rw [e]
  refine lt_of_le_of_lt (countP_range_le fun j hj => ?_) (show d.data - 1 < d.data by omega)
  simp only [hit, List.any_map, Bool.not_eq_false', List.any_eq_true, List.mem_range, Function.comp, Bool.and_eq_true, decide_eq_true_eq]
  exact ⟨j, hj, by omega, by omega⟩

/-- Fewer than `data` shards fit several contents. -/
theorem shards_collide (code : List (List Byte) → List (List Byte)) (data parity len : Nat) (hlen : 1 ≤ len)
    (hcode : ∀ ds : List (List Byte), ds.length = data → (∀ x ∈ ds, x.length = len) →
      (code ds).length = parity ∧ ∀ x ∈ code ds, x.length = len) (kept : List Nat) (hk : kept.length < data) :
    ∃ ds ds' : List (List Byte), (ds.length = data ∧ ∀ x ∈ ds, x.length = len) ∧ (ds'.length = data ∧ ∀ x ∈ ds', x.length = len) ∧ ds ≠ ds' ∧
      ∀ j ∈ kept, (ds ++ code ds)[j]? = (ds' ++ code ds')[j]? := by
  let shards : (Fin data → Fin len → Fin 256) → List (List Byte) := fun g => List.ofFn fun i => List.ofFn fun k => UInt8.ofFin (g i k)
  have hs : ∀ g, (shards g).length = data ∧ ∀ x ∈ shards g, x.length = len := by
    intro g
    refine ⟨by simp [shards], fun x hx => ?_⟩
    obtain ⟨i, rfl⟩ := List.mem_ofFn.1 hx
    simp
  have hinj : Function.Injective shards := by
    intro g g' e
    have e := List.ofFn_injective e
    funext i k
    have := congrFun (List.ofFn_injective (congrFun e i)) k
    simpa using congrArg UInt8.toFin this
  let view : (Fin data → Fin len → Fin 256) → Fin kept.length → Fin len → Fin 256 := fun g i k =>
    (((((shards g ++ code (shards g))[kept[i]]?).getD [])[k.1]?).getD 0).toFin
  obtain ⟨g, g', hne, he⟩ := Fintype.exists_ne_map_eq_of_card_lt view (by
    simp only [Fintype.card_fun, Fintype.card_fin]
    exact Nat.pow_lt_pow_right (Nat.one_lt_pow (by omega) (by omega)) hk)
  refine ⟨shards g, shards g', hs g, hs g', fun e => hne (hinj e), fun j hj => ?_⟩
  obtain ⟨i, hi, rfl⟩ := List.getElem_of_mem hj
  have hlen2 : (shards g ++ code (shards g)).length = (shards g' ++ code (shards g')).length := by
    rw [List.length_append, List.length_append, (hs g).1, (hs g').1, (hcode _ (hs g).1 (hs g).2).1,
      (hcode _ (hs g').1 (hs g').2).1]
  have hshard : ∀ g, ∀ x ∈ shards g ++ code (shards g), x.length = len := by
    intro g x hx
    rcases List.mem_append.1 hx with hx | hx
    · exact (hs g).2 x hx
    · exact (hcode _ (hs g).1 (hs g).2).2 x hx
  by_cases hin : kept[i] < (shards g ++ code (shards g)).length
  · have hin' : kept[i] < (shards g' ++ code (shards g')).length := by omega
    rw [List.getElem?_eq_getElem hin, List.getElem?_eq_getElem hin']
    congr 1
    have l1 := hshard g _ (List.getElem_mem hin)
    have l2 := hshard g' _ (List.getElem_mem hin')
    apply List.ext_getElem (by rw [l1, l2])
    intro k k1 k2
    have hv := congrFun (congrFun he ⟨i, hi⟩) ⟨k, by omega⟩
    simp only [view] at hv
    simp only [Fin.getElem_fin] at hv
    rw [List.getElem?_eq_getElem hin, List.getElem?_eq_getElem hin', Option.getD_some, Option.getD_some, List.getElem?_eq_getElem k1,
      List.getElem?_eq_getElem k2, Option.getD_some, Option.getD_some] at hv
    exact UInt8.toFin_inj.1 hv
  · rw [List.getElem?_eq_none (by omega), List.getElem?_eq_none (by omega)]

/-- **C73, no program could do better.** However the parity shards of a set are computed: if fewer than `data` of its shards are known, wherever
they are in the set, no program can tell the contents of the set from them. -/
theorem C73_optimal (code : List (List Byte) → List (List Byte)) (data parity len : Nat) (hlen : 1 ≤ len)
    (hcode : ∀ ds : List (List Byte), ds.length = data → (∀ x ∈ ds, x.length = len) →
      (code ds).length = parity ∧ ∀ x ∈ code ds, x.length = len) (kept : List Nat) (hk : kept.length < data)
    (program : List (Option (List Byte)) → List (List Byte)) :
    ∃ ds : List (List Byte), ds.length = data ∧ (∀ x ∈ ds, x.length = len) ∧
      program (kept.map fun j => (ds ++ code ds)[j]?) ≠ ds := by
  obtain ⟨ds, ds', h1, h2, hne, he⟩ := shards_collide code data parity len hlen hcode kept hk
  have e : (kept.map fun j => (ds ++ code ds)[j]?) = kept.map fun j => (ds' ++ code ds')[j]? := List.map_congr_left he
  by_cases h : program (kept.map fun j => (ds ++ code ds)[j]?) = ds
  · refine ⟨ds', h2.1, h2.2, ?_⟩
    rw [← e, h]
    exact hne
  · exact ⟨ds, h1.1, h1.2, h⟩

/-- **C73, C21, C24.** The same as `C73_salvage`, from the original file on: encoding, destroying blocks (not all of the metadata blocks), repairing, decoding. -/
theorem C73_roundtrip (E : Encode.Env) (p : Encode.Param) (hE : E.Ok p) (hok : p.Ok) (inp : Encode.Input) (hn : Encode.NamesOk p inp)
    (dk : Disk) (rep : Encode.Report) (hrange : inp.file = none ∨ p.fromPos = none ∧ p.toPos = none) (hs : ∀ n, E.stop n = false)
    (henc : Encode.encodeFile E p inp = (dk, .ok rep)) (d : Dpb) (hd : p.dpb = some d)
    (f : File) (hlen : f.length = dk.file.length)
    (hdmg : ∀ k, piece p.version f k = piece p.version dk.file k ∨ Broken p.version (piece p.version f k))
    (hmeta : ∃ k ∈ metaCopies (some true) (some d), piece p.version f k = piece p.version dk.file k)
    (R : Env) (hR : R.Calm) (hrs : R.rs = E.rs)
    (D : Decode.Env) (hD : D.Calm) (q : Decode.Param) (hq : Decode.Whole q) (hr : Decode.DefaultRef q.ref) (hb : q.ref.burst ≠ none) (old : File) :
    ∃ dk' st out rep', repairFile R (some d.burst) false f = .ok (some (dk', st)) ∧ Decode.toFile D q dk'.file old = .ok (out, rep') ∧
      out.length = inp.bytes.length ∧ (∀ i < inp.bytes.length,
        (Savable p.version d dk.file f (i / (blockLen p.version - 16)) → out[i]? = inp.bytes[i]?) ∧
        (¬ Savable p.version d dk.file f (i / (blockLen p.version - 16)) → out[i]? = some 0)) ∧
      rep'.recorded = some (E.hash.bytes p.hashType inp.bytes) := by
  have hme : p.metaEnabled = true := hok.meta (by rw [hd]; simp)
  have hh := Encode.C24_whole_input E p hE hok inp hn dk rep hrange hs henc
  obtain ⟨mb, hc, hrec⟩ := hh.container
  obtain ⟨ms, ⟨mp, hmb, rfl⟩, h2, h3, h4, h5, h6⟩ := hrec hme
  rw [hme] at hc
  have hnum := hh.numbers
  rw [hd] at hc h4 h5 hnum
  rw [hmb.bytes, blockBytes_drop] at h6
  have hcons : p.version.usesRs = true := by
    have := hok.consistent
    rw [hd] at this
    simpa [verConsistent] using this
  obtain ⟨dk', st, out, rep', r1, r2, r3, r4, r5, -⟩ := C73_salvage R (by rw [hrs]; exact hE.laws) hR p.version p.uid d inp.bytes mp dk.file f
    ⟨by rw [hrs, ← hmb.bytes]; exact hc, by rw [hrs]; exact hnum, h6, h2, hcons, h4, h5⟩ hlen hdmg hmeta D hD q hq hr hb old
  exact ⟨dk', st, out, rep', r1, r2, r3, r4, by rw [r5, h3]⟩

/-! ### Instances -/

/-- The container of 1000 bytes in one set of 10 data and 2 parity blocks, of which the first data block and two others have been lost. -/
theorem demo_lost_set {mp : List Byte} {c : File} (h : Sound RsWitness.codec .v17 demoOwner demoDpb (List.replicate 1000 7) mp c) :
    ∃ f : File, f.length = c.length ∧ (∀ k, piece .v17 f k = piece .v17 c k ∨ Broken .v17 (piece .v17 f k)) ∧ piece .v17 f 0 = piece .v17 c 0 ∧
      ¬ Savable .v17 demoDpb c f 0 ∧ Savable .v17 demoDpb c f 1 ∧ unchangedIn .v17 demoDpb c f 0 < 10 := by
  have hal := h.container.aligned
  obtain ⟨hcnt, hps⟩ := payloads_count RsWitness.codec_laws (v := .v17) (d := demoDpb) (by decide) (by decide) (by decide)
    (List.replicate 1000 7)
  have hc12 : (payloads RsWitness.codec .v17 (some demoDpb) (fileChunks .v17 (List.replicate 1000 7))).length = 12 := by
    rw [hcnt, List.length_replicate]; decide
  have hin : ∀ s, 1 ≤ s → s ≤ 12 → (placeOf demoDpb s + 1) * blockLen .v17 ≤ c.length ∧
      piece .v17 c (placeOf demoDpb s) ≠ List.replicate (blockLen .v17) 0 := by
    intro s h1 h2
    obtain ⟨p, -, hb, hend⟩ := image_data h.container hps (s := s) h1 (by omega)
    refine ⟨hend, fun e => ?_⟩
    rw [e] at hb
    exact zeros_not_block hb
  obtain ⟨a1, a2, a3⟩ := wipe_spec (k := placeOf demoDpb 1) hal (hin 1 (by omega) (by omega)).1
  obtain ⟨b1, b2, b3⟩ := wipe_spec (c := wipe .v17 c (placeOf demoDpb 1)) (k := placeOf demoDpb 5) (by rw [a1]; exact hal)
    (by rw [a1]; exact (hin 5 (by omega) (by omega)).1)
  obtain ⟨c1, c2, c3⟩ := wipe_spec (c := wipe .v17 (wipe .v17 c (placeOf demoDpb 1)) (placeOf demoDpb 5)) (k := placeOf demoDpb 6)
    (by rw [b1, a1]; exact hal) (by rw [b1, a1]; exact (hin 6 (by omega) (by omega)).1)
  have n15 : placeOf demoDpb 1 ≠ placeOf demoDpb 5 := by decide
  have n16 : placeOf demoDpb 1 ≠ placeOf demoDpb 6 := by decide
  have n56 : placeOf demoDpb 5 ≠ placeOf demoDpb 6 := by decide
  generalize hf : wipe .v17 (wipe .v17 (wipe .v17 c (placeOf demoDpb 1)) (placeOf demoDpb 5)) (placeOf demoDpb 6) = f at *
  have f1 : piece .v17 f (placeOf demoDpb 1) = List.replicate (blockLen .v17) 0 := by rw [c3 _ n16, b3 _ n15, a2]
  have f5 : piece .v17 f (placeOf demoDpb 5) = List.replicate (blockLen .v17) 0 := by rw [c3 _ n56, b2]
  have hkeep : ∀ k, k ≠ placeOf demoDpb 1 → k ≠ placeOf demoDpb 5 → k ≠ placeOf demoDpb 6 → piece .v17 f k = piece .v17 c k := by
    intro k k1 k5 k6
    rw [c3 k k6, b3 k k5, a3 k k1]
  have hne : ∀ s, 1 ≤ s → s ≤ 12 → piece .v17 f (placeOf demoDpb s) = List.replicate (blockLen .v17) 0 →
      piece .v17 f (placeOf demoDpb s) ≠ piece .v17 c (placeOf demoDpb s) := by
    intro s h1 h2 e e'
    exact (hin s h1 h2).2 (by rw [← e', e])
  have hlt : unchangedIn .v17 demoDpb c f 0 < 10 := by
    have e : unchangedIn .v17 demoDpb c f 0 =
        (List.range 12).countP fun j => decide (piece .v17 f (placeOf demoDpb (j + 1)) = piece .v17 c (placeOf demoDpb (j + 1))) := by
      unfold unchangedIn
      refine List.countP_congr fun j _ => ?_
      rw [show 0 * (demoDpb.data + demoDpb.parity) + j + 1 = j + 1 by omega]
    rw [e]
    have g1 := hne 1 (by omega) (by omega) f1
    have g5 := hne 5 (by omega) (by omega) f5
    have g6 := hne 6 (by omega) (by omega) c2
    have h12 : List.range 12 = [0, 1, 2, 3, 4, 5, 6, 7, 8, 9, 10, 11] := by decide
    rw [h12, show [0, 1, 2, 3, 4, 5, 6, 7, 8, 9, 10, 11] = [0] ++ ([1, 2, 3] ++ ([4, 5] ++ [6, 7, 8, 9, 10, 11])) from rfl,
      List.countP_append, List.countP_append, List.countP_append]
    have l1 := List.countP_le_length (l := [1, 2, 3]) (p := fun j => decide (piece .v17 f (placeOf demoDpb (j + 1)) = piece .v17 c (placeOf demoDpb (j + 1))))
    have l2 := List.countP_le_length (l := [6, 7, 8, 9, 10, 11]) (p := fun j => decide (piece .v17 f (placeOf demoDpb (j + 1)) = piece .v17 c (placeOf demoDpb (j + 1))))
    have l3 : ([0] : List Nat).countP (fun j => decide (piece .v17 f (placeOf demoDpb (j + 1)) = piece .v17 c (placeOf demoDpb (j + 1)))) = 0 := by
      simp [g1]
    have l4 : ([4, 5] : List Nat).countP (fun j => decide (piece .v17 f (placeOf demoDpb (j + 1)) = piece .v17 c (placeOf demoDpb (j + 1)))) = 0 := by
      simp [g5, g6]
    simp only [List.length_cons, List.length_nil] at l1 l2
    omega
  refine ⟨f, by rw [c1, b1, a1], fun k => ?_, hkeep 0 (by decide) (by decide) (by decide), ?_, .inl (hkeep _ (by decide) (by decide) (by decide)), hlt⟩
  · by_cases h1 : k = placeOf demoDpb 1
    · rw [h1, f1]; exact .inr (.inl (dead_zeros _))
    · by_cases h5 : k = placeOf demoDpb 5
      · rw [h5, f5]; exact .inr (.inl (dead_zeros _))
      · by_cases h6 : k = placeOf demoDpb 6
        · rw [h6, c2]; exact .inr (.inl (dead_zeros _))
        · exact .inl (hkeep k h1 h5 h6)
  · rintro (e | e)
    · exact hne 1 (by omega) (by omega) f1 e
    · have : unchangedIn .v17 demoDpb c f (0 / demoDpb.data) < demoDpb.data := hlt
      omega

/-- C73: the first of three chunks is lost and the others come back. -/
example : ∃ mp c f dk st out R, Sound RsWitness.codec .v17 demoOwner demoDpb (List.replicate 1000 7) mp c ∧
    repairFile demoEnv (some 3) false f = .ok (some (dk, st)) ∧
    Decode.toFile Decode.calmEnv ⟨⟨.prefer .metadata, none, none, none, none, none, false, some 3⟩, none⟩ dk.file [] = .ok (out, R) ∧
    out[0]? = some 0 ∧ out[600]? = some 7 := by
  obtain ⟨mp, c, h⟩ := demo_sound
  obtain ⟨f, f1, f2, f3, f4, f5, -⟩ := demo_lost_set h
  obtain ⟨dk, st, out, R, r1, r2, -, r4, -⟩ := C73_salvage demoEnv demo_laws demo_calm .v17 demoOwner demoDpb _ mp c f h f1 f2
    ⟨0, by decide, f3⟩ Decode.calmEnv Decode.calm ⟨⟨.prefer .metadata, none, none, none, none, none, false, some 3⟩, none⟩ ⟨rfl, rfl, rfl⟩
    ⟨rfl, rfl, rfl, .inr (.inl rfl)⟩ (by simp) []
  rw [List.length_replicate] at r4
  have e0 := (r4 0 (by omega)).2 (by rw [show 0 / (blockLen .v17 - 16) = 0 from Nat.zero_div _]; exact f4)
  have e1 := (r4 600 (by omega)).1 (by rw [show 600 / (blockLen .v17 - 16) = 1 by decide]; exact f5)
  exact ⟨mp, c, f, dk, st, out, R, h, r1, r2, e0, by rw [e1, List.getElem?_replicate, if_pos (by omega)]⟩

/-- C73_per_set: the set is left alone. -/
example : ∃ mp c f dk st, Sound RsWitness.codec .v17 demoOwner demoDpb (List.replicate 1000 7) mp c ∧
    repairFile demoEnv (some 3) false f = .ok (some (dk, st)) ∧
    ∀ j < 12, piece .v17 dk.file (placeOf demoDpb (0 * 12 + j + 1)) = piece .v17 f (placeOf demoDpb (0 * 12 + j + 1)) := by
  obtain ⟨mp, c, h⟩ := demo_sound
  obtain ⟨f, f1, f2, f3, -, -, f6⟩ := demo_lost_set h
  obtain ⟨h1, h2⟩ := case_of_damage demo_laws demo_calm (E := demoEnv) h f1 f2 ⟨0, by decide, f3⟩
  obtain ⟨dk, st, r1, -, r3⟩ := C73_per_set demoEnv demo_laws demo_calm (some 3) .v17 demoOwner demoDpb _ mp c f h1 f1 h2
  obtain ⟨hcnt, -⟩ := payloads_count RsWitness.codec_laws (v := .v17) (d := demoDpb) (by decide) (by decide) (by decide) (List.replicate 1000 7)
  exact ⟨mp, c, f, dk, st, h, r1, (r3 0 (by
    show 0 * 12 < (payloads RsWitness.codec .v17 (some demoDpb) (fileChunks .v17 (List.replicate 1000 7))).length
    rw [hcnt, List.length_replicate]; decide)).2 f6⟩

/-- C73_sharp: five blocks in a row leave one of the four blocks of set 2 of a (2, 2) setting with burst level 2. -/
example : (List.range 4).countP (fun j => !hit [(11, 2 * 2 + 1)] (dataWriteIndex (2 * 4 + j + 1) none (some ⟨2, 2, 2⟩))) = 1 := by decide

/-- C73_optimal: two data bytes and their sum; one of the three is known. -/
example (program : List (Option (List Byte)) → List (List Byte)) : ∃ ds : List (List Byte), ds.length = 2 ∧ (∀ x ∈ ds, x.length = 1) ∧
    program ([2].map fun j => (ds ++ [[(ds.map fun x => x.sum).sum]])[j]?) ≠ ds :=
  C73_optimal (fun ds => [[(ds.map fun x => x.sum).sum]]) 2 1 1 (by omega) (fun ds _ _ => by simp) [2] (by simp) program

end Verif.Repair
