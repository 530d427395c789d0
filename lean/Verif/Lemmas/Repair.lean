import Verif.Model.Repair
import Verif.Spec.Repair
import Verif.Lemmas.Guess
import Verif.Lemmas.FileBlocks
import Verif.Lemmas.Container
/-!
# What `repair` does, block by block
-/

namespace Verif.Repair
open Format RepairSpec Scan Layout LayoutSpec
open Classical

/-- One block read. -/
def Stats.read (s : Stats) (ok : Bool) : Stats :=
  if ok then { s with dataDecoded := s.dataDecoded + 1 } else { s with failed := s.failed + 1 }

/-- One set treated. -/
def Stats.set (s : Stats) (ok : Bool) (missing : Nat) : Stats :=
  if ok then { s with dataRepaired := s.dataRepaired + missing } else { s with repairFailed := s.repairFailed + missing }

theorem isBlock_payload {buf : List Byte} {v : Version} {uid : Uid} {seq : UInt32} {p : List Byte} (h : IsBlock buf v uid seq p) :
    buf.drop 16 = p := by
  rw [h.bytes, blockBytes_drop]

theorem piece_length_le (v : Version) (f : File) (k : Nat) : (piece v f k).length ≤ blockLen v := by
  unfold piece; rw [File.readAt_length]; omega

theorem dataPos_eq (v : Version) (d : Dpb) (seq : Nat) (f : File) :
    f.readAt (dataWritePos v seq none (some d)) v.blockSize = piece v f (placeOf d seq) := by
  unfold piece placeOf dataWritePos
  rw [blockLen_eq]

theorem mark_eq (ref : Block) (d : Dpb) (seq : Nat) (hs : 1 ≤ seq) (hs' : seq < 2 ^ 32) (g : File) (s : DataSt) :
    ∃ b, mark ref seq (piece ref.header.version g (placeOf d seq)) s =
      ⟨s.disk, (s.codec.load (piece ref.header.version g (placeOf d seq))).mark
        (decide (Present ref.header.version ref.header.uid d g seq)), b,
        s.stats.read (decide (Present ref.header.version ref.header.uid d g seq))⟩ := by
  unfold mark
  simp only
  have hle := piece_length_le ref.header.version g (placeOf d seq)
  by_cases hp : Present ref.header.version ref.header.uid d g seq
  · rw [decide_eq_true hp]
    obtain ⟨payload, hb⟩ := hp
    rw [if_neg (by rw [isBlock_length hb, blockLen_eq]; omega)]
    have hr := (Block.syncFrom_none s.block _ (some (sameVerUid ref)) _).2 ((readSame_iff hle).2 ⟨_, _, hb, rfl⟩)
    rw [hr]
    simp only
    have h0 : (UInt32.ofNat seq).toNat = seq := UInt32.toNat_ofNat_of_lt' hs'
    have hne : ¬ UInt32.ofNat seq = 0 := by
      intro h; rw [h] at h0; simp at h0; omega
    rw [if_neg (by show ¬ (UInt32.ofNat seq).toNat ≠ seq; rw [h0]; simp), if_neg (by simp [Block.blockType, blockOf, hne])]
    exact ⟨_, rfl⟩
  · rw [decide_eq_false hp]
    split
    · exact ⟨_, rfl⟩
    · split
      · exact ⟨_, rfl⟩
      · rename_i b hr
        rw [Block.syncFrom_none, readSame_iff hle] at hr
        obtain ⟨sq, payload, hb, rfl⟩ := hr
        split
        · exact ⟨_, rfl⟩
        · rename_i hne
          exfalso
          have e : sq.toNat = seq := Decidable.of_not_not hne
          subst e
          refine hp ⟨payload, ?_⟩
          rw [UInt32.ofNat_toNat]
          exact hb

/-- The codec after `i` blocks of the `t`-th set have been read. -/
structure Loaded (v : Version) (uid : Uid) (d : Dpb) (g : File) (t i : Nat) (c : Codec) : Prop where
  index : c.index = i
  bufs : c.buf.length = d.data + d.parity
  flags : c.present.length = d.data + d.parity
  sized : ∀ b ∈ c.buf, b.length = blockLen v
  version : c.ref.header.version = v
  owner : c.ref.header.uid = uid
  flag : ∀ j < i, c.present[j]? = some (decide (Present v uid d g (t * (d.data + d.parity) + j + 1)))
  bytes : ∀ j < i, Present v uid d g (t * (d.data + d.parity) + j + 1) →
    c.buf[j]? = some (piece v g (placeOf d (t * (d.data + d.parity) + j + 1)))

theorem Loaded.change {v : Version} {uid : Uid} {d : Dpb} {g g' : File} {t t' : Nat} {c : Codec} (h : Loaded v uid d g t 0 c) :
    Loaded v uid d g' t' 0 c :=
  { h with flag := by intro j hj; omega, bytes := by intro j hj; omega }

theorem Loaded.read {v : Version} {uid : Uid} {d : Dpb} {g : File} {t i : Nat} {c : Codec} (h : Loaded v uid d g t i c)
    (hi : i < d.data + d.parity) :
    Loaded v uid d g t (i + 1) ((c.load (piece v g (placeOf d (t * (d.data + d.parity) + i + 1)))).mark
      (decide (Present v uid d g (t * (d.data + d.parity) + i + 1)))) := by
  have hle := piece_length_le v g (placeOf d (t * (d.data + d.parity) + i + 1))
  refine ⟨?_, ?_, ?_, ?_, h.version, h.owner, ?_, ?_⟩
  · show c.index + 1 = i + 1
    rw [h.index]
  · show (c.buf.modify _ _).length = _
    rw [List.length_modify, h.bufs]
  · show (c.present.set _ _).length = _
    rw [List.length_set, h.flags]
  · show ∀ b ∈ c.buf.modify _ _, _
    intro b hb
    obtain ⟨j, hj⟩ := List.mem_iff_getElem?.1 hb
    rw [List.getElem?_modify, Option.map_eq_map, Option.map_eq_some_iff] at hj
    obtain ⟨a, ha, rfl⟩ := hj
    have hal := h.sized a (List.mem_of_getElem? ha)
    split
    · rw [List.length_append, List.length_drop]; omega
    · exact hal
  · intro j hj
    show (c.present.set c.index _)[j]? = _
    rw [List.getElem?_set, h.index]
    split
    · rename_i e; subst e; rw [if_pos (by rw [h.flags]; exact hi)]
    · exact h.flag j (by omega)
  · intro j hj hp
    show (c.buf.modify c.index _)[j]? = _
    rw [List.getElem?_modify, Option.map_eq_map, h.index]
    by_cases e : i = j
    · subst e
      rw [List.getElem?_eq_getElem (by rw [h.bufs]; exact hi)]
      simp only [Option.map_some, if_true, Option.some.injEq]
      obtain ⟨payload, hb⟩ := hp
      have hl := isBlock_length hb
      have := h.sized (c.buf[i]'(by rw [h.bufs]; exact hi)) (List.getElem_mem _)
      rw [List.drop_eq_nil_of_le (by omega), List.append_nil]
    · simp only [if_neg e, Option.map_id']
      exact h.bytes j (by omega) hp

/-- Headers for the missing blocks. -/
theorem resync_spec {v : Version} {uid : Uid} (n first : Nat) (hfirst : 1 ≤ first) (hlast : first + n ≤ 2 ^ 32) :
    ∀ (is : List Nat) (c : Codec), is.Nodup → (∀ i ∈ is, i < n) → c.buf.length = n → c.present.length = n →
      (∀ b ∈ c.buf, b.length = blockLen v) → c.ref.header.version = v → c.ref.header.uid = uid →
      ∃ c', Codec.resync first is c = .ok c' ∧ c'.present = c.present ∧ c'.index = c.index ∧ c'.buf.length = n ∧
        (∀ b ∈ c'.buf, b.length = blockLen v) ∧ c'.ref.header.version = v ∧ c'.ref.header.uid = uid ∧
        ∀ i b, c.buf[i]? = some b → c'.buf[i]? = some
          (if i ∈ is ∧ c.present[i]? = some false then blockBytes v uid.bytes (UInt32.ofNat (first + i)) (b.drop 16) else b) := by
  intro is
  induction is with
  | nil => intro c _ _ h1 _ h3 h4 h5; exact ⟨c, rfl, rfl, rfl, h1, h3, h4, h5, by intro i b hb; simpa using hb⟩
  | cons i is ih =>
    intro c hnd hlt h1 h2 h3 h4 h5
    rw [List.nodup_cons] at hnd
    have hin : i < n := hlt i (by simp)
    obtain ⟨q, hq⟩ : ∃ q, c.present[i]? = some q := ⟨_, List.getElem?_eq_getElem (by omega)⟩
    obtain ⟨b, hb⟩ : ∃ b, c.buf[i]? = some b := ⟨_, List.getElem?_eq_getElem (by omega)⟩
    have hbl := h3 b (List.mem_of_getElem? hb)
    rw [Codec.resync, hq, hb]
    cases q with
    | true =>
      simp only
      obtain ⟨c', r1, r2, r3, r4, r5, r6, r7, r8⟩ := ih c hnd.2 (fun j hj => hlt j (by simp [hj])) h1 h2 h3 h4 h5
      refine ⟨c', r1, r2, r3, r4, r5, r6, r7, ?_⟩
      intro j x hx
      rw [r8 j x hx]
      congr 1
      by_cases hj : j = i
      · subst hj; simp [hq]
      · simp [hj]
    | false =>
      simp only
      have hsq : (UInt32.ofNat (first + i)).toNat = first + i := UInt32.toNat_ofNat_of_lt' (by show _ < 2 ^ 32; omega)
      have hne : ¬ UInt32.ofNat (first + i) = 0 := by intro h; rw [h] at hsq; simp at hsq; omega
      have hh : (c.ref.setSeq (UInt32.ofNat (first + i))).header = { c.ref.header with seq := UInt32.ofNat (first + i) } := by
        unfold Block.setSeq; rw [Block.matchHeader_header]
      have ht : (c.ref.setSeq (UInt32.ofNat (first + i))).data = .data := by
        have := Block.matchHeader_type { c.ref with header := { c.ref.header with seq := UInt32.ofNat (first + i) } }
        rw [Block.type_eq] at this
        simp only [hne, if_false] at this
        unfold Block.setSeq
        revert this
        generalize Block.matchHeader _ = m
        intro hm
        unfold Block.blockType at hm
        cases hd : m.data with
        | data => rfl
        | metadata ms => rw [hd] at hm; simp at hm
      have hsz : (c.ref.setSeq (UInt32.ofNat (first + i))).size = blockLen v := by
        unfold Block.size; rw [hh, blockLen_eq]; exact congrArg _ h4
      rw [Block.syncTo_data _ _ ht (by rw [hsz, hbl])]
      simp only
      have hpay : (c.ref.setSeq (UInt32.ofNat (first + i))).payload b = b.drop 16 := by
        unfold Block.payload; rw [hsz, List.take_of_length_le (by omega)]
      rw [hpay, hsz, List.drop_eq_nil_of_le (show b.length ≤ blockLen v by omega), List.append_nil, hh]
      simp only [h4, h5]
      have h16 : 16 ≤ blockLen v := by cases v <;> decide
      obtain ⟨c', r1, r2, r3, r4, r5, r6, r7, r8⟩ := ih
        ⟨c.index, c.buf.set i (blockBytes v uid.bytes (UInt32.ofNat (first + i)) (b.drop 16)), c.present,
          (c.ref.setSeq (UInt32.ofNat (first + i))).updateCrc b⟩ hnd.2
        (fun j hj => hlt j (by simp [hj])) (by simpa using h1) h2 (by
          intro x hx
          rcases List.mem_or_eq_of_mem_set hx with hx | rfl
          · exact h3 x hx
          · rw [blockBytes_length, List.length_drop]; omega)
        (by show (c.ref.setSeq _).header.version = v; rw [hh]; exact h4) (by show (c.ref.setSeq _).header.uid = uid; rw [hh]; exact h5)
      refine ⟨c', r1, r2, r3, r4, r5, r6, r7, ?_⟩
      intro j x hx
      by_cases hj : j = i
      · subst hj
        rw [hb] at hx
        cases hx
        rw [r8 j _ (by rw [List.getElem?_set]; rw [if_pos rfl, if_pos (by omega)]), if_neg (by simp [hnd.1]), if_pos (by simp [hq])]
      · rw [r8 j x (by simp only [List.getElem?_set]; rw [if_neg (fun e => hj e.symm)]; exact hx)]
        simp [hj]

/-- What treating a set writes. -/
def SetWrites (rs : RsCodec) (v : Version) (uid : Uid) (d : Dpb) (g : File) (t : Nat) (ok : Bool) (ws : List (Nat × List Byte)) : Prop :=
  (ok = true ↔ d.data ≤ presentIn v uid d g t) ∧
  (ok = false → ws = []) ∧
  (ok = true → ∃ out : List (List Byte), out.length = d.data + d.parity ∧ (∀ x ∈ out, x.length = blockLen v - 16) ∧
    (∀ ds : List (List Byte), ds.length = d.data → (∀ x ∈ ds, x.length = blockLen v - 16) →
      (∀ j payload, IsBlock (piece v g (placeOf d (t * (d.data + d.parity) + j + 1))) v uid
        (UInt32.ofNat (t * (d.data + d.parity) + j + 1)) payload → j < d.data + d.parity →
        (ds ++ rs.encode d.data d.parity ds)[j]? = some payload) → out = ds ++ rs.encode d.data d.parity ds) ∧
    ws = (List.range (d.data + d.parity)).filterMap fun j =>
      if Present v uid d g (t * (d.data + d.parity) + j + 1) then none
      else (out[j]?).map fun o => (placeOf d (t * (d.data + d.parity) + j + 1) * blockLen v,
        blockBytes v uid.bytes (UInt32.ofNat (t * (d.data + d.parity) + j + 1)) o))

theorem count_flags {v : Version} {uid : Uid} {d : Dpb} {g : File} {t : Nat} {c : Codec}
    (h : Loaded v uid d g t (d.data + d.parity) c) : c.present.countP (· = true) = presentIn v uid d g t := by
  have : c.present = (List.range (d.data + d.parity)).map fun j => decide (Present v uid d g (t * (d.data + d.parity) + j + 1)) := by
    apply List.ext_getElem?
    intro j
    by_cases hj : j < d.data + d.parity
    · rw [h.flag j hj, List.getElem?_map, List.getElem?_range hj]; rfl
    · rw [List.getElem?_eq_none (by rw [h.flags]; omega), List.getElem?_eq_none (by simp; omega)]
  rw [this, List.countP_map]
  unfold presentIn
  congr 1
  funext j
  simp

theorem presentIn_le (v : Version) (uid : Uid) (d : Dpb) (g : File) (t : Nat) : presentIn v uid d g t ≤ d.data + d.parity := by
  unfold presentIn
  exact List.countP_le_length.trans (by simp)

/-- Treating a set. -/
theorem repair_spec {rs : RsCodec} (laws : rs.Laws) {v : Version} {uid : Uid} {d : Dpb} (h1 : 1 ≤ d.data) (h2 : 1 ≤ d.parity)
    (h3 : d.data + d.parity ≤ 256) {g : File} {t : Nat} {c : Codec} (h : Loaded v uid d g t (d.data + d.parity) c)
    (hlast : (t + 1) * (d.data + d.parity) < 2 ^ 32) :
    ∃ c' ok ws, c.repair rs v d ((t + 1) * (d.data + d.parity)) =
        .ok (c', ok, d.data + d.parity - presentIn v uid d g t, ws) ∧
      SetWrites rs v uid d g t ok ws ∧ ∀ g' t', Loaded v uid d g' t' 0 c' := by
  have hn : 0 < d.data + d.parity := by omega
  have hge := size_ge v
  rw [← blockLen_eq] at hge
  have hq : ((t + 1) * (d.data + d.parity) - 1) / (d.data + d.parity) = t := by
    rw [Nat.succ_mul, Nat.div_eq_of_lt_le]
    · omega
    · rw [Nat.succ_mul]; omega
  have hmul : (t + 1) * (d.data + d.parity) = t * (d.data + d.parity) + (d.data + d.parity) := Nat.succ_mul _ _
  have hcnt := count_flags h
  have hshl : c.shards.length = d.data + d.parity := by
    unfold Codec.shards; rw [List.length_map, List.length_zip, h.bufs, h.flags]; omega
  have hshs : ∀ x ∈ c.shards, x.1.length = blockLen v - 16 := by
    intro x hx
    unfold Codec.shards at hx
    rw [List.mem_map] at hx
    obtain ⟨y, hy, rfl⟩ := hx
    rw [List.length_drop, h.sized _ (List.of_mem_zip hy).1]
  have hshc : c.shards.countP (·.2) = presentIn v uid d g t := by
    rw [← hcnt]
    unfold Codec.shards
    rw [List.countP_map]
    have hz : c.present = (c.buf.zip c.present).map (·.2) := by
      rw [List.map_snd_zip (by rw [h.bufs, h.flags])]
    conv_rhs => rw [hz]
    rw [List.countP_map]
    congr 1
    funext x
    simp
  have hshi : ∀ (j : Nat) (x : List Byte × Bool), c.shards[j]? = some x → ∃ b : List Byte, c.buf[j]? = some b ∧ x.1 = b.drop 16 ∧ c.present[j]? = some x.2 := by
    intro j x hx
    unfold Codec.shards at hx
    rw [List.getElem?_map, Option.map_eq_some_iff] at hx
    obtain ⟨⟨a, b⟩, hy, rfl⟩ := hx
    rw [List.getElem?_zip_eq_some] at hy
    exact ⟨a, hy.1, rfl, hy.2⟩
  unfold Codec.repair
  simp only
  rw [hq]
  by_cases hk : d.data ≤ presentIn v uid d g t
  · obtain ⟨out, ho, hol, hos⟩ := laws.reconstruct_some d.data d.parity (blockLen v - 16) c.shards h1 h2 h3 (by omega) hshl hshs
      (by rw [hshc]; exact hk)
    rw [ho]
    simp only
    have hzl : (List.zipWith (fun (b o : List Byte) => b.take 16 ++ o) c.buf out).length = d.data + d.parity := by
      rw [List.length_zipWith, h.bufs, hol]; omega
    have hzi : ∀ (j : Nat) b o, c.buf[j]? = some b → out[j]? = some o →
        (List.zipWith (fun (b o : List Byte) => b.take 16 ++ o) c.buf out)[j]? = some (b.take 16 ++ o) := by
      intro j b o hb ho
      rw [List.getElem?_zipWith, hb, ho]
    obtain ⟨c', r1, r2, r3, r4, r5, r6, r7, r8⟩ := resync_spec (v := v) (uid := uid) (d.data + d.parity) (t * (d.data + d.parity) + 1)
      (by omega) (by omega) (List.range (d.data + d.parity))
      { c with buf := List.zipWith (fun (b o : List Byte) => b.take 16 ++ o) c.buf out } List.nodup_range (by simp) hzl h.flags (by
        intro b hb
        obtain ⟨j, hj⟩ := List.mem_iff_getElem?.1 hb
        rw [List.getElem?_zipWith] at hj
        split at hj
        · rename_i b' o hb' ho'
          simp only [Option.some.injEq] at hj
          rw [← hj, List.length_append, List.length_take, h.sized _ (List.mem_of_getElem? hb'), hos _ (List.mem_of_getElem? ho')]
          omega
        · simp at hj) h.version h.owner
    rw [r1]
    simp only
    refine ⟨{ c' with index := 0 }, true, _, ?_, ⟨by simp [hk], by simp, fun _ => ⟨out, hol, hos, ?_, rfl⟩⟩, ?_⟩
    · congr 3
      unfold Codec.missing
      rw [r2]
      show (d.data + d.parity - c.present.countP _, _) = _
      rw [hcnt]
      congr 1
      unfold Codec.repaired
      apply List.filterMap_congr
      intro j hj
      rw [List.mem_range] at hj
      obtain ⟨b, hb⟩ : ∃ b, c.buf[j]? = some b := ⟨_, List.getElem?_eq_getElem (by rw [h.bufs]; exact hj)⟩
      obtain ⟨o, hoj⟩ : ∃ o, out[j]? = some o := ⟨_, List.getElem?_eq_getElem (by rw [hol]; exact hj)⟩
      have hb' := r8 j _ (hzi j b o hb hoj)
      rw [r2, hb']
      simp only
      rw [h.flag j hj]
      by_cases hp : Present v uid d g (t * (d.data + d.parity) + j + 1)
      · rw [decide_eq_true hp, if_pos hp]
      · rw [decide_eq_false hp, if_neg hp, hoj]
        simp only [Option.map_some, Option.some.injEq, Prod.mk.injEq]
        have e : t * (d.data + d.parity) + 1 + j = t * (d.data + d.parity) + j + 1 := by omega
        refine ⟨?_, ?_⟩
        · unfold dataWritePos placeOf; rw [e, blockLen_eq]
        · rw [if_pos (by
            refine ⟨List.mem_range.2 hj, ?_⟩
            trivial), List.drop_left' (by
              rw [List.length_take, h.sized _ (List.mem_of_getElem? hb)]; omega), e]
    · intro ds hds hdss hfit
      have := laws.reconstruct_ok d.data d.parity (blockLen v - 16) ds c.shards h1 h2 h3 (by omega) hds hdss hshl hshs (by
        intro j x hx
        obtain ⟨b, hb, hxb, hf⟩ := hshi j _ hx
        simp only at hxb hf
        have hj : j < d.data + d.parity := by rw [← h.bufs]; exact (List.getElem?_eq_some_iff.1 hb).1
        rw [h.flag j hj] at hf
        simp only [Option.some.injEq, decide_eq_true_eq] at hf
        have hb2 := h.bytes j hj hf
        rw [hb] at hb2
        cases hb2
        obtain ⟨payload, hp⟩ := hf
        rw [hfit j payload hp hj, hxb, isBlock_payload hp]) (by rw [hshc]; exact hk)
      rw [ho] at this
      exact Option.some.inj this
    · intro g' t'
      exact ⟨rfl, r4, by show c'.present.length = _; rw [r2]; exact h.flags, r5, r6, r7, by intro j hj; omega, by intro j hj; omega⟩
  · rw [laws.reconstruct_err _ _ _ (by rw [hshc]; omega)]
    refine ⟨{ c with index := 0 }, false, [], ?_, ⟨by simp [hk], by simp, by simp⟩, ?_⟩
    · unfold Codec.missing
      rw [hcnt]
    · intro g' t'
      exact ⟨rfl, h.bufs, h.flags, h.sized, h.version, h.owner, by intro j hj; omega, by intro j hj; omega⟩

/-- The data loop seen from outside: after `m` blocks, starting from `dk0` and `st0`. -/
inductive Run (rs : RsCodec) (v : Version) (uid : Uid) (d : Dpb) (dry : Bool) (dk0 : Disk) (st0 : Stats) : Nat → Disk → Stats → Prop
  | start : Run rs v uid d dry dk0 st0 0 dk0 st0
  | read (m : Nat) (dk : Disk) (st : Stats) : Run rs v uid d dry dk0 st0 m dk st → (m + 1) % (d.data + d.parity) ≠ 0 →
      Run rs v uid d dry dk0 st0 (m + 1) dk (st.read (decide (Present v uid d dk.file (m + 1))))
  | set (t m : Nat) (dk : Disk) (st : Stats) (ok : Bool) (ws : List (Nat × List Byte)) : Run rs v uid d dry dk0 st0 m dk st →
      m + 1 = (t + 1) * (d.data + d.parity) → SetWrites rs v uid d dk.file t ok ws →
      Run rs v uid d dry dk0 st0 (m + 1) (if dry then dk else dk.writes ws)
        ((st.read (decide (Present v uid d dk.file (m + 1)))).set ok (d.data + d.parity - presentIn v uid d dk.file t))

theorem Run.blocks {rs : RsCodec} {v : Version} {uid : Uid} {d : Dpb} {dry : Bool} {dk0 dk : Disk} {st0 st : Stats} {m : Nat}
    (h : Run rs v uid d dry dk0 st0 m dk st) : st.blocks = st0.blocks + m := by
  have hr : ∀ (s : Stats) b, (s.read b).blocks = s.blocks + 1 := by
    intro s b; cases b <;> simp [Stats.read, Stats.blocks] <;> omega
  have hs : ∀ (s : Stats) b n, (s.set b n).blocks = s.blocks := by
    intro s b n; cases b <;> simp [Stats.set, Stats.blocks]
  induction h with
  | start => rfl
  | read m dk st _ _ ih => rw [hr, ih]; omega
  | set t m dk st ok ws _ _ _ ih => rw [hs, hr, ih]; omega

theorem dataLoop_spec {rs : RsCodec} (laws : rs.Laws) {ref : Block} {d : Dpb} (h1 : 1 ≤ d.data) (h2 : 1 ≤ d.parity)
    (h3 : d.data + d.parity ≤ 256) (dry : Bool) (total : Nat) (stop : Nat → Bool) (dk0 : Disk) (st0 : Stats) :
    ∀ (fuel m : Nat) (s : DataSt), m + fuel < 2 ^ 32 → Run rs ref.header.version ref.header.uid d dry dk0 st0 m s.disk s.stats →
      Loaded ref.header.version ref.header.uid d s.disk.file (m / (d.data + d.parity)) (m % (d.data + d.parity)) s.codec →
      ∃ s' m', dataLoop rs ref d dry total stop fuel (m + 1) s = .ok s' ∧ m ≤ m' ∧
        Run rs ref.header.version ref.header.uid d dry dk0 st0 m' s'.disk s'.stats ∧
        (m' = m + fuel ∨ stop (m' + 1) = true ∨ total ≤ st0.blocks + m') ∧ (m' = m ∨ st0.blocks + m' ≤ total) ∧ m' ≤ m + fuel ∧
        (m' = m ∨ stop (m + 1) = false) := by
  intro fuel
  induction fuel with
  | zero => intro m s _ hr hl; exact ⟨s, m, rfl, Nat.le_refl m, hr, .inl rfl, .inl rfl, by omega, .inl rfl⟩
  | succ fuel ih =>
    intro m s hm hr hl
    have hn : 0 < d.data + d.parity := by omega
    rw [dataLoop]
    split
    · rename_i hs
      exact ⟨s, m, rfl, Nat.le_refl m, hr, .inr (.inl hs), .inl rfl, by omega, .inl rfl⟩
    · split
      · rename_i hs ht
        rw [hr.blocks] at ht
        exact ⟨s, m, rfl, Nat.le_refl m, hr, .inr (.inr ht), .inl rfl, by omega, .inl rfl⟩
      · rename_i hs ht
        rw [hr.blocks] at ht
        have hdm : m / (d.data + d.parity) * (d.data + d.parity) + m % (d.data + d.parity) = m := by
          rw [Nat.mul_comm]; exact Nat.div_add_mod _ _
        have hlt : m % (d.data + d.parity) < d.data + d.parity := Nat.mod_lt _ hn
        have hload := hl.read hlt
        rw [hdm] at hload
        unfold dataStep
        simp only
        rw [dataPos_eq]
        obtain ⟨b, hb⟩ := mark_eq ref d (m + 1) (by omega) (by omega) s.disk.file s
        rw [hb]
        simp only
        rw [hload.index]
        have fin : ∀ s1 : DataSt, Run rs ref.header.version ref.header.uid d dry dk0 st0 (m + 1) s1.disk s1.stats →
            Loaded ref.header.version ref.header.uid d s1.disk.file ((m + 1) / (d.data + d.parity)) ((m + 1) % (d.data + d.parity)) s1.codec →
            ∃ s' m', dataLoop rs ref d dry total stop fuel (m + 1 + 1) s1 = .ok s' ∧ m ≤ m' ∧
              Run rs ref.header.version ref.header.uid d dry dk0 st0 m' s'.disk s'.stats ∧
              (m' = m + (fuel + 1) ∨ stop (m' + 1) = true ∨ total ≤ st0.blocks + m') ∧ (m' = m ∨ st0.blocks + m' ≤ total) ∧ m' ≤ m + (fuel + 1) ∧
              (m' = m ∨ stop (m + 1) = false) := by
          intro s1 hr1 hl1
          obtain ⟨s', m', e1, e2, e3, e4, e5, e6, -⟩ := ih (m + 1) s1 (by omega) hr1 hl1
          refine ⟨s', m', e1, by omega, e3, ?_, ?_, by omega, .inr (by simpa using hs)⟩
          · rcases e4 with e4 | e4 | e4
            · exact .inl (by omega)
            · exact .inr (.inl e4)
            · exact .inr (.inr e4)
          · rcases e5 with e5 | e5
            · exact .inr (by omega)
            · exact .inr e5
        by_cases hfull : m % (d.data + d.parity) + 1 = d.data + d.parity
        · rw [if_pos hfull]
          have hm1 : m + 1 = (m / (d.data + d.parity) + 1) * (d.data + d.parity) := by rw [Nat.succ_mul]; omega
          rw [hfull] at hload
          obtain ⟨c', ok, ws, r1, r2, r3⟩ := repair_spec laws h1 h2 h3 hload (by omega)
          unfold repairSet
          simp only
          rw [← hm1] at r1
          rw [r1]
          simp only
          have hz : (m + 1) % (d.data + d.parity) = 0 := by rw [hm1, Nat.mul_mod_left]
          have hfold : ws.foldl (fun (dk : Disk) w => dk.writeAt w.1 w.2) s.disk = s.disk.writes ws := by
            have := Disk.foldl_writeAt id ws s.disk
            simpa using this
          rw [hfold]
          refine fin _ (.set _ _ _ _ ok ws hr hm1 r2) ?_
          rw [hz]
          exact r3 _ _
        · rw [if_neg hfull]
          have hz : (m + 1) / (d.data + d.parity) = m / (d.data + d.parity) ∧
              (m + 1) % (d.data + d.parity) = m % (d.data + d.parity) + 1 := by
            have e : m + 1 = m / (d.data + d.parity) * (d.data + d.parity) + (m % (d.data + d.parity) + 1) := by omega
            have := divmod_eq (m := d.data + d.parity) (q := m / (d.data + d.parity)) (r := m % (d.data + d.parity) + 1) (by omega)
            rw [← e] at this
            exact this
          refine fin _ (.read _ _ _ hr (by rw [hz.2]; omega)) ?_
          rw [hz.1, hz.2]
          exact hload

/-- What one metadata place does. -/
noncomputable def metaOne (v : Version) (uid : Uid) (mb : List Byte) (dry : Bool) (x : Disk × Stats) (k : Nat) : Disk × Stats :=
  if ValidAt v uid x.1.file k then (x.1, { x.2 with metaDecoded := x.2.metaDecoded + 1 })
  else (if dry then x.1 else x.1.writes [(k * blockLen v, mb)],
    { x.2 with failed := x.2.failed + 1, metaRepaired := x.2.metaRepaired + 1 })

/-- The reference block as it is kept during the metadata loop. -/
structure RefOk (v : Version) (uid : Uid) (ms : List Metadata) (b : Block) : Prop where
  version : b.header.version = v
  owner : b.header.uid = uid
  seq : b.header.seq = 0
  data : b.data = .metadata ms

theorem RefOk.syncTo {v : Version} {uid : Uid} {ms : List Metadata} {b : Block} (h : RefOk v uid ms b) {mp : List Byte}
    (hm : metasToBytes ms (blockLen v - 16) = some mp) {buf : List Byte} (hl : blockLen v ≤ buf.length) :
    ∃ b', b.syncTo none buf = .ok (b', blockBytes v uid.bytes 0 mp ++ buf.drop (blockLen v)) ∧ RefOk v uid ms b' := by
  have hsz : b.size = blockLen v := by unfold Block.size; rw [h.version, blockLen_eq]
  rw [Block.syncTo_meta b buf ms h.data h.seq (by rw [hsz]; exact hl), hsz, hm]
  simp only
  refine ⟨b.updateCrc (buf.take 16 ++ mp), by rw [h.version, h.owner], ⟨h.version, h.owner, h.seq, h.data⟩⟩

theorem metaStep_spec {ref : Block} {ms : List Metadata} {mp : List Byte}
    (hm : metasToBytes ms (blockLen ref.header.version - 16) = some mp) (hmp : mp.length = blockLen ref.header.version - 16)
    (dry : Bool) (s : MetaSt) (k : Nat)
    (hr : RefOk ref.header.version ref.header.uid ms s.ref) (hl : s.buffer.length = 4096) :
    ∃ s', metaStep ref dry s (k * ref.header.version.blockSize) = .ok s' ∧
      RefOk ref.header.version ref.header.uid ms s'.ref ∧ s'.buffer.length = 4096 ∧
      (s'.disk, s'.stats) = metaOne ref.header.version ref.header.uid
        (blockBytes ref.header.version ref.header.uid.bytes 0 mp) dry (s.disk, s.stats) k := by
  have h16 := size_ge ref.header.version
  rw [← blockLen_eq] at h16
  have hbs : blockLen ref.header.version ≤ 4096 := by cases ref.header.version <;> decide
  have hpl := piece_length_le ref.header.version s.disk.file k
  unfold metaStep
  simp only
  have hrd : s.disk.file.readAt (k * ref.header.version.blockSize) ref.header.version.blockSize = piece ref.header.version s.disk.file k := by
    unfold piece; rw [blockLen_eq]
  rw [hrd]
  have hbl : (piece ref.header.version s.disk.file k ++ s.buffer.drop (piece ref.header.version s.disk.file k).length).length = 4096 := by
    rw [List.length_append, List.length_drop]; omega
  have hbad : ∀ b : Block, ¬ ValidAt ref.header.version ref.header.uid s.disk.file k →
      ∃ s', (match s.ref.syncTo none (piece ref.header.version s.disk.file k ++ s.buffer.drop (piece ref.header.version s.disk.file k).length) with
        | .error _ => (.error .panic : Except Err MetaSt)
        | .ok (ref', buffer) =>
          .ok { s with
            disk := if dry then s.disk else s.disk.writeAt (k * ref.header.version.blockSize) (buffer.take ref.header.version.blockSize)
            buffer := buffer
            block := b
            ref := ref'
            stats := { s.stats with failed := s.stats.failed + 1, metaRepaired := s.stats.metaRepaired + 1 } }) = .ok s' ∧
      RefOk ref.header.version ref.header.uid ms s'.ref ∧ s'.buffer.length = 4096 ∧
      (s'.disk, s'.stats) = metaOne ref.header.version ref.header.uid
        (blockBytes ref.header.version ref.header.uid.bytes 0 mp) dry (s.disk, s.stats) k := by
    intro b hv
    obtain ⟨b', e1, e2⟩ := hr.syncTo hm (by rw [hbl]; exact hbs)
    rw [e1]
    simp only
    refine ⟨_, rfl, e2, ?_, ?_⟩
    · simp only [List.length_append, List.length_drop] at hbl ⊢
      rw [blockBytes_length]; omega
    · unfold metaOne
      rw [if_neg hv]
      simp only
      rw [List.take_left' (by rw [blockBytes_length, hmp, ← blockLen_eq]; omega), ← blockLen_eq]
      rfl
  by_cases hlen : (piece ref.header.version s.disk.file k).length < ref.header.version.blockSize
  · rw [if_pos hlen]
    simp only [if_true]
    refine hbad _ ?_
    rintro ⟨seq, payload, hb⟩
    have := isBlock_length hb
    rw [blockLen_eq] at this
    omega
  · rw [if_neg hlen]
    have hfull : (piece ref.header.version s.disk.file k).length = blockLen ref.header.version := by rw [← blockLen_eq] at hlen; omega
    have hit : ∀ b, s.block.syncFrom (piece ref.header.version s.disk.file k ++
        s.buffer.drop (piece ref.header.version s.disk.file k).length) (some (sameVerUid ref)) none = (b, none) →
        ValidAt ref.header.version ref.header.uid s.disk.file k := by
      intro b hb
      rw [Block.syncFrom_none, Block.read?_iff] at hb
      obtain ⟨v', uid', seq, payload, rest, h1, -, rfl, h4⟩ := hb
      have := sameVerUid_iff.1 (h4 _ rfl)
      obtain ⟨e1, e2⟩ := this
      simp only [blockOf] at e1 e2
      subst e1 e2
      rw [List.take_left' hfull] at h1
      exact ⟨_, _, h1⟩
    rcases hsync : s.block.syncFrom (piece ref.header.version s.disk.file k ++
        s.buffer.drop (piece ref.header.version s.disk.file k).length) (some (sameVerUid ref)) none with ⟨b, _ | e⟩
    · have hv := hit b hsync
      simp only [Bool.false_eq_true, if_false]
      refine ⟨_, rfl, hr, hbl, ?_⟩
      unfold metaOne
      rw [if_pos hv]
    · simp only [if_true]
      refine hbad _ ?_
      rintro ⟨seq, payload, hb⟩
      have : s.block.syncFrom (piece ref.header.version s.disk.file k ++
          s.buffer.drop (piece ref.header.version s.disk.file k).length) (some (sameVerUid ref)) none =
          (blockOf ref.header.version ref.header.uid seq payload, none) := by
        rw [Block.syncFrom_none, Block.read?_iff]
        refine ⟨_, _, seq, payload, s.buffer.drop (piece ref.header.version s.disk.file k).length, ?_, ?_, rfl, ?_⟩
        · rw [List.take_left' hfull]; exact hb
        · rw [List.take_left' hfull]
        · intro q hq
          simp only [Option.some.injEq] at hq
          subst hq
          exact sameVerUid_iff.2 ⟨rfl, rfl⟩
      rw [hsync] at this
      simp at this

theorem metaLoop_spec {ref : Block} {ms : List Metadata} {mp : List Byte}
    (hm : metasToBytes ms (blockLen ref.header.version - 16) = some mp) (hmp : mp.length = blockLen ref.header.version - 16)
    (dry : Bool) (stop : Nat → Bool) : ∀ (ks : List Nat) (i : Nat) (s : MetaSt),
      RefOk ref.header.version ref.header.uid ms s.ref → s.buffer.length = 4096 →
      ∃ s' n, metaLoop ref dry stop i (ks.map (· * ref.header.version.blockSize)) s = .ok s' ∧ n ≤ ks.length ∧
        (n = ks.length ∨ stop (i + n) = true) ∧
        (s'.disk, s'.stats) = (ks.take n).foldl (metaOne ref.header.version ref.header.uid
          (blockBytes ref.header.version ref.header.uid.bytes 0 mp) dry) (s.disk, s.stats) := by
  intro ks
  induction ks with
  | nil => intro i s _ _; exact ⟨s, 0, rfl, Nat.le_refl 0, .inl rfl, rfl⟩
  | cons k ks ih =>
    intro i s hr hl
    rw [List.map_cons, metaLoop]
    split
    · rename_i hs
      exact ⟨s, 0, rfl, Nat.zero_le _, .inr hs, rfl⟩
    · obtain ⟨s1, e1, e2, e3, e4⟩ := metaStep_spec hm hmp dry s k hr hl
      rw [e1]
      simp only
      obtain ⟨s', n, f1, f2, f3, f4⟩ := ih (i + 1) s1 e2 e3
      refine ⟨s', n + 1, f1, by simpa using f2, ?_, ?_⟩
      · rcases f3 with f3 | f3
        · exact .inl (by simp [f3])
        · exact .inr (by rw [← f3]; congr 1; omega)
      · rw [f4, List.take_succ_cons, List.foldl_cons, ← e4]

/-- **The whole of `repair`.**  First the metadata places, then the data and parity blocks one by one. -/
theorem repairWith_spec (E : Env) (laws : E.rs.Laws) {ref : Block} {d : Dpb} (h1 : 1 ≤ d.data) (h2 : 1 ≤ d.parity)
    (h3 : d.data + d.parity ≤ 256) (h0 : ref.header.seq = 0) {ms : List Metadata} (hms : ref.data = .metadata ms) {mp : List Byte}
    (hm : metasToBytes ms (blockLen ref.header.version - 16) = some mp) (hmp : mp.length = blockLen ref.header.version - 16)
    (dry : Bool) (total : Nat) (f : File) :
    ∃ dk st dk1 st1 n m, repairWith E dry ref d total f = .ok (dk, st) ∧
      (dk1, st1) = ((metaCopies (some true) (some d)).take n).foldl (metaOne ref.header.version ref.header.uid
        (blockBytes ref.header.version ref.header.uid.bytes 0 mp) dry) (⟨f, []⟩, Stats.zero) ∧
      n ≤ 1 + d.parity ∧ (n = 1 + d.parity ∨ E.stopMeta n = true) ∧
      Run E.rs ref.header.version ref.header.uid d dry dk1 st1 m dk st ∧
      (m = lastSeqNum ∨ E.stopData (m + 1) = true ∨ total ≤ st1.blocks + m) ∧ (m = 0 ∨ st1.blocks + m ≤ total) ∧ m ≤ lastSeqNum ∧
      (m = 0 ∨ E.stopData 1 = false) := by
  have hbs : blockLen ref.header.version ≤ 4096 := by cases ref.header.version <;> decide
  have hge := size_ge ref.header.version
  rw [← blockLen_eq] at hge
  unfold repairWith Codec.new
  rw [if_neg (by omega)]
  simp only
  obtain ⟨ref', e1, e2⟩ := RefOk.syncTo (b := ref) ⟨rfl, rfl, h0, hms⟩ hm (buf := List.replicate 4096 0)
    (by rw [List.length_replicate]; exact hbs)
  rw [e1]
  simp only
  rw [metaAllPos_eq, metaAllIndices_eq]
  obtain ⟨s', n, f1, f2, f3, f4⟩ := metaLoop_spec hm hmp dry E.stopMeta (metaCopies (some true) (some d)) 0
    ⟨⟨f, []⟩, blockBytes ref.header.version ref.header.uid.bytes 0 mp ++ (List.replicate 4096 (0 : Byte)).drop (blockLen ref.header.version),
      Block.dummy, ref', Stats.zero⟩ e2 (by
        simp only [List.length_append, blockBytes_length, List.length_drop, List.length_replicate]; omega)
  rw [f1]
  simp only
  have hml : (metaCopies (some true) (some d)).length = 1 + d.parity := by unfold metaCopies; simp
  rw [hml] at f2 f3
  obtain ⟨s2, m, g1, g2, g3, g4, g5, g6, g7⟩ := dataLoop_spec laws h1 h2 h3 dry total E.stopData s'.disk s'.stats lastSeqNum 0
    ⟨s'.disk, ⟨0, List.replicate (d.data + d.parity) (List.replicate ref.size 0), List.replicate (d.data + d.parity) false, ref⟩,
      s'.block, s'.stats⟩ (by unfold lastSeqNum; omega) .start (by
        rw [Nat.zero_div, Nat.zero_mod]
        refine ⟨rfl, by simp, by simp, ?_, rfl, rfl, by intro j hj; omega, by intro j hj; omega⟩
        intro b hb
        rw [List.eq_of_mem_replicate hb, List.length_replicate]
        unfold Block.size
        rw [blockLen_eq])
  rw [g1]
  simp only
  refine ⟨_, _, s'.disk, s'.stats, n, m, rfl, f4, f2, ?_, g3, ?_, g5, by omega, g7⟩
  · rcases f3 with f3 | f3
    · exact .inl f3
    · rw [Nat.zero_add] at f3; exact .inr f3
  · rcases g4 with g4 | g4
    · exact .inl (by omega)
    · exact .inr g4

end Verif.Repair
