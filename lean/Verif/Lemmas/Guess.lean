import Verif.Lemmas.Scan
import Verif.Lemmas.Container
import Verif.Props.Block
/-!
# Lemmas about guessing the burst error resistance level
-/

namespace Verif.Scan
open ScanSpec Format

theorem sameVerUid_iff {ref : Block} {h : Header} :
    sameVerUid ref h = true ↔ h.version = ref.header.version ∧ h.uid = ref.header.uid := by
  unfold sameVerUid
  simp only [Bool.and_eq_true, decide_eq_true_eq]
  constructor
  · rintro ⟨a, b⟩; exact ⟨a.symm, b.symm⟩
  · rintro ⟨a, b⟩; exact ⟨a.symm, b.symm⟩

theorem readSame_iff {ref b b0 : Block} {buf : List Byte} (hl : buf.length ≤ blockLen ref.header.version) :
    b0.read? buf (some (sameVerUid ref)) = some b ↔
      ∃ seq payload, IsBlock buf ref.header.version ref.header.uid seq payload ∧
        b = blockOf ref.header.version ref.header.uid seq payload := by
  rw [Block.read?_iff]
  constructor
  · rintro ⟨v, uid, seq, p, rest, h1, h2, rfl, h4⟩
    have := sameVerUid_iff.1 (h4 _ rfl)
    simp only [blockOf] at this
    obtain ⟨rfl, rfl⟩ := this
    rw [List.take_of_length_le hl] at h1
    exact ⟨seq, p, h1, rfl⟩
  · rintro ⟨seq, p, h1, rfl⟩
    refine ⟨_, _, seq, p, [], ?_, ?_, rfl, ?_⟩
    · rw [List.take_of_length_le hl]; exact h1
    · rw [List.take_of_length_le hl, List.append_nil]
    · intro q hq
      simp only [Option.some.injEq] at hq
      subst hq
      exact sameVerUid_iff.2 ⟨rfl, rfl⟩

theorem blockAt_iff {ref b : Block} {f : List Byte} {pos : Nat} :
    blockAt ref f pos = some b ↔
      ∃ seq payload, IsBlock ((f.drop pos).take (blockLen ref.header.version)) ref.header.version ref.header.uid seq payload ∧
        b = blockOf ref.header.version ref.header.uid seq payload := by
  unfold blockAt
  exact readSame_iff (by rw [List.length_take]; omega)

theorem isBlock_length {buf : List Byte} {v : Version} {uid : Uid} {seq : UInt32} {p : List Byte} (h : IsBlock buf v uid seq p) :
    buf.length = blockLen v := by
  have hge := size_ge v
  rw [← blockLen_eq] at hge
  rw [h.bytes, blockBytes_length, h.len]; omega

theorem blockAt_inside {ref b : Block} {f : List Byte} {pos : Nat} (h : blockAt ref f pos = some b) :
    pos + blockLen ref.header.version ≤ f.length := by
  obtain ⟨seq, p, h1, -⟩ := blockAt_iff.1 h
  have := isBlock_length h1
  rw [List.length_take, List.length_drop] at this
  have := size_ge ref.header.version
  rw [← blockLen_eq] at this
  omega

theorem sampleBlock_snd (ref block : Block) (f : File) (pos : Nat) :
    (sampleBlock ref block (f.readAt pos ref.size)).2 = blockAt ref f pos := by
  have : blockAt ref f pos = block.read? (f.readAt pos ref.size) (some (sameVerUid ref)) := by
    unfold blockAt File.readAt Block.size
    rw [blockLen_eq]
    exact Block.read?_indep _ _ _ _
  rw [this]
  unfold sampleBlock Block.read?
  rcases block.syncFrom (f.readAt pos ref.size) (some (sameVerUid ref)) none with ⟨b, e⟩
  cases e <;> rfl

theorem sampleLoop_spec {α : Type} (f : File) (ref : Block) (g : Nat → Block → Option α) (n : Nat) :
    ∀ (k : Nat) (block : Block) (pos : Nat),
      sampleLoop f ref g n k block pos = (List.range n).map fun j => (blockAt ref f (pos + j * ref.size)).bind (g (k + j)) := by
  induction n with
  | zero => intro k block pos; rfl
  | succ n ih =>
    intro k block pos
    unfold sampleLoop
    simp only
    by_cases h : (f.readAt pos ref.size).length < ref.size
    · rw [if_pos h]
      symm
      rw [List.eq_replicate_iff]
      refine ⟨by simp, ?_⟩
      intro x hx
      obtain ⟨j, hj, rfl⟩ := List.mem_map.1 hx
      cases hb : blockAt ref f (pos + j * ref.size) with
      | none => rfl
      | some b =>
        exfalso
        have := blockAt_inside hb
        rw [blockLen_eq] at this
        unfold File.readAt Block.size at *
        rw [List.length_take, List.length_drop] at h
        have : ref.header.version.blockSize ≥ 128 := size_ge _
        omega
    · rw [if_neg h]
      have hl : (f.readAt pos ref.size).length = ref.size := by
        unfold File.readAt at *
        rw [List.length_take] at *
        omega
      rcases hs : sampleBlock ref block (f.readAt pos ref.size) with ⟨block', r⟩
      have hr := sampleBlock_snd ref block f pos
      rw [hs] at hr
      simp only at hr ⊢
      rw [List.range_succ_eq_map, List.map_cons, List.map_map, ih, hl, hr]
      simp only [Nat.zero_mul, Nat.add_zero, List.cons.injEq, true_and]
      apply List.map_congr_left
      intro j _
      simp only [Function.comp]
      rw [Nat.succ_mul, show pos + ref.size + j * ref.size = pos + (j * ref.size + ref.size) by omega,
        show k + 1 + j = k + j.succ by omega]

/-! ### Counting -/

theorem mismatches_eq_zero (dpb : Dpb) (l : List (Option Nat)) : ∀ i, mismatches dpb i l = 0 ↔
    ∀ (j : Nat) (seq : Nat), l[j]? = some (some seq) → seq = Layout.seqAtIndex (i + j) none (some dpb) := by
  induction l with
  | nil => intro i; simp [mismatches]
  | cons a l ih =>
    intro i
    cases a with
    | none =>
      rw [mismatches, ih]
      constructor
      · intro h j seq hj
        cases j with
        | zero => simp at hj
        | succ j =>
          rw [List.getElem?_cons_succ] at hj
          rw [h j seq hj]; congr 1; omega
      · intro h j seq hj
        rw [h (j + 1) seq (by rwa [List.getElem?_cons_succ])]; congr 1; omega
    | some s =>
      rw [mismatches, Nat.add_eq_zero_iff, ih]
      constructor
      · rintro ⟨h1, h⟩ j seq hj
        cases j with
        | zero =>
          simp only [List.getElem?_cons_zero, Option.some.injEq] at hj
          subst hj
          by_contra hne
          rw [Nat.add_zero] at hne
          simp [hne] at h1
        | succ j =>
          rw [List.getElem?_cons_succ] at hj
          rw [h j seq hj]; congr 1; omega
      · intro h
        refine ⟨?_, ?_⟩
        · have := h 0 s rfl
          rw [Nat.add_zero] at this
          simp [← this]
        · intro j seq hj
          rw [h (j + 1) seq (by rwa [List.getElem?_cons_succ])]; congr 1; omega

/-- The loop returns the smallest level with the fewest mismatches; `m` gives the mismatches of a level. -/
theorem bestGuess_spec (m : Nat → Nat) (n : Nat) : ∀ (level b : Nat), b < level →
    (∀ j < level, m b ≤ m j) → (∀ j < b, m b < m j) →
    ∃ c, bestGuess level (b, m b) ((List.range' level n).map m) = (c, m c) ∧ (c < level + n) ∧ (∀ j < level + n, m c ≤ m j) ∧
      ∀ j < c, m c < m j := by
  induction n with
  | zero =>
    intro level b hb h1 h2
    exact ⟨b, rfl, by omega, by simpa using h1, h2⟩
  | succ n ih =>
    intro level b hb h1 h2
    rw [List.range'_succ, List.map_cons, bestGuess]
    by_cases hlt : m level < m b
    · rw [if_pos hlt]
      obtain ⟨c, h3, h4, h5, h6⟩ := ih (level + 1) level (by omega)
        (by intro j hj
            rcases Nat.lt_succ_iff_lt_or_eq.1 hj with hj | rfl
            · have := h1 j hj; omega
            · exact Nat.le_refl _)
        (by intro j hj; have := h1 j hj; omega)
      exact ⟨c, h3, by omega, by intro j hj; exact h5 j (by omega), h6⟩
    · rw [if_neg hlt]
      obtain ⟨c, h3, h4, h5, h6⟩ := ih (level + 1) b (by omega)
        (by intro j hj
            rcases Nat.lt_succ_iff_lt_or_eq.1 hj with hj | rfl
            · exact h1 j hj
            · omega) h2
      exact ⟨c, h3, by omega, by intro j hj; exact h5 j (by omega), h6⟩

/-- What the guess is, given the samples. -/
theorem guessLevel_spec (data parity : Nat) (samples : List (Option Nat)) (m : Nat → Nat)
    (hm : m = fun level => mismatches ⟨data, parity, level⟩ 0 samples) :
    (guessLevel data parity samples = none ∧ ∀ i ≤ maxBurst, ∀ j ≤ maxBurst, m i = m j) ∨
    ∃ c, guessLevel data parity samples = some c ∧ c ≤ maxBurst ∧ (∀ j ≤ maxBurst, m c ≤ m j) ∧ (∀ j < c, m c < m j) ∧
      ∃ j ≤ maxBurst, m c < m j := by
  have key : ∃ c, bestGuess 0 (0, m 0) ((List.range (maxBurst + 1)).map m) = (c, m c) ∧ c ≤ maxBurst ∧
      (∀ j ≤ maxBurst, m c ≤ m j) ∧ ∀ j < c, m c < m j := by
    rw [List.range_eq_range', List.range'_succ, List.map_cons, bestGuess, if_neg (Nat.lt_irrefl _)]
    obtain ⟨c, h1, h2, h3, h4⟩ := bestGuess_spec m maxBurst 1 0 (by omega) (by intro j hj; rw [Nat.lt_one_iff.1 hj])
      (by intro j hj; omega)
    exact ⟨c, h1, by omega, fun j hj => h3 j (by omega), h4⟩
  obtain ⟨c, h1, h2, h3, h4⟩ := key
  have hg : guessLevel data parity samples =
      if ((List.range (maxBurst + 1)).map m).countP (· = m c) = ((List.range (maxBurst + 1)).map m).length then none else some c := by
    unfold guessLevel
    simp only
    rw [← hm, show mismatches ⟨data, parity, 0⟩ 0 samples = m 0 by rw [hm], h1]
  rw [hg]
  by_cases hc : ((List.range (maxBurst + 1)).map m).countP (· = m c) = ((List.range (maxBurst + 1)).map m).length
  · rw [if_pos hc]
    refine .inl ⟨rfl, ?_⟩
    rw [List.countP_eq_length] at hc
    have h : ∀ i ≤ maxBurst, m i = m c := by
      intro i hi
      have := hc (m i) (List.mem_map_of_mem (List.mem_range.2 (by omega)))
      simpa using this
    intro i hi j hj
    rw [h i hi, h j hj]
  · rw [if_neg hc]
    refine .inr ⟨c, rfl, h2, h3, h4, ?_⟩
    by_contra hno
    apply hc
    rw [List.countP_eq_length]
    intro x hx
    obtain ⟨j, hj, rfl⟩ := List.mem_map.1 hx
    have hj := List.mem_range.1 hj
    have h5 : ¬ m c < m j := fun h => hno ⟨j, by omega, h⟩
    have h6 := h3 j (by omega)
    simp only [decide_eq_true_eq]
    omega

/-! ### Recorded fields -/

theorem getRsd_meta {b : Block} {ms : List Metadata} (h : b.metas = some ms) : getRsd b = .ok (firstRsd ms) := by
  unfold Block.metas at h
  unfold getRsd
  cases hd : b.data with
  | data => rw [hd] at h; simp at h
  | metadata ms' =>
    rw [hd] at h
    simp only [Option.some.injEq] at h
    subst h
    simp only [Except.ok.injEq]
    unfold getMeta firstRsd
    clear hd
    induction ms' with
    | nil => rfl
    | cons m ms ih => cases m <;> first | exact ih | rfl

theorem getRsp_meta {b : Block} {ms : List Metadata} (h : b.metas = some ms) : getRsp b = .ok (firstRsp ms) := by
  unfold Block.metas at h
  unfold getRsp
  cases hd : b.data with
  | data => rw [hd] at h; simp at h
  | metadata ms' =>
    rw [hd] at h
    simp only [Option.some.injEq] at h
    subst h
    simp only [Except.ok.injEq]
    unfold getMeta firstRsp
    clear hd
    induction ms' with
    | nil => rfl
    | cons m ms ih => cases m <;> first | exact ih | rfl

theorem getFsz_meta {b : Block} {ms : List Metadata} (h : b.metas = some ms) : getFsz b = .ok (firstFsz ms) := by
  unfold Block.metas at h
  unfold getFsz
  cases hd : b.data with
  | data => rw [hd] at h; simp at h
  | metadata ms' =>
    rw [hd] at h
    simp only [Option.some.injEq] at h
    subst h
    simp only [Except.ok.injEq]
    unfold getMeta firstFsz
    clear hd
    induction ms' with
    | nil => rfl
    | cons m ms ih => cases m <;> first | exact ih | rfl

theorem getHsh_meta {b : Block} {ms : List Metadata} (h : b.metas = some ms) : getHsh b = .ok (firstHsh ms) := by
  unfold Block.metas at h
  unfold getHsh
  cases hd : b.data with
  | data => rw [hd] at h; simp at h
  | metadata ms' =>
    rw [hd] at h
    simp only [Option.some.injEq] at h
    subst h
    simp only [Except.ok.injEq]
    unfold getMeta firstHsh
    clear hd
    induction ms' with
    | nil => rfl
    | cons m ms ih => cases m <;> first | exact ih | rfl

/-! ### What the places of a container hold -/

open ContainerSpec LayoutSpec Layout

theorem zeros_no_block {v w : Version} {uid : Uid} {seq : UInt32} {p : List Byte} :
    ¬ IsBlock (List.replicate (blockLen v) 0) w uid seq p := by
  intro h
  have h0 := congrArg (·[0]?) h.bytes
  have hp := blockLen_pos v
  simp [blockBytes, headerBytes, List.getElem?_replicate, hp] at h0

theorem isBlock_seq {v : Version} {uid : Uid} {s s' : UInt32} {p p' : List Byte} {buf : List Byte}
    (h : IsBlock buf v uid s p) (h' : IsBlock buf v uid s' p') : s = s' ∧ p = p' := by
  have hl := isBlock_length h
  have ht : buf.take (blockLen v) = buf := List.take_of_length_le (by omega)
  have := C09_unique buf v v uid uid s s' p p' (by rwa [ht]) (by rwa [ht])
  exact ⟨this.2.2.1, this.2.2.2⟩

/-- Sequence number of the valid block (if any) at a place of an image. -/
theorem image_seq {v : Version} {uid : Uid} {me : Option Bool} {dpb : Option Dpb} {ps : List (List Byte)} {mb mp : List Byte} {f : File}
    (him : Image v uid.bytes me dpb ps mb f) (hmb : IsBlock mb v uid 0 mp) (hps : ∀ p ∈ ps, p.length = v.dataSize)
    {ref : Block} (hv : ref.header.version = v) (hu : ref.header.uid = uid) {k : Nat} {b : Block}
    (hb : blockAt ref f (k * blockLen v) = some b) :
    (k ∈ metaCopies me dpb ∧ b = blockOf v uid 0 mp) ∨
      ∃ i p, ps[i]? = some p ∧ dataWriteIndex (i + 1) me dpb = k ∧ b = blockOf v uid (UInt32.ofNat (i + 1)) p := by
  have hin := blockAt_inside hb
  obtain ⟨seq, p, h1, rfl⟩ := blockAt_iff.1 hb
  rw [hv, hu] at h1 ⊢
  rw [hv] at hin
  have hpos := blockLen_pos v
  by_cases hm : k ∈ metaCopies me dpb
  · have := him.metas k hm
    unfold File.readAt at this
    rw [this] at h1
    obtain ⟨rfl, rfl⟩ := isBlock_seq h1 hmb
    exact .inl ⟨hm, rfl⟩
  · by_cases hd : ∃ i < ps.length, dataWriteIndex (i + 1) me dpb = k
    · obtain ⟨i, hi, hk⟩ := hd
      have hi' : ps[i]? = some ps[i] := List.getElem?_eq_getElem hi
      have := him.data i _ hi'
      rw [hk] at this
      unfold File.readAt at this
      have h2 : IsBlock ((f.drop (k * blockLen v)).take (blockLen v)) v uid (UInt32.ofNat (i + 1)) ps[i] :=
        ⟨this, by rw [hps _ (List.getElem_mem hi), dataSize_eq]⟩
      obtain ⟨rfl, rfl⟩ := isBlock_seq h1 h2
      exact .inr ⟨i, _, hi', hk, rfl⟩
    · exfalso
      have := him.gaps k (by omega) hm (by intro i hi h; exact hd ⟨i, hi, h⟩)
      unfold File.readAt at this
      rw [this] at h1
      exact zeros_no_block h1

theorem ofNat_toNat32 {n : Nat} (h : n < 2 ^ 32) : (UInt32.ofNat n).toNat = n := by
  rw [UInt32.toNat_ofNat', Nat.mod_eq_of_lt h]

/-- Sequence number by layout. -/
theorem image_seqAt {v : Version} {uid : Uid} {me : Option Bool} {dpb : Option Dpb} (hval : Valid dpb) {ps : List (List Byte)}
    {mb mp : List Byte} {f : File}
    (him : Image v uid.bytes me dpb ps mb f) (hmb : IsBlock mb v uid 0 mp) (hps : ∀ p ∈ ps, p.length = v.dataSize)
    (hlen : ps.length < 2 ^ 32) {ref : Block} (hv : ref.header.version = v) (hu : ref.header.uid = uid) {k : Nat} {b : Block}
    (hb : blockAt ref f (k * blockLen v) = some b) : b.header.seq.toNat = seqAtIndex k me dpb := by
  rcases image_seq him hmb hps hv hu hb with ⟨hm, rfl⟩ | ⟨i, p, hi, rfl, rfl⟩
  · rw [C11_seq_of_meta me dpb k hm]; rfl
  · obtain ⟨hi, -⟩ := List.getElem?_eq_some_iff.1 hi
    rw [C11_seq_of_position me dpb hval (i + 1) (by omega) (by omega)]
    exact ofNat_toNat32 (by omega)

/-- A place not meant for metadata is predicted to hold a data block. -/
theorem seqAtIndex_pos {d p l k : Nat} (hd : 1 ≤ d) (hdp : d + p ≤ 256) (hl : l ≤ 1000) (hk : k ≤ 2000)
    (hno : ∀ i ≤ p, k ≠ i * (1 + l)) : seqAtIndex k none (some ⟨d, p, l⟩) ≠ 0 := by
  unfold seqAtIndex
  by_cases h0 : l = 0
  · subst h0
    simp only [if_true]
    split
    · rename_i h
      exact absurd (by omega) (hno k (by omega))
    · omega
  · simp only [if_neg h0]
    split
    · rename_i h
      obtain ⟨h1, h2⟩ := h
      exfalso
      obtain ⟨i, hi⟩ := Nat.dvd_of_mod_eq_zero h2
      rw [Nat.mul_comm] at hi
      refine hno i ?_ hi
      rw [hi] at h1
      have := Nat.lt_of_mul_lt_mul_right h1
      omega
    · generalize hX : k - (if k < (1 + p) * (1 + l) then 1 + k / (1 + l) else 1 + p) = X
      have hX2 : X ≤ 2000 := by omega
      have hsup : (d + p) * l * (X / ((d + p) * l)) ≤ X := Nat.mul_div_le _ _
      have hlpos : 0 < l := by omega
      have hin : X % ((d + p) * l) < (d + p) * l := Nat.mod_lt _ (Nat.mul_pos (by omega) hlpos)
      have h3 : X % ((d + p) * l) / l < d + p := Nat.div_lt_of_lt_mul (by rw [Nat.mul_comm l]; exact hin)
      have h4 : X % ((d + p) * l) % l < l := Nat.mod_lt _ hlpos
      have h5 : X % ((d + p) * l) % l * (d + p) ≤ 1000 * 256 := Nat.mul_le_mul (by omega) hdp
      generalize X % ((d + p) * l) % l * (d + p) = Y at *
      generalize X % ((d + p) * l) / l = Z at *
      generalize (d + p) * l * (X / ((d + p) * l)) = W at *
      omega

end Verif.Scan
