import Verif.Lemmas.Sorted
/-!
# C77: sorting whatever file loses nothing, decoding afterwards gives the same, and sorting again changes nothing
-/

namespace Verif.SortedSpec
open Format ScanSpec DecodeSpec LayoutSpec ContainerSpec Layout Scan Decode

theorem lastWrite_metas {dpb : Option Dpb} {mb : Option (List Byte)} {k : Nat} :
    File.lastWrite (mb.toList.flatMap (metaWrites dpb)) k = if k ∈ metaCopies (some true) dpb then mb else none := by
  cases mb with
  | none => simp [File.lastWrite]
  | some mb =>
    simp only [Option.toList_some, List.flatMap_cons, List.flatMap_nil, List.append_nil]
    unfold metaWrites
    split
    · rename_i h
      apply File.lastWrite_of_all
      · exact ⟨(k, mb), List.mem_map.2 ⟨k, h, rfl⟩, rfl⟩
      · intro w hw _
        obtain ⟨x, -, rfl⟩ := List.mem_map.1 hw
        rfl
    · rename_i h
      rw [File.lastWrite_none]
      intro w hw e
      obtain ⟨x, hx, rfl⟩ := List.mem_map.1 hw
      exact h (e ▸ hx)

/-- **C77.** Sorting a file, whatever it contains: the output has the first metadata block at all places for metadata, of the data and
parity blocks with the same number the last one at its place, and nothing else.  In particular no number is lost. -/
theorem C77_sorted (E : Sort.Env) (hE : E.Calm) (q : Sort.Param) (hq : Sort.Whole q) (f old : File) (pos : Nat) (ref : Block)
    (dpb : Option Dpb) (hv : Valid dpb) (hr : getRefBlockM q.ref q.ref.refChoice f E.stopRef (E.stop 0) = .ok (pos, ref))
    (hd : dataParBurst q.ref true f ref = .ok dpb) :
    ∃ d st o, Sort.sortFile E q f old = .ok (some d, st, o) ∧ Sorted ref.header.version ref.header.uid dpb f d.file := by
  obtain ⟨d, st, o, A, B, h1, h2, h3⟩ := sort_writes E hE q hq f old pos ref dpb hr hd
  refine ⟨d, st, o, h1, ?_⟩
  have hlook : ∀ x ∈ A ++ B, x.1 ≠ 0 ∧ x.1 < 2 ^ 32 ∧ x.2.length = blockLen ref.header.version - 16 := by
    intro x hx
    rw [← h2] at hx
    obtain ⟨y, hy, rfl⟩ := List.mem_map.1 hx
    obtain ⟨k, -, hk⟩ := List.mem_filterMap.1 hy
    obtain ⟨-, h4, h5⟩ := Sort.dataAt_some.1 hk
    obtain ⟨h6, h7⟩ := look_some.1 h5
    exact ⟨h4, h6, h7.len⟩
  have hmeta : ∀ mb, (List.range (f.length / blockLen ref.header.version)).findSome? (Sort.metaAt ref f 0) = some mb →
      ∃ p, IsBlock mb ref.header.version ref.header.uid 0 p ∧ FirstMeta ref.header.version ref.header.uid f p := by
    intro mb hmb
    obtain ⟨k, -, hk⟩ := List.exists_of_findSome?_eq_some hmb
    obtain ⟨p, hp, e⟩ := Sort.metaAt_some.1 hk
    rw [← e] at hp
    exact ⟨p, hp, firstMeta_iff.2 ⟨hp.len, by rw [hmb, hp.bytes]⟩⟩
  have hlast := @lastBlock_iff ref f
  have hfirst := @firstMeta_iff ref f
  have hdat : ∀ s, s ≠ 0 → File.lastWrite (A ++ B) s =
      File.lastWrite ((List.range (f.length / blockLen ref.header.version)).filterMap (look ref f 0)) s := by
    intro s hs
    rw [← h2]
    exact lastWrite_dataAt hs
  generalize (List.range (f.length / blockLen ref.header.version)).findSome? (Sort.metaAt ref f 0) = found at h3 hmeta hfirst
  generalize (List.range (f.length / blockLen ref.header.version)).filterMap (look ref f 0) = looked at hlast hdat
  generalize ref.header.version = v at *
  generalize ref.header.uid = uid at *
  have hbl : v.blockSize = blockLen v := (blockLen_eq v).symm
  rw [hbl] at h3
  set ws := (A.map fun x => (dataWriteIndex x.1 (some true) dpb, blockBytes v uid.bytes (UInt32.ofNat x.1) x.2)) ++
    (found.toList.flatMap (metaWrites dpb) ++
      B.map fun x => (dataWriteIndex x.1 (some true) dpb, blockBytes v uid.bytes (UInt32.ofNat x.1) x.2)) with hws
  have hu := blockLen_pos v
  have hmem : ∀ w ∈ ws, (w.1 ∈ metaCopies (some true) dpb ∧ found = some w.2) ∨ ∃ x ∈ A ++ B,
      w = (dataWriteIndex x.1 (some true) dpb, blockBytes v uid.bytes (UInt32.ofNat x.1) x.2) := by
    intro w hw
    rw [hws, List.mem_append, List.mem_append] at hw
    rcases hw with hw | hw | hw
    · obtain ⟨x, hx, rfl⟩ := List.mem_map.1 hw
      exact .inr ⟨x, List.mem_append_left _ hx, rfl⟩
    · obtain ⟨mb, hmb, hx⟩ := List.mem_flatMap.1 hw
      obtain ⟨k, hk, rfl⟩ := List.mem_map.1 hx
      exact .inl ⟨hk, by simpa using hmb⟩
    · obtain ⟨x, hx, rfl⟩ := List.mem_map.1 hw
      exact .inr ⟨x, List.mem_append_right _ hx, rfl⟩
  have hlen : ∀ w ∈ ws, w.2.length = blockLen v := by
    intro w hw
    rcases hmem w hw with ⟨-, h⟩ | ⟨x, hx, rfl⟩
    · obtain ⟨p, hp, -⟩ := hmeta _ h
      exact isBlock_length hp
    · exact isBlock_length (uid := uid) (seq := UInt32.ofNat x.1) ⟨rfl, (hlook x hx).2.2⟩
  obtain ⟨hL, hU⟩ := File.unit_writes hu ws hlen (f := []) (by simp)
  rw [← h3] at hL hU
  simp only [List.length_nil, Nat.zero_div] at hL hU
  have hmax : ∀ w ∈ ws, w.1 < File.maxUnits 0 ws := (File.maxUnits_le.1 (Nat.le_refl (File.maxUnits 0 ws))).2
  have hplace : ∀ k < File.maxUnits 0 ws, place v d.file k = (File.lastWrite ws k).getD (List.replicate (blockLen v) 0) := by
    intro k hk
    have := hU k hk
    rw [File.unit0, if_neg (by simp)] at this
    exact this
  have hsome : ∀ k b, File.lastWrite ws k = some b → place v d.file k = b := by
    intro k b hb
    rw [hplace k (hmax _ (File.lastWrite_some hb)), hb]
    rfl
  have wdata : ∀ s, s ≠ 0 → File.lastWrite ws (dataWriteIndex s (some true) dpb) =
      (File.lastWrite looked s).map fun p => blockBytes v uid.bytes (UInt32.ofNat s) p := by
    intro s hs
    rw [hws, File.lastWrite_append, File.lastWrite_append, lastWrite_metas, if_neg (C10_data_not_meta _ _ hv s (by omega)), Option.or_none,
      lastWrite_placed hv hs A (fun x hx => (hlook x (List.mem_append_left _ hx)).1),
      lastWrite_placed hv hs B (fun x hx => (hlook x (List.mem_append_right _ hx)).1), ← hdat s hs, File.lastWrite_append]
    cases File.lastWrite B s <;> rfl
  have wmeta : ∀ k ∈ metaCopies (some true) dpb, File.lastWrite ws k = found := by
    intro k hk
    have hno : ∀ l : List (Nat × List Byte), (∀ x ∈ l, x.1 ≠ 0) → File.lastWrite
        (l.map fun x => (dataWriteIndex x.1 (some true) dpb, blockBytes v uid.bytes (UInt32.ofNat x.1) x.2)) k = none := by
      intro l hl
      rw [File.lastWrite_none]
      intro w hw e
      obtain ⟨x, hx, rfl⟩ := List.mem_map.1 hw
      simp only at e
      exact C10_data_not_meta _ _ hv x.1 (by have := hl x hx; omega) (e ▸ hk)
    rw [hws, File.lastWrite_append, File.lastWrite_append, lastWrite_metas, if_pos hk,
      hno A (fun x hx => (hlook x (List.mem_append_left _ hx)).1), hno B (fun x hx => (hlook x (List.mem_append_right _ hx)).1),
      Option.none_or, Option.or_none]
  -- what a place that is written to holds
  have hwrote : ∀ k b, File.lastWrite ws k = some b →
      (∃ p, IsBlock b v uid 0 p ∧ k ∈ metaCopies (some true) dpb ∧ FirstMeta v uid f p) ∨
      ∃ s p, s ≠ 0 ∧ IsBlock b v uid s p ∧ k = dataWriteIndex s.toNat (some true) dpb ∧ LastBlock v uid f s p := by
    intro k b hb
    rcases hmem _ (File.lastWrite_some hb) with ⟨a1, a2⟩ | ⟨x, hx, e⟩
    · obtain ⟨p, hp, hfm⟩ := hmeta _ a2
      exact .inl ⟨p, hp, a1, hfm⟩
    · obtain ⟨x0, x1, x2⟩ := hlook x hx
      simp only [Prod.mk.injEq] at e
      obtain ⟨rfl, -⟩ := e
      rw [wdata _ x0, Option.map_eq_some_iff] at hb
      obtain ⟨p, hp, rfl⟩ := hb
      have hlb : LastBlock v uid f (UInt32.ofNat x.1) p := hlast.2 (by rw [ofNat_toNat32 x1]; exact hp)
      obtain ⟨_, hib, -⟩ := id hlb
      refine .inr ⟨UInt32.ofNat x.1, p, ?_, ⟨rfl, hib.len⟩, by rw [ofNat_toNat32 x1], hlb⟩
      intro h0
      apply x0
      rw [← ofNat_toNat32 x1, h0]; rfl
  refine ⟨?_, ?_, ?_, ?_, ⟨_, by rw [hL, Nat.mul_comm]⟩, ?_⟩
  · intro p hp k hk
    obtain ⟨a1, a2⟩ := hfirst.1 hp
    rw [hsome k _ (by rw [wmeta k hk, a2])]
    exact ⟨rfl, a1⟩
  · intro s p hs hlb
    have hs0 : s.toNat ≠ 0 := fun h => hs (UInt32.toNat_inj.1 (by rw [h]; rfl))
    have := hlast.1 hlb
    rw [hsome _ _ (by rw [wdata _ hs0, this]; rfl), UInt32.ofNat_toNat]
    obtain ⟨_, hib, -⟩ := hlb
    exact ⟨rfl, hib.len⟩
  · intro k s p hib
    have hk := isBlock_inside hib
    rw [hL, Nat.mul_div_cancel _ hu] at hk
    cases hw : File.lastWrite ws k with
    | none =>
      rw [hplace k hk, hw] at hib
      exact absurd hib zeros_no_block
    | some b =>
      rw [hsome k b hw] at hib
      rcases hwrote k b hw with ⟨p', a1, a2, a3⟩ | ⟨s', p', a0, a1, a2, a3⟩
      · obtain ⟨rfl, rfl⟩ := isBlock_seq hib a1
        exact .inl ⟨rfl, a2, a3⟩
      · obtain ⟨rfl, rfl⟩ := isBlock_seq hib a1
        exact .inr ⟨a0, a2, a3⟩
  · intro k hk hno
    rw [hL] at hk
    have hk : k < File.maxUnits 0 ws := Nat.lt_of_mul_lt_mul_right hk
    cases hw : File.lastWrite ws k with
    | none => rw [hplace k hk, hw]; rfl
    | some b =>
      exfalso
      rw [hsome k b hw] at hno
      rcases hwrote k b hw with ⟨p', a1, -⟩ | ⟨s', p', -, a1, -⟩
      · exact hno _ _ a1
      · exact hno _ _ a1
  · intro k hk
    rw [hL] at hk
    have hk' : File.maxUnits 0 ws = k + 1 := Nat.eq_of_mul_eq_mul_right hu hk
    cases hw : File.lastWrite ws k with
    | some b =>
      rw [hsome k b hw]
      rcases hwrote k b hw with ⟨p', a1, -⟩ | ⟨s', p', -, a1, -⟩
      · exact ⟨_, _, a1⟩
      · exact ⟨_, _, a1⟩
    | none =>
      exfalso
      rw [File.lastWrite_none] at hw
      have : File.maxUnits 0 ws ≤ k := by
        refine File.maxUnits_le.2 ⟨Nat.zero_le _, fun w hwm => ?_⟩
        have h4 := hmax w hwm
        have := hw w hwm
        omega
      omega

variable {v : Version} {uid : Uid} {dpb : Option Dpb} {f g g' : File}

/-- **C77.** This determines the sorted file. -/
theorem C77_unique (h : Sorted v uid dpb f g) (h' : Sorted v uid dpb f g') : g = g' := by
  have hu := blockLen_pos v
  have key : ∀ {g g' : File}, Sorted v uid dpb f g → Sorted v uid dpb f g' → ∀ k s p, IsBlock (place v g k) v uid s p →
      IsBlock (place v g' k) v uid s p := by
    intro g g' h h' k s p hib
    rcases h.only k s p hib with ⟨rfl, a2, a3⟩ | ⟨a1, rfl, a3⟩
    · exact h'.metas p a3 k a2
    · exact h'.datas s p a1 a3
  have hle : ∀ {g g' : File}, Sorted v uid dpb f g → Sorted v uid dpb f g' → g.length ≤ g'.length := by
    intro g g' h h'
    obtain ⟨n, hn⟩ := h.aligned
    rcases n with _ | n
    · omega
    · obtain ⟨s, p, hib⟩ := h.tight n (by rw [hn, Nat.mul_comm])
      have := isBlock_inside (key h h' n s p hib)
      rw [Nat.lt_div_iff_mul_lt hu] at this
      rw [hn, Nat.mul_comm, Nat.add_mul]
      omega
  have hlen : g.length = g'.length := Nat.le_antisymm (hle h h') (hle h' h)
  have hpl : ∀ k, k * blockLen v < g.length → place v g k = place v g' k := by
    intro k hk
    by_cases hb : ∃ s p, IsBlock (place v g k) v uid s p
    · obtain ⟨s, p, hib⟩ := hb
      rw [hib.bytes, (key h h' k s p hib).bytes]
    · rw [h.gaps k hk (fun s p hib => hb ⟨s, p, hib⟩), h'.gaps k (by omega) (fun s p hib => hb ⟨s, p, key h' h k s p hib⟩)]
  apply List.ext_getElem? 
  intro i
  by_cases hi : i < g.length
  · have hk : i / blockLen v * blockLen v ≤ i := Nat.div_mul_le_self _ _
    have hm := Nat.mod_lt i hu
    have e : i / blockLen v * blockLen v + i % blockLen v = i := by rw [Nat.mul_comm]; exact Nat.div_add_mod i _
    have := congrArg (·[i % blockLen v]?) (hpl (i / blockLen v) (by omega))
    unfold place File.readAt at this
    simp only [List.getElem?_take_of_lt hm, List.getElem?_drop, e] at this
    exact this
  · rw [List.getElem?_eq_none (by omega), List.getElem?_eq_none (by omega)]

/-- The blocks of the sorted file. -/
theorem Sorted.lastBlock (h : Sorted v uid dpb f g) {s : UInt32} {p : List Byte} (hs : s ≠ 0) :
    LastBlock v uid g s p ↔ LastBlock v uid f s p := by
  constructor
  · rintro ⟨k, hib, -⟩
    rcases h.only k s p hib with ⟨h0, -⟩ | ⟨-, -, h1⟩
    · exact absurd h0 hs
    · exact h1
  · intro hl
    refine ⟨_, h.datas s p hs hl, ?_⟩
    intro j hj p' hib
    rcases h.only j s p' hib with ⟨h0, -⟩ | ⟨-, h1, -⟩
    · exact hs h0
    · omega

theorem zero_copy (dpb : Option Dpb) : 0 ∈ metaCopies (some true) dpb := by
  cases dpb with
  | none => simp [metaCopies]
  | some d => exact List.mem_map.2 ⟨0, List.mem_range.2 (by omega), by simp⟩

theorem FirstMeta.unique {p p' : List Byte} (h : FirstMeta v uid f p) (h' : FirstMeta v uid f p') : p = p' := by
  obtain ⟨k, a1, a2⟩ := h
  obtain ⟨k', b1, b2⟩ := h'
  have h1 : ¬ k < k' := fun hlt => b2 k hlt _ a1
  have h2 : ¬ k' < k := fun hlt => a2 k' hlt _ b1
  have : k = k' := by omega
  subst this
  exact (isBlock_seq a1 b1).2

theorem Sorted.firstMeta (h : Sorted v uid dpb f g) {p : List Byte} : FirstMeta v uid g p ↔ FirstMeta v uid f p := by
  constructor
  · rintro ⟨k, hib, -⟩
    rcases h.only k 0 p hib with ⟨-, -, h1⟩ | ⟨h0, -⟩
    · exact h1
    · exact absurd rfl h0
  · intro hf
    exact ⟨0, h.metas p hf 0 (zero_copy dpb), fun j hj => by omega⟩

/-- A sorted file is sorted. -/
theorem Sorted.again (h : Sorted v uid dpb f g) : Sorted v uid dpb g g where
  metas p hp := h.metas p (h.firstMeta.1 hp)
  datas s p hs hp := h.datas s p hs ((h.lastBlock hs).1 hp)
  only k s p hib := (h.only k s p hib).imp (fun ⟨a, b, c⟩ => ⟨a, b, h.firstMeta.2 c⟩)
    (fun ⟨a, b, c⟩ => ⟨a, b, (h.lastBlock a).2 c⟩)
  gaps := h.gaps
  aligned := h.aligned
  tight := h.tight

/-- With the burst level stated, only the fields of the reference block matter. -/
theorem shards_same {q : RefParam} {ref : Block} (hb : q.burst ≠ none ∨ ref.header.version.usesRs = false)
    (hd : dataParBurst q true f ref = .ok dpb) : dataParBurst q true g ref = .ok dpb := by
  unfold dataParBurst at hd ⊢
  rcases hb with hb | hb
  · cases hq : q.burst with
    | none => exact absurd hq hb
    | some b =>
      unfold burstOrGuess at hd ⊢
      rw [hq] at hd
      exact hd
  · simp only [hb, Bool.false_eq_true, if_false] at hd ⊢
    exact hd

/-- The file begins with the metadata block. -/
theorem Sorted.start (h : Sorted v uid dpb f g) {mp : List Byte} (hm : FirstMeta v uid f mp) :
    IsBlock (g.readAt 0 (blockLen v)) v uid 0 mp := by
  have := h.metas mp hm 0 (zero_copy dpb)
  unfold place at this
  rwa [Nat.zero_mul] at this

/-- **C77.** Sorting the output of `sort` again changes nothing, whatever the file sorted first.  (The reference block is the first
metadata block of the archive; the burst level is stated or there is none.) -/
theorem C77_again (E : Sort.Env) (hE : E.Calm) (q : Sort.Param) (hq : Sort.Whole q) (hq' : DefaultRef q.ref) (f old old' : File)
    (pos : Nat) (v : Version) (uid : Uid) (mp : List Byte) (dpb : Option Dpb) (hv : Valid dpb)
    (hr : getRefBlockM q.ref q.ref.refChoice f E.stopRef (E.stop 0) = .ok (pos, blockOf v uid 0 mp)) (hm : FirstMeta v uid f mp)
    (hd : dataParBurst q.ref true f (blockOf v uid 0 mp) = .ok dpb) (hb : q.ref.burst ≠ none ∨ v.usesRs = false) :
    ∃ d st o d' st' o', Sort.sortFile E q f old = .ok (some d, st, o) ∧ Sort.sortFile E q d.file old' = .ok (some d', st', o') ∧
      d'.file = d.file := by
  obtain ⟨d, st, o, h1, h2⟩ := C77_sorted E hE q hq f old pos _ dpb hv hr hd
  have hv' : (blockOf v uid 0 mp).header.version = v := rfl
  have hu' : (blockOf v uid 0 mp).header.uid = uid := rfl
  rw [hv', hu'] at h2
  obtain ⟨d', st', o', h3, h4⟩ := C77_sorted E hE q hq d.file old' 0 _ dpb hv (ref_at_start hq' hE.stopRef (E.stop 0) (h2.start hm))
    (shards_same hb hd)
  exact ⟨d, st, o, d', st', o', h1, h3, C77_unique h4 h2.again⟩

/-- The chunks are those of the last block with each number. -/
theorem lastOf_chunks {dpb : Option Dpb} (hv : Valid dpb) (l : List (Nat × List Byte)) (j : Nat) :
    lastOf (chunks dpb l) j = File.lastWrite l (seqOf dpb j) := by
  rw [lastOf_eq]
  induction l with
  | nil => rfl
  | cons x l ih =>
    rw [File.lastWrite_cons, ← ih]
    unfold chunks
    rw [List.filterMap_cons]
    cases hc : chunkOf dpb x.1 with
    | none =>
      rw [if_neg, Option.or_none]
      · rfl
      · intro e
        rw [(chunkOf_iff hv).2 e] at hc
        simp at hc
    | some i =>
      simp only [Option.map_some]
      rw [File.lastWrite_cons]
      congr 1
      have he := (chunkOf_iff hv).1 hc
      by_cases hi : i = j
      · subst hi; rw [if_pos rfl, if_pos he]
      · rw [if_neg hi, if_neg (fun e => hi (seqOf_inj hv (by rw [← he, e])))]

/-- A container whose reference block and shard counts can be found is decoded. -/
theorem decodes {D : Decode.Env} (hD : D.Calm) {r : Decode.Param} (hw : Decode.Whole r) (old : File) {pos : Nat} {ref : Block}
    (hr : getRefBlockM r.ref r.ref.refChoice f D.stopRef (D.stop 0) = .ok (pos, ref)) (hd : dataParBurst r.ref true f ref = .ok dpb) :
    ∃ out R, toFile D r f old = .ok (out, R) := by
  obtain ⟨full, -, e⟩ := decodeFile_whole D hD.lots hD.stop hw ref f old dpb hd
  unfold toFile
  rw [hr]
  simp only
  rw [e]
  exact ⟨_, _, rfl⟩

theorem decode_sorted {dpb1 : Option Dpb} {D : Decode.Env} (hD : D.Calm) {r : Decode.Param} (hw : Decode.Whole r)
    {old1 old2 out : File} {R : Decode.Report} {pos pos' : Nat} {ref ref' : Block}
    (h : Sorted ref.header.version ref.header.uid dpb f g)
    (hr : getRefBlockM r.ref r.ref.refChoice f D.stopRef (D.stop 0) = .ok (pos, ref)) (hd : dataParBurst r.ref true f ref = .ok dpb1)
    (hval : Valid dpb1) (hok : toFile D r f old1 = .ok (out, R))
    (hr' : getRefBlockM r.ref r.ref.refChoice g D.stopRef (D.stop 0) = .ok (pos', ref'))
    (hver : ref'.header.version = ref.header.version) (huid : ref'.header.uid = ref.header.uid) (hdat : ref'.data = ref.data)
    (hd' : dataParBurst r.ref true g ref' = .ok dpb1) :
    ∃ R', toFile D r g old2 = .ok (out, R') ∧ R'.recorded = R.recorded ∧ R'.computed = R.computed ∧ R'.outSize = R.outSize := by
  obtain ⟨_, _, _, full, a1, a2, a3, rfl, a5, a6, a7⟩ := toFile_ok hD hw hok
  rw [hr] at a1
  simp only [Except.ok.injEq, Prod.mk.injEq] at a1
  obtain ⟨-, rfl⟩ := a1
  rw [hd] at a2
  simp only [Except.ok.injEq] at a2
  subst a2
  obtain ⟨out', R', hrun⟩ := decodes hD hw old2 hr' hd'
  obtain ⟨_, _, _, full', b1, b2, b3, rfl, b5, b6, b7⟩ := toFile_ok hD hw hrun
  rw [hr'] at b1
  simp only [Except.ok.injEq, Prod.mk.injEq] at b1
  obtain ⟨-, rfl⟩ := b1
  rw [hd'] at b2
  simp only [Except.ok.injEq] at b2
  subst b2
  have hfull : full' = full := by
    rw [← hver] at a3
    refine assembled_ext (FileUtils.dataSize_pos _) b3 a3 (fun j => ?_)
    rw [lastOf_chunks hval, lastOf_chunks hval]
    have hpos := seqOf_pos dpb1 j
    by_cases hlt : seqOf dpb1 j < 2 ^ 32
    · apply Option.ext
      intro p
      have hne : UInt32.ofNat (seqOf dpb1 j) ≠ 0 := by
        intro h0
        have := ofNat_toNat32 hlt
        rw [h0] at this
        have h00 : (0 : UInt32).toNat = 0 := rfl
        omega
      have e1 := @lastBlock_iff ref' g (UInt32.ofNat (seqOf dpb1 j)) p
      have e2 := @lastBlock_iff ref f (UInt32.ofNat (seqOf dpb1 j)) p
      rw [ofNat_toNat32 hlt] at e1 e2
      rw [← hver] at e2
      rw [← e1, ← e2, hver, huid]
      exact h.lastBlock hne
    · have hno : ∀ (ref : Block) (h : File), File.lastWrite ((List.range (h.length / blockLen ref.header.version)).filterMap
          (look ref h 0)) (seqOf dpb1 j) = none := by
        intro ref h
        rw [File.lastWrite_none]
        intro w hw e
        have := (mem_found.1 hw).1
        omega
      have := hno ref f
      rw [← hver] at this
      rw [hno, this]
  subst hfull
  have e1 : refFsz ref' = refFsz ref := by unfold refFsz getFsz; rw [hdat]
  have e2 : refHsh ref' = refHsh ref := by unfold refHsh getHsh; rw [hdat]
  have e3 : hashTypeOf ref' = hashTypeOf ref := by unfold hashTypeOf; rw [e2]
  have e4 : truncated ref' full' = truncated ref full' := by unfold truncated; rw [e1]
  rw [e4] at hrun b6 b7
  exact ⟨R', hrun, by rw [a5, b5, e2], by rw [a6, b6, e3], by rw [a7, b7]⟩

/-- **C77.** Decoding gives the same file and the same hash before and after sorting, whatever the file: damaged, incomplete, with
blocks repeated or contradicting each other.  (As above; `hok`: the file can be decoded at all.) -/
theorem C77_decode (E : Sort.Env) (hE : E.Calm) (q : Sort.Param) (hq : Sort.Whole q) (f old : File)
    (pos : Nat) (v : Version) (uid : Uid) (mp : List Byte) (dpb : Option Dpb) (hv : Valid dpb)
    (hr : getRefBlockM q.ref q.ref.refChoice f E.stopRef (E.stop 0) = .ok (pos, blockOf v uid 0 mp)) (hm : FirstMeta v uid f mp)
    (hd : dataParBurst q.ref true f (blockOf v uid 0 mp) = .ok dpb)
    (D : Decode.Env) (hD : D.Calm) (r : Decode.Param) (hw : Decode.Whole r) (hw' : DefaultRef r.ref)
    (hb : r.ref.burst ≠ none ∨ v.usesRs = false) (old1 old2 out : File) (R : Decode.Report) (pos' : Nat)
    (hr' : getRefBlockM r.ref r.ref.refChoice f D.stopRef (D.stop 0) = .ok (pos', blockOf v uid 0 mp))
    (hok : toFile D r f old1 = .ok (out, R)) :
    ∃ d st o R', Sort.sortFile E q f old = .ok (some d, st, o) ∧ toFile D r d.file old2 = .ok (out, R') ∧
      R'.recorded = R.recorded ∧ R'.computed = R.computed ∧ R'.outSize = R.outSize := by
  obtain ⟨d, st, o, h1, h2⟩ := C77_sorted E hE q hq f old pos _ dpb hv hr hd
  obtain ⟨_, _, dpb1, full, a1, a2, -⟩ := toFile_ok hD hw hok
  rw [hr'] at a1
  simp only [Except.ok.injEq, Prod.mk.injEq] at a1
  obtain ⟨-, rfl⟩ := a1
  have hval : Valid dpb1 := by
    intro x hx
    have := shards_congr hd a2 rfl rfl
    rw [hx] at this
    cases hdp : dpb with
    | none => rw [hdp] at this; simp at this
    | some y =>
      rw [hdp] at this
      simp only [Option.map_some, Option.some.injEq, Prod.mk.injEq] at this
      rw [this.1]
      exact hv y hdp
  obtain ⟨R', h3, h4⟩ := decode_sorted (old2 := old2) hD hw h2 hr' a2 hval hok (ref_at_start hw' hD.stopRef (D.stop 0) (Sorted.start h2 hm))
    rfl rfl rfl (shards_same hb a2)
  exact ⟨d, st, o, R', h1, h3, h4⟩

/-- A file made of data blocks and zeros, as met by the search for the reference block. -/
theorem pieces_data (bs : List (List Byte))
    (hb : ∀ b ∈ bs, (∃ s p, s ≠ 0 ∧ IsBlock b v uid s p) ∨ b = List.replicate (blockLen v) 0) :
    ∃ ps : List Piece, (∀ q ∈ ps, q.Ok) ∧ ps.flatMap Piece.bytes = bs.flatten ∧
      (∀ q ∈ ps, (∃ s p, s ≠ 0 ∧ q = .block v uid s p) ∨ ∃ j, q = .junk j) ∧
      ((∃ b ∈ bs, b ≠ List.replicate (blockLen v) 0) → ∃ s p, .block v uid s p ∈ ps) := by
  induction bs with
  | nil => exact ⟨[], by simp, rfl, by simp, by simp⟩
  | cons b bs ih =>
    obtain ⟨ps, h1, h2, h3, h4⟩ := ih (fun x hx => hb x (List.mem_cons_of_mem _ hx))
    rcases hb b List.mem_cons_self with ⟨s, p, hs, hp⟩ | rfl
    · refine ⟨.block v uid s p :: ps, ?_, ?_, ?_, fun _ => ⟨s, p, List.mem_cons_self⟩⟩
      · intro q hq
        rcases List.mem_cons.1 hq with rfl | hq
        · exact hp.len
        · exact h1 q hq
      · rw [List.flatMap_cons, h2, List.flatten_cons, hp.bytes]; rfl
      · intro q hq
        rcases List.mem_cons.1 hq with rfl | hq
        · exact .inl ⟨s, p, hs, rfl⟩
        · exact h3 q hq
    · obtain ⟨zs, z1, z2, z3, -⟩ := Sort.pieces_exist (v := v) (uid := uid) (mp := []) [List.replicate (blockLen v) 0] (by simp)
      have hjunk : ∀ q ∈ zs, ∃ j, q = .junk j := by
        intro q hq
        rcases z3 q hq with ⟨s, p, rfl, -⟩ | h
        · exfalso
          obtain ⟨l1, l2, rfl⟩ := List.append_of_mem hq
          have := congrArg (fun l => l.all (· == 0)) z2
          simp [Piece.bytes, blockBytes, headerBytes] at this
        · exact h
      refine ⟨zs ++ ps, ?_, ?_, ?_, ?_⟩
      · intro q hq
        rcases List.mem_append.1 hq with hq | hq
        · exact z1 q hq
        · exact h1 q hq
      · rw [List.flatMap_append, h2, z2, List.flatten_cons, List.flatten_cons, List.flatten_nil, List.append_nil]
      · intro q hq
        rcases List.mem_append.1 hq with hq | hq
        · exact .inr (hjunk q hq)
        · exact h3 q hq
      · rintro ⟨x, hx, hne⟩
        rcases List.mem_cons.1 hx with rfl | hx
        · exact absurd rfl hne
        · obtain ⟨s, p, h⟩ := h4 ⟨x, hx, hne⟩
          exact ⟨s, p, List.mem_append_right _ h⟩

theorem zero_block {n : Nat} {s : UInt32} {p : List Byte} : ¬ IsBlock (List.replicate n 0) v uid s p := by
  intro h
  have := congrArg (fun l => l.all (· == 0)) h.bytes
  simp [blockBytes, headerBytes] at this

/-- Of the blocks with a number one is the last. -/
theorem lastBlock_exists {k : Nat} {s : UInt32} {p : List Byte} (h : IsBlock (place v f k) v uid s p) : ∃ p', LastBlock v uid f s p' := by
  have key : ∀ n k p, f.length ≤ n + k → IsBlock (place v f k) v uid s p → ∃ p', LastBlock v uid f s p' := by
    intro n
    induction n with
    | zero =>
      intro k p hn hp
      have h1 := isBlock_inside hp
      have h2 := Nat.div_le_self f.length (blockLen v)
      omega
    | succ n ih =>
      intro k p hn hp
      by_cases hx : ∃ j, k < j ∧ ∃ p, IsBlock (place v f j) v uid s p
      · obtain ⟨j, hj, p', hp'⟩ := hx
        exact ih j p' (by omega) hp'
      · exact ⟨p, k, hp, fun j hj p' hp' => hx ⟨j, hj, p', hp'⟩⟩
  exact key f.length k p (by omega) h

/-- A sorted file without metadata blocks: the reference block is a data block. -/
theorem Sorted.data_ref (h : Sorted v uid dpb f g) (hmeta : ∀ k p, ¬ IsBlock (place v f k) v uid 0 p)
    (hblk : ∃ k s p, IsBlock (place v f k) v uid s p) {q : RefParam} (hq : DefaultRef q) (hc : q.refChoice ≠ .mustBe .metadata)
    {stop : Nat → Bool} (hs : ∀ i, stop i = false) (b : Bool) :
    ∃ pos s p, s ≠ 0 ∧ getRefBlockM q q.refChoice g stop b = .ok (pos, blockOf v uid s p) := by
  have hbl := blockLen_pos v
  have hno : ∀ k p, ¬ IsBlock (place v g k) v uid 0 p := by
    intro k p hp
    rcases h.only k 0 p hp with ⟨-, -, i, hi, -⟩ | ⟨h0, -⟩
    · exact hmeta i p hi
    · exact h0 rfl
  obtain ⟨n, hn⟩ := h.aligned
  have hcut : ∀ k b, (chunksOf (blockLen v) g)[k]? = some b ↔ k * blockLen v < g.length ∧ b = place v g k := by
    intro k b
    rw [chunksOf_getElem? (by omega)]
    unfold place File.readAt
    constructor
    · intro hk
      split at hk
      · exact ⟨by assumption, (Option.some.inj hk).symm⟩
      · simp at hk
    · rintro ⟨h1, rfl⟩
      rw [if_pos h1]
  obtain ⟨ps, p1, p2, p3, p4⟩ := pieces_data (v := v) (uid := uid) (chunksOf (blockLen v) g) (by
    intro b hb
    obtain ⟨k, hk⟩ := List.mem_iff_getElem?.1 hb
    obtain ⟨hk1, rfl⟩ := (hcut k b).1 hk
    by_cases hx : ∃ s p, IsBlock (place v g k) v uid s p
    · obtain ⟨s, p, hp⟩ := hx
      refine .inl ⟨s, p, ?_, hp⟩
      rintro rfl
      exact hno k p hp
    · exact .inr (h.gaps k hk1 (fun s p hp => hx ⟨s, p, hp⟩)))
  rw [chunksOf_flatten (by omega)] at p2
  have hex : ∃ s p, Piece.block v uid s p ∈ ps := by
    apply p4
    obtain ⟨k, s, p, hp⟩ := hblk
    have hs0 : s ≠ 0 := by rintro rfl; exact hmeta k p hp
    obtain ⟨p', hl⟩ := lastBlock_exists hp
    have hd := h.datas s p' hs0 hl
    refine ⟨_, List.mem_iff_getElem?.2 ⟨Layout.dataWriteIndex s.toNat (some true) dpb, (hcut _ _).2 ⟨?_, rfl⟩⟩, ?_⟩
    · by_contra hlt
      have e : place v g (Layout.dataWriteIndex s.toNat (some true) dpb) = [] := by
        unfold place File.readAt
        rw [List.drop_eq_nil_of_le (by omega), List.take_nil]
      rw [e] at hd
      exact absurd (congrArg List.length hd.bytes) (by simp [blockBytes, headerBytes])
    · intro e
      rw [e] at hd
      exact zero_block hd
  have hdat : ∀ x ∈ located 0 ps, ∃ s p, s ≠ 0 ∧ x.2 = blockOf v uid s p := by
    intro x hx
    obtain ⟨v', uid', s, p, h1, h2⟩ := Sort.mem_located hx
    rcases p3 _ h1 with ⟨s', p', hs', e⟩ | ⟨j, e⟩
    · cases e
      exact ⟨s, p, hs', h2⟩
    · cases e
  have hfirst : firstOf .metadata (located 0 ps) = none := by
    unfold firstOf
    rw [List.find?_eq_none]
    intro x hx
    obtain ⟨s, p, h1, h2⟩ := hdat x hx
    rw [h2]
    simp [blockOf, Block.blockType, h1]
  have hhead : chosen q.refChoice (located 0 ps) = (located 0 ps).head? := by
    unfold chosen
    rcases hq.choice with e | e | e
    · rw [e]
    · rw [e]; simp only [hfirst]
    · exact absurd e hc
  have hne : ∃ x, (located 0 ps).head? = some x := by
    obtain ⟨s, p, hp⟩ := hex
    obtain ⟨pos, hpos⟩ := Sort.located_mem (off := 0) hp
    cases hl : located 0 ps with
    | nil => rw [hl] at hpos; simp at hpos
    | cons x l => exact ⟨x, rfl⟩
  obtain ⟨x, hx⟩ := hne
  obtain ⟨s, p, h1, h2⟩ := hdat x (List.mem_of_head? hx)
  refine ⟨x.1, s, p, h1, ?_⟩
  unfold getRefBlockM
  rw [hq.refFrom, hq.refTo, hq.fromPos]
  simp only [Option.map_none, Option.or_none]
  rw [C34_choice g none none q.forceMisalign q.refChoice stop hs _ rfl, range_all]
  simp only [List.drop_zero]
  have hw := walk_pieces (if g.length = 0 then 1 else g.length) ps p1 [] (by simp) 0 (by
    rw [p2]; split <;> omega)
  rw [List.append_nil, p2] at hw
  rw [hw, hhead, hx, ← h2]

/-- **C77.** The same for an archive without error correction that lost all its metadata blocks. -/
theorem C77_decode_no_metadata (E : Sort.Env) (hE : E.Calm) (q : Sort.Param) (hq : Sort.Whole q) (f old : File)
    (pos : Nat) (ref : Block) (v : Version) (uid : Uid) (hrs : v.usesRs = false)
    (hr : getRefBlockM q.ref q.ref.refChoice f E.stopRef (E.stop 0) = .ok (pos, ref)) (hv : ref.header.version = v) (hu : ref.header.uid = uid)
    (hmeta : ∀ k p, ¬ IsBlock (place v f k) v uid 0 p) (hblk : ∃ k s p, IsBlock (place v f k) v uid s p)
    (D : Decode.Env) (hD : D.Calm) (r : Decode.Param) (hw : Decode.Whole r) (hw' : DefaultRef r.ref) (hc : r.ref.refChoice ≠ .mustBe .metadata)
    (old1 old2 out : File) (R : Decode.Report) (pos' : Nat) (s : UInt32) (p : List Byte) (hs : s ≠ 0)
    (hr' : getRefBlockM r.ref r.ref.refChoice f D.stopRef (D.stop 0) = .ok (pos', blockOf v uid s p))
    (hok : toFile D r f old1 = .ok (out, R)) :
    ∃ d st o R', Sort.sortFile E q f old = .ok (some d, st, o) ∧ toFile D r d.file old2 = .ok (out, R') ∧
      R'.recorded = R.recorded ∧ R'.computed = R.computed ∧ R'.outSize = R.outSize := by
  subst hv hu
  have hno : ∀ (q : RefParam) (f : File) (ref' : Block), ref'.header.version = ref.header.version →
      dataParBurst q true f ref' = .ok none := by
    intro q f ref' e
    unfold dataParBurst
    rw [e]
    simp only [hrs, Bool.false_eq_true, if_false]
  have hval : Valid none := by intro x hx; simp at hx
  obtain ⟨d, st, o, h1, h2⟩ := C77_sorted E hE q hq f old pos _ none hval hr (hno _ _ _ rfl)
  obtain ⟨pos2, s2, p2, hs2, h3⟩ := h2.data_ref hmeta hblk hw' hc hD.stopRef (D.stop 0)
  obtain ⟨R', h4, h5⟩ := decode_sorted (old2 := old2) hD hw (ref := blockOf ref.header.version ref.header.uid s p) h2 hr' (hno _ _ _ rfl)
    hval hok h3 rfl rfl (by simp [blockOf, hs, hs2]) (hno _ _ _ rfl)
  exact ⟨d, st, o, R', h1, h4, h5⟩

/-! ### Instances -/

/-- A metadata block of an archive with error correction, followed by whatever. -/
theorem demo_any (junk : File) : ∃ (mb : File) (mp : List Byte), mb.length = 512 ∧
    FirstMeta .v17 ⟨[1, 2, 3, 4, 5, 6], rfl⟩ (mb ++ junk) mp ∧
    IsBlock (File.readAt (mb ++ junk) 0 (blockLen .v17)) .v17 ⟨[1, 2, 3, 4, 5, 6], rfl⟩ 0 mp ∧
    ∀ q : RefParam, q.burst = some 3 →
      dataParBurst q true (mb ++ junk) (blockOf .v17 ⟨[1, 2, 3, 4, 5, 6], rfl⟩ 0 mp) = .ok (some ⟨10, 2, 3⟩) := by
  obtain ⟨f, mb, ms, h1, h2, h3, h4, h5, h6, h7, h8⟩ := Demo.rs_container
  obtain ⟨mp, hmb, rfl⟩ := h2
  have hl := isBlock_length hmb
  have h0 : IsBlock (File.readAt (mb ++ junk) 0 (blockLen .v17)) .v17 ⟨[1, 2, 3, 4, 5, 6], rfl⟩ 0 mp := by
    unfold File.readAt
    rw [List.drop_zero, List.take_left' hl]
    exact hmb
  refine ⟨mb, mp, hl, ⟨0, ?_, fun j hj => absurd hj (Nat.not_lt_zero j)⟩, h0, fun q hq => ?_⟩
  · unfold place
    rw [Nat.zero_mul]
    exact h0
  · exact Sort.shards_given _ rfl ⟨h4, h5⟩ _ _ (by intro d hd; cases hd; exact hq)

theorem demo_valid : Valid (some ⟨10, 2, 3⟩) := by intro d hd; cases hd; decide

/-- C77_sorted, C77_again: whatever follows the metadata block. -/
example (junk : File) : ∃ mb d st o d' st' o', mb ≠ [] ∧ Sort.sortFile Sort.calmEnv Sort.burstParam (mb ++ junk) [1, 2, 3] = .ok (some d, st, o) ∧
    Sorted .v17 ⟨[1, 2, 3, 4, 5, 6], rfl⟩ (some ⟨10, 2, 3⟩) (mb ++ junk) d.file ∧
    Sort.sortFile Sort.calmEnv Sort.burstParam d.file [4] = .ok (some d', st', o') ∧ d'.file = d.file := by
  obtain ⟨mb, mp, hl, hm, h0, hd⟩ := demo_any junk
  have hq : DefaultRef Sort.burstParam.ref := ⟨rfl, rfl, rfl, .inr (.inl rfl)⟩
  have hr := ref_at_start hq Sort.calm.stopRef (Sort.calmEnv.stop 0) h0
  obtain ⟨d, st, o, e1, e2⟩ := C77_sorted Sort.calmEnv Sort.calm Sort.burstParam ⟨rfl, rfl, rfl, rfl⟩ _ [1, 2, 3] 0 _ _ demo_valid hr
    (hd _ rfl)
  obtain ⟨d1, st1, o1, d', st', o', f1, f2, f3⟩ := C77_again Sort.calmEnv Sort.calm Sort.burstParam ⟨rfl, rfl, rfl, rfl⟩ hq _ [1, 2, 3] [4] 0
    _ _ _ _ demo_valid hr hm (hd _ rfl) (.inl (by decide))
  rw [e1] at f1
  cases f1
  refine ⟨mb, d, st, o, d', st', o', ?_, e1, e2, f2, f3⟩
  rintro rfl
  simp at hl

/-- C77_decode: whatever follows the metadata block. -/
example (junk : File) : ∃ (mb : File) (r : Decode.Param) (out : File) (R : Decode.Report) (d : Disk) (st : _) (o : _) (R' : Decode.Report), mb ≠ [] ∧
    toFile Decode.calmEnv r (mb ++ junk) [] = .ok (out, R) ∧
    Sort.sortFile Sort.calmEnv Sort.burstParam (mb ++ junk) [1, 2, 3] = .ok (some d, st, o) ∧
    toFile Decode.calmEnv r d.file [5] = .ok (out, R') ∧ R'.computed = R.computed := by
  obtain ⟨mb, mp, hl, hm, h0, hd⟩ := demo_any junk
  have hq : DefaultRef Sort.burstParam.ref := ⟨rfl, rfl, rfl, .inr (.inl rfl)⟩
  have hr := ref_at_start hq Sort.calm.stopRef (Sort.calmEnv.stop 0) h0
  have hr' := ref_at_start hq Decode.calm.stopRef (Decode.calmEnv.stop 0) h0
  obtain ⟨out, R, hrun⟩ := decodes (r := ⟨Sort.burstParam.ref, none⟩) Decode.calm ⟨rfl, rfl, rfl⟩ [] hr' (hd _ rfl)
  obtain ⟨d, st, o, R', e1, e2, -, e3, -⟩ := C77_decode Sort.calmEnv Sort.calm Sort.burstParam ⟨rfl, rfl, rfl, rfl⟩ _ [1, 2, 3] 0 _ _ _ _
    demo_valid hr hm (hd _ rfl) Decode.calmEnv Decode.calm ⟨Sort.burstParam.ref, none⟩ ⟨rfl, rfl, rfl⟩ hq (.inl (by decide)) [] [5] out R 0 hr' hrun
  refine ⟨mb, _, out, R, d, st, o, R', ?_, hrun, e1, e2, e3⟩
  rintro rfl
  simp at hl

theorem demo_no_meta (p1 p2 : List Byte) (l1 : p1.length = 496) (l2 : p2.length = 496) : ∃ (out : File) (R : Decode.Report) (d : Disk) (st : _) (o : _) (R' : Decode.Report),
    toFile Decode.calmEnv Decode.plainParam [demoBlock 2 p2, demoBlock 1 p2, demoBlock 1 p1].flatten [] =
      .ok (out, R) ∧
    Sort.sortFile Sort.calmEnv Sort.plainParam [demoBlock 2 p2, demoBlock 1 p2, demoBlock 1 p1].flatten [] =
      .ok (some d, st, o) ∧
    toFile Decode.calmEnv Decode.plainParam d.file [5] = .ok (out, R') ∧ R'.computed = R.computed := by
  generalize hf : [demoBlock 2 p2, demoBlock 1 p2, demoBlock 1 p1].flatten = f
  have b1 := demo_is 2 _ l2
  have b2 := demo_is 1 _ l2
  have b3 := demo_is 1 _ l1
  have hfl : ∀ b ∈ [demoBlock 2 p2, demoBlock 1 p2, demoBlock 1 p1], b.length = blockLen .v1 := by
    intro b hb
    simp only [List.mem_cons, List.not_mem_nil, or_false] at hb
    rcases hb with rfl | rfl | rfl
    · exact isBlock_length b1
    · exact isBlock_length b2
    · exact isBlock_length b3
  have hmeta : ∀ k p, ¬ IsBlock (place .v1 f k) .v1 demoUid 0 p := by
    intro k p hp
    have hh : HasBlock .v1 demoUid f 0 p := ⟨k, hp⟩
    rw [← hf, hasBlock_flatten hfl] at hh
    obtain ⟨b, hb, hi⟩ := hh
    simp only [List.mem_cons, List.not_mem_nil, or_false] at hb
    rcases hb with rfl | rfl | rfl
    · exact absurd (isBlock_seq hi b1).1 (by decide)
    · exact absurd (isBlock_seq hi b2).1 (by decide)
    · exact absurd (isBlock_seq hi b3).1 (by decide)
  have hblk : ∃ k s p, IsBlock (place .v1 f k) .v1 demoUid s p := by
    have hh : HasBlock .v1 demoUid f 2 p2 := by
      rw [← hf, hasBlock_flatten hfl]
      exact ⟨_, by simp, b1⟩
    obtain ⟨k, hk⟩ := hh
    exact ⟨k, _, _, hk⟩
  have hg : getRefBlock f none none false (.prefer .metadata) (fun _ => false) = some (0, blockOf .v1 demoUid 2 p2) := by
    have h := C34_archive [.block .v1 demoUid 2 p2, .block .v1 demoUid 1 p2, .block .v1 demoUid 1 p1] []
      (by
        intro p hp
        simp only [List.mem_cons, List.not_mem_nil, or_false] at hp
        rcases hp with rfl | rfl | rfl
        · exact l2
        · exact l2
        · exact l1) (by simp) (.prefer .metadata) (fun _ => false) (fun _ => rfl)
    rw [List.append_nil] at h
    rw [← hf]
    exact h
  have hr : getRefBlockM Sort.plainParam.ref Sort.plainParam.ref.refChoice f Sort.calmEnv.stopRef (Sort.calmEnv.stop 0) =
      .ok (0, blockOf .v1 demoUid 2 p2) := by
    unfold getRefBlockM
    have e : getRefBlock f (Sort.plainParam.ref.refFrom.or (Sort.plainParam.ref.fromPos.map (· % scanBlockSize))) Sort.plainParam.ref.refTo
        Sort.plainParam.ref.forceMisalign Sort.plainParam.ref.refChoice Sort.calmEnv.stopRef = some (0, blockOf .v1 demoUid 2 p2) := hg
    rw [e]
  have hr' : getRefBlockM Decode.plainParam.ref Decode.plainParam.ref.refChoice f Decode.calmEnv.stopRef (Decode.calmEnv.stop 0) =
      .ok (0, blockOf .v1 demoUid 2 p2) := hr
  obtain ⟨out, R, hrun⟩ := decodes Decode.calm Decode.plain_whole [] hr' rfl
  obtain ⟨d, st, o, R', e1, e2, -, e3, -⟩ := C77_decode_no_metadata Sort.calmEnv Sort.calm Sort.plainParam ⟨rfl, rfl, rfl, rfl⟩ f [] 0 _ .v1
    demoUid rfl hr rfl rfl hmeta hblk Decode.calmEnv Decode.calm Decode.plainParam Decode.plain_whole Decode.plain_ref (by decide)
    [] [5] out R 0 2 p2 (by decide) hr' hrun
  exact ⟨out, R, d, st, o, R', hrun, e1, e2, e3⟩

/-- C77_decode_no_metadata: the two data blocks of a container in the wrong order, one of them twice with different contents. -/
example := demo_no_meta demoPayload1 demoPayload2 List.length_replicate demo_len2

end Verif.SortedSpec
