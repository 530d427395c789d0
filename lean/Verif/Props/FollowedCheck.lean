import Verif.Props.Followed
import Verif.Props.Approved
/-!
# C82: what `check` says about a container that is followed by something

What follows a container does not change what `check` finds in the container or says about the hash of the stored data; but every place of
what follows that is not blank is counted as a failed block.
-/

namespace Verif.Followed
open Format ContainerSpec LayoutSpec Layout RepairSpec UpdateSpec ScanSpec Scan DecodeSpec History Misc CheckSpec

/-! ### Counting -/

theorem div_append {v : Version} {c : File} (hal : blockLen v ∣ c.length) (z : File) :
    (c ++ z).length / blockLen v = c.length / blockLen v + z.length / blockLen v := by
  obtain ⟨m, hm⟩ := hal
  have hu := blockLen_pos v
  rw [List.length_append, hm, Nat.mul_add_div hu, Nat.mul_div_cancel_left _ hu]

theorem placeBytes_piece (v : Version) (f : File) (k : Nat) : placeBytes v f 0 k = piece v f k := by
  unfold placeBytes piece
  rw [Nat.zero_add]

/-- Places of a file of whole blocks and of what follows are counted separately. -/
theorem count_append {v : Version} {c : File} (hal : blockLen v ∣ c.length) (z : File) (P : List Byte → Prop) :
    countPlaces v (c ++ z) 0 ((c ++ z).length / blockLen v) P =
      countPlaces v c 0 (c.length / blockLen v) P + countPlaces v z 0 (z.length / blockLen v) P := by
  have hu := blockLen_pos v
  rw [div_append hal]
  unfold countPlaces
  rw [List.range_add, List.countP_append, List.countP_map]
  congr 1
  · refine List.countP_congr fun k hk => ?_
    have hk' := Approved.place_le hu (List.mem_range.1 hk)
    rw [Nat.succ_mul] at hk'
    rw [placeBytes_piece, placeBytes_piece, (piece_append hal z k).1 (by omega)]
  · refine List.countP_congr fun k hk => ?_
    have e : c.length ≤ (c.length / blockLen v + k) * blockLen v := by
      rw [Nat.add_mul, Nat.div_mul_cancel hal]; omega
    simp only [Function.comp]
    rw [placeBytes_piece, placeBytes_piece, (piece_append hal z _).2 e, Nat.add_sub_cancel_left]

theorem count_congr {v : Version} {f : File} {m : Nat} {P Q : List Byte → Prop} (h : ∀ k < m, P (piece v f k) ↔ Q (piece v f k)) :
    countPlaces v f 0 m P = countPlaces v f 0 m Q := by
  unfold countPlaces
  refine List.countP_congr fun k hk => ?_
  rw [placeBytes_piece]
  simp only [decide_eq_true_eq]
  exact h k (List.mem_range.1 hk)

theorem count_none {v : Version} {f : File} {m : Nat} {P : List Byte → Prop} (h : ∀ k < m, ¬ P (piece v f k)) :
    countPlaces v f 0 m P = 0 := by
  unfold countPlaces
  refine List.countP_eq_zero.2 fun k hk => ?_
  rw [placeBytes_piece]
  simp only [decide_eq_true_eq]
  exact h k (List.mem_range.1 hk)

theorem count_all (v : Version) (f : File) (m : Nat) : countPlaces v f 0 m (fun _ => True) = m := by
  unfold countPlaces
  rw [List.countP_eq_length.2 (fun k _ => by simp), List.length_range]

open Classical in
theorem count_or {v : Version} {f : File} {m : Nat} {P Q : List Byte → Prop} (h : ∀ b, P b → Q b → False) :
    countPlaces v f 0 m (fun b => P b ∨ Q b) = countPlaces v f 0 m P + countPlaces v f 0 m Q := by
  unfold countPlaces
  induction m with
  | zero => rfl
  | succ m ih =>
    rw [List.range_succ, List.countP_append, List.countP_append, List.countP_append, ih]
    have := h (placeBytes v f 0 m)
    by_cases hp : P (placeBytes v f 0 m) <;> by_cases hq : Q (placeBytes v f 0 m) <;> simp [hp, hq] at this ⊢ <;> omega

open Classical in
theorem count_compl (v : Version) (f : File) (m : Nat) (P : List Byte → Prop) :
    countPlaces v f 0 m P + countPlaces v f 0 m (fun b => ¬ P b) = m := by
  unfold countPlaces
  have := (List.range m).length_eq_countP_add_countP (fun k => decide (P (placeBytes v f 0 k)))
  rw [List.length_range] at this
  refine Eq.trans ?_ this.symm
  congr 1
  refine List.countP_congr fun k _ => ?_
  simp

/-- All counters of a run over the whole file. -/
theorem check_counters {E : Check.Env} (hE : ∀ i, E.stopCheck i = false) {p : Check.Param} (hfrom : p.ref.fromPos = none)
    (hto : p.ref.toPos = none) {f : File} {r : Check.Report} (h : Check.checkFile E p f = .ok r) {st : Check.Stats} (hst : r.blocks = some st)
    {pos : Nat} {ref : Block} (href : getRefBlockM p.ref p.ref.refChoice f E.stopRef (E.stopCheck 0) = .ok (pos, ref)) :
    let v := ref.header.version
    let n := f.length / blockLen v
    st.metas = countPlaces v f 0 n (IsMeta v ref.header.uid) ∧ st.datas = countPlaces v f 0 n (IsData v ref.header.uid) ∧
    st.okayBlank = (if p.reportBlank then 0 else countPlaces v f 0 n IsBlank) ∧
    st.failed = countPlaces v f 0 n (IsBad v ref.header.uid) + (if p.reportBlank then countPlaces v f 0 n IsBlank else 0) := by
  obtain ⟨_, _, m, e1, -, e2, a1, a2, a3, a4, -⟩ := Check.C38_check E p f r h st hst
  rw [href] at e1
  simp only [Except.ok.injEq, Prod.mk.injEq] at e1
  obtain ⟨rfl, rfl⟩ := e1
  have hrange : Check.rangeOf p.ref ref f = ⟨if f.length = 0 then 1 else f.length, 0⟩ := by
    unfold Check.rangeOf
    rw [hfrom, hto]
    exact Decode.range_all _ _ _
  have hm : m = f.length / blockLen ref.header.version := by
    rw [e2 hE, hrange]
    unfold places
    rw [Nat.sub_zero, Nat.min_eq_right]
    have hpos := blockLen_pos ref.header.version
    show _ ≤ ceilDiv (if f.length = 0 then 1 else f.length) _
    have hle : f.length ≤ (if f.length = 0 then 1 else f.length) := by split <;> omega
    revert hle
    generalize (if f.length = 0 then 1 else f.length) = n
    intro hle
    have := Nat.div_le_div_right (c := blockLen ref.header.version) hle
    unfold ceilDiv
    split <;> omega
  rw [hrange, hm] at a1 a2 a3 a4
  exact ⟨a1, a2, a3, a4⟩

/-- **C82, blocks.** `f` is a file of whole blocks, damaged or not, that begins with its metadata block, and `z` anything without blocks of
the same container.  Checked with what follows, `f` has the same blocks, the same number of blank places, and the same number of failed
blocks; each place of `z` that is not blank (or each one, with `--report-blank`) is a failed block too. -/
theorem C82_blocks (E : Check.Env) (hs : ∀ i, E.stopRef i = false) (hE : ∀ i, E.stopCheck i = false) (p : Check.Param)
    (hr : Decode.DefaultRef p.ref) (hto : p.ref.toPos = none) (v : Version) (uid : Uid) (mp : List Byte) (f z : File)
    (hal : blockLen v ∣ f.length) (hstart : IsBlock (File.readAt f 0 (blockLen v)) v uid 0 mp) (hz : Foreign v uid z)
    (r₁ r₂ : Check.Report) (h₁ : Check.checkFile E p f = .ok r₁) (h₂ : Check.checkFile E p (f ++ z) = .ok r₂) (st₁ st₂ : Check.Stats)
    (hst₁ : r₁.blocks = some st₁) (hst₂ : r₂.blocks = some st₂) :
    st₂.metas = st₁.metas ∧ st₂.datas = st₁.datas ∧
    st₂.failed = st₁.failed + countPlaces v z 0 (z.length / blockLen v) (fun b => p.reportBlank = true ∨ ¬ IsBlank b) ∧
    st₂.okayBlank = st₁.okayBlank + countPlaces v z 0 (z.length / blockLen v) (fun b => p.reportBlank = false ∧ IsBlank b) := by
  have hfrom : p.ref.fromPos = none := hr.fromPos
  have hstart' : IsBlock (File.readAt (f ++ z) 0 (blockLen v)) v uid 0 mp := by
    rw [File.readAt_append_left]
    · exact hstart
    · have := isBlock_length hstart
      rw [File.readAt_length] at this
      omega
  obtain ⟨a1, a2, a3, a4⟩ := check_counters hE hfrom hto h₁ hst₁ (Decode.ref_at_start hr hs (E.stopCheck 0) hstart)
  obtain ⟨b1, b2, b3, b4⟩ := check_counters hE hfrom hto h₂ hst₂ (Decode.ref_at_start hr hs (E.stopCheck 0) hstart')
  have hm : ∀ k, ¬ IsMeta v uid (piece v z k) := fun k ⟨q, h⟩ => hz k ⟨_, q, h⟩
  have hd : ∀ k, ¬ IsData v uid (piece v z k) := fun k ⟨s, q, _, h⟩ => hz k ⟨s, q, h⟩
  change st₁.metas = countPlaces v f 0 (f.length / blockLen v) (IsMeta v uid) at a1
  change st₁.datas = countPlaces v f 0 (f.length / blockLen v) (IsData v uid) at a2
  change st₁.okayBlank = (if p.reportBlank then 0 else countPlaces v f 0 (f.length / blockLen v) IsBlank) at a3
  change st₁.failed = countPlaces v f 0 (f.length / blockLen v) (IsBad v uid) +
    (if p.reportBlank then countPlaces v f 0 (f.length / blockLen v) IsBlank else 0) at a4
  change st₂.metas = countPlaces v (f ++ z) 0 ((f ++ z).length / blockLen v) (IsMeta v uid) at b1
  change st₂.datas = countPlaces v (f ++ z) 0 ((f ++ z).length / blockLen v) (IsData v uid) at b2
  change st₂.okayBlank = (if p.reportBlank then 0 else countPlaces v (f ++ z) 0 ((f ++ z).length / blockLen v) IsBlank) at b3
  change st₂.failed = countPlaces v (f ++ z) 0 ((f ++ z).length / blockLen v) (IsBad v uid) +
    (if p.reportBlank then countPlaces v (f ++ z) 0 ((f ++ z).length / blockLen v) IsBlank else 0) at b4
  rw [count_append hal] at b1 b2 b3 b4
  rw [count_append hal] at b4
  have z1 := count_none (m := z.length / blockLen v) fun k _ => hm k
  have z2 := count_none (m := z.length / blockLen v) fun k _ => hd k
  have z3 : countPlaces v z 0 (z.length / blockLen v) (IsBad v uid) = countPlaces v z 0 (z.length / blockLen v) (fun b => ¬ IsBlank b) :=
    count_congr fun k _ => ⟨fun h => h.2.2, fun h => ⟨hm k, hd k, h⟩⟩
  refine ⟨by rw [b1, a1, z1, Nat.add_zero], by rw [b2, a2, z2, Nat.add_zero], ?_, ?_⟩
  · cases hrb : p.reportBlank with
    | false =>
      rw [hrb] at a4 b4
      simp only [Bool.false_eq_true, if_false, Nat.add_zero, false_or] at a4 b4 ⊢
      rw [b4, a4, z3]
    | true =>
      rw [hrb] at a4 b4
      simp only [if_true, true_or] at a4 b4 ⊢
      have z4 := count_compl v z (z.length / blockLen v) IsBlank
      rw [b4, a4, z3, count_all]
      omega
  · cases hrb : p.reportBlank with
    | false =>
      rw [hrb] at a3 b3
      simp only [Bool.false_eq_true, if_false, true_and] at a3 b3 ⊢
      rw [b3, a3]
    | true =>
      rw [hrb] at a3 b3
      simp only [if_true, Bool.true_eq_false, false_and] at a3 b3 ⊢
      rw [b3, a3, count_none fun _ _ h => h]

/-! ### The hash -/

theorem atPlace_append {ref : Block} {c z : File} (hal : blockLen ref.header.version ∣ c.length)
    (hz : Foreign ref.header.version ref.header.uid z) (k s : Nat) : Expect.atPlace ref (c ++ z) k s = Expect.atPlace ref c k s := by
  apply Option.ext
  intro b
  show Expect.atPlace ref (c ++ z) k s = some b ↔ Expect.atPlace ref c k s = some b
  rw [Expect.atPlace_some, Expect.atPlace_some, block_append hal hz]

theorem content_append {ref : Block} {c z : File} (hal : blockLen ref.header.version ∣ c.length)
    (hz : Foreign ref.header.version ref.header.uid z) (dpb : Option Dpb) :
    ∀ n s rest, ContentHash.content ref dpb (c ++ z) n s rest = ContentHash.content ref dpb c n s rest := by
  intro n
  induction n with
  | zero => intros; rfl
  | succ n ih =>
    intro s rest
    unfold ContentHash.content
    simp only [atPlace_append hal hz, ih]

/-- **C82, hash.** With or without what follows, `check` fails with the same error, or it says the same about the hash: the one recorded and the
one computed are the same. -/
theorem C82_hash (S : Setting) (hS : S.Ok) (ms : List Metadata) (c z : File) (hk : Kept S ms c) (hz : Foreign S.version S.uid z)
    (E : Check.Env) (hL : 0 < E.lotCount) (hs : ∀ i, E.stopRef i = false) (hstop : ∀ i, E.stopHash i = false) (p : Check.Param)
    (hr : Decode.DefaultRef p.ref) (hg : p.ref.guessFrom = none) (hb : Decode.BurstKnown p.ref.burst S.dpb S.blocks) :
    (Check.checkFile E p (c ++ z)).map (·.hash) = (Check.checkFile E p c).map (·.hash) := by
  obtain ⟨mp, hcon, hmp, hms⟩ := hk.container
  have hblock : IsBlock (blockBytes S.version S.uid.bytes 0 mp) S.version S.uid 0 mp := ⟨rfl, metasToBytes_length hms⟩
  have href := Decode.ref_at_start hr hs (E.stopCheck 0) (start_append hcon hblock z)
  have href' := Decode.ref_at_start hr hs (E.stopCheck 0) (Decode.container_start hcon hblock)
  have hd := shards_append hS hk hcon hmp hblock hz p.ref true hb (fun _ => hg)
  have hd' := Decode.container_shards hS.lengths hS.shards hS.consistent hcon hblock (by rw [hmp]; exact ⟨hk.data, hk.parity⟩) hS.numbers
    p.ref true hb (fun _ => hg)
  have key : ∀ n h, n = S.bytes.length → Check.hashStored E p (c ++ z) (blockOf S.version S.uid 0 mp) n h = Check.hashStored E p c (blockOf S.version S.uid 0 mp) n h := by
    intro n h hnl
    unfold Check.hashStored
    rw [hd, hd']
    simp only
    by_cases hn : 0 < n
    · rw [ContentHash.hash_spec _ hL hstop _ _ _ _ hn, ContentHash.hash_spec _ hL hstop _ _ _ _ hn, content_append (ref := blockOf S.version S.uid 0 mp) hcon.aligned hz]
    · have he : S.bytes = [] := by rw [← List.length_eq_zero_iff]; omega
      have hnone : Expect.atPlace (blockOf S.version S.uid 0 mp) c (dataWriteIndex 1 none S.dpb) 1 = none := by
        cases h : Expect.atPlace (blockOf S.version S.uid 0 mp) c (dataWriteIndex 1 none S.dpb) 1 with
        | none => rfl
        | some q =>
          obtain ⟨-, hq⟩ := Expect.atPlace_some.1 h
          have ho := (blocks_append hS hcon hblock hz).1 (UInt32.ofNat 1) q (by decide) ((hasBlock_append hcon.aligned hz _ _).2 ⟨_, hq⟩)
          have hps : payloads S.rs S.version S.dpb (fileChunks S.version S.bytes) = [] := by
            have : fileChunks S.version S.bytes = [] := by rw [he]; unfold fileChunks chunksOf; simp
            rw [this]
            cases S.dpb with
            | none => rfl
            | some d => unfold payloads; simp [chunksOf]
          rw [hps] at ho
          simp at ho
      rw [ContentHash.hash_missing_first _ hL hstop _ _ _ _ hS.valid _ hnone, ContentHash.hash_missing_first _ hL hstop _ _ _ _ hS.valid _
        (by rw [atPlace_append (ref := blockOf S.version S.uid 0 mp) hcon.aligned hz]; exact hnone)]
  unfold Check.checkFile
  rw [href, href']
  simp only
  cases hw : Check.hashWanted p (blockOf S.version S.uid 0 mp) with
  | error e => simp only [Except.map]
  | ok w =>
    cases w with
    | none => simp only [Except.map, Option.map_none]
    | some x =>
      obtain ⟨n, h⟩ := x
      have hn : n = S.bytes.length := by
        unfold Check.hashWanted at hw
        split at hw
        · simp at hw
        · rw [getFsz_meta (Decode.metas_blockOf (v := S.version) (uid := S.uid) (mp := mp)), getHsh_meta Decode.metas_blockOf, hmp, hk.size] at hw
          cases h2 : firstHsh ms with
          | none => rw [h2] at hw; simp at hw
          | some hb' =>
            rw [h2] at hw
            simp only at hw
            split at hw
            · simp only [Except.ok.injEq, Option.some.injEq, Prod.mk.injEq] at hw
              exact hw.1.symm
            · simp at hw
      simp only [Except.map, Option.map_some, key n h hn]

/-! ### Containers -/

/-- **C82.** A container with nothing wrong, followed by something: the failed blocks are the places of what follows that are not blank. -/
theorem C82_intact (S : Setting) (hS : S.Ok) (ms : List Metadata) (c z : File) (hk : Kept S ms c) (hz : Foreign S.version S.uid z)
    (E : Check.Env) (hs : ∀ i, E.stopRef i = false) (hE : ∀ i, E.stopCheck i = false) (p : Check.Param) (hr : Decode.DefaultRef p.ref)
    (hto : p.ref.toPos = none) (hblank : p.reportBlank = false) (r : Check.Report) (h : Check.checkFile E p (c ++ z) = .ok r)
    (st : Check.Stats) (hst : r.blocks = some st) :
    st.failed = countPlaces S.version z 0 (z.length / blockLen S.version) (fun b => ¬ IsBlank b) := by
  obtain ⟨mp, hcon, hmp, hms⟩ := hk.container
  have hblock : IsBlock (blockBytes S.version S.uid.bytes 0 mp) S.version S.uid 0 mp := ⟨rfl, metasToBytes_length hms⟩
  have hb := Approved.check_whole hE hr.fromPos hto h hst (Decode.ref_at_start hr hs (E.stopCheck 0) (start_append hcon hblock z))
  rw [hblank] at hb
  change st.failed = countPlaces S.version (c ++ z) 0 ((c ++ z).length / blockLen S.version) (IsBad S.version S.uid) + 0 at hb
  rw [hb, Nat.add_zero, count_append hcon.aligned, count_none fun k hk' => Approved.container_not_bad hS.lengths hS.valid hcon
    (fun _ => ⟨mp, hblock⟩) hS.numbers k (Approved.place_le (blockLen_pos _) hk'), Nat.zero_add]
  exact count_congr fun k _ => ⟨fun h => h.2.2, fun h => ⟨fun ⟨q, h⟩ => hz k ⟨_, q, h⟩, fun ⟨s, q, _, h⟩ => hz k ⟨s, q, h⟩, h⟩⟩

theorem isBlock_not_blank {bs : List Byte} {v : Version} {uid : Uid} {s : UInt32} {q : List Byte} (h : IsBlock bs v uid s q) : ¬ IsBlank bs := by
  intro hb
  have := (block_head h).1
  have hm := hb _ (List.mem_of_getElem? this)
  revert hm
  cases v <;> decide

/-- **C82, false alarm.** Two intact containers of the same version one after the other: checked together, each of the metadata, data and
parity blocks that `check` finds in the second one when it is checked alone is a failed block.  So there is at least one. -/
theorem C82_concatenated (S T : Setting) (hS : S.Ok) (hT : T.Ok) (ms ms' : List Metadata) (c c' : File) (hk : Kept S ms c)
    (hk' : Kept T ms' c') (hv : T.version = S.version) (hne : T.uid ≠ S.uid) (E : Check.Env) (hs : ∀ i, E.stopRef i = false)
    (hE : ∀ i, E.stopCheck i = false) (p : Check.Param) (hr : Decode.DefaultRef p.ref) (hto : p.ref.toPos = none)
    (hblank : p.reportBlank = false) (r r' : Check.Report) (h : Check.checkFile E p (c ++ c') = .ok r)
    (h' : Check.checkFile E p c' = .ok r') (st st' : Check.Stats) (hst : r.blocks = some st) (hst' : r'.blocks = some st') :
    st.failed = st'.metas + st'.datas ∧ st'.failed = 0 ∧ 0 < st.failed := by
  have hz := (C80_container S T hT ms' c' hk' (by rw [hv]) (.inr hne)).1
  have e1 := C82_intact S hS ms c c' hk hz E hs hE p hr hto hblank r h st hst
  obtain ⟨mp, hcon, hmp, hms⟩ := hk'.container
  have hblock : IsBlock (blockBytes T.version T.uid.bytes 0 mp) T.version T.uid 0 mp := ⟨rfl, metasToBytes_length hms⟩
  have hstart := Decode.container_start hcon hblock
  obtain ⟨a1, a2, -, a4⟩ := check_counters hE hr.fromPos hto h' hst' (Decode.ref_at_start hr hs (E.stopCheck 0) hstart)
  change st'.metas = countPlaces T.version c' 0 (c'.length / blockLen T.version) (IsMeta T.version T.uid) at a1
  change st'.datas = countPlaces T.version c' 0 (c'.length / blockLen T.version) (IsData T.version T.uid) at a2
  rw [hblank] at a4
  change st'.failed = countPlaces T.version c' 0 (c'.length / blockLen T.version) (IsBad T.version T.uid) + 0 at a4
  have hnb : ∀ k < c'.length / blockLen T.version, ¬ IsBad T.version T.uid (piece T.version c' k) := fun k hk' =>
    Approved.container_not_bad hT.lengths hT.valid hcon (fun _ => ⟨mp, hblock⟩) hT.numbers k (Approved.place_le (blockLen_pos _) hk')
  rw [count_none hnb] at a4
  rw [← hv] at e1
  have e2 : countPlaces T.version c' 0 (c'.length / blockLen T.version) (fun b => ¬ IsBlank b) =
      countPlaces T.version c' 0 (c'.length / blockLen T.version) (IsMeta T.version T.uid) +
      countPlaces T.version c' 0 (c'.length / blockLen T.version) (IsData T.version T.uid) := by
    rw [← count_or fun b ⟨q, hq⟩ ⟨s, q', hs0, hq'⟩ => hs0 (isBlock_seq hq hq').1.symm]
    refine count_congr fun k hk' => ⟨fun hb => ?_, ?_⟩
    · by_contra hno
      exact hnb k hk' ⟨fun x => hno (.inl x), fun x => hno (.inr x), hb⟩
    · rintro (⟨q, hq⟩ | ⟨s, q, -, hq⟩) <;> exact isBlock_not_blank hq
  have hpos : 0 < st'.metas := by
    rw [a1]
    unfold countPlaces
    rw [List.countP_pos_iff]
    refine ⟨0, List.mem_range.2 ?_, ?_⟩
    · have := isBlock_length hstart
      rw [File.readAt_length] at this
      have hu := blockLen_pos T.version
      exact Nat.div_pos (by omega) hu
    · rw [placeBytes_piece]
      simp only [decide_eq_true_eq]
      refine ⟨mp, ?_⟩
      unfold piece
      rw [Nat.zero_mul]
      exact hstart
  refine ⟨by rw [e1, e2, a1, a2], a4, ?_⟩
  rw [e1, e2, ← a1]
  omega

/-! ### Only the container -/

/-- The positions that end a check with the last byte of a file of this length. -/
def EndsAt (n : Nat) (e : RangeEnd) : Prop := e = .inc (n - 1) ∨ e = .exc n

/-- **C82, range.** If the end of the range to be checked is the end of `f` then all counters are those of `f` alone, whatever follows. -/
theorem C82_range (E : Check.Env) (hs : ∀ i, E.stopRef i = false) (hE : ∀ i, E.stopCheck i = false) (p p' : Check.Param)
    (hr : Decode.DefaultRef p.ref) (hr' : Decode.DefaultRef p'.ref) (hto : p.ref.toPos = none) (v : Version) (uid : Uid) (mp : List Byte)
    (f z : File) (hal : blockLen v ∣ f.length) (hstart : IsBlock (File.readAt f 0 (blockLen v)) v uid 0 mp) (e : RangeEnd)
    (he : EndsAt f.length e) (hto' : p'.ref.toPos = some e) (hrep : p'.reportBlank = p.reportBlank) (r₁ r₂ : Check.Report)
    (h₁ : Check.checkFile E p f = .ok r₁) (h₂ : Check.checkFile E p' (f ++ z) = .ok r₂) (st₁ st₂ : Check.Stats)
    (hst₁ : r₁.blocks = some st₁) (hst₂ : r₂.blocks = some st₂) :
    st₂.metas = st₁.metas ∧ st₂.datas = st₁.datas ∧ st₂.failed = st₁.failed ∧ st₂.okayBlank = st₁.okayBlank := by
  have hu := blockLen_pos v
  have hlf : blockLen v ≤ f.length := by
    have := isBlock_length hstart
    rw [File.readAt_length] at this
    omega
  have hstart' : IsBlock (File.readAt (f ++ z) 0 (blockLen v)) v uid 0 mp := by
    rw [File.readAt_append_left (by omega)]
    exact hstart
  obtain ⟨a1, a2, a3, a4⟩ := check_counters hE hr.fromPos hto h₁ hst₁ (Decode.ref_at_start hr hs (E.stopCheck 0) hstart)
  obtain ⟨_, _, m, e1, -, e2, b1, b2, b3, b4, -⟩ := Check.C38_check E p' (f ++ z) r₂ h₂ st₂ hst₂
  rw [Decode.ref_at_start hr' hs (E.stopCheck 0) hstart'] at e1
  simp only [Except.ok.injEq, Prod.mk.injEq] at e1
  obtain ⟨rfl, rfl⟩ := e1
  have hrange : Check.rangeOf p'.ref (blockOf v uid 0 mp) (f ++ z) = ⟨f.length, 0⟩ := by
    unfold Check.rangeOf byteRange
    rw [hr'.fromPos, hto']
    have h0 : align p'.ref.forceMisalign ((some (blockOf v uid 0 mp).header.version.blockSize).getD scanBlockSize) 0 = 0 := by
      unfold align roundDown
      split <;> simp
    have hl : (f ++ z).length = f.length + z.length := List.length_append
    have hend : endInc (some e) 0 (lastPossiblePos (.len (f ++ z).length)) = f.length - 1 := by
      have hlast : lastPossiblePos (.len (f ++ z).length) = f.length + z.length - 1 := by
        show (if (f ++ z).length = 0 then 0 else (f ++ z).length - 1) = _
        rw [hl, if_neg (by omega)]
      rw [hlast]
      rcases he with rfl | rfl
      · show min (max (f.length - 1) 0) _ = _
        omega
      · show min (max (wrapPred f.length) 0) _ = _
        unfold wrapPred
        rw [if_neg (by omega)]
        omega
    simp only [startPos, Nat.add_zero]
    rw [h0, hend]
    simp only [Range.mk.injEq]
    omega
  have hm : m = f.length / blockLen v := by
    rw [e2 hE, hrange]
    obtain ⟨q, hq⟩ := hal
    have hdiv := div_append (v := v) (c := f) ⟨q, hq⟩ z
    unfold places
    rw [Nat.sub_zero]
    change min (ceilDiv f.length (blockLen v)) ((f ++ z).length / blockLen v) = _
    rw [hdiv]
    have : ceilDiv f.length (blockLen v) = f.length / blockLen v := by
      unfold ceilDiv
      rw [hq, Nat.mul_mod_right, if_pos rfl]
    rw [this]
    exact Nat.min_eq_left (Nat.le_add_right _ _)
  have hcount : ∀ P, countPlaces v (f ++ z) 0 (f.length / blockLen v) P = countPlaces v f 0 (f.length / blockLen v) P := by
    intro P
    unfold countPlaces
    refine List.countP_congr fun k hk => ?_
    have hk' := Approved.place_le hu (List.mem_range.1 hk)
    rw [Nat.succ_mul] at hk'
    rw [placeBytes_piece, placeBytes_piece, (piece_append hal z k).1 (by omega)]
  rw [hrange, hm] at b1 b2 b3 b4
  rw [hrep] at b3 b4
  change _ = countPlaces v (f ++ z) 0 (f.length / blockLen v) _ at b1 b2
  change _ = (if p.reportBlank then 0 else countPlaces v (f ++ z) 0 (f.length / blockLen v) IsBlank) at b3
  change _ = countPlaces v (f ++ z) 0 (f.length / blockLen v) (IsBad v uid) +
    (if p.reportBlank then countPlaces v (f ++ z) 0 (f.length / blockLen v) IsBlank else 0) at b4
  rw [hcount] at b1 b2 b3 b4
  rw [hcount] at b4
  exact ⟨b1.trans a1.symm, b2.trans a2.symm, b4.trans a4.symm, b3.trans a3.symm⟩

/-! ### Instances -/

/-- `check` without hashing, with this end of the range. -/
def upTo (e : Option RangeEnd) : Check.Param := { Approved.plainCheck with ref := { Decode.plainParam.ref with toPos := e } }

theorem check_runs {E : Check.Env} (e : Option RangeEnd) (hs : ∀ i, E.stopRef i = false) {v : Version} {uid : Uid} {mp : List Byte} {f : File}
    (hm : IsBlock (File.readAt f 0 (blockLen v)) v uid 0 mp) :
    ∃ r st, Check.checkFile E (upTo e) f = .ok r ∧ r.blocks = some st := by
  unfold Check.checkFile
  rw [Decode.ref_at_start (q := (upTo e).ref) ⟨rfl, rfl, rfl, Decode.plain_ref.choice⟩ hs (E.stopCheck 0) hm]
  exact ⟨_, _, rfl, rfl⟩

/-- C82_blocks, C82_intact, C82_hash: a container followed by 700 zeros. -/
example : ∃ c : File, ∃ ms, Kept demo ms c ∧
    (∃ r r' st st', Check.checkFile Check.smallEnv Approved.plainCheck c = .ok r ∧ r.blocks = some st ∧
      Check.checkFile Check.smallEnv Approved.plainCheck (c ++ List.replicate 700 0) = .ok r' ∧ r'.blocks = some st' ∧
      st'.metas = st.metas ∧ st'.failed = 0 ∧ st'.okayBlank = st.okayBlank + 1) ∧
    (Check.checkFile Check.smallEnv Check.hashParam (c ++ List.replicate 700 0)).map (·.hash) =
      (Check.checkFile Check.smallEnv Check.hashParam c).map (·.hash) := by
  obtain ⟨hS, dk, rep, ms, -, hk⟩ := demo_start
  obtain ⟨z1, -⟩ := C80_zeros demo.version demo.uid 700
  obtain ⟨mp, hcon, hmp, hms⟩ := hk.container
  have hblock : IsBlock (blockBytes demo.version demo.uid.bytes 0 mp) demo.version demo.uid 0 mp := ⟨rfl, metasToBytes_length hms⟩
  obtain ⟨r, st, a1, a2⟩ := check_runs (E := Check.smallEnv) none (fun _ => rfl) (Decode.container_start hcon hblock)
  obtain ⟨r', st', b1, b2⟩ := check_runs (E := Check.smallEnv) none (fun _ => rfl) (start_append hcon hblock (List.replicate 700 0))
  have hb := C82_blocks Check.smallEnv (fun _ => rfl) (fun _ => rfl) Approved.plainCheck Decode.plain_ref rfl demo.version demo.uid mp dk.file _
    hcon.aligned (Decode.container_start hcon hblock) z1 r r' a1 b1 st st' a2 b2
  have hi := C82_intact demo hS ms dk.file _ hk z1 Check.smallEnv (fun _ => rfl) (fun _ => rfl) Approved.plainCheck Decode.plain_ref rfl rfl r'
    b1 st' b2
  have hblank : ∀ k, IsBlank (piece demo.version (List.replicate 700 0) k) := by
    intro k b hb
    obtain ⟨m, hm⟩ := piece_zeros demo.version 700 k
    rw [hm] at hb
    exact List.eq_of_mem_replicate hb
  have hlen : (List.replicate 700 (0 : Byte)).length / blockLen demo.version = 1 := by
    rw [List.length_replicate]
    rfl
  refine ⟨dk.file, ms, hk, ⟨r, r', st, st', a1, a2, b1, b2, hb.1, ?_, ?_⟩, C82_hash demo hS ms dk.file _ hk z1 Check.smallEnv (by decide)
    (fun _ => rfl) (fun _ => rfl) Check.hashParam ⟨rfl, rfl, rfl, .inr (.inl rfl)⟩ rfl (guessable rfl _)⟩
  · rw [hi, count_none fun k _ h => h (hblank k)]
  · rw [hb.2.2.2, hlen, count_congr (Q := fun _ => True) fun k _ => ⟨fun _ => trivial, fun _ => ⟨rfl, hblank k⟩⟩, count_all]

/-- C82_concatenated: two intact containers. -/
example : ∃ c c' : File, ∃ ms ms' r st, Kept demo ms c ∧ Kept other ms' c' ∧
    Check.checkFile Check.smallEnv Approved.plainCheck (c ++ c') = .ok r ∧ r.blocks = some st ∧ 0 < st.failed := by
  obtain ⟨hS, dk, rep, ms, -, hk⟩ := demo_start
  obtain ⟨hT, ms', c', hk'⟩ := other_start
  obtain ⟨mp, hcon, hmp, hms⟩ := hk.container
  have hblock : IsBlock (blockBytes demo.version demo.uid.bytes 0 mp) demo.version demo.uid 0 mp := ⟨rfl, metasToBytes_length hms⟩
  obtain ⟨mp', hcon', -, hms'⟩ := hk'.container
  have hblock' : IsBlock (blockBytes other.version other.uid.bytes 0 mp') other.version other.uid 0 mp' := ⟨rfl, metasToBytes_length hms'⟩
  obtain ⟨r', st', b1, b2⟩ := check_runs (E := Check.smallEnv) none (fun _ => rfl) (Decode.container_start hcon' hblock')
  obtain ⟨r, st, a1, a2⟩ := check_runs (E := Check.smallEnv) none (fun _ => rfl) (start_append hcon hblock c')
  refine ⟨dk.file, c', ms, ms', r, st, hk, hk', a1, a2, (C82_concatenated demo other hS hT ms ms' dk.file c' hk hk' rfl (by
    intro h
    have := congrArg Uid.bytes h
    revert this
    change ¬ ([9, 8, 7, 6, 5, 4] : List Byte) = [1, 2, 3, 4, 5, 6]
    decide) Check.smallEnv (fun _ => rfl) (fun _ => rfl) Approved.plainCheck Decode.plain_ref rfl rfl r r' a1 b1 st st' a2 b2).2.2⟩

/-- C82_range: a container followed by 1000 bytes with value 9, checked up to its end. -/
example : ∃ c : File, ∃ ms r r' st st', Kept demo ms c ∧ Check.checkFile Check.smallEnv (upTo none) c = .ok r ∧ r.blocks = some st ∧
    Check.checkFile Check.smallEnv (upTo (some (.exc c.length))) (c ++ List.replicate 1000 9) = .ok r' ∧ r'.blocks = some st' ∧
    st'.failed = st.failed := by
  obtain ⟨hS, dk, rep, ms, -, hk⟩ := demo_start
  obtain ⟨mp, hcon, hmp, hms⟩ := hk.container
  have hblock : IsBlock (blockBytes demo.version demo.uid.bytes 0 mp) demo.version demo.uid 0 mp := ⟨rfl, metasToBytes_length hms⟩
  obtain ⟨r, st, a1, a2⟩ := check_runs (E := Check.smallEnv) none (fun _ => rfl) (Decode.container_start hcon hblock)
  obtain ⟨r', st', b1, b2⟩ := check_runs (E := Check.smallEnv) (some (.exc dk.file.length)) (fun _ => rfl)
    (start_append hcon hblock (List.replicate 1000 9))
  exact ⟨dk.file, ms, r, r', st, st', hk, a1, a2, b1, b2, (C82_range Check.smallEnv (fun _ => rfl) (fun _ => rfl) (upTo none)
    (upTo (some (.exc dk.file.length))) ⟨rfl, rfl, rfl, Decode.plain_ref.choice⟩ ⟨rfl, rfl, rfl, Decode.plain_ref.choice⟩ rfl demo.version
    demo.uid mp dk.file _ hcon.aligned (Decode.container_start hcon hblock) _ (.inr rfl) rfl rfl r r' a1 b1 st st' a2 b2).2.2.1⟩

end Verif.Followed
