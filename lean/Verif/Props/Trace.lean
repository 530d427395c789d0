import Verif.Props.History
/-!
# C72: damage and repairs leave no trace, and the order of repairs and updates does not matter

A container is damaged, updated while it is damaged, repaired, the repairs interrupted, damaged again.  After a last repair it is, byte for
byte, what the updates alone would have made of it.
-/

namespace Verif.History
open Format ContainerSpec LayoutSpec Layout RepairSpec UpdateSpec ScanSpec Scan Misc

variable {S : Setting} {ms : List Metadata} {c f : File} {d : Dpb}

/-- The copies of the metadata block are inside the container. -/
theorem Kept.inside (hk : Kept S ms c) {k : Nat} (hm : k ∈ metaCopies (some true) S.dpb) : (k + 1) * blockLen S.version ≤ c.length := by
  obtain ⟨mp, hcon, hmp, hms⟩ := hk.container
  have hb : IsBlock (piece S.version c k) S.version S.uid 0 mp := ⟨hcon.metas k hm, metasToBytes_length hms⟩
  have hl := isBlock_length hb
  have hu := blockLen_pos S.version
  unfold piece at hl
  rw [File.readAt_length] at hl
  rw [Nat.succ_mul]
  omega

/-- In a damaged container some copy of the metadata block is intact. -/
theorem Damaged.copy (hS : S.Ok) (hd : S.dpb = some d) (hB : 1 ≤ d.burst) (hg : Damaged S d c f) :
    ∃ k ∈ metaCopies (some true) S.dpb, piece S.version f k = piece S.version c k := by
  obtain ⟨bursts, b1, b2, b3⟩ := hg.bursts
  obtain ⟨k, hk, hh⟩ := C13_super_sets d hB (hS.shards d hd).1 (some true) bursts (fun b hb => by have := b1 b hb; omega) (b2 0)
  refine ⟨k, by rw [hd]; exact hk, ?_⟩
  rcases b3 k with e | e
  · exact e
  · rw [hh] at e; simp at e

/-- What `update` finds out about a damaged container. -/
theorem sees_damaged (hS : S.Ok) (hk : Kept S ms c) (hd : S.dpb = some d) (hB : 1 ≤ d.burst) (hg : Damaged S d c f) {E : Update.Env}
    (hE : E.Calm) {p : Update.Param} (hb : p.burst = some d.burst) {mp : List Byte}
    (hcon : IsContainer S.rs S.version S.uid.bytes true S.dpb S.bytes (blockBytes S.version S.uid.bytes 0 mp) c)
    (hmp : metasFromBytes mp = ms) (hlen : mp.length = blockLen S.version - 16) :
    Update.Sees E p f S.version S.uid mp S.dpb := by
  obtain ⟨mp', hs, hmp'⟩ := hk.sound hS hd
  obtain ⟨bursts, b1, b2, b3⟩ := hg.bursts
  obtain ⟨hcase, -, -⟩ := Repair.case_of_bursts (E := ⟨S.rs, E.stopRef, fun _ => false, fun _ => false⟩) hS.laws
    ⟨hE.stopRef, fun _ => rfl, fun _ => rfl⟩ hs hB hg.length b1 b2 b3
  obtain ⟨pos, h1, -⟩ := hcase.sees.found
  have h0 : (0 : Nat) ∈ metaCopies (some true) S.dpb := by
    rw [hd]; exact List.mem_map.2 ⟨0, List.mem_range.2 (by omega), by simp⟩
  have : mp' = mp := by
    have e1 : piece S.version c 0 = _ := hcon.metas 0 h0
    have e2 : piece S.version c 0 = _ := hs.container.metas 0 (by rw [← hd]; exact h0)
    exact (isBlock_seq (show IsBlock (piece S.version c 0) S.version S.uid 0 mp' from ⟨e2, metasToBytes_length hs.plain⟩)
      (show IsBlock (piece S.version c 0) S.version S.uid 0 mp from ⟨e1, hlen⟩)).2
  subst this
  refine ⟨⟨pos, h1⟩, ?_⟩
  have hver : (blockOf S.version S.uid 0 mp').header.version = S.version := rfl
  unfold dataParBurst burstOrGuess
  rw [hver, if_pos hs.rs, getRsd_meta Decode.metas_blockOf, getRsp_meta Decode.metas_blockOf, hs.data, hs.parity,
    show p.ref.burst = some d.burst from hb, hd]
  rfl

/-- What a damaged container stores, the container stores. -/
theorem Damaged.stored (hg : Damaged S d c f) {bytes : List Byte} (h : StoredSpec.Stored S.version S.uid S.dpb f bytes) :
    StoredSpec.Stored S.version S.uid S.dpb c bytes := by
  obtain ⟨bursts, b1, b2, b3⟩ := hg.bursts
  intro j hj
  obtain ⟨q, ⟨s, h1, h2, h3⟩, h4⟩ := h j hj
  refine ⟨q, ⟨s, h1, h2, ?_⟩, h4⟩
  rcases b3 (dataWriteIndex s none S.dpb) with e | ⟨-, e⟩
  · rw [← e]; exact h3
  · exact absurd h3 (Repair.Broken.not_block e)

/-- Every chunk of the file has a number. -/
theorem Setting.Ok.numbered (hS : S.Ok) {f : File} (hk : Kept S ms f) (j : Nat) (hj : j * (blockLen S.version - 16) < S.bytes.length) :
    StoredSpec.Numbered S.dpb j := by
  obtain ⟨mp, hcon, -⟩ := hk.container
  obtain ⟨q, ⟨s, h1, h2, -⟩, -⟩ := ContentHash.stored_container hS.lengths hS.valid hcon hS.numbers j hj
  exact ⟨s, h1, h2⟩

/-- The fields `update` writes to a damaged container are those it would write to the container. -/
theorem fields_damaged (hS : S.Ok) (hk : Kept S ms c) (hg : Damaged S d c f) {E : Update.Env} (hE : E.Calm) {p : Update.Param} {mp : List Byte}
    (hmp : metasFromBytes mp = ms)
    (hhash : ∀ t, p.hashType = some t → t.supported = true ∧ firstFsz ms = some S.bytes.length ∧ S.bytes ≠ []) {fields : List Metadata}
    (hw : Update.Wanted E p f S.version S.uid mp S.dpb fields) :
    fields = (match p.hashType with
      | none => p.update
      | some t => withHash (E.hash.bytes t S.bytes) p.update) := by
  obtain ⟨mp0, hcon, -, -⟩ := hk.container
  unfold Update.Wanted at hw
  cases ht : p.hashType with
  | none => rw [ht] at hw; exact hw
  | some t =>
    obtain ⟨t1, t2, t3⟩ := hhash t ht
    rw [ht] at hw
    obtain ⟨n, h, w1, w2, w3⟩ := hw
    rw [hmp, t2, Option.some.injEq] at w1
    subst w1
    have hnum := fun j => hS.numbered hk j
    generalize hlen : S.bytes.length = n at *
    have hpos : 0 < n := by rw [← hlen]; exact List.length_pos_iff.2 t3
    obtain ⟨bytes, l1, l2, l3⟩ := ContentHash.C42_only_stored E.hash E.lotCount hE.lots E.stopHash hE.stopHash t f
      (blockOf S.version S.uid 0 mp) S.dpb hS.valid n hpos hnum h w2
    have l2 : StoredSpec.Stored S.version S.uid S.dpb f bytes := l2
    have hne : bytes ≠ [] := by
      rintro rfl
      simp at l1
      omega
    have g1 := ContentHash.C42_hash E.hash E.lotCount hE.lots E.stopHash hE.stopHash t c (blockOf S.version S.uid 0 mp) S.dpb hS.valid bytes
      hne (hg.stored l2)
    have g2 := ContentHash.C42_container E.hash E.lotCount hE.lots E.stopHash hE.stopHash t S.rs S.version S.uid S.dpb hS.lengths hS.valid
      S.bytes _ c t3 hcon hS.numbers mp
    rw [l1] at g1
    rw [hlen, g1] at g2
    rw [w3, Update.setHash_eq, l3, Except.ok.inj g2]

/-- `update` of a damaged container: it does nothing, or does to the damaged container what it does to the container itself. -/
theorem update_damaged (hS : S.Ok) (hk : Kept S ms c) (hd : S.dpb = some d) (hB : 1 ≤ d.burst) (hg : Damaged S d c f) (E : Update.Env)
    (hE : E.Calm) (q : Update.Cli) (hq : Request S q) (hb : q.burst = some d.burst) :
    ((Update.updateFile E (q.param S.hash) f).1.file = f ∧ (q.dryRun = true ∨ ∃ e, (Update.updateFile E (q.param S.hash) f).2 = .error e)) ∨
    (q.dryRun = false ∧ (∃ st, (Update.updateFile E (q.param S.hash) f).2 = .ok st) ∧
      (∃ st, (Update.updateFile E (q.param S.hash) c).2 = .ok st) ∧
      Damaged S d (Update.updateFile E (q.param S.hash) c).1.file (Update.updateFile E (q.param S.hash) f).1.file) := by
  have hrq : (q.param S.hash).dryRun = q.dryRun := rfl
  have hpb : (q.param S.hash).burst = some d.burst := hb
  generalize hp : q.param S.hash = p at *
  have hdry : p.dryRun = true → (Update.updateFile E p f).1.file = f := by
    intro h
    rw [Update.C27_update_dry E p f h]; rfl
  by_cases hdr : q.dryRun = true
  · exact .inl ⟨hdry (hrq.trans hdr), .inl hdr⟩
  have hreal : p.dryRun = false := by rw [hrq]; simpa using hdr
  rcases hres : (Update.updateFile E p f).2 with e | st
  · left
    refine ⟨?_, .inr ⟨e, rfl⟩⟩
    rw [Update.C28_error_unchanged E hE.sticky p (hp ▸ Update.cli_hashOk _ _) f e hres]; rfl
  right
  refine ⟨by simpa using hdr, ⟨st, rfl⟩, ?_⟩
  obtain ⟨mp, hcon, hmp, hms⟩ := hk.container
  have hlen := metasToBytes_length hms
  have hblock : IsBlock (blockBytes S.version S.uid.bytes 0 mp) S.version S.uid 0 mp := ⟨rfl, hlen⟩
  have hsees := sees_damaged hS hk hd hB hg hE hpb hcon hmp hlen
  have hsees' : Update.Sees E p c S.version S.uid mp S.dpb := sees hS hk hcon hmp hblock hE (hp ▸ hq.burst)
  obtain ⟨bursts, b1, b2, b3⟩ := hg.bursts
  have hplain : p.Plain := hp ▸ request_plain hq
  have hhashOk : p.HashOk := hp ▸ Update.cli_hashOk _ _
  have hhash : ∀ t, p.hashType = some t → t.supported = true ∧ firstFsz ms = some S.bytes.length ∧ S.bytes ≠ [] := by
    intro t ht
    rw [← hp] at ht
    obtain ⟨⟨name, hn⟩, hne⟩ := hq.hash t ht
    exact ⟨(ofStr_type hn).1, hk.size, hne⟩
  -- there is room for the fields
  have hroom : metaSpace (changed p.update p.remove ms) ≤ blockLen S.version - 16 := by
    by_contra hno
    obtain ⟨k, hkm, e⟩ := Damaged.copy hS hd hB hg
    obtain ⟨-, h2⟩ := Update.C28_no_fit E hE.sticky p f S.version S.uid mp S.dpb hsees k hkm mp
      (by rw [e, show piece S.version c k = _ from hcon.metas k hkm]; exact hblock) (by rw [hmp]; omega)
    obtain ⟨e, he⟩ := h2 hE.stopTest
    rw [he] at hres
    simp at hres
  -- what happens to the container
  obtain ⟨dk, bs, h1, h2, h3, h4⟩ := Update.container_written E hE p hhashOk hreal S.rs
    S.version S.uid S.dpb S.bytes _ c hS.lengths hS.shards hS.consistent hcon ms ⟨mp, hblock, hmp⟩ ⟨hk.data, hk.parity⟩ hS.numbers
    (hp ▸ hq.burst) hhash hroom
  refine ⟨⟨_, congrArg Prod.snd h1⟩, ?_⟩
  -- what happens to the damaged one
  rcases Update.updateFile_cases E p f with ⟨e', h'⟩ | ⟨v', uid', mp', dpb', fields, hs', hw, hc, h'⟩
  · rw [h'] at hres; simp at hres
  obtain ⟨e, rfl, rfl, rfl⟩ := Update.sees_unique hsees hs'
  have hfs : fields = (match p.hashType with
      | none => p.update
      | some t => withHash (E.hash.bytes t S.bytes) p.update) := by
    have hmp' : metasFromBytes mp' = ms := by
      have := congrArg Block.metas e
      rw [Decode.metas_blockOf, Decode.metas_blockOf] at this
      rw [← hmp]
      exact Option.some.inj this
    exact fields_damaged hS hk hg hE hmp' hhash hw
  rw [e] at hc h'
  have hfit : metaSpace (changed fields p.remove ms) ≤ blockLen S.version - 16 := by
    rw [Update.wanted_space hhashOk hw]; exact hroom
  have h4' : metasToBytes (changed fields p.remove ms) (blockLen S.version - 16) = some bs := by rw [hfs]; exact h4
  have hnew : ∀ k ∈ metaCopies (some true) S.dpb, piece S.version f k = piece S.version c k →
      piece S.version (Update.updateFile E p f).1.file k = blockBytes S.version S.uid.bytes 0 bs := by
    intro k hkm hkp
    have hblk : IsBlock (piece S.version f k) S.version S.uid 0 mp := by
      rw [hkp, show piece S.version c k = _ from hcon.metas k hkm]; exact hblock
    have hcr := Update.real_ok hE.sticky (fun k => Update.fits_congr (Update.wanted_space hhashOk hw p.remove) f k) hc
    have hin := Update.course_all (stop := E.stopRun) hE.stopRun (i := 0)
      ((Update.metaCopies_sorted S.dpb).imp fun {a b} hab => Update.isFull_mono (blockOf S.version S.uid 0 mp) f hab) hcr k hkm
      (by unfold Update.isFull; simp only [decide_eq_true_eq]; exact (isBlock_length hblk).ge)
    have hpre := Update.course_prefix (Update.isFull (blockOf S.version S.uid 0 mp) f) (Update.fits (blockOf S.version S.uid 0 mp) fields p.remove f)
      E.stopRun 0 (metaCopies (some true) S.dpb)
    obtain ⟨-, w2, -⟩ := Update.written (blockOf S.version S.uid 0 mp) fields p.remove f _
      (hpre.sublist.nodup ((Update.metaCopies_sorted S.dpb).imp Nat.ne_of_lt)) fun k hk => (Update.course_fit k hk).1
    rw [h', Update.updateBlocks_spec, show (⟨f, []⟩ : Disk).file = f from rfl, hreal]
    simp only [Bool.not_false, if_true]
    rw [Disk.file_writes, show (⟨f, []⟩ : Disk).file = f from rfl]
    refine w2 k hin _ ?_
    unfold Update.newAt
    rw [(Update.fieldsAt_iff (ref := blockOf S.version S.uid 0 mp)).2 ⟨mp, hblk, rfl⟩, Option.map_some, hmp,
      show blockLen (blockOf S.version S.uid 0 mp).header.version = blockLen S.version from rfl, h4']
    rfl
  have hcnew : ∀ k ∈ metaCopies (some true) S.dpb,
      piece S.version (Update.updateFile E p c).1.file k = blockBytes S.version S.uid.bytes 0 bs := by
    intro k hkm
    rw [h1]
    exact h2.metas k hkm
  have hkeep := fun k hk => Update.C28_data_untouched E p f S.version S.uid mp S.dpb hsees k hk
  have hkeep' := fun k hk => Update.C28_data_untouched E p c S.version S.uid mp S.dpb hsees' k hk
  refine ⟨?_, ⟨bursts, b1, b2, ?_⟩, ?_⟩
  · rw [(Update.C28_only_metadata E p f).1, (Update.C28_only_metadata E p c).1, hg.length]
  · intro k
    by_cases hkm : k ∈ metaCopies (some true) S.dpb
    · rcases b3 k with e | ⟨e1, e2⟩
      · exact .inl ((hnew k hkm e).trans (hcnew k hkm).symm)
      · right
        rw [hkeep k (.inr fun q hq => Repair.Broken.not_block e2 hq)]
        exact ⟨e1, e2⟩
    · rw [hkeep k (.inl hkm), hkeep' k (.inl hkm)]
      exact b3 k
  · intro k hkm hks
    rw [hkeep k (.inl (by rw [hd]; exact hkm))]
    exact hg.gaps k hkm hks

/-- An `update` that computes no hash succeeds on the damaged container if it does on the container. -/
theorem update_damaged_ok (hS : S.Ok) (hk : Kept S ms c) (hd : S.dpb = some d) (hB : 1 ≤ d.burst) (hg : Damaged S d c f) (E : Update.Env)
    (hE : E.Calm) (q : Update.Cli) (hq : Request S q) (hb : q.burst = some d.burst) (hh : q.hash = none) (st : Update.Stats)
    (hc : (Update.updateFile E (q.param S.hash) c).2 = .ok st) : ∃ st', (Update.updateFile E (q.param S.hash) f).2 = .ok st' := by
  have hpb : (q.param S.hash).burst = some d.burst := hb
  have hpt : (q.param S.hash).hashType = none := hh
  generalize hp : q.param S.hash = p at *
  obtain ⟨mp, hcon, hmp, hms⟩ := hk.container
  have hlen := metasToBytes_length hms
  have hblock : IsBlock (blockBytes S.version S.uid.bytes 0 mp) S.version S.uid 0 mp := ⟨rfl, hlen⟩
  have hsees := sees_damaged hS hk hd hB hg hE hpb hcon hmp hlen
  have hsees' : Update.Sees E p c S.version S.uid mp S.dpb := sees hS hk hcon hmp hblock hE (hp ▸ hq.burst)
  obtain ⟨bursts, b1, b2, b3⟩ := hg.bursts
  -- there is room for the fields
  have hroom : metaSpace (changed p.update p.remove ms) ≤ blockLen S.version - 16 := by
    by_contra hno
    obtain ⟨k, hkm, -⟩ := Damaged.copy hS hd hB hg
    obtain ⟨-, h2⟩ := Update.C28_no_fit E hE.sticky p c S.version S.uid mp S.dpb hsees' k hkm mp
      (by rw [show piece S.version c k = _ from hcon.metas k hkm]; exact hblock) (by rw [hmp]; omega)
    obtain ⟨e, he⟩ := h2 hE.stopTest
    rw [he] at hc
    simp at hc
  have hgo : ∀ stop : Nat → Bool, (∀ i, stop i = false) →
      (Update.course (Update.isFull (blockOf S.version S.uid 0 mp) f) (Update.fits (blockOf S.version S.uid 0 mp) p.update p.remove f) stop 0
        (metaCopies (some true) S.dpb)) = (metaCopies (some true) S.dpb, false) := by
    intro stop hs
    refine Update.course_full hs 0 fun k hkm => ⟨?_, ?_⟩
    · unfold Update.isFull
      rw [decide_eq_true_eq]
      exact (Repair.piece_full (by rw [hg.length]; exact hk.inside hkm)).ge
    · unfold Update.fits
      cases hf : Update.fieldsAt (blockOf S.version S.uid 0 mp) f k with
      | none => rfl
      | some ms' =>
        obtain ⟨r, hr, rfl⟩ := Update.fieldsAt_iff.1 hf
        rcases b3 k with e | ⟨-, e⟩
        · have hr : IsBlock (piece S.version f k) S.version S.uid 0 r := hr
          rw [e, show piece S.version c k = _ from hcon.metas k hkm] at hr
          rw [(isBlock_seq hr hblock).2, hmp]
          exact decide_eq_true hroom
        · exact absurd hr (Repair.Broken.not_block e)
  obtain ⟨pos, hfound⟩ := hsees.found
  have href : getRefBlockAligned p.ref (.mustBe .metadata) f E.stopRef (E.stopTest 0) = .ok (pos, blockOf S.version S.uid 0 mp) := by
    unfold getRefBlockAligned
    change (match getRefBlock f none none false (.mustBe .metadata) E.stopRef with | none => _ | some x => _) = _
    rw [hfound]
  have hsz : Update.sizeFor p (blockOf S.version S.uid 0 mp) = .ok none := by unfold Update.sizeFor; rw [hpt]
  have hfor : Update.fieldsFor E p (blockOf S.version S.uid 0 mp) S.dpb f none = .ok p.update := rfl
  unfold Update.updateFile
  simp only
  rw [href]
  simp only
  rw [hsz]
  simp only
  rw [hsees.shards]
  simp only
  rw [Update.updateBlocks_spec, show (⟨f, []⟩ : Disk).file = f from rfl, hgo E.stopTest hE.stopTest]
  simp only [Bool.false_eq_true, if_false]
  rw [show (⟨f, []⟩ : Disk).file = f from rfl, hfor]
  simp only
  rw [Update.updateBlocks_spec, show (⟨f, []⟩ : Disk).file = f from rfl, hgo E.stopRun hE.stopRun]
  exact ⟨_, rfl⟩

/-- A repair of a damaged container that was interrupted or during which the computer crashed leaves the container damaged. -/
theorem repair_crashed (hS : S.Ok) (hk : Kept S ms c) (hd : S.dpb = some d) (hB : 1 ≤ d.burst) (hg : Damaged S d c f) {R : Repair.Env}
    (hR : R.Sticky) (hrs : R.rs = S.rs) {dk : Disk} {st : Repair.Stats}
    (hr : Repair.repairFile R (some d.burst) false f = .ok (some (dk, st))) :
    Crashed S.version dk.ops f dk.file ∧ ∀ g, Crashed S.version dk.ops f g → Damaged S d c g := by
  obtain ⟨mp, hs, -⟩ := hk.sound hS hd
  obtain ⟨bursts, b1, b2, b3⟩ := hg.bursts
  have hs' : Repair.Sound R.rs S.version S.uid d S.bytes mp c := by rw [hrs]; exact hs
  obtain ⟨hi, hops⟩ := Repair.ops_right (hrs ▸ hS.laws) hR hs' hB hg.length b1 b2 b3 hr
  refine ⟨Repair.crashed_all hs.container.aligned hg.length hi hops, ?_⟩
  intro g ⟨hgl, hgp⟩
  have hu := blockLen_pos S.version
  have hplace : ∀ k b, (k * blockLen S.version, b) ∈ dk.ops → b = piece S.version c k ∧ (k + 1) * blockLen S.version ≤ c.length ∧
      ValidAt S.version S.uid c k ∧ piece S.version f k ≠ piece S.version c k := by
    intro k b hb
    obtain ⟨k', e, h1, h2, h3⟩ := hops _ hb
    simp only [Prod.mk.injEq] at e
    have := Nat.eq_of_mul_eq_mul_right hu e.1
    subst this
    exact ⟨e.2, h1, h2, h3⟩
  refine ⟨hgl.trans hg.length, ⟨bursts, b1, b2, ?_⟩, ?_⟩
  · intro k
    rcases hgp k with e | ⟨b, n, hb, hn, e, hnb⟩
    · rw [e]; exact b3 k
    · obtain ⟨rfl, hin, ⟨sq, p, hvc⟩, hne⟩ := hplace k b hb
      have hbl := isBlock_length hvc
      by_cases hfull : n < blockLen S.version
      · right
        refine ⟨((b3 k).resolve_left hne).1, .inr ⟨Repair.header_of_four ?_ ?_, hnb hfull⟩⟩
        · rw [Repair.piece_full (by rw [hgl, hg.length]; exact hin)]
          exact Repair.h16 _
        · rw [e, List.take_append_of_le_length (by rw [List.length_take]; have := Repair.h16 S.version; omega), List.take_take, Nat.min_eq_left hn]
          exact (Repair.IsBlock.checksum_field hvc).1
      · left
        rw [e, List.take_of_length_le (by omega), List.drop_eq_nil_of_le (by have := Repair.piece_length_le S.version f k; omega), List.append_nil]
  · intro k hkm hks
    rcases hgp k with e | ⟨b, n, hb, -, -, -⟩
    · rw [e]; exact hg.gaps k hkm hks
    · obtain ⟨-, hin, ⟨sq, p, hvc⟩, -⟩ := hplace k b hb
      have hz : piece S.version c k = List.replicate (blockLen S.version) 0 :=
        hs.container.gaps k (by rw [Nat.succ_mul] at hin; omega) hkm fun i hi => hks (i + 1) (by omega) (by
          unfold Setting.blocks; rw [hd]; omega)
      rw [hz] at hvc
      exact absurd hvc Repair.zeros_not_block

/-- The outcome of `update` on a container depends on the hash function alone. -/
theorem update_env (hS : S.Ok) (hk : Kept S ms c) (E E' : Update.Env) (hE : E.Calm) (hE' : E'.Calm) (hH : E.hash = S.hash)
    (hH' : E'.hash = S.hash) (q : Update.Cli) (hq : Request S q) :
    (Update.updateFile E' (q.param S.hash) c).1.file = (Update.updateFile E (q.param S.hash) c).1.file := by
  by_cases ht : (q.param S.hash).dryRun = false ∧
      metaSpace (changed (q.param S.hash).update (q.param S.hash).remove ms) ≤ blockLen S.version - 16
  · obtain ⟨mp, hcon, hmp, hms⟩ := hk.container
    have hblock : IsBlock (blockBytes S.version S.uid.bytes 0 mp) S.version S.uid 0 mp := ⟨rfl, metasToBytes_length hms⟩
    have hhash : ∀ t, (q.param S.hash).hashType = some t → t.supported = true ∧ firstFsz ms = some S.bytes.length ∧ S.bytes ≠ [] := by
      intro t ht
      obtain ⟨⟨name, hn⟩, hne⟩ := hq.hash t ht
      exact ⟨(ofStr_type hn).1, hk.size, hne⟩
    have hgo := fun (E : Update.Env) (hE : E.Calm) => Update.container_written E hE (q.param S.hash) (Update.cli_hashOk _ _) ht.1 S.rs
      S.version S.uid S.dpb S.bytes _ c hS.lengths hS.shards hS.consistent hcon ms ⟨mp, hblock, hmp⟩ ⟨hk.data, hk.parity⟩ hS.numbers
      hq.burst hhash ht.2
    have hkeep := fun (E : Update.Env) (hE : E.Calm) k hk' => Update.C28_data_untouched E (q.param S.hash) c S.version S.uid mp S.dpb
      (sees hS hk hcon hmp hblock hE hq.burst) k (.inl hk')
    have hlen := fun E => (Update.C28_only_metadata E (q.param S.hash) c).1
    obtain ⟨dk, bs, h1, h2, -, h4⟩ := hgo E hE
    obtain ⟨dk', bs', h1', h2', -, h4'⟩ := hgo E' hE'
    rw [hH] at h4
    rw [hH', h4] at h4'
    cases Option.some.inj h4'
    refine Update.file_ext (v := S.version) (by rw [hlen E', hlen E]) fun k => ?_
    by_cases hkm : k ∈ metaCopies (some true) S.dpb
    · rw [h1, h1']
      exact (h2'.metas k hkm).trans (h2.metas k hkm).symm
    · rw [hkeep E hE k hkm, hkeep E' hE' k hkm]
  · rw [nothing_written hS hk E hE.sticky q hq ht, nothing_written hS hk E' hE'.sticky q hq ht]

/-! ### C72 -/

/-- Two copies of a container: `c` is kept safe, and `f` is damaged (altogether within what is promised), updated, repaired, and the repairs
are interrupted.  The updates that succeed on `f` are done to `c` as well, and nothing else happens to `c`. -/
inductive Alongside (S : Setting) (d : Dpb) (c0 : File) : File → File → Prop
  | start : Alongside S d c0 c0 c0
  /-- Damage. -/
  | damage {c f g : File} (h : Alongside S d c0 c f) (hg : Damaged S d c g) : Alongside S d c0 c g
  /-- `update` of the damaged container, which succeeds. -/
  | update {c f : File} (h : Alongside S d c0 c f) (E E' : Update.Env) (hE : E.Calm) (hE' : E'.Calm) (hH : E.hash = S.hash)
      (hH' : E'.hash = S.hash) (q : Update.Cli) (hq : Request S q) (hb : q.burst = some d.burst) (st : Update.Stats)
      (hst : (Update.updateFile E (q.param S.hash) f).2 = .ok st) :
      Alongside S d c0 (Update.updateFile E' (q.param S.hash) c).1.file (Update.updateFile E (q.param S.hash) f).1.file
  /-- `update` of the damaged container, which fails. -/
  | refused {c f : File} (h : Alongside S d c0 c f) (E : Update.Env) (hE : E.Calm) (q : Update.Cli) (e : Err)
      (he : (Update.updateFile E (q.param S.hash) f).2 = .error e) : Alongside S d c0 c (Update.updateFile E (q.param S.hash) f).1.file
  /-- `repair`, to its end or interrupted. -/
  | repair {c f : File} (h : Alongside S d c0 c f) (R : Repair.Env) (hR : R.Sticky) (hrs : R.rs = S.rs) (dk : Disk) (st : Repair.Stats)
      (hr : Repair.repairFile R (some d.burst) false f = .ok (some (dk, st))) : Alongside S d c0 c dk.file
  /-- `repair` during which the computer crashes. -/
  | repairCrashed {c f g : File} (h : Alongside S d c0 c f) (R : Repair.Env) (hR : R.Sticky) (hrs : R.rs = S.rs) (dk : Disk) (st : Repair.Stats)
      (hr : Repair.repairFile R (some d.burst) false f = .ok (some (dk, st))) (hg : Crashed S.version dk.ops f g) : Alongside S d c0 c g

/-- **C72.** After any such history the copy that was in trouble is still the other copy with damage that `repair` deals with: a last repair
makes it the same, byte for byte, whether the updates were done before or after damage and repairs, and the other copy is a container of
the file. -/
theorem C72_trace (S : Setting) (hS : S.Ok) (d : Dpb) (hd : S.dpb = some d) (hB : 1 ≤ d.burst) (ms : List Metadata) (c0 c f : File)
    (hk : Kept S ms c0) (h : Alongside S d c0 c f) :
    (∃ ms', Kept S ms' c) ∧ Damaged S d c f ∧
    ∀ R : Repair.Env, R.Calm → R.rs = S.rs → repaired R (some d.burst) f = c := by
  suffices hmain : (∃ ms', Kept S ms' c) ∧ Damaged S d c f by
    obtain ⟨⟨ms', hk'⟩, hg⟩ := hmain
    exact ⟨⟨ms', hk'⟩, hg, fun R hR hrs => repair_step hS hk' hR hrs hd hB hg⟩
  induction h with
  | start => exact ⟨⟨ms, hk⟩, hk.undamaged hd⟩
  | damage h hg ih => exact ⟨ih.1, hg⟩
  | update h E E' hE hE' hH hH' q hq hb st hst ih =>
    obtain ⟨⟨ms1, hk1⟩, hg⟩ := ih
    obtain ⟨ms2, hk2, -⟩ := update_step hS hk1 E' hE' hH' q hq
    refine ⟨⟨ms2, hk2⟩, ?_⟩
    rw [update_env hS hk1 E E' hE hE' hH hH' q hq]
    rcases update_damaged hS hk1 hd hB hg E hE q hq hb with ⟨h1, h2 | ⟨e, h2⟩⟩ | ⟨-, -, -, h1⟩
    · rw [h1, Update.C27_update_dry E _ _ h2]
      exact hg
    · rw [hst] at h2; simp at h2
    · exact h1
  | refused h E hE q e he ih =>
    rw [Update.C28_error_unchanged E hE.sticky _ (Update.cli_hashOk _ _) _ e he]
    exact ih
  | repair h R hR hrs dk st hr ih =>
    obtain ⟨⟨ms1, hk1⟩, hg⟩ := ih
    obtain ⟨h1, h2⟩ := repair_crashed hS hk1 hd hB hg hR hrs hr
    exact ⟨⟨ms1, hk1⟩, h2 _ h1⟩
  | repairCrashed h R hR hrs dk st hr hg' ih =>
    obtain ⟨⟨ms1, hk1⟩, hg⟩ := ih
    exact ⟨⟨ms1, hk1⟩, (repair_crashed hS hk1 hd hB hg hR hrs hr).2 _ hg'⟩

/-- An `update`, even a dry run, that succeeds on the damaged container would succeed on the container. -/
theorem update_ok (hS : S.Ok) (hk : Kept S ms c) (hd : S.dpb = some d) (hB : 1 ≤ d.burst) (hg : Damaged S d c f) (E : Update.Env)
    (hE : E.Calm) (q : Update.Cli) (hq : Request S q) (hb : q.burst = some d.burst) (st : Update.Stats)
    (h : (Update.updateFile E (q.param S.hash) f).2 = .ok st) : ∃ st', (Update.updateFile E (q.param S.hash) c).2 = .ok st' := by
  obtain ⟨q', hq', hb', hdr, hsame⟩ : ∃ q' : Update.Cli, Request S q' ∧ q'.burst = some d.burst ∧ q'.dryRun = false ∧
      ∀ f, (Update.updateFile E (q.param S.hash) f).2 = (Update.updateFile E (q'.param S.hash) f).2 := by
    refine ⟨{ q with dryRun := false }, ⟨hq.ok, hq.fnm, hq.snm, hq.hash, hq.burst⟩, hb, rfl, fun f => ?_⟩
    cases hdr : q.dryRun with
    | false => rw [← hdr]
    | true =>
      have := Update.C27_update_same E (q.param S.hash) f
      have e : ({ q.param S.hash with dryRun := true } : Update.Param) = q.param S.hash := by rw [← hdr]; rfl
      rw [e] at this
      exact this
  rw [hsame] at h ⊢
  rcases update_damaged hS hk hd hB hg E hE q' hq' hb' with ⟨-, h2 | ⟨e, h2⟩⟩ | ⟨-, -, h1, -⟩
  · rw [hdr] at h2; simp at h2
  · rw [h] at h2; simp at h2
  · exact h1

/-- **C72, order.** A damaged container can be updated first and then repaired, or repaired first and then updated, with the same result, if
the `update` of the damaged container succeeds; if it fails, it has changed nothing.  What fails after the repair fails before, and if
no hash is asked for, what succeeds after the repair succeeds before. -/
theorem C72_order (S : Setting) (hS : S.Ok) (d : Dpb) (hd : S.dpb = some d) (hB : 1 ≤ d.burst) (ms : List Metadata) (c f : File)
    (hk : Kept S ms c) (hg : Damaged S d c f) (E : Update.Env) (hE : E.Calm) (q : Update.Cli) (hq : Request S q)
    (hH : E.hash = S.hash) (hb : q.burst = some d.burst) (R : Repair.Env) (hR : R.Calm) (hrs : R.rs = S.rs) :
    (∀ st, (Update.updateFile E (q.param S.hash) f).2 = .ok st →
      (∃ st', (Update.updateFile E (q.param S.hash) (repaired R (some d.burst) f)).2 = .ok st') ∧
      repaired R (some d.burst) (Update.updateFile E (q.param S.hash) f).1.file =
        (Update.updateFile E (q.param S.hash) (repaired R (some d.burst) f)).1.file) ∧
    (∀ e, (Update.updateFile E (q.param S.hash) f).2 = .error e → (Update.updateFile E (q.param S.hash) f).1.file = f) ∧
    (q.hash = none → ∀ st, (Update.updateFile E (q.param S.hash) (repaired R (some d.burst) f)).2 = .ok st →
      ∃ st', (Update.updateFile E (q.param S.hash) f).2 = .ok st') := by
  rw [repair_step hS hk hR hrs hd hB hg]
  refine ⟨fun st h => ⟨update_ok hS hk hd hB hg E hE q hq hb st h, ?_⟩, fun e h => ?_, fun hh st h =>
    update_damaged_ok hS hk hd hB hg E hE q hq hb hh st h⟩
  · exact (C72_trace S hS d hd hB ms c _ _ hk (.update (.damage .start hg) E E hE hE hH hH q hq hb st h)).2.2 R hR hrs
  · rw [Update.C28_error_unchanged E hE.sticky _ (Update.cli_hashOk _ _) f e h]; rfl

/-- **C72, hashes.** While a block with a chunk of the file is damaged, no hash is computed: `update` refuses and changes nothing. -/
theorem C72_no_hash (S : Setting) (hS : S.Ok) (d : Dpb) (hd : S.dpb = some d) (hB : 1 ≤ d.burst) (ms : List Metadata) (c f : File)
    (hk : Kept S ms c) (hg : Damaged S d c f) (E : Update.Env) (hE : E.Calm) (q : Update.Cli)
    (hb : q.burst = some d.burst) (t : HashType) (ht : q.hash = some t) (j : Nat) (hj : j * (blockLen S.version - 16) < S.bytes.length)
    (hmiss : ∀ payload, ¬ StoredSpec.ChunkAt S.version S.uid S.dpb f j payload) :
    (∃ e, (Update.updateFile E (q.param S.hash) f).2 = .error e) ∧ (Update.updateFile E (q.param S.hash) f).1.file = f := by
  have herr : ∃ e, (Update.updateFile E (q.param S.hash) f).2 = .error e := by
    obtain ⟨mp, hcon, hmp, hms⟩ := hk.container
    have hsees := sees_damaged hS hk hd hB hg hE (p := q.param S.hash) hb hcon hmp (metasToBytes_length hms)
    rcases Update.updateFile_cases E (q.param S.hash) f with ⟨e', h'⟩ | ⟨v', uid', mp', dpb', fields, hs', hw, hc, h'⟩
    · exact ⟨e', by rw [h']⟩
    obtain ⟨e, rfl, rfl, rfl⟩ := Update.sees_unique hsees hs'
    have hmp' : metasFromBytes mp' = ms := by
      have := congrArg Block.metas e
      rw [Decode.metas_blockOf, Decode.metas_blockOf] at this
      rw [← hmp]
      exact Option.some.inj this
    unfold Update.Wanted at hw
    rw [show (q.param S.hash).hashType = some t from ht] at hw
    obtain ⟨n, h, w1, w2, -⟩ := hw
    rw [hmp', hk.size, Option.some.injEq] at w1
    obtain ⟨e, he⟩ := ContentHash.C42_missing E.hash E.lotCount hE.lots E.stopHash hE.stopHash t f (blockOf S.version S.uid 0 mp') S.dpb
      hS.valid n j (by rw [← w1]; exact hj) (hS.numbered hk j hj) hmiss
    rw [he] at w2
    simp at w2
  obtain ⟨e, he⟩ := herr
  refine ⟨⟨e, he⟩, ?_⟩
  rw [Update.C28_error_unchanged E hE.sticky _ (Update.cli_hashOk _ _) f e he]; rfl

/-! ### Instances -/

/-- Taking a field away always works. -/
theorem forget_runs {ms : List Metadata} {c : File} (hk : Kept demo ms c) :
    ∃ st, (Update.updateFile Update.calmEnv (forget.param demo.hash) c).2 = .ok st := by
  obtain ⟨hS, -⟩ := demo_start
  obtain ⟨mp, hcon, hmp, hms⟩ := hk.container
  have hblock : IsBlock (blockBytes demo.version demo.uid.bytes 0 mp) demo.version demo.uid 0 mp := ⟨rfl, metasToBytes_length hms⟩
  have hsp : metaSpace ms ≤ blockLen demo.version - 16 := by
    by_contra hno
    rw [(C05_metadata_write ms _).1.2 (by omega)] at hms
    simp at hms
  have hfit : metaSpace (changed (forget.param demo.hash).update (forget.param demo.hash).remove ms) ≤ blockLen demo.version - 16 := by
    refine Nat.le_trans ?_ hsp
    have e : changed (forget.param demo.hash).update (forget.param demo.hash).remove ms = ms.filter fun m => m.id ∉ [MetaId.fnm] := by
      change (inPlace [] ms ++ added [] ms).filter _ = _
      have e1 : inPlace [] ms = ms := by
        unfold inPlace lastFor
        apply List.ext_getElem?
        intro i
        rw [List.getElem?_mapIdx]
        cases ms[i]? <;> simp
      have e2 : added [] ms = [] := rfl
      rw [e1, e2, List.append_nil]
      rfl
    rw [e]
    unfold metaSpace
    exact List.Sublist.sum_le_sum (List.filter_sublist.map _) (fun _ _ => Nat.zero_le _)
  obtain ⟨dk, bs, h1, -⟩ := Update.container_written Update.calmEnv Update.calm (forget.param demo.hash) (Update.cli_hashOk _ _) rfl demo.rs
    demo.version demo.uid demo.dpb demo.bytes _ c hS.lengths hS.shards hS.consistent hcon ms ⟨mp, hblock, hmp⟩ ⟨hk.data, hk.parity⟩ hS.numbers
    demo_burst (fun t ht => by cases ht) hfit
  exact ⟨_, congrArg Prod.snd h1⟩

/-- A container that has lost the first metadata block and the first data block. -/
theorem demo_lost {ms : List Metadata} {c : File} (hk : Kept demo ms c) : ∃ f, Damaged demo Repair.demoDpb c f ∧ f ≠ c ∧
    piece .v17 f 1 = List.replicate (blockLen .v17) 0 := by
  obtain ⟨hS, -⟩ := demo_start
  obtain ⟨mp, hs, -⟩ := hk.sound hS rfl
  obtain ⟨f, d0, d1, d2, d3, d4⟩ := Repair.demo_damage01 hs
  refine ⟨f, ⟨d2, ⟨[(0, 2)], by decide, few (by decide), d3⟩, d4⟩, fun e => ?_, d1⟩
  have hm : IsBlock (piece .v17 c 0) .v17 Repair.demoOwner 0 mp := ⟨hs.container.metas 0 (by decide), metasToBytes_length hs.plain⟩
  rw [← e, d0] at hm
  exact Repair.zeros_not_block hm

/-- C72_no_hash: a new hash is asked for while the first data block is missing. -/
theorem demo_refused {ms : List Metadata} {c f : File} (hk : Kept demo ms c) (hg : Damaged demo Repair.demoDpb c f)
    (h1 : piece .v17 f 1 = List.replicate (blockLen .v17) 0) : ∃ e, (Update.updateFile Update.calmEnv (rename.param demo.hash) f).2 = .error e := by
  obtain ⟨hS, -⟩ := demo_start
  refine (C72_no_hash demo hS Repair.demoDpb rfl (by decide) ms c f hk hg Update.calmEnv Update.calm rename rfl .sha1 rfl 0 ?_ ?_).1
  · rw [Nat.zero_mul, show demo.bytes = List.replicate 1000 7 from rfl, List.length_replicate]; decide
  · rintro q ⟨s, -, h2, h3⟩
    have hs : s = 1 := by
      have := (Decode.chunkOf_iff hS.valid).1 h2
      rw [this]
      rfl
    subst hs
    have h3 : IsBlock (piece .v17 f 1) .v17 Repair.demoOwner 1 q := h3
    rw [h1] at h3
    exact Repair.zeros_not_block h3

/-- C72_trace: two blocks are lost, an update with a hash is refused, one that removes the name is done, a repair is interrupted after the
first block. -/
example : ∃ ms c0 c f, Kept demo ms c0 ∧ Alongside demo Repair.demoDpb c0 c f ∧ repaired Repair.demoEnv (some 3) f = c := by
  obtain ⟨hS, dk, rep, ms, -, hk⟩ := demo_start
  obtain ⟨g, hg, hne, h1⟩ := demo_lost hk
  obtain ⟨e, he⟩ := demo_refused hk hg h1
  obtain ⟨st0, hst0⟩ := forget_runs hk
  have a1 := Alongside.refused (.damage (.start (c0 := dk.file)) hg) Update.calmEnv Update.calm rename e he
  obtain ⟨-, hg1, -⟩ := C72_trace demo hS Repair.demoDpb rfl (by decide) ms dk.file _ _ hk a1
  obtain ⟨st, hst⟩ := update_damaged_ok hS hk rfl (by decide) hg1 Update.calmEnv Update.calm forget forget_ok rfl rfl st0 hst0
  have a2 := Alongside.update a1 Update.calmEnv Update.calmEnv Update.calm Update.calm rfl rfl forget forget_ok rfl st hst
  obtain ⟨⟨ms2, hk2⟩, hg2, -⟩ := C72_trace demo hS Repair.demoDpb rfl (by decide) ms dk.file _ _ hk a2
  obtain ⟨mp, hs, -⟩ := hk2.sound hS rfl
  obtain ⟨bursts, b1, b2, b3⟩ := hg2.bursts
  obtain ⟨hc, -, -⟩ := Repair.case_of_bursts Repair.demo_laws Repair.demo_calm hs (by decide) hg2.length b1 b2 b3
  obtain ⟨dk', st', r1⟩ := Repair.C26_total Repair.hastyEnv Repair.demo_laws (some 3) false _ _ _ mp Repair.demoDpb
    ⟨hc.sees.found, hc.sees.rs, hc.sees.data, hc.sees.parity, .inl rfl⟩
  have a3 := Alongside.repair a2 Repair.hastyEnv (fun _ _ _ => rfl) rfl dk' st' r1
  exact ⟨ms, dk.file, _, _, hk, a3, (C72_trace demo hS Repair.demoDpb rfl (by decide) ms dk.file _ _ hk a3).2.2 Repair.demoEnv Repair.demo_calm rfl⟩

/-- C72_order: removing the name before and after the repair. -/
example : ∃ c f st, Damaged demo Repair.demoDpb c f ∧ f ≠ c ∧ (Update.updateFile Update.calmEnv (forget.param demo.hash) f).2 = .ok st ∧
    repaired Repair.demoEnv (some 3) (Update.updateFile Update.calmEnv (forget.param demo.hash) f).1.file =
      (Update.updateFile Update.calmEnv (forget.param demo.hash) (repaired Repair.demoEnv (some 3) f)).1.file := by
  obtain ⟨hS, dk, rep, ms, -, hk⟩ := demo_start
  obtain ⟨g, hg, hne, h1⟩ := demo_lost hk
  obtain ⟨st0, hst0⟩ := forget_runs hk
  obtain ⟨h2, -, h3⟩ := C72_order demo hS Repair.demoDpb rfl (by decide) ms dk.file g hk hg Update.calmEnv Update.calm forget forget_ok rfl rfl
    Repair.demoEnv Repair.demo_calm rfl
  obtain ⟨st, hst⟩ := update_damaged_ok hS hk rfl (by decide) hg Update.calmEnv Update.calm forget forget_ok rfl rfl st0 hst0
  exact ⟨dk.file, g, st, hg, hne, hst, (h2 st hst).2⟩

end Verif.History
