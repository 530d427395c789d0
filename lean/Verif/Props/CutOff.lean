import Verif.Props.GuessDamaged
import Verif.Props.Again
/-!
# C79: a container whose end is missing

A download or a copy broke off, a medium was too small: what is left of the container is a beginning of it.
-/

namespace Verif.Repair
open Format RepairSpec ScanSpec Scan Layout LayoutSpec ContainerSpec FileUtils

/-- How `repair` comes to know the burst error resistance level: it is told, or it guesses (`C58_repair_partial`). -/
def KnowsLevel (burst : Option Nat) (d : Dpb) (bytes : List Byte) : Prop :=
  burst = some d.burst ∨ burst = none ∧ 2 ≤ d.data ∧ (d.parity + 1) * d.burst ≤ 1000 ∧ bytes ≠ []

/-- What is left of a container with a reference block, where the losses are within bursts. -/
theorem case_of_rest {E : Env} (laws : E.rs.Laws) {burst : Option Nat} {v : Version} {uid : Uid} {d : Dpb} {bytes mp : List Byte}
    {c f : File} (h : Sound E.rs v uid d bytes mp c) (hB : 1 ≤ d.burst) (hb : KnowsLevel burst d bytes) {bursts : List (Nat × Nat)}
    (hsize : ∀ b ∈ bursts, b.2 ≤ d.burst) (hcount : ∀ s, (within d bursts s).length ≤ d.parity)
    (hfound : ∃ pos, getRefBlock f none none false (.mustBe .metadata) E.stopRef = some (pos, blockOf v uid 0 mp) ∧
      IsBlock (f.readAt pos (blockLen v)) v uid 0 mp)
    (hshort : f.length ≤ c.length)
    (hdmg : ∀ k, piece v f k = piece v c k ∨ hit bursts k = true ∧ ¬ ValidAt v uid f k ∧ ¬ ValidAt v uid (fill v f) k) :
    Case E burst v uid d bytes mp c f ∧
    Damaged v uid d (payloads E.rs v (some d) (fileChunks v bytes)).length c f ∧
    ∀ t, t * (d.data + d.parity) < (payloads E.rs v (some d) (fileChunks v bytes)).length → d.data ≤ unchangedIn v d c f t := by
  have hout : ∀ k, hit bursts k = false → piece v f k = piece v c k := by
    intro k hk
    rcases hdmg k with h | h
    · exact h
    · rw [hk] at h; simp at h
  refine ⟨⟨h.container, h.numbers, h.plain, h.sized, hfound, h.rs, h.data, h.parity, ?_⟩, ⟨hshort, ?_, ?_⟩, ?_⟩
  · rcases hb with hb | ⟨hb, h1, h2, h3⟩
    · exact .inl hb
    · exact .inr ⟨hb, guess_of_bursts laws h hB h1 h2 h3 hsize hcount fun k => (hdmg k).imp_right fun x => ⟨x.1, x.2.1⟩⟩
  · exact fun k _ => (hdmg k).imp_right fun x => x.2.2
  · intro s _ _
    refine (hdmg (placeOf d s)).imp_right fun x => ?_
    rintro ⟨p, hp⟩
    exact x.2.2 ⟨_, p, hp⟩
  · intro t _
    refine (C12_super_sets d hB none bursts hsize hcount t).trans ?_
    unfold unchangedIn
    apply List.countP_mono_left
    intro j _ hj
    simp only [decide_eq_true_eq]
    apply hout
    show hit bursts (dataWriteIndex (t * (d.data + d.parity) + j + 1) none (some d)) = false
    simpa using hj

theorem restored_of_rest {E : Env} (laws : E.rs.Laws) (hE : E.Calm) {burst : Option Nat} {v : Version} {uid : Uid} {d : Dpb}
    {bytes mp : List Byte} {c f : File} (h : Sound E.rs v uid d bytes mp c) (hc : Case E burst v uid d bytes mp c f)
    (hd : Damaged v uid d (payloads E.rs v (some d) (fileChunks v bytes)).length c f)
    (hrec : ∀ t, t * (d.data + d.parity) < (payloads E.rs v (some d) (fileChunks v bytes)).length → d.data ≤ unchangedIn v d c f t) :
    ∃ dk st, repairFile E burst false f = .ok (some (dk, st)) ∧ st.repairFailed = 0 ∧
      (∀ k ∈ metaCopies (some true) (some d), piece v dk.file k = piece v c k) ∧
      (∀ s, 1 ≤ s → s ≤ (payloads E.rs v (some d) (fileChunks v bytes)).length →
        piece v dk.file (placeOf d s) = piece v c (placeOf d s)) ∧
      (GapsClean v d (payloads E.rs v (some d) (fileChunks v bytes)).length f → dk.file = c) := by
  obtain ⟨h1, h2, h3⟩ := shards_ok h.data h.parity
  obtain ⟨-, hps⟩ := payloads_count laws (v := v) h1 h2 h3 bytes
  obtain ⟨dk, st, a, b, e, g, k⟩ := blocks_restored laws hE hc hd hrec
  exact ⟨dk, st, a, b, g, k, fun hg => near_complete h.container hps (metasToBytes_length h.plain) hg e g k⟩

/-- **C79.** The promise of the burst error resistance level holds as well if whole blocks are missing at the end, when these are counted like
damaged blocks: if what is missing or damaged lies within bursts of up to `burst` blocks each, at most `parity` of them in each super block
set, then `repair` puts all blocks back, those missing at the end too; and the file is again the container unless there is damage where there was nothing
but zeros. -/
theorem C79_bursts (E : Env) (laws : E.rs.Laws) (hE : E.Calm) (burst : Option Nat) (v : Version) (uid : Uid) (d : Dpb) (bytes mp : List Byte)
    (c f : File) (h : Sound E.rs v uid d bytes mp c) (hB : 1 ≤ d.burst) (hb : KnowsLevel burst d bytes) (bursts : List (Nat × Nat))
    (hal : blockLen v ∣ f.length) (hshort : f.length ≤ c.length)
    (hsize : ∀ b ∈ bursts, b.2 ≤ d.burst) (hcount : ∀ s, (within d bursts s).length ≤ d.parity)
    (hdmg : ∀ k, k * blockLen v < f.length → piece v f k = piece v c k ∨ hit bursts k = true ∧ Broken v (piece v f k))
    (hend : ∀ k, f.length ≤ k * blockLen v → k * blockLen v < c.length → hit bursts k = true) :
    ∃ dk st, repairFile E burst false f = .ok (some (dk, st)) ∧ st.repairFailed = 0 ∧
      (∀ k ∈ metaCopies (some true) (some d), piece v dk.file k = piece v c k) ∧
      (∀ s, 1 ≤ s → s ≤ (payloads E.rs v (some d) (fileChunks v bytes)).length →
        piece v dk.file (placeOf d s) = piece v c (placeOf d s)) ∧
      (GapsClean v d (payloads E.rs v (some d) (fileChunks v bytes)).length f → dk.file = c) := by
  obtain ⟨h1, h2, h3⟩ := shards_ok h.data h.parity
  obtain ⟨-, hps⟩ := payloads_count laws (v := v) h1 h2 h3 bytes
  have hmp := metasToBytes_length h.plain
  have hu := blockLen_pos v
  have hcases := not_zeros_data h.container rfl hmp hps
  have hall : ∀ k, piece v f k = piece v c k ∨ hit bursts k = true ∧ Broken v (piece v f k) := by
    intro k
    by_cases hk : k * blockLen v < f.length
    · exact hdmg k hk
    · rw [piece_beyond (f := f) (by omega)]
      by_cases hk' : k * blockLen v < c.length
      · exact .inr ⟨hend k (by omega) hk', .inl (dead_zeros 0)⟩
      · exact .inl (piece_beyond (by omega)).symm
  obtain ⟨k0, hk0, hh0⟩ := C13_super_sets d hB h1 (some true) bursts (fun b hb => by have := hsize b hb; omega) (hcount 0)
  have hsame0 : piece v f k0 = piece v c k0 := (hall k0).resolve_right (by rw [hh0]; simp)
  have hfound := found_of_places (v := v) (uid := uid) (mp := mp) hal hE.ref (by
    intro k hk
    rcases hdmg k hk with hh | hh
    · rw [hh]
      rcases hcases k (by omega) with ⟨-, e⟩ | ⟨s, p, -, -, -, e⟩ | e
      · exact .inl ⟨_, _, e⟩
      · exact .inl ⟨_, _, e⟩
      · rw [e]; exact .inr (.inl (dead_zeros _))
    · exact .inr hh.2) (by
    intro k p hk hb
    rcases hdmg k hk with hh | hh
    · rw [hh] at hb
      rcases hcases k (by omega) with ⟨-, e⟩ | ⟨s, p', a, b, -, e⟩ | e
      · exact (isBlock_seq hb e).2
      · exfalso
        have := (isBlock_seq hb e).1
        have h4 := congrArg UInt32.toNat this
        have hnum := h.numbers
        unfold lastSeqNum at hnum
        rw [UInt32.toNat_ofNat_of_lt' (by show s < 2 ^ 32; omega)] at h4
        simp at h4
        omega
      · rw [e] at hb; exact absurd hb zeros_not_block
    · exact absurd hb (Broken.not_block hh.2)) (by
    have hkb : IsBlock (piece v f k0) v uid 0 mp := by rw [hsame0]; exact ⟨h.container.metas k0 hk0, hmp⟩
    refine ⟨k0, ?_, hkb⟩
    by_contra hno
    rw [piece_beyond (by omega)] at hkb
    exact nil_not_block hkb)
  have hfill : fill v f = f := fill_aligned hal
  obtain ⟨hc, hd, hrec⟩ := case_of_rest laws h hB hb hsize hcount hfound hshort fun k => (hall k).imp_right fun x => by
    have : ¬ ValidAt v uid f k := by rintro ⟨sq, p, hb⟩; exact Broken.not_block x.2 hb
    exact ⟨x.1, this, by rw [hfill]; exact this⟩
  exact restored_of_rest laws hE h hc hd hrec

/-- The pieces of a beginning of a file. -/
theorem piece_take {v : Version} {c : File} {n k : Nat} (h : (k + 1) * blockLen v ≤ n) : piece v (c.take n) k = piece v c k := by
  unfold piece File.readAt
  rw [Nat.succ_mul] at h
  rw [List.drop_take, List.take_take, Nat.min_eq_left (by omega)]

/-- **C79.** If the end of an undamaged container is cut off, anywhere behind the first block, and no more than `parity * burst` blocks are missing
wholly or in part, then `repair` gives the whole container again.  (Should there be a part of a block at the end, it must not by accident be
a valid block when filled up with zeros.) -/
theorem C79_cut_off (E : Env) (laws : E.rs.Laws) (hE : E.Calm) (burst : Option Nat) (v : Version) (uid : Uid) (d : Dpb) (bytes mp : List Byte)
    (c : File) (h : Sound E.rs v uid d bytes mp c) (hB : 1 ≤ d.burst) (hb : KnowsLevel burst d bytes) (n : Nat) (hfirst : blockLen v ≤ n)
    (hcut : c.length ≤ n + d.parity * d.burst * blockLen v)
    (hpart : n % blockLen v = 0 ∨ ¬ ValidAt v uid (fill v (c.take n)) (n / blockLen v)) :
    ∃ dk st, repairFile E burst false (c.take n) = .ok (some (dk, st)) ∧ st.repairFailed = 0 ∧ dk.file = c := by
  obtain ⟨h1, h2, h3⟩ := shards_ok h.data h.parity
  have hmp := metasToBytes_length h.plain
  have hu := blockLen_pos v
  obtain ⟨m, hm⟩ := h.container.aligned
  have hm : c.length = m * blockLen v := by rw [hm, Nat.mul_comm]
  have hdm := Nat.div_add_mod n (blockLen v)
  have hmod := Nat.mod_lt n hu
  generalize ha : n / blockLen v = a at *
  generalize hr : n % blockLen v = r at *
  have hdm : a * blockLen v + r = n := by rw [Nat.mul_comm]; exact hdm
  have hmeta0 : (0 : Nat) ∈ metaCopies (some true) (some d) := by simp [metaCopies]
  have hb0 : IsBlock (piece v (c.take n) 0) v uid 0 mp := by
    rw [piece_take (by omega)]
    exact ⟨h.container.metas 0 hmeta0, hmp⟩
  have hfound : ∃ pos, getRefBlock (c.take n) none none false (.mustBe .metadata) E.stopRef = some (pos, blockOf v uid 0 mp) ∧
      IsBlock (File.readAt (c.take n) pos (blockLen v)) v uid 0 mp :=
    ⟨0, found_at_start hE.ref hb0, by simpa [piece] using hb0⟩
  have hlen : (c.take n).length = min n c.length := List.length_take
  by_cases hcn : c.length ≤ n
  · -- nothing is missing
    rw [List.take_of_length_le hcn] at hfound ⊢
    obtain ⟨hc, hd, hrec⟩ := case_of_rest laws h hB hb (bursts := []) (by simp) (fun s => by simp [within]) hfound (Nat.le_refl _)
      fun k => .inl rfl
    obtain ⟨dk, st, r1, r2, -, -, r5⟩ := restored_of_rest laws hE h hc hd hrec
    refine ⟨dk, st, r1, r2, r5 fun k hk hs => ?_⟩
    by_cases hin : k * blockLen v < c.length
    · exact ⟨_, h.container.gaps k hin hk fun i hi => hs (i + 1) (by omega) (by omega)⟩
    · exact ⟨0, piece_beyond (by omega)⟩
  have hl : (c.take n).length = n := by omega
  have hin : ∀ k, k < a → piece v (c.take n) k = piece v c k := by
    intro k hk
    refine piece_take ?_
    have := Nat.mul_le_mul_right (blockLen v) (show k + 1 ≤ a from hk)
    omega
  have hbey : ∀ k, a < k → (c.take n).length ≤ k * blockLen v := by
    intro k hk
    have := Nat.mul_le_mul_right (blockLen v) (show a + 1 ≤ k from hk)
    rw [Nat.succ_mul] at this
    omega
  have hshort : ∀ k, a ≤ k → ¬ ValidAt v uid (c.take n) k := by
    rintro k hk ⟨sq, p, hbl⟩
    have hlb := isBlock_length hbl
    unfold piece File.readAt at hlb
    rw [List.length_take, List.length_drop, hl] at hlb
    have := Nat.mul_le_mul_right (blockLen v) hk
    omega
  have hma : m ≤ a + d.parity * d.burst := by
    have h5 : m * blockLen v < (a + d.parity * d.burst + 1) * blockLen v := by
      rw [Nat.succ_mul, Nat.add_mul]
      omega
    have := Nat.lt_of_mul_lt_mul_right h5
    omega
  obtain ⟨hc, hd, hrec⟩ := case_of_rest laws h hB hb
    (bursts := (List.range d.parity).map fun k => (a + k * d.burst, d.burst))
    (fun b hb => by obtain ⟨k, -, rfl⟩ := List.mem_map.1 hb; exact Nat.le_refl _) (few (by simp)) hfound (by rw [hl]; omega) (by
    intro k
    by_cases hka : k < a
    · exact .inl (hin k hka)
    by_cases hkm : k < m
    · refine .inr ⟨?_, hshort k (by omega), ?_⟩
      · rw [← hit_split a d.parity d.burst k hB]
        simp only [hit, List.any_cons, List.any_nil, Bool.or_false, Bool.and_eq_true, decide_eq_true_eq]
        omega
      · rcases hpart with hr0 | hpart
        · rw [fill_aligned (by rw [hl, ← hdm, hr0]; exact ⟨a, by rw [Nat.mul_comm]; rfl⟩)]
          exact hshort k (by omega)
        · by_cases hke : k = a
          · rw [hke]; exact hpart
          · rintro ⟨sq, p, hbl⟩
            have hlf : (fill v (c.take n)).length ≤ k * blockLen v := by
              have := Nat.mul_le_mul_right (blockLen v) (show a + 1 ≤ k by omega)
              rw [Nat.succ_mul] at this
              unfold fill
              rw [List.length_append, List.length_replicate, hl, hr]
              have h6 : (blockLen v - r) % blockLen v ≤ blockLen v - r := Nat.mod_le _ _
              omega
            rw [piece_beyond hlf] at hbl
            exact nil_not_block hbl
    · left
      have := Nat.mul_le_mul_right (blockLen v) (show m ≤ k by omega)
      rw [piece_beyond (by omega), piece_beyond (by omega)])
  obtain ⟨dk, st, r1, r2, -, -, r5⟩ := restored_of_rest laws hE h hc hd hrec
  refine ⟨dk, st, r1, r2, r5 fun k hk hs => ?_⟩
  by_cases hkc : k * blockLen v < c.length
  · have hz := h.container.gaps k hkc hk fun i hi => hs (i + 1) (by omega) (by omega)
    have hz : (c.drop (k * blockLen v)).take (blockLen v) = List.replicate (blockLen v) 0 := hz
    unfold piece File.readAt
    rw [List.drop_take, List.take_take, Nat.min_comm, ← List.take_take, hz, List.take_replicate]
    exact ⟨_, rfl⟩
  · exact ⟨0, piece_beyond (by omega)⟩

/-- **C79, C21.** Encoding, cutting the end off, repairing and decoding give back the input. -/
theorem C79_roundtrip (E : Encode.Env) (p : Encode.Param) (hE : E.Ok p) (hok : p.Ok) (inp : Encode.Input) (hn : Encode.NamesOk p inp)
    (dk : Disk) (rep : Encode.Report) (hrange : inp.file = none ∨ p.fromPos = none ∧ p.toPos = none) (hs : ∀ n, E.stop n = false)
    (henc : Encode.encodeFile E p inp = (dk, .ok rep)) (d : Dpb) (hd : p.dpb = some d) (hB : 1 ≤ d.burst)
    (hsup : p.hashType.supported = true)
    (burst : Option Nat) (hbu : KnowsLevel burst d inp.bytes) (n : Nat) (hfirst : blockLen p.version ≤ n)
    (hcut : dk.file.length ≤ n + d.parity * d.burst * blockLen p.version)
    (hpart : n % blockLen p.version = 0 ∨ ¬ ValidAt p.version p.uid (fill p.version (dk.file.take n)) (n / blockLen p.version))
    (R : Env) (hR : R.Calm) (hrs : R.rs = E.rs)
    (D : Decode.Env) (hD : D.Calm) (hash : D.hash = E.hash) (q : Decode.Param) (hq : Decode.Whole q) (hr : Decode.DefaultRef q.ref)
    (hb : q.ref.burst ≠ none ∨ q.ref.guessBurstFrom = none ∧ d.burst ≤ 1000) (old : File) :
    ∃ dk' st out, repairFile R burst false (dk.file.take n) = .ok (some (dk', st)) ∧
      Decode.toFile D q dk'.file old = .ok (inp.bytes, out) ∧
      out.recorded = some (E.hash.bytes p.hashType inp.bytes) ∧ out.computed = out.recorded := by
  have hme : p.metaEnabled = true := hok.meta (by rw [hd]; simp)
  have hh := Encode.C24_whole_input E p hE hok inp hn dk rep hrange hs henc
  obtain ⟨mb, hc, hrec⟩ := hh.container
  obtain ⟨ms, ⟨mp, hmb, rfl⟩, h2, h3, h4, h5, h6⟩ := hrec hme
  rw [hme] at hc
  have hnum := hh.numbers
  rw [hd] at hc h4 h5 hnum
  rw [hmb.bytes, blockBytes_drop] at h6
  have hcons : p.version.usesRs = true := by
    have := hok.consistent
    rw [hd] at this
    simpa [verConsistent] using this
  obtain ⟨dk', st, r1, r2, r3⟩ := C79_cut_off R (by rw [hrs]; exact hE.laws) hR burst p.version p.uid d inp.bytes mp dk.file
    ⟨by rw [hrs, ← hmb.bytes]; exact hc, by rw [hrs]; exact hnum, h6, h2, hcons, h4, h5⟩ hB hbu n hfirst hcut hpart
  obtain ⟨out, o1, o2, o3, -⟩ := Decode.C21_roundtrip E p hE hok inp hn dk rep hrange hs henc hme hsup D hD hash q hq hr
    (hb.imp_right fun x => ⟨x.1, fun y hy => by rw [hd] at hy; cases hy; exact x.2⟩) old
  exact ⟨dk', st, out, r1, by rw [r3]; exact o1, o2, o3⟩

/-- A part of a block of up to two bytes is no block, whatever comes: the signature is incomplete. -/
theorem tiny_part {v : Version} {uid : Uid} {c : File} {n : Nat} (hn : n ≤ c.length) (hr0 : 0 < n % blockLen v) (hr : n % blockLen v ≤ 2) :
    ¬ ValidAt v uid (fill v (c.take n)) (n / blockLen v) := by
  rintro ⟨sq, p, hb⟩
  have hu := blockLen_pos v
  have hbl := isBlock_length hb
  have hdm := Nat.div_add_mod n (blockLen v)
  rw [Nat.mul_comm] at hdm
  have hl : (c.take n).length = n := by rw [List.length_take]; omega
  have h2 := congrArg (·[2]?) hb.bytes
  unfold piece at h2
  rw [File.getElem?_readAt] at h2
  rw [if_pos (by have := h16 v; omega)] at h2
  unfold fill at h2
  rw [List.getElem?_append_right (by rw [hl]; omega), List.getElem?_replicate] at h2
  split at h2
  · simp [blockBytes, headerBytes] at h2
  · simp [blockBytes, headerBytes] at h2

/-! ### Instances -/

theorem demo_long {mp : List Byte} {c : File} (h : Sound RsWitness.codec .v17 demoOwner demoDpb (List.replicate 1000 7) mp c) :
    9 * 512 ≤ c.length ∧ 512 ∣ c.length :=
  ⟨(image_meta h.container (metasToBytes_length h.plain) (k := 8) (by decide)).2, h.container.aligned⟩

theorem demo_ne : List.replicate 1000 (7 : Byte) ≠ [] := by
  intro e
  have := congrArg List.length e
  rw [List.length_replicate] at this
  simp at this

theorem whole_places {l k : Nat} (hd : 512 ∣ l) (hk : k * 512 < l - 3 * 512) : (k + 1) * 512 ≤ l - 3 * 512 := by omega

/-- Six blocks are missing at the end, which is as much as can be restored. -/
example : ∃ c f : File, f.length + 6 * 512 = c.length ∧
    ∃ dk st, repairFile demoEnv none false f = .ok (some (dk, st)) ∧ st.repairFailed = 0 ∧ dk.file = c := by
  obtain ⟨mp, c, h⟩ := demo_sound
  obtain ⟨hl, hd⟩ := demo_long h
  obtain ⟨dk, st, r⟩ := C79_cut_off demoEnv demo_laws demo_calm none .v17 demoOwner demoDpb _ mp c h (by decide)
    (.inr ⟨rfl, by decide, by decide, demo_ne⟩) (c.length - 6 * 512) (by show 512 ≤ _; omega)
    (by show _ ≤ _ + 2 * 3 * 512; omega) (.inl (by show _ % 512 = 0; omega))
  exact ⟨c, _, by rw [List.length_take]; omega, dk, st, r⟩

/-- The file ends with one byte of a block. -/
example : ∃ c f : File, f.length + 511 = c.length ∧
    ∃ dk st, repairFile demoEnv (some 3) false f = .ok (some (dk, st)) ∧ st.repairFailed = 0 ∧ dk.file = c := by
  obtain ⟨mp, c, h⟩ := demo_sound
  obtain ⟨hl, hd⟩ := demo_long h
  obtain ⟨dk, st, r⟩ := C79_cut_off demoEnv demo_laws demo_calm (some 3) .v17 demoOwner demoDpb _ mp c h (by decide)
    (.inl rfl) (c.length - 511) (by show 512 ≤ _; omega)
    (by show _ ≤ _ + 2 * 3 * 512; omega)
    (.inr (tiny_part (by omega) (by show 0 < _ % 512; omega) (by show _ % 512 ≤ 2; omega)))
  exact ⟨c, _, by rw [List.length_take]; omega, dk, st, r⟩

/-- The first block is overwritten with zeros and three blocks are missing at the end. -/
example : ∃ c f : File, f.length + 3 * 512 = c.length ∧ piece .v17 f 0 = List.replicate 512 0 ∧
    ∃ dk st, repairFile demoEnv (some 3) false f = .ok (some (dk, st)) ∧ st.repairFailed = 0 ∧ dk.file = c := by
  obtain ⟨mp, c, h⟩ := demo_sound
  obtain ⟨hl, hd⟩ := demo_long h
  obtain ⟨f, f0, f1, f2, f3⟩ := demo_damage0 h
  have hB : blockLen .v17 = 512 := rfl
  have hlen : (f.take (c.length - 3 * 512)).length = c.length - 3 * 512 := by rw [List.length_take]; omega
  have hin : ∀ k, k * 512 < c.length - 3 * 512 → piece .v17 (f.take (c.length - 3 * 512)) k = piece .v17 f k :=
    fun k hk => piece_take (v := .v17) (c := f) (n := c.length - 3 * 512) (k := k) (by
      rw [hB]
      exact whole_places hd hk)
  generalize List.take (c.length - 3 * 512) f = g at hlen hin ⊢
  have hdmg : ∀ k, k * blockLen .v17 < g.length → piece .v17 g k = piece .v17 c k ∨
      hit [(0, 2), (c.length / 512 - 3, 3)] k = true ∧ Broken .v17 (piece .v17 g k) := by
    intro k hk
    rw [hlen, hB] at hk
    rw [hin k hk]
    refine (f2 k).imp_right fun x => ⟨?_, x.2⟩
    have := x.1
    simp only [hit, List.any_cons, List.any_nil, Bool.or_false, Bool.or_eq_true] at this ⊢
    exact .inl this
  have hend : ∀ k, g.length ≤ k * blockLen .v17 → k * blockLen .v17 < c.length → hit [(0, 2), (c.length / 512 - 3, 3)] k = true := by
    intro k hk hk'
    rw [hlen, hB] at hk
    rw [hB] at hk'
    simp only [hit, List.any_cons, List.any_nil, Bool.or_false, Bool.or_eq_true, Bool.and_eq_true, decide_eq_true_eq]
    omega
  have hsize : ∀ b ∈ [(0, 2), (c.length / 512 - 3, 3)], b.2 ≤ demoDpb.burst := by
    intro b hb
    simp only [List.mem_cons, List.not_mem_nil, or_false] at hb
    rcases hb with rfl | rfl
    · decide
    · exact Nat.le_refl 3
  have hcount : ∀ s, (within demoDpb [(0, 2), (c.length / 512 - 3, 3)] s).length ≤ demoDpb.parity := few (Nat.le_refl 2)
  have hal : blockLen .v17 ∣ g.length := by rw [hlen, hB]; omega
  have hshort : g.length ≤ c.length := by omega
  have hb : KnowsLevel (some 3) demoDpb (List.replicate 1000 7) := .inl rfl
  obtain ⟨dk, st, r1, r2, -, -, r5⟩ := C79_bursts demoEnv demo_laws demo_calm (some 3) .v17 demoOwner demoDpb (List.replicate 1000 7) mp c
    g h (by decide) hb _ hal hshort hsize hcount hdmg hend
  refine ⟨c, g, by rw [hlen]; omega, by rw [hin 0 (by omega)]; exact f0, dk, st, r1, r2, r5 ?_⟩
  intro k hk hs
  by_cases hkc : k * 512 < c.length - 3 * 512
  · rw [hin k hkc]; exact f3 k hk hs
  · exact ⟨0, piece_beyond (by rw [hlen, hB]; omega)⟩

/-- The whole way with a file of 1000 bytes. -/
example : ∃ c f : File, f.length + 6 * 512 = c.length ∧ ∃ dk st out, repairFile demoEnv none false f = .ok (some (dk, st)) ∧
    Decode.toFile Decode.calmEnv Decode.plainParam dk.file [] = .ok (List.replicate 1000 7, out) ∧ out.computed = out.recorded := by
  obtain ⟨dk, rep, mp, henc, h⟩ := demo_sound'
  obtain ⟨hl, hd⟩ := demo_long h
  obtain ⟨h1, h2⟩ := Encode.demo_ok (v := .v17) (dpb := some ⟨10, 2, 3⟩) none rfl (by simp) (fun _ => false)
  obtain ⟨dk', st, out, r1, r2, -, r4⟩ := C79_roundtrip _ _ h2 h1 _ (by
    refine ⟨by decide +kernel, ?_⟩
    intro n t ht
    simp only [Option.some.injEq, Prod.mk.injEq] at ht
    rw [← ht.1]
    decide +kernel) dk rep (.inr ⟨rfl, rfl⟩) (fun _ => rfl) henc demoDpb rfl (by decide) rfl none
    (.inr ⟨rfl, by decide, by decide, demo_ne⟩) (dk.file.length - 6 * 512) (by show 512 ≤ _; omega)
    (by show _ ≤ _ + 2 * 3 * 512; omega) (.inl (by show _ % 512 = 0; omega))
    demoEnv demo_calm rfl Decode.calmEnv Decode.calm rfl Decode.plainParam Decode.plain_whole Decode.plain_ref (.inr ⟨rfl, by decide⟩) []
  exact ⟨dk.file, _, by rw [List.length_take]; omega, dk', st, out, r1, r2, r4⟩

end Verif.Repair
